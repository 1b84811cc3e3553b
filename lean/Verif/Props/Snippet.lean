import Verif.Spec.Snippet
import Verif.Props.Complete
import Verif.Props.Imports
/-
  C93: accepting a snippet.
-/
namespace JinjaLsp
open Spec

/-! ## Expansion and statements -/

theorem expand_default (fill : Nat → Option Str) (n : Nat) (cs : Str) :
    ∀ d : Str, '}' ∉ d → expand fill (.default n) (d ++ '}' :: cs) = (if (fill n).isSome then [] else d) ++ expand fill .text cs
  | [], _ => by simp [expand]
  | c :: d, h => by
    have hc : c ≠ '}' := fun e => h (by simp [e])
    have ih := expand_default fill n cs d (fun e => h (by simp [e]))
    simp only [List.cons_append, expand, if_neg hc, ih]
    cases fill n <;> simp

theorem expand_hole (fill : Nat → Option Str) (k : Char) (d cs : Str) (h : '}' ∉ d) :
    expand fill .text ('$' :: '{' :: k :: ':' :: (d ++ '}' :: cs)) = (fill (digitOf k)).getD d ++ expand fill .text cs := by
  simp only [expand, if_true]
  rw [expand_default fill _ cs d h]
  cases fill (digitOf k) <;> simp

theorem expand_char (fill : Nat → Option Str) (c : Char) (cs : Str) (h : c ≠ '$') :
    expand fill .text (c :: cs) = c :: expand fill .text cs := by simp [expand, h]

theorem expand_short (fill : Nat → Option Str) (k : Char) (cs : Str) (h : k ≠ '{') :
    expand fill .text ('$' :: k :: cs) = (fill (digitOf k)).getD [] ++ expand fill .text cs := by simp [expand, h]

theorem statements_skip (rest : Str) : ∀ (x a : Str), (∀ c ∈ x, c ≠ '%') →
    statements (.inside a false) (x ++ rest) = statements (.inside (a ++ x) false) rest
  | [], a, _ => by simp
  | c :: x, a, h => by
    have hc : c ≠ '%' := h c (by simp)
    simp only [List.cons_append, statements, Bool.false_eq_true, false_and, if_false, decide_eq_false hc]
    rw [statements_skip rest x (a ++ [c]) (fun c hc => h c (by simp [hc]))]
    simp

theorem statements_one (b : Bool) (x rest : Str) (h : ∀ c ∈ x, c ≠ '%') :
    statements (.outside b) ('{' :: '%' :: (x ++ '%' :: '}' :: rest)) = (statements (.outside false) rest).map (x :: ·) := by
  have h1 : statements (.outside b) ('{' :: '%' :: (x ++ '%' :: '}' :: rest)) = statements (.inside [] false) (x ++ '%' :: '}' :: rest) := by
    simp [statements]
  rw [h1, statements_skip _ _ _ h]
  simp [statements]

/-- a text of one statement followed by a literal rest -/
theorem Spec.Complete.mk' {word x rest : Str} {ss : List Str} {t : Str} (ht : t = x ++ '%' :: '}' :: rest) (hx : ∀ c ∈ x, c ≠ '%')
    (hr : statements (.outside false) rest = some ss) (hn : Nested [] (x :: ss)) (hk : keyword x = word) :
    Complete word (c!"{%" ++ t) := by
  refine ⟨x, ss, ?_, hn, hk⟩
  rw [ht]
  show statements (.outside false) ('{' :: '%' :: (x ++ '%' :: '}' :: rest)) = _
  rw [statements_one _ _ _ hx, hr]
  rfl

theorem keyword_of (w x : Str) (hw : ∀ c ∈ w, c ≠ ' ') (hne : w ≠ []) : keyword (' ' :: (w ++ ' ' :: x)) = w := by
  unfold keyword
  cases w with
  | nil => exact absurd rfl hne
  | cons c w =>
    have hc : c ≠ ' ' := hw c (by simp)
    have hd : (' ' :: (c :: w ++ ' ' :: x)).dropWhile (fun c => decide (c = ' ')) = c :: w ++ ' ' :: x := by
      simp [List.dropWhile, hc]
    rw [hd, List.takeWhile_append_of_pos (by intro a ha; simp [hw a ha])]
    simp

/-- what is filled in at a place -/
theorem Spec.Innocuous.getD {fill : Nat → Option Str} (h : Innocuous fill) (n : Nat) {d : Str} (hd : ∀ c ∈ d, c ≠ '%' ∧ c ≠ '=') :
    ∀ c ∈ (fill n).getD d, c ≠ '%' ∧ c ≠ '=' := by
  intro c hc
  cases hx : fill n with
  | none => rw [hx] at hc; exact hd c hc
  | some x => rw [hx] at hc; exact h n x hx c hc

/-- every snippet, whatever is filled in, is a sequence of complete statements after `{%` -/
theorem snippets_complete (fill : Nat → Option Str) (hf : Innocuous fill) : ∀ e ∈ snippetTable, ∃ word digits,
    e.1 = word ++ digits ∧ (∀ c ∈ digits, c.isDigit = true) ∧ Complete word (c!"{%" ++ expand fill .text e.2.2) := by
  have d1 : digitOf '1' = 1 := rfl
  have d2 : digitOf '2' = 2 := rfl
  have d3 : digitOf '3' = 3 := rfl
  have g := fun n d hd => hf.getD n (d := d) hd
  have sk : ∀ a b : Str, (∀ c ∈ a, c ≠ '%' ∧ c ≠ '=') → (∀ c ∈ b, c ≠ '%' ∧ c ≠ '=') → ∀ c ∈ a ++ b, c ≠ '%' ∧ c ≠ '=' :=
    fun a b ha hb c hc => (List.mem_append.mp hc).elim (ha c) (hb c)
  intro e he
  simp only [snippetTable, List.mem_cons, List.not_mem_nil, or_false] at he
  rcases he with rfl | rfl | rfl | rfl | rfl | rfl | rfl | rfl | rfl | rfl | rfl
  · refine ⟨c!"for", c!"1", rfl, by decide, ?_⟩
    have hk : keyword (c!" for " ++ ((fill 1).getD c!"i" ++ (c!" in " ++ ((fill 2).getD c!"items" ++ c!" ")))) = c!"for" :=
      keyword_of c!"for" _ (by decide) (by decide)
    refine Complete.mk' (x := c!" for " ++ ((fill 1).getD c!"i" ++ (c!" in " ++ ((fill 2).getD c!"items" ++ c!" ")))) (rest := c!"\n{% endfor %}\n") (ss := [c!" endfor "]) ?_ ?_ rfl ?_ hk
    · cases h1 : fill 1 <;> cases h2 : fill 2 <;> simp [expand, h1, h2, d1, d2]
    · exact fun c hc => ((sk _ _ (by decide) (sk _ _ (g 1 c!"i" (by decide)) (sk _ _ (by decide) (sk _ _ (g 2 c!"items" (by decide)) ((by decide)))))) c hc).1
    · exact .open (Or.inl (by rw [hk]; decide)) (by rw [hk]; exact .close (k := c!"for") (by decide) .done)
  · refine ⟨c!"for", c!"2", rfl, by decide, ?_⟩
    have hk : keyword (c!" for (" ++ ((fill 1).getD c!"key" ++ (c!", " ++ ((fill 2).getD c!"value" ++ (c!") in " ++ ((fill 3).getD c!"items" ++ c!" ")))))) = c!"for" :=
      keyword_of c!"for" _ (by decide) (by decide)
    refine Complete.mk' (x := c!" for (" ++ ((fill 1).getD c!"key" ++ (c!", " ++ ((fill 2).getD c!"value" ++ (c!") in " ++ ((fill 3).getD c!"items" ++ c!" ")))))) (rest := c!"\n{% endfor %}\n") (ss := [c!" endfor "]) ?_ ?_ rfl ?_ hk
    · cases h1 : fill 1 <;> cases h2 : fill 2 <;> cases h3 : fill 3 <;> simp [expand, h1, h2, h3, d1, d2, d3]
    · exact fun c hc => ((sk _ _ (by decide) (sk _ _ (g 1 c!"key" (by decide)) (sk _ _ (by decide) (sk _ _ (g 2 c!"value" (by decide)) (sk _ _ (by decide) (sk _ _ (g 3 c!"items" (by decide)) ((by decide)))))))) c hc).1
    · exact .open (Or.inl (by rw [hk]; decide)) (by rw [hk]; exact .close (k := c!"for") (by decide) .done)
  · refine ⟨c!"with", [], rfl, by decide, ?_⟩
    have hk : keyword (c!" with " ++ ((fill 1).getD [] ++ c!" ")) = c!"with" :=
      keyword_of c!"with" _ (by decide) (by decide)
    refine Complete.mk' (x := c!" with " ++ ((fill 1).getD [] ++ c!" ")) (rest := c!"\n{% endwith %}\n") (ss := [c!" endwith "]) ?_ ?_ rfl ?_ hk
    · cases h1 : fill 1 <;> simp [expand, h1, d1]
    · exact fun c hc => ((sk _ _ (by decide) (sk _ _ (g 1 [] (by decide)) ((by decide)))) c hc).1
    · exact .open (Or.inl (by rw [hk]; decide)) (by rw [hk]; exact .close (k := c!"with") (by decide) .done)
  · refine ⟨c!"set", c!"1", rfl, by decide, ?_⟩
    have hk : keyword (c!" set " ++ ((fill 1).getD c!"key" ++ (c!" = " ++ ((fill 2).getD c!"value" ++ c!" ")))) = c!"set" :=
      keyword_of c!"set" _ (by decide) (by decide)
    refine Complete.mk' (x := c!" set " ++ ((fill 1).getD c!"key" ++ (c!" = " ++ ((fill 2).getD c!"value" ++ c!" ")))) (rest := c!"\n            ") (ss := []) ?_ ?_ rfl ?_ hk
    · cases h1 : fill 1 <;> cases h2 : fill 2 <;> simp [expand, h1, h2, d1, d2]
    · have k1 := g 1 c!"key" (by decide)
      have k2 := g 2 c!"value" (by decide)
      intro c hc
      simp only [List.mem_append] at hc
      rcases hc with hc | hc | hc | hc | hc
      · revert c; decide
      · exact (k1 c hc).1
      · revert c; decide
      · exact (k2 c hc).1
      · revert c; decide
    · refine Nested.plain ?_ (by rw [hk]; decide) (by rw [hk]; decide) .done
      rintro (h | ⟨_, h⟩)
      · rw [hk] at h; revert h; decide
      · exact h (by simp)
  · refine ⟨c!"set", c!"2", rfl, by decide, ?_⟩
    have hk : keyword (c!" set " ++ ((fill 1).getD c!"data" ++ c!" ")) = c!"set" :=
      keyword_of c!"set" _ (by decide) (by decide)
    refine Complete.mk' (x := c!" set " ++ ((fill 1).getD c!"data" ++ c!" ")) (rest := c!"\n{% endset %}\n\n") (ss := [c!" endset "]) ?_ ?_ rfl ?_ hk
    · cases h1 : fill 1 <;> simp [expand, h1, d1]
    · exact fun c hc => ((sk _ _ (by decide) (sk _ _ (g 1 c!"data" (by decide)) ((by decide)))) c hc).1
    · exact .open (Or.inr ⟨hk, fun h => ((sk _ _ (by decide) (sk _ _ (g 1 c!"data" (by decide)) ((by decide)))) _ h).2 rfl⟩) (by rw [hk]; exact .close (k := c!"set") (by decide) .done)
  · refine ⟨c!"include", [], rfl, by decide, ?_⟩
    have hk : keyword (c!" include \"" ++ ((fill 1).getD [] ++ c!"\" ")) = c!"include" :=
      keyword_of c!"include" _ (by decide) (by decide)
    refine Complete.mk' (x := c!" include \"" ++ ((fill 1).getD [] ++ c!"\" ")) (rest := c!"\n            ") (ss := []) ?_ ?_ rfl ?_ hk
    · cases h1 : fill 1 <;> simp [expand, h1, d1]
    · exact fun c hc => ((sk _ _ (by decide) (sk _ _ (g 1 [] (by decide)) ((by decide)))) c hc).1
    · refine Nested.plain ?_ (by rw [hk]; decide) (by rw [hk]; decide) .done
      rintro (h | ⟨h, _⟩)
      · rw [hk] at h; revert h; decide
      · rw [hk] at h; revert h; decide
  · refine ⟨c!"from", [], rfl, by decide, ?_⟩
    have hk : keyword (c!" from \"" ++ ((fill 1).getD [] ++ (c!"\" import " ++ ((fill 2).getD c!"module" ++ c!" ")))) = c!"from" :=
      keyword_of c!"from" _ (by decide) (by decide)
    refine Complete.mk' (x := c!" from \"" ++ ((fill 1).getD [] ++ (c!"\" import " ++ ((fill 2).getD c!"module" ++ c!" ")))) (rest := c!"\n            ") (ss := []) ?_ ?_ rfl ?_ hk
    · cases h1 : fill 1 <;> cases h2 : fill 2 <;> simp [expand, h1, h2, d1, d2]
    · exact fun c hc => ((sk _ _ (by decide) (sk _ _ (g 1 [] (by decide)) (sk _ _ (by decide) (sk _ _ (g 2 c!"module" (by decide)) ((by decide)))))) c hc).1
    · refine Nested.plain ?_ (by rw [hk]; decide) (by rw [hk]; decide) .done
      rintro (h | ⟨h, _⟩)
      · rw [hk] at h; revert h; decide
      · rw [hk] at h; revert h; decide
  · refine ⟨c!"import", [], rfl, by decide, ?_⟩
    have hk : keyword (c!" import \"" ++ ((fill 1).getD [] ++ (c!"\" as " ++ ((fill 2).getD c!"module" ++ c!" ")))) = c!"import" :=
      keyword_of c!"import" _ (by decide) (by decide)
    refine Complete.mk' (x := c!" import \"" ++ ((fill 1).getD [] ++ (c!"\" as " ++ ((fill 2).getD c!"module" ++ c!" ")))) (rest := c!"\n            ") (ss := []) ?_ ?_ rfl ?_ hk
    · cases h1 : fill 1 <;> cases h2 : fill 2 <;> simp [expand, h1, h2, d1, d2]
    · exact fun c hc => ((sk _ _ (by decide) (sk _ _ (g 1 [] (by decide)) (sk _ _ (by decide) (sk _ _ (g 2 c!"module" (by decide)) ((by decide)))))) c hc).1
    · refine Nested.plain ?_ (by rw [hk]; decide) (by rw [hk]; decide) .done
      rintro (h | ⟨h, _⟩)
      · rw [hk] at h; revert h; decide
      · rw [hk] at h; revert h; decide
  · refine ⟨c!"extends", [], rfl, by decide, ?_⟩
    have hk : keyword (c!" extends \"" ++ ((fill 1).getD [] ++ c!"\" ")) = c!"extends" :=
      keyword_of c!"extends" _ (by decide) (by decide)
    refine Complete.mk' (x := c!" extends \"" ++ ((fill 1).getD [] ++ c!"\" ")) (rest := c!"\n            ") (ss := []) ?_ ?_ rfl ?_ hk
    · cases h1 : fill 1 <;> simp [expand, h1, d1]
    · exact fun c hc => ((sk _ _ (by decide) (sk _ _ (g 1 [] (by decide)) ((by decide)))) c hc).1
    · refine Nested.plain ?_ (by rw [hk]; decide) (by rw [hk]; decide) .done
      rintro (h | ⟨h, _⟩)
      · rw [hk] at h; revert h; decide
      · rw [hk] at h; revert h; decide
  · refine ⟨c!"if", c!"1", rfl, by decide, ?_⟩
    have hk : keyword (c!" if " ++ ((fill 1).getD [] ++ c!" ")) = c!"if" :=
      keyword_of c!"if" _ (by decide) (by decide)
    refine Complete.mk' (x := c!" if " ++ ((fill 1).getD [] ++ c!" ")) (rest := c!"\n{% endif %}\n") (ss := [c!" endif "]) ?_ ?_ rfl ?_ hk
    · cases h1 : fill 1 <;> simp [expand, h1, d1]
    · exact fun c hc => ((sk _ _ (by decide) (sk _ _ (g 1 [] (by decide)) ((by decide)))) c hc).1
    · exact .open (Or.inl (by rw [hk]; decide)) (by rw [hk]; exact .close (k := c!"if") (by decide) .done)
  · refine ⟨c!"if", c!"2", rfl, by decide, ?_⟩
    have hk : keyword (c!" if " ++ ((fill 1).getD [] ++ c!" ")) = c!"if" := keyword_of c!"if" _ (by decide) (by decide)
    have hk2 : keyword (c!" elif " ++ ((fill 2).getD [] ++ c!" ")) = c!"elif" := keyword_of c!"elif" _ (by decide) (by decide)
    refine Complete.mk' (x := c!" if " ++ ((fill 1).getD [] ++ c!" "))
      (rest := '\n' :: '{' :: '%' :: ((c!" elif " ++ ((fill 2).getD [] ++ c!" ")) ++ '%' :: '}' :: c!"\n{% endif %}\n"))
      (ss := [c!" elif " ++ ((fill 2).getD [] ++ c!" "), c!" endif "]) ?_ ?_ ?_ ?_ hk
    · cases h1 : fill 1 <;> cases h2 : fill 2 <;> simp [expand, h1, h2, d1, d2]
    · exact fun c hc => ((sk _ _ (by decide) (sk _ _ (g 1 [] (by decide)) (by decide))) c hc).1
    · have h := statements_one false (c!" elif " ++ ((fill 2).getD [] ++ c!" ")) c!"\n{% endif %}\n"
        (fun c hc => ((sk _ _ (by decide) (sk _ _ (g 2 [] (by decide)) (by decide))) c hc).1)
      simp only [statements, Bool.false_eq_true, false_and, if_false] at h ⊢
      exact h
    · refine .open (Or.inl (by rw [hk]; decide)) ?_
      rw [hk]
      exact .branch hk2 (.close (k := c!"if") (by decide) .done)


/-! ## The edit -/

theorem columnChars_units : ∀ (line post : Str) (k : Nat), (∀ c ∈ line, c ≠ '\n' ∧ c ≠ '\r') →
    columnChars (line ++ post) (units line + k) = line.length + columnChars post k
  | [], post, k, _ => by simp [units]
  | c :: line, post, k, h => by
    have hc := h c (by simp)
    have ih := columnChars_units line post k (fun x hx => h x (by simp [hx]))
    obtain ⟨m, hm⟩ : ∃ m, utf16Len c = m + 1 := by unfold utf16Len; split <;> exact ⟨_, rfl⟩
    have he : units (c :: line) + k = (m + (units line + k)) + 1 := by simp only [units, hm]; omega
    rw [he]
    simp only [List.cons_append, columnChars, hc.1, hc.2, or_self, if_false, hm]
    rw [if_pos (by omega), show m + (units line + k) + 1 - (m + 1) = units line + k by omega, ih]
    simp only [List.length_cons]; omega

theorem columnChars_one (post : Str) : post.drop (columnChars post 1) = withoutUnit post := by
  cases post with
  | nil => rfl
  | cons c r =>
    simp only [columnChars, withoutUnit]
    have h2 : utf16Len c = 1 ∨ utf16Len c = 2 := by unfold utf16Len; split <;> simp
    by_cases h : c = '\n' ∨ c = '\r'
    · rw [if_pos h, if_pos (by rcases h with h | h <;> simp [h])]; rfl
    · rw [if_neg h]
      rcases h2 with h2 | h2
      · rw [if_pos (by omega), if_neg (by rintro (e | e | e); exact h (Or.inl e); exact h (Or.inr e); omega), h2]
        cases r <;> rfl
      · rw [if_neg (by omega), if_pos (Or.inr (Or.inr h2))]; rfl

/-- an edit that replaces one column at the cursor -/
theorem Spec.Stands.applied {text pre post : Str} {pos : Position} (h : Stands text pos pre post) (n : Str) :
    applyEdit text ⟨pos, ⟨pos.line, pos.character + 1⟩⟩ n = some (pre ++ n ++ withoutUnit post) := by
  obtain ⟨rfl, above, line, rfl, hl, hb, hu⟩ := h
  have hd : (above ++ line ++ post).drop above.length = line ++ post := by simp
  have h0 : offset (above ++ line ++ post) pos = some (above ++ line).length := by
    have := columnChars_units line post 0 hb
    rw [Nat.add_zero, hu] at this
    simp only [offset, hl, Option.map_some, hd, this]
    cases post <;> simp [columnChars]
  have h1 : offset (above ++ line ++ post) ⟨pos.line, pos.character + 1⟩ = some ((above ++ line).length + columnChars post 1) := by
    have := columnChars_units line post 1 hb
    rw [hu] at this
    simp only [offset, hl, Option.map_some, hd, this, List.length_append, Nat.add_assoc]
  unfold applyEdit
  rw [h0, h1]
  simp only [Nat.le_add_right, if_true]
  rw [List.take_left, ← List.drop_drop, List.drop_left, columnChars_one]

/-! ## C93 -/

/-- what an accepted item puts in: the text of its edit, or its label if it has none; a snippet only if it is declared as one -/
def Spec.putIn (fill : Nat → Option Str) (i : CompletionItem) : Str :=
  let t := match i.textEdit with
    | some (.insertReplace n _ _) => n
    | some (.edit e) => e.newText
    | none => i.label
  if i.format = some .snippet then expand fill .text t else t

/-- the items offered in a broken statement -/
theorem snippet_reply (env : Env) (w : World) (s : Server) (uri : Str) (tree : Tree) (text : Str) (pos : Position) (tr : TriggerKind)
    (hext : fileExt uri = some .template) (hd : s.files.documents.get? uri = some text)
    (ht : (s.files.trees .template).get? uri = some tree) (htr : tr = .invoked ∨ tr = .triggerCharacter)
    (hl : pos.line < 4294967296) (hpos : pos.character + 1 < 4294967296)
    (hb : Broken (env.queryMatches .jinjaSnippets tree text).flatten (toPoint pos)) :
    s.handle env w (.completion uri pos tr) =
      .ok (s, [], .completion (some (snippetTable.map (snippetItem s.files.isVscode ⟨pos, ⟨pos.line, pos.character + 1⟩⟩)))) := by
  have hp : toPosition2 (toPoint pos) = pos := by
    show (⟨pos.line % 4294967296, pos.character % 4294967296⟩ : Position) = pos
    rw [Nat.mod_eq_of_lt hl, Nat.mod_eq_of_lt (by omega)]
  have hadd : uadd32 env.profile pos.character 1 = .ok (pos.character + 1) := by simp [uadd32, hpos]
  have htc := snippets_broken env tree text (toPoint pos) hb
  have hc : s.files.completion env uri pos tr = .ok (some (.snippets ⟨pos, ⟨pos.line, pos.character + 1⟩⟩, false)) := by
    rcases htr with rfl | rfl <;> simp [LspFiles.completion, hext, ht, hd, htc, hp, hadd]
  simp only [Server.handle, Server.onCompletion, hc, completionItems]

/-- **C93** (which texts, editors other than VS Code) The statements offered are `for`, `with`, `set`, `include`, `from`, `import`,
`extends` and `if`.  The text of each item, put after `{%`, is a sequence of complete statements with all blocks closed that begins with the
statement in its label, whatever is filled in at its places (if the editor takes the text for a snippet). -/
theorem C93_statements (env : Env) (w : World) (s : Server) (uri : Str) (tree : Tree) (text : Str) (pos : Position) (tr : TriggerKind)
    (hext : fileExt uri = some .template) (hd : s.files.documents.get? uri = some text)
    (ht : (s.files.trees .template).get? uri = some tree) (htr : tr = .invoked ∨ tr = .triggerCharacter)
    (hl : pos.line < 4294967296) (hpos : pos.character + 1 < 4294967296)
    (hb : Broken (env.queryMatches .jinjaSnippets tree text).flatten (toPoint pos)) (hv : s.files.isVscode = false) :
    ∃ items, s.handle env w (.completion uri pos tr) = .ok (s, [], .completion (some items)) ∧
      (∀ word ∈ [c!"for", c!"with", c!"set", c!"include", c!"from", c!"import", c!"extends", c!"if"],
        ∃ i ∈ items, ∃ digits, i.label = word ++ digits ∧ ∀ c ∈ digits, c.isDigit = true) ∧
      ∀ i ∈ items, i.kind = some .snippet ∧ ∀ fill, Innocuous fill → ∃ word digits, i.label = word ++ digits ∧
        (∀ c ∈ digits, c.isDigit = true) ∧ Complete word (c!"{%" ++ putIn fill { i with format := some .snippet }) := by
  refine ⟨_, snippet_reply env w s uri tree text pos tr hext hd ht htr hl hpos hb, ?_, ?_⟩
  · intro word hw
    have key : ∃ e ∈ snippetTable, ∃ digits, e.1 = word ++ digits ∧ ∀ c ∈ digits, c.isDigit = true := by
      simp only [List.mem_cons, List.not_mem_nil, or_false] at hw
      rcases hw with rfl | rfl | rfl | rfl | rfl | rfl | rfl | rfl
      · exact ⟨snippetTable[0], List.getElem_mem _, c!"1", rfl, by decide⟩
      · exact ⟨snippetTable[2], List.getElem_mem _, [], rfl, by decide⟩
      · exact ⟨snippetTable[3], List.getElem_mem _, c!"1", rfl, by decide⟩
      · exact ⟨snippetTable[5], List.getElem_mem _, [], rfl, by decide⟩
      · exact ⟨snippetTable[6], List.getElem_mem _, [], rfl, by decide⟩
      · exact ⟨snippetTable[7], List.getElem_mem _, [], rfl, by decide⟩
      · exact ⟨snippetTable[8], List.getElem_mem _, [], rfl, by decide⟩
      · exact ⟨snippetTable[9], List.getElem_mem _, c!"1", rfl, by decide⟩
    obtain ⟨e, he, digits, h1, h2⟩ := key
    exact ⟨_, List.mem_map_of_mem he, digits, h1, h2⟩
  · intro i hi
    obtain ⟨e, he, rfl⟩ := List.mem_map.mp hi
    refine ⟨rfl, fun fill hf => ?_⟩
    obtain ⟨word, digits, h1, h2, h3⟩ := snippets_complete fill hf e he
    refine ⟨word, digits, h1, h2, ?_⟩
    rw [hv]
    exact h3

/-- **C93** (part: editors other than VS Code, nothing behind the cursor on its line) Accepting an item puts its text in at the cursor and
changes nothing else. -/
theorem C93_inserted_partial (env : Env) (w : World) (s : Server) (uri : Str) (tree : Tree) (text pre post : Str) (pos : Position)
    (tr : TriggerKind) (hext : fileExt uri = some .template) (hd : s.files.documents.get? uri = some text)
    (ht : (s.files.trees .template).get? uri = some tree) (htr : tr = .invoked ∨ tr = .triggerCharacter)
    (hl : pos.line < 4294967296) (hpos : pos.character + 1 < 4294967296)
    (hb : Broken (env.queryMatches .jinjaSnippets tree text).flatten (toPoint pos)) (hv : s.files.isVscode = false)
    (hs : Stands text pos pre post) (hend : post = [] ∨ post.head? = some '\n' ∨ post.head? = some '\r') :
    ∃ items, s.handle env w (.completion uri pos tr) = .ok (s, [], .completion (some items)) ∧
      ∀ i ∈ items, ∀ m fill, accepted m text i = some (pre ++ putIn fill i ++ post) := by
  refine ⟨_, snippet_reply env w s uri tree text pos tr hext hd ht htr hl hpos hb, ?_⟩
  intro i hi m fill
  obtain ⟨e, he, rfl⟩ := List.mem_map.mp hi
  have hw : withoutUnit post = post := by
    cases post with
    | nil => rfl
    | cons c r =>
      rcases hend with h | h | h
      · cases h
      · simp at h; simp [withoutUnit, h]
      · simp at h; simp [withoutUnit, h]
  have := hs.applied e.2.2
  rw [hw] at this
  rw [hv]
  cases m <;> exact this

/-- **C93 is false before other text**.  Accepting an item also deletes the character behind the cursor. -/
theorem C93_next_character_refuted (env : Env) (w : World) (s : Server) (uri : Str) (tree : Tree) (text pre post : Str) (x : Char)
    (pos : Position) (tr : TriggerKind) (hext : fileExt uri = some .template) (hd : s.files.documents.get? uri = some text)
    (ht : (s.files.trees .template).get? uri = some tree) (htr : tr = .invoked ∨ tr = .triggerCharacter)
    (hl : pos.line < 4294967296) (hpos : pos.character + 1 < 4294967296)
    (hb : Broken (env.queryMatches .jinjaSnippets tree text).flatten (toPoint pos)) (hv : s.files.isVscode = false)
    (hs : Stands text pos pre (x :: post)) (hx : x ≠ '\n' ∧ x ≠ '\r') (hu : utf16Len x = 1) :
    ∃ items, s.handle env w (.completion uri pos tr) = .ok (s, [], .completion (some items)) ∧ items ≠ [] ∧
      ∀ i ∈ items, ∀ m fill, accepted m text i = some (pre ++ putIn fill i ++ post) ∧
        accepted m text i ≠ some (pre ++ putIn fill i ++ x :: post) := by
  refine ⟨_, snippet_reply env w s uri tree text pos tr hext hd ht htr hl hpos hb, by simp [snippetTable], ?_⟩
  intro i hi m fill
  obtain ⟨e, he, rfl⟩ := List.mem_map.mp hi
  have hw : withoutUnit (x :: post) = post := by
    simp only [withoutUnit, hx.1, hx.2, hu, false_or]
    rw [if_neg (by omega)]
  have := hs.applied e.2.2
  rw [hw] at this
  have key : accepted m text (snippetItem s.files.isVscode ⟨pos, ⟨pos.line, pos.character + 1⟩⟩ e) =
      some (pre ++ putIn fill (snippetItem s.files.isVscode ⟨pos, ⟨pos.line, pos.character + 1⟩⟩ e) ++ post) := by
    rw [hv]
    cases m <;> exact this
  refine ⟨key, ?_⟩
  rw [key]
  intro h
  injection h with h
  have := congrArg List.length h
  simp at this

/-- **C93 is false about the places to fill in**.  No item is declared as a snippet, so what is put in contains the marks of the places. -/
theorem C93_literal_refuted (env : Env) (w : World) (s : Server) (uri : Str) (tree : Tree) (text : Str) (pos : Position)
    (tr : TriggerKind) (hext : fileExt uri = some .template) (hd : s.files.documents.get? uri = some text)
    (ht : (s.files.trees .template).get? uri = some tree) (htr : tr = .invoked ∨ tr = .triggerCharacter)
    (hl : pos.line < 4294967296) (hpos : pos.character + 1 < 4294967296)
    (hb : Broken (env.queryMatches .jinjaSnippets tree text).flatten (toPoint pos)) (hv : s.files.isVscode = false) :
    ∃ items, s.handle env w (.completion uri pos tr) = .ok (s, [], .completion (some items)) ∧ items ≠ [] ∧
      ∀ i ∈ items, ∀ fill, c!"$1" <:+: putIn fill i ∨ c!"${1:" <:+: putIn fill i := by
  refine ⟨_, snippet_reply env w s uri tree text pos tr hext hd ht htr hl hpos hb, by simp [snippetTable], ?_⟩
  intro i hi fill
  obtain ⟨e, he, rfl⟩ := List.mem_map.mp hi
  rw [hv]
  show c!"$1" <:+: e.2.2 ∨ c!"${1:" <:+: e.2.2
  clear hi
  revert e
  decide

/-- **C93 is false in VS Code**.  The items have no text there: accepting one puts in its label, which closes no statement. -/
theorem C93_vscode_refuted (env : Env) (w : World) (s : Server) (uri : Str) (tree : Tree) (text : Str) (pos : Position)
    (tr : TriggerKind) (hext : fileExt uri = some .template) (hd : s.files.documents.get? uri = some text)
    (ht : (s.files.trees .template).get? uri = some tree) (htr : tr = .invoked ∨ tr = .triggerCharacter)
    (hl : pos.line < 4294967296) (hpos : pos.character + 1 < 4294967296)
    (hb : Broken (env.queryMatches .jinjaSnippets tree text).flatten (toPoint pos)) (hv : s.files.isVscode = true) :
    ∃ items, s.handle env w (.completion uri pos tr) = .ok (s, [], .completion (some items)) ∧ items ≠ [] ∧
      ∀ i ∈ items, ∀ fill word, putIn fill i = i.label ∧ ¬ Complete word (c!"{%" ++ putIn fill i) := by
  refine ⟨_, snippet_reply env w s uri tree text pos tr hext hd ht htr hl hpos hb, by simp [snippetTable], ?_⟩
  intro i hi fill word
  obtain ⟨e, he, rfl⟩ := List.mem_map.mp hi
  rw [hv]
  refine ⟨rfl, ?_⟩
  show ¬ Complete word (c!"{%" ++ e.1)
  have hn : statements (.outside false) (c!"{%" ++ e.1) = none := by clear hi; revert e; decide
  rintro ⟨s, ss, h, _⟩
  rw [hn] at h
  cases h


namespace Fix

/-- the second line of `a` / `{%` is an error -/
def snippetEnv : Env := envWith .jinjaSnippets [(tok 1 0 2 c!"{%" 1).cap .errorBlock]

/-- the server after `text` was opened -/
def snippetServer (text : Str) (vscode : Bool) : Server := enterServer text vscode

theorem snippet_here (text : Str) : Broken (snippetEnv.queryMatches .jinjaSnippets (.parsed .jinja text none) text).flatten (toPoint ⟨1, 2⟩) := by
  refine ⟨[], (tok 1 0 2 c!"{%" 1).cap .errorBlock, [], ?_, by decide, by simp, by decide⟩
  simp [snippetEnv, envWith]

/-- somebody types over the name of the loop variable of `for1` -/
def fillOne : Nat → Option Str := fun n => if n = 1 then some c!"row" else none

theorem fillOne_innocuous : Innocuous fillOne := by
  intro n x h
  simp only [fillOne] at h
  split at h
  · injection h with h; subst h; decide
  · cases h

end Fix

/-- the hypotheses hold: below, `{% for1` gives a closed loop over `row` … -/
example : ∃ items, (Fix.snippetServer c!"a\n{%" false).handle Fix.snippetEnv Fix.world (.completion Fix.uriA ⟨1, 2⟩ .invoked) =
      .ok (Fix.snippetServer c!"a\n{%" false, [], .completion (some items)) ∧
    ∀ i ∈ items, ∃ word digits, i.label = word ++ digits ∧ (∀ c ∈ digits, c.isDigit = true) ∧
      Complete word (c!"{%" ++ putIn Fix.fillOne { i with format := some .snippet }) := by
  obtain ⟨items, h, _, h2⟩ := C93_statements Fix.snippetEnv Fix.world (Fix.snippetServer c!"a\n{%" false) Fix.uriA _ _ ⟨1, 2⟩ .invoked
    (by decide) rfl rfl (Or.inl rfl) (by decide) (by decide) (Fix.snippet_here _) rfl
  exact ⟨items, h, fun i hi => (h2 i hi).2 _ Fix.fillOne_innocuous⟩

example : expand Fix.fillOne .text c!" for ${1:i} in ${2:items} %}\n{% endfor %}\n" = c!" for row in items %}\n{% endfor %}\n" := by decide

/-- … the cursor stands at the end of the text, … -/
example : Stands c!"a\n{%" ⟨1, 2⟩ c!"a\n{%" [] := ⟨rfl, c!"a\n", c!"{%", rfl, rfl, by decide, rfl⟩

/-- … and not at the end of its line in `{% x`, where the blank is deleted. -/
example : Stands c!"a\n{% x" ⟨1, 2⟩ c!"a\n{%" (' ' :: c!"x") ∧ utf16Len ' ' = 1 ∧
    ∃ items, (Fix.snippetServer c!"a\n{% x" false).handle Fix.snippetEnv Fix.world (.completion Fix.uriA ⟨1, 2⟩ .invoked) =
      .ok (Fix.snippetServer c!"a\n{% x" false, [], .completion (some items)) ∧
      ∃ i ∈ items, accepted true c!"a\n{% x" i = some c!"a\n{% include \"$1\" %}\n            x" := by
  have hs : Stands c!"a\n{% x" ⟨1, 2⟩ c!"a\n{%" (' ' :: c!"x") := ⟨rfl, c!"a\n", c!"{%", rfl, rfl, by decide, rfl⟩
  refine ⟨hs, rfl, ?_⟩
  refine ⟨_, snippet_reply Fix.snippetEnv Fix.world (Fix.snippetServer c!"a\n{% x" false) Fix.uriA _ _ ⟨1, 2⟩ .invoked
    (by decide) rfl rfl (Or.inl rfl) (by decide) (by decide) (Fix.snippet_here _), ?_⟩
  exact ⟨_, List.mem_map_of_mem (List.getElem_mem (n := 5) (by decide)), by decide⟩

/-- in VS Code the items are there, too -/
example : ∃ items, (Fix.snippetServer c!"a\n{%" true).handle Fix.snippetEnv Fix.world (.completion Fix.uriA ⟨1, 2⟩ .invoked) =
      .ok (Fix.snippetServer c!"a\n{%" true, [], .completion (some items)) ∧ items ≠ [] := by
  obtain ⟨items, h, h2, _⟩ := C93_vscode_refuted Fix.snippetEnv Fix.world (Fix.snippetServer c!"a\n{%" true) Fix.uriA _ _ ⟨1, 2⟩ .invoked
    (by decide) rfl rfl (Or.inl rfl) (by decide) (by decide) (Fix.snippet_here _) rfl
  exact ⟨items, h, h2⟩

end JinjaLsp
