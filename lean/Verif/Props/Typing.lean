import Verif.Props.Offered
import Verif.Props.Capabilities
/-
  C113: what completion has to offer, an editor asks for while the user is typing.
-/

namespace JinjaLsp
open Spec

/-- When an editor asks for completion by itself, after the character `x` was typed: `word` are the characters it takes for those of words, and the
server has announced the others (protocol: `CompletionOptions.triggerCharacters`, `CompletionTriggerKind`). -/
inductive Spec.AsksAfter (word : Char → Prop) (c : Capabilities) (x : Char) : TriggerKind → Prop where
  | typing : word x → AsksAfter word c x .invoked
  | trigger (l : List Str) : c.completion = some l → [x] ∈ l → AsksAfter word c x .triggerCharacter

/-- **C113** (when) The editor asks after characters of words, and after a minus sign, a quote, a blank, a percent sign and an opening brace. -/
theorem C113_asked (env : Env) (w : World) (s : Server) (cl : Option Str) (op : Option (Option JinjaConfig)) :
    ∃ s' c, s.handle env w (.initialize cl op) = .ok (s', [], .initializeResult c) ∧
      ∀ (word : Char → Prop) (x : Char), (∃ tr, AsksAfter word c x tr) ↔ word x ∨ x = '-' ∨ x = '"' ∨ x = ' ' ∨ x = '%' ∨ x = '{' := by
  refine ⟨_, _, rfl, fun word x => ⟨?_, ?_⟩⟩
  · rintro ⟨tr, h⟩
    cases h with
    | typing h => exact .inl h
    | trigger l hl hx =>
      cases hl
      right
      simpa using hx
  · rintro (h | h)
    · exact ⟨_, .typing h⟩
    · exact ⟨_, .trigger _ rfl (by simpa using h)⟩

/-- **C113** (answers) Whenever the editor asks by itself, the answer is what the user gets by asking. -/
theorem C113_answers (env : Env) (w : World) (s : Server) (word : Char → Prop) (c : Capabilities) (x : Char) (tr : TriggerKind) (uri : Str) (pos : Position)
    (h : AsksAfter word c x tr) : s.handle env w (.completion uri pos tr) = s.handle env w (.completion uri pos .invoked) := by
  have : s.files.completion env uri pos tr = s.files.completion env uri pos .invoked := by
    cases h with
    | typing _ => rfl
    | trigger _ _ _ => simp [LspFiles.completion]
  simp only [Server.handle, Server.onCompletion, this]

/-- **C113** (snippets) When the text is broken where the user types – there is an error at the cursor, and it is the first one –, the editor asks after
each of the characters of `{%` and `{{`, after a blank and after the characters of words, and is offered the snippets. -/
theorem C113_snippets (env : Env) (sx : Syntax) (w w₀ : World) (s₀ s₁ s : Server) (cl : Option Str) (op : Option (Option JinjaConfig))
    (c : Capabilities) (hi : s₀.handle env w₀ (.initialize cl op) = .ok (s₁, [], .initializeResult c)) (word : Char → Prop) (x : Char)
    (hword : word x ∨ x = '{' ∨ x = '%' ∨ x = ' ') (uri text : Str) (tree : Tree) (pos : Position) (hx : fileExt uri = some .template)
    (hd : s.files.documents.get? uri = some text) (ht : (s.files.trees .template).get? uri = some tree) (hl : Laid (sx.root tree text))
    (hn : Unnested (sx.root tree text)) (hpos : pos.character + 1 < 4294967296) (he : InFirstError (sx.root tree text) (toPoint pos)) :
    ∃ tr items, AsksAfter word c x tr ∧ s.handle (env.over sx) w (.completion uri pos tr) = .ok (s, [], .completion (some items)) ∧
      items.map (·.label) = snippetTable.map Prod.fst := by
  obtain ⟨s', c', h1, h2⟩ := C113_asked env w₀ s₀ cl op
  rw [hi] at h1
  cases h1
  obtain ⟨tr, htr⟩ := (h2 word x).mpr (by rcases hword with h | h | h | h <;> simp [h])
  have hq : Requested tr := by
    cases htr with
    | typing _ => exact .inl rfl
    | trigger _ _ _ => exact .inr rfl
  obtain ⟨items, h3, h4⟩ := (C86_snippets env sx w s uri text tree pos tr hq hx hd ht hl hn hpos).2 he
  exact ⟨tr, items, htr, h3, h4⟩

/-- **C113** (filters, refuted) Directly after a pipe all filters are offered, but an editor does not ask for them: a pipe is neither announced nor part
of a word. -/
theorem C113_filters_refuted (env : Env) (sx : Syntax) (w w₀ : World) (s₀ s₁ s : Server) (cl : Option Str) (op : Option (Option JinjaConfig))
    (c : Capabilities) (hi : s₀.handle env w₀ (.initialize cl op) = .ok (s₁, [], .initializeResult c)) (word : Char → Prop) (hword : ¬ word '|')
    (uri text : Str) (tree : Tree) (pos : Position) (hx : fileExt uri = some .template) (hd : s.files.documents.get? uri = some text)
    (ht : (s.files.trees .template).get? uri = some tree) (hr : Regular (sx.root tree text))
    (hb : Beside sx.digit (sx.root tree text) (toPoint pos)) (k : Syn) (hk : k ∈ (sx.root tree text).flat) (hp : IsPipe k) (hpos : k.stop = toPoint pos) :
    (∃ items, s.handle (env.over sx) w (.completion uri pos .invoked) = .ok (s, [], .completion (some items)) ∧
      items.map (·.label) = filterTable.map (·.1)) ∧ ∀ tr, ¬ AsksAfter word c '|' tr := by
  obtain ⟨items, h1, h2⟩ := C86_filters env sx w s uri text tree pos .invoked (.inl rfl) hx hd ht hr hb ⟨k, hk, hp, by
    rw [← hpos]; exact ⟨hr.laid.spans k hk, Point.le_refl _⟩⟩
  refine ⟨⟨items, h1, ?_⟩, fun tr h => ?_⟩
  · have := congrArg (List.map Prod.fst) h2
    rw [List.map_map, List.map_map] at this
    exact this
  · cases hi
    cases h with
    | typing h => exact hword h
    | trigger l hl hx =>
      cases hl
      simp at hx

/-- **C113** (templates, refuted) After any character of a template name that is neither part of a word nor announced – a slash, a dot – the templates
that match what precedes it are offered, but an editor does not ask for them. -/
theorem C113_templates_refuted (env : Env) (sx : Syntax) (w w₀ : World) (s₀ s₁ s : Server) (cl : Option Str) (op : Option (Option JinjaConfig))
    (c : Capabilities) (hini : s₀.handle env w₀ (.initialize cl op) = .ok (s₁, [], .initializeResult c)) (word : Char → Prop)
    (uri text : Str) (tree : Tree) (ss : List ImpStmt) (pos : Position) (hx : fileExt uri = some .template) (hd : s.files.documents.get? uri = some text)
    (ht : (s.files.trees .template).get? uri = some tree) (hr : Regular (sx.root tree text)) (hk : (sx.root tree text).kind = .other)
    (hi : Refs sx.options (sx.root tree text).children ss) (hss : ImpStmt.Wf ss) (hex : ExtrasAfter ss) (i : ImpStmt) (t : Tok) (his : i ∈ ss)
    (hti : t ∈ i.names) (q x : Char) (a b : Str) (hq : q = '"' ∨ q = '\'') (htext : t.text = q :: (a ++ x :: b) ++ [q])
    (hplain : ∀ c ∈ a ++ x :: b, c ≠ '"' ∧ c ≠ '\'') (hxs : x.utf8Size = 1) (hstop : t.stop = ⟨t.start.row, t.start.column + utf8Len t.text⟩)
    (hpos : toPoint pos = ⟨t.start.row, t.start.column + utf8Len (q :: (a ++ [x]))⟩)
    (hin : ∀ e ∈ (sx.root tree text).flat, ¬ Within (toPoint pos) e)
    (ho : ∀ n ∈ (sx.root tree text).flat, IsIs n → ¬ (n.stop ≤ toPoint pos ∧ pos.line = n.stop.row)) (dir root : Str)
    (hdir : dir = root ++ undotted s.files.config.templates) (hne : undotted s.files.config.templates ≠ [])
    (hall : ∀ u, Selected s.files (if a = [] then x :: b else a) u → (∃ rel, u = uriUnder dir rel) ∧
      OnlyAfter (undotted s.files.config.templates) (c!"file://" ++ root) u)
    (hword : ¬ word x) (hann : x ≠ '-' ∧ x ≠ ' ' ∧ x ≠ '%' ∧ x ≠ '{') :
    (∃ items, s.handle (env.over sx) w (.completion uri pos .invoked) = .ok (s, [], .completion (some items)) ∧
      ∀ rel, rel ∈ items.map (·.label) ↔ Known s.files (uriUnder dir rel) ∧ Typed (if a = [] then x :: b else a) (uriUnder dir rel)) ∧
    ∀ tr, ¬ AsksAfter word c x tr := by
  refine ⟨C86_templates env sx w s uri text tree ss pos .invoked (.inl rfl) hx hd ht hr hk hi hss hex i t his hti q x a b hq htext hplain hxs hstop hpos
    hin ho dir root hdir hne hall, fun tr h => ?_⟩
  have hx' := (hplain x (by simp)).1
  cases hini
  cases h with
  | typing h => exact hword h
  | trigger l hl hm =>
    cases hl
    simp [hx', hann] at hm

/-! ### Instances -/

/-- `{{ b | upper }}`, with the cursor after the pipe -/
def Fix.pipedRoot : Syn := .node .other none 900 ⟨0, 0⟩ ⟨0, 15⟩ (some [])
  [Fix.ex 7 0 0 15 [Fix.lf .identifier 21 0 3 4 c!"b", Fix.lf .operator 22 0 5 6 c!"|", Fix.lf .identifier 23 0 7 12 c!"upper"]]

example : Regular Fix.pipedRoot ∧ Beside Fix.digit Fix.pipedRoot (toPoint ⟨0, 6⟩) ∧ ∃ k ∈ Fix.pipedRoot.flat, IsPipe k ∧ k.stop = toPoint ⟨0, 6⟩ := by
  refine ⟨⟨⟨by decide, by decide, by decide⟩, ⟨by decide, by decide, by decide, by decide⟩, by unfold Legible; decide, by unfold HasError; decide,
    by decide, by decide, by decide⟩, ⟨by decide, ?_⟩, Fix.lf .operator 22 0 5 6 c!"|", by simp [Fix.pipedRoot, Syn.flat, Syn.flatAll, Fix.ex, Fix.lf],
    ⟨rfl, _, rfl, rfl⟩, rfl⟩
  intro n hn h
  replace h := h.kind
  revert h
  revert n
  unfold Touches
  decide

/-- a pipe is no character of a word; the other hypotheses are those of C86, where a dot can be the character before the cursor -/
example : ¬ (fun c : Char => c.isAlphanum = true ∨ c = '_') '|' ∧ ¬ (fun c : Char => c.isAlphanum = true ∨ c = '_') '.' ∧
    (∃ i ∈ Fix.refs, ∃ t ∈ i.names, t.text = '"' :: (c!"x" ++ '.' :: c!"html") ++ ['"'] ∧
      toPoint ⟨0, 14⟩ = ⟨t.start.row, t.start.column + utf8Len ('"' :: (c!"x" ++ ['.']))⟩) ∧
    (∀ e ∈ Fix.root.flat, ¬ Within (toPoint ⟨0, 14⟩) e) ∧ ∀ n ∈ Fix.root.flat, IsIs n → ¬ (n.stop ≤ toPoint ⟨0, 14⟩ ∧ 0 = n.stop.row) :=
  ⟨by decide, by decide, ⟨_, by simp [Fix.refs]; rfl, Fix.tok 0 11 19 c!"\"x.html\"" 12, by simp [ImpStmt.names], rfl, rfl⟩, by unfold Within; decide,
    by unfold IsIs; decide⟩

/-- after the percent sign of `{% fo` -/
example : InFirstError Fix.faultyRoot (toPoint ⟨1, 6⟩) ∧ AsksAfter (fun c => c.isAlphanum = true) announced '%' .triggerCharacter := by
  refine ⟨⟨_, _, rfl, by decide, by decide⟩, .trigger _ rfl (by decide)⟩

end JinjaLsp
