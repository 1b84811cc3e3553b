import Verif.Lemmas.Split
import Verif.Props.Complete
/-
  C41, C42: completion of template names.
-/

namespace JinjaLsp
open Spec

/-! ## The loop of `read_templates` -/

theorem templateItems_all {f : LspFiles} {r : Range} {p : Position} : ∀ (l : List Str), (∀ t ∈ l, f.templateItem r p t ≠ none) →
    f.templateItems r p l = some (l.filterMap (f.templateItem r p))
  | [], _ => rfl
  | t :: l, h => by
    cases ht : f.templateItem r p t with
    | none => exact absurd ht (h t (by simp))
    | some i =>
      simp only [LspFiles.templateItems, ht, templateItems_all l (fun t ht => h t (by simp [ht])), List.filterMap_cons]

theorem templateItems_none {f : LspFiles} {r : Range} {p : Position} : ∀ (l : List Str) (t : Str), t ∈ l → f.templateItem r p t = none →
    f.templateItems r p l = none
  | [], _, h, _ => by cases h
  | x :: l, t, h, hn => by
    simp only [LspFiles.templateItems]
    rcases List.mem_cons.mp h with rfl | h
    · rw [hn]
    · rw [templateItems_none l t h hn]
      split <;> simp_all

/-! ## The specification -/

/-- the workspace knows the template -/
def Spec.Known (f : LspFiles) (uri : Str) : Prop := ∃ tree, (f.trees .template).get? uri = some tree

/-- the URI of a file under a directory -/
def Spec.uriUnder (dir rel : Str) : Str := c!"file://" ++ dir ++ '/' :: rel

/-- what was typed occurs in the URI -/
def Spec.Typed (typed uri : Str) : Prop := ∃ a b, uri = a ++ typed ++ b

/-- `n` occurs exactly at the end of `front` -/
def Spec.OnlyAfter (n front uri : Str) : Prop := ∀ a b, uri = a ++ n ++ b → a = front

/-- the configured directory as completion reads it: without dots -/
def Spec.undotted (s : Str) : Str := s.filter fun c => c ≠ '.'

/-- a known template that the typed characters select -/
def Spec.Selected (f : LspFiles) (typed uri : Str) : Prop :=
  Known f uri ∧ Typed (if typed = [] then c!"file:///" else typed) uri

theorem mem_pairs {V : Type} {o : HashOrder} {k : Nat} {m : HMap Str V} {e : Str × V} :
    e ∈ o.shuffle k m.entries ↔ m.get? e.1 = some e.2 := by
  rw [HMap.mem_shuffle]
  exact (HMap.get?_eq_some_iff m e.1 e.2).symm

theorem selected_iff {f : LspFiles} {w : World} {typed uri : Str} :
    uri ∈ ((w.order.shuffle 6 (f.trees .template).entries).map Prod.fst).filter
      (fun t => containsSub (if typed.isEmpty then c!"file:///" else typed) t) ↔ Selected f typed uri := by
  have hif : (if typed.isEmpty then c!"file:///" else typed) = if typed = [] then c!"file:///" else typed := by
    cases typed <;> rfl
  rw [hif]
  simp only [List.mem_filter, List.mem_map, containsSub_iff, Selected, Known, Typed]
  constructor
  · rintro ⟨⟨e, he, rfl⟩, h⟩
    exact ⟨⟨e.2, mem_pairs.mp he⟩, h⟩
  · rintro ⟨⟨t, ht⟩, h⟩
    exact ⟨⟨(uri, t), mem_pairs.mpr ht, rfl⟩, h⟩

theorem templates_reply {env : Env} {w : World} {s : Server} {uri : Str} {pos : Position} {tr : TriggerKind} {typed : Str} {r : Range}
    {b : Bool} (hk : s.files.completion env uri pos tr = .ok (some (.includedTemplate typed r, b))) :
    s.handle env w (.completion uri pos tr) = .ok (s, [], .completion (s.files.readTemplates w typed r pos)) := by
  simp only [Server.handle, Server.onCompletion, hk, completionItems]

/-- the reply when every selected template has an item -/
theorem templates_some {env : Env} {w : World} {s : Server} {uri : Str} {pos : Position} {tr : TriggerKind} {typed : Str} {r : Range}
    {b : Bool} (hk : s.files.completion env uri pos tr = .ok (some (.includedTemplate typed r, b)))
    (h : ∀ u, Selected s.files typed u → s.files.templateItem r pos u ≠ none) :
    ∃ items, s.handle env w (.completion uri pos tr) = .ok (s, [], .completion (some items)) ∧
      ∀ i, i ∈ items ↔ ∃ u, Selected s.files typed u ∧ s.files.templateItem r pos u = some i := by
  refine ⟨((((w.order.shuffle 6 (s.files.trees .template).entries).map Prod.fst).filter
      (fun t => containsSub (if typed.isEmpty then c!"file:///" else typed) t)).filterMap (s.files.templateItem r pos)), ?_, ?_⟩
  · rw [templates_reply hk]
    unfold LspFiles.readTemplates
    rw [templateItems_all _ (fun t ht => h t (selected_iff.mp ht))]
  · intro i
    rw [List.mem_filterMap]
    constructor
    · rintro ⟨u, hu, hi⟩; exact ⟨u, selected_iff.mp hu, hi⟩
    · rintro ⟨u, hu, hi⟩; exact ⟨u, selected_iff.mpr hu, hi⟩

/-- no reply at all when one has none -/
theorem templates_none {env : Env} {w : World} {s : Server} {uri : Str} {pos : Position} {tr : TriggerKind} {typed : Str} {r : Range}
    {b : Bool} (hk : s.files.completion env uri pos tr = .ok (some (.includedTemplate typed r, b))) {u : Str}
    (hu : Selected s.files typed u) (h : s.files.templateItem r pos u = none) :
    s.handle env w (.completion uri pos tr) = .ok (s, [], .completion none) := by
  rw [templates_reply hk]
  unfold LspFiles.readTemplates
  rw [templateItems_none _ u (selected_iff.mpr hu) h]

/-- the label of an item, from the parts of the URI -/
theorem templateItem_label {f : LspFiles} {r : Range} {p : Position} {u part : Str} {i : CompletionItem}
    (hs : (splitStr (undotted f.config.templates) u).tail.head? = some part) (h : f.templateItem r p u = some i) :
    i.label = LspFiles.removeFirstSlash part := by
  unfold LspFiles.templateItem at h
  have : (splitStr (f.config.templates.filter fun ch => ch ≠ '.') u).tail.head? = some part := hs
  simp only [this] at h
  cases h
  split <;> rfl

theorem templateItem_some {f : LspFiles} {r : Range} {p : Position} {u part : Str}
    (hs : (splitStr (undotted f.config.templates) u).tail.head? = some part) : f.templateItem r p u ≠ none := by
  unfold LspFiles.templateItem
  have : (splitStr (f.config.templates.filter fun ch => ch ≠ '.') u).tail.head? = some part := hs
  simp only [this]
  simp

theorem templateItem_none {f : LspFiles} {r : Range} {p : Position} {u : Str}
    (hs : (splitStr (undotted f.config.templates) u).tail.head? = none) : f.templateItem r p u = none := by
  unfold LspFiles.templateItem
  have : (splitStr (f.config.templates.filter fun ch => ch ≠ '.') u).tail.head? = none := hs
  simp only [this]

theorem splitStr_ne_nil (n s : Str) : splitStr n s ≠ [] := by
  have go : ∀ (s acc : Str) (k : Nat), splitStrGo n k acc s ≠ [] := by
    intro s
    induction s with
    | nil => intro acc k; simp [splitStrGo]
    | cons c s ih =>
      intro acc k
      simp only [splitStrGo]
      split
      · exact ih _ _
      · split
        · simp
        · exact ih _ _
  unfold splitStr
  split
  · simp
  · exact go _ _ _

/-- a URI that contains the directory has a second part: of the part before it is the shortest -/
theorem split_some {n u : Str} (hn : n ≠ []) (h : ∃ a b, u = a ++ n ++ b) : ∃ part, (splitStr n u).tail.head? = some part := by
  -- the occurrence with the shortest front
  have key : ∀ (k : Nat) (a b : Str), u = a ++ n ++ b → a.length ≤ k →
      ∃ a b, u = a ++ n ++ b ∧ ∀ a' b', u = a' ++ n ++ b' → a.length ≤ a'.length := by
    intro k
    induction k with
    | zero =>
      intro a b h ha
      exact ⟨a, b, h, fun a' b' _ => by omega⟩
    | succ k ih =>
      intro a b h ha
      rcases Classical.em (∃ a' b', u = a' ++ n ++ b' ∧ a'.length < a.length) with ⟨a', b', h', hl⟩ | hno
      · exact ih a' b' h' (by omega)
      · refine ⟨a, b, h, fun a' b' h' => ?_⟩
        rcases Nat.lt_or_ge a'.length a.length with hl | hl
        · exact absurd ⟨a', b', h', hl⟩ hno
        · exact hl
  obtain ⟨a, b, h⟩ := h
  obtain ⟨a, b, h, hmin⟩ := key _ a b h (Nat.le_refl _)
  rw [h, splitStr_first hn a b (fun a' b' e => hmin a' b' (by rw [h, e]))]
  cases hb : splitStr n b with
  | nil => exact absurd hb (splitStr_ne_nil _ _)
  | cons x l => exact ⟨x, rfl⟩

/-- the part after the only occurrence -/
theorem split_once {n front b : Str} (hn : n ≠ []) (h : OnlyAfter n front (front ++ n ++ b)) :
    (splitStr n (front ++ n ++ b)).tail.head? = some b := by
  rw [splitStr_first hn front b (fun a' b' e => by rw [h a' b' e]; exact Nat.le_refl _)]
  rw [splitStr_none hn]
  · rfl
  · intro x y e
    have := h (front ++ n ++ x) y (by rw [e]; simp)
    have := congrArg List.length this
    simp only [List.length_append] at this
    have : n.length = 0 := by omega
    exact hn (List.eq_nil_of_length_eq_zero this)

theorem uriUnder_split (root n rel : Str) : uriUnder (root ++ n) rel = (c!"file://" ++ root) ++ n ++ '/' :: rel := by
  simp [uriUnder]

/-! ## The properties -/

/-- **C41** (part: labels) When the name of the templates directory occurs once in the URI of every template selected, the items are
exactly those labelled with the path of a selected template relative to the templates directory.  (`root ++ undotted …` is the
absolute path of the directory: `./templates` under the current directory, for instance.)  Missing: other directories
(`C41_twice_refuted`, `C41_trailing_refuted`, `C41_here_refuted`). -/
theorem C41_labels_partial (env : Env) (w : World) (s : Server) (uri : Str) (pos : Position) (tr : TriggerKind) (typed : Str) (r : Range)
    (b : Bool) (hk : s.files.completion env uri pos tr = .ok (some (.includedTemplate typed r, b))) (dir root : Str)
    (hdir : dir = root ++ undotted s.files.config.templates) (hne : undotted s.files.config.templates ≠ [])
    (hall : ∀ u, Selected s.files typed u → (∃ rel, u = uriUnder dir rel) ∧
      OnlyAfter (undotted s.files.config.templates) (c!"file://" ++ root) u) :
    ∃ items, s.handle env w (.completion uri pos tr) = .ok (s, [], .completion (some items)) ∧
      ∀ rel, rel ∈ items.map (·.label) ↔ Selected s.files typed (uriUnder dir rel) := by
  have hitem : ∀ u, Selected s.files typed u → ∃ rel, u = uriUnder dir rel ∧
      (splitStr (undotted s.files.config.templates) u).tail.head? = some ('/' :: rel) := by
    intro u hu
    obtain ⟨⟨rel, rfl⟩, ho⟩ := hall u hu
    refine ⟨rel, rfl, ?_⟩
    rw [hdir, uriUnder_split] at ho ⊢
    exact split_once hne ho
  obtain ⟨items, h, hmem⟩ := templates_some (w := w) hk
    (fun u hu => by obtain ⟨rel, _, h⟩ := hitem u hu; exact templateItem_some h)
  refine ⟨items, h, ?_⟩
  intro rel
  rw [List.mem_map]
  constructor
  · rintro ⟨i, hi, hl⟩
    obtain ⟨u, hu, hui⟩ := (hmem i).mp hi
    obtain ⟨rel', rfl, hs⟩ := hitem u hu
    have := templateItem_label hs hui
    rw [hl] at this
    have : rel = rel' := by simpa [LspFiles.removeFirstSlash] using this
    rw [this]; exact hu
  · intro hu
    obtain ⟨rel', he, hs⟩ := hitem _ hu
    cases hi : s.files.templateItem r pos (uriUnder dir rel) with
    | none => exact absurd hi (templateItem_some hs)
    | some i =>
      have hl := templateItem_label hs hi
      have : rel = rel' := by simpa [uriUnder] using he
      refine ⟨i, (hmem i).mpr ⟨_, hu, hi⟩, ?_⟩
      rw [hl, this]
      simp [LspFiles.removeFirstSlash]

/-- **C41 is false when the name of the directory occurs twice** (`…/templates/old/templates/x.html`): the label is what lies between
the occurrences, which need not be a template at all. -/
theorem C41_twice_refuted (env : Env) (w : World) (s : Server) (uri : Str) (pos : Position) (tr : TriggerKind) (typed : Str) (r : Range)
    (b : Bool) (hk : s.files.completion env uri pos tr = .ok (some (.includedTemplate typed r, b))) (dir root mid rest : Str)
    (hdir : dir = root ++ undotted s.files.config.templates) (hne : undotted s.files.config.templates ≠ [])
    (hall : ∀ u, Selected s.files typed u → Typed (undotted s.files.config.templates) u)
    (hu : Selected s.files typed (uriUnder dir (mid ++ undotted s.files.config.templates ++ rest)))
    (hfirst : ∀ x y, uriUnder dir (mid ++ undotted s.files.config.templates ++ rest) = x ++ undotted s.files.config.templates ++ y →
      (c!"file://" ++ root).length ≤ x.length)
    (hnext : ∀ x y, '/' :: mid ++ undotted s.files.config.templates ++ rest = x ++ undotted s.files.config.templates ++ y →
      mid.length + 1 ≤ x.length)
    (hmid : ¬ Known s.files (uriUnder dir mid)) :
    ∃ items, s.handle env w (.completion uri pos tr) = .ok (s, [], .completion (some items)) ∧
      ∃ i ∈ items, ∀ rel, Known s.files (uriUnder dir rel) → i.label ≠ rel := by
  obtain ⟨items, h, hmem⟩ := templates_some (w := w) hk
    (fun u hu => by obtain ⟨p, hp⟩ := split_some hne (hall u hu); exact templateItem_some hp)
  refine ⟨items, h, ?_⟩
  have hs : (splitStr (undotted s.files.config.templates) (uriUnder dir (mid ++ undotted s.files.config.templates ++ rest))).tail.head? =
      some ('/' :: mid) := by
    rw [hdir, uriUnder_split] at hfirst ⊢
    rw [splitStr_first hne _ _ hfirst]
    have : '/' :: (mid ++ undotted s.files.config.templates ++ rest) = ('/' :: mid) ++ undotted s.files.config.templates ++ rest := rfl
    rw [this, splitStr_first hne _ _ (fun x y e => hnext x y e)]
    rfl
  cases hi : s.files.templateItem r pos (uriUnder dir (mid ++ undotted s.files.config.templates ++ rest)) with
  | none => exact absurd hi (templateItem_some hs)
  | some i =>
    refine ⟨i, (hmem i).mpr ⟨_, hu, hi⟩, ?_⟩
    have hl := templateItem_label hs hi
    simp only [LspFiles.removeFirstSlash, if_true] at hl
    intro rel hrel he
    rw [← he, hl] at hrel
    exact hmid hrel

theorem removeFirstSlash_inner : ∀ (x y : Str), (∀ c ∈ x, c ≠ '/') → LspFiles.removeFirstSlash (x ++ '/' :: y) = x ++ y
  | [], y, _ => by simp [LspFiles.removeFirstSlash]
  | c :: x, y, h => by
    have hc := h c (by simp)
    simp only [List.cons_append, LspFiles.removeFirstSlash, hc, if_false]
    rw [removeFirstSlash_inner x y (fun c hc => h c (by simp [hc]))]

/-- **C41 is false when the directory is configured with a slash at its end** (`./templates/`): the first slash of the relative path is
lost. -/
theorem C41_trailing_refuted (env : Env) (w : World) (s : Server) (uri : Str) (pos : Position) (tr : TriggerKind) (typed : Str) (r : Range)
    (b : Bool) (hk : s.files.completion env uri pos tr = .ok (some (.includedTemplate typed r, b))) (dir root n x y : Str)
    (hdir : dir = root ++ n) (hn : undotted s.files.config.templates = n ++ c!"/")
    (hall : ∀ u, Selected s.files typed u → Typed (undotted s.files.config.templates) u)
    (hu : Selected s.files typed (uriUnder dir (x ++ '/' :: y))) (hx : ∀ c ∈ x, c ≠ '/')
    (hone : OnlyAfter (undotted s.files.config.templates) (c!"file://" ++ root) (uriUnder dir (x ++ '/' :: y)))
    (hxy : ¬ Known s.files (uriUnder dir (x ++ y))) :
    ∃ items, s.handle env w (.completion uri pos tr) = .ok (s, [], .completion (some items)) ∧
      ∃ i ∈ items, i.label = x ++ y ∧ ∀ rel, Known s.files (uriUnder dir rel) → i.label ≠ rel := by
  have hne : undotted s.files.config.templates ≠ [] := by rw [hn]; simp
  obtain ⟨items, h, hmem⟩ := templates_some (w := w) hk
    (fun u hu => by obtain ⟨p, hp⟩ := split_some hne (hall u hu); exact templateItem_some hp)
  refine ⟨items, h, ?_⟩
  have he : uriUnder dir (x ++ '/' :: y) = (c!"file://" ++ root) ++ undotted s.files.config.templates ++ (x ++ '/' :: y) := by
    rw [hdir, hn]; simp [uriUnder]
  have hs : (splitStr (undotted s.files.config.templates) (uriUnder dir (x ++ '/' :: y))).tail.head? = some (x ++ '/' :: y) := by
    rw [he] at hone ⊢
    exact split_once hne hone
  cases hi : s.files.templateItem r pos (uriUnder dir (x ++ '/' :: y)) with
  | none => exact absurd hi (templateItem_some hs)
  | some i =>
    have hl := templateItem_label hs hi
    rw [removeFirstSlash_inner x y hx] at hl
    refine ⟨i, (hmem i).mpr ⟨_, hu, hi⟩, hl, ?_⟩
    intro rel hrel he
    rw [← he, hl] at hrel
    exact hxy hrel

/-- **C41 is false when the directory is the current one** (`.`): every item is labelled `f`, the first letter of `file://`. -/
theorem C41_here_refuted (env : Env) (w : World) (s : Server) (uri : Str) (pos : Position) (tr : TriggerKind) (typed : Str) (r : Range)
    (b : Bool) (hk : s.files.completion env uri pos tr = .ok (some (.includedTemplate typed r, b)))
    (hdir : s.files.config.templates = c!".") (hall : ∀ u, Selected s.files typed u → c!"file://" <+: u) :
    ∃ items, s.handle env w (.completion uri pos tr) = .ok (s, [], .completion (some items)) ∧
      (∀ i ∈ items, i.label = c!"f") ∧ ((∃ u, Selected s.files typed u) → items ≠ []) := by
  have hun : undotted s.files.config.templates = [] := by rw [hdir]; rfl
  have hs : ∀ u, Selected s.files typed u → (splitStr (undotted s.files.config.templates) u).tail.head? = some c!"f" := by
    intro u hu
    obtain ⟨v, rfl⟩ := hall u hu
    rw [hun]
    rfl
  obtain ⟨items, h, hmem⟩ := templates_some (w := w) hk (fun u hu => templateItem_some (hs u hu))
  refine ⟨items, h, ?_, ?_⟩
  · intro i hi
    obtain ⟨u, hu, hui⟩ := (hmem i).mp hi
    rw [templateItem_label (hs u hu) hui]
    decide
  · rintro ⟨u, hu⟩ he
    cases hi : s.files.templateItem r pos u with
    | none => exact absurd hi (templateItem_some (hs u hu))
    | some i => have := (hmem i).mpr ⟨u, hu, hi⟩; rw [he] at this; cases this

/-- what an item of a template does -/
theorem templateItem_edit {f : LspFiles} {r : Range} {p : Position} {u : Str} {i : CompletionItem} (h : f.templateItem r p u = some i) :
    (f.isVscode = false → ∀ m t, accepted m t i = applyEdit t r ('"' :: i.label ++ ['"'])) ∧
    (f.isVscode = true → ∀ m t, accepted m t i = applyTwo t ⟨⟨p, p⟩, []⟩ ⟨r, '"' :: i.label ++ ['"']⟩) := by
  unfold LspFiles.templateItem at h
  simp only at h
  split at h
  · cases h
  · cases h
    constructor
    · intro hv; simp only [hv, Bool.false_eq_true, if_false]; intro m t; cases m <;> rfl
    · intro hv; simp only [hv, if_true]; intro m t; rfl

/-- the string of a text and the positions of its ends -/
structure Spec.At (text pre str post : Str) (a b : Point) : Prop where
  text_eq : text = pre ++ str ++ post
  plain : ∀ c ∈ pre ++ str, PlainChar c
  line : ∀ c ∈ str, c ≠ '\n' ∧ c ≠ '\r'
  breaks : NoLoneCR pre
  short : utf8Len text < 4294967296
  start : a = advance ⟨0, 0⟩ pre
  stop : b = advance ⟨0, 0⟩ (pre ++ str)

namespace Spec.At
variable {text pre str post : Str} {a b : Point}

theorem offset_start (h : At text pre str post a b) : offset text (toRange (a, b)).start = some pre.length := by
  have := offset_at pre (str ++ post) (fun c hc => h.plain c (by simp [hc])) h.breaks
    (by rw [← List.append_assoc, ← h.text_eq]; exact h.short)
  rw [h.text_eq, List.append_assoc]
  simp only [toRange, h.start]
  exact this

theorem offset_stop (h : At text pre str post a b) : offset text (toRange (a, b)).stop = some (pre ++ str).length := by
  have := offset_at (pre ++ str) post h.plain (noLoneCR_append h.breaks (noLoneCR_line h.line))
    (by rw [← h.text_eq]; exact h.short)
  rw [h.text_eq]
  simp only [toRange, h.stop]
  exact this

theorem applied (h : At text pre str post a b) (n : Str) : applyEdit text (toRange (a, b)) n = some (pre ++ n ++ post) := by
  unfold applyEdit
  rw [h.offset_start, h.offset_stop]
  have hl : pre.length ≤ (pre ++ str).length := by simp
  simp only [hl, if_true]
  rw [h.text_eq, List.drop_left, List.append_assoc pre, List.take_left]

end Spec.At

/-- **C41** (part: accepting, editors other than VS Code) Accepting any item puts its label, quoted, in place of the string whose range
the completion has (`C21_completion_partial`: the string at the cursor). -/
theorem C41_accepted_partial (env : Env) (w : World) (s : Server) (uri : Str) (pos : Position) (tr : TriggerKind) (typed : Str)
    (bg : Bool) (text pre str post : Str) (a b : Point) (hat : At text pre str post a b)
    (hk : s.files.completion env uri pos tr = .ok (some (.includedTemplate typed (toRange (a, b)), bg)))
    (hvs : s.files.isVscode = false) (items : List CompletionItem)
    (h : s.handle env w (.completion uri pos tr) = .ok (s, [], .completion (some items))) :
    ∀ i ∈ items, ∀ m, accepted m text i = some (pre ++ ('"' :: i.label ++ ['"']) ++ post) := by
  intro i hi
  have hsome : ∀ (l : List Str) (is : List CompletionItem), s.files.templateItems (toRange (a, b)) pos l = some is →
      ∀ i ∈ is, ∃ u ∈ l, s.files.templateItem (toRange (a, b)) pos u = some i := by
    intro l
    induction l with
    | nil => intro is hh i hi; cases hh; cases hi
    | cons x l ih =>
      intro is hh i hi
      simp only [LspFiles.templateItems] at hh
      split at hh
      · cases hh
      · rename_i j hj
        split at hh
        · cases hh
        · rename_i js hjs
          cases hh
          rcases List.mem_cons.mp hi with rfl | hi
          · exact ⟨x, by simp, hj⟩
          · obtain ⟨u, hu, hui⟩ := ih js hjs i hi
            exact ⟨u, by simp [hu], hui⟩
  rw [templates_reply hk] at h
  injection h with h
  injection h with _ h
  injection h with _ h
  injection h with h
  intro m
  obtain ⟨u, _, hu⟩ := hsome _ _ h i hi
  rw [(templateItem_edit hu).1 hvs]
  exact hat.applied _

/-- **C41 is false in VS Code**.  When the cursor is inside the string the two edits of every item overlap, which the protocol forbids:
there is no text they lead to. -/
theorem C41_vscode_refuted (env : Env) (w : World) (s : Server) (uri : Str) (pos : Position) (tr : TriggerKind) (typed : Str)
    (bg : Bool) (text pre s1 s2 post : Str) (a b : Point) (hat : At text pre (s1 ++ s2) post a b) (h1 : s1 ≠ []) (h2 : s2 ≠ [])
    (hpos : toPoint pos = advance ⟨0, 0⟩ (pre ++ s1))
    (hk : s.files.completion env uri pos tr = .ok (some (.includedTemplate typed (toRange (a, b)), bg)))
    (hvs : s.files.isVscode = true) (hall : ∀ u, Selected s.files typed u → s.files.templateItem (toRange (a, b)) pos u ≠ none) :
    ∃ items, s.handle env w (.completion uri pos tr) = .ok (s, [], .completion (some items)) ∧
      ((∃ u, Selected s.files typed u) → items ≠ []) ∧ ∀ i ∈ items, ∀ m, accepted m text i = none := by
  obtain ⟨items, h, hmem⟩ := templates_some (w := w) hk hall
  refine ⟨items, h, ?_, ?_⟩
  · rintro ⟨u, hu⟩ he
    cases hi : s.files.templateItem (toRange (a, b)) pos u with
    | none => exact absurd hi (hall u hu)
    | some i => have := (hmem i).mpr ⟨u, hu, hi⟩; rw [he] at this; cases this
  · intro i hi m
    obtain ⟨u, _, hui⟩ := (hmem i).mp hi
    rw [(templateItem_edit hui).2 hvs]
    have hoff : offset text pos = some (pre ++ s1).length := by
      have ht : text = (pre ++ s1) ++ (s2 ++ post) := by rw [hat.text_eq]; simp
      have hsh := hat.short
      have := offset_at (pre ++ s1) (s2 ++ post) (fun c hc => hat.plain c (by
          rcases List.mem_append.mp hc with h | h
          · exact List.mem_append_left _ h
          · exact List.mem_append_right _ (List.mem_append_left _ h)))
        (noLoneCR_append hat.breaks (noLoneCR_line (fun c hc => hat.line c (List.mem_append_left _ hc)))) (by rw [← ht]; exact hsh)
      have hb := advance_bound (pre ++ s1) ⟨0, 0⟩
      rw [ht, Rope.utf8Len_append] at hsh
      simp only [Nat.zero_add] at hb
      rw [← hpos] at this hb
      have e1 : toU32 (toPoint pos).row = pos.line := Nat.mod_eq_of_lt (by omega)
      have e2 : toU32 (toPoint pos).column = pos.character := Nat.mod_eq_of_lt (by omega)
      rw [e1, e2, ← ht] at this
      exact this
    have l1 : 0 < s1.length := List.length_pos_iff.mpr h1
    have l2 : 0 < s2.length := List.length_pos_iff.mpr h2
    unfold applyTwo applyInOrder
    simp only [hoff, hat.offset_start, hat.offset_stop]
    simp only [List.length_append]
    rw [if_neg (by omega), if_neg (by omega)]

/-- **C42** (part) When the name of the templates directory occurs in the URI of every template selected, each template selected whose
URI contains it once is offered under its relative path.  Missing: `C42_outlier_refuted`. -/
theorem C42_offered_partial (env : Env) (w : World) (s : Server) (uri : Str) (pos : Position) (tr : TriggerKind) (typed : Str) (r : Range)
    (b : Bool) (hk : s.files.completion env uri pos tr = .ok (some (.includedTemplate typed r, b))) (dir root : Str)
    (hdir : dir = root ++ undotted s.files.config.templates) (hne : undotted s.files.config.templates ≠ [])
    (hall : ∀ u, Selected s.files typed u → Typed (undotted s.files.config.templates) u) :
    ∃ items, s.handle env w (.completion uri pos tr) = .ok (s, [], .completion (some items)) ∧
      ∀ rel, Selected s.files typed (uriUnder dir rel) →
        OnlyAfter (undotted s.files.config.templates) (c!"file://" ++ root) (uriUnder dir rel) → ∃ i ∈ items, i.label = rel := by
  obtain ⟨items, h, hmem⟩ := templates_some (w := w) hk
    (fun u hu => by obtain ⟨p, hp⟩ := split_some hne (hall u hu); exact templateItem_some hp)
  refine ⟨items, h, ?_⟩
  intro rel hu ho
  have hs : (splitStr (undotted s.files.config.templates) (uriUnder dir rel)).tail.head? = some ('/' :: rel) := by
    rw [hdir, uriUnder_split] at ho ⊢
    exact split_once hne ho
  cases hi : s.files.templateItem r pos (uriUnder dir rel) with
  | none => exact absurd hi (templateItem_some hs)
  | some i =>
    refine ⟨i, (hmem i).mpr ⟨_, hu, hi⟩, ?_⟩
    rw [templateItem_label hs hi]
    simp [LspFiles.removeFirstSlash]

/-- **C42 is false**.  One selected template whose URI does not contain the configured directory, for instance a file opened from
elsewhere, and nothing at all is offered. -/
theorem C42_outlier_refuted (env : Env) (w : World) (s : Server) (uri : Str) (pos : Position) (tr : TriggerKind) (typed : Str) (r : Range)
    (b : Bool) (hk : s.files.completion env uri pos tr = .ok (some (.includedTemplate typed r, b)))
    (hne : undotted s.files.config.templates ≠ []) (u : Str) (hu : Selected s.files typed u)
    (hout : ¬ Typed (undotted s.files.config.templates) u) :
    s.handle env w (.completion uri pos tr) = .ok (s, [], .completion none) := by
  refine templates_none hk hu (templateItem_none ?_)
  rw [splitStr_none hne]
  · rfl
  · intro a b he; exact hout ⟨a, b, he⟩

/-! ## Examples: `{% include "a" %}` with the cursor after the `a` -/

namespace Fix

def inText : Str := c!"{% include \"a\" %}"
def inStmt : ImpStmt := .include (tok 0 0 17 [] 30) (tok 0 3 10 c!"include" 31) [tok 0 11 14 c!"\"a\"" 32]
def inEnv : Env := envWith .jinjaImports inStmt.caps
def inUri : Str := c!"file:///p/templates/x.html"

def inTrees : List Str → HMap Str Tree
  | [] => HMap.empty.insert inUri (.parsed .jinja inText none)
  | k :: ks => (inTrees ks).insert k (.parsed .jinja inText none)

/-- a workspace with the given templates directory and further templates -/
def inServer (dir : Str) (keys : List Str) (vscode : Bool) : Server :=
  { Server.init with files := { LspFiles.default with
      documents := HMap.empty.insert inUri inText
      trees := fun l => match l with
        | .template => inTrees keys
        | .backend => HMap.empty
      config := { JinjaConfig.default with templates := dir }
      isVscode := vscode } }

theorem inTrees_mem : ∀ (ks : List Str) (u : Str) (t : Tree), (inTrees ks).get? u = some t → u = inUri ∨ u ∈ ks
  | [], u, t, h => by
    by_cases he : u = inUri
    · exact Or.inl he
    · rw [inTrees, HMap.get?_insert_ne _ _ he] at h; cases h
  | k :: ks, u, t, h => by
    by_cases he : u = k
    · exact Or.inr (by simp [he])
    · rw [inTrees, HMap.get?_insert_ne _ _ he] at h
      rcases inTrees_mem ks u t h with h | h
      · exact Or.inl h
      · exact Or.inr (by simp [h])

/-- completion of `"a"`, whatever the directory and the templates -/
theorem in_kind (dir : Str) (v : Bool) : ∀ ks : List Str, (∀ k ∈ ks, k ≠ inUri) →
    (inServer dir ks v).files.completion inEnv inUri ⟨0, 13⟩ .invoked = .ok (some (.includedTemplate c!"a" (toRange (⟨0, 11⟩, ⟨0, 14⟩)), false)) := by
  intro ks hks
  have : ∀ ks : List Str, (∀ k ∈ ks, k ≠ inUri) → (inTrees ks).get? inUri = some (.parsed .jinja inText none) := by
    intro ks
    induction ks with
    | nil => intro _; rfl
    | cons k ks ih =>
      intro h
      rw [inTrees, HMap.get?_insert_ne _ _ (Ne.symm (h k (by simp)))]
      exact ih (fun x hx => h x (by simp [hx]))
  have ht : ((inServer dir ks v).files.trees .template).get? inUri = some (.parsed .jinja inText none) := this ks hks
  have hd : (inServer dir ks v).files.documents.get? inUri = some inText := rfl
  have he : fileExt inUri = some .template := rfl
  simp only [LspFiles.completion, he, ht, hd]
  rfl

/-- checks all places where `n` may occur -/
theorem occurs {n u : Str} {P : Str → Prop} (h : ∀ k ∈ List.range (u.length + 1), n.isPrefixOf (u.drop k) = true → P (u.take k)) :
    ∀ a b, u = a ++ n ++ b → P a := by
  rintro a b rfl
  have := h a.length (List.mem_range.mpr (by simp only [List.length_append]; omega))
    (List.isPrefixOf_iff_prefix.mpr ⟨b, by rw [List.append_assoc, List.drop_left]⟩)
  rwa [List.append_assoc, List.take_left] at this

def inY : Str := c!"file:///p/templates/base/y.html"
def inOld : Str := c!"file:///p/templates/old/templates/x.html"
def inOut : Str := c!"file:///home/a.html"

end Fix

/-- `./templates`: all hypotheses hold, `x.html` and `base/y.html` are offered -/
example : ∃ items, (Fix.inServer c!"./templates" [Fix.inY] false).handle Fix.inEnv Fix.world (.completion Fix.inUri ⟨0, 13⟩ .invoked) =
      .ok (Fix.inServer c!"./templates" [Fix.inY] false, [], .completion (some items)) ∧
    c!"x.html" ∈ items.map (·.label) ∧ c!"base/y.html" ∈ items.map (·.label) ∧
    ∀ i ∈ items, ∀ m, accepted m Fix.inText i = some (c!"{% include " ++ ('"' :: i.label ++ ['"']) ++ c!" %}") := by
  have hk := Fix.in_kind c!"./templates" false [Fix.inY] (by decide)
  obtain ⟨items, h, hl⟩ := C41_labels_partial _ Fix.world _ _ _ _ _ _ _ hk c!"/p/templates" c!"/p" (by decide) (by decide) (by
    rintro u ⟨⟨t, ht⟩, _⟩
    rcases Fix.inTrees_mem _ _ _ ht with rfl | h
    · exact ⟨⟨c!"x.html", by decide⟩, Fix.occurs (by decide)⟩
    · rw [List.mem_singleton.mp h]
      exact ⟨⟨c!"base/y.html", by decide⟩, Fix.occurs (by decide)⟩)
  refine ⟨items, h, (hl _).mpr ⟨⟨_, rfl⟩, containsSub_iff.mp (by decide)⟩, (hl _).mpr ⟨⟨_, rfl⟩, containsSub_iff.mp (by decide)⟩, ?_⟩
  exact C41_accepted_partial _ Fix.world _ _ _ _ _ _ Fix.inText c!"{% include " c!"\"a\"" c!" %}" ⟨0, 11⟩ ⟨0, 14⟩
    ⟨by decide, by unfold PlainChar; decide, by decide, noLoneCR_line (by decide), by decide, by decide, by decide⟩ hk rfl items h

/-- … with `…/templates/old/templates/x.html` as well, `old` is offered -/
example : ∃ items, (Fix.inServer c!"./templates" [Fix.inOld] false).handle Fix.inEnv Fix.world (.completion Fix.inUri ⟨0, 13⟩ .invoked) =
      .ok (Fix.inServer c!"./templates" [Fix.inOld] false, [], .completion (some items)) ∧
    ∃ i ∈ items, ∀ rel, Known (Fix.inServer c!"./templates" [Fix.inOld] false).files (uriUnder c!"/p/templates" rel) → i.label ≠ rel := by
  have hk := Fix.in_kind c!"./templates" false [Fix.inOld] (by decide)
  refine C41_twice_refuted _ Fix.world _ _ _ _ _ _ _ hk c!"/p/templates" c!"/p" c!"old" c!"/x.html" (by decide) (by decide) ?_
    ⟨⟨_, rfl⟩, containsSub_iff.mp (by decide)⟩ (Fix.occurs (P := fun a => _ ≤ a.length) (by decide))
    (Fix.occurs (P := fun a => _ ≤ a.length) (by decide)) ?_
  · rintro u ⟨⟨t, ht⟩, _⟩
    rcases Fix.inTrees_mem _ _ _ ht with rfl | h
    · exact containsSub_iff.mp (by decide)
    · rw [List.mem_singleton.mp h]; exact containsSub_iff.mp (by decide)
  · rintro ⟨t, ht⟩
    rcases Fix.inTrees_mem _ _ _ ht with h | h
    · exact absurd h (by decide)
    · exact absurd (List.mem_singleton.mp h) (by decide)

/-- `./templates/`: `basey.html` is offered instead of `base/y.html` -/
example : ∃ items, (Fix.inServer c!"./templates/" [Fix.inY] false).handle Fix.inEnv Fix.world (.completion Fix.inUri ⟨0, 13⟩ .invoked) =
      .ok (Fix.inServer c!"./templates/" [Fix.inY] false, [], .completion (some items)) ∧
    ∃ i ∈ items, i.label = c!"basey.html" ∧
      ∀ rel, Known (Fix.inServer c!"./templates/" [Fix.inY] false).files (uriUnder c!"/p/templates" rel) → i.label ≠ rel := by
  have hk := Fix.in_kind c!"./templates/" false [Fix.inY] (by decide)
  refine C41_trailing_refuted _ Fix.world _ _ _ _ _ _ _ hk c!"/p/templates" c!"/p" c!"/templates" c!"base" c!"y.html" (by decide) (by decide) ?_
    ⟨⟨_, rfl⟩, containsSub_iff.mp (by decide)⟩ (by decide) (Fix.occurs (by decide)) ?_
  · rintro u ⟨⟨t, ht⟩, _⟩
    rcases Fix.inTrees_mem _ _ _ ht with rfl | h
    · exact containsSub_iff.mp (by decide)
    · rw [List.mem_singleton.mp h]; exact containsSub_iff.mp (by decide)
  · rintro ⟨t, ht⟩
    rcases Fix.inTrees_mem _ _ _ ht with h | h
    · exact absurd h (by decide)
    · exact absurd (List.mem_singleton.mp h) (by decide)

/-- `.`: `f` is offered -/
example : ∃ items, (Fix.inServer c!"." [Fix.inY] false).handle Fix.inEnv Fix.world (.completion Fix.inUri ⟨0, 13⟩ .invoked) =
      .ok (Fix.inServer c!"." [Fix.inY] false, [], .completion (some items)) ∧ (∀ i ∈ items, i.label = c!"f") ∧ items ≠ [] := by
  have hk := Fix.in_kind c!"." false [Fix.inY] (by decide)
  obtain ⟨items, h, h1, h2⟩ := C41_here_refuted _ Fix.world _ _ _ _ _ _ _ hk rfl (by
    rintro u ⟨⟨t, ht⟩, _⟩
    rcases Fix.inTrees_mem _ _ _ ht with rfl | h
    · decide
    · rw [List.mem_singleton.mp h]; decide)
  exact ⟨items, h, h1, h2 ⟨Fix.inUri, ⟨_, rfl⟩, containsSub_iff.mp (by decide)⟩⟩

/-- VS Code: the items cannot be applied -/
example : ∃ items, (Fix.inServer c!"./templates" [Fix.inY] true).handle Fix.inEnv Fix.world (.completion Fix.inUri ⟨0, 13⟩ .invoked) =
      .ok (Fix.inServer c!"./templates" [Fix.inY] true, [], .completion (some items)) ∧ items ≠ [] ∧
    ∀ i ∈ items, ∀ m, accepted m Fix.inText i = none := by
  have hk := Fix.in_kind c!"./templates" true [Fix.inY] (by decide)
  obtain ⟨items, h, h1, h2⟩ := C41_vscode_refuted _ Fix.world _ _ _ _ _ _ Fix.inText c!"{% include " c!"\"a" c!"\"" c!" %}" ⟨0, 11⟩ ⟨0, 14⟩
    ⟨by decide, by unfold PlainChar; decide, by decide, noLoneCR_line (by decide), by decide, by decide, by decide⟩ (by decide) (by decide)
    (by decide) hk rfl (by
    rintro u ⟨⟨t, ht⟩, _⟩
    have : ∃ a b, u = a ++ undotted c!"./templates" ++ b := by
      rcases Fix.inTrees_mem _ _ _ ht with rfl | h
      · exact containsSub_iff.mp (by decide)
      · rw [List.mem_singleton.mp h]; exact containsSub_iff.mp (by decide)
    obtain ⟨p, hp⟩ := split_some (by decide) this
    exact templateItem_some hp)
  exact ⟨items, h, h1 ⟨Fix.inUri, ⟨_, rfl⟩, containsSub_iff.mp (by decide)⟩, h2⟩

/-- C42: the hypotheses hold for `./templates` … -/
example : ∃ items, (Fix.inServer c!"./templates" [Fix.inY] false).handle Fix.inEnv Fix.world (.completion Fix.inUri ⟨0, 13⟩ .invoked) =
      .ok (Fix.inServer c!"./templates" [Fix.inY] false, [], .completion (some items)) ∧ ∃ i ∈ items, i.label = c!"base/y.html" := by
  have hk := Fix.in_kind c!"./templates" false [Fix.inY] (by decide)
  obtain ⟨items, h, hl⟩ := C42_offered_partial _ Fix.world _ _ _ _ _ _ _ hk c!"/p/templates" c!"/p" (by decide) (by decide) (by
    rintro u ⟨⟨t, ht⟩, _⟩
    rcases Fix.inTrees_mem _ _ _ ht with rfl | h
    · exact containsSub_iff.mp (by decide)
    · rw [List.mem_singleton.mp h]; exact containsSub_iff.mp (by decide))
  exact ⟨items, h, hl _ ⟨⟨_, rfl⟩, containsSub_iff.mp (by decide)⟩ (Fix.occurs (by decide))⟩

/-- … and nothing is offered once `/home/a.html` was opened, or with `./my.templates` as the directory -/
example : (Fix.inServer c!"./templates" [Fix.inOut] false).handle Fix.inEnv Fix.world (.completion Fix.inUri ⟨0, 13⟩ .invoked) =
      .ok (Fix.inServer c!"./templates" [Fix.inOut] false, [], .completion none) ∧
    (Fix.inServer c!"./my.templates" [c!"file:///p/my.templates/z.html"] false).handle Fix.inEnv Fix.world
      (.completion Fix.inUri ⟨0, 13⟩ .invoked) =
      .ok (Fix.inServer c!"./my.templates" [c!"file:///p/my.templates/z.html"] false, [], .completion none) :=
  ⟨C42_outlier_refuted _ Fix.world _ _ _ _ _ _ _ (Fix.in_kind c!"./templates" false [Fix.inOut] (by decide)) (by decide) Fix.inOut
    ⟨⟨_, rfl⟩, containsSub_iff.mp (by decide)⟩ (fun h => absurd (containsSub_iff.mpr h) (by decide)),
   C42_outlier_refuted _ Fix.world _ _ _ _ _ _ _ (Fix.in_kind c!"./my.templates" false [c!"file:///p/my.templates/z.html"] (by decide))
    (by decide) c!"file:///p/my.templates/z.html" ⟨⟨_, rfl⟩, containsSub_iff.mp (by decide)⟩
    (fun h => absurd (containsSub_iff.mpr h) (by decide))⟩

end JinjaLsp
