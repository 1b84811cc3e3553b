import Verif.Props.Named
import Verif.Props.Complete
import Verif.Props.TemplateItems
import Verif.Lemmas.Idle
/-
  C86: what completion offers, in terms of the syntax tree.
-/

namespace JinjaLsp
open Spec

namespace Spec

/-- the cursor is inside a node or at one of its ends -/
def Touches (p : Point) (n : Syn) : Prop := n.start ≤ p ∧ p ≤ n.stop

/-- a pipe: an operator that starts with `|` -/
def IsPipe (n : Syn) : Prop := n.kind = .operator ∧ ∃ t, n.text = some t ∧ t.head? = some '|'

/-- the word `is` -/
def IsIs (n : Syn) : Prop := n.kind = .keyword ∧ n.text = some c!"is"

/-- the cursor is inside an expression `{{ … }}` -/
def Within (p : Point) (n : Syn) : Prop := n.kind = .expression ∧ n.start ≤ p ∧ p < n.stop

/-- a tree of a text without syntax errors: operators, keywords and expressions are not empty, operators and keywords have no parts, expressions
are not nested -/
structure Regular (root : Syn) : Prop where
  formed : WellFormed root
  laid : Laid root
  legible : Legible root
  correct : ¬ HasError root
  solid : ∀ n ∈ root.flat, n.kind = .operator ∨ n.kind = .keyword ∨ n.kind = .expression → n.start < n.stop
  words : ∀ n ∈ root.flat, n.kind = .operator ∨ n.kind = .keyword → n.children = []
  expressions : ∀ n ∈ root.flat, n.kind = .expression → ∀ c ∈ Syn.flatAll n.children, c.kind ≠ .expression

/-- the cursor is beside all names, and not at the first position of the document -/
structure Beside (digit : Char → Bool) (root : Syn) (p : Point) : Prop where
  origin : p ≠ Point.zero
  names : ∀ n ∈ root.flat, IsName digit n → ¬ Touches p n

/-- the first error of a tree begins at most two columns after the cursor and does not end before it -/
def InFirstError (root : Syn) (p : Point) : Prop :=
  ∃ e rest, (root.flat.filter fun n => n.kind = .error) = e :: rest ∧ e.start ≤ (⟨p.row, p.column + 2⟩ : Point) ∧ p ≤ e.stop

/-- no error is part of another -/
def Unnested (root : Syn) : Prop := ∀ n ∈ root.flat, n.kind = .error → ∀ c ∈ Syn.flatAll n.children, c.kind ≠ .error

end Spec

/-! ### The captures of a node -/

theorem single_mem {b : Bool} {cn : CapName} {up : List Above} {n : Syn} {c : Capture} (h : c ∈ (single b cn up n).flatten) :
    b = true ∧ c = n.cap cn up := by
  unfold single at h
  split at h
  · rename_i hb
    exact ⟨hb, by simpa using h⟩
  · cases h

theorem objCaps_mem {digit : Char → Bool} {n : Syn} {c : Capture} (h : c ∈ (objCaps digit n).flatten) :
    c.start = n.start ∧ c.stop = n.stop ∧ (c.name = .justId → n.kind = .identifier ∧ numeral digit n = false ∧ c.text = n.text) ∧
    (c.name = .pipe → n.kind = .operator ∧ c.text = n.text) ∧ (c.name = .expr → n.kind = .expression) ∧ (c.name = .is → IsIs n) ∧
    (c.name = .error → n.kind = .error) := by
  simp only [objCaps, qObjects] at h
  split at h
  · rename_i hk
    rw [List.flatten_append, List.mem_append] at h
    rcases h with h | h <;> obtain ⟨h1, rfl⟩ := single_mem h <;> simp [Syn.cap, hk]
  · rename_i hk
    obtain ⟨h1, rfl⟩ := single_mem h
    simp only [Bool.not_eq_true'] at h1
    simp [Syn.cap, hk, h1]
  · rename_i hk
    obtain ⟨h1, rfl⟩ := single_mem h
    simp [Syn.cap, hk]
  · rename_i hk
    obtain ⟨h1, rfl⟩ := single_mem h
    have : n.text = some c!"is" := by simpa [eqText] using h1
    simp [Syn.cap, IsIs, hk, this]
  · rename_i hk
    obtain ⟨h1, rfl⟩ := single_mem h
    simp [Syn.cap, hk]
  · cases h

theorem objCaps_pipe {digit : Char → Bool} {n : Syn} (h : IsPipe n) : ∃ c ∈ (objCaps digit n).flatten, JinjaObjects.IsBar c := by
  obtain ⟨hk, t, ht, hh⟩ := h
  refine ⟨n.cap .pipe [], ?_, rfl, t, ht, hh⟩
  simp only [objCaps, qObjects, hk]
  simp [single]

theorem objCaps_expression {digit : Char → Bool} {n : Syn} (h : n.kind = .expression) :
    ∃ c ∈ (objCaps digit n).flatten, c.name = .expr := by
  refine ⟨n.cap .expr [], ?_, rfl⟩
  simp only [objCaps, qObjects, h]
  simp [single]

theorem objCaps_isIs {digit : Char → Bool} {n : Syn} (h : IsIs n) : ∃ c ∈ (objCaps digit n).flatten, c.name = .is := by
  refine ⟨n.cap .is [], ?_, rfl⟩
  simp only [objCaps, qObjects, h.1]
  simp [single, eqText, h.2]

theorem sorted_split {α : Type} (f : α → Point) (p : Point) : ∀ {l : List α}, (l.Pairwise fun a b => f a ≤ f b) →
    l = (l.filter fun a => decide (f a ≤ p)) ++ l.filter fun a => !decide (f a ≤ p)
  | [], _ => rfl
  | a :: l, h => by
    rw [List.pairwise_cons] at h
    by_cases ha : f a ≤ p
    · simp only [List.filter_cons, ha, decide_true, if_true, Bool.not_true, Bool.false_eq_true, if_false, List.cons_append]
      rw [← sorted_split f p h.2]
    · have hall : ∀ b ∈ l, ¬ f b ≤ p := fun b hb hbp => ha (Point.le_trans (h.1 b hb) hbp)
      have h1 : (a :: l).filter (fun a => decide (f a ≤ p)) = [] := by
        rw [List.filter_eq_nil_iff]
        intro b hb
        rcases List.mem_cons.mp hb with rfl | hb
        · simpa using ha
        · simpa using hall b hb
      have h2 : (a :: l).filter (fun a => !decide (f a ≤ p)) = a :: l := by
        rw [List.filter_eq_self]
        intro b hb
        rcases List.mem_cons.mp hb with rfl | hb
        · simpa using ha
        · simpa using hall b hb
      rw [h1, h2]; rfl

/-! ### The analysis beside all names -/

/-- the captures up to the cursor -/
def capsUpTo (digit : Char → Bool) (root : Syn) (p : Point) : List Capture :=
  (root.flat.filter fun n => decide (n.start ≤ p)).flatMap fun n => (objCaps digit n).flatten

theorem mem_capsUpTo {digit : Char → Bool} {root : Syn} {p : Point} {c : Capture} :
    c ∈ capsUpTo digit root p ↔ ∃ n ∈ root.flat, n.start ≤ p ∧ c ∈ (objCaps digit n).flatten := by
  unfold capsUpTo
  simp only [List.mem_flatMap, List.mem_filter, decide_eq_true_eq, and_assoc]

theorem capsUpTo_sorted {digit : Char → Bool} {root : Syn} (hl : Laid root) (p : Point) :
    (capsUpTo digit root p).Pairwise fun a b => a.start ≤ b.start := by
  have h : (root.flat.filter fun n => decide (n.start ≤ p)).Pairwise fun a b => a.start ≤ b.start :=
    (hl.order.imp fun h => h.1).sublist List.filter_sublist
  unfold capsUpTo
  revert h
  generalize (root.flat.filter fun n => decide (n.start ≤ p)) = l
  intro h
  induction l with
  | nil => exact List.Pairwise.nil
  | cons n l ih =>
    rw [List.pairwise_cons] at h
    rw [List.flatMap_cons, List.pairwise_append]
    refine ⟨?_, ih h.2, ?_⟩
    · refine List.Pairwise.imp_of_mem (R := fun _ _ => True) ?_ (List.pairwise_of_forall fun _ _ => trivial)
      intro a b ha hb _
      rw [(objCaps_mem ha).1, (objCaps_mem hb).1]
      exact Point.le_refl _
    · intro a ha b hb
      obtain ⟨m, hm, hb⟩ := List.mem_flatMap.mp hb
      rw [(objCaps_mem ha).1, (objCaps_mem hb).1]
      exact h.1 m hm

theorem isName_of_cap {digit : Char → Bool} {root n : Syn} {c : Capture} (hg : Legible root) (hn : n ∈ root.flat)
    (hc : c ∈ (objCaps digit n).flatten) (h : c.name = .justId) : IsName digit n := by
  obtain ⟨h1, h2, h3⟩ := (objCaps_mem hc).2.2.1 h
  exact ⟨h1, hg n hn, fun h => by rw [numeral_of_isNumeral h] at h2; cases h2⟩

theorem beside_query {env : Env} {sx : Syntax} {tree : Tree} {text : Str} {p : Point} (hr : Regular (sx.root tree text))
    (hb : Beside sx.digit (sx.root tree text) p) :
    ∃ s, objectsQuery (env.over sx) tree p text false = .ok s ∧
      JinjaObjects.Feeds JinjaObjects.default (capsUpTo sx.digit (sx.root tree text) p) s ∧
      JinjaObjects.From (capsUpTo sx.digit (sx.root tree text) p) s := by
  have hc : ((env.over sx).queryMatches .jinjaObjects tree text).flatten = capsUpTo sx.digit (sx.root tree text) p ++
      ((sx.root tree text).flat.filter fun n => !decide (n.start ≤ p)).flatMap fun n => (objCaps sx.digit n).flatten := by
    have h1 : (env.over sx).queryMatches .jinjaObjects tree text = Syn.walk (qObjects sx.digit) [] [] (sx.root tree text) := rfl
    rw [h1, objects_flat, flatten_flatMap]
    conv => lhs; rw [sorted_split Syn.start p (hr.laid.order.imp fun h => h.1)]
    rw [List.flatMap_append]
    rfl
  refine JinjaObjects.idle_query hc ?_ ?_ ?_ ?_ hb.origin
  · intro c hc
    obtain ⟨n, _, h1, h2⟩ := mem_capsUpTo.mp hc
    rw [(objCaps_mem h2).1]; exact h1
  · intro c hc
    obtain ⟨n, hn, h2⟩ := List.mem_flatMap.mp hc
    rw [(objCaps_mem h2).1]
    have := (List.mem_filter.mp hn).2
    simp only [Bool.not_eq_true', decide_eq_false_iff_not] at this
    exact Point.not_le.mp this
  · intro c hc
    obtain ⟨n, hn, h1, h2⟩ := mem_capsUpTo.mp hc
    have hm := objCaps_mem h2
    refine ⟨fun h => hr.correct ⟨n, hn, hm.2.2.2.2.2.2 h⟩, fun h => ?_⟩
    rw [(hm.2.2.2.1 h).2]
    exact hr.legible n hn
  · intro c hc hcn
    obtain ⟨n, hn, h1, h2⟩ := mem_capsUpTo.mp hc
    have := hb.names n hn (isName_of_cap hr.legible hn h2 hcn)
    rw [(objCaps_mem h2).2.1]
    exact Point.not_le.mp fun h => this ⟨h1, h⟩

theorem same_id {root a b : Syn} (hs : WellFormed root) (ha : a ∈ root.flat) (hb : b ∈ root.flat) (h : a.id = b.id) : a = b := by
  have h2 : root.flat.Pairwise fun a b => a.id ≠ b.id := by
    have := hs.ids
    unfold List.Nodup at this
    rwa [List.pairwise_map] at this
  rcases pairwise_either h2 ha hb with e | e | e
  · exact e
  · exact absurd h e
  · exact absurd h.symm e

/-- of two nodes, one contains the other or they are apart -/
theorem apart {root a b : Syn} (hs : WellFormed root) (hl : Laid root) (ha : a ∈ root.flat) (hb : b ∈ root.flat) :
    a = b ∨ b ∈ Syn.flatAll a.children ∨ a ∈ Syn.flatAll b.children ∨ a.stop ≤ b.start ∨ b.stop ≤ a.start := by
  have inner : ∀ {x y : Syn}, x ∈ root.flat → y ∈ root.flat → y.id ∈ x.flat.map Syn.id → x = y ∨ y ∈ Syn.flatAll x.children := by
    intro x y hx hy h
    obtain ⟨z, hz, e⟩ := List.mem_map.mp h
    have hzr : z ∈ root.flat := (flat_sublist root hx).subset hz
    have := same_id hs hzr hy e
    subst this
    rw [flat_eq] at hz
    rcases List.mem_cons.mp hz with e | e
    · exact Or.inl e.symm
    · exact Or.inr e
  rcases pairwise_either hl.order ha hb with h | ⟨_, h | h⟩ | ⟨_, h | h⟩
  · exact Or.inl h
  · rcases inner ha hb h with e | e
    · exact Or.inl e
    · exact Or.inr (Or.inl e)
  · exact Or.inr (Or.inr (Or.inr (Or.inl h)))
  · rcases inner hb ha h with e | e
    · exact Or.inl e.symm
    · exact Or.inr (Or.inr (Or.inl e))
  · exact Or.inr (Or.inr (Or.inr (Or.inr h)))

section Beside
variable {sx : Syntax} {root : Syn} {p : Point} {s : JinjaObjects}

theorem pairwise_split_le {a b : List Capture} {c x : Capture} (h : (a ++ c :: b).Pairwise fun a b => a.start ≤ b.start)
    (hx : x ∈ a ++ c :: b) (hb : x ∉ b) : x.start ≤ c.start := by
  rw [List.pairwise_append] at h
  rcases List.mem_append.mp hx with hx | hx
  · exact h.2.2 x hx c List.mem_cons_self
  · rcases List.mem_cons.mp hx with rfl | hx
    · exact Point.le_refl _
    · exact absurd hx hb

/-- the cursor is at a pipe -/
theorem beside_pipe (hr : Regular root) (hb : Beside sx.digit root p)
    (hf : JinjaObjects.Feeds JinjaObjects.default (capsUpTo sx.digit root p) s) :
    s.inPipe p = true ↔ ∃ k ∈ root.flat, IsPipe k ∧ Touches p k := by
  have hin : s.inPipe p = true ↔ s.pipe.1 ≤ p ∧ p ≤ s.pipe.2 := by simp [JinjaObjects.inPipe]
  rw [hin]
  constructor
  · intro h
    rcases JinjaObjects.feeds_pipe _ _ _ hf with ⟨e, _⟩ | ⟨a, c, b, hs, ⟨hc1, t, hc2, hc3⟩, _, e⟩
    · rw [e] at h
      exact absurd (Point.le_antisymm h.2 (Point.zero_le _)) hb.origin
    · obtain ⟨n, hn, hnp, hcn⟩ := mem_capsUpTo.mp (show c ∈ capsUpTo sx.digit root p by rw [hs]; simp)
      have hm := objCaps_mem hcn
      obtain ⟨k1, k2⟩ := hm.2.2.2.1 hc1
      rw [e, hm.1, hm.2.1] at h
      exact ⟨n, hn, ⟨k1, t, k2 ▸ hc2, hc3⟩, h⟩
  · rintro ⟨k, hk, hkp, h1, h2⟩
    obtain ⟨kc, hkc, hkb⟩ := objCaps_pipe (digit := sx.digit) hkp
    have hmem : kc ∈ capsUpTo sx.digit root p := mem_capsUpTo.mpr ⟨k, hk, h1, hkc⟩
    rcases JinjaObjects.feeds_pipe _ _ _ hf with ⟨_, hno⟩ | ⟨a, c, b, hs, ⟨hc1, _⟩, hlast, e⟩
    · exact absurd hkb (hno kc hmem)
    · obtain ⟨m, hm, hmp, hcm⟩ := mem_capsUpTo.mp (show c ∈ capsUpTo sx.digit root p by rw [hs]; simp)
      have hcaps := objCaps_mem hcm
      have hmk : m.kind = .operator := (hcaps.2.2.2.1 hc1).1
      have hle : k.start ≤ m.start := by
        have := pairwise_split_le (hs ▸ capsUpTo_sorted hr.laid p) (hs ▸ hmem) (fun hx => hlast kc hx hkb)
        rwa [(objCaps_mem hkc).1, hcaps.1] at this
      rw [e, hcaps.1, hcaps.2.1]
      refine ⟨hmp, ?_⟩
      rcases apart hr.formed hr.laid hk hm with rfl | h | h | h | h
      · exact h2
      · rw [hr.words k hk (.inl hkp.1)] at h; cases h
      · rw [hr.words m hm (.inl hmk)] at h; cases h
      · exact Point.le_trans h2 (Point.le_trans h (hr.laid.spans m hm))
      · exact absurd (Point.lt_of_lt_of_le (hr.solid m hm (.inl hmk)) (Point.le_trans h hle)) (Point.lt_irrefl _)

theorem beside_ident (hr : Regular root) (hb : Beside sx.digit root p) (hf : JinjaObjects.From (capsUpTo sx.digit root p) s) :
    s.ident.1 < p ∧ s.ident.2 < p := by
  rcases hf.ident with e | ⟨c, hc, hcn, e⟩
  · rw [e]
    have := Point.lt_iff_le_and_ne.mpr ⟨Point.zero_le p, Ne.symm hb.origin⟩
    exact ⟨this, this⟩
  · obtain ⟨n, hn, h1, h2⟩ := mem_capsUpTo.mp hc
    have := hb.names n hn (isName_of_cap hr.legible hn h2 hcn)
    have h3 : n.stop < p := Point.not_le.mp fun h => this ⟨h1, h⟩
    rw [e, (objCaps_mem h2).1, (objCaps_mem h2).2.1]
    exact ⟨Point.lt_of_le_of_lt (hr.laid.spans n hn) h3, h3⟩

/-- the cursor is inside an expression -/
theorem beside_expr (hr : Regular root) (hb : Beside sx.digit root p)
    (hf : JinjaObjects.Feeds JinjaObjects.default (capsUpTo sx.digit root p) s) (hfrom : JinjaObjects.From (capsUpTo sx.digit root p) s) :
    s.inExpr p = true ↔ ∃ e ∈ root.flat, Within p e := by
  have hid := (beside_ident hr hb hfrom).1
  have hin : s.inExpr p = true ↔ s.expr.1 ≤ p ∧ p < s.expr.2 := by
    unfold JinjaObjects.inExpr
    simp only [hid, decide_true, Bool.and_true]
    by_cases h1 : s.expr.1 ≤ p <;> by_cases h2 : p < s.expr.2 <;> simp [h1, h2]
  rw [hin]
  constructor
  · intro h
    rcases JinjaObjects.feeds_expr _ _ _ hf with ⟨e, _⟩ | ⟨a, c, b, hs, hc, _, e, _⟩
    · rw [e] at h
      exact absurd h.2 (Point.not_lt_zero _)
    · obtain ⟨n, hn, hnp, hcn⟩ := mem_capsUpTo.mp (show c ∈ capsUpTo sx.digit root p by rw [hs]; simp)
      have hm := objCaps_mem hcn
      rw [e, hm.1, hm.2.1] at h
      exact ⟨n, hn, hm.2.2.2.2.1 hc, h⟩
  · rintro ⟨k, hk, hke, h1, h2⟩
    obtain ⟨kc, hkc, hkn⟩ := objCaps_expression (digit := sx.digit) hke
    have hmem : kc ∈ capsUpTo sx.digit root p := mem_capsUpTo.mpr ⟨k, hk, h1, hkc⟩
    rcases JinjaObjects.feeds_expr _ _ _ hf with ⟨_, _, hno⟩ | ⟨a, c, b, hs, hc, hlast, e, _⟩
    · exact absurd hkn (hno kc hmem)
    · obtain ⟨m, hm, hmp, hcm⟩ := mem_capsUpTo.mp (show c ∈ capsUpTo sx.digit root p by rw [hs]; simp)
      have hcaps := objCaps_mem hcm
      have hmk : m.kind = .expression := hcaps.2.2.2.2.1 hc
      have hle : k.start ≤ m.start := by
        have := pairwise_split_le (hs ▸ capsUpTo_sorted hr.laid p) (hs ▸ hmem) (fun hx => hlast kc hx hkn)
        rwa [(objCaps_mem hkc).1, hcaps.1] at this
      rw [e, hcaps.1, hcaps.2.1]
      refine ⟨hmp, ?_⟩
      rcases apart hr.formed hr.laid hk hm with rfl | h | h | h | h
      · exact h2
      · exact absurd hmk (hr.expressions k hk hke m h)
      · exact absurd hke (hr.expressions m hm hmk k h)
      · exact absurd (Point.lt_of_lt_of_le h2 (Point.le_trans h hmp)) (Point.lt_irrefl _)
      · exact absurd (Point.lt_of_lt_of_le (hr.solid m hm (.inr (.inr hmk))) (Point.le_trans h hle)) (Point.lt_irrefl _)

/-- the cursor is after `is` -/
theorem beside_test (hr : Regular root) (hf : JinjaObjects.Feeds JinjaObjects.default (capsUpTo sx.digit root p) s) (k : Syn)
    (hk : k ∈ root.flat) (hi : IsIs k) (h1 : k.stop ≤ p) (h2 : p.row = k.stop.row)
    (hw : ∀ n ∈ root.flat, IsName sx.digit n → k.start ≤ n.start → n.start ≤ p → (tokOf n).text ∈ reserved)
    (ho : ∀ n ∈ root.flat, IsIs n → n.start ≤ p → n.stop ≤ p) : s.isTest p = true := by
  have hkp : k.start ≤ p := Point.le_trans (hr.laid.spans k hk) h1
  obtain ⟨kc, hkc, hkn⟩ := objCaps_isIs (digit := sx.digit) hi
  have hmem : kc ∈ capsUpTo sx.digit root p := mem_capsUpTo.mpr ⟨k, hk, hkp, hkc⟩
  obtain ⟨a, b, hs⟩ := List.append_of_mem hmem
  have hsort := capsUpTo_sorted (digit := sx.digit) hr.laid p
  rw [hs] at hf hsort
  obtain ⟨t, _, ht⟩ := JinjaObjects.feeds_append_inv hf
  have hafter : ∀ c ∈ kc :: b, k.start ≤ c.start := by
    rw [List.pairwise_append, List.pairwise_cons] at hsort
    intro c hc
    rw [← (objCaps_mem hkc).1]
    rcases List.mem_cons.mp hc with rfl | hc
    · exact Point.le_refl _
    · exact hsort.2.1.1 c hc
  have hin : ∀ c ∈ kc :: b, c ∈ capsUpTo sx.digit root p := fun c hc => by rw [hs]; exact List.mem_append_right _ hc
  have hres : ∀ c ∈ kc :: b, c.name = .justId → ∀ v, c.text = some v → v ∈ validIdentifiers := by
    intro c hc hcn v hv
    obtain ⟨n, hn, hnp, hcn'⟩ := mem_capsUpTo.mp (hin c hc)
    have hm := objCaps_mem hcn'
    have h3 := hw n hn (isName_of_cap hr.legible hn hcn' hcn) (hm.1 ▸ hafter c hc) hnp
    have h4 : n.text = some v := by rw [← (hm.2.2.1 hcn).2.2]; exact hv
    simp only [tokOf, h4, Option.getD_some] at h3
    exact h3
  rcases JinjaObjects.feeds_test _ _ _ ht hres with ⟨_, _, hno⟩ | ⟨c, hc, hcn, e1, e2⟩
  · exact absurd hkn (hno kc List.mem_cons_self)
  · obtain ⟨n, hn, hnp, hcn'⟩ := mem_capsUpTo.mp (hin c hc)
    have hm := objCaps_mem hcn'
    have hni := hm.2.2.2.2.2.1 hcn
    have h3 := ho n hn hni hnp
    have h4 : k.start ≤ n.start := hm.1 ▸ hafter c hc
    have h5 : k.stop ≤ n.stop := by
      rcases apart hr.formed hr.laid hk hn with rfl | h | h | h | h
      · exact Point.le_refl _
      · rw [hr.words k hk (.inr hi.1)] at h; cases h
      · rw [hr.words n hn (.inr hni.1)] at h; cases h
      · exact Point.le_trans h (hr.laid.spans n hn)
      · exact absurd (Point.lt_of_lt_of_le (hr.solid n hn (.inr (.inl hni.1))) (Point.le_trans h h4)) (Point.lt_irrefl _)
    have hrow : p.row = n.stop.row := by
      rw [Point.le_def] at h3 h5
      omega
    simp [JinjaObjects.isTest, e1, e2, hm.2.1, h3, hrow]

/-- there is no `is` before the cursor on its line -/
theorem beside_no_test (hf : JinjaObjects.From (capsUpTo sx.digit root p) s)
    (ho : ∀ n ∈ root.flat, IsIs n → ¬ (n.stop ≤ p ∧ p.row = n.stop.row)) : s.isTest p = false := by
  cases h : s.isTest p with
  | false => rfl
  | true =>
    simp only [JinjaObjects.isTest, Bool.and_eq_true, decide_eq_true_eq] at h
    obtain ⟨c, hc, hcn, e⟩ := hf.test h.1.1
    obtain ⟨n, hn, hnp, hcn'⟩ := mem_capsUpTo.mp hc
    have hm := objCaps_mem hcn'
    rw [e, hm.2.1] at h
    exact absurd ⟨h.1.2, h.2⟩ (ho n hn (hm.2.2.2.2.2.1 hcn))

end Beside

/-! ### Errors -/

def isBlock (c : Capture) : Bool := decide (c.name = .errorBlock)

mutual
theorem snippets_clean : ∀ (n : Syn) (up : List Above) (left : List Syn), (∀ m ∈ n.flat, m.kind ≠ .error) →
    ((Syn.walk qSnippets up left n).flatten.filter isBlock) = []
  | .node k f i a b t cs, up, left, hn => by
    have hk : k ≠ .error := hn _ (flat_self _)
    have henter : ((qSnippets .enter up left (.node k f i a b t cs)).flatten.filter isBlock) = [] := by
      rw [List.filter_eq_nil_iff]
      intro c hc
      simp only [qSnippets] at hc
      split at hc
      · obtain ⟨_, rfl⟩ := single_mem hc; simp [isBlock, Syn.cap]
      · obtain ⟨_, rfl⟩ := single_mem hc; simp [isBlock, Syn.cap]
      · obtain ⟨_, rfl⟩ := single_mem hc; simp [isBlock, Syn.cap]
      · rename_i h; exact absurd h hk
      · cases hc
    have h1 : qSnippets .leave up left (.node k f i a b t cs) = [] := by simp [qSnippets, Syn.kind, hk]
    simp only [Syn.walk, List.flatten_append, List.filter_append, henter, h1, snippets_cleanAll cs _ _ fun m hm => hn m (List.mem_cons_of_mem _ hm)]
    rfl

theorem snippets_cleanAll : ∀ (ns : List Syn) (up : List Above) (left : List Syn), (∀ m ∈ Syn.flatAll ns, m.kind ≠ .error) →
    ((Syn.walkAll qSnippets up left ns).flatten.filter isBlock) = []
  | [], _, _, _ => rfl
  | n :: ns, up, left, hn => by
    simp only [Syn.walkAll, List.flatten_append, List.filter_append]
    rw [snippets_clean n up left fun m hm => hn m (by simp [Syn.flatAll, hm]),
      snippets_cleanAll ns up _ fun m hm => hn m (by simp [Syn.flatAll, hm])]
    rfl
end

mutual
/-- without nested errors, the regions reported are the errors in document order -/
theorem snippets_walk : ∀ (n : Syn) (up : List Above) (left : List Syn), (∀ a ∈ up.head?, a.1.kind ≠ .error) →
    (∀ m ∈ n.flat, m.kind = .error → ∀ c ∈ Syn.flatAll m.children, c.kind ≠ .error) →
    ((Syn.walk qSnippets up left n).flatten.filter isBlock).map (fun c => (c.start, c.stop)) =
      (n.flat.filter fun n => n.kind = .error).map fun n => (n.start, n.stop)
  | .node k f i a b t cs, up, left, hu, hn => by
    have henter : ((qSnippets .enter up left (.node k f i a b t cs)).flatten.filter isBlock) = [] := by
      rw [List.filter_eq_nil_iff]
      intro c hc
      simp only [qSnippets] at hc
      split at hc
      · obtain ⟨_, rfl⟩ := single_mem hc; simp [isBlock, Syn.cap]
      · obtain ⟨_, rfl⟩ := single_mem hc; simp [isBlock, Syn.cap]
      · obtain ⟨_, rfl⟩ := single_mem hc; simp [isBlock, Syn.cap]
      · split at hc
        · rename_i p l above
          rw [if_neg (hu (p, l) (by simp))] at hc
          cases hc
        · cases hc
      · cases hc
    by_cases hk : k = .error
    · subst hk
      have hin := hn _ (flat_self _) rfl
      have hch : ∀ c ∈ cs, c.kind ≠ .error := fun c hc => hin c (flatAll_self hc)
      have h1 : qSnippets .leave up left (.node .error f i a b t cs) = [[(Syn.node .error f i a b t cs).cap .errorBlock up]] := by
        have : (Syn.node .error f i a b t cs).kind = .error ∧ ∀ c ∈ (Syn.node .error f i a b t cs).children, c.kind ≠ .error := ⟨rfl, hch⟩
        simp only [qSnippets, if_pos this]
      have h2 : ((Syn.flatAll cs).filter fun n => decide (n.kind = .error)) = [] := by
        rw [List.filter_eq_nil_iff]; intro c hc; simpa using hin c hc
      simp only [Syn.walk, Syn.flat, List.flatten_append, List.filter_append, henter, h1, snippets_cleanAll cs _ _ hin]
      rw [List.filter_cons_of_pos (by rfl), h2]
      rfl
    · have hrest := snippets_walkAll cs ((.node k f i a b t cs, left) :: up) [] (fun a ha => by cases ha; exact hk)
        (fun m hm => hn m (List.mem_cons_of_mem _ hm))
      simp only [Syn.walk, Syn.flat, List.flatten_append, List.filter_append, henter, List.nil_append, List.map_append, hrest]
      have h1 : qSnippets .leave up left (.node k f i a b t cs) = [] := by simp [qSnippets, Syn.kind, hk]
      simp [h1, Syn.kind, hk]

theorem snippets_walkAll : ∀ (ns : List Syn) (up : List Above) (left : List Syn), (∀ a ∈ up.head?, a.1.kind ≠ .error) →
    (∀ m ∈ Syn.flatAll ns, m.kind = .error → ∀ c ∈ Syn.flatAll m.children, c.kind ≠ .error) →
    ((Syn.walkAll qSnippets up left ns).flatten.filter isBlock).map (fun c => (c.start, c.stop)) =
      ((Syn.flatAll ns).filter fun n => n.kind = .error).map fun n => (n.start, n.stop)
  | [], _, _, _, _ => rfl
  | n :: ns, up, left, hu, hn => by
    simp only [Syn.walkAll, Syn.flatAll, List.flatten_append, List.filter_append, List.map_append]
    rw [snippets_walk n up left hu fun m hm => hn m (by simp [Syn.flatAll, hm]),
      snippets_walkAll ns up _ hu fun m hm => hn m (by simp [Syn.flatAll, hm])]
end

theorem over_snippets (env : Env) (sx : Syntax) (tree : Tree) (text : Str) :
    (env.over sx).queryMatches .jinjaSnippets tree text = Syn.walk qSnippets [] [] (sx.root tree text) := rfl

/-- a correct text has no broken statement -/
theorem regular_intact {env : Env} {sx : Syntax} {tree : Tree} {text : Str} {p : Point} (h : ¬ HasError (sx.root tree text)) :
    ¬ Broken ((env.over sx).queryMatches .jinjaSnippets tree text).flatten p := by
  rintro ⟨pre, e, post, hc, he, _⟩
  have h1 := snippets_clean (sx.root tree text) [] [] fun m hm hk => h ⟨m, hm, hk⟩
  rw [over_snippets] at hc
  rw [List.filter_eq_nil_iff] at h1
  exact h1 e (by rw [hc]; simp) (by simp [isBlock, he.1])

/-- the first broken statement is the first error -/
theorem broken_iff {env : Env} {sx : Syntax} {tree : Tree} {text : Str} {p : Point} (hl : Laid (sx.root tree text))
    (hn : Unnested (sx.root tree text)) :
    Broken ((env.over sx).queryMatches .jinjaSnippets tree text).flatten p ↔ InFirstError (sx.root tree text) p := by
  have hw := snippets_walk (sx.root tree text) [] [] (fun a h => by cases h) hn
  rw [over_snippets]
  generalize (Syn.walk qSnippets [] [] (sx.root tree text)).flatten = caps at hw ⊢
  have hsort : ((sx.root tree text).flat.filter fun n => n.kind = .error).Pairwise fun a b => a.start ≤ b.start :=
    (hl.order.imp fun h => h.1).sublist List.filter_sublist
  unfold InFirstError
  generalize ((sx.root tree text).flat.filter fun n => n.kind = .error) = errs at hw hsort ⊢
  constructor
  · rintro ⟨pre, e, post, rfl, he, hpre, hp⟩
    have hfe : isBlock e = true := by simp [isBlock, he.1]
    rw [List.filter_append, List.filter_cons_of_pos hfe, List.map_append, List.map_cons] at hw
    cases hf : pre.filter isBlock with
    | nil =>
      rw [hf] at hw
      cases errs with
      | nil => cases hw
      | cons n rest =>
        injection hw with h1 h2
        injection h1 with h3 h4
        exact ⟨n, rest, rfl, h3 ▸ he.2, h4 ▸ hp⟩
    | cons x xs =>
      have hx := List.mem_filter.mp (show x ∈ pre.filter isBlock by rw [hf]; exact List.mem_cons_self)
      refine absurd ⟨by simpa [isBlock] using hx.2, ?_⟩ (hpre x hx.1)
      rw [hf] at hw
      cases errs with
      | nil => cases hw
      | cons n rest =>
        injection hw with h1 h2
        have hmem : (e.start, e.stop) ∈ rest.map fun n => (n.start, n.stop) := by rw [← h2]; simp
        obtain ⟨m, hm, h3⟩ := List.mem_map.mp hmem
        injection h1 with h4 h5
        injection h3 with h6 h7
        rw [List.pairwise_cons] at hsort
        rw [h4]
        exact Point.le_trans (hsort.1 m hm) (h6 ▸ he.2)
  · rintro ⟨n, rest, rfl, h1, h2⟩
    cases hf : caps.filter isBlock with
    | nil => rw [hf] at hw; cases hw
    | cons e xs =>
      rw [hf] at hw
      injection hw with h3 _
      injection h3 with h4 h5
      obtain ⟨pre, post, rfl, hpre, he, _⟩ := List.filter_eq_cons_iff.mp hf
      refine ⟨pre, e, post, rfl, ⟨by simpa [isBlock] using he, h4 ▸ h1⟩, ?_, h5 ▸ h2⟩
      rintro c hc ⟨hcn, _⟩
      exact absurd (by simp [isBlock, hcn]) (hpre c hc)

/-! ### C86 -/

namespace Spec

/-- the user asks for completion, or has typed one of the characters that trigger it -/
def Requested (tr : TriggerKind) : Prop := tr = .invoked ∨ tr = .triggerCharacter

end Spec

/-- the kind of completion is that of the expression analysis -/
theorem kind_of_objects {env : Env} {f : LspFiles} {uri text : Str} {tree : Tree} {pos : Position} {tr : TriggerKind} {o : JinjaObjects}
    {c : CompletionType × Bool} (htr : Requested tr) (hx : fileExt uri = some .template) (hd : f.documents.get? uri = some text)
    (ht : (f.trees .template).get? uri = some tree) (hb : ¬ Broken (env.queryMatches .jinjaSnippets tree text).flatten (toPoint pos))
    (ho : objectsQuery env tree (toPoint pos) text false = .ok o) (hc : o.completion env.profile (toPoint pos) = .ok (some c)) :
    f.completion env uri pos tr = .ok (some c) := by
  have h := snippets_intact env tree text (toPoint pos) hb
  rcases htr with rfl | rfl <;> simp [LspFiles.completion, hx, hd, ht, h, ho, hc]

/-- **C86** (errors) In a template whose errors are not nested, snippets are offered exactly with the cursor in the first error, or at most two
columns before it – and never in a later one. -/
theorem C86_snippets (env : Env) (sx : Syntax) (w : World) (s : Server) (uri text : Str) (tree : Tree) (pos : Position) (tr : TriggerKind)
    (htr : Requested tr) (hx : fileExt uri = some .template) (hd : s.files.documents.get? uri = some text)
    (ht : (s.files.trees .template).get? uri = some tree) (hl : Laid (sx.root tree text)) (hn : Unnested (sx.root tree text))
    (hpos : pos.character + 1 < 4294967296) :
    ((∃ r b, s.files.completion (env.over sx) uri pos tr = .ok (some (.snippets r, b))) ↔ InFirstError (sx.root tree text) (toPoint pos)) ∧
    (InFirstError (sx.root tree text) (toPoint pos) → ∃ items, s.handle (env.over sx) w (.completion uri pos tr) =
      .ok (s, [], .completion (some items)) ∧ items.map (·.label) = snippetTable.map Prod.fst) := by
  have h := C24_snippets (env.over sx) s.files uri tree text pos tr hx hd ht htr hpos
  rw [broken_iff hl hn] at h
  refine ⟨h, fun hf => ?_⟩
  obtain ⟨r, b, hk⟩ := h.mpr hf
  refine ⟨snippetTable.map (snippetItem s.files.isVscode r), by simp only [Server.handle, Server.onCompletion, hk, completionItems], ?_⟩
  rw [List.map_map]
  rfl

/-- **C86** (filters) With the cursor at a pipe and beside all names, all filters are offered. -/
theorem C86_filters (env : Env) (sx : Syntax) (w : World) (s : Server) (uri text : Str) (tree : Tree) (pos : Position) (tr : TriggerKind)
    (htr : Requested tr) (hx : fileExt uri = some .template) (hd : s.files.documents.get? uri = some text)
    (ht : (s.files.trees .template).get? uri = some tree) (hr : Regular (sx.root tree text))
    (hb : Beside sx.digit (sx.root tree text) (toPoint pos)) (hp : ∃ k ∈ (sx.root tree text).flat, IsPipe k ∧ Touches (toPoint pos) k) :
    ∃ items, s.handle (env.over sx) w (.completion uri pos tr) = .ok (s, [], .completion (some items)) ∧
      items.map (fun i => (i.label, i.documentation)) = filterTable.map fun e => (e.1, some e.2) := by
  obtain ⟨o, ho, hf, _⟩ := beside_query (env := env) hr hb
  have h1 := (beside_pipe hr hb hf).mpr hp
  have hk := kind_of_objects (env := env.over sx) (c := (.filter, o.shouldAutoclose)) htr hx hd ht (regular_intact hr.correct) ho
    (by simp [JinjaObjects.completion, h1])
  refine ⟨filterTable.map docItem, by simp only [Server.handle, Server.onCompletion, hk, completionItems], ?_⟩
  rw [List.map_map]
  rfl

/-- **C86** (names) With the cursor inside an expression, beside all names and pipes, the names in force there are offered, each once, besides
exactly the variables of backend files – also directly after `is`. -/
theorem C86_names (env : Env) (sx : Syntax) (w : World) (s : Server) (uri text : Str) (tree : Tree) (is : List Item) (pos : Position)
    (tr : TriggerKind) (htr : Requested tr) (hx : fileExt uri = some .template) (h : Analysed env s.files uri text tree is)
    (hr : Regular (sx.root tree text)) (hb : Beside sx.digit (sx.root tree text) (toPoint pos))
    (hp : ∀ k ∈ (sx.root tree text).flat, IsPipe k → ¬ Touches (toPoint pos) k) (hin : ∃ e ∈ (sx.root tree text).flat, Within (toPoint pos) e) :
    ∃ own rest, s.handle (env.over sx) w (.completion uri pos tr) = .ok (s, [], .completion (some (own ++ rest))) ∧
      (own.map (·.label)).Nodup ∧
      (∀ n, n ∈ own.map (·.label) ↔ ∃ b ∈ Items.bindings (env.rootEnd tree) 0 is, InForce n (toPoint pos) b ∧ b.kind ≠ .jinjaTemplate) ∧
      ∀ n, n ∈ rest.map (·.label) ↔ BackendName s.files n := by
  obtain ⟨hd, ht, vs, hv, hbind⟩ := h
  obtain ⟨o, ho, hf, hfrom⟩ := beside_query (env := env) hr hb
  have h1 : o.inPipe (toPoint pos) = false := by
    cases h : o.inPipe (toPoint pos) with
    | false => rfl
    | true => obtain ⟨k, hk, h2, h3⟩ := (beside_pipe hr hb hf).mp h; exact absurd h3 (hp k hk h2)
  have h2 := (beside_expr hr hb hf hfrom).mpr hin
  have h3 := (beside_ident hr hb hfrom).2
  have hk := kind_of_objects (env := env.over sx) (c := (.identifier, o.shouldAutoclose)) htr hx hd ht (regular_intact hr.correct) ho
    (by simp [JinjaObjects.completion, h1, h2, h3])
  obtain ⟨own, rest, k1, k2, k3, k4⟩ := C38_offered (env.over sx) w s uri pos tr .identifier _ [] vs hk (.inl ⟨rfl, rfl⟩) hv
  refine ⟨own, rest, k1, k2, ?_, k4⟩
  intro n
  rw [k3 n, ← hbind]
  constructor
  · rintro ⟨⟨v, hv, ⟨a, b, c, d⟩, e⟩, _⟩
    exact ⟨v.binding, List.mem_map_of_mem hv, ⟨a, e, c, d⟩, b⟩
  · rintro ⟨b, hb, ⟨a, e, c, d⟩, hb2⟩
    obtain ⟨v, hv, rfl⟩ := List.mem_map.mp hb
    exact ⟨⟨v, hv, ⟨a, hb2, c, d⟩, e⟩, List.nil_prefix⟩

/-- **C86** (tests) With the cursor after `is` on its line but in no expression, beside all names and pipes, all tests are offered as long as only
reserved words such as `not` follow the `is`. -/
theorem C86_tests (env : Env) (sx : Syntax) (w : World) (s : Server) (uri text : Str) (tree : Tree) (pos : Position) (tr : TriggerKind)
    (htr : Requested tr) (hx : fileExt uri = some .template) (hd : s.files.documents.get? uri = some text)
    (ht : (s.files.trees .template).get? uri = some tree) (hr : Regular (sx.root tree text))
    (hb : Beside sx.digit (sx.root tree text) (toPoint pos))
    (hp : ∀ k ∈ (sx.root tree text).flat, IsPipe k → ¬ Touches (toPoint pos) k)
    (hin : ∀ e ∈ (sx.root tree text).flat, ¬ Within (toPoint pos) e) (k : Syn) (hk : k ∈ (sx.root tree text).flat) (hi : IsIs k)
    (h1 : k.stop ≤ toPoint pos) (h2 : pos.line = k.stop.row)
    (hw : ∀ n ∈ (sx.root tree text).flat, IsName sx.digit n → k.start ≤ n.start → n.start ≤ toPoint pos → (tokOf n).text ∈ reserved)
    (ho : ∀ n ∈ (sx.root tree text).flat, IsIs n → n.start ≤ toPoint pos → n.stop ≤ toPoint pos) :
    ∃ items, s.handle (env.over sx) w (.completion uri pos tr) = .ok (s, [], .completion (some items)) ∧
      items.map (fun i => (i.label, i.documentation)) = testTable.map fun e => (e.1, some e.2) := by
  obtain ⟨o, hq, hf, hfrom⟩ := beside_query (env := env) hr hb
  have e1 : o.inPipe (toPoint pos) = false := by
    cases h : o.inPipe (toPoint pos) with
    | false => rfl
    | true => obtain ⟨k, hk, h2, h3⟩ := (beside_pipe hr hb hf).mp h; exact absurd h3 (hp k hk h2)
  have e2 : o.inExpr (toPoint pos) = false := by
    cases h : o.inExpr (toPoint pos) with
    | false => rfl
    | true => obtain ⟨e, he, h2⟩ := (beside_expr hr hb hf hfrom).mp h; exact absurd h2 (hin e he)
  have e3 := beside_test hr hf k hk hi h1 h2 hw ho
  have hk := kind_of_objects (env := env.over sx) (c := (.test, false)) htr hx hd ht (regular_intact hr.correct) hq
    (by simp [JinjaObjects.completion, e1, e2, e3])
  refine ⟨testTable.map docItem, by simp only [Server.handle, Server.onCompletion, hk, completionItems], ?_⟩
  rw [List.map_map]
  rfl

/-- **C86** (nothing) Elsewhere – in no expression, beside all names, pipes and names of templates, without `is` before the cursor on its line –
nothing is offered. -/
theorem C86_nothing (env : Env) (sx : Syntax) (w : World) (s : Server) (uri text : Str) (tree : Tree) (ss : List ImpStmt) (pos : Position)
    (tr : TriggerKind) (htr : Requested tr) (hx : fileExt uri = some .template) (hd : s.files.documents.get? uri = some text)
    (ht : (s.files.trees .template).get? uri = some tree) (hr : Regular (sx.root tree text))
    (hb : Beside sx.digit (sx.root tree text) (toPoint pos)) (hk : (sx.root tree text).kind = .other)
    (hi : Refs sx.options (sx.root tree text).children ss) (hss : ImpStmt.Wf ss)
    (hp : ∀ k ∈ (sx.root tree text).flat, IsPipe k → ¬ Touches (toPoint pos) k)
    (hin : ∀ e ∈ (sx.root tree text).flat, ¬ Within (toPoint pos) e)
    (ho : ∀ n ∈ (sx.root tree text).flat, IsIs n → ¬ (n.stop ≤ toPoint pos ∧ pos.line = n.stop.row))
    (hn : ∀ i ∈ ss, ∀ t ∈ i.names, ¬ (t.start ≤ toPoint pos ∧ toPoint pos ≤ t.stop)) :
    s.handle (env.over sx) w (.completion uri pos tr) = .ok (s, [], .completion none) := by
  obtain ⟨o, hq, hf, hfrom⟩ := beside_query (env := env) hr hb
  have e1 : o.inPipe (toPoint pos) = false := by
    cases h : o.inPipe (toPoint pos) with
    | false => rfl
    | true => obtain ⟨k, hk, h2, h3⟩ := (beside_pipe hr hb hf).mp h; exact absurd h3 (hp k hk h2)
  have e2 : o.inExpr (toPoint pos) = false := by
    cases h : o.inExpr (toPoint pos) with
    | false => rfl
    | true => obtain ⟨e, he, h2⟩ := (beside_expr hr hb hf hfrom).mp h; exact absurd h2 (hin e he)
  have e3 := beside_no_test hfrom ho
  have e4 : o.completion (env.over sx).profile (toPoint pos) = .ok none := by simp [JinjaObjects.completion, e1, e2, e3]
  have e5 := no_template (env := env.over sx) hb.origin (noTemplate_refs hk hi hss hn)
  have e6 := snippets_intact (env.over sx) tree text (toPoint pos) (regular_intact hr.correct)
  have hc : s.files.completion (env.over sx) uri pos tr = .ok none := by
    rcases htr with rfl | rfl <;> simp [LspFiles.completion, hx, hd, ht, e6, hq, e4, e5]
  simp only [Server.handle, Server.onCompletion, hc]

/-! ### Names of templates -/

/-- inside a string there are neither names nor pipes -/
theorem string_beside {digit : Char → Bool} {root n : Syn} {p : Point} (hr : Regular root) (hn : n ∈ root.flat) (hk : n.kind = .string)
    (h1 : n.start < p) (h2 : p < n.stop) : Beside digit root p ∧ ∀ k ∈ root.flat, IsPipe k → ¬ Touches p k := by
  refine ⟨⟨fun h => Point.not_lt_zero _ (h ▸ h1), ?_⟩, ?_⟩
  · rintro m hm hmn ⟨h3, h4⟩
    rcases pairwise_either (laid_leaves hr.formed hr.laid) hm hn with rfl | h | h
    · have := hmn.kind; rw [hk] at this; cases this
    · exact Point.lt_irrefl _ (Point.lt_of_lt_of_le h1 (Point.le_trans h4 (h.2 (.inl hmn.kind))))
    · exact Point.lt_irrefl _ (Point.lt_of_lt_of_le h2 (Point.le_trans (h.2 (.inr hk)) h3))
  · rintro k hkr ⟨hko, _⟩ ⟨h3, h4⟩
    rcases pairwise_either (laid_leaves hr.formed hr.laid) hkr hn with rfl | h | h
    · rw [hk] at hko; cases hko
    · rcases apart hr.formed hr.laid hkr hn with rfl | h' | h' | h' | h'
      · rw [hk] at hko; cases hko
      · rw [hr.words k hkr (.inl hko)] at h'; cases h'
      · have hlt := hr.solid k hkr (.inl hko)
        have hsub : [n, k].Sublist root.flat := by
          refine List.Sublist.trans ?_ (flat_sublist root hn)
          rw [flat_eq]
          exact List.Sublist.cons_cons _ (List.singleton_sublist.mpr h')
        have hs1 := List.rel_of_pairwise_cons ((laid_leaves hr.formed hr.laid).sublist hsub) (List.mem_singleton.mpr rfl)
        exact Point.lt_irrefl _ (Point.lt_of_lt_of_le (Point.lt_of_lt_of_le h2 (hs1.2 (.inr hk))) h3)
      · exact Point.lt_irrefl _ (Point.lt_of_lt_of_le h1 (Point.le_trans h4 h'))
      · exact Point.lt_irrefl _ (Point.lt_of_lt_of_le h2 (Point.le_trans h' h3))
    · exact Point.lt_irrefl _ (Point.lt_of_lt_of_le h2 (Point.le_trans (h.2 (.inr hk)) h3))

/-- a requested completion is answered the same way however it is requested -/
theorem requested {env : Env} {f : LspFiles} {uri : Str} {pos : Position} {tr : TriggerKind} (htr : Requested tr) :
    f.completion env uri pos tr = f.completion env uri pos .invoked := by
  rcases htr with rfl | rfl
  · rfl
  · simp [LspFiles.completion]

/-- what is taken for the part of a quoted name before the cursor -/
theorem completionStart_quoted (prof : Profile) (p : Point) (i : Identifier) (a b : Str) (x : Char) (hx : x.utf8Size = 1)
    (hn : i.name = a ++ x :: b) (hstop : i.stop.column = i.start.column + (1 + (utf8Len a + (1 + utf8Len b)) + 1))
    (hcol : p.column = i.start.column + (1 + utf8Len a + 1)) :
    completionStart prof p i = .ok (some (if a = [] then x :: b else a)) := by
  have hL : utf8Len (a ++ x :: b) = utf8Len a + (1 + utf8Len b) := by simp [utf8Len, hx]
  have e1 : p.column > 0 := by omega
  have e2 : ¬ utf8Len (a ++ x :: b) = 0 := by omega
  have e3 : p.column - 1 ≤ i.stop.column := by omega
  have e4 : i.stop.column - (p.column - 1) = utf8Len b + 2 := by omega
  unfold completionStart
  simp only [hn, e1, if_true, e2, if_false, JinjaObjects.usub_ok prof e3, e4]
  have e5 : (decide (utf8Len b + 2 = 0) || decide (utf8Len b + 2 = 1)) = false := by simp
  simp only [e5, Bool.false_eq_true, if_false]
  by_cases ha : a = []
  · subst ha
    have e6 : utf8Len b + 2 > utf8Len ([] ++ x :: b) := by rw [hL]; simp [utf8Len]; omega
    simp only [List.nil_append] at e6 ⊢
    simp only [e6, if_true]
  · have hap := utf8Len_pos ha
    have e6 : ¬ utf8Len b + 2 > utf8Len (a ++ x :: b) := by omega
    have e7 : utf8Len (a ++ x :: b) - (utf8Len b + 2) + 1 = utf8Len a := by omega
    simp only [e6, if_false, e7, bytePrefix_append, ha]

/-- **C86** (templates) With the cursor inside the quotes of the name of another template, after `a ++ [x]`, the known templates whose URI contains
`a` are offered, or those whose URI contains the whole name if `a` is empty: the last character before the cursor does not count.  (No expression
around it, no `is` before it on its line, and URIs in the templates directory as in `C41_labels_partial`.) -/
theorem C86_templates (env : Env) (sx : Syntax) (w : World) (s : Server) (uri text : Str) (tree : Tree) (ss : List ImpStmt) (pos : Position)
    (tr : TriggerKind) (htr : Requested tr) (hx : fileExt uri = some .template) (hd : s.files.documents.get? uri = some text)
    (ht : (s.files.trees .template).get? uri = some tree) (hr : Regular (sx.root tree text)) (hk : (sx.root tree text).kind = .other)
    (hi : Refs sx.options (sx.root tree text).children ss) (hss : ImpStmt.Wf ss) (hex : ExtrasAfter ss) (i : ImpStmt) (t : Tok) (his : i ∈ ss)
    (hti : t ∈ i.names) (q x : Char) (a b : Str) (hq : q = '"' ∨ q = '\'') (htext : t.text = q :: (a ++ x :: b) ++ [q])
    (hplain : ∀ c ∈ a ++ x :: b, c ≠ '"' ∧ c ≠ '\'') (hxs : x.utf8Size = 1) (hstop : t.stop = ⟨t.start.row, t.start.column + utf8Len t.text⟩)
    (hpos : toPoint pos = ⟨t.start.row, t.start.column + utf8Len (q :: (a ++ [x]))⟩)
    (hin : ∀ e ∈ (sx.root tree text).flat, ¬ Within (toPoint pos) e)
    (ho : ∀ n ∈ (sx.root tree text).flat, IsIs n → ¬ (n.stop ≤ toPoint pos ∧ pos.line = n.stop.row)) (dir root : Str)
    (hdir : dir = root ++ undotted s.files.config.templates) (hne : undotted s.files.config.templates ≠ [])
    (hall : ∀ u, Selected s.files (if a = [] then x :: b else a) u → (∃ rel, u = uriUnder dir rel) ∧
      OnlyAfter (undotted s.files.config.templates) (c!"file://" ++ root) u) :
    ∃ items, s.handle (env.over sx) w (.completion uri pos tr) = .ok (s, [], .completion (some items)) ∧
      ∀ rel, rel ∈ items.map (·.label) ↔ Known s.files (uriUnder dir rel) ∧ Typed (if a = [] then x :: b else a) (uriUnder dir rel) := by
  have hq1 : Char.utf8Size q = 1 := by rcases hq with rfl | rfl <;> decide
  have hlen : utf8Len t.text = 1 + (utf8Len a + (1 + utf8Len b)) + 1 := by
    rw [htext]; simp [utf8Len, hxs, hq1]; omega
  have hplen : utf8Len (q :: (a ++ [x])) = 1 + utf8Len a + 1 := by simp [utf8Len, hxs, hq1]; omega
  have h1 : t.start < toPoint pos := by
    rw [hpos, Point.lt_def]; right; exact ⟨rfl, by show t.start.column < t.start.column + _; omega⟩
  have h2 : toPoint pos < t.stop := by
    rw [hpos, hstop, Point.lt_def]; right
    exact ⟨rfl, by show t.start.column + _ < t.start.column + _; omega⟩
  obtain ⟨⟨n, hn, hnk, e1, e2⟩, before, rest, hon⟩ := onName_tree (env := env) hr.formed hr.laid hk hi hss hex his hti h1 h2
  obtain ⟨hb, hp⟩ := string_beside (digit := sx.digit) hr hn hnk (e1 ▸ h1) (e2 ▸ h2)
  obtain ⟨o, hqo, hf, hfrom⟩ := beside_query (env := env) hr hb
  have k1 : o.inPipe (toPoint pos) = false := by
    cases h : o.inPipe (toPoint pos) with
    | false => rfl
    | true => obtain ⟨k, hk, h2, h3⟩ := (beside_pipe hr hb hf).mp h; exact absurd h3 (hp k hk h2)
  have k2 : o.inExpr (toPoint pos) = false := by
    cases h : o.inExpr (toPoint pos) with
    | false => rfl
    | true => obtain ⟨e, he, h2⟩ := (beside_expr hr hb hf hfrom).mp h; exact absurd h2 (hin e he)
  have k3 := beside_no_test hfrom ho
  have k4 : o.completion (env.over sx).profile (toPoint pos) = .ok none := by simp [JinjaObjects.completion, k1, k2, k3]
  have k6 := snippets_intact (env.over sx) tree text (toPoint pos) (regular_intact hr.correct)
  obtain ⟨y, hy, hyn, ya, yb⟩ := name_under_cursor hon
  rw [stripQuotes_quoted ⟨q, hq, htext⟩, stripQuotes_of_plain hplain] at hyn
  have k7 := completionStart_quoted (env.over sx).profile (toPoint pos) y a b x hxs hyn (by rw [yb, ya, hstop, hlen]) (by rw [hpos, ya, hplen])
  have hc : s.files.completion (env.over sx) uri pos tr =
      .ok (some (.includedTemplate (if a = [] then x :: b else a) (toRange (y.start, y.stop)), false)) := by
    rw [requested htr]
    simp [LspFiles.completion, hx, hd, ht, k6, hqo, k4, hy, k7]
  obtain ⟨items, h3, h4⟩ := C41_labels_partial (env.over sx) w s uri pos tr _ _ _ hc dir root hdir hne hall
  refine ⟨items, h3, fun rel => ?_⟩
  rw [h4 rel]
  unfold Selected
  have hne : (if a = [] then x :: b else a) ≠ [] := by split <;> simp [*]
  rw [if_neg hne]

/-! ### Names being typed -/

/-- the expressions of a sequence of elements -/
def Spec.exprsOf : List Elem → List ((Point × Point) × ExprRange)
  | [] => []
  | .expr _ a b f l :: es => ((a, b), ⟨f, l⟩) :: exprsOf es
  | .op _ :: es => exprsOf es
  | .word _ :: es => exprsOf es
  | .use _ :: es => exprsOf es

theorem lastExpr_eq (acc : (Point × Point) × ExprRange) (es : List Elem) : lastExpr acc es = (exprsOf es).getLastD acc := by
  induction es generalizing acc with
  | nil => rfl
  | cons e es ih =>
    cases e with
    | expr n a b f l => simp only [lastExpr, exprsOf, ih, List.getLastD_cons]
    | op t => simp only [lastExpr, exprsOf, ih]
    | word t => simp only [lastExpr, exprsOf, ih]
    | use u => simp only [lastExpr, exprsOf, ih]

theorem marks_exprs {digit : Char → Bool} {ms : List Syn} {m : Mark} (h : Marks digit ms m) : ∀ n ∈ ms, n.kind ≠ .expression := by
  cases h with
  | «variable» => intro n hn; cases hn
  | filter hp => intro n hn; rw [List.mem_singleton.mp hn, hp.kind]; decide
  | test h1 h2 h3 =>
    intro n hn
    rcases List.mem_cons.mp hn with rfl | hn
    · rw [h1]; decide
    · rw [(h3 n hn).kind]; decide

theorem attrs_exprs {digit : Char → Bool} {ns : List Syn} {as : List (Tok × Tok)} (h : Attrs digit ns as) : ∀ n ∈ ns, n.kind ≠ .expression := by
  induction h with
  | nil => intro n hn; cases hn
  | cons hd hn _ ih =>
    intro n hm
    rcases List.mem_cons.mp hm with rfl | hm
    · rw [hd.kind]; decide
    · rcases List.mem_cons.mp hm with rfl | hm
      · rw [hn.kind]; decide
      · exact ih n hm

theorem no_exprs {ns : List Syn} (h : ∀ n ∈ ns, n.kind ≠ .expression) : (ns.filter fun n => n.kind = .expression) = [] := by
  rw [List.filter_eq_nil_iff]
  intro n hn
  simpa using h n hn

theorem reads_exprs {digit : Char → Bool} {ns : List Syn} {es : List Elem} (h : ReadsOff digit ns es) :
    exprsOf es = (ns.filter fun n => n.kind = .expression).map fun n => ((n.start, n.stop), ⟨n.first, n.last⟩) := by
  induction h with
  | nil => rfl
  | @expr n ns es hn hr ih => simp [exprsOf, hn, ih]
  | @op n ns es hn hr ih => simp [exprsOf, hn.kind, ih]
  | @word n ns es hn hr ih => simp [exprsOf, hn.kind, ih]
  | @use ms fs ns r m as es hm hn ha hr ih =>
    simp only [exprsOf, ih, List.filter_append, List.filter_cons, no_exprs (marks_exprs hm), no_exprs (attrs_exprs ha), hn.kind]
    simp

/-- names of well-formed sequences are not empty -/
theorem use_solid {es : List Elem} {u : Use} (hw : Elems.Wf es) (hu : .use u ∈ es) : u.root.start < u.root.stop := by
  obtain ⟨q, _, ho⟩ := hw.ordered
  exact (JinjaObjects.tok_le _ q u.root ho (List.mem_flatMap.mpr ⟨_, hu, by simp [Elem.toks, Use.toks]⟩)).1

/-- the cursor in a name or at one of its ends, and the expression around it -/
theorem typed_use {env : Env} {sx : Syntax} {tree : Tree} {text : Str} {es : List Elem} {u : Use} {p : Point}
    (hr : Regular (sx.root tree text)) (hro : ReadsTree sx.digit (sx.root tree text) es) (hw : Elems.Wf es)
    (hu : .use u ∈ es) (h1 : u.root.start ≤ p) (h2 : p ≤ u.root.stop)
    (h3 : ∀ n ∈ (sx.root tree text).flat, Relevant sx.digit n → u.root.stop ≤ n.start → p < n.start) :
    ∃ pre rest, OnUse ((env.over sx).queryMatches .jinjaObjects tree text).flatten pre u rest p ∧
      ∀ x ∈ (sx.root tree text).flat, x.kind = .expression → x.start ≤ u.root.start → p < x.stop →
        lastExpr ((Point.zero, Point.zero), ExprRange.default) pre = ((x.start, x.stop), ⟨x.first, x.last⟩) := by
  have hsolid := use_solid hw hu
  have hcaps := over_objects (env := env) hro
  obtain ⟨q, hq, hro⟩ := hro
  obtain ⟨pre, post, rfl⟩ := List.append_of_mem hu
  obtain ⟨n1, ms, fs, n2, r, hns, hr1, hm, hn, ht, ha, hr2⟩ := readsOff_split hro rfl
  have hp : (n1 ++ (ms ++ r :: (fs ++ n2))).Pairwise fun a b => a.start ≤ b.start ∧ (a.kind = .identifier ∨ a.kind = .string → a.stop ≤ b.start) := by
    rw [← hns]; exact (laid_leaves hr.formed hr.laid).sublist List.filter_sublist
  have hmem : ∀ n ∈ n1 ++ (ms ++ r :: (fs ++ n2)), n ∈ (sx.root tree text).flat ∧ Relevant sx.digit n := by
    intro n hn
    rw [← hns, List.mem_filter, hq] at hn
    exact hn
  rw [List.pairwise_append] at hp
  obtain ⟨hp1, hp2, hp3⟩ := hp
  rw [List.pairwise_append] at hp2
  obtain ⟨_, hp4, _⟩ := hp2
  rw [List.pairwise_cons] at hp4
  obtain ⟨hp4, _⟩ := hp4
  have hstart : r.start = u.root.start := by rw [← ht]; rfl
  have hstop : r.stop = u.root.stop := by rw [← ht]; rfl
  refine ⟨pre, (u.fields.flatMap fun f => dotCaps f.1 ++ [f.2.cap .justId]) ++ post.flatMap Elem.caps, ?_, ?_⟩
  · have hok := hw.ok (.use u) hu
    refine ⟨?_, fun e he => hw.ok e (List.mem_append_left _ he), hok.1, hok.2.1, ?_, ?_, h1, h2, ?_⟩
    · rw [hcaps]
      simp [List.flatMap_append, Elem.caps, Use.caps]
    · obtain ⟨z, hz, ho⟩ := hw.ordered
      refine ⟨z, hz, ?_⟩
      rw [List.flatMap_append, List.flatMap_cons] at ho
      refine ordered_append (b := (u.fields.flatMap fun f => [f.1, f.2]) ++ post.flatMap Elem.toks) ?_
      simpa [Elem.toks, Use.toks] using ho
    · intro n a b f l he
      obtain ⟨m, hm1, e⟩ := readsOff_nodes hr1 { name := .expr, id := n, start := a, stop := b, text := some [], firstChild := f, lastChild := l }
        (List.mem_flatMap.mpr ⟨_, he, List.mem_singleton.mpr rfl⟩)
      rw [show a = m.start from e, ← hstart]
      exact (hp3 m hm1 r (by simp)).1
    · intro c hc
      have : ∃ n ∈ fs ++ n2, c.start = n.start := by
        rcases List.mem_append.mp hc with hc | hc
        · obtain ⟨n, hn, e⟩ := attrs_nodes ha c hc; exact ⟨n, List.mem_append_left _ hn, e⟩
        · obtain ⟨n, hn, e⟩ := readsOff_nodes hr2 c hc; exact ⟨n, List.mem_append_right _ hn, e⟩
      obtain ⟨n, hn', e⟩ := this
      rw [e]
      have := hmem n (List.mem_append_right _ (List.mem_append_right _ (List.mem_cons_of_mem _ hn')))
      exact h3 n this.1 this.2 (hstop ▸ (hp4 n hn').2 (.inl hn.kind))
  · intro x hx hxk hx1 hx2
    rw [lastExpr_eq, reads_exprs hr1]
    have hxq : x ∈ n1 ++ (ms ++ r :: (fs ++ n2)) := by
      rw [← hns, List.mem_filter, hq]
      exact ⟨hx, .inr (.inr (.inr (.inl hxk)))⟩
    have hxn : x ∈ n1 := by
      rcases List.mem_append.mp hxq with h | h
      · exact h
      rcases List.mem_append.mp h with h | h
      · exact absurd hxk (marks_exprs hm x h)
      rcases List.mem_cons.mp h with rfl | h
      · rw [hn.kind] at hxk; cases hxk
      · have := (hp4 x h).2 (.inl hn.kind)
        rw [hstop] at this
        exact absurd (Point.lt_of_lt_of_le hsolid (Point.le_trans this hx1)) (Point.lt_irrefl _)
    have hxf : x ∈ n1.filter fun n => n.kind = .expression := List.mem_filter.mpr ⟨hxn, by simpa using hxk⟩
    rcases List.eq_nil_or_concat (n1.filter fun n => n.kind = .expression) with e | ⟨l, m, e⟩
    · rw [e] at hxf; cases hxf
    · rw [List.concat_eq_append] at e
      have hm1 : m ∈ n1.filter fun n => n.kind = .expression := by rw [e]; simp
      obtain ⟨hm2, hmk⟩ := List.mem_filter.mp hm1
      have hmk : m.kind = .expression := by simpa using hmk
      have hmf := (hmem m (List.mem_append_left _ hm2)).1
      have hsort := (hp1.sublist (List.filter_sublist (p := fun n => decide (n.kind = .expression)))).imp fun h => h.1
      rw [e, List.pairwise_append] at hsort
      have hle : x.start ≤ m.start := by
        rw [e] at hxf
        rcases List.mem_append.mp hxf with h | h
        · exact hsort.2.2 x h m (by simp)
        · rw [List.mem_singleton.mp h]; exact Point.le_refl _
      have hmr : m.start ≤ u.root.start := hstart ▸ (hp3 m hm2 r (by simp)).1
      have hxm : x = m := by
        rcases apart hr.formed hr.laid hx hmf with h | h | h | h | h
        · exact h
        · exact absurd hmk (hr.expressions x hx hxk m h)
        · exact absurd hxk (hr.expressions m hmf hmk x h)
        · exact absurd (Point.lt_of_lt_of_le (Point.lt_of_lt_of_le hx2 h) (Point.le_trans hmr h1)) (Point.lt_irrefl _)
        · exact absurd (Point.lt_of_lt_of_le (hr.solid m hmf (.inr (.inr hmk))) (Point.le_trans h hle)) (Point.lt_irrefl _)
      rw [e, hxm]
      simp

/-- **C86** (typing) With the cursor after the characters `typed` of a name inside `{{ … }}` – of a variable, a filter or a test alike –, the names in
force there that begin with them are offered, each once, besides exactly the variables of backend files.  (No other name or operator begins at the
cursor.) -/
theorem C86_typed (env : Env) (sx : Syntax) (w : World) (s : Server) (uri text : Str) (tree : Tree) (is : List Item) (es : List Elem)
    (pos : Position) (tr : TriggerKind) (htr : Requested tr) (hx : fileExt uri = some .template) (h : Analysed env s.files uri text tree is)
    (hr : Regular (sx.root tree text)) (hro : ReadsTree sx.digit (sx.root tree text) es) (hw : Elems.Wf es) (u : Use) (hu : .use u ∈ es)
    (typed untyped : Str) (hn : u.root.text = typed ++ untyped) (hty : typed ≠ [])
    (hstop : u.root.stop = ⟨u.root.start.row, u.root.start.column + utf8Len u.root.text⟩)
    (hpos : toPoint pos = ⟨u.root.start.row, u.root.start.column + utf8Len typed⟩)
    (h3 : ∀ n ∈ (sx.root tree text).flat, Relevant sx.digit n → u.root.stop ≤ n.start → toPoint pos < n.start)
    (e : Syn) (he : e ∈ (sx.root tree text).flat) (hek : e.kind = .expression) (he1 : e.first.2 ≤ u.root.start) (he2 : e.start ≤ u.root.start)
    (he3 : toPoint pos < e.stop) :
    ∃ own rest, s.handle (env.over sx) w (.completion uri pos tr) = .ok (s, [], .completion (some (own ++ rest))) ∧
      (own.map (·.label)).Nodup ∧
      (∀ n, n ∈ own.map (·.label) ↔ (∃ b ∈ Items.bindings (env.rootEnd tree) 0 is, InForce n (toPoint pos) b ∧ b.kind ≠ .jinjaTemplate) ∧
        typed <+: n) ∧
      ∀ n, n ∈ rest.map (·.label) ↔ BackendName s.files n := by
  obtain ⟨hd, ht, vs, hv, hbind⟩ := h
  have htp := utf8Len_pos hty
  have h1 : u.root.start < toPoint pos := by
    rw [hpos, Point.lt_def]; right; exact ⟨rfl, by show u.root.start.column < u.root.start.column + _; omega⟩
  have h2 : toPoint pos ≤ u.root.stop := by
    rw [hpos, hstop, Point.le_def]; right
    refine ⟨rfl, ?_⟩
    show u.root.start.column + _ ≤ u.root.start.column + _
    rw [hn, utf8Len_append]; omega
  obtain ⟨pre, rest, hon, hlast⟩ := typed_use (env := env) hr hro hw hu (Point.le_of_lt h1) h2 h3
  replace hlast := hlast e he hek he2 he3
  obtain ⟨r, b, _, hk⟩ := typed_kind (env.over sx) s.files uri tree text pos hx hd ht (regular_intact hr.correct) pre u rest hon typed untyped hn hty
    (by rw [hstop]) (by have := congrArg Point.column hpos; exact this) (by have := congrArg Point.row hpos; exact this)
    (by rw [hlast]; exact ⟨Point.le_trans he2 (Point.le_of_lt h1), he3⟩) (by rw [hlast]; exact he1)
  rw [← requested htr] at hk
  obtain ⟨own, rest, k1, k2, k3, k4⟩ := C38_offered (env.over sx) w s uri pos tr _ _ typed vs hk (.inr ⟨_, rfl⟩) hv
  refine ⟨own, rest, k1, k2, ?_, k4⟩
  intro n
  rw [k3 n, ← hbind]
  constructor
  · rintro ⟨⟨v, hv, ⟨a, b, c, d⟩, e⟩, f⟩
    exact ⟨⟨v.binding, List.mem_map_of_mem hv, ⟨a, e, c, d⟩, b⟩, f⟩
  · rintro ⟨⟨b, hb, ⟨a, e, c, d⟩, hb2⟩, f⟩
    obtain ⟨v, hv, rfl⟩ := List.mem_map.mp hb
    exact ⟨⟨v, hv, ⟨a, hb2, c, d⟩, e⟩, f⟩

/-! ### Instances -/

namespace Fix

theorem flat_regular : Regular flatRoot :=
  ⟨flat_wellFormed, flat_laid, by unfold Legible; decide, tags_no_error rfl flatTags_read, by decide, by decide, by decide⟩

/-- `{% if a is %}` -/
def isRoot : Syn := .node .other none 900 ⟨0, 0⟩ ⟨0, 13⟩ (some [])
  [st 3 0 13 [lf .keyword 15 0 3 5 c!"if", lf .identifier 16 0 6 7 c!"a", lf .keyword 17 0 8 10 c!"is"]]

theorem is_regular : Regular isRoot :=
  ⟨⟨by decide, by decide, by decide⟩, ⟨by decide, by decide, by decide, by decide⟩, by unfold Legible; decide, by unfold HasError; decide,
    by decide, by decide, by decide⟩

/-- text, `{% fo`, text and `{% b` -/
def faultyRoot : Syn := .node .other none 900 ⟨0, 0⟩ ⟨3, 4⟩ (some [])
  [lf .other 1 0 0 9 c!"some text", .node .error none 2 ⟨1, 4⟩ ⟨1, 9⟩ (some c!"{% fo") [lf .statementBegin 3 1 4 6 c!"{%"],
   lf .other 4 2 0 9 c!"more text", .node .error none 5 ⟨3, 0⟩ ⟨3, 4⟩ (some c!"{% b") [lf .statementBegin 6 3 0 2 c!"{%"]]

end Fix

/-- snippets are offered in the first error and two columns before it, but not in the second -/
example : Laid Fix.faultyRoot ∧ Unnested Fix.faultyRoot ∧ InFirstError Fix.faultyRoot (toPoint ⟨1, 9⟩) ∧ InFirstError Fix.faultyRoot (toPoint ⟨1, 2⟩) ∧
    ¬ InFirstError Fix.faultyRoot (toPoint ⟨1, 1⟩) ∧ ¬ InFirstError Fix.faultyRoot (toPoint ⟨3, 3⟩) := by
  have hl : (Fix.faultyRoot.flat.filter fun n => n.kind = .error) =
      [.node .error none 2 ⟨1, 4⟩ ⟨1, 9⟩ (some c!"{% fo") [Fix.lf .statementBegin 3 1 4 6 c!"{%"],
       .node .error none 5 ⟨3, 0⟩ ⟨3, 4⟩ (some c!"{% b") [Fix.lf .statementBegin 6 3 0 2 c!"{%"]] := rfl
  refine ⟨⟨by decide, by decide, by decide, by decide⟩, by unfold Unnested; decide, ⟨_, _, hl, by decide, by decide⟩, ⟨_, _, hl, by decide, by decide⟩, ?_, ?_⟩
  · rintro ⟨e, rest, h, h1, h2⟩
    rw [hl] at h
    injection h with h _
    subst h
    revert h1; decide
  · rintro ⟨e, rest, h, h1, h2⟩
    rw [hl] at h
    injection h with h _
    subst h
    revert h2; decide

/-- `{{ b |upper }}`: filters at the pipe, … -/
example : Regular Fix.flatRoot ∧ Beside Fix.digit Fix.flatRoot (toPoint ⟨1, 12⟩) ∧
    ∃ k ∈ Fix.flatRoot.flat, IsPipe k ∧ Touches (toPoint ⟨1, 12⟩) k := by
  refine ⟨Fix.flat_regular, ⟨by decide, ?_⟩, Fix.lf .operator 22 1 12 13 c!"|", by simp [Fix.flatRoot, Fix.flatNodes, Syn.flat, Syn.flatAll, Fix.ex, Fix.st, Fix.lf], ⟨rfl, _, rfl, rfl⟩, by decide, by decide⟩
  intro n hn h
  replace h := h.kind
  revert h
  revert n
  unfold Touches
  decide

/-- … names at the end, … -/
example : Beside Fix.digit Fix.flatRoot (toPoint ⟨1, 19⟩) ∧ (∀ k ∈ Fix.flatRoot.flat, IsPipe k → ¬ Touches (toPoint ⟨1, 19⟩) k) ∧
    (∃ e ∈ Fix.flatRoot.flat, Within (toPoint ⟨1, 19⟩) e) ∧
    ∃ b ∈ Items.bindings ⟨9, 9⟩ 0 Fix.flatTags, InForce c!"a" (toPoint ⟨1, 19⟩) b ∧ b.kind ≠ .jinjaTemplate := by
  refine ⟨⟨by decide, ?_⟩, ?_, ?_, ?_⟩
  · intro n hn h
    replace h := h.kind
    revert h
    revert n
    unfold Touches
    decide
  · intro n hn h
    replace h := h.1
    revert h
    revert n
    unfold Touches
    decide
  · unfold Within; decide
  · exact ⟨⟨c!"a", ⟨0, 7⟩, ⟨0, 8⟩, .setVariable, ⟨9, 9⟩⟩, by decide, by unfold InForce; decide, by decide⟩

/-- … names that begin with `up` in the middle of the filter and with `b` at the end of the variable, … -/
example : ReadsTree Fix.digit Fix.flatRoot Fix.flatElems ∧ Elems.Wf Fix.flatElems ∧ .use Fix.useUpper ∈ Fix.flatElems ∧
    Fix.useUpper.root.text = c!"up" ++ c!"per" ∧ Fix.useUpper.root.stop = ⟨1, 13 + utf8Len Fix.useUpper.root.text⟩ ∧
    toPoint ⟨1, 15⟩ = ⟨1, 13 + utf8Len c!"up"⟩ ∧ toPoint ⟨1, 11⟩ = ⟨1, 10 + utf8Len c!"b"⟩ ∧
    (∀ n ∈ Fix.flatRoot.flat, Relevant Fix.digit n → Fix.useUpper.root.stop ≤ n.start → toPoint ⟨1, 15⟩ < n.start) ∧
    (∀ n ∈ Fix.flatRoot.flat, Relevant Fix.digit n → Fix.useB.root.stop ≤ n.start → toPoint ⟨1, 11⟩ < n.start) ∧
    ∃ e ∈ Fix.flatRoot.flat, e.kind = .expression ∧ e.first.2 ≤ Fix.useB.root.start ∧ e.start ≤ Fix.useB.root.start ∧ toPoint ⟨1, 15⟩ < e.stop := by
  refine ⟨Fix.flatElems_read, Fix.flatElems_wf, by simp [Fix.flatElems], rfl, rfl, rfl, rfl, ?_, ?_, ?_⟩
  · intro n hn h; clear h; revert n; decide
  · intro n hn h; clear h; revert n; decide
  · exact ⟨Fix.ex 7 1 7 21 [Fix.lf .identifier 21 1 10 11 c!"b", Fix.lf .operator 22 1 12 13 c!"|", Fix.lf .identifier 23 1 13 18 c!"upper"],
      by simp [Fix.flatRoot, Fix.flatNodes, Syn.flat, Syn.flatAll, Fix.ex, Fix.st, Fix.lf], rfl, by decide, by decide, by decide⟩

/-- … nothing in the statement above, … -/
example : Beside Fix.digit Fix.flatRoot (toPoint ⟨0, 14⟩) ∧ (∀ k ∈ Fix.flatRoot.flat, IsPipe k → ¬ Touches (toPoint ⟨0, 14⟩) k) ∧
    (∀ e ∈ Fix.flatRoot.flat, ¬ Within (toPoint ⟨0, 14⟩) e) ∧
    (∀ n ∈ Fix.flatRoot.flat, IsIs n → ¬ (n.stop ≤ toPoint ⟨0, 14⟩ ∧ 0 = n.stop.row)) := by
  refine ⟨⟨by decide, ?_⟩, ?_, ?_, ?_⟩
  · intro n hn h
    replace h := h.kind
    revert h
    revert n
    unfold Touches
    decide
  · intro n hn h
    replace h := h.1
    revert h
    revert n
    unfold Touches
    decide
  · unfold Within; decide
  · unfold IsIs; decide

/-- … tests after `is` in a statement, … -/
example : Regular Fix.isRoot ∧ Beside Fix.digit Fix.isRoot (toPoint ⟨0, 11⟩) ∧ (∀ e ∈ Fix.isRoot.flat, ¬ Within (toPoint ⟨0, 11⟩) e) ∧
    (∃ k ∈ Fix.isRoot.flat, IsIs k ∧ k.stop ≤ toPoint ⟨0, 11⟩ ∧ 0 = k.stop.row ∧
      ∀ n ∈ Fix.isRoot.flat, IsName Fix.digit n → k.start ≤ n.start → n.start ≤ toPoint ⟨0, 11⟩ → (tokOf n).text ∈ reserved) ∧
    ∀ n ∈ Fix.isRoot.flat, IsIs n → n.start ≤ toPoint ⟨0, 11⟩ → n.stop ≤ toPoint ⟨0, 11⟩ := by
  refine ⟨Fix.is_regular, ⟨by decide, ?_⟩, ?_, ⟨Fix.lf .keyword 17 0 8 10 c!"is", by simp [Fix.isRoot, Syn.flat, Syn.flatAll, Fix.st, Fix.lf], ⟨rfl, rfl⟩, by decide, rfl, ?_⟩, ?_⟩
  · intro n hn h
    replace h := h.kind
    revert h
    revert n
    unfold Touches
    decide
  · unfold Within; decide
  · intro n hn h
    replace h := h.kind
    revert h
    revert n
    decide
  · unfold IsIs; decide

/-- … and templates in `{% extends "x.html" %}` after `x.h` -/
example : Regular Fix.root ∧ Refs Fix.syn.options Fix.root.children Fix.refs ∧ ImpStmt.Wf Fix.refs ∧ ExtrasAfter Fix.refs ∧
    (∃ i ∈ Fix.refs, ∃ t ∈ i.names, t.text = '"' :: (c!"x." ++ 'h' :: c!"tml") ++ ['"'] ∧
      t.stop = ⟨t.start.row, t.start.column + utf8Len t.text⟩ ∧ toPoint ⟨0, 15⟩ = ⟨t.start.row, t.start.column + utf8Len ('"' :: (c!"x." ++ ['h']))⟩) ∧
    (∀ e ∈ Fix.root.flat, ¬ Within (toPoint ⟨0, 15⟩) e) ∧ ∀ n ∈ Fix.root.flat, IsIs n → ¬ (n.stop ≤ toPoint ⟨0, 15⟩ ∧ 0 = n.stop.row) := by
  refine ⟨⟨⟨by decide, by decide, by decide⟩, Fix.root_laid, by unfold Legible; decide, tags_no_error rfl Fix.tags_read, by decide, by decide, by decide⟩,
    Fix.refs_read _, Fix.refs_wf, by unfold ExtrasAfter; decide, ?_, by unfold Within; decide, by unfold IsIs; decide⟩
  exact ⟨_, by simp [Fix.refs]; rfl, Fix.tok 0 11 19 c!"\"x.html\"" 12, by simp [ImpStmt.names], rfl, rfl, rfl⟩

end JinjaLsp
