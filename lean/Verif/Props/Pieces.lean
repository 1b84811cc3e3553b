import Verif.Props.Bindless
import Verif.Props.Offered
/-
  C129: writing on at the end of a template changes nothing that is said about the part before.
  C130: a complete piece of a template has no influence on the tags around it, but for the names it leaves behind.
-/

namespace JinjaLsp
open Spec

namespace Spec

/-- The number of brackets (`matchEnd`) that are open after some tags, if `k` were open before; nothing if a bracket from before is closed. -/
def Items.level : Nat → List Item → Option Nat
  | k, [] => some k
  | k, .leaf _ :: r => Items.level k r
  | k, .opening _ _ :: r => Items.level (k + 1) r
  | k, .inline _ _ :: r => Items.level (k + 1) r
  | 0, .closing _ :: _ => none
  | k + 1, .closing _ :: r => Items.level k r

/-- every bracket opened in it is closed in it, and no other -/
def Items.Complete (is : List Item) : Prop := Items.level 0 is = some 0

/-- The names that tags leave behind for those that follow: those set, and those of macros, outside of the blocks among the tags. -/
def Items.leaves : Nat → List Item → List Str
  | _, [] => []
  | k, .leaf (.set _ _ x _) :: r => (if k = 0 then [x.text] else []) ++ Items.leaves k r
  | k, .leaf _ :: r => Items.leaves k r
  | k, .opening _ (.macro_ _ name _) :: r => (if k = 0 then [name.text] else []) ++ Items.leaves (k + 1) r
  | k, .opening _ _ :: r => Items.leaves (k + 1) r
  | k, .inline _ _ :: r => Items.leaves (k + 1) r
  | k, .closing _ :: r => Items.leaves (k - 1) r

/-- the tags bind and close blocks behind the place only -/
structure Items.Behind (q : Point) (is : List Item) : Prop where
  binds : ∀ i ∈ is, ∀ t ∈ i.heads ++ i.block, q < t.start ∧ q < t.stop
  closes : ∀ e, .closing e ∈ is → q < e.start

/-- the tags close blocks in front of the place only (and not at the very beginning of the file) -/
def Items.InFront (q : Point) (is : List Item) : Prop := ∀ e, .closing e ∈ is → e.start < q ∧ e.start ≠ ⟨0, 0⟩

/-- no two bindings begin at the same place -/
def StartsApart (bs : List Binding) : Prop := ∀ a ∈ bs, ∀ b ∈ bs, a.start = b.start → a = b

end Spec

/-! ### Bindings that are alike at a place -/

/-- the same binding with a scope that may end elsewhere, as `R` permits -/
def Spec.Binding.SameBut (R : Point → Point → Prop) (b b' : Binding) : Prop :=
  b'.name = b.name ∧ b'.start = b.start ∧ b'.stop = b.stop ∧ b'.kind = b.kind ∧ R b.visibleTo b'.visibleTo

/-- the same end, or both behind the place -/
def BothBehind (q p p' : Point) : Prop := p' = p ∨ q < p ∧ q < p'

/-- of no concern for the name between the places -/
def Spec.Binding.Away (n : Str) (q1 q2 : Point) (b : Binding) : Prop :=
  b.name ≠ n ∨ (q2 < b.start ∧ q2 < b.stop) ∨ b.visibleTo < q1 ∧ b.visibleTo ≠ ⟨0, 0⟩

/-- two lists of bindings say the same about a name between two places -/
structure Concur (n : Str) (q1 q2 : Point) (bs bs' : List Binding) : Prop where
  there : ∀ b ∈ bs, b.Away n q1 q2 ∨ ∃ b' ∈ bs', b.SameBut (BothBehind q2) b'
  back : ∀ b' ∈ bs', b'.Away n q1 q2 ∨ ∃ b ∈ bs, b.SameBut (BothBehind q2) b'

namespace Concur
variable {n : Str} {q1 q2 : Point} {bs bs' : List Binding}

theorem exists_iff (h : Concur n q1 q2 bs bs') {P : Binding → Prop} (away : ∀ b, b.Away n q1 q2 → ¬ P b)
    (same : ∀ b b', b.SameBut (BothBehind q2) b' → (P b ↔ P b')) : (∃ b ∈ bs, P b) ↔ ∃ b ∈ bs', P b := by
  constructor
  · rintro ⟨b, hb, hp⟩
    rcases h.there b hb with h | ⟨b', hb', h⟩
    · exact (away b h hp).elim
    · exact ⟨b', hb', (same b b' h).mp hp⟩
  · rintro ⟨b, hb, hp⟩
    rcases h.back b hb with h | ⟨b', hb', h⟩
    · exact (away b h hp).elim
    · exact ⟨b', hb', (same b' b h).mpr hp⟩

theorem not_visible {b : Binding} (h : b.Away n q1 q2) {u : UseInfo} (hn : u.name = n) (h1 : u.range = (q1, q2)) : ¬ b.VisibleAt u := by
  rintro ⟨k1, _, k2, k3⟩
  rw [h1] at k2 k3
  rcases h with h | ⟨h, _⟩ | ⟨h, h0⟩
  · exact h (k1.trans hn)
  · exact Point.lt_irrefl _ (Point.lt_of_lt_of_le h k2)
  · rcases k3 with k3 | k3
    · exact Point.lt_irrefl _ (Point.lt_of_lt_of_le h (Point.le_of_lt k3))
    · exact h0 k3

theorem same_visible {b b' : Binding} (hq : q1 ≤ q2) (h : b.SameBut (BothBehind q2) b') {u : UseInfo} (h1 : u.range = (q1, q2)) :
    b.VisibleAt u ↔ b'.VisibleAt u := by
  obtain ⟨e1, e2, e3, e4, e5⟩ := h
  unfold Binding.VisibleAt
  rw [e1, e2, e4, h1]
  rcases e5 with e5 | ⟨k1, k2⟩
  · rw [e5]
  · simp only [Point.lt_of_le_of_lt hq k1, Point.lt_of_le_of_lt hq k2, true_or]

theorem not_reaches {b : Binding} (h : b.Away n q1 q2) {p : Point} (h1 : q1 ≤ p) (h2 : p ≤ q2) : ¬ Reaches n p b := by
  rintro ⟨k1, k2, k3⟩
  rcases h with h | ⟨h, _⟩ | ⟨h, _⟩
  · exact h k1
  · exact Point.lt_irrefl _ (Point.lt_of_lt_of_le h (Point.le_trans k2 h2))
  · exact Point.lt_irrefl _ (Point.lt_of_lt_of_le h (Point.le_trans h1 k3))

theorem same_reaches {b b' : Binding} (h : b.SameBut (BothBehind q2) b') {p : Point} (h2 : p ≤ q2) : Reaches n p b ↔ Reaches n p b' := by
  obtain ⟨e1, e2, e3, e4, e5⟩ := h
  unfold Reaches
  rw [e1, e2]
  rcases e5 with e5 | ⟨k1, k2⟩
  · rw [e5]
  · simp only [Point.le_trans h2 (Point.le_of_lt k1), Point.le_trans h2 (Point.le_of_lt k2)]

theorem not_inForce {b : Binding} (h : b.Away n q1 q2) {p : Point} (h1 : q1 ≤ p) (h2 : p ≤ q2) : ¬ InForce n p b := by
  rintro ⟨_, k1, k2, k3⟩
  rcases h with h | ⟨_, h⟩ | ⟨h, _⟩
  · exact h k1
  · exact Point.lt_irrefl _ (Point.lt_of_lt_of_le h (Point.le_trans k2 h2))
  · exact Point.lt_irrefl _ (Point.lt_of_lt_of_le h (Point.le_trans h1 k3))

theorem same_inForce {b b' : Binding} (h : b.SameBut (BothBehind q2) b') {p : Point} (h2 : p ≤ q2) : InForce n p b ↔ InForce n p b' := by
  obtain ⟨e1, e2, e3, e4, e5⟩ := h
  unfold InForce
  rw [e1, e3, e4]
  rcases e5 with e5 | ⟨k1, k2⟩
  · rw [e5]
  · simp only [Point.le_trans h2 (Point.le_of_lt k1), Point.le_trans h2 (Point.le_of_lt k2)]

end Concur

/-! ### Bindings of tags with more tags among them -/

/-- open brackets after some tags; end tags without opening tag do not count -/
def Items.after : Nat → List Item → Nat
  | d, [] => d
  | d, .leaf _ :: r => Items.after d r
  | d, .opening _ _ :: r => Items.after (d + 1) r
  | d, .inline _ _ :: r => Items.after (d + 1) r
  | d, .closing _ :: r => Items.after (d - 1) r

theorem matchEnd_before (x : List Item) : ∀ (pre : List Item) (k : Nat),
    (∃ p, ∀ x, matchEnd k (pre ++ x) = some p) ∨ ∃ j, ∀ x, matchEnd k (pre ++ x) = matchEnd j x
  | [], k => .inr ⟨k, fun _ => rfl⟩
  | .leaf _ :: r, k => matchEnd_before x r k
  | .opening _ _ :: r, k => matchEnd_before x r (k + 1)
  | .inline _ _ :: r, k => matchEnd_before x r (k + 1)
  | .closing e :: _, 0 => .inl ⟨e.start, fun _ => rfl⟩
  | .closing _ :: r, k + 1 => matchEnd_before x r k

section
variable {R : Point → Point → Prop} {last last' : Point}

theorem head_bindings_same {h : Head} {i i' o o' : Point} (hi : R i i') (ho : R o o') :
    Zip (Binding.SameBut R) (h.bindings i o) (h.bindings i' o') := by
  have hm : ∀ (k : IdType) (ts : List Tok), Zip (Binding.SameBut R) (ts.map (·.bind k i)) (ts.map (·.bind k i')) := by
    intro k ts
    induction ts with
    | nil => exact .nil
    | cons t ts ih => exact .cons ⟨rfl, rfl, rfl, rfl, hi⟩ ih
  cases h with
  | for_ _ x _ => exact .cons ⟨rfl, rfl, rfl, rfl, hi⟩ .nil
  | with_ _ ts => exact hm _ _
  | macro_ _ x ts => exact .cons ⟨rfl, rfl, rfl, rfl, ho⟩ (hm _ _)
  | block _ x _ => exact .cons ⟨rfl, rfl, rfl, rfl, hi⟩ .nil
  | plain _ _ => exact .nil

theorem zip_append {α β : Type} {R : α → β → Prop} {as as2 : List α} {bs bs2 : List β} (h : Zip R as bs) (h2 : Zip R as2 bs2) :
    Zip R (as ++ as2) (bs ++ bs2) := by
  induction h with
  | nil => exact h2
  | cons h _ ih => exact .cons h ih

/-- the bindings of the tags before are the same, but for the ends of scopes that end among the tags that follow -/
theorem bindings_before {x x' : List Item} (same : ∀ p, R p p) (hl : R last last')
    (hx : ∀ k, R ((matchEnd k x).getD last) ((matchEnd k x').getD last')) : ∀ (pre : List Item) (d : Nat),
    ∃ old old', Items.bindings last d (pre ++ x) = old ++ Items.bindings last (Items.after d pre) x ∧
      Items.bindings last' d (pre ++ x') = old' ++ Items.bindings last' (Items.after d pre) x' ∧ Zip (Binding.SameBut R) old old' := by
  have hm : ∀ (pre : List Item) (k : Nat), R ((matchEnd k (pre ++ x)).getD last) ((matchEnd k (pre ++ x')).getD last') := by
    intro pre k
    rcases matchEnd_before x pre k with ⟨p, h⟩ | ⟨j, h⟩
    · rw [h, h]; exact same p
    · rw [h, h]; exact hx j
  have hd : ∀ (pre : List Item) (d k : Nat), R (if d = 0 then last else (matchEnd k (pre ++ x)).getD last)
      (if d = 0 then last' else (matchEnd k (pre ++ x')).getD last') := by
    intro pre d k
    split
    · exact hl
    · exact hm pre k
  intro pre
  induction pre with
  | nil => exact fun d => ⟨[], [], rfl, rfl, .nil⟩
  | cons i pre ih =>
    intro d
    cases i with
    | leaf l =>
      obtain ⟨old, old', h1, h2, h3⟩ := ih d
      cases l with
      | set dl kw t ts =>
        refine ⟨t.bind .setVariable (if d = 0 then last else (matchEnd 0 (pre ++ x)).getD last) :: old,
          t.bind .setVariable (if d = 0 then last' else (matchEnd 0 (pre ++ x')).getD last') :: old', ?_, ?_,
          .cons ⟨rfl, rfl, rfl, rfl, hd pre d 0⟩ h3⟩
        · simp only [List.cons_append, Items.bindings, h1, Items.after]
        · simp only [List.cons_append, Items.bindings, h2, Items.after]
      | expr ts => exact ⟨old, old', h1, h2, h3⟩
      | stmt dl ts => exact ⟨old, old', h1, h2, h3⟩
    | opening dl h =>
      obtain ⟨old, old', h1, h2, h3⟩ := ih (d + 1)
      refine ⟨_ ++ old, _ ++ old', ?_, ?_, zip_append (head_bindings_same (h := h) (hm pre 0) (hd pre d 1)) h3⟩
      · simp only [List.cons_append, Items.bindings, h1, Items.after, List.append_assoc]
      · simp only [List.cons_append, Items.bindings, h2, Items.after, List.append_assoc]
    | inline kw ts => exact ih (d + 1)
    | closing e => exact ih (d - 1)

end

/-- a complete piece does not take part in the matching of the others -/
theorem level_matchEnd : ∀ {is : List Item} {k m : Nat}, Items.level k is = some m → ∀ x, matchEnd k (is ++ x) = matchEnd m x
  | [], _, _, h, _ => by cases h; rfl
  | .leaf _ :: r, k, m, h, x => level_matchEnd (is := r) h x
  | .opening _ _ :: r, k, m, h, x => level_matchEnd (is := r) h x
  | .inline _ _ :: r, k, m, h, x => level_matchEnd (is := r) h x
  | .closing _ :: r, 0, m, h, x => by cases h
  | .closing _ :: r, k + 1, m, h, x => level_matchEnd (is := r) (k := k) h x

theorem level_add : ∀ {is : List Item} {k m : Nat}, Items.level k is = some m → ∀ j, Items.level (k + j) is = some (m + j)
  | [], _, _, h, _ => by cases h; rfl
  | .leaf _ :: r, k, m, h, j => level_add (is := r) h j
  | .opening _ _ :: r, k, m, h, j => by
    have := level_add (is := r) h j
    simp only [Items.level]
    rw [show k + j + 1 = k + 1 + j by omega]
    exact this
  | .inline _ _ :: r, k, m, h, j => by
    have := level_add (is := r) h j
    simp only [Items.level]
    rw [show k + j + 1 = k + 1 + j by omega]
    exact this
  | .closing _ :: r, 0, m, h, j => by cases h
  | .closing _ :: r, k + 1, m, h, j => by
    rw [show k + 1 + j = (k + j) + 1 by omega]
    exact level_add (is := r) (k := k) h j

/-- a bracket of the piece is closed in it -/
theorem matchEnd_inside : ∀ {is : List Item} {i j : Nat}, Items.level (i + j + 1) is = some 0 →
    ∃ e, .closing e ∈ is ∧ ∀ x, matchEnd i (is ++ x) = some e.start
  | [], i, j, h => by simp [Items.level] at h
  | .leaf _ :: r, i, j, h => by
    obtain ⟨e, h1, h2⟩ := matchEnd_inside (is := r) h
    exact ⟨e, List.mem_cons_of_mem _ h1, h2⟩
  | .opening _ _ :: r, i, j, h => by
    have h : Items.level (i + 1 + j + 1) r = some 0 := by rw [show i + 1 + j + 1 = i + j + 1 + 1 by omega]; exact h
    obtain ⟨e, h1, h2⟩ := matchEnd_inside (is := r) h
    exact ⟨e, List.mem_cons_of_mem _ h1, h2⟩
  | .inline _ _ :: r, i, j, h => by
    have h : Items.level (i + 1 + j + 1) r = some 0 := by rw [show i + 1 + j + 1 = i + j + 1 + 1 by omega]; exact h
    obtain ⟨e, h1, h2⟩ := matchEnd_inside (is := r) h
    exact ⟨e, List.mem_cons_of_mem _ h1, h2⟩
  | .closing e :: r, 0, j, h => ⟨e, List.mem_cons_self, fun _ => rfl⟩
  | .closing e :: r, i + 1, j, h => by
    have h : Items.level (i + j + 1) r = some 0 := by
      rw [show i + 1 + j + 1 = (i + j + 1) + 1 by omega] at h; exact h
    obtain ⟨e, h1, h2⟩ := matchEnd_inside (is := r) h
    exact ⟨e, List.mem_cons_of_mem _ h1, h2⟩

/-- What a binding of a piece is like: it lies at a token of the piece, and its scope ends in the piece unless it is left behind. -/
def OfPiece (k : Nat) (is : List Item) (b : Binding) : Prop :=
  (∃ i ∈ is, ∃ t ∈ i.heads ++ i.block, b.start = t.start ∧ b.stop = t.stop ∧ b.name = t.text) ∧
    ((∃ e, .closing e ∈ is ∧ b.visibleTo = e.start) ∨ b.name ∈ Items.leaves k is)

theorem OfPiece.later {k k' : Nat} {i : Item} {is : List Item} {b : Binding} (h : OfPiece k is b)
    (hl : ∀ n ∈ Items.leaves k is, n ∈ Items.leaves k' (i :: is)) : OfPiece k' (i :: is) b := by
  obtain ⟨⟨j, h1, h2⟩, h3⟩ := h
  exact ⟨⟨j, List.mem_cons_of_mem _ h1, h2⟩, h3.imp (fun ⟨e, h4, h5⟩ => ⟨e, List.mem_cons_of_mem _ h4, h5⟩) (hl _)⟩

/-- the bindings of a complete piece, followed by those of what follows -/
theorem bindings_piece (last : Point) (x : List Item) (j : Nat) : ∀ {is : List Item} {k : Nat}, Items.level k is = some 0 →
    ∃ new, Items.bindings last (k + j) (is ++ x) = new ++ Items.bindings last j x ∧ ∀ b ∈ new, OfPiece k is b
  | [], k, h => by
    cases h
    exact ⟨[], by simp, by simp⟩
  | .leaf (.set d kw t ts) :: r, k, h => by
    obtain ⟨new, h1, h2⟩ := bindings_piece last x j (is := r) (k := k) h
    refine ⟨_ :: new, by simp only [List.cons_append, Items.bindings, h1]; rfl, ?_⟩
    intro b hb
    rcases List.mem_cons.mp hb with rfl | hb
    · refine ⟨⟨_, List.mem_cons_self, t, by simp [Item.heads], rfl, rfl, rfl⟩, ?_⟩
      cases k with
      | zero => exact .inr (by simp [Items.leaves, Tok.bind])
      | succ k =>
        obtain ⟨e, he, hm⟩ := matchEnd_inside (is := r) (i := 0) (j := k) (by rw [Nat.zero_add]; exact h)
        refine .inl ⟨e, List.mem_cons_of_mem _ he, ?_⟩
        simp only [Tok.bind, hm]
        rw [if_neg (by omega)]; rfl
    · exact (h2 b hb).later fun n hn => List.mem_append_right _ hn
  | .leaf (.expr _) :: r, k, h => by
    obtain ⟨new, h1, h2⟩ := bindings_piece last x j (is := r) (k := k) h
    exact ⟨new, h1, fun b hb => (h2 b hb).later fun n hn => hn⟩
  | .leaf (.stmt _ _) :: r, k, h => by
    obtain ⟨new, h1, h2⟩ := bindings_piece last x j (is := r) (k := k) h
    exact ⟨new, h1, fun b hb => (h2 b hb).later fun n hn => hn⟩
  | .opening d hd :: r, k, h => by
    obtain ⟨new, h1, h2⟩ := bindings_piece last x j (is := r) (k := k + 1) h
    obtain ⟨e, he, hm⟩ := matchEnd_inside (is := r) (i := 0) (j := k) (by rw [Nat.zero_add]; exact h)
    refine ⟨_ ++ new, by simp only [List.cons_append, Items.bindings, List.append_assoc, show k + j + 1 = k + 1 + j by omega, h1]; rfl, ?_⟩
    intro b hb
    rcases List.mem_append.mp hb with hb | hb
    · rw [hm] at hb
      have tl : ∀ {b : Binding}, b.visibleTo = e.start → (∃ e, Item.closing e ∈ Item.opening d hd :: r ∧ b.visibleTo = e.start) ∨
          b.name ∈ Items.leaves k (.opening d hd :: r) := fun h => .inl ⟨e, List.mem_cons_of_mem _ he, h⟩
      cases hd <;> simp only [Head.bindings, List.mem_cons, List.mem_map, List.not_mem_nil, or_false] at hb
      · subst hb; exact ⟨⟨_, List.mem_cons_self, _, by simp [Item.heads], rfl, rfl, rfl⟩, tl rfl⟩
      · obtain ⟨t, ht, rfl⟩ := hb
        exact ⟨⟨_, List.mem_cons_self, t, by simp [Item.heads, ht], rfl, rfl, rfl⟩, tl rfl⟩
      · rcases hb with rfl | ⟨t, ht, rfl⟩
        · refine ⟨⟨_, List.mem_cons_self, _, by simp [Item.heads], rfl, rfl, rfl⟩, ?_⟩
          cases k with
          | zero => exact .inr (by simp [Items.leaves, Tok.bind])
          | succ k =>
            obtain ⟨e1, he1, hm1⟩ := matchEnd_inside (is := r) (i := 1) (j := k) (by
              rw [show 1 + k + 1 = k + 1 + 1 by omega]; exact h)
            refine .inl ⟨e1, List.mem_cons_of_mem _ he1, ?_⟩
            simp only [Tok.bind, hm1]
            rw [if_neg (by omega)]; rfl
        · exact ⟨⟨_, List.mem_cons_self, t, by simp [Item.heads, ht], rfl, rfl, rfl⟩, tl rfl⟩
      · subst hb; exact ⟨⟨_, List.mem_cons_self, _, by simp [Item.block], rfl, rfl, rfl⟩, tl rfl⟩
    · refine (h2 b hb).later fun n hn => ?_
      cases hd <;> first | exact hn | exact List.mem_append_right _ hn
  | .inline kw ts :: r, k, h => by
    obtain ⟨new, h1, h2⟩ := bindings_piece last x j (is := r) (k := k + 1) h
    refine ⟨new, by simp only [List.cons_append, Items.bindings, show k + j + 1 = k + 1 + j by omega, h1], fun b hb => (h2 b hb).later fun n hn => hn⟩
  | .closing e :: r, 0, h => by cases h
  | .closing e :: r, k + 1, h => by
    obtain ⟨new, h1, h2⟩ := bindings_piece last x j (is := r) (k := k) h
    refine ⟨new, by simp only [List.cons_append, Items.bindings, show k + 1 + j - 1 = k + j by omega, h1], fun b hb => (h2 b hb).later fun n hn => hn⟩

theorem zip_mem {α β : Type} {R : α → β → Prop} {as : List α} {bs : List β} (h : Zip R as bs) :
    (∀ a ∈ as, ∃ b ∈ bs, R a b) ∧ ∀ b ∈ bs, ∃ a ∈ as, R a b := by
  induction h with
  | nil => exact ⟨fun _ h => (List.not_mem_nil h).elim, fun _ h => (List.not_mem_nil h).elim⟩
  | cons h _ ih =>
    refine ⟨fun a ha => ?_, fun b hb => ?_⟩
    · rcases List.mem_cons.mp ha with rfl | ha
      · exact ⟨_, List.mem_cons_self, h⟩
      · obtain ⟨b, hb, hr⟩ := ih.1 a ha; exact ⟨b, List.mem_cons_of_mem _ hb, hr⟩
    · rcases List.mem_cons.mp hb with rfl | hb
      · exact ⟨_, List.mem_cons_self, h⟩
      · obtain ⟨a, ha, hr⟩ := ih.2 b hb; exact ⟨a, List.mem_cons_of_mem _ ha, hr⟩

theorem matchEnd_closing : ∀ {is : List Item} {k : Nat} {p : Point}, matchEnd k is = some p → ∃ e, .closing e ∈ is ∧ p = e.start
  | [], _, _, h => by cases h
  | .leaf _ :: r, k, p, h => by
    obtain ⟨e, h1, h2⟩ := matchEnd_closing (is := r) h
    exact ⟨e, List.mem_cons_of_mem _ h1, h2⟩
  | .opening _ _ :: r, k, p, h => by
    obtain ⟨e, h1, h2⟩ := matchEnd_closing (is := r) h
    exact ⟨e, List.mem_cons_of_mem _ h1, h2⟩
  | .inline _ _ :: r, k, p, h => by
    obtain ⟨e, h1, h2⟩ := matchEnd_closing (is := r) h
    exact ⟨e, List.mem_cons_of_mem _ h1, h2⟩
  | .closing e :: r, 0, p, h => ⟨e, List.mem_cons_self, (Option.some.inj h).symm⟩
  | .closing _ :: r, k + 1, p, h => by
    obtain ⟨e, h1, h2⟩ := matchEnd_closing (is := r) (k := k) h
    exact ⟨e, List.mem_cons_of_mem _ h1, h2⟩

/-- tags that follow do not matter -/
theorem concur_appended {n : Str} {q1 q2 last last' : Point} {is js : List Item} (hl : q2 < last) (hl' : q2 < last') (hb : Items.Behind q2 js) :
    Concur n q1 q2 (Items.bindings last 0 is) (Items.bindings last' 0 (is ++ js)) := by
  obtain ⟨old, old', h1, h2, h3⟩ := bindings_before (R := BothBehind q2) (last := last) (last' := last') (x := []) (x' := js) (fun _ => .inl rfl)
    (.inr ⟨hl, hl'⟩) (fun k => .inr ⟨hl, by
      rcases h : matchEnd k js with _ | p
      · exact hl'
      · obtain ⟨e, he, rfl⟩ := matchEnd_closing h
        exact hb.closes e he⟩) is 0
  rw [List.append_nil] at h1
  simp only [Items.bindings, List.append_nil] at h1
  obtain ⟨k1, k2⟩ := zip_mem h3
  rw [h1, h2]
  refine ⟨fun b hb => .inr ?_, fun b hm => ?_⟩
  · obtain ⟨b', h4, h5⟩ := k1 b hb
    exact ⟨b', List.mem_append_left _ h4, h5⟩
  · rcases List.mem_append.mp hm with hm | hm
    · exact .inr (k2 b hm)
    · obtain ⟨i, hi, t, ht, e1, e2, _⟩ := bindings_tok hm
      obtain ⟨h4, h5⟩ := hb.binds i hi t ht
      exact .inl (.inr (.inl ⟨e1 ▸ h4, e2 ▸ h5⟩))

/-- a complete piece does not matter, but for the names it leaves behind -/
theorem concur_piece {n : Str} {q1 q2 last last' : Point} {pre seg post : List Item} (hl : last' = last ∨ q2 < last ∧ q2 < last')
    (hc : Items.Complete seg) (hb : Items.Behind q2 seg ∨ Items.InFront q1 seg ∧ n ∉ Items.leaves 0 seg) :
    Concur n q1 q2 (Items.bindings last 0 (pre ++ post)) (Items.bindings last' 0 (pre ++ (seg ++ post))) := by
  have hx : ∀ k, BothBehind q2 ((matchEnd k post).getD last) ((matchEnd k post).getD last') := by
    intro k
    cases matchEnd k post with
    | none => exact hl
    | some p => exact .inl rfl
  obtain ⟨old, old', h1, h2, h3⟩ := bindings_before (R := BothBehind q2) (last := last) (last' := last') (x := post) (x' := seg ++ post)
    (fun _ => .inl rfl) hl (fun k => by
      have := level_add hc k
      rw [Nat.zero_add] at this
      rw [level_matchEnd this post]
      exact hx k) pre 0
  obtain ⟨new, h4, h5⟩ := bindings_piece last' post (Items.after 0 pre) (is := seg) (k := 0) hc
  obtain ⟨end_, end', h6, h7, h8⟩ := bindings_before (R := BothBehind q2) (last := last) (last' := last') (x := []) (x' := [])
    (fun _ => .inl rfl) hl (fun _ => hl) post (Items.after 0 pre)
  simp only [List.append_nil, Items.bindings] at h6 h7
  rw [Nat.zero_add] at h4
  rw [h1, h2, h4, h6, h7]
  obtain ⟨k1, k2⟩ := zip_mem h3
  obtain ⟨k3, k4⟩ := zip_mem h8
  refine ⟨fun b hb => .inr ?_, fun b hm => ?_⟩
  · rcases List.mem_append.mp hb with hb | hb
    · obtain ⟨b', h9, h10⟩ := k1 b hb
      exact ⟨b', List.mem_append_left _ h9, h10⟩
    · obtain ⟨b', h9, h10⟩ := k3 b hb
      exact ⟨b', List.mem_append_right _ (List.mem_append_right _ h9), h10⟩
  · rcases List.mem_append.mp hm with hm | hm
    · obtain ⟨b', h9, h10⟩ := k2 b hm
      exact .inr ⟨b', List.mem_append_left _ h9, h10⟩
    rcases List.mem_append.mp hm with hm | hm
    · obtain ⟨⟨i, hi, t, ht, e1, e2, _⟩, h9⟩ := h5 b hm
      rcases hb with hb | ⟨hb, hn⟩
      · obtain ⟨h10, h11⟩ := hb.binds i hi t ht
        exact .inl (.inr (.inl ⟨e1 ▸ h10, e2 ▸ h11⟩))
      · rcases h9 with ⟨e, he, h9⟩ | h9
        · obtain ⟨h10, h11⟩ := hb e he
          exact .inl (.inr (.inr ⟨h9 ▸ h10, h9 ▸ h11⟩))
        · exact .inl (.inl fun h => hn (h ▸ h9))
    · obtain ⟨b', h9, h10⟩ := k4 b hm
      exact .inr ⟨b', List.mem_append_right _ h9, h10⟩

/-! ### What the server says -/

theorem ordered_spans {p : Point} : ∀ {ts : List Tok}, Ordered p ts → ∀ t ∈ ts, t.start < t.stop
  | [], _, _, h => by cases h
  | t :: ts, h, x, hx => by
    rcases List.mem_cons.mp hx with rfl | hx
    · exact h.2.1
    · exact ordered_spans h.2.2 x hx

theorem use_spans {es : List Elem} (hw : Elems.Wf es) {u : Use} (hu : .use u ∈ es) : u.root.start < u.root.stop := by
  obtain ⟨_, _, ho⟩ := hw.ordered
  exact ordered_spans ho _ (List.mem_flatMap.mpr ⟨_, hu, by simp [Elem.toks, Use.toks]⟩)

section
variable {env : Env} {sx : Syntax} {tree tree' : Tree} {text text' : Str} {is is' : List Item}

/-- a use is reported exactly if it is no filter, no test, and no binding is visible -/
theorem reported_unless {w : World} {s s' : Server} {uri : Str} {out : List Send} {es : List Elem}
    (hk : (sx.root tree text).kind = .other) (hs : WellFormed (sx.root tree text)) (ht : Tags sx.digit (sx.root tree text).children is)
    (hr : ReadsTree sx.digit (sx.root tree text) es) (hw : Elems.Wf es) (hi : s.files.ignoreGlobals = false)
    (h : Analysed (env.over sx) w s uri text tree s' out) {u : Use} (hu : .use u ∈ es) :
    Reported uri out u.root ↔ ¬ (u.info.filter = true ∨ u.info.test = true) ∧ ¬ ∃ b ∈ Items.bindings (env.rootEnd tree) 0 is, b.VisibleAt u.info := by
  obtain ⟨m, r, hm, hh⟩ := h.handled
  obtain ⟨_, _, vs, k1, k2⟩ := C83_analysed env sx w s s' m uri text tree out r is hm h.template hh h.document h.parsed hs hk ht
  obtain ⟨ds, k3, k4⟩ := C25_reports_partial _ w s s' m uri out r _ _ hm h.template hi hh (readObjects_eq h.template h.document h.parsed) k1
  rw [usesIn_elems hw (over_objects hr), k2] at k4
  constructor
  · rintro ⟨ds', h1, rep, h2, e1, e2, e3⟩
    rw [k3] at h1
    have e : (HMap.empty.insert uri ds : HMap Str Diags).get? uri = (HMap.empty.insert uri ds').get? uri := by
      injection h1 with h1 _; injection h1 with h1; rw [h1]
    rw [HMap.get?_insert_self, HMap.get?_insert_self] at e
    cases Option.some.inj e
    obtain ⟨k, n, a, b⟩ := rep
    dsimp only at e1 e2 e3
    subst e1 e2 e3
    rw [k4, reported_iff_verdict hw hu] at h2
    unfold verdict at h2
    split at h2
    · cases h2
    split at h2
    · cases h2
    · exact ⟨‹_›, ‹_›⟩
  · rintro ⟨h1, h2⟩
    have : ∃ k, verdict (Items.bindings (env.rootEnd tree) 0 is) 
        ((Items.bindings (env.rootEnd tree) 0 is).map (·.name) ++ knownElsewhere s.files.variables uri) u.info = some k := by
      unfold verdict
      rw [if_neg h1, if_neg h2]
      split
      · exact ⟨_, rfl⟩
      · split <;> exact ⟨_, rfl⟩
    obtain ⟨k, hk⟩ := this
    refine ⟨ds, k3, ⟨k, _, _, _⟩, ?_, rfl, rfl, rfl⟩
    rw [k4, reported_iff_verdict hw hu]
    exact hk

/-- both are reported, or none -/
theorem reported_concurs {w w' : World} {s s' t t' : Server} {uri uri' : Str} {out out' : List Send} {es es' : List Elem}
    (hk : (sx.root tree text).kind = .other) (hs : WellFormed (sx.root tree text)) (ht : Tags sx.digit (sx.root tree text).children is)
    (hr : ReadsTree sx.digit (sx.root tree text) es) (hw : Elems.Wf es) (hi : s.files.ignoreGlobals = false)
    (h : Analysed (env.over sx) w s uri text tree s' out)
    (hk' : (sx.root tree' text').kind = .other) (hs' : WellFormed (sx.root tree' text')) (ht' : Tags sx.digit (sx.root tree' text').children is')
    (hr' : ReadsTree sx.digit (sx.root tree' text') es') (hw' : Elems.Wf es') (hi' : t.files.ignoreGlobals = false)
    (h' : Analysed (env.over sx) w' t uri' text' tree' t' out') {u : Use} (hu : .use u ∈ es) (hu' : .use u ∈ es')
    (hc : Concur u.root.text u.root.start u.root.stop (Items.bindings (env.rootEnd tree) 0 is) (Items.bindings (env.rootEnd tree') 0 is')) :
    Reported uri out u.root ↔ Reported uri' out' u.root := by
  rw [reported_unless hk hs ht hr hw hi h hu, reported_unless hk' hs' ht' hr' hw' hi' h' hu']
  rw [hc.exists_iff (P := fun b => b.VisibleAt u.info) (fun b hb => Concur.not_visible hb rfl rfl)
    (fun b b' hb => Concur.same_visible (Point.le_of_lt (use_spans hw hu)) hb rfl)]

/-- goto-definition leads to the same place -/
theorem goto_concurs {w w' : World} {s t : Server} {uri uri' : Str} {es es' : List Elem}
    (hx : fileExt uri = some .template) (hx' : fileExt uri' = some .template)
    (h : Spec.Analysed env s.files uri text tree is) (h' : Spec.Analysed env t.files uri' text' tree' is')
    (hs : WellFormed (sx.root tree text)) (hl : Laid (sx.root tree text)) (hr : ReadsTree sx.digit (sx.root tree text) es) (hw : Elems.Wf es)
    (hs' : WellFormed (sx.root tree' text')) (hl' : Laid (sx.root tree' text')) (hr' : ReadsTree sx.digit (sx.root tree' text') es') (hw' : Elems.Wf es')
    {u : Use} (hu : .use u ∈ es) (hu' : .use u ∈ es') {pos : Position} (h1 : u.root.start ≤ toPoint pos) (h2 : toPoint pos < u.root.stop)
    (hf : ∀ b ∈ Items.bindings (env.rootEnd tree) 0 is, Short b) (hf' : ∀ b ∈ Items.bindings (env.rootEnd tree') 0 is', Short b)
    (ha : StartsApart (Items.bindings (env.rootEnd tree) 0 is))
    (hc : Concur u.root.text u.root.start u.root.stop (Items.bindings (env.rootEnd tree) 0 is) (Items.bindings (env.rootEnd tree') 0 is'))
    (hex : ∃ b ∈ Items.bindings (env.rootEnd tree) 0 is, Reaches u.root.text (toPoint pos) b) :
    ∃ b ∈ Items.bindings (env.rootEnd tree) 0 is, Reaches u.root.text (toPoint pos) b ∧
      (∀ b' ∈ Items.bindings (env.rootEnd tree) 0 is, Reaches u.root.text (toPoint pos) b' → b'.start ≤ b.start) ∧
      s.handle (env.over sx) w (.goto uri pos) = .ok (s, [], .goto (some (.scalar
        ⟨uri, ⟨⟨b.start.row, b.start.column⟩, ⟨b.stop.row, b.stop.column⟩⟩⟩))) ∧
      t.handle (env.over sx) w' (.goto uri' pos) = .ok (t, [], .goto (some (.scalar
        ⟨uri', ⟨⟨b.start.row, b.start.column⟩, ⟨b.stop.row, b.stop.column⟩⟩⟩))) := by
  have h2' := Point.le_of_lt h2
  have hex' := (hc.exists_iff (P := Reaches u.root.text (toPoint pos)) (fun b hb => Concur.not_reaches hb h1 h2')
    (fun b b' hb => Concur.same_reaches hb h2')).mp hex
  obtain ⟨b, k1, k2, k3, k4⟩ := C83_goto env sx w s uri text tree is es u pos hx h hs hl hr hw hu h1 h2 hf hex
  obtain ⟨c, l1, l2, l3, l4⟩ := C83_goto env sx w' t uri' text' tree' is' es' u pos hx' h' hs' hl' hr' hw' hu' h1 h2 hf' hex'
  refine ⟨b, k1, k2, k3, k4, ?_⟩
  rcases hc.there b k1 with hb | ⟨b', hb', sb⟩
  · exact (Concur.not_reaches hb h1 h2' k2).elim
  rcases hc.back c l1 with hb | ⟨c', hc', sc⟩
  · exact (Concur.not_reaches hb h1 h2' l2).elim
  have e1 := k3 c' hc' ((Concur.same_reaches sc h2').mpr l2)
  have e2 := l3 b' hb' ((Concur.same_reaches sb h2').mp k2)
  rw [sb.2.1, sc.2.1] at e2
  have e : c' = b := ha c' hc' b k1 (Point.le_antisymm e1 e2)
  rw [e] at sc
  rw [l4, sc.2.1, sc.2.2.1]

/-- hovering shows the same kind -/
theorem hover_concurs {w w' : World} {s t : Server} {uri uri' : Str} {es es' : List Elem}
    (hx : fileExt uri = some .template) (hx' : fileExt uri' = some .template)
    (h : Spec.Analysed env s.files uri text tree is) (h' : Spec.Analysed env t.files uri' text' tree' is')
    (hs : WellFormed (sx.root tree text)) (hl : Laid (sx.root tree text)) (hr : ReadsTree sx.digit (sx.root tree text) es) (hw : Elems.Wf es)
    (hs' : WellFormed (sx.root tree' text')) (hl' : Laid (sx.root tree' text')) (hr' : ReadsTree sx.digit (sx.root tree' text') es') (hw' : Elems.Wf es')
    {u : Use} (hu : .use u ∈ es) (hu' : .use u ∈ es') (hv : u.mark = .variable) {pos : Position} (h1 : u.root.start ≤ toPoint pos)
    (h2 : toPoint pos < u.root.stop) (ha : StartsApart (Items.bindings (env.rootEnd tree) 0 is))
    (hc : Concur u.root.text u.root.start u.root.stop (Items.bindings (env.rootEnd tree) 0 is) (Items.bindings (env.rootEnd tree') 0 is'))
    (hex : ∃ b ∈ Items.bindings (env.rootEnd tree) 0 is, InForce u.root.text u.root.start b) :
    ∃ b ∈ Items.bindings (env.rootEnd tree) 0 is, InForce u.root.text u.root.start b ∧
      (∀ b' ∈ Items.bindings (env.rootEnd tree) 0 is, InForce u.root.text u.root.start b' → b'.start ≤ b.start) ∧
      s.handle (env.over sx) w (.hover uri pos) = .ok (s, [], .hover (some (kindText b.kind))) ∧
      t.handle (env.over sx) w' (.hover uri' pos) = .ok (t, [], .hover (some (kindText b.kind))) := by
  have h0 := Point.le_refl u.root.start
  have h2' := Point.le_of_lt (use_spans hw hu)
  have hex' := (hc.exists_iff (P := InForce u.root.text u.root.start) (fun b hb => Concur.not_inForce hb h0 h2')
    (fun b b' hb => Concur.same_inForce hb h2')).mp hex
  obtain ⟨b, k1, k2, k3, k4⟩ := C83_hover env sx w s uri text tree is es u pos hx h hs hl hr hw hu hv h1 h2 hex
  obtain ⟨c, l1, l2, l3, l4⟩ := C83_hover env sx w' t uri' text' tree' is' es' u pos hx' h' hs' hl' hr' hw' hu' hv h1 h2 hex'
  refine ⟨b, k1, k2, k3, k4, ?_⟩
  rcases hc.there b k1 with hb | ⟨b', hb', sb⟩
  · exact (Concur.not_inForce hb h0 h2' k2).elim
  rcases hc.back c l1 with hb | ⟨c', hc', sc⟩
  · exact (Concur.not_inForce hb h0 h2' l2).elim
  have e1 := k3 c' hc' ((Concur.same_inForce sc h2').mpr l2)
  have e2 := l3 b' hb' ((Concur.same_inForce sb h2').mp k2)
  rw [sb.2.1, sc.2.1] at e2
  have e : c' = b := ha c' hc' b k1 (Point.le_antisymm e1 e2)
  rw [e] at sc
  rw [l4, sc.2.2.2.1]

/-- the same names of the file are offered -/
theorem offered_concurs {w w' : World} {s t : Server} {uri uri' : Str} {pos : Position} {tr : TriggerKind} (htr : Requested tr)
    (hx : fileExt uri = some .template) (hx' : fileExt uri' = some .template)
    (h : Spec.Analysed env s.files uri text tree is) (h' : Spec.Analysed env t.files uri' text' tree' is')
    (hr : Regular (sx.root tree text)) (hb : Beside sx.digit (sx.root tree text) (toPoint pos))
    (hp : ∀ k ∈ (sx.root tree text).flat, IsPipe k → ¬ Touches (toPoint pos) k) (hin : ∃ e ∈ (sx.root tree text).flat, Within (toPoint pos) e)
    (hr' : Regular (sx.root tree' text')) (hb' : Beside sx.digit (sx.root tree' text') (toPoint pos))
    (hp' : ∀ k ∈ (sx.root tree' text').flat, IsPipe k → ¬ Touches (toPoint pos) k) (hin' : ∃ e ∈ (sx.root tree' text').flat, Within (toPoint pos) e)
    (N : Str → Prop)
    (hc : ∀ n, N n → Concur n (toPoint pos) (toPoint pos) (Items.bindings (env.rootEnd tree) 0 is) (Items.bindings (env.rootEnd tree') 0 is')) :
    ∃ own rest own' rest', s.handle (env.over sx) w (.completion uri pos tr) = .ok (s, [], .completion (some (own ++ rest))) ∧
      t.handle (env.over sx) w' (.completion uri' pos tr) = .ok (t, [], .completion (some (own' ++ rest'))) ∧
      (∀ n, n ∈ rest.map (·.label) ↔ BackendName s.files n) ∧ (∀ n, n ∈ rest'.map (·.label) ↔ BackendName t.files n) ∧
      ∀ n, N n → (n ∈ own'.map (·.label) ↔ n ∈ own.map (·.label)) := by
  obtain ⟨own, rest, k1, _, k2, k3⟩ := C86_names env sx w s uri text tree is pos tr htr hx h hr hb hp hin
  obtain ⟨own', rest', l1, _, l2, l3⟩ := C86_names env sx w' t uri' text' tree' is' pos tr htr hx' h' hr' hb' hp' hin'
  refine ⟨own, rest, own', rest', k1, l1, k3, l3, fun n hn => ?_⟩
  rw [k2, l2]
  refine ((hc n hn).exists_iff (P := fun b => InForce n (toPoint pos) b ∧ b.kind ≠ .jinjaTemplate) ?_ ?_).symm
  · exact fun b hb h => Concur.not_inForce hb (Point.le_refl _) (Point.le_refl _) h.1
  · intro b b' hb
    rw [Concur.same_inForce hb (Point.le_refl _), hb.2.2.2.1]

end

/-! ## C129 -/

/-- what becomes of a list of bindings in the outline -/
theorem outline_same {bs bs' : List Binding} (h : Zip (Binding.SameBut fun _ _ => True) bs bs') :
    (bs'.map fun b => ⟨b.name, b.kind.symbolKind, toRange (b.start, b.stop), toRange (b.start, b.stop)⟩ : List DocSymbol) =
      bs.map fun b => ⟨b.name, b.kind.symbolKind, toRange (b.start, b.stop), toRange (b.start, b.stop)⟩ := by
  induction h with
  | nil => rfl
  | cons h _ ih =>
    obtain ⟨e1, e2, e3, e4, _⟩ := h
    rw [List.map_cons, List.map_cons, ih, e1, e2, e3, e4]

theorem outline_analysed {env : Env} {e : Env} {w : World} {s : Server} {uri text : Str} {tree : Tree} {is : List Item}
    (h : Spec.Analysed env s.files uri text tree is) : s.handle e w (.documentSymbol uri) = .ok (s, [], .symbols (some
      ((Items.bindings (env.rootEnd tree) 0 is).map fun b => ⟨b.name, b.kind.symbolKind, toRange (b.start, b.stop), toRange (b.start, b.stop)⟩))) := by
  obtain ⟨_, _, vs, h1, h2⟩ := h
  rw [← h2]
  simp only [Server.handle, LspFiles.documentSymbols, h1, List.map_map, Function.comp_def, Identifier.binding]

/-- **C129** (outline) When tags are written at the end of a template, the outline is what it was, followed by entries for the new tags. -/
theorem C129_outline (env e : Env) (w w' : World) (s t : Server) (uri uri' text text' : Str) (tree tree' : Tree) (is js : List Item)
    (h : Spec.Analysed env s.files uri text tree is) (h' : Spec.Analysed env t.files uri' text' tree' (is ++ js)) :
    ∃ old new, s.handle e w (.documentSymbol uri) = .ok (s, [], .symbols (some old)) ∧
      t.handle e w' (.documentSymbol uri') = .ok (t, [], .symbols (some (old ++ new))) := by
  obtain ⟨old, old', h1, h2, h3⟩ := bindings_before (R := fun _ _ => True) (last := env.rootEnd tree) (last' := env.rootEnd tree') (x := []) (x' := js)
    (fun _ => trivial) trivial (fun _ => trivial) is 0
  rw [List.append_nil] at h1
  simp only [Items.bindings, List.append_nil] at h1
  exact ⟨_, _, outline_analysed h, by rw [outline_analysed h', h1, h2, List.map_append, outline_same h3]⟩

/-- **C129** (reports) … a use of a name that was there before is reported exactly if it was. -/
theorem C129_reports (env : Env) (sx : Syntax) (w w' : World) (s s' t t' : Server) (uri uri' text text' : Str)
    (tree tree' : Tree) (out out' : List Send) (es es' : List Elem) (is js : List Item)
    (hk : (sx.root tree text).kind = .other) (hk' : (sx.root tree' text').kind = .other)
    (hs : WellFormed (sx.root tree text)) (hs' : WellFormed (sx.root tree' text'))
    (ht : Tags sx.digit (sx.root tree text).children is) (ht' : Tags sx.digit (sx.root tree' text').children (is ++ js))
    (hr : ReadsTree sx.digit (sx.root tree text) es) (hw : Elems.Wf es) (hr' : ReadsTree sx.digit (sx.root tree' text') es') (hw' : Elems.Wf es')
    (h : Analysed (env.over sx) w s uri text tree s' out) (h' : Analysed (env.over sx) w' t uri' text' tree' t' out')
    (hi : s.files.ignoreGlobals = false) (hi' : t.files.ignoreGlobals = false)
    (u : Use) (hu : .use u ∈ es) (hu' : .use u ∈ es') (hb : Items.Behind u.root.stop js)
    (he : u.root.stop < env.rootEnd tree) (he' : u.root.stop < env.rootEnd tree') :
    Reported uri out u.root ↔ Reported uri' out' u.root :=
  reported_concurs hk hs ht hr hw hi h hk' hs' ht' hr' hw' hi' h' hu hu' (concur_appended he he' hb)

/-- **C129** (goto-definition) … goto-definition leads from there to the same place. -/
theorem C129_goto (env : Env) (sx : Syntax) (w w' : World) (s t : Server) (uri uri' text text' : Str)
    (tree tree' : Tree) (es es' : List Elem) (is js : List Item)
    (hx : fileExt uri = some .template) (hx' : fileExt uri' = some .template)
    (h : Spec.Analysed env s.files uri text tree is) (h' : Spec.Analysed env t.files uri' text' tree' (is ++ js))
    (hs : WellFormed (sx.root tree text)) (hl : Laid (sx.root tree text)) (hr : ReadsTree sx.digit (sx.root tree text) es) (hw : Elems.Wf es)
    (hs' : WellFormed (sx.root tree' text')) (hl' : Laid (sx.root tree' text')) (hr' : ReadsTree sx.digit (sx.root tree' text') es') (hw' : Elems.Wf es')
    (u : Use) (hu : .use u ∈ es) (hu' : .use u ∈ es') (hb : Items.Behind u.root.stop js)
    (he : u.root.stop < env.rootEnd tree) (he' : u.root.stop < env.rootEnd tree')
    (pos : Position) (h1 : u.root.start ≤ toPoint pos) (h2 : toPoint pos < u.root.stop)
    (hf : ∀ b ∈ Items.bindings (env.rootEnd tree) 0 is, Short b) (hf' : ∀ b ∈ Items.bindings (env.rootEnd tree') 0 (is ++ js), Short b)
    (ha : StartsApart (Items.bindings (env.rootEnd tree) 0 is))
    (hex : ∃ b ∈ Items.bindings (env.rootEnd tree) 0 is, Reaches u.root.text (toPoint pos) b) :
    ∃ b ∈ Items.bindings (env.rootEnd tree) 0 is, Reaches u.root.text (toPoint pos) b ∧
      (∀ b' ∈ Items.bindings (env.rootEnd tree) 0 is, Reaches u.root.text (toPoint pos) b' → b'.start ≤ b.start) ∧
      s.handle (env.over sx) w (.goto uri pos) = .ok (s, [], .goto (some (.scalar
        ⟨uri, ⟨⟨b.start.row, b.start.column⟩, ⟨b.stop.row, b.stop.column⟩⟩⟩))) ∧
      t.handle (env.over sx) w' (.goto uri' pos) = .ok (t, [], .goto (some (.scalar
        ⟨uri', ⟨⟨b.start.row, b.start.column⟩, ⟨b.stop.row, b.stop.column⟩⟩⟩))) :=
  goto_concurs hx hx' h h' hs hl hr hw hs' hl' hr' hw' hu hu' h1 h2 hf hf' ha (concur_appended he he' hb) hex

/-- **C129** (hover) … hovering it shows the same kind of variable. -/
theorem C129_hover (env : Env) (sx : Syntax) (w w' : World) (s t : Server) (uri uri' text text' : Str)
    (tree tree' : Tree) (es es' : List Elem) (is js : List Item)
    (hx : fileExt uri = some .template) (hx' : fileExt uri' = some .template)
    (h : Spec.Analysed env s.files uri text tree is) (h' : Spec.Analysed env t.files uri' text' tree' (is ++ js))
    (hs : WellFormed (sx.root tree text)) (hl : Laid (sx.root tree text)) (hr : ReadsTree sx.digit (sx.root tree text) es) (hw : Elems.Wf es)
    (hs' : WellFormed (sx.root tree' text')) (hl' : Laid (sx.root tree' text')) (hr' : ReadsTree sx.digit (sx.root tree' text') es') (hw' : Elems.Wf es')
    (u : Use) (hu : .use u ∈ es) (hu' : .use u ∈ es') (hb : Items.Behind u.root.stop js)
    (he : u.root.stop < env.rootEnd tree) (he' : u.root.stop < env.rootEnd tree')
    (hv : u.mark = .variable) (pos : Position) (h1 : u.root.start ≤ toPoint pos) (h2 : toPoint pos < u.root.stop)
    (ha : StartsApart (Items.bindings (env.rootEnd tree) 0 is))
    (hex : ∃ b ∈ Items.bindings (env.rootEnd tree) 0 is, InForce u.root.text u.root.start b) :
    ∃ b ∈ Items.bindings (env.rootEnd tree) 0 is, InForce u.root.text u.root.start b ∧
      (∀ b' ∈ Items.bindings (env.rootEnd tree) 0 is, InForce u.root.text u.root.start b' → b'.start ≤ b.start) ∧
      s.handle (env.over sx) w (.hover uri pos) = .ok (s, [], .hover (some (kindText b.kind))) ∧
      t.handle (env.over sx) w' (.hover uri' pos) = .ok (t, [], .hover (some (kindText b.kind))) :=
  hover_concurs hx hx' h h' hs hl hr hw hs' hl' hr' hw' hu hu' hv h1 h2 ha (concur_appended he he' hb) hex

/-- **C129** (completion) … and in the part before the same names of the file are offered. -/
theorem C129_offered (env : Env) (sx : Syntax) (w w' : World) (s t : Server) (uri uri' text text' : Str)
    (tree tree' : Tree) (is js : List Item)
    (pos : Position) (tr : TriggerKind) (htr : Requested tr) (hx : fileExt uri = some .template) (hx' : fileExt uri' = some .template)
    (h : Spec.Analysed env s.files uri text tree is) (h' : Spec.Analysed env t.files uri' text' tree' (is ++ js))
    (hr : Regular (sx.root tree text)) (hb : Beside sx.digit (sx.root tree text) (toPoint pos))
    (hp : ∀ k ∈ (sx.root tree text).flat, IsPipe k → ¬ Touches (toPoint pos) k) (hin : ∃ e ∈ (sx.root tree text).flat, Within (toPoint pos) e)
    (hr' : Regular (sx.root tree' text')) (hb' : Beside sx.digit (sx.root tree' text') (toPoint pos))
    (hp' : ∀ k ∈ (sx.root tree' text').flat, IsPipe k → ¬ Touches (toPoint pos) k) (hin' : ∃ e ∈ (sx.root tree' text').flat, Within (toPoint pos) e) (hj : Items.Behind (toPoint pos) js)
    (he : toPoint pos < env.rootEnd tree) (he' : toPoint pos < env.rootEnd tree') :
    ∃ own rest own' rest', s.handle (env.over sx) w (.completion uri pos tr) = .ok (s, [], .completion (some (own ++ rest))) ∧
      t.handle (env.over sx) w' (.completion uri' pos tr) = .ok (t, [], .completion (some (own' ++ rest'))) ∧
      (∀ n, n ∈ rest.map (·.label) ↔ BackendName s.files n) ∧ (∀ n, n ∈ rest'.map (·.label) ↔ BackendName t.files n) ∧
      ∀ n, n ∈ own'.map (·.label) ↔ n ∈ own.map (·.label) := by
  obtain ⟨own, rest, own', rest', k1, k2, k3, k4, k5⟩ := offered_concurs (w := w) (w' := w') htr hx hx' h h' hr hb hp hin hr' hb' hp' hin' (fun _ => True)
    (fun n _ => concur_appended he he' hj)
  exact ⟨own, rest, own', rest', k1, k2, k3, k4, fun n => k5 n trivial⟩

/-! ## C130 -/

/-- **C130** (outline) A complete piece adds entries to the outline, the others stay as they are. -/
theorem C130_outline_partial (env e : Env) (w w' : World) (s t : Server) (uri uri' text text' : Str) (tree tree' : Tree) (pre seg post : List Item)
    (hc : Items.Complete seg)
    (h : Spec.Analysed env s.files uri text tree (pre ++ post)) (h' : Spec.Analysed env t.files uri' text' tree' (pre ++ (seg ++ post))) :
    ∃ before new after, s.handle e w (.documentSymbol uri) = .ok (s, [], .symbols (some (before ++ after))) ∧
      t.handle e w' (.documentSymbol uri') = .ok (t, [], .symbols (some (before ++ (new ++ after)))) := by
  obtain ⟨old, old', h1, h2, h3⟩ := bindings_before (R := fun _ _ => True) (last := env.rootEnd tree) (last' := env.rootEnd tree') (x := post)
    (x' := seg ++ post) (fun _ => trivial) trivial (fun _ => trivial) pre 0
  obtain ⟨new, h4, _⟩ := bindings_piece (env.rootEnd tree') post (Items.after 0 pre) (is := seg) (k := 0) hc
  obtain ⟨tail, tail', h6, h7, h8⟩ := bindings_before (R := fun _ _ => True) (last := env.rootEnd tree) (last' := env.rootEnd tree') (x := []) (x' := [])
    (fun _ => trivial) trivial (fun _ => trivial) post (Items.after 0 pre)
  simp only [List.append_nil, Items.bindings] at h6 h7
  rw [Nat.zero_add] at h4
  rw [h6] at h1
  rw [h4, h7] at h2
  exact ⟨_, _, _, by rw [outline_analysed h, h1, List.map_append], by
    rw [outline_analysed h', h2, List.map_append, List.map_append, outline_same h3, outline_same h8]⟩

/-- **C130** (reports) A complete piece of a template can be added or removed: a use of a name outside is reported exactly if it was, unless it
follows and the piece leaves that name behind.  Missing: pieces with `else`, `elif` or an inline `if`, see below. -/
theorem C130_reports_partial (env : Env) (sx : Syntax) (w w' : World) (s s' t t' : Server) (uri uri' text text' : Str)
    (tree tree' : Tree) (out out' : List Send) (es es' : List Elem) (pre seg post : List Item)
    (hk : (sx.root tree text).kind = .other) (hk' : (sx.root tree' text').kind = .other)
    (hs : WellFormed (sx.root tree text)) (hs' : WellFormed (sx.root tree' text'))
    (ht : Tags sx.digit (sx.root tree text).children (pre ++ post)) (ht' : Tags sx.digit (sx.root tree' text').children (pre ++ (seg ++ post)))
    (hr : ReadsTree sx.digit (sx.root tree text) es) (hw : Elems.Wf es) (hr' : ReadsTree sx.digit (sx.root tree' text') es') (hw' : Elems.Wf es')
    (h : Analysed (env.over sx) w s uri text tree s' out) (h' : Analysed (env.over sx) w' t uri' text' tree' t' out')
    (hi : s.files.ignoreGlobals = false) (hi' : t.files.ignoreGlobals = false)
    (u : Use) (hu : .use u ∈ es) (hu' : .use u ∈ es') (hc : Items.Complete seg)
    (he : env.rootEnd tree' = env.rootEnd tree ∨ u.root.stop < env.rootEnd tree ∧ u.root.stop < env.rootEnd tree')
    (hb : Items.Behind u.root.stop seg ∨ Items.InFront u.root.start seg ∧ u.root.text ∉ Items.leaves 0 seg) :
    Reported uri out u.root ↔ Reported uri' out' u.root :=
  reported_concurs hk hs ht hr hw hi h hk' hs' ht' hr' hw' hi' h' hu hu' (concur_piece he hc hb)

/-- **C130** (goto-definition) … goto-definition leads from outside to the same place. -/
theorem C130_goto_partial (env : Env) (sx : Syntax) (w w' : World) (s t : Server) (uri uri' text text' : Str)
    (tree tree' : Tree) (es es' : List Elem) (pre seg post : List Item)
    (hx : fileExt uri = some .template) (hx' : fileExt uri' = some .template)
    (h : Spec.Analysed env s.files uri text tree (pre ++ post)) (h' : Spec.Analysed env t.files uri' text' tree' (pre ++ (seg ++ post)))
    (hs : WellFormed (sx.root tree text)) (hl : Laid (sx.root tree text)) (hr : ReadsTree sx.digit (sx.root tree text) es) (hw : Elems.Wf es)
    (hs' : WellFormed (sx.root tree' text')) (hl' : Laid (sx.root tree' text')) (hr' : ReadsTree sx.digit (sx.root tree' text') es') (hw' : Elems.Wf es')
    (u : Use) (hu : .use u ∈ es) (hu' : .use u ∈ es') (hc : Items.Complete seg)
    (he : env.rootEnd tree' = env.rootEnd tree ∨ u.root.stop < env.rootEnd tree ∧ u.root.stop < env.rootEnd tree')
    (hb : Items.Behind u.root.stop seg ∨ Items.InFront u.root.start seg ∧ u.root.text ∉ Items.leaves 0 seg)
    (pos : Position) (h1 : u.root.start ≤ toPoint pos) (h2 : toPoint pos < u.root.stop)
    (hf : ∀ b ∈ Items.bindings (env.rootEnd tree) 0 (pre ++ post), Short b) (hf' : ∀ b ∈ Items.bindings (env.rootEnd tree') 0 (pre ++ (seg ++ post)), Short b)
    (ha : StartsApart (Items.bindings (env.rootEnd tree) 0 (pre ++ post)))
    (hex : ∃ b ∈ Items.bindings (env.rootEnd tree) 0 (pre ++ post), Reaches u.root.text (toPoint pos) b) :
    ∃ b ∈ Items.bindings (env.rootEnd tree) 0 (pre ++ post), Reaches u.root.text (toPoint pos) b ∧
      (∀ b' ∈ Items.bindings (env.rootEnd tree) 0 (pre ++ post), Reaches u.root.text (toPoint pos) b' → b'.start ≤ b.start) ∧
      s.handle (env.over sx) w (.goto uri pos) = .ok (s, [], .goto (some (.scalar
        ⟨uri, ⟨⟨b.start.row, b.start.column⟩, ⟨b.stop.row, b.stop.column⟩⟩⟩))) ∧
      t.handle (env.over sx) w' (.goto uri' pos) = .ok (t, [], .goto (some (.scalar
        ⟨uri', ⟨⟨b.start.row, b.start.column⟩, ⟨b.stop.row, b.stop.column⟩⟩⟩))) :=
  goto_concurs hx hx' h h' hs hl hr hw hs' hl' hr' hw' hu hu' h1 h2 hf hf' ha (concur_piece he hc hb) hex

/-- **C130** (hover) … hovering a variable outside shows the same kind. -/
theorem C130_hover_partial (env : Env) (sx : Syntax) (w w' : World) (s t : Server) (uri uri' text text' : Str)
    (tree tree' : Tree) (es es' : List Elem) (pre seg post : List Item)
    (hx : fileExt uri = some .template) (hx' : fileExt uri' = some .template)
    (h : Spec.Analysed env s.files uri text tree (pre ++ post)) (h' : Spec.Analysed env t.files uri' text' tree' (pre ++ (seg ++ post)))
    (hs : WellFormed (sx.root tree text)) (hl : Laid (sx.root tree text)) (hr : ReadsTree sx.digit (sx.root tree text) es) (hw : Elems.Wf es)
    (hs' : WellFormed (sx.root tree' text')) (hl' : Laid (sx.root tree' text')) (hr' : ReadsTree sx.digit (sx.root tree' text') es') (hw' : Elems.Wf es')
    (u : Use) (hu : .use u ∈ es) (hu' : .use u ∈ es') (hc : Items.Complete seg)
    (he : env.rootEnd tree' = env.rootEnd tree ∨ u.root.stop < env.rootEnd tree ∧ u.root.stop < env.rootEnd tree')
    (hb : Items.Behind u.root.stop seg ∨ Items.InFront u.root.start seg ∧ u.root.text ∉ Items.leaves 0 seg)
    (hv : u.mark = .variable) (pos : Position) (h1 : u.root.start ≤ toPoint pos) (h2 : toPoint pos < u.root.stop)
    (ha : StartsApart (Items.bindings (env.rootEnd tree) 0 (pre ++ post)))
    (hex : ∃ b ∈ Items.bindings (env.rootEnd tree) 0 (pre ++ post), InForce u.root.text u.root.start b) :
    ∃ b ∈ Items.bindings (env.rootEnd tree) 0 (pre ++ post), InForce u.root.text u.root.start b ∧
      (∀ b' ∈ Items.bindings (env.rootEnd tree) 0 (pre ++ post), InForce u.root.text u.root.start b' → b'.start ≤ b.start) ∧
      s.handle (env.over sx) w (.hover uri pos) = .ok (s, [], .hover (some (kindText b.kind))) ∧
      t.handle (env.over sx) w' (.hover uri' pos) = .ok (t, [], .hover (some (kindText b.kind))) :=
  hover_concurs hx hx' h h' hs hl hr hw hs' hl' hr' hw' hu hu' hv h1 h2 ha (concur_piece he hc hb) hex

/-- **C130** (completion) … and outside the same names are offered, but for those the piece leaves behind. -/
theorem C130_offered_partial (env : Env) (sx : Syntax) (w w' : World) (s t : Server) (uri uri' text text' : Str)
    (tree tree' : Tree) (pre seg post : List Item)
    (pos : Position) (tr : TriggerKind) (htr : Requested tr) (hx : fileExt uri = some .template) (hx' : fileExt uri' = some .template)
    (h : Spec.Analysed env s.files uri text tree (pre ++ post)) (h' : Spec.Analysed env t.files uri' text' tree' (pre ++ (seg ++ post)))
    (hr : Regular (sx.root tree text)) (hb : Beside sx.digit (sx.root tree text) (toPoint pos))
    (hp : ∀ k ∈ (sx.root tree text).flat, IsPipe k → ¬ Touches (toPoint pos) k) (hin : ∃ e ∈ (sx.root tree text).flat, Within (toPoint pos) e)
    (hr' : Regular (sx.root tree' text')) (hb' : Beside sx.digit (sx.root tree' text') (toPoint pos))
    (hp' : ∀ k ∈ (sx.root tree' text').flat, IsPipe k → ¬ Touches (toPoint pos) k) (hin' : ∃ e ∈ (sx.root tree' text').flat, Within (toPoint pos) e) (hc : Items.Complete seg)
    (he : env.rootEnd tree' = env.rootEnd tree ∨ toPoint pos < env.rootEnd tree ∧ toPoint pos < env.rootEnd tree')
    (hj : Items.Behind (toPoint pos) seg ∨ Items.InFront (toPoint pos) seg) :
    ∃ own rest own' rest', s.handle (env.over sx) w (.completion uri pos tr) = .ok (s, [], .completion (some (own ++ rest))) ∧
      t.handle (env.over sx) w' (.completion uri' pos tr) = .ok (t, [], .completion (some (own' ++ rest'))) ∧
      (∀ n, n ∈ rest.map (·.label) ↔ BackendName s.files n) ∧ (∀ n, n ∈ rest'.map (·.label) ↔ BackendName t.files n) ∧
      ∀ n, n ∉ Items.leaves 0 seg → (n ∈ own'.map (·.label) ↔ n ∈ own.map (·.label)) :=
  offered_concurs (w := w) (w' := w') htr hx hx' h h' hr hb hp hin hr' hb' hp' hin' (fun n => n ∉ Items.leaves 0 seg)
    (fun n hn => concur_piece he hc (hj.imp id fun h => ⟨h, hn⟩))

/-- **C130** is false for a condition with `else`: once `{% if c %}{% else %}{% endif %}` is in a loop, the report about the loop variable used
after the loop is gone. -/
theorem C130_else_refuted (env : Env) (sx sx' : Syntax) (w w' : World) (s s' t t' : Server) (m m' : Msg) (uri text text' : Str) (tree tree' : Tree)
    (out out' : List Send) (r r' : Reply) (es es' : List Elem) (ss ss' : List ImpStmt) (d d1 d2 : Delims) (kw kw1 kw2 x y : Tok) (ts us vs : List HTok)
    (e e1 : EndTag)
    (h : Shown env sx w s s' m uri text tree out r (.loop d kw x [] ts .done e (.out [.name y] [] .done)) es ss)
    (h' : Shown env sx' w' t t' m' uri text' tree' out' r'
      (.loop d kw x [] ts (.cond d1 kw1 us (.branch d2 kw2 vs .done) e1 .done) e (.out [.name y] [] .done)) es' ss')
    (hu : .use ⟨.variable, y, []⟩ ∈ es) (hu' : .use ⟨.variable, y, []⟩ ∈ es') (hn : x.text = y.text) :
    Reported uri out y ∧ Unreported uri out' y := by
  refine ⟨(h.reports hu rfl).2 ?_, (h'.reports hu' rfl).1 ⟨x.bind .forLoopKey (env.rootEnd tree'), .head _, hn, by simp [Tok.bind], ?_, .inl ?_⟩⟩
  · rintro ⟨b, hb, _, _, _, hv⟩
    have hb : b ∈ [x.bind .forLoopKey e.d.opening.start] := hb
    cases List.mem_singleton.mp hb
    exact h.laid.gone (bs := []) (k := d.opening) List.mem_cons_self List.mem_cons_self hv
  · exact Point.le_of_lt (Point.lt_of_lt_of_le (h'.laid.spans x (by simp [Program.toks, tagToks, HTok.tok])) (Point.le_trans
      (h'.laid.head_rest (s := x) (t := y) (by simp [tagToks]) (by simp [Program.toks, HTok.tok]))
      (Point.le_of_lt (h'.laid.spans y (by simp [Program.toks, tagToks, HTok.tok])))))
  · exact Point.lt_of_lt_of_le (h'.laid.spans y (by simp [Program.toks, tagToks, HTok.tok])) (h'.laid.last y (by simp [Program.toks, tagToks, HTok.tok]))

/-! ### Examples -/

local macro "drawn" : term =>
  `(Fix.shown ⟨by decide +kernel, by decide +kernel, by decide +kernel⟩ rfl rfl (by decide +kernel) rfl ⟨by decide +kernel, by decide +kernel, by decide +kernel⟩
    ⟨by decide +kernel, by decide +kernel, by decide +kernel⟩ ⟨_, _, _, rfl, rfl, rfl⟩)

local macro "regular" : term =>
  `((⟨⟨by decide +kernel, by decide +kernel, by decide +kernel⟩, ⟨by decide +kernel, by decide +kernel, by decide +kernel, by decide +kernel⟩,
    by unfold Legible; decide +kernel, by unfold HasError; decide +kernel, by decide +kernel, by decide +kernel, by decide +kernel⟩ : Regular _))

example : Fix.Opens (.loop (Fix.tagOn 0) (Fix.tk 0 1 c!"for") (Fix.tk 0 2 c!"x") [] [.name (Fix.tk 0 5 c!"y")] .done
      (Fix.endOn 4 c!"endfor") (Fix.outOn 5 c!"x" .done)) [] (Fix.tk 5 1 c!"x") ∧
    Fix.Opens (.loop (Fix.tagOn 0) (Fix.tk 0 1 c!"for") (Fix.tk 0 2 c!"x") [] [.name (Fix.tk 0 5 c!"y")]
      (.cond (Fix.tagOn 1) (Fix.tk 1 1 c!"if") [.name (Fix.tk 1 2 c!"c")] (.branch (Fix.tagOn 2) (Fix.tk 2 1 c!"else") [] .done) (Fix.endOn 3 c!"endif") .done)
      (Fix.endOn 4 c!"endfor") (Fix.outOn 5 c!"x" .done)) [] (Fix.tk 5 1 c!"x") :=
  ⟨⟨drawn, Fix.uses_mem (by decide +kernel)⟩, ⟨drawn, Fix.uses_mem (by decide +kernel)⟩⟩

namespace Fix

/-- ```
{% set b = 1 %}
{% for x in b %}
{{ x }} {{ y }}
{% endfor %}
``` -/
def stemP (rest : Program) : Program :=
  .set (tagOn 0) (tk 0 1 c!"set") (tk 0 2 c!"b") [.eq (tk 0 3 c!"=")]
    (.loop (tagOn 1) (tk 1 1 c!"for") (tk 1 2 c!"x") [] [.name (tk 1 4 c!"b")]
      (.out [.name (tk 2 1 c!"x"), .name (tk 2 2 c!"y")] [] .done) (endOn 3 c!"endfor") rest)

/-- `{% set y = 1 %}{{ y }}` below -/
def moreP : Program := stemP (.set (tagOn 4) (tk 4 1 c!"set") (tk 4 2 c!"y") [.eq (tk 4 3 c!"=")] (outOn 5 c!"y" .done))

/-- `{{ b }} {{ x }}` below -/
def usedP : Program := stemP (.out [.name (tk 4 1 c!"b"), .name (tk 4 2 c!"x")] [] .done)

/-- the same without the loop -/
def unloopedP : Program :=
  .set (tagOn 0) (tk 0 1 c!"set") (tk 0 2 c!"b") [.eq (tk 0 3 c!"=")] (.out [.name (tk 4 1 c!"b"), .name (tk 4 2 c!"x")] [] .done)

/-- the tree of the text `n` is the second -/
def synOf (p p' : Program) : Syntax := { drawSyn p with root := fun _ text => if text = c!"n" then drawRoot p' else drawRoot p }

/-- two templates that the server can have analysed, with a use in both -/
structure Both (p p' : Program) (u : Use) : Prop where
  one : Regular (drawRoot p)
  two : Regular (drawRoot p')
  tags : Tags digit (draw p) p.items
  tags' : Tags digit (draw p') p'.items
  reads : ReadsTree digit (drawRoot p) (plainElems (drawRoot p)) ∧ Elems.Wf (plainElems (drawRoot p))
  reads' : ReadsTree digit (drawRoot p') (plainElems (drawRoot p')) ∧ Elems.Wf (plainElems (drawRoot p'))
  use : .use u ∈ plainElems (drawRoot p)
  use' : .use u ∈ plainElems (drawRoot p')
  handled : ∃ s' out t' out', Analysed (envTwo.over (synOf p p')) emptyWorld server uriA [] treeOne s' out ∧
    Analysed (envTwo.over (synOf p p')) emptyWorld server uriA c!"n" treeTwo t' out'

theorem Both.recorded {p p' : Program} {u : Use} (h : Both p p' u) : ∃ s t : Server,
    Spec.Analysed envTwo s.files uriA [] treeOne p.items ∧ Spec.Analysed envTwo t.files uriA c!"n" treeTwo p'.items := by
  obtain ⟨s', out, t', out', h1, h2⟩ := h.handled
  obtain ⟨m, r, hm, hh⟩ := h1.handled
  obtain ⟨m', r', hm', hh'⟩ := h2.handled
  exact ⟨s', t', C83_analysed _ (synOf p p') _ _ _ m _ _ _ _ r _ hm h1.template hh h1.document h1.parsed h.one.formed rfl h.tags,
    C83_analysed _ (synOf p p') _ _ _ m' _ _ _ _ r' _ hm' h2.template hh' h2.document h2.parsed h.two.formed rfl h.tags'⟩

end Fix

local macro "both" : term =>
  `((⟨regular, regular, Fix.readTags_sound rfl, Fix.readTags_sound rfl, ⟨Fix.plainElems_read rfl, Fix.elems_wf_of (by decide +kernel)⟩,
    ⟨Fix.plainElems_read rfl, Fix.elems_wf_of (by decide +kernel)⟩, Fix.uses_mem (by decide +kernel), Fix.uses_mem (by decide +kernel), _, _, _, _,
    ⟨⟨.didOpen Fix.uriA [], _, .opened _, rfl⟩, by decide, rfl, rfl⟩, ⟨⟨.didOpen Fix.uriA c!"n", _, .opened _, rfl⟩, by decide, rfl, rfl⟩⟩ : Fix.Both _ _ _))

/-- the hypotheses of C129 hold: `y` in the loop, set only later, is reported before and after; `x` leads to the loop, before and after -/
example : Fix.Both (Fix.stemP .done) Fix.moreP ⟨.variable, Fix.tk 2 2 c!"y", []⟩ ∧ Fix.Both (Fix.stemP .done) Fix.moreP ⟨.variable, Fix.tk 2 1 c!"x", []⟩ ∧
    ∃ js, Fix.moreP.items = (Fix.stemP .done).items ++ js ∧ Items.Behind (Fix.tk 2 2 c!"y").stop js ∧ Items.Behind (Fix.tk 2 1 c!"x").stop js ∧
      (∃ t, .leaf (.set (Fix.tagOn 4) (Fix.tk 4 1 c!"set") (Fix.tk 4 2 c!"y") t) ∈ js) ∧
      (Fix.tk 2 2 c!"y").stop < Fix.envTwo.rootEnd Fix.treeOne ∧ (Fix.tk 2 2 c!"y").stop < Fix.envTwo.rootEnd Fix.treeTwo ∧
      (∀ b ∈ Items.bindings (Fix.envTwo.rootEnd Fix.treeOne) 0 (Fix.stemP .done).items, Short b) ∧
      (∀ b ∈ Items.bindings (Fix.envTwo.rootEnd Fix.treeTwo) 0 ((Fix.stemP .done).items ++ js), Short b) ∧
      StartsApart (Items.bindings (Fix.envTwo.rootEnd Fix.treeOne) 0 (Fix.stemP .done).items) ∧
      (∃ b ∈ Items.bindings (Fix.envTwo.rootEnd Fix.treeOne) 0 (Fix.stemP .done).items, Reaches c!"x" (toPoint ⟨2, 13⟩) b) ∧
      ∃ b ∈ Items.bindings (Fix.envTwo.rootEnd Fix.treeOne) 0 (Fix.stemP .done).items, InForce c!"x" ⟨2, 11⟩ b := by
  refine ⟨both, both, _, rfl, ⟨?_, ?_⟩, ⟨?_, ?_⟩, ⟨_, List.mem_cons_self⟩, by decide, by decide, by unfold Short; decide +kernel, by unfold Short; decide +kernel,
    by unfold StartsApart; decide +kernel, by unfold Reaches; decide +kernel, by unfold InForce; decide +kernel⟩
  all_goals first
    | decide +kernel
    | (intro e h
       revert h
       simp [Fix.outOn, Program.items])

/-- … and between `x` and `y` the same names are offered -/
example : Beside Fix.digit (Fix.drawRoot (Fix.stemP .done)) (toPoint ⟨2, 20⟩) ∧ Beside Fix.digit (Fix.drawRoot Fix.moreP) (toPoint ⟨2, 20⟩) ∧
    (∀ k ∈ (Fix.drawRoot (Fix.stemP .done)).flat, IsPipe k → ¬ Touches (toPoint ⟨2, 20⟩) k) ∧
    (∀ k ∈ (Fix.drawRoot Fix.moreP).flat, IsPipe k → ¬ Touches (toPoint ⟨2, 20⟩) k) ∧
    (∃ e ∈ (Fix.drawRoot (Fix.stemP .done)).flat, Within (toPoint ⟨2, 20⟩) e) ∧ ∃ e ∈ (Fix.drawRoot Fix.moreP).flat, Within (toPoint ⟨2, 20⟩) e := by
  refine ⟨⟨by decide, ?_⟩, ⟨by decide, ?_⟩, ?_, ?_, by unfold Within; decide +kernel, by unfold Within; decide +kernel⟩
  · intro n hn h
    replace h := h.kind
    revert h; revert n
    unfold Touches; decide +kernel
  · intro n hn h
    replace h := h.kind
    revert h; revert n
    unfold Touches; decide +kernel
  · intro n hn h
    replace h := h.1
    revert h; revert n
    unfold Touches; decide +kernel
  · intro n hn h
    replace h := h.1
    revert h; revert n
    unfold Touches; decide +kernel

/-- the hypotheses of C130 hold: with or without the loop, `b` behind it leads to the `set` before it and `x` is reported -/
example : Fix.Both Fix.unloopedP Fix.usedP ⟨.variable, Fix.tk 4 1 c!"b", []⟩ ∧ Fix.Both Fix.unloopedP Fix.usedP ⟨.variable, Fix.tk 4 2 c!"x", []⟩ ∧
    ∃ pre seg post, Fix.unloopedP.items = pre ++ post ∧ Fix.usedP.items = pre ++ (seg ++ post) ∧ seg.length = 3 ∧ Items.Complete seg ∧
      Items.InFront (Fix.tk 4 1 c!"b").start seg ∧ Items.InFront (Fix.tk 4 2 c!"x").start seg ∧ Items.leaves 0 seg = [] ∧
      ((Fix.tk 4 2 c!"x").stop < Fix.envTwo.rootEnd Fix.treeOne ∧ (Fix.tk 4 2 c!"x").stop < Fix.envTwo.rootEnd Fix.treeTwo) ∧
      StartsApart (Items.bindings (Fix.envTwo.rootEnd Fix.treeOne) 0 (pre ++ post)) ∧
      (∀ b ∈ Items.bindings (Fix.envTwo.rootEnd Fix.treeOne) 0 (pre ++ post), Short b) ∧
      (∀ b ∈ Items.bindings (Fix.envTwo.rootEnd Fix.treeTwo) 0 (pre ++ (seg ++ post)), Short b) ∧
      (∃ b ∈ Items.bindings (Fix.envTwo.rootEnd Fix.treeOne) 0 (pre ++ post), Reaches c!"b" (toPoint ⟨4, 13⟩) b) ∧
      ∃ b ∈ Items.bindings (Fix.envTwo.rootEnd Fix.treeOne) 0 (pre ++ post), InForce c!"b" ⟨4, 11⟩ b := by
  refine ⟨both, both, [Fix.unloopedP.items[0]], Fix.usedP.items.tail.dropLast, [Fix.unloopedP.items[1]], rfl, rfl, rfl, rfl, ?_, ?_, rfl, by decide,
    by unfold StartsApart; decide +kernel, by unfold Short; decide +kernel, by unfold Short; decide +kernel, by unfold Reaches; decide +kernel,
    by unfold InForce; decide +kernel⟩
  all_goals
    intro e h
    have h : Item.closing e ∈ [_, _, .closing (Fix.endOn 3 c!"endfor")] := h
    simp only [List.mem_cons, List.not_mem_nil, or_false] at h
    rcases h with h | h | h
    · cases h
    · cases h
    · cases h; decide

/-- a piece in front of which nothing changes either, and one that leaves a name behind -/
example : Items.Behind (Fix.tk 0 2 c!"b").stop (Fix.stemP .done).items.tail ∧ Items.Complete (Fix.stemP .done).items ∧
    Items.leaves 0 (Fix.stemP .done).items = [c!"b"] := by
  refine ⟨⟨by decide +kernel, ?_⟩, rfl, rfl⟩
  intro e h
  have h : Item.closing e ∈ [_, _, .closing (Fix.endOn 3 c!"endfor")] := h
  simp only [List.mem_cons, List.not_mem_nil, or_false] at h
  rcases h with h | h | h
  · cases h
  · cases h
  · cases h; decide

end JinjaLsp
