import Verif.Lemmas.Latest
/- The derived order on identifiers is total; the greatest of a list does not depend on the order of the list. -/

namespace JinjaLsp

/-- a comparison function of a total preorder -/
structure Ranks {α : Type} (cmp : α → α → Ordering) : Prop where
  swap : ∀ a b, cmp b a = (cmp a b).swap
  trans : ∀ a b c, cmp a b ≠ .gt → cmp b c ≠ .gt → cmp a c ≠ .gt

namespace Ranks

theorem lt_of_le_of_lt {α : Type} {cmp : α → α → Ordering} (h : Ranks cmp) {a b c : α} (h1 : cmp a b ≠ .gt) (h2 : cmp b c = .lt) :
    cmp a c = .lt := by
  cases hc : cmp a c with
  | lt => rfl
  | gt => exact absurd hc (h.trans a b c h1 (by simp [h2]))
  | eq =>
    have h3 : cmp c a ≠ .gt := by rw [h.swap a c, hc]; decide
    have h4 := h.trans c a b h3 h1
    rw [h.swap b c, h2] at h4
    exact absurd rfl h4

theorem lt_of_lt_of_le {α : Type} {cmp : α → α → Ordering} (h : Ranks cmp) {a b c : α} (h1 : cmp a b = .lt) (h2 : cmp b c ≠ .gt) :
    cmp a c = .lt := by
  cases hc : cmp a c with
  | lt => rfl
  | gt => exact absurd hc (h.trans a b c (by simp [h1]) h2)
  | eq =>
    have h3 : cmp c a ≠ .gt := by rw [h.swap a c, hc]; decide
    have h4 := h.trans b c a h2 h3
    rw [h.swap a b, h1] at h4
    exact absurd rfl h4

theorem eq_trans {α : Type} {cmp : α → α → Ordering} (h : Ranks cmp) {a b c : α} (h1 : cmp a b = .eq) (h2 : cmp b c = .eq) : cmp a c = .eq := by
  cases hc : cmp a c with
  | eq => rfl
  | gt => exact absurd hc (h.trans a b c (by simp [h1]) (by simp [h2]))
  | lt =>
    have h3 : cmp c b ≠ .gt := by rw [h.swap b c, h2]; decide
    have h4 : cmp b a ≠ .gt := by rw [h.swap a b, h1]; decide
    have h5 := h.trans c b a h3 h4
    rw [h.swap a c, hc] at h5
    exact absurd rfl h5

theorem nat : Ranks (fun a b : Nat => compare a b) := by
  refine ⟨fun a b => (Nat.compare_swap a b).symm, fun a b c h1 h2 h3 => ?_⟩
  rw [Ne, Nat.compare_eq_gt] at h1 h2
  rw [Nat.compare_eq_gt] at h3
  omega

theorem comap {α β : Type} {cmp : β → β → Ordering} (h : Ranks cmp) (f : α → β) : Ranks fun a b => cmp (f a) (f b) :=
  ⟨fun a b => h.swap (f a) (f b), fun a b c => h.trans (f a) (f b) (f c)⟩

theorem andThen {α : Type} {c₁ c₂ : α → α → Ordering} (h₁ : Ranks c₁) (h₂ : Ranks c₂) : Ranks fun a b => (c₁ a b).then (c₂ a b) := by
  refine ⟨fun a b => ?_, fun a b c h1 h2 => ?_⟩
  · simp only [h₁.swap a b, h₂.swap a b, Ordering.swap_then]
  · have key : ∀ {a b : α}, (c₁ a b).then (c₂ a b) ≠ .gt → c₁ a b = .lt ∨ c₁ a b = .eq ∧ c₂ a b ≠ .gt := by
      intro a b h
      cases hc : c₁ a b with
      | lt => exact Or.inl rfl
      | eq => rw [hc] at h; exact Or.inr ⟨rfl, h⟩
      | gt => rw [hc] at h; exact absurd rfl h
    rcases key h1 with e1 | ⟨e1, l1⟩
    · have : c₁ a c = .lt := h₁.lt_of_lt_of_le e1 (by rcases key h2 with e | ⟨e, _⟩ <;> simp [e])
      simp [this, Ordering.then]
    · rcases key h2 with e2 | ⟨e2, l2⟩
      · have : c₁ a c = .lt := h₁.lt_of_le_of_lt (by simp [e1]) e2
        simp [this, Ordering.then]
      · have := h₁.eq_trans e1 e2
        simp only [this, Ordering.then]
        exact h₂.trans a b c l1 l2

theorem list {α : Type} {cmp : α → α → Ordering} (h : Ranks cmp) : Ranks (cmpList cmp) := by
  refine ⟨fun a => ?_, fun a => ?_⟩
  · induction a with
    | nil => intro b; cases b <;> rfl
    | cons x a ih =>
      intro b
      cases b with
      | nil => rfl
      | cons y b => simp only [cmpList, h.swap x y, ih b, Ordering.swap_then]
  · induction a with
    | nil => intro b c _ _; cases c <;> simp [cmpList]
    | cons x a ih =>
      intro b c h1 h2
      cases b with
      | nil => exact absurd rfl h1
      | cons y b =>
        cases c with
        | nil => exact absurd rfl h2
        | cons z c =>
          simp only [cmpList] at h1 h2 ⊢
          have key : ∀ {x y : α} {a b : List α}, (cmp x y).then (cmpList cmp a b) ≠ .gt → cmp x y = .lt ∨ cmp x y = .eq ∧ cmpList cmp a b ≠ .gt := by
            intro x y a b h
            cases hc : cmp x y with
            | lt => exact Or.inl rfl
            | eq => rw [hc] at h; exact Or.inr ⟨rfl, h⟩
            | gt => rw [hc] at h; exact absurd rfl h
          rcases key h1 with e1 | ⟨e1, l1⟩
          · have : cmp x z = .lt := h.lt_of_lt_of_le e1 (by rcases key h2 with e | ⟨e, _⟩ <;> simp [e])
            simp [this, Ordering.then]
          · rcases key h2 with e2 | ⟨e2, l2⟩
            · have : cmp x z = .lt := h.lt_of_le_of_lt (by simp [e1]) e2
              simp [this, Ordering.then]
            · have := h.eq_trans e1 e2
              simp only [this, Ordering.then]
              exact ih b c l1 l2

theorem point : Ranks Point.cmp := (nat.comap Point.row).andThen (nat.comap Point.column)

theorem str : Ranks cmpStr := list (nat.comap Char.toNat)

theorem identifier : Ranks Identifier.cmp :=
  (point.comap Identifier.start).andThen <| (point.comap Identifier.stop).andThen <| (str.comap Identifier.name).andThen <|
    (nat.comap Identifier.scopeId).andThen <| (point.comap Identifier.scopeEnd).andThen <|
    (nat.comap fun i : Identifier => i.idType.rank).andThen <|
    (list ((str.comap fun x : Str × Point × Point => x.1).andThen
      ((point.comap fun x : Str × Point × Point => x.2.1).andThen (point.comap fun x : Str × Point × Point => x.2.2)))).comap Identifier.fields

end Ranks

/-! ### Equality -/

theorem cmpList_eq {α : Type} {cmp : α → α → Ordering} (h : ∀ a b, cmp a b = .eq → a = b) : ∀ (l m : List α), cmpList cmp l m = .eq → l = m
  | [], [], _ => rfl
  | [], _ :: _, e => by cases e
  | _ :: _, [], e => by cases e
  | a :: l, b :: m, e => by
    simp only [cmpList, Ordering.then_eq_eq] at e
    rw [h a b e.1, cmpList_eq h l m e.2]

theorem cmpStr_eq {a b : Str} (h : cmpStr a b = .eq) : a = b := by
  refine cmpList_eq (fun x y e => ?_) a b h
  rw [Nat.compare_eq_eq] at e
  exact Char.ext (UInt32.toNat_inj.mp e)

theorem IdType.rank_inj {a b : IdType} (h : a.rank = b.rank) : a = b := by
  revert h
  cases a <;> cases b <;> decide

theorem Identifier.cmp_eq {a b : Identifier} (h : a.cmp b = .eq) : a = b := by
  simp only [Identifier.cmp, Ordering.then_eq_eq, Nat.compare_eq_eq, Point.cmp_eq] at h
  obtain ⟨h1, h2, h3, h4, h5, h6, h7⟩ := h
  have k3 := cmpStr_eq h3
  have k6 := IdType.rank_inj h6
  have k7 := cmpList_eq (fun x y e => by
    simp only [Ordering.then_eq_eq, Point.cmp_eq] at e
    exact Prod.ext (cmpStr_eq e.1) (Prod.ext e.2.1 e.2.2)) _ _ h7
  cases a; cases b
  simp only at h1 h2 k3 h4 h5 k6 k7
  subst h1; subst h2; subst k3; subst h4; subst h5; subst k6; subst k7
  rfl

/-- the result of the search for the greatest element is at least as great as every element -/
theorem foldl_greatest : ∀ (l : List Identifier) (x : Identifier),
    x.cmp (l.foldl (fun m y => match m.cmp y with | .gt => m | _ => y) x) ≠ .gt ∧
      ∀ y ∈ l, y.cmp (l.foldl (fun m y => match m.cmp y with | .gt => m | _ => y) x) ≠ .gt
  | [], x => by
    refine ⟨?_, by intro y hy; cases hy⟩
    have h : x.cmp x = (x.cmp x).swap := Ranks.identifier.swap x x
    intro hg
    rw [List.foldl_nil] at hg
    rw [hg] at h
    cases h
  | y :: l, x => by
    rw [List.foldl_cons]
    by_cases hg : x.cmp y = .gt
    · simp only [hg]
      obtain ⟨h1, h2⟩ := foldl_greatest l x
      refine ⟨h1, ?_⟩
      intro z hz
      rcases List.mem_cons.mp hz with rfl | hz
      · exact Ranks.identifier.trans _ x _ (by rw [Ranks.identifier.swap x z, hg]; decide) h1
      · exact h2 z hz
    · have he : (match x.cmp y with | .gt => x | _ => y) = y := by
        cases hc : x.cmp y <;> simp_all
      rw [he]
      obtain ⟨h1, h2⟩ := foldl_greatest l y
      refine ⟨Ranks.identifier.trans _ y _ hg h1, ?_⟩
      intro z hz
      rcases List.mem_cons.mp hz with rfl | hz
      · exact h1
      · exact h2 z hz

theorem iterMax_greatest {l : List Identifier} {m : Identifier} (h : iterMax l = some m) : ∀ y ∈ l, y.cmp m ≠ .gt := by
  cases l with
  | nil => cases h
  | cons x xs =>
    injection h with h
    subst h
    obtain ⟨h1, h2⟩ := foldl_greatest xs x
    intro y hy
    rcases List.mem_cons.mp hy with rfl | hy
    · exact h1
    · exact h2 y hy

/-- the greatest element depends on the elements only -/
theorem iterMax_congr {l l' : List Identifier} (h : ∀ x, x ∈ l ↔ x ∈ l') : iterMax l = iterMax l' := by
  cases hm : iterMax l with
  | none =>
    have := iterMax_none hm
    subst this
    cases l' with
    | nil => rfl
    | cons x _ => exact absurd ((h x).mpr (by simp)) (by simp)
  | some m =>
    cases hm' : iterMax l' with
    | none =>
      have := iterMax_none hm'
      subst this
      exact absurd ((h m).mp (iterMax_some hm).1) (by simp)
    | some m' =>
      have h1 := iterMax_greatest hm m' ((h m').mpr (iterMax_some hm').1)
      have h2 := iterMax_greatest hm' m ((h m).mp (iterMax_some hm).1)
      rw [Ranks.identifier.swap m m'] at h1
      cases hc : m.cmp m' with
      | lt => rw [hc] at h1; exact absurd rfl h1
      | gt => exact absurd hc h2
      | eq => rw [Identifier.cmp_eq hc]

end JinjaLsp
