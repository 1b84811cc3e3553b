import Verif.Lemmas.PathItems
import Verif.Lemmas.Point
import Verif.Lemmas.HMap
import Verif.Model.LspFiles
/- The latest of a list of definitions, and first segments of dotted names. -/

namespace JinjaLsp

theorem Point.cmp_gt {a b : Point} : Point.cmp a b = .gt ↔ b < a := by
  unfold Point.cmp
  rw [Point.lt_def, Ordering.then_eq_gt, Nat.compare_eq_gt, Nat.compare_eq_eq, Nat.compare_eq_gt]
  omega

theorem Point.cmp_eq {a b : Point} : Point.cmp a b = .eq ↔ a = b := by
  unfold Point.cmp
  rw [Ordering.then_eq_eq, Nat.compare_eq_eq, Nat.compare_eq_eq]
  constructor
  · rintro ⟨h1, h2⟩; exact Point.ext h1 h2
  · rintro rfl; exact ⟨rfl, rfl⟩

theorem Identifier.cmp_gt {a b : Identifier} (h : a.cmp b = .gt) : b.start ≤ a.start := by
  unfold Identifier.cmp at h
  rw [Ordering.then_eq_gt] at h
  rcases h with h | ⟨h, _⟩
  · exact Point.le_of_lt (Point.cmp_gt.mp h)
  · rw [Point.cmp_eq.mp h]; exact Point.le_refl _

theorem Identifier.cmp_not_gt {a b : Identifier} (h : a.cmp b ≠ .gt) : a.start ≤ b.start := by
  rcases Point.le_total a.start b.start with h' | h'
  · exact h'
  · apply Decidable.byContradiction
    intro hn
    apply h
    unfold Identifier.cmp
    rw [Ordering.then_eq_gt]
    exact Or.inl (Point.cmp_gt.mpr (Point.not_le.mp hn))

theorem foldl_max : ∀ (l : List Identifier) (x : Identifier) (m : Identifier),
    l.foldl (fun m y => match m.cmp y with | .gt => m | _ => y) x = m →
    (m = x ∨ m ∈ l) ∧ x.start ≤ m.start ∧ ∀ y ∈ l, y.start ≤ m.start
  | [], x, m, h => by
    cases h
    exact ⟨Or.inl rfl, Point.le_refl _, by intro y hy; cases hy⟩
  | y :: l, x, m, h => by
    rw [List.foldl_cons] at h
    have ih := foldl_max l _ m h
    by_cases hg : x.cmp y = .gt
    · simp only [hg] at ih
      refine ⟨ih.1.imp_right (List.mem_cons_of_mem _), ih.2.1, ?_⟩
      intro z hz
      rcases List.mem_cons.mp hz with rfl | hz
      · exact Point.le_trans (Identifier.cmp_gt hg) ih.2.1
      · exact ih.2.2 z hz
    · have he : (match x.cmp y with | .gt => x | _ => y) = y := by
        cases hc : x.cmp y <;> simp_all
      rw [he] at ih
      refine ⟨Or.inr ?_, Point.le_trans (Identifier.cmp_not_gt hg) ih.2.1, ?_⟩
      · rcases ih.1 with e | e
        · exact e ▸ List.mem_cons_self
        · exact List.mem_cons_of_mem _ e
      · intro z hz
        rcases List.mem_cons.mp hz with rfl | hz
        · exact ih.2.1
        · exact ih.2.2 z hz

/-- `iterMax` picks an element with the greatest start -/
theorem iterMax_some {l : List Identifier} {m : Identifier} (h : iterMax l = some m) :
    m ∈ l ∧ ∀ y ∈ l, y.start ≤ m.start := by
  cases l with
  | nil => cases h
  | cons x xs =>
    injection h with h
    obtain ⟨h1, h2, h3⟩ := foldl_max xs x m h
    refine ⟨?_, ?_⟩
    · rcases h1 with e | e
      · exact e ▸ List.mem_cons_self
      · exact List.mem_cons_of_mem _ e
    · intro y hy
      rcases List.mem_cons.mp hy with rfl | hy
      · exact h2
      · exact h3 y hy

theorem iterMax_none {l : List Identifier} (h : iterMax l = none) : l = [] := by
  cases l with
  | nil => rfl
  | cons x xs => cases h

namespace LspFiles

/-- the first dotted segment -/
theorem firstSegment_iff (name n : Str) :
    firstSegment name = n ↔ '.' ∉ n ∧ (name = n ∨ ∃ r, name = n ++ '.' :: r) := by
  unfold firstSegment
  constructor
  · intro h
    have hne := splitChar_ne_nil '.' name
    cases hs : splitChar '.' name with
    | nil => exact absurd hs hne
    | cons x xs =>
      rw [hs] at h
      simp only [List.head?_cons, Option.getD_some] at h
      subst h
      refine ⟨splitChar_pieces '.' name x (by rw [hs]; exact List.mem_cons_self), ?_⟩
      have hj := splitChar_join '.' name
      rw [hs, List.foldr_cons] at hj
      split at hj
      · injection hj with hj; exact Or.inl hj.symm
      · rename_i y _
        injection hj with hj; exact Or.inr ⟨y, hj.symm⟩
  · rintro ⟨hn, rfl | ⟨r, rfl⟩⟩
    · rw [splitChar_notMem _ _ hn]; rfl
    · rw [splitChar_append, splitChar_notMem _ _ hn]; rfl

end LspFiles
end JinjaLsp
