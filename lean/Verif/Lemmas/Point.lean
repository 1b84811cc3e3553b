import Verif.Model.Base
/- Order lemmas on points. -/
namespace JinjaLsp.Point

theorem le_refl (a : Point) : a ≤ a := by rw [le_def]; omega
theorem le_trans {a b c : Point} (h : a ≤ b) (h' : b ≤ c) : a ≤ c := by rw [le_def] at *; omega
theorem lt_of_lt_of_le {a b c : Point} (h : a < b) (h' : b ≤ c) : a < c := by
  rw [lt_def, le_def] at *; omega
theorem lt_of_le_of_lt {a b c : Point} (h : a ≤ b) (h' : b < c) : a < c := by
  rw [lt_def, le_def] at *; omega
theorem lt_trans {a b c : Point} (h : a < b) (h' : b < c) : a < c := by rw [lt_def] at *; omega
theorem lt_irrefl (a : Point) : ¬ a < a := by rw [lt_def]; omega
theorem le_of_lt {a b : Point} (h : a < b) : a ≤ b := by rw [lt_def] at h; rw [le_def]; omega
theorem not_le {a b : Point} : ¬ a ≤ b ↔ b < a := by rw [lt_def, le_def]; omega
theorem not_lt {a b : Point} : ¬ a < b ↔ b ≤ a := by rw [lt_def, le_def]; omega
theorem le_antisymm {a b : Point} (h : a ≤ b) (h' : b ≤ a) : a = b := by
  rw [le_def] at *; ext <;> omega
theorem le_total (a b : Point) : a ≤ b ∨ b ≤ a := by rw [le_def, le_def]; omega
theorem zero_le (a : Point) : zero ≤ a := by rw [le_def]; simp [zero]; omega
theorem not_lt_zero (a : Point) : ¬ a < zero := by rw [lt_def]; simp [zero]
theorem lt_iff_le_and_ne {a b : Point} : a < b ↔ a ≤ b ∧ a ≠ b := by
  constructor
  · intro h; exact ⟨le_of_lt h, fun e => lt_irrefl b (e ▸ h)⟩
  · rintro ⟨h, h'⟩
    rcases not_le (a := b) (b := a) |>.mp (fun h2 => h' (le_antisymm h h2)) with h3
    exact h3

end JinjaLsp.Point
