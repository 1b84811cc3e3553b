import Verif.Lemmas.Text
/- The LSP position of a point of a plain text. -/

namespace JinjaLsp
open Spec Rope

theorem advance_shift : ∀ (t : Str) (r k : Nat), advance ⟨r + 1, k⟩ t = ⟨(advance ⟨r, k⟩ t).row + 1, (advance ⟨r, k⟩ t).column⟩
  | [], r, k => rfl
  | c :: t, r, k => by
    simp only [advance]
    split
    · exact advance_shift t (r + 1) 0
    · exact advance_shift t r _

theorem advance_at (post : Str) : ∀ (pre : Str) (k : Nat), (∀ c ∈ pre, PlainChar c) → NoLoneCR pre →
    ((advance ⟨0, k⟩ pre).row = 0 → (advance ⟨0, k⟩ pre).column = k + pre.length ∧ ∀ c ∈ pre, c ≠ '\n' ∧ c ≠ '\r') ∧
    (∀ n, (advance ⟨0, k⟩ pre).row = n + 1 → ∃ s, s ≤ pre.length ∧ lineStart (pre ++ post) (n + 1) = some s ∧
      s + (advance ⟨0, k⟩ pre).column = pre.length ∧ ∀ c ∈ pre.drop s, c ≠ '\n' ∧ c ≠ '\r')
  | [], k, _, _ => by simp [advance]
  | c :: r, k, hp, hcr => by
    have hpr : ∀ c ∈ r, PlainChar c := fun x hx => hp x (by simp [hx])
    have hc := hp c (by simp)
    simp only [advance]
    by_cases hlf : c = '\n'
    · have ih := advance_at post r 0 hpr hcr.2
      rw [if_pos hlf, advance_shift]
      refine ⟨fun h => absurd h (by simp), ?_⟩
      intro n hn
      simp only [Nat.add_right_cancel_iff] at hn
      cases n with
      | zero =>
        obtain ⟨h1, h2⟩ := ih.1 hn
        refine ⟨1, by simp, ?_, ?_, ?_⟩
        · simp [lineStart, hlf]
        · simp only [List.length_cons]; omega
        · simpa using h2
      | succ m =>
        obtain ⟨s, h1, h2, h3, h4⟩ := ih.2 m hn
        refine ⟨s + 1, by simpa using h1, ?_, ?_, ?_⟩
        · simp [lineStart, hlf, h2]
        · simp only [List.length_cons]; omega
        · simpa using h4
    · have hsz : c.utf8Size = 1 := plainChar_size hc
      rw [if_neg hlf, hsz]
      have ih := advance_at post r (k + 1) hpr hcr.2
      have hnl : ¬ (c = '\n' ∨ (c = '\r' ∧ (r ++ post).head? ≠ some '\n')) := by
        rintro (h | ⟨h, h'⟩)
        · exact hlf h
        · have := hcr.1 h
          cases r with
          | nil => simp at this
          | cons x r => simp only [List.head?_cons] at this; simp [this] at h'
      constructor
      · intro h
        obtain ⟨h1, h2⟩ := ih.1 h
        refine ⟨by simp only [List.length_cons]; omega, ?_⟩
        intro x hx
        rcases List.mem_cons.mp hx with rfl | hx
        · refine ⟨hlf, fun hcr' => ?_⟩
          have := hcr.1 hcr'
          cases r with
          | nil => simp at this
          | cons y r => simp only [List.head?_cons, Option.some.injEq] at this; exact (h2 y (by simp)).1 this
        · exact h2 x hx
      · intro n hn
        obtain ⟨s, h1, h2, h3, h4⟩ := ih.2 n hn
        refine ⟨s + 1, by simpa using h1, ?_, by simp only [List.length_cons]; omega, by simpa using h4⟩
        rw [List.cons_append, lineStart, if_neg hnl, h2]
        rfl

/-- the point reached after `pre`, as an LSP position, is the position after `pre` -/
theorem plain_at (pre post : Str) (hp : ∀ c ∈ pre, PlainChar c) (hcr : NoLoneCR pre) :
    PlainPos (pre ++ post) ⟨(advance ⟨0, 0⟩ pre).row, (advance ⟨0, 0⟩ pre).column⟩ pre.length := by
  have h := advance_at post pre 0 hp hcr
  cases hrow : (advance ⟨0, 0⟩ pre).row with
  | zero =>
    obtain ⟨h1, h2⟩ := h.1 hrow
    refine ⟨0, by cases pre ++ post <;> rfl, by simp, ?_, by simp only; omega⟩
    simp only [List.drop_zero]
    rw [h1]
    refine columnChars_bmp _ _ (by simp) ?_
    intro c hc
    simp only [Nat.zero_add, List.take_left] at hc
    exact ⟨Nat.lt_trans (hp c hc).1 (by decide), h2 c hc⟩
  | succ n =>
    obtain ⟨s, h1, h2, h3, h4⟩ := h.2 n hrow
    refine ⟨s, h2, ?_, ?_, by simp only; omega⟩
    · intro c hc
      rw [List.take_append_of_le_length h1] at hc
      exact hp c (List.mem_of_mem_take hc)
    · rw [List.drop_append_of_le_length h1]
      have hl : (pre.drop s).length = (advance ⟨0, 0⟩ pre).column := by simp only [List.length_drop]; omega
      refine columnChars_bmp _ _ (by simp only [List.length_append]; omega) ?_
      intro c hc
      rw [List.take_append_of_le_length (by simp only; omega)] at hc
      have := List.mem_of_mem_take hc
      exact ⟨Nat.lt_trans (hp c (List.mem_of_mem_drop this)).1 (by decide), h4 c this⟩

theorem advance_bound : ∀ (t : Str) (p : Point), (advance p t).row ≤ p.row + utf8Len t ∧ (advance p t).column ≤ p.column + utf8Len t
  | [], p => by simp [advance]
  | c :: t, p => by
    simp only [advance, utf8Len_cons]
    have hc : 1 ≤ c.utf8Size := Char.utf8Size_pos c
    split
    · have := advance_bound t ⟨p.row + 1, 0⟩
      simp only at this
      omega
    · have := advance_bound t ⟨p.row, p.column + c.utf8Size⟩
      simp only at this
      omega

end JinjaLsp
