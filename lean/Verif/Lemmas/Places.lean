import Verif.Spec.Places
import Verif.Lemmas.At
/- Byte columns and UTF-16 columns. -/

namespace JinjaLsp
open Spec Rope

/-- `above` consists of whole lines -/
def WholeLines (above : Str) : Prop := above = [] ∨ above.getLast? = some '\n'

theorem WholeLines.tail {c : Char} {r : Str} (h : WholeLines (c :: r)) (hr : r ≠ []) : WholeLines r := by
  rcases h with h | h
  · cases h
  · refine .inr ?_
    cases r with
    | nil => exact absurd rfl hr
    | cons d r => simpa [List.getLast?_cons_cons] using h

theorem WholeLines.single {c : Char} (h : WholeLines [c]) : c = '\n' := by
  rcases h with h | h
  · cases h
  · simpa using h

theorem lineOf_split (t : Str) : ∃ above, t = above ++ lineOf t ∧ WholeLines above ∧ ∀ c ∈ lineOf t, c ≠ '\n' := by
  refine ⟨(t.reverse.dropWhile fun c => decide (c ≠ '\n')).reverse, ?_, ?_, ?_⟩
  · rw [lineOf, ← List.reverse_append, List.takeWhile_append_dropWhile, List.reverse_reverse]
  · unfold WholeLines
    cases h : t.reverse.dropWhile (fun c => decide (c ≠ '\n')) with
    | nil => exact .inl rfl
    | cons d r =>
      refine .inr ?_
      have := List.head?_dropWhile_not (fun c => decide (c ≠ '\n')) t.reverse
      rw [h] at this
      simp only [List.head?_cons] at this
      simp only [List.reverse_cons, List.getLast?_append, List.getLast?_singleton, Option.some_or]
      simpa using this
  · intro c hc
    rw [lineOf, List.mem_reverse] at hc
    have := List.all_eq_true.mp (List.all_takeWhile (p := fun c => decide (c ≠ '\n')) (l := t.reverse)) c hc
    simpa using this

/-- the line of whole lines followed by a piece of a line -/
theorem lineOf_append {above line : Str} (h : WholeLines above) (hl : ∀ c ∈ line, c ≠ '\n') : lineOf (above ++ line) = line := by
  unfold lineOf
  rw [List.reverse_append, List.takeWhile_append_of_pos (by intro c hc; simpa using hl c (by simpa using hc))]
  rcases h with rfl | h
  · simp
  · have : above.reverse.head? = some '\n' := by rw [List.head?_reverse]; exact h
    cases hr : above.reverse with
    | nil => rw [hr] at this; cases this
    | cons d r =>
      rw [hr] at this
      cases this
      simp

theorem advance_row : ∀ (above : Str) (r k : Nat), WholeLines above → above ≠ [] → advance ⟨r, k⟩ above = ⟨r + above.count '\n', 0⟩
  | [], _, _, _, h => absurd rfl h
  | c :: t, r, k, h, _ => by
    rw [advance]
    by_cases ht : t = []
    · subst ht
      rw [h.single]
      simp [advance]
    · have ih := advance_row t
      by_cases hc : c = '\n'
      · rw [if_pos hc, ih _ _ (h.tail ht) ht, hc, List.count_cons_self]
        simp only [Point.mk.injEq, and_true]; omega
      · rw [if_neg hc, ih _ _ (h.tail ht) ht, List.count_cons_of_ne (fun e => hc (by simpa using e))]

theorem lineStart_above : ∀ (above rest : Str), WholeLines above → NoLoneCR above →
    lineStart (above ++ rest) (above.count '\n') = some above.length
  | [], rest, _, _ => by cases rest <;> simp [lineStart]
  | c :: t, rest, h, hcr => by
    by_cases hc : c = '\n'
    · subst hc
      have ih : lineStart (t ++ rest) (t.count '\n') = some t.length := by
        by_cases ht : t = []
        · subst ht; cases rest <;> simp [lineStart]
        · exact lineStart_above t rest (h.tail ht) hcr.2
      rw [List.count_cons_self, List.cons_append, lineStart, if_pos (.inl rfl), ih]
      simp
    · have ht : t ≠ [] := fun e => hc (by subst e; exact h.single)
      have ih := lineStart_above t rest (h.tail ht) hcr.2
      rw [List.count_cons_of_ne (fun e => hc (by simpa using e))]
      obtain ⟨m, hm⟩ : ∃ m, t.count '\n' = m + 1 := by
        have : 0 < t.count '\n' := by
          rw [List.count_pos_iff]
          rcases h.tail ht with e | e
          · exact absurd e ht
          · exact List.mem_of_getLast? e
        exact ⟨_, (Nat.succ_pred_eq_of_pos this).symm⟩
      rw [hm] at ih ⊢
      have hnl : ¬ (c = '\n' ∨ (c = '\r' ∧ (t ++ rest).head? ≠ some '\n')) := by
        rintro (e | ⟨e, e'⟩)
        · exact hc e
        · have := hcr.1 e
          cases t with
          | nil => exact ht rfl
          | cons x t => simp only [List.head?_cons] at this; simp [this] at e'
      rw [List.cons_append, lineStart, if_neg hnl, ih]
      simp

theorem advance_piece : ∀ (line : Str) (r k : Nat), (∀ c ∈ line, c ≠ '\n') → advance ⟨r, k⟩ line = ⟨r, k + utf8Len line⟩
  | [], r, k, _ => by simp [advance]
  | c :: t, r, k, h => by
    rw [advance, if_neg (h c (by simp)), advance_piece t _ _ (fun x hx => h x (by simp [hx])), utf8Len_cons]
    simp only [Point.mk.injEq, true_and]; omega

/-- the point after `above ++ line` -/
theorem advance_at_line {above line : Str} (h : WholeLines above) (hl : ∀ c ∈ line, c ≠ '\n') :
    advance ⟨0, 0⟩ (above ++ line) = ⟨above.count '\n', utf8Len line⟩ := by
  rw [advance_append]
  have : advance ⟨0, 0⟩ above = ⟨above.count '\n', 0⟩ := by
    by_cases e : above = []
    · subst e; rfl
    · rw [advance_row above 0 0 h e, Nat.zero_add]
  rw [this, advance_piece line _ _ hl, Nat.zero_add]

/-- the offset of a column -/
theorem offset_at_line {above rest : Str} (h : WholeLines above) (hcr : NoLoneCR above) (k : Nat) :
    offset (above ++ rest) ⟨above.count '\n', k⟩ = some (above.length + columnChars rest k) := by
  simp only [offset, lineStart_above above rest h hcr, Option.map_some, List.drop_left]

theorem units_le : ∀ t : Str, units t ≤ utf8Len t
  | [] => by simp [units]
  | c :: r => by
    have ih := units_le r
    have : utf16Len c ≤ c.utf8Size := by
      unfold utf16Len
      split
      · exact Char.utf8Size_pos c
      · rename_i hc
        have : c.utf8Size = 4 := by
          unfold Char.utf8Size
          have hv : ¬ c.val.toNat < 0x10000 := hc
          rw [if_neg, if_neg, if_neg] <;> rw [UInt32.le_iff_toNat_le] <;> simp <;> omega
        omega
    simp only [units, utf8Len_cons]; omega

/-- bytes and UTF-16 units are the same number exactly in ASCII -/
theorem units_eq_iff : ∀ t : Str, units t = utf8Len t ↔ ∀ c ∈ t, c.toNat < 128
  | [] => by simp [units]
  | c :: r => by
    have ih := units_eq_iff r
    have hr := units_le r
    have hc := units_le [c]
    simp only [units, utf8Len_cons, Nat.add_zero, utf8Len_nil] at hc
    have key : utf16Len c = c.utf8Size ↔ c.toNat < 128 := by
      have hn : c.toNat = c.val.toNat := rfl
      unfold utf16Len Char.utf8Size
      simp only [UInt32.le_iff_toNat_le, hn, UInt32.toNat_ofNatLT]
      repeat' split
      all_goals omega
    simp only [units, utf8Len_cons, List.forall_mem_cons, ← ih, ← key]
    omega

/-- a column within the line: the characters it covers -/
theorem columnChars_within {line post : Str} (hl : ∀ c ∈ line, c ≠ '\n' ∧ c ≠ '\r') {k : Nat} (h : 0 < k) {x : Char} {r : Str} (hp : post = x :: r)
    (hx : x ≠ '\n' ∧ x ≠ '\r') (hu : utf16Len x = 1) : line.length < columnChars (line ++ post) (units line + k) := by
  induction line with
  | nil =>
    obtain ⟨m, rfl⟩ : ∃ m, k = m + 1 := ⟨k - 1, by omega⟩
    simp only [List.nil_append, units, Nat.zero_add, hp, columnChars, hx.1, hx.2, or_self, if_false, hu]
    rw [if_pos (by omega)]
    simp only [List.length_nil]; omega
  | cons c t ih =>
    have ih := ih (fun x hx => hl x (by simp [hx]))
    have hc := hl c (by simp)
    obtain ⟨m, hm⟩ : ∃ m, utf16Len c = m + 1 := by unfold utf16Len; split <;> exact ⟨_, rfl⟩
    have he : units (c :: t) + k = (m + (units t + k)) + 1 := by simp only [units, hm]; omega
    rw [he]
    simp only [List.cons_append, columnChars, hc.1, hc.2, or_self, if_false, hm]
    rw [if_pos (by omega), show m + (units t + k) + 1 - (m + 1) = units t + k by omega]
    simp only [List.length_cons]; omega

end JinjaLsp
