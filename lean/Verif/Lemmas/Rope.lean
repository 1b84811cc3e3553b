import Verif.Model.Rope
import Verif.Lemmas.Point
/- Lemmas about the rope model. -/

namespace JinjaLsp
namespace Rope

theorem utf8Size_pos (c : Char) : 0 < c.utf8Size := Char.utf8Size_pos c

@[simp] theorem utf8Len_nil : utf8Len [] = 0 := rfl
@[simp] theorem utf8Len_cons (c : Char) (r : Str) : utf8Len (c :: r) = c.utf8Size + utf8Len r := by
  simp [utf8Len]
@[simp] theorem utf8Len_append (a b : Str) : utf8Len (a ++ b) = utf8Len a + utf8Len b := by
  simp [utf8Len]

theorem length_le_utf8Len (t : Str) : t.length ≤ utf8Len t := by
  induction t with
  | nil => simp
  | cons c r ih => have := utf8Size_pos c; simp; omega

/-- every later line start lies in `(off, off + bytes]` -/
theorem lineStartsFrom_bounds : ∀ (t : Str) (off x : Nat), x ∈ lineStartsFrom off t →
    off < x ∧ x ≤ off + utf8Len t
  | [], off, x, h => by simp [lineStartsFrom] at h
  | c :: r, off, x, h => by
    have hc := utf8Size_pos c
    simp only [lineStartsFrom] at h
    simp only [utf8Len_cons]
    split at h
    · rcases List.mem_cons.mp h with h | h
      · omega
      · have := lineStartsFrom_bounds r _ x h; omega
    · have := lineStartsFrom_bounds r _ x h; omega

theorem lineStartsFrom_sorted : ∀ (t : Str) (off : Nat), (lineStartsFrom off t).Pairwise (· < ·)
  | [], off => by simp [lineStartsFrom]
  | c :: r, off => by
    simp only [lineStartsFrom]
    split
    · refine List.pairwise_cons.mpr ⟨fun x hx => ?_, lineStartsFrom_sorted r _⟩
      exact (lineStartsFrom_bounds r _ x hx).1
    · exact lineStartsFrom_sorted r _

theorem lineStarts_sorted (t : Rope) : (lineStarts t).Pairwise (· < ·) := by
  refine List.pairwise_cons.mpr ⟨fun x hx => ?_, lineStartsFrom_sorted t 0⟩
  exact (lineStartsFrom_bounds t 0 x hx).1

theorem lineStarts_le (t : Rope) (x : Nat) (h : x ∈ lineStarts t) : x ≤ lenBytes t := by
  rcases List.mem_cons.mp h with h | h
  · omega
  · have := lineStartsFrom_bounds t 0 x h; simpa [lenBytes] using this.2

theorem lineStartsFrom_length : ∀ (t : Str) (off : Nat), (lineStartsFrom off t).length ≤ t.length
  | [], off => by simp [lineStartsFrom]
  | c :: r, off => by
    simp only [lineStartsFrom]
    have := lineStartsFrom_length r (off + c.utf8Size)
    split <;> simp <;> omega

theorem lenLines_le (t : Rope) : lenLines t ≤ t.length + 1 := by
  have := lineStartsFrom_length t 0
  simp [lenLines, lineStarts]; omega

/-- `line_to_byte` succeeds exactly up to one line past the end -/
theorem lineToByte_ok_iff (t : Rope) (l : Nat) :
    (∃ b, lineToByte t l = .ok b) ↔ l ≤ lenLines t := by
  unfold lineToByte lenLines
  constructor
  · rintro ⟨b, h⟩
    split at h
    · next b' hb =>
      have := (List.getElem?_eq_some_iff.mp hb).1
      simp at this; omega
    · cases h
  · intro h
    have : l < (lineStarts t ++ [lenBytes t]).length := by simp; omega
    rw [List.getElem?_eq_getElem this]
    exact ⟨_, rfl⟩

theorem lineToByte_error (t : Rope) (l : Nat) (h : lenLines t < l) : lineToByte t l = .error .lineIndex := by
  unfold lineToByte
  rw [List.getElem?_eq_none (by simp [lenLines] at *; omega)]

theorem lineToByte_lt (t : Rope) (l : Nat) (h : l < (lineStarts t).length) :
    lineToByte t l = .ok ((lineStarts t)[l]) := by
  unfold lineToByte
  rw [List.getElem?_append_left h, List.getElem?_eq_getElem h]

theorem lineToByte_le (t : Rope) (l b : Nat) (h : lineToByte t l = .ok b) : b ≤ lenBytes t := by
  unfold lineToByte at h
  split at h
  · next b' hb =>
    cases h
    rcases List.mem_append.mp (List.mem_of_getElem? hb) with h | h
    · exact lineStarts_le t _ h
    · simp at h; omega
  · cases h

/-- number of elements at most `x` of a strictly increasing list, by index -/
theorem sorted_index (L : List Nat) (hs : L.Pairwise (· < ·)) (x i : Nat) (hi : i < L.length) :
    L[i] ≤ x ↔ i < L.countP (fun y => decide (y ≤ x)) := by
  induction L generalizing i with
  | nil => simp at hi
  | cons a L ih =>
    have ⟨ha, hL⟩ := List.pairwise_cons.mp hs
    by_cases hax : a ≤ x
    · rw [List.countP_cons_of_pos (by simpa using hax)]
      cases i with
      | zero => simp [hax]
      | succ i => simpa using ih hL i (by simpa using hi)
    · have h0 : L.countP (fun y => decide (y ≤ x)) = 0 := by
        rw [List.countP_eq_zero]
        intro y hy; have := ha y hy; simp; omega
      rw [List.countP_cons_of_neg (by simpa using hax), h0]
      cases i with
      | zero => simp; omega
      | succ i =>
        have := ha _ (List.getElem_mem (l := L) (by simpa using hi : i < L.length))
        simp; omega

/-- number of line starts at or before the offset -/
def lineCount (t : Rope) (off : Nat) : Nat := (lineStarts t).countP (fun y => decide (y ≤ off))

theorem lineCount_pos (t : Rope) (off : Nat) : 0 < lineCount t off := by
  simp [lineCount, lineStarts]

theorem lineCount_le (t : Rope) (off : Nat) : lineCount t off ≤ lenLines t := List.countP_le_length

theorem lineCount_mono (t : Rope) {a b : Nat} (h : a ≤ b) : lineCount t a ≤ lineCount t b := by
  apply List.countP_mono_left
  intro x _ hx; simp at *; omega

theorem searchLine_eq (t : Rope) (off : Nat) : ∀ (fuel low high : Nat), high - low ≤ fuel →
    low ≤ lineCount t off → lineCount t off ≤ high → high ≤ lenLines t →
    searchLine t off fuel low high = .ok (lineCount t off)
  | 0, low, high, hf, h1, h2, h3 => by
    have : low = lineCount t off := by omega
    rw [searchLine, this]
  | fuel + 1, low, high, hf, h1, h2, h3 => by
    simp only [searchLine]
    split
    · next hlt =>
      have hm : low + (high - low) / 2 < (lineStarts t).length := by unfold lenLines at h3; omega
      rw [lineToByte_lt t _ hm]
      have key := sorted_index _ (lineStarts_sorted t) off _ hm
      simp only
      split
      · next hgt =>
        have hn : ¬ (low + (high - low) / 2 < lineCount t off) := by
          rw [lineCount, ← key]; omega
        exact searchLine_eq t off fuel _ _ (by omega) h1 (by omega) (by omega)
      · next hle =>
        have hn : (low + (high - low) / 2 < lineCount t off) := by
          rw [lineCount, ← key]; omega
        exact searchLine_eq t off fuel _ _ (by omega) (by omega) h2 h3
    · next hge =>
      have : low = lineCount t off := by omega
      rw [this]

theorem toPosition_eq (prof : Profile) (t : Rope) (off : Nat) :
    ∃ b, lineToByte t (lineCount t (min off (lenBytes t)) - 1) = .ok b ∧ b ≤ min off (lenBytes t) ∧
      toPosition prof t off =
        .ok ⟨toU32 (lineCount t (min off (lenBytes t)) - 1), toU32 (min off (lenBytes t) - b)⟩ := by
  have hpos := lineCount_pos t (min off (lenBytes t))
  have hle := lineCount_le t (min off (lenBytes t))
  have hlt : lineCount t (min off (lenBytes t)) - 1 < (lineStarts t).length := by
    unfold lenLines at hle; omega
  refine ⟨_, lineToByte_lt t _ hlt, ?_, ?_⟩
  · rw [sorted_index _ (lineStarts_sorted t)]
    show lineCount t (min off (lenBytes t)) - 1 < lineCount t (min off (lenBytes t))
    omega
  · have hb : (lineStarts t)[lineCount t (min off (lenBytes t)) - 1] ≤ min off (lenBytes t) := by
      rw [sorted_index _ (lineStarts_sorted t)]
      show lineCount t (min off (lenBytes t)) - 1 < lineCount t (min off (lenBytes t))
      omega
    unfold toPosition
    have hne : lenLines t ≠ 0 := by omega
    simp only [hne, if_false]
    rw [searchLine_eq t _ _ 0 _ (by omega) (by omega) hle (by omega)]
    have h1 : usub prof (lineCount t (min off (lenBytes t))) 1 =
        .ok (lineCount t (min off (lenBytes t)) - 1) := by unfold usub; rw [if_pos (by omega)]
    simp only [h1, lineToByte_lt t _ hlt]
    unfold usub
    rw [if_pos hb]

/-- `to_position` never fails -/
theorem toPosition_ok (prof : Profile) (t : Rope) (off : Nat) : ∃ p, toPosition prof t off = .ok p := by
  obtain ⟨b, _, _, h⟩ := toPosition_eq prof t off
  exact ⟨_, h⟩

theorem toByte_ok_iff (t : Rope) (p : Position) : (∃ b, toByte t p = .ok b) ↔ p.line ≤ lenLines t := by
  rw [← lineToByte_ok_iff]
  unfold toByte
  constructor
  · rintro ⟨b, h⟩
    split at h
    · next b' hb => exact ⟨_, hb⟩
    · cases h
  · rintro ⟨b, h⟩; rw [h]; exact ⟨_, rfl⟩

theorem toByte_of_lineToByte {t : Rope} {p : Position} {b : Nat} (h : lineToByte t p.line = .ok b) :
    toByte t p = .ok (b + p.character) := by unfold toByte; rw [h]

end Rope
end JinjaLsp
