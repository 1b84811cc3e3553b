import Verif.Lemmas.Rope
import Verif.Lemmas.Point
import Verif.Spec.Text
/- The rope model against the text specifications. -/

namespace JinjaLsp
open Spec

theorem Char.eq_of_toNat {a b : Char} (h : a.toNat = b.toNat) : a = b := by
  apply Char.ext
  apply UInt32.toNat_inj.mp
  exact h

namespace Rope

theorem isBreak_iff (c : Char) : isBreak c = true ↔ c ∈ terminators := by
  have key : ∀ d : Char, c.toNat = d.toNat ↔ c = d := fun d => ⟨Char.eq_of_toNat, fun h => by rw [h]⟩
  simp only [isBreak, terminators, List.mem_cons, List.not_mem_nil, or_false, Bool.or_eq_true,
    decide_eq_true_eq, ← key]
  have h1 : ('\n' : Char).toNat = 0x0A := rfl
  have h2 : ('\x0b' : Char).toNat = 0x0B := rfl
  have h3 : ('\x0c' : Char).toNat = 0x0C := rfl
  have h4 : ('\r' : Char).toNat = 0x0D := rfl
  have h5 : ('\u0085' : Char).toNat = 0x85 := rfl
  have h6 : ('\u2028' : Char).toNat = 0x2028 := rfl
  have h7 : ('\u2029' : Char).toNat = 0x2029 := rfl
  rw [h1, h2, h3, h4, h5, h6, h7]
  simp only [or_assoc]

/-- the condition used by `lineStartsFrom` -/
theorem break_cond (c : Char) (r : Str) :
    (isBreak c && !(decide (c = '\r') && decide (r.head? = some '\n'))) = true ↔
      c ∈ terminators ∧ ¬ (c = '\r' ∧ r.head? = some '\n') := by
  rw [Bool.and_eq_true, isBreak_iff]
  by_cases h1 : c = '\r' <;> by_cases h2 : r.head? = some '\n' <;> simp [h1, h2]

theorem lineStartsFrom_cons (off : Nat) (c : Char) (r : Str) :
    lineStartsFrom off (c :: r) =
      if c ∈ terminators ∧ ¬ (c = '\r' ∧ r.head? = some '\n')
      then (off + c.utf8Size) :: lineStartsFrom (off + c.utf8Size) r
      else lineStartsFrom (off + c.utf8Size) r := by
  rw [lineStartsFrom]
  by_cases h : c ∈ terminators ∧ ¬ (c = '\r' ∧ r.head? = some '\n')
  · rw [if_pos h, if_pos ((break_cond c r).mpr h)]
  · rw [if_neg h, if_neg (fun h' => h ((break_cond c r).mp h'))]

theorem countP_lineStartsFrom : ∀ (t : Str) (base off : Nat), base ≤ off →
    (lineStartsFrom base t).countP (fun y => decide (y ≤ off)) = terminatorsIn t (off - base)
  | [], base, off, h => by simp [lineStartsFrom, terminatorsIn]
  | c :: r, base, off, h => by
    rw [lineStartsFrom_cons, terminatorsIn]
    by_cases hn : off - base < c.utf8Size
    · rw [if_pos hn, List.countP_eq_zero]
      intro x hx
      have : base + c.utf8Size ≤ x := by
        split at hx
        · rcases List.mem_cons.mp hx with hx | hx
          · omega
          · exact Nat.le_of_lt (lineStartsFrom_bounds r _ x hx).1
        · exact Nat.le_of_lt (lineStartsFrom_bounds r _ x hx).1
      simp; omega
    · rw [if_neg hn]
      have ih := countP_lineStartsFrom r (base + c.utf8Size) off (by omega)
      have e : off - (base + c.utf8Size) = off - base - c.utf8Size := by omega
      by_cases hcr : c = '\r' ∧ r.head? = some '\n'
      · rw [if_neg (by rintro ⟨_, h2⟩; exact h2 hcr), if_pos hcr, ih, e]
      · rw [if_neg hcr]
        by_cases hm : c ∈ terminators
        · rw [if_pos ⟨hm, hcr⟩, if_pos hm, List.countP_cons_of_pos (by simp; omega), ih, e]; omega
        · rw [if_neg (by rintro ⟨h1, _⟩; exact hm h1), if_neg hm, ih, e]; omega

theorem lineCount_eq (t : Rope) (off : Nat) : lineCount t off = terminatorsIn t off + 1 := by
  unfold lineCount lineStarts
  rw [List.countP_cons_of_pos (by simp), countP_lineStartsFrom t 0 off (Nat.zero_le _)]
  simp

theorem terminatorsIn_le (t : Str) (n : Nat) : terminatorsIn t n ≤ t.length := by
  induction t generalizing n with
  | nil => simp [terminatorsIn]
  | cons c r ih =>
    simp only [terminatorsIn, List.length_cons]
    have := ih (n - c.utf8Size)
    split
    · omega
    · split
      · omega
      · split <;> omega

theorem getElem_lineStartsFrom : ∀ (t : Str) (base l : Nat),
    (lineStartsFrom base t ++ [base + utf8Len t])[l]? = (lineByte t (l + 1)).map (base + ·)
  | [], base, 0 => by simp [lineStartsFrom, lineByte]
  | [], base, l + 1 => by simp [lineStartsFrom, lineByte]
  | c :: r, base, l => by
    rw [lineStartsFrom_cons, lineByte]
    have e : base + utf8Len (c :: r) = base + c.utf8Size + utf8Len r := by simp; omega
    by_cases hm : c ∈ terminators ∧ ¬ (c = '\r' ∧ r.head? = some '\n')
    · rw [if_pos hm, if_pos hm, e]
      cases l with
      | zero => simp [lineByte]
      | succ l =>
        rw [List.cons_append, List.getElem?_cons_succ, getElem_lineStartsFrom r]
        simp [Option.map_map, Function.comp_def, Nat.add_assoc]
    · rw [if_neg hm, if_neg hm, e, getElem_lineStartsFrom r]
      simp [Option.map_map, Function.comp_def, Nat.add_assoc]

/-- `line_to_byte` computes the specified line offset -/
theorem lineToByte_spec (t : Rope) (l : Nat) :
    lineToByte t l = match lineByte t l with | some b => .ok b | none => .error .lineIndex := by
  unfold lineToByte lineStarts
  have key : (0 :: lineStartsFrom 0 t ++ [lenBytes t])[l]? = lineByte t l := by
    cases l with
    | zero => cases t <;> simp [lineByte]
    | succ l =>
      have := getElem_lineStartsFrom t 0 l
      rw [Nat.zero_add] at this
      rw [List.cons_append, List.getElem?_cons_succ]
      unfold lenBytes
      rw [this]
      simp
  rw [key]
  cases lineByte t l <;> rfl

theorem plainChar_size {c : Char} (h : PlainChar c) : c.utf8Size = 1 := by
  have : c.val ≤ 127 := by
    have := h.1
    rw [Char.toNat] at this
    rw [UInt32.le_iff_toNat_le]
    simpa using Nat.le_of_lt_succ this
  simp [Char.utf8Size, this]

theorem plainChar_terminator {c : Char} (h : PlainChar c) : c ∈ terminators ↔ c = '\n' ∨ c = '\r' := by
  obtain ⟨h1, h2, h3⟩ := h
  constructor
  · intro h
    simp only [terminators, List.mem_cons, List.not_mem_nil, or_false] at h
    rcases h with h | h | h | h | h | h | h
    · exact Or.inl h
    · exact absurd h h2
    · exact absurd h h3
    · exact Or.inr h
    all_goals (subst h; revert h1; decide)
  · rintro (h | h) <;> subst h <;> decide

/-- Where only LF, CR and CR LF end lines, the byte offset of a line is the encoded size of the lines before it. -/
theorem lineByte_of_lineStart : ∀ (t : Str) (l s : Nat), lineStart t l = some s →
    (∀ c ∈ t.take s, c ∈ terminators → c = '\n' ∨ c = '\r') → lineByte t l = some (utf8Len (t.take s))
  | t, 0, s, h, _ => by
    have : s = 0 := by cases t <;> simp [lineStart] at h <;> exact h.symm
    subst this
    cases t <;> simp [lineByte]
  | [], l + 1, s, h, _ => by simp [lineStart] at h
  | c :: r, l + 1, s, h, hp => by
    rw [lineStart] at h
    rw [lineByte]
    have hs : 0 < s := by
      split at h <;> (rw [Option.map_eq_some_iff] at h; obtain ⟨a, _, rfl⟩ := h; omega)
    obtain ⟨s', rfl⟩ : ∃ s', s = s' + 1 := ⟨s - 1, by omega⟩
    have hc : c ∈ terminators → c = '\n' ∨ c = '\r' := hp c (by simp [List.take_succ_cons])
    have hr : ∀ c ∈ r.take s', c ∈ terminators → c = '\n' ∨ c = '\r' :=
      fun x hx => hp x (by simp [List.take_succ_cons, hx])
    have cond : (c = '\n' ∨ (c = '\r' ∧ r.head? ≠ some '\n')) ↔
        (c ∈ terminators ∧ ¬ (c = '\r' ∧ r.head? = some '\n')) := by
      constructor
      · rintro (h | ⟨h, h'⟩)
        · subst h; simp [terminators]
        · exact ⟨by subst h; simp [terminators], fun hh => h' hh.2⟩
      · rintro ⟨h, h'⟩
        rcases hc h with h | h
        · exact Or.inl h
        · exact Or.inr ⟨h, fun hh => h' ⟨h, hh⟩⟩
    by_cases hb : (c = '\n' ∨ (c = '\r' ∧ r.head? ≠ some '\n'))
    · rw [if_pos hb] at h
      rw [if_pos (cond.mp hb)]
      rw [Option.map_eq_some_iff] at h
      obtain ⟨a, ha, e⟩ := h
      have : a = s' := by omega
      subst this
      rw [lineByte_of_lineStart r l a ha hr]
      simp [List.take_succ_cons]
    · rw [if_neg hb] at h
      rw [if_neg (fun hh => hb (cond.mpr hh))]
      rw [Option.map_eq_some_iff] at h
      obtain ⟨a, ha, e⟩ := h
      have : a = s' := by omega
      subst this
      rw [lineByte_of_lineStart r (l + 1) a ha hr]
      simp [List.take_succ_cons]

theorem utf8Len_plain : ∀ (t : Str), (∀ c ∈ t, PlainChar c) → utf8Len t = t.length
  | [], _ => by simp
  | c :: r, h => by
    have := utf8Len_plain r (fun x hx => h x (by simp [hx]))
    simp [plainChar_size (h c (by simp)), this, Nat.add_comm]

theorem lineStart_le : ∀ (t : Str) (l s : Nat), lineStart t l = some s → s ≤ t.length
  | t, 0, s, h => by cases t <;> simp [lineStart] at h <;> omega
  | [], l + 1, s, h => by simp [lineStart] at h
  | c :: r, l + 1, s, h => by
    rw [lineStart] at h
    split at h
    all_goals
      rw [Option.map_eq_some_iff] at h
      obtain ⟨a, ha, rfl⟩ := h
      have := lineStart_le r _ a ha
      simpa using this

theorem lineStart_plain {t : Str} {l s : Nat} (h : lineStart t l = some s)
    (hp : ∀ c ∈ t.take s, PlainChar c) : lineByte t l = some s := by
  rw [lineByte_of_lineStart t l s h (fun c hc => (plainChar_terminator (hp c hc)).mp), utf8Len_plain _ hp]
  simp [lineStart_le t l s h]

theorem columnChars_le : ∀ (t : Str) (n : Nat), columnChars t n ≤ n ∧ columnChars t n ≤ t.length
  | t, 0 => by cases t <;> simp [columnChars]
  | [], n + 1 => by simp [columnChars]
  | c :: r, n + 1 => by
    have ih := columnChars_le r (n + 1 - utf16Len c)
    have : 1 ≤ utf16Len c := by unfold utf16Len; split <;> omega
    simp only [columnChars, List.length_cons]
    split
    · omega
    · split <;> omega

/-- a column that is neither clamped nor shifted by a surrogate pair -/
theorem columnChars_eq : ∀ (t : Str) (n : Nat), columnChars t n = n →
    ∀ c ∈ t.take n, c.toNat < 0x10000 ∧ c ≠ '\n' ∧ c ≠ '\r'
  | t, 0, _, c, hc => by simp at hc
  | [], n + 1, h, c, hc => by simp at hc
  | d :: r, n + 1, h, c, hc => by
    rw [columnChars] at h
    split at h
    · omega
    · rename_i hd
      split at h
      · have hle := (columnChars_le r (n + 1 - utf16Len d)).1
        have h16 : d.toNat < 0x10000 := by
          apply Decidable.byContradiction; intro hh
          have : utf16Len d = 2 := by simp [utf16Len, hh]
          omega
        have : utf16Len d = 1 := by simp [utf16Len, h16]
        rw [this] at h
        rcases List.mem_cons.mp (by simpa [List.take_succ_cons] using hc) with rfl | hc
        · exact ⟨h16, fun e => hd (Or.inl e), fun e => hd (Or.inr e)⟩
        · exact columnChars_eq r n (by simpa using (by omega : columnChars r (n + 1 - 1) = n)) c hc
      · omega

theorem columnChars_bmp : ∀ (t : Str) (n : Nat), n ≤ t.length →
    (∀ c ∈ t.take n, c.toNat < 0x10000 ∧ c ≠ '\n' ∧ c ≠ '\r') → columnChars t n = n
  | t, 0, _, _ => by cases t <;> simp [columnChars]
  | [], n + 1, h, _ => by simp at h
  | c :: r, n + 1, h, hp => by
    have hc := hp c (by simp [List.take_succ_cons])
    have ih := columnChars_bmp r n (by simpa using h) (fun x hx => hp x (by simp [List.take_succ_cons, hx]))
    simp [columnChars, hc.2.1, hc.2.2, utf16Len, hc.1, ih, Nat.add_comm]

/-- the offset the server computes for a plain position is the LSP one -/
theorem toByte_plain {t : Str} {p : Position} {a : Nat} (h : PlainPos t p a) : toByte t p = .ok a := by
  obtain ⟨s, h1, h2, h3, rfl⟩ := h.ex
  apply toByte_of_lineToByte
  rw [lineToByte_spec, lineStart_plain h1 h2]

theorem offset_plain {t : Str} {p : Position} {a : Nat} (h : PlainPos t p a) : offset t p = some a := by
  obtain ⟨s, h1, h2, h3, rfl⟩ := h.ex
  simp [offset, h1, h3]

theorem plain_le {t : Str} {p : Position} {a : Nat} (h : PlainPos t p a) : a ≤ t.length := by
  obtain ⟨s, h1, h2, h3, rfl⟩ := h.ex
  have := (columnChars_le (t.drop s) p.character).2
  have := lineStart_le t _ s h1
  simp at *; omega

/-- `to_input_edit` in terms of its two offsets -/
theorem toInputEdit_eq (prof : Profile) (t : Rope) (r : Range) (text : Str) (s e : Nat)
    (hs : toByte t r.start = .ok s) (he : toByte t r.stop = .ok e) :
    ∃ p, toPosition prof t (s + utf8Len text) = .ok p ∧
      toInputEdit prof t r text = .ok ⟨s, e, s + utf8Len text, toPoint r.start, toPoint r.stop, toPoint p⟩ := by
  obtain ⟨p, hp⟩ := toPosition_ok prof t (s + utf8Len text)
  refine ⟨p, hp, ?_⟩
  simp [toInputEdit, hs, he, hp]

/-- the text after an edit whose offsets are in order and in bounds -/
theorem applyChange_forward (prof : Profile) (t : Rope) (r : Range) (text : Str) (s e : Nat)
    (hs : toByte t r.start = .ok s) (he : toByte t r.stop = .ok e) (hse : s ≤ e) (hl : e ≤ t.length) :
    ∃ p, toPosition prof t (s + utf8Len text) = .ok p ∧
      applyChange prof t r text = .ok (t.take s ++ text ++ t.drop e,
        ⟨s, e, s + utf8Len text, toPoint r.start, toPoint r.stop, toPoint p⟩) := by
  obtain ⟨p, hp, hie⟩ := toInputEdit_eq prof t r text s e hs he
  refine ⟨p, hp, ?_⟩
  have hrem : remove t s e = .ok (t.take s ++ t.drop e) := by
    unfold remove lenChars; rw [if_pos ⟨hse, hl⟩]
  have hlen : (t.take s).length = s := by simp; omega
  unfold applyChange
  simp only [hie, hs, he, if_pos hse, hrem]
  cases text with
  | nil => simp
  | cons c rest =>
    have : insert (t.take s ++ t.drop e) s (c :: rest) = .ok (t.take s ++ (c :: rest) ++ t.drop e) := by
      unfold insert lenChars
      rw [if_pos (by simp; omega)]
      have h1 : List.take s (t.take s ++ t.drop e) = t.take s := by
        rw [List.take_append_of_le_length (by omega)]; simp [List.take_take]
      have h2 : List.drop s (t.take s ++ t.drop e) = t.drop e := by
        rw [List.drop_append, List.drop_eq_nil_of_le (by omega), hlen]; simp
      rw [h1, h2]
    simp [this]

/-- exact crash condition -/
theorem applyChange_error_iff (prof : Profile) (t : Rope) (r : Range) (text : Str) :
    (∃ p, applyChange prof t r text = .error p) ↔ EditCrash t r text := by
  unfold EditCrash
  have tb : ∀ q : Position, toByte t q = match lineByte t q.line with
      | some b => .ok (b + q.character) | none => .error .lineIndex := by
    intro q
    unfold toByte
    rw [lineToByte_spec]
    cases lineByte t q.line <;> rfl
  cases ha : lineByte t r.start.line with
  | none =>
    simp only [iff_true]
    refine ⟨.lineIndex, ?_⟩
    have := tb r.start
    rw [ha] at this
    simp [applyChange, toInputEdit, this]
  | some a =>
    have hs := tb r.start
    rw [ha] at hs
    simp only at hs
    cases hb : lineByte t r.stop.line with
    | none =>
      simp only [iff_true]
      refine ⟨.lineIndex, ?_⟩
      have he := tb r.stop
      rw [hb] at he
      obtain ⟨p, hp⟩ := toPosition_ok prof t (a + r.start.character + utf8Len text)
      simp [applyChange, toInputEdit, hs, he, hp]
    | some b =>
      have he := tb r.stop
      rw [hb] at he
      simp only at he
      simp only
      generalize a + r.start.character = s at *
      generalize b + r.stop.character = e at *
      obtain ⟨p, hp, hie⟩ := toInputEdit_eq prof t r text s e hs he
      unfold applyChange
      simp only [hie, hs, he]
      have hrem : (if s ≤ e then remove t s e else remove t e s) =
          if max s e ≤ t.length then .ok (t.take (min s e) ++ t.drop (max s e)) else .error .charIndex := by
        by_cases hse : s ≤ e
        · simp [hse, remove, lenChars, Nat.min_eq_left hse, Nat.max_eq_right hse]
        · have hse' : e ≤ s := by omega
          simp [hse, hse', remove, lenChars, Nat.min_eq_right hse', Nat.max_eq_left hse']
      rw [hrem]
      by_cases hm : max s e ≤ t.length
      · rw [if_pos hm]
        have hlen : (t.take (min s e) ++ t.drop (max s e)).length = t.length - (max s e - min s e) := by
          simp; omega
        cases text with
        | nil => simp; omega
        | cons c rest =>
          simp only [List.isEmpty_cons, insert, lenChars, hlen]
          by_cases hi : s ≤ t.length - (max s e - min s e)
          · simp [hi]; omega
          · simp [hi]; omega
      · rw [if_neg hm]; simp; left; omega

theorem terminatorsIn_eq_lineByte (t : Rope) (off b : Nat) (h : off ≤ lenBytes t)
    (hb : lineToByte t (terminatorsIn t off) = .ok b) : b ≤ off := by
  obtain ⟨b', h1, h2, _⟩ := toPosition_eq .release t off
  rw [Nat.min_eq_left h, lineCount_eq] at *
  simp only [Nat.add_sub_cancel] at h1
  rw [hb] at h1
  cases h1
  exact h2

theorem advance_append (p : Point) (a b : Str) : advance p (a ++ b) = advance (advance p a) b := by
  induction a generalizing p with
  | nil => rfl
  | cons c r ih => simp [advance, ih]

theorem advance_line : ∀ (p : Point) (s : Str), (∀ c ∈ s, PlainChar c ∧ c ≠ '\n') →
    advance p s = ⟨p.row, p.column + s.length⟩
  | p, [], _ => by simp [advance]
  | p, c :: r, h => by
    have hc := h c (by simp)
    simp only [advance, hc.2, if_false, plainChar_size hc.1, List.length_cons]
    rw [advance_line _ r (fun x hx => h x (by simp [hx]))]
    simp; omega

theorem advance_le : ∀ (p : Point) (s : Str), p ≤ advance p s
  | p, [] => Point.le_refl p
  | p, c :: r => by
    refine Point.le_trans ?_ (advance_le _ r)
    split
    · exact Or.inl (by simp)
    · exact Or.inr ⟨rfl, by simp⟩

theorem advance_lt (p : Point) (s : Str) (h : s ≠ []) : p < advance p s := by
  cases s with
  | nil => exact absurd rfl h
  | cons c r =>
    refine Point.lt_of_lt_of_le ?_ (advance_le _ r)
    have := utf8Size_pos c
    split
    · exact Or.inl (by simp)
    · exact Or.inr ⟨rfl, by simp; omega⟩

theorem advance_lineStart : ∀ (t : Str) (l s : Nat) (p : Point), lineStart t l = some s →
    (∀ c ∈ t.take s, PlainChar c) → NoLoneCR t →
    advance p (t.take s) = if l = 0 then p else ⟨p.row + l, 0⟩
  | t, 0, s, p, h, _, _ => by
    have : s = 0 := by cases t <;> simp [lineStart] at h <;> exact h.symm
    subst this
    simp [advance]
  | [], l + 1, s, p, h, _, _ => by simp [lineStart] at h
  | c :: r, l + 1, s, p, h, hp, hcr => by
    rw [lineStart] at h
    have hs : 0 < s := by
      split at h <;> (rw [Option.map_eq_some_iff] at h; obtain ⟨a, _, rfl⟩ := h; omega)
    obtain ⟨s', rfl⟩ : ∃ s', s = s' + 1 := ⟨s - 1, by omega⟩
    have hr : ∀ c ∈ r.take s', PlainChar c := fun x hx => hp x (by simp [List.take_succ_cons, hx])
    split at h
    · rename_i hb
      rw [Option.map_eq_some_iff] at h
      obtain ⟨a, ha, e⟩ := h
      have : a = s' := by omega
      subst this
      have hc : c = '\n' := by
        rcases hb with hb | ⟨h1, h2⟩
        · exact hb
        · exact absurd (hcr.1 h1) h2
      subst hc
      rw [List.take_succ_cons, advance, advance_lineStart r l a _ ha hr hcr.2]
      cases l with
      | zero => simp
      | succ l => simp; omega
    · rename_i hb
      rw [Option.map_eq_some_iff] at h
      obtain ⟨a, ha, e⟩ := h
      have : a = s' := by omega
      subst this
      have hc : c ≠ '\n' := fun hc => hb (Or.inl hc)
      rw [List.take_succ_cons, advance, advance_lineStart r (l + 1) a _ ha hr hcr.2]
      simp [hc]

theorem take_add' {α : Type} (t : List α) (i j : Nat) : t.take (i + j) = t.take i ++ (t.drop i).take j := by
  rw [List.take_add]

/-- the tree-sitter point of a plain position is its row and column -/
theorem advance_plain {t : Str} {p : Position} {a : Nat} (h : PlainPos t p a)
    (hp : ∀ c ∈ t.take a, PlainChar c) (hcr : NoLoneCR t) : advance ⟨0, 0⟩ (t.take a) = toPoint p := by
  obtain ⟨s, h1, h2, h3, rfl⟩ := h.ex
  rw [take_add', advance_append, advance_lineStart t _ s _ h1 h2 hcr, advance_line]
  · have hl := (columnChars_le (t.drop s) p.character).2
    have : ((t.drop s).take p.character).length = p.character := by simp at *; omega
    rw [this]
    by_cases h0 : p.line = 0 <;> simp [h0, toPoint]
  · intro c hc
    have h4 := columnChars_eq _ _ h3 c hc
    exact ⟨hp c (by rw [take_add']; exact List.mem_append_right _ hc), h4.2.1⟩

theorem terminatorsIn_line : ∀ (t : Str) (k : Nat), k ≤ t.length →
    (∀ c ∈ t.take k, PlainChar c ∧ c ≠ '\n' ∧ c ≠ '\r') → terminatorsIn t k = 0
  | [], k, _, _ => by simp [terminatorsIn]
  | c :: r, 0, _, _ => by have := utf8Size_pos c; rw [terminatorsIn, if_pos this]
  | c :: r, k + 1, h, hp => by
    have hc := hp c (by simp [List.take_succ_cons])
    have ih := terminatorsIn_line r k (by simpa using h) (fun x hx => hp x (by simp [List.take_succ_cons, hx]))
    have hm : c ∉ terminators := fun hm => by
      rcases (plainChar_terminator hc.1).mp hm with h | h
      · exact hc.2.1 h
      · exact hc.2.2 h
    rw [terminatorsIn, plainChar_size hc.1, if_neg (by omega), if_neg (fun h => hc.2.2 h.1), if_neg hm]
    simpa using ih

theorem terminatorsIn_lineStart : ∀ (t : Str) (l s k : Nat), lineStart t l = some s → s + k ≤ t.length →
    (∀ c ∈ t.take (s + k), PlainChar c) → (∀ c ∈ (t.drop s).take k, c ≠ '\n' ∧ c ≠ '\r') →
    terminatorsIn t (s + k) = l
  | t, 0, s, k, h, hk, hp, hn => by
    have : s = 0 := by cases t <;> simp [lineStart] at h <;> exact h.symm
    subst this
    simp only [Nat.zero_add] at *
    exact terminatorsIn_line t k hk (fun c hc => ⟨hp c hc, hn c (by simpa using hc)⟩)
  | [], l + 1, s, k, h, _, _, _ => by simp [lineStart] at h
  | c :: r, l + 1, s, k, h, hk, hp, hn => by
    rw [lineStart] at h
    have hs : 0 < s := by
      split at h <;> (rw [Option.map_eq_some_iff] at h; obtain ⟨a, _, rfl⟩ := h; omega)
    obtain ⟨s', rfl⟩ : ∃ s', s = s' + 1 := ⟨s - 1, by omega⟩
    have e1 : s' + 1 + k = (s' + k) + 1 := by omega
    rw [e1] at hp hk ⊢
    have hc := hp c (by simp [List.take_succ_cons])
    have hr : ∀ c ∈ r.take (s' + k), PlainChar c := fun x hx => hp x (by simp [List.take_succ_cons, hx])
    have hkr : s' + k ≤ r.length := by simpa using hk
    have hnr : ∀ c ∈ (r.drop s').take k, c ≠ '\n' ∧ c ≠ '\r' := by simpa using hn
    rw [terminatorsIn, plainChar_size hc, if_neg (by omega), Nat.add_sub_cancel]
    split at h
    · rename_i hb
      rw [Option.map_eq_some_iff] at h
      obtain ⟨a, ha, e⟩ := h
      have : a = s' := by omega
      subst this
      have ih := terminatorsIn_lineStart r l a k ha hkr hr hnr
      have hm : c ∈ terminators := (plainChar_terminator hc).mpr (hb.imp id And.left)
      have hcr : ¬ (c = '\r' ∧ r.head? = some '\n') := by
        rintro ⟨h1, h2⟩
        rcases hb with hb | hb
        · subst hb; simp at h1
        · exact hb.2 h2
      rw [if_neg hcr, if_pos hm, ih]
      omega
    · rename_i hb
      rw [Option.map_eq_some_iff] at h
      obtain ⟨a, ha, e⟩ := h
      have : a = s' := by omega
      subst this
      have ih := terminatorsIn_lineStart r (l + 1) a k ha hkr hr hnr
      by_cases hcr : c = '\r' ∧ r.head? = some '\n'
      · rw [if_pos hcr, ih]
      · have hm : c ∉ terminators := fun hm => by
          rcases (plainChar_terminator hc).mp hm with h | h
          · exact hb (Or.inl h)
          · exact hb (Or.inr ⟨h, fun hh => hcr ⟨h, hh⟩⟩)
        rw [if_neg hcr, if_neg hm, ih]
        omega

theorem terminatorsIn_plain {t : Str} {p : Position} {a : Nat} (h : PlainPos t p a)
    (hp : ∀ c ∈ t.take a, PlainChar c) : terminatorsIn t a = p.line := by
  have hle := plain_le h
  obtain ⟨s, h1, h2, h3, rfl⟩ := h.ex
  exact terminatorsIn_lineStart t p.line s p.character h1 hle hp
    (fun c hc => (columnChars_eq _ _ h3 c hc).2)

end Rope
end JinjaLsp
