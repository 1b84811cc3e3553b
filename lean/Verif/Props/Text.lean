import Verif.Lemmas.Text
import Verif.Model.Server
/-
  Text synchronisation: C05 (offset/position conversion), C06 (which edits crash), C04 (edit descriptors),
  C01 (edits against the LSP definition; server-level history theorem in `Props/Sync.lean`).
-/

namespace JinjaLsp
open Spec Rope

/-! ## C05 -/

/-- **C05** Any byte offset converts to a position and back to the offset clamped to the document length; the line is
the number of line terminators that end at or before the offset.  (Positions are `u32`, hence the 4 GiB bound.) -/
theorem C05_roundtrip (prof : Profile) (t : Str) (off : Nat) (h : utf8Len t < 4294967296) :
    ∃ p, toPosition prof t off = .ok p ∧ toByte t p = .ok (min off (utf8Len t)) ∧
      p.line = terminatorsIn t (min off (utf8Len t)) := by
  obtain ⟨b, h1, h2, h3⟩ := toPosition_eq prof t off
  rw [lineCount_eq] at *
  simp only [Nat.add_sub_cancel] at *
  have hl : terminatorsIn t (min off (lenBytes t)) < 4294967296 := by
    have := terminatorsIn_le t (min off (lenBytes t))
    have := length_le_utf8Len t
    omega
  have hm : min off (lenBytes t) < 4294967296 := by unfold lenBytes; omega
  have e1 : toU32 (terminatorsIn t (min off (lenBytes t))) = terminatorsIn t (min off (lenBytes t)) :=
    Nat.mod_eq_of_lt hl
  have e2 : toU32 (min off (lenBytes t) - b) = min off (lenBytes t) - b := Nat.mod_eq_of_lt (by omega)
  refine ⟨_, h3, ?_, ?_⟩
  · rw [e1, e2]
    rw [toByte_of_lineToByte (b := b) (by simpa using h1)]
    simp only [Except.ok.injEq]
    unfold lenBytes at *
    omega
  · exact e1

/-- **C05** conversion is monotone -/
theorem C05_monotone (prof : Profile) (t : Str) (a b : Nat) (p q : Position) (h : utf8Len t < 4294967296)
    (hp : toPosition prof t a = .ok p) (hq : toPosition prof t b = .ok q) (hab : a ≤ b) :
    p.line < q.line ∨ (p.line = q.line ∧ p.character ≤ q.character) := by
  obtain ⟨p', hp', bp, lp⟩ := C05_roundtrip prof t a h
  obtain ⟨q', hq', bq, lq⟩ := C05_roundtrip prof t b h
  rw [hp] at hp'; cases hp'
  rw [hq] at hq'; cases hq'
  have hmin : min a (utf8Len t) ≤ min b (utf8Len t) := by omega
  have hle : p.line ≤ q.line := by
    have := lineCount_mono t hmin
    rw [lineCount_eq, lineCount_eq] at this
    omega
  rcases Nat.lt_or_eq_of_le hle with hlt | heq
  · exact Or.inl hlt
  · refine Or.inr ⟨heq, ?_⟩
    unfold toByte at bp bq
    rw [heq] at bp
    cases hb : lineToByte t q.line with
    | error e => rw [hb] at bp; simp at bp
    | ok x =>
      rw [hb] at bp bq
      simp only [Except.ok.injEq] at bp bq
      omega

/-- **C05** conversely, a position whose line contains its offset is recovered from the offset -/
theorem C05_inverse (prof : Profile) (t : Str) (p : Position) (b : Nat) (h : utf8Len t < 4294967296)
    (hb : toByte t p = .ok b) (hle : b ≤ utf8Len t) (hline : terminatorsIn t b = p.line) :
    toPosition prof t b = .ok p := by
  obtain ⟨q, hq, bq, lq⟩ := C05_roundtrip prof t b h
  rw [Nat.min_eq_left hle] at bq lq
  rw [hq]
  have hl : q.line = p.line := by rw [lq, hline]
  unfold toByte at bq hb
  rw [hl] at bq
  cases hx : lineToByte t p.line with
  | error e => rw [hx] at bq; simp at bq
  | ok x =>
    rw [hx] at bq hb
    simp only [Except.ok.injEq] at bq hb
    have : q.character = p.character := by omega
    cases q; cases p; simp_all

/-- the hypotheses are met by a text with several kinds of terminators, an offset in the middle of its third line -/
example : utf8Len c!"ab\r\nc\x0bdé" < 4294967296 ∧
    toPosition .debug c!"ab\r\nc\x0bdé" 7 = .ok ⟨2, 1⟩ ∧ toByte c!"ab\r\nc\x0bdé" ⟨2, 1⟩ = .ok 7 :=
  ⟨by decide, rfl, rfl⟩

/-! ## C06 -/

/-- **C06** Processing a ranged edit terminates abnormally exactly when it goes out of bounds (`EditCrash`). -/
theorem C06_edit_crash_iff (prof : Profile) (t : Str) (r : Range) (text : Str) :
    (∃ p, applyChange prof t r text = .error p) ↔ EditCrash t r text :=
  applyChange_error_iff prof t r text

/-- **C06** edits whose computed offsets are in order and inside the text never crash -/
theorem C06_forward_ok (prof : Profile) (t : Str) (r : Range) (text : Str) (a b : Nat)
    (ha : lineByte t r.start.line = some a) (hb : lineByte t r.stop.line = some b)
    (h1 : a + r.start.character ≤ b + r.stop.character) (h2 : b + r.stop.character ≤ t.length) :
    ∃ res, applyChange prof t r text = .ok res := by
  cases h : applyChange prof t r text with
  | ok res => exact ⟨res, rfl⟩
  | error e =>
    have := (C06_edit_crash_iff prof t r text).mp ⟨e, h⟩
    unfold EditCrash at this
    rw [ha, hb] at this
    simp only at this
    omega

example : lineByte c!"ab\ncd" 1 = some 3 ∧ ¬ EditCrash c!"ab\ncd" ⟨⟨1, 0⟩, ⟨1, 2⟩⟩ c!"x" ∧
    EditCrash c!"ab\ncd" ⟨⟨1, 0⟩, ⟨1, 3⟩⟩ c!"x" ∧ EditCrash c!"ab\ncd" ⟨⟨3, 0⟩, ⟨3, 0⟩⟩ c!"x" := by
  refine ⟨by decide, ?_, ?_, ?_⟩
  · show ¬ (_ ∨ _); decide
  · show (_ ∨ _); decide
  · show True; trivial

/-- **C06** A position that LSP allows can crash the server: here `(1, 0)` of a two-line text (byte offset 7, 5 characters). -/
theorem C06_valid_edit_crashes :
    ∃ t r text t', applyEdit t r text = some t' ∧ ∀ prof, ∃ p, applyChange prof t r text = .error p :=
  ⟨c!"ééé\nx", ⟨⟨1, 0⟩, ⟨1, 0⟩⟩, c!"y", c!"ééé\nyx", by decide, fun prof =>
    (C06_edit_crash_iff prof _ _ _).mpr (by show (_ ∨ _); decide)⟩

/-! ## C01, one edit and batches -/

/-- **C01** one edit between plain positions is applied as LSP prescribes -/
theorem C01_edit_partial (prof : Profile) (t : Str) (r : Range) (text : Str) (h : PlainEdit t r) :
    ∃ t' ie, applyEdit t r text = some t' ∧ applyChange prof t r text = .ok (t', ie) := by
  obtain ⟨a, b, ha, hb, hab⟩ := h
  obtain ⟨p, _, hc⟩ := applyChange_forward prof t r text a b (toByte_plain ha) (toByte_plain hb) hab (plain_le hb)
  refine ⟨_, _, ?_, hc⟩
  simp [applyEdit, offset_plain ha, offset_plain hb, hab]

/-- **C01** a batch (equivalently: a history) of such edits yields the text LSP prescribes -/
theorem C01_batch_partial (prof : Profile) : ∀ (es : List (Range × Str)) (t : Str), PlainEdits t es →
    ∃ t' ies, applyEdits t es = some t' ∧
      LspFiles.applyChanges prof t (es.map fun e => ⟨some e.1, e.2⟩) = .ok (t', ies, true)
  | [], t, _ => ⟨t, [], rfl, rfl⟩
  | e :: es, t, h => by
    obtain ⟨t1, ie, h1, h2⟩ := C01_edit_partial prof t e.1 e.2 h.1
    obtain ⟨t2, ies, h3, h4⟩ := C01_batch_partial prof es t1 (h.2 t1 h1)
    refine ⟨t2, (t1, ie) :: ies, ?_, ?_⟩
    · simp [applyEdits, h1, h3]
    · simp [LspFiles.applyChanges, h2, h4]

theorem plain_of_ascii {t : Str} (ht : ∀ c ∈ t, PlainChar c) {p : Position} (h : InRange t p) :
    ∃ a, PlainPos t p a := by
  obtain ⟨s, h1, h2⟩ := h
  exact ⟨_, ⟨s, h1, fun c hc => ht c (List.mem_of_mem_take hc), h2, rfl⟩⟩

/-- the text stays ASCII and every edit is plain -/
theorem plainEdits_of_ascii : ∀ (es : List (Range × Str)) (t : Str), (∀ c ∈ t, PlainChar c) →
    (∀ e ∈ es, ∀ c ∈ e.2, PlainChar c) → InRangeEdits t es → PlainEdits t es
  | [], _, _, _, _ => trivial
  | e :: es, t, ht, he, h => by
    obtain ⟨h1, h2, t1, h3, h4⟩ := h
    obtain ⟨a, ha⟩ := plain_of_ascii ht h1
    obtain ⟨b, hb⟩ := plain_of_ascii ht h2
    have hab : a ≤ b := by
      simp only [applyEdit, offset_plain ha, offset_plain hb] at h3
      split at h3
      · assumption
      · simp at h3
    refine ⟨⟨a, b, ha, hb, hab⟩, fun t' ht' => ?_⟩
    rw [h3] at ht'
    cases ht'
    refine plainEdits_of_ascii es t1 ?_ (fun e' he' => he e' (by simp [he'])) h4
    simp only [applyEdit, offset_plain ha, offset_plain hb, if_pos hab, Option.some.injEq] at h3
    subst h3
    intro c hc
    rcases List.mem_append.mp hc with hc | hc
    · rcases List.mem_append.mp hc with hc | hc
      · exact ht c (List.mem_of_mem_take hc)
      · exact he e (by simp) c hc
    · exact ht c (List.mem_of_mem_drop hc)

/-- **C01** for ASCII documents and edits (no VT/FF) every history of in-range edits is applied correctly.
Missing for the full statement: non-ASCII text, columns past the end of a line, which the code gets wrong (below). -/
theorem C01_ascii_partial (prof : Profile) (es : List (Range × Str)) (t : Str) (ht : ∀ c ∈ t, PlainChar c)
    (he : ∀ e ∈ es, ∀ c ∈ e.2, PlainChar c) (h : InRangeEdits t es) :
    ∃ t' ies, applyEdits t es = some t' ∧
      LspFiles.applyChanges prof t (es.map fun e => ⟨some e.1, e.2⟩) = .ok (t', ies, true) :=
  C01_batch_partial prof es t (plainEdits_of_ascii es t ht he h)

/-- a CR LF document, replacing a word on its second line and then inserting a line break at its end -/
example : (∀ c ∈ c!"ab\r\ncd e", PlainChar c) ∧
    InRangeEdits c!"ab\r\ncd e" [(⟨⟨1, 0⟩, ⟨1, 2⟩⟩, c!"xyz"), (⟨⟨1, 5⟩, ⟨1, 5⟩⟩, c!"\n")] ∧
    applyEdits c!"ab\r\ncd e" [(⟨⟨1, 0⟩, ⟨1, 2⟩⟩, c!"xyz"), (⟨⟨1, 5⟩, ⟨1, 5⟩⟩, c!"\n")] =
      some c!"ab\r\nxyz e\n" := by
  refine ⟨?_, ⟨⟨4, by decide, by decide⟩, ⟨4, by decide, by decide⟩, c!"ab\r\nxyz e", by decide,
    ⟨4, by decide, by decide⟩, ⟨4, by decide, by decide⟩, c!"ab\r\nxyz e\n", by decide, trivial⟩, by decide⟩
  unfold PlainChar; decide

/-- **C01** Wherever a line above contains a multi-byte character, every offset the server computes is too large: it
exceeds the LSP character index by the number of extra bytes. -/
theorem C01_offset_drift (t : Str) (l s col : Nat) (hl : lineStart t l = some s)
    (ht : ∀ c ∈ t.take s, c ∈ terminators → c = '\n' ∨ c = '\r') (c : Char) (hc : c ∈ t.take s)
    (hm : 1 < c.utf8Size) : ∃ b, toByte t ⟨l, col⟩ = .ok b ∧ s + col < b := by
  refine ⟨utf8Len (t.take s) + col, ?_, ?_⟩
  · apply toByte_of_lineToByte
    rw [lineToByte_spec, lineByte_of_lineStart t l s hl ht]
  · have hlen : (t.take s).length = s := by simp [lineStart_le t l s hl]
    have : ∀ u : Str, c ∈ u → u.length < utf8Len u := by
      intro u hu
      induction u with
      | nil => simp at hu
      | cons d u ih =>
        have h1 := length_le_utf8Len u
        have h2 := utf8Size_pos d
        rcases List.mem_cons.mp hu with rfl | hu
        · simp; omega
        · have := ih hu; simp; omega
    have := this _ hc
    omega

example : lineStart c!"é\nab" 1 = some 2 ∧ 'é' ∈ c!"é\nab".take 2 ∧ 1 < 'é'.utf8Size ∧
    toByte c!"é\nab" ⟨1, 0⟩ = .ok 3 :=
  ⟨by decide, by decide, by decide, rfl⟩

/-- **C01** the full statement is false: non-ASCII text … -/
theorem C01_refuted_nonascii : ∃ t r text t' u, applyEdit t r text = some t' ∧ u ≠ t' ∧
    ∀ prof, ∃ ie, applyChange prof t r text = .ok (u, ie) :=
  ⟨c!"é\nab", ⟨⟨1, 0⟩, ⟨1, 0⟩⟩, c!"x", c!"é\nxab", c!"é\naxb", by decide, by decide, fun prof => by
    cases prof <;> exact ⟨_, rfl⟩⟩

/-- … and columns past the end of a line (LSP clamps them, the server writes into the next line) … -/
theorem C01_refuted_column : ∃ t r text t' u, applyEdit t r text = some t' ∧ u ≠ t' ∧
    ∀ prof, ∃ ie, applyChange prof t r text = .ok (u, ie) :=
  ⟨c!"a\nbc", ⟨⟨0, 3⟩, ⟨0, 3⟩⟩, c!"x", c!"ax\nbc", c!"a\nbxc", by decide, by decide, fun prof => by
    cases prof <;> exact ⟨_, rfl⟩⟩

/-- … and characters that end a line for the rope but not for LSP (here a form feed) -/
theorem C01_refuted_formfeed : ∃ t r text t' u, applyEdit t r text = some t' ∧ u ≠ t' ∧
    ∀ prof, ∃ ie, applyChange prof t r text = .ok (u, ie) :=
  ⟨c!"a\x0cb\nc", ⟨⟨1, 0⟩, ⟨1, 0⟩⟩, c!"x", c!"a\x0cb\nxc", c!"a\x0cxb\nc", by decide, by decide, fun prof => by
    cases prof <;> exact ⟨_, rfl⟩⟩

/-- the result of an edit that inserts something, in terms of its two offsets -/
theorem applyChange_result {prof : Profile} {t : Rope} {r : Range} {text : Str} {t' : Str} {ie : InputEdit} (hne : text ≠ [])
    (h : applyChange prof t r text = .ok (t', ie)) {s e : Nat} (hs : toByte t r.start = .ok s) (he : toByte t r.stop = .ok e) :
    max s e ≤ t.length ∧ s ≤ (t.take (min s e) ++ t.drop (max s e)).length ∧
    t' = (t.take (min s e) ++ t.drop (max s e)).take s ++ text ++ (t.take (min s e) ++ t.drop (max s e)).drop s := by
  unfold applyChange at h
  split at h
  · cases h
  rw [hs, he] at h
  simp only at h
  split at h
  · cases h
  rename_i t1 hr
  have hr' : max s e ≤ t.length ∧ t1 = t.take (min s e) ++ t.drop (max s e) := by
    split at hr
    · rename_i hle
      unfold remove lenChars at hr
      split at hr
      · rename_i hc
        cases hr
        rw [Nat.max_eq_right hle, Nat.min_eq_left hle]
        exact ⟨hc.2, rfl⟩
      · cases hr
    · rename_i hle
      have hle : e ≤ s := by omega
      unfold remove lenChars at hr
      split at hr
      · rename_i hc
        cases hr
        rw [Nat.max_eq_left hle, Nat.min_eq_right hle]
        exact ⟨hc.2, rfl⟩
      · cases hr
  obtain ⟨hl, rfl⟩ := hr'
  have hemp : text.isEmpty = false := by cases text with | nil => exact absurd rfl hne | cons _ _ => rfl
  rw [hemp] at h
  simp only [Bool.false_eq_true, if_false] at h
  split at h
  · cases h
  rename_i t2 hi
  unfold Rope.insert lenChars at hi
  split at hi
  · rename_i hc
    cases hi; cases h
    exact ⟨hl, hc, rfl⟩
  · cases hi

/-- the offset the server computes for an LSP position is never too small, and right only for plain positions -/
theorem toByte_ge {t : Str} {p : Position} {a : Nat} (ht : ∀ c ∈ t, c ∈ terminators → c = '\n' ∨ c = '\r')
    (ha : offset t p = some a) : ∃ s, toByte t p = .ok s ∧ a ≤ s ∧ (s = a → PlainPos t p a) := by
  unfold offset at ha
  cases hl : lineStart t p.line with
  | none => rw [hl] at ha; cases ha
  | some l =>
    rw [hl] at ha
    simp only [Option.map_some, Option.some.injEq] at ha
    subst ha
    have hb : lineByte t p.line = some (utf8Len (t.take l)) :=
      lineByte_of_lineStart t p.line l hl (fun c hc => ht c (List.mem_of_mem_take hc))
    have hlen : (t.take l).length = l := by simp [lineStart_le t _ l hl]
    have h1 := length_le_utf8Len (t.take l)
    have h2 := (columnChars_le (t.drop l) p.character).1
    refine ⟨utf8Len (t.take l) + p.character, ?_, by omega, fun he => ⟨l, hl, ?_, by omega, by omega⟩⟩
    · apply toByte_of_lineToByte
      rw [lineToByte_spec, hb]
    · have hall : ∀ u : Str, utf8Len u = u.length → ∀ c ∈ u, c.utf8Size = 1 := by
        intro u hu
        induction u with
        | nil => simp
        | cons d u ih =>
          have g1 := length_le_utf8Len u
          have g2 := utf8Size_pos d
          simp only [utf8Len_cons, List.length_cons] at hu
          intro c hc
          rcases List.mem_cons.mp hc with rfl | hc
          · omega
          · exact ih (by omega) c hc
      intro c hc
      have hsz := hall (t.take l) (by omega) c hc
      have hasc : c.toNat < 128 := by
        have := Char.utf8Size_eq_one_iff.mp hsz
        have h' : c.val.toNat ≤ 127 := this
        show c.val.toNat < 128
        omega
      refine ⟨hasc, fun e => ?_, fun e => ?_⟩
      · subst e
        rcases ht _ (List.mem_of_mem_take hc) (by decide) with e | e <;> revert e <;> decide
      · subst e
        rcases ht _ (List.mem_of_mem_take hc) (by decide) with e | e <;> revert e <;> decide

/-- **C01** exactly: in a text without the line terminators only the rope knows, the server applies the insertion of every
text at a range as LSP prescribes if and only if the range is plain.  (Any other range goes wrong for one of any two texts that
are single characters.) -/
theorem C01_exact (prof : Profile) (t : Str) (r : Range) (ht : ∀ c ∈ t, c ∈ terminators → c = '\n' ∨ c = '\r') :
    (∀ text, ∃ t' ie, applyEdit t r text = some t' ∧ applyChange prof t r text = .ok (t', ie)) ↔ PlainEdit t r := by
  constructor
  · intro h
    obtain ⟨t1, ie1, h1, g1⟩ := h ['x']
    obtain ⟨t2, ie2, h2, g2⟩ := h ['y']
    unfold applyEdit at h1 h2
    cases ha : offset t r.start with
    | none => rw [ha] at h1; cases h1
    | some a =>
      cases hb : offset t r.stop with
      | none => rw [ha, hb] at h1; cases h1
      | some b =>
        rw [ha, hb] at h1 h2
        simp only at h1 h2
        split at h1
        · rename_i hab
          rw [if_pos hab] at h2
          cases h1; cases h2
          obtain ⟨s, hs, has, ps⟩ := toByte_ge ht ha
          obtain ⟨e, he, hbe, pe⟩ := toByte_ge ht hb
          obtain ⟨l1, l2, e1⟩ := applyChange_result (by simp) g1 hs he
          obtain ⟨_, _, e2⟩ := applyChange_result (by simp) g2 hs he
          generalize hR : t.take (min s e) ++ t.drop (max s e) = R at l2 e1 e2
          have hbl : b ≤ t.length := by omega
          have hsa : s = a := by
            apply Classical.byContradiction
            intro hne
            have hlt : a < s := by omega
            have la : (t.take a).length = a := by simp; omega
            have lR : (R.take s).length = s := by simp; omega
            have key : ∀ c : Char, t.take a ++ [c] ++ t.drop b = R.take s ++ [c] ++ R.drop s → (R.take s)[a]? = some c := by
              intro c hc
              have x := congrArg (·[a]?) hc
              simp only [List.append_assoc] at x
              rw [List.getElem?_append_right (Nat.le_of_eq la), la, Nat.sub_self,
                List.getElem?_append_left (l₁ := R.take s) (by rw [lR]; exact hlt)] at x
              rw [← x]; simp
            have x1 := key _ e1
            rw [key _ e2] at x1
            revert x1; decide
          have hlen := congrArg List.length e1
          have hRl := congrArg List.length hR
          simp at hlen hRl l2
          have hse : s ≤ e := by omega
          have heb : e = b := by omega
          exact ⟨a, b, ps hsa, pe heb, hab⟩
        · cases h1
  · intro h text
    exact C01_edit_partial prof t r text h

/-- an insertion in a line with `é` before the column is applied correctly, one in the line below it is not -/
example : PlainEdit c!"é {{ a }}\nb" ⟨⟨0, 6⟩, ⟨0, 6⟩⟩ ∧ ¬ PlainEdit c!"é {{ a }}\nb" ⟨⟨1, 0⟩, ⟨1, 0⟩⟩ := by
  refine ⟨⟨6, 6, ⟨0, rfl, by simp, by decide, rfl⟩, ⟨0, rfl, by simp, by decide, rfl⟩, Nat.le_refl _⟩, ?_⟩
  rintro ⟨a, _, ⟨s, h1, h2, _⟩, _⟩
  have : s = 10 := by
    have e : lineStart c!"é {{ a }}\nb" 1 = some 10 := by decide
    rw [e] at h1; cases h1; rfl
  subst this
  have := (h2 'é' (by decide)).1
  revert this; decide

/-! ## C04 -/

/-- **C04** For an edit between plain positions in a text with LF or CR LF line ends, the reported start and old end are
the byte offset and the row/column of the replaced region in the old text, and the reported new end byte is the end of the
inserted text in the new text. -/
theorem C04_regions_partial (prof : Profile) (t : Str) (r : Range) (text : Str) (a b : Nat)
    (ha : PlainPos t r.start a) (hb : PlainPos t r.stop b) (hab : a ≤ b)
    (hp : ∀ c ∈ t.take b, PlainChar c) (hcr : NoLoneCR t) :
    ∃ ie, applyChange prof t r text = .ok (t.take a ++ text ++ t.drop b, ie) ∧
      ie.startByte = utf8Len (t.take a) ∧ ie.oldEndByte = utf8Len (t.take b) ∧
      ie.newEndByte = utf8Len (t.take a ++ text) ∧
      ie.startPosition = advance ⟨0, 0⟩ (t.take a) ∧ ie.oldEndPosition = advance ⟨0, 0⟩ (t.take b) := by
  obtain ⟨q, _, hc⟩ := applyChange_forward prof t r text a b (toByte_plain ha) (toByte_plain hb) hab (plain_le hb)
  have hpa : ∀ c ∈ t.take a, PlainChar c := fun c hc => hp c (by
    have : t.take a = (t.take b).take a := by rw [List.take_take, Nat.min_eq_left hab]
    rw [this] at hc
    exact List.mem_of_mem_take hc)
  have la : (t.take a).length = a := by simp [plain_le ha]
  have lb : (t.take b).length = b := by simp [plain_le hb]
  refine ⟨_, hc, ?_, ?_, ?_, ?_, ?_⟩
  · simp [utf8Len_plain _ hpa, la]
  · simp [utf8Len_plain _ hp, lb]
  · simp [utf8Len_append, utf8Len_plain _ hpa, la]
  · simpa using (advance_plain ha hpa hcr).symm
  · simpa using (advance_plain hb hp hcr).symm

/-- **C04** The reported new end point is right when the inserted text has no line break and the line is long enough to
contain its end already (columns `character … character + length` exist before the edit).
Missing for the full statement: all other insertions, for which the code looks the new end up in the *old* text. -/
theorem C04_new_end_partial (prof : Profile) (t : Str) (r : Range) (text : Str) (a b : Nat)
    (hlen : utf8Len t < 4294967296)
    (ha : PlainPos t r.start a) (hb : PlainPos t r.stop b) (hab : a ≤ b)
    (hcr : NoLoneCR t) (htext : ∀ c ∈ text, PlainChar c ∧ c ≠ '\n')
    (hroom : PlainPos t ⟨r.start.line, r.start.character + text.length⟩ (a + text.length))
    (hp : ∀ c ∈ t.take (a + text.length), PlainChar c) :
    ∃ t' ie, applyChange prof t r text = .ok (t', ie) ∧
      ie.newEndPosition = advance ⟨0, 0⟩ (t.take a ++ text) := by
  obtain ⟨q, hq, hc⟩ := applyChange_forward prof t r text a b (toByte_plain ha) (toByte_plain hb) hab (plain_le hb)
  refine ⟨_, _, hc, ?_⟩
  have hpa : ∀ c ∈ t.take a, PlainChar c := fun c hc => hp c (by
    have : t.take a = (t.take (a + text.length)).take a := by rw [List.take_take, Nat.min_eq_left (by omega)]
    rw [this] at hc
    exact List.mem_of_mem_take hc)
  have hn : utf8Len text = text.length := utf8Len_plain _ (fun c hc => (htext c hc).1)
  have key := C05_inverse prof t _ _ hlen (toByte_plain hroom)
    (Nat.le_trans (plain_le hroom) (length_le_utf8Len t)) (terminatorsIn_plain hroom hp)
  rw [hn, key] at hq
  cases hq
  simp only [toPoint]
  rw [advance_append, advance_plain ha hpa hcr, advance_line _ _ htext]
  simp [toPoint]

/-- a replacement inside a line meets the hypotheses of both theorems -/
example : PlainPos c!"x\nabcd" ⟨1, 1⟩ 3 ∧ PlainPos c!"x\nabcd" ⟨1, 2⟩ 4 ∧ NoLoneCR c!"x\nabcd" ∧
    PlainPos c!"x\nabcd" ⟨1, 1 + 2⟩ (3 + 2) ∧ (∀ c ∈ c!"x\nabcd".take (3 + 2), PlainChar c) := by
  have h : ∀ c ∈ c!"x\nabcd", PlainChar c := by unfold PlainChar; decide
  refine ⟨⟨2, by decide, fun c hc => h c (List.mem_of_mem_take hc), by decide, by decide⟩,
    ⟨2, by decide, fun c hc => h c (List.mem_of_mem_take hc), by decide, by decide⟩, by simp [NoLoneCR],
    ⟨2, by decide, fun c hc => h c (List.mem_of_mem_take hc), by decide, by decide⟩,
    fun c hc => h c (List.mem_of_mem_take hc)⟩

/-- **C04** is false in general: whatever non-empty text is appended at the end of whatever document, the reported new end
point is the start point. -/
theorem C04_append_wrong (prof : Profile) (t : Str) (p : Position) (text : Str) (t' : Str) (ie : InputEdit)
    (hlen : utf8Len t < 4294967296)
    (hend : toByte t p = .ok (utf8Len t)) (hline : terminatorsIn t (utf8Len t) = p.line) (htext : text ≠ [])
    (h : applyChange prof t ⟨p, p⟩ text = .ok (t', ie)) :
    ie.newEndPosition = ie.startPosition ∧ ie.newEndPosition ≠ advance ie.startPosition text := by
  obtain ⟨q, hq, hie⟩ := toInputEdit_eq prof t ⟨p, p⟩ text _ _ hend hend
  have hie' : ie = ⟨utf8Len t, utf8Len t, utf8Len t + utf8Len text, toPoint p, toPoint p, toPoint q⟩ := by
    unfold applyChange at h
    simp only [hie, hend] at h
    split at h
    · simp at h
    · split at h
      · simp only [Except.ok.injEq, Prod.mk.injEq] at h; exact h.2.symm
      · split at h
        · simp at h
        · simp only [Except.ok.injEq, Prod.mk.injEq] at h; exact h.2.symm
  obtain ⟨q', hq', b1, b2⟩ := C05_roundtrip prof t (utf8Len t + utf8Len text) hlen
  have key := C05_inverse prof t p _ hlen hend (Nat.le_refl _) hline
  rw [hq] at hq'
  cases hq'
  have hm : min (utf8Len t + utf8Len text) (utf8Len t) = utf8Len t := by omega
  rw [hm] at b1 b2
  have := C05_inverse prof t q _ hlen b1 (Nat.le_refl _) (by rw [b2])
  rw [key] at this
  cases this
  subst hie'
  refine ⟨rfl, fun hh => ?_⟩
  have := advance_lt (toPoint p) text htext
  simp only at hh
  rw [← hh] at this
  exact Point.lt_irrefl _ this

example : toByte c!"a\nb" ⟨1, 1⟩ = .ok (utf8Len c!"a\nb") ∧ terminatorsIn c!"a\nb" (utf8Len c!"a\nb") = 1 ∧
    ∃ ie, applyChange .debug c!"a\nb" ⟨⟨1, 1⟩, ⟨1, 1⟩⟩ c!"cd" = .ok (c!"a\nbcd", ie) ∧ ie.newEndPosition = ⟨1, 1⟩ :=
  ⟨rfl, by decide, _, rfl, by decide⟩

/-- lines of a plain text, counted by the rope and counted by tree-sitter -/
theorem advance_terminators : ∀ (t : Str) (k : Nat) (p : Point), (∀ c ∈ t, PlainChar c) → NoLoneCR t → k ≤ t.length →
    ∃ b, lineByte t (terminatorsIn t k) = some b ∧ b ≤ k ∧
      advance p (t.take k) = if terminatorsIn t k = 0 then ⟨p.row, p.column + k⟩ else ⟨p.row + terminatorsIn t k, k - b⟩
  | t, 0, p, hp, _, _ => by
    have : terminatorsIn t 0 = 0 := by
      cases t with
      | nil => rfl
      | cons c r => rw [terminatorsIn, if_pos (utf8Size_pos c)]
    rw [this]
    exact ⟨0, by cases t <;> rfl, Nat.le_refl _, by simp [advance]⟩
  | [], k + 1, p, _, _, h => by simp at h
  | c :: r, k + 1, p, hp, hcr, h => by
    have hc := hp c (by simp)
    have hsz := plainChar_size hc
    obtain ⟨b, h1, h2, h3⟩ := advance_terminators r k (if c = '\n' then ⟨p.row + 1, 0⟩ else ⟨p.row, p.column + c.utf8Size⟩)
      (fun x hx => hp x (by simp [hx])) hcr.2 (by simpa using h)
    have hT : terminatorsIn (c :: r) (k + 1) = (if c = '\n' then 1 else 0) + terminatorsIn r k := by
      rw [terminatorsIn, hsz, if_neg (by omega), Nat.add_sub_cancel]
      by_cases hn : c = '\n'
      · subst hn
        rw [if_neg (by simp), if_pos (by decide), if_pos rfl]
      · rw [if_neg hn]
        by_cases hr : c = '\r'
        · rw [if_pos ⟨hr, hcr.1 hr⟩]; omega
        · rw [if_neg (fun hh => hr hh.1), if_neg (fun hm => ((plainChar_terminator hc).mp hm).elim hn hr)]
    by_cases hn : c = '\n'
    · subst hn
      simp only [if_true] at hT h3
      rw [hT, Nat.add_comm]
      refine ⟨b + 1, ?_, by omega, ?_⟩
      · rw [lineByte, if_pos ⟨by decide, by simp⟩, h1]
        simp [hsz, Nat.add_comm]
      · rw [List.take_succ_cons, advance]
        simp only [if_true]
        rw [h3, if_neg (Nat.succ_ne_zero _)]
        by_cases h0 : terminatorsIn r k = 0
        · rw [if_pos h0]
          rw [h0] at h1
          have : b = 0 := by
            have : lineByte r 0 = some 0 := by cases r <;> rfl
            rw [this] at h1; cases h1; rfl
          subst this
          simp [h0]
        · rw [if_neg h0]
          simp only [Point.mk.injEq]
          exact ⟨by omega, by omega⟩
    · simp only [if_neg hn, Nat.zero_add] at hT h3
      rw [hT]
      cases hk : terminatorsIn r k with
      | zero =>
        refine ⟨0, rfl, by omega, ?_⟩
        rw [List.take_succ_cons, advance]
        simp only [if_neg hn, if_true]
        rw [h3, hk, if_pos rfl, hsz]
        simp only [Point.mk.injEq, true_and]
        omega
      | succ l =>
        rw [hk] at h1 h3
        have hlb : lineByte (c :: r) (l + 1) = some (b + 1) := by
          rw [lineByte, if_neg, h1]
          · simp [hsz, Nat.add_comm]
          · rintro ⟨hm, hx⟩
            rcases (plainChar_terminator hc).mp hm with e | e
            · exact hn e
            · exact hx ⟨e, hcr.1 e⟩
        refine ⟨b + 1, hlb, by omega, ?_⟩
        rw [List.take_succ_cons, advance]
        simp only [if_neg hn]
        rw [h3, if_neg (by omega), if_neg (by omega)]
        simp only [Point.mk.injEq, true_and]
        omega

/-- the position the rope gives to an offset of a plain text is its row and column -/
theorem toPosition_point {prof : Profile} {t : Str} {off : Nat} {q : Position} (hlen : utf8Len t < 4294967296)
    (hp : ∀ c ∈ t, PlainChar c) (hcr : NoLoneCR t) (h : toPosition prof t off = .ok q) : toPoint q = advance ⟨0, 0⟩ (t.take off) := by
  obtain ⟨q', h1, h2, h3⟩ := C05_roundtrip prof t off hlen
  rw [h] at h1
  cases h1
  have hl : utf8Len t = t.length := utf8Len_plain t hp
  rw [hl] at h2 h3
  obtain ⟨b, g1, g2, g3⟩ := advance_terminators t (min off t.length) ⟨0, 0⟩ hp hcr (Nat.min_le_right _ _)
  have htake : t.take (min off t.length) = t.take off := by
    rcases Nat.le_total off t.length with hh | hh
    · rw [Nat.min_eq_left hh]
    · rw [Nat.min_eq_right hh, List.take_of_length_le hh, List.take_of_length_le (Nat.le_refl _)]
  rw [htake, ← h3] at g3
  rw [← h3] at g1
  have hb : toByte t q = .ok (b + q.character) := by
    apply toByte_of_lineToByte
    rw [lineToByte_spec, g1]
  rw [hb] at h2
  simp only [Except.ok.injEq] at h2
  rw [g3]
  split
  · rename_i h0
    rw [h0] at g1
    have : b = 0 := by
      have : lineByte t 0 = some 0 := by cases t <;> rfl
      rw [this] at g1; cases g1; rfl
    subst this
    simp only [toPoint, h0, Point.mk.injEq, true_and]
    omega
  · simp only [toPoint, Point.mk.injEq, Nat.zero_add, true_and]
    omega

/-- **C04** exactly: in plain texts, the reported new end point is right if and only if the old text from the start of the edit, as many characters as
are inserted (or as there are), leads to the same row and column as the inserted text. -/
theorem C04_new_end_exact (prof : Profile) (t : Str) (r : Range) (text : Str) (a b : Nat) (hlen : utf8Len t < 4294967296)
    (ha : PlainPos t r.start a) (hb : PlainPos t r.stop b) (hab : a ≤ b) (hp : ∀ c ∈ t, PlainChar c) (hcr : NoLoneCR t)
    (htext : ∀ c ∈ text, PlainChar c) :
    ∃ ie, applyChange prof t r text = .ok (t.take a ++ text ++ t.drop b, ie) ∧
      (ie.newEndPosition = advance ⟨0, 0⟩ (t.take a ++ text) ↔
        advance ie.startPosition ((t.drop a).take text.length) = advance ie.startPosition text) := by
  obtain ⟨q, hq, hc⟩ := applyChange_forward prof t r text a b (toByte_plain ha) (toByte_plain hb) hab (plain_le hb)
  refine ⟨_, hc, ?_⟩
  rw [utf8Len_plain _ htext] at hq
  simp only
  rw [toPosition_point hlen hp hcr hq, advance_append, List.take_add, advance_append,
    advance_plain ha (fun c hc => hp c (List.mem_of_mem_take hc)) hcr]

/-- **C04** exactly, for an insertion without a line break: the reported new end point is right if and only if the rest of the line is at least as long
as the inserted text.  So whatever is typed at the end of a line is reported wrongly. -/
theorem C04_line_exact (prof : Profile) (t : Str) (r : Range) (text : Str) (a b : Nat) (hlen : utf8Len t < 4294967296)
    (ha : PlainPos t r.start a) (hb : PlainPos t r.stop b) (hab : a ≤ b) (hp : ∀ c ∈ t, PlainChar c) (hcr : NoLoneCR t)
    (htext : ∀ c ∈ text, PlainChar c ∧ c ≠ '\n') :
    ∃ ie, applyChange prof t r text = .ok (t.take a ++ text ++ t.drop b, ie) ∧
      (ie.newEndPosition = advance ⟨0, 0⟩ (t.take a ++ text) ↔
        text.length ≤ (t.drop a).length ∧ '\n' ∉ (t.drop a).take text.length) := by
  obtain ⟨ie, h1, h2⟩ := C04_new_end_exact prof t r text a b hlen ha hb hab hp hcr (fun c hc => (htext c hc).1)
  refine ⟨ie, h1, h2.trans ?_⟩
  rw [advance_line _ text htext]
  have hpl : ∀ c ∈ (t.drop a).take text.length, PlainChar c := fun c hc => hp c (List.mem_of_mem_drop (List.mem_of_mem_take hc))
  constructor
  · intro h
    have hrow : ∀ (u : Str) (p : Point), (advance p u).row = p.row → '\n' ∉ u := by
      intro u
      induction u with
      | nil => simp
      | cons c u ih =>
        intro p hu hm
        rw [advance] at hu
        by_cases hc : c = '\n'
        · rw [if_pos hc] at hu
          have := advance_le ⟨p.row + 1, 0⟩ u
          rcases this with this | this
          · simp only at this; omega
          · simp only at this; omega
        · rw [if_neg hc] at hu
          exact ih _ hu ((List.mem_cons.mp hm).resolve_left (fun e => hc e.symm))
    have hnl := hrow _ ie.startPosition (by rw [h])
    refine ⟨?_, hnl⟩
    rw [advance_line _ _ (fun c hc => ⟨hpl c hc, fun e => hnl (e ▸ hc)⟩)] at h
    have := congrArg Point.column h
    simp only [List.length_take] at this
    omega
  · rintro ⟨hl, hn⟩
    rw [advance_line _ _ (fun c hc => ⟨hpl c hc, fun e => hn (e ▸ hc)⟩)]
    rw [List.length_take, Nat.min_eq_left hl]

/-- typing `c` at the end of the first line -/
example : PlainPos c!"ab\ncd" ⟨0, 2⟩ 2 ∧ (∀ c ∈ c!"ab\ncd", PlainChar c) ∧ NoLoneCR c!"ab\ncd" ∧
    ¬ (1 ≤ (c!"ab\ncd".drop 2).length ∧ '\n' ∉ (c!"ab\ncd".drop 2).take 1) ∧
    ∃ ie, applyChange .debug c!"ab\ncd" ⟨⟨0, 2⟩, ⟨0, 2⟩⟩ c!"c" = .ok (c!"abc\ncd", ie) ∧ ie.newEndPosition = ⟨1, 0⟩ := by
  have h : ∀ c ∈ c!"ab\ncd", PlainChar c := by unfold PlainChar; decide
  exact ⟨⟨0, by decide, by simp, by decide, by decide⟩, h, by simp [NoLoneCR], by decide, _, rfl, by decide⟩

end JinjaLsp
