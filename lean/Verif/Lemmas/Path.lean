import Verif.Model.Helper
/- `split`, paths and extensions. -/

namespace JinjaLsp

theorem splitChar_ne_nil (c : Char) (s : Str) : splitChar c s ≠ [] := by
  cases s with
  | nil => simp [splitChar]
  | cons d r =>
    simp only [splitChar]
    split
    · simp
    · split <;> simp

theorem splitChar_notMem (c : Char) : ∀ s : Str, c ∉ s → splitChar c s = [s]
  | [], _ => rfl
  | d :: r, h => by
    have hd : d ≠ c := fun e => h (by simp [e])
    have := splitChar_notMem c r (fun hr => h (by simp [hr]))
    simp [splitChar, hd, this]

theorem splitChar_append (c : Char) : ∀ (a b : Str), splitChar c (a ++ c :: b) = splitChar c a ++ splitChar c b
  | [], b => by simp [splitChar]
  | d :: a, b => by
    have ih := splitChar_append c a b
    by_cases hd : d = c
    · simp [splitChar, hd, ih]
    · simp only [List.cons_append, splitChar, hd, if_false, ih]
      cases h : splitChar c a with
      | nil => exact absurd h (splitChar_ne_nil c a)
      | cons x xs => simp

/-- no piece contains the separator -/
theorem splitChar_pieces (c : Char) : ∀ (s p : Str), p ∈ splitChar c s → c ∉ p
  | [], p, h => by simp [splitChar] at h; subst h; simp
  | d :: r, p, h => by
    simp only [splitChar] at h
    by_cases hd : d = c
    · rw [if_pos hd] at h
      rcases List.mem_cons.mp h with rfl | h
      · simp
      · exact splitChar_pieces c r p h
    · rw [if_neg hd] at h
      cases hs : splitChar c r with
      | nil => exact absurd hs (splitChar_ne_nil c r)
      | cons x xs =>
        rw [hs] at h
        rcases List.mem_cons.mp h with rfl | h
        · have := splitChar_pieces c r x (by rw [hs]; simp)
          simp [this, Ne.symm hd]
        · exact splitChar_pieces c r p (by rw [hs]; simp [h])

theorem rsplitDot_none : ∀ s : Str, '.' ∉ s → rsplitDot s = none
  | [], _ => rfl
  | c :: r, h => by
    have := rsplitDot_none r (fun hr => h (by simp [hr]))
    have hc : c ≠ '.' := fun e => h (by simp [e])
    simp [rsplitDot, this, hc]

theorem rsplitDot_append : ∀ (a b : Str), '.' ∉ b → rsplitDot (a ++ '.' :: b) = some (a, b)
  | [], b, h => by simp [rsplitDot, rsplitDot_none b h]
  | c :: a, b, h => by simp [rsplitDot, rsplitDot_append a b h]

theorem pathFileName_append (d n : Str) (hn : '/' ∉ n) (h1 : n ≠ []) (h2 : n ≠ c!".") (h3 : n ≠ c!"..") :
    pathFileName (d ++ '/' :: n) = some n := by
  unfold pathFileName
  rw [splitChar_append, splitChar_notMem '/' n hn]
  simp only [List.filter_append]
  rw [List.filter_cons_of_pos (by simp [h1, h2])]
  simp [h3]

/-- extension of a file name with non-empty stem -/
theorem pathExtension_append (d stem ext : Str) (h1 : '/' ∉ stem) (h2 : stem ≠ []) (h3 : '/' ∉ ext)
    (h4 : '.' ∉ ext) (h5 : ext ≠ []) : pathExtension (d ++ '/' :: (stem ++ '.' :: ext)) = some ext := by
  unfold pathExtension
  have hlen : 3 ≤ (stem ++ '.' :: ext).length := by
    have := List.length_pos_iff.mpr h2
    have := List.length_pos_iff.mpr h5
    simp; omega
  rw [pathFileName_append d _ (by simp [h1, h3]) (by simp)
    (fun e => by rw [e] at hlen; simp at hlen) (fun e => by rw [e] at hlen; simp at hlen)]
  simp only [rsplitDot_append stem ext h4]
  cases stem with
  | nil => exact absurd rfl h2
  | cons c r => simp

/-- the URI of a file has the class of the file -/
theorem fileExt_fileUri (p : Str) (l : LangType) (h : fileExt p = some l) :
    fileExt (c!"file://" ++ p) = some l := by
  have key : ∀ n, pathFileName p = some n → pathFileName (c!"file://" ++ p) = some n := by
    intro n hn
    unfold pathFileName at hn ⊢
    have e : splitChar '/' (c!"file://" ++ p) = c!"file:" :: [] :: splitChar '/' p := by
      have h1 := splitChar_append '/' c!"file:" ('/' :: p)
      have h2 := splitChar_append '/' [] p
      simp only [List.nil_append] at h2
      rw [h2] at h1
      exact h1
    rw [e]
    cases hf : ((splitChar '/' p).filter fun s => s ≠ [] && s ≠ c!".").getLast? with
    | none => rw [hf] at hn; simp at hn
    | some x =>
      rw [hf] at hn
      have hne : (splitChar '/' p).filter (fun s => s ≠ [] && s ≠ c!".") ≠ [] := by
        intro hh; rw [hh] at hf; simp at hf
      rw [List.filter_cons_of_pos (by decide), List.filter_cons_of_neg (by decide)]
      cases hl : (splitChar '/' p).filter (fun s => s ≠ [] && s ≠ c!".") with
      | nil => exact absurd hl hne
      | cons a as =>
        rw [hl] at hf
        rw [List.getLast?_cons_cons, hf]
        exact hn
  unfold fileExt pathExtension at h ⊢
  cases hn : pathFileName p with
  | none => rw [hn] at h; simp at h
  | some n => rw [key n hn]; rw [hn] at h; exact h

end JinjaLsp
