import Verif.Model.LspFiles
/- `str::contains` and `str::split` with a string pattern. -/

namespace JinjaLsp

theorem containsSub_iff {p : Str} : ∀ {s : Str}, containsSub p s = true ↔ ∃ a b, s = a ++ p ++ b
  | [] => by
    simp only [containsSub]
    constructor
    · intro h
      refine ⟨[], [], ?_⟩
      simp_all
    · rintro ⟨a, b, h⟩
      have := congrArg List.length h
      simp only [List.length_nil, List.length_append] at this
      have : p.length = 0 := by omega
      simp_all
  | c :: s => by
    simp only [containsSub, Bool.or_eq_true, List.isPrefixOf_iff_prefix]
    rw [containsSub_iff]
    constructor
    · rintro (⟨b, h⟩ | ⟨a, b, h⟩)
      · exact ⟨[], b, by rw [List.nil_append, h]⟩
      · exact ⟨c :: a, b, by rw [h]; rfl⟩
    · rintro ⟨a, b, h⟩
      cases a with
      | nil => exact Or.inl ⟨b, by rw [h, List.nil_append]⟩
      | cons x a =>
        simp only [List.cons_append, List.cons.injEq] at h
        exact Or.inr ⟨a, b, h.2⟩

/-- nothing to split at -/
theorem splitStrGo_none {p : Str} : ∀ (s acc : Str), (∀ a b, s ≠ a ++ p ++ b) → splitStrGo p 0 acc s = [acc ++ s]
  | [], acc, _ => by simp [splitStrGo]
  | c :: s, acc, h => by
    have h1 : p.isPrefixOf (c :: s) = false := by
      cases hp : p.isPrefixOf (c :: s) with
      | false => rfl
      | true =>
        obtain ⟨b, hb⟩ := List.isPrefixOf_iff_prefix.mp hp
        exact absurd (show c :: s = [] ++ p ++ b by rw [List.nil_append, hb]) (h _ _)
    simp only [splitStrGo, Nat.lt_irrefl, if_false, h1, Bool.false_eq_true]
    rw [splitStrGo_none s (acc ++ [c]) (fun a b e => h (c :: a) b (by rw [e]; rfl))]
    simp

/-- skipping the rest of a match -/
theorem splitStrGo_skip {p : Str} (acc : Str) : ∀ (q s : Str), splitStrGo p q.length acc (q ++ s) = splitStrGo p 0 acc s
  | [], s => rfl
  | c :: q, s => by
    have : 0 < (c :: q).length := by simp
    simp only [List.cons_append, splitStrGo, this, if_true]
    rw [show (c :: q).length - 1 = q.length by simp]
    exact splitStrGo_skip acc q s

/-- splitting at the first match -/
theorem splitStrGo_first {p : Str} (hp : p ≠ []) : ∀ (a acc b : Str),
    (∀ a' b', a ++ p ++ b = a' ++ p ++ b' → a.length ≤ a'.length) →
    splitStrGo p 0 acc (a ++ p ++ b) = (acc ++ a) :: splitStrGo p 0 [] b
  | [], acc, b, _ => by
    obtain ⟨x, q, rfl⟩ := List.exists_cons_of_ne_nil hp
    have h1 : (x :: q).isPrefixOf (x :: (q ++ b)) = true := List.isPrefixOf_iff_prefix.mpr ⟨b, rfl⟩
    simp only [List.nil_append, List.cons_append, splitStrGo, Nat.lt_irrefl, if_false, h1, if_true, List.append_nil]
    rw [show (x :: q).length - 1 = q.length by simp, splitStrGo_skip]
  | c :: a, acc, b, h => by
    have h1 : p.isPrefixOf (c :: (a ++ p ++ b)) = false := by
      cases hp : p.isPrefixOf (c :: (a ++ p ++ b)) with
      | false => rfl
      | true =>
        obtain ⟨b', hb⟩ := List.isPrefixOf_iff_prefix.mp hp
        have := h [] b' (by rw [List.nil_append, hb]; rfl)
        simp at this
    simp only [List.cons_append, splitStrGo, Nat.lt_irrefl, if_false, h1, Bool.false_eq_true]
    rw [splitStrGo_first hp a (acc ++ [c]) b (fun a' b' e => by
      have := h (c :: a') b' (by simp only [List.cons_append, e])
      simpa using this)]
    simp

theorem splitStr_none {p s : Str} (hp : p ≠ []) (h : ∀ a b, s ≠ a ++ p ++ b) : splitStr p s = [s] := by
  unfold splitStr
  have : p.isEmpty = false := by cases p with | nil => exact absurd rfl hp | cons => rfl
  simp only [this, Bool.false_eq_true, if_false]
  simpa using splitStrGo_none s [] h

theorem splitStr_first {p : Str} (hp : p ≠ []) (a b : Str) (h : ∀ a' b', a ++ p ++ b = a' ++ p ++ b' → a.length ≤ a'.length) :
    splitStr p (a ++ p ++ b) = a :: splitStr p b := by
  unfold splitStr
  have : p.isEmpty = false := by cases p with | nil => exact absurd rfl hp | cons => rfl
  simp only [this, Bool.false_eq_true, if_false]
  simpa using splitStrGo_first hp a [] b h

end JinjaLsp
