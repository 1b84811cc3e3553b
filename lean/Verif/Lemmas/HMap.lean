import Verif.Model.Base
/- Hash map lemmas. -/

namespace JinjaLsp
namespace HMap
variable {K V : Type} [DecidableEq K]

@[simp] theorem get?_empty (k : K) : (empty : HMap K V).get? k = none := rfl

theorem find_filter_ne {l : List (K × V)} {k k' : K} (h : k' ≠ k) :
    (l.filter (fun e => decide (e.1 ≠ k))).find? (fun e => decide (e.1 = k')) =
      l.find? (fun e => decide (e.1 = k')) := by
  induction l with
  | nil => rfl
  | cons a l ih =>
    by_cases ha : a.1 = k
    · have : ¬ a.1 = k' := fun h' => h (h' ▸ ha)
      rw [List.filter_cons_of_neg (by simp [ha]), ih, List.find?_cons_of_neg (by simp [this])]
    · simp only [List.filter_cons, ha, ne_eq, not_false_eq_true, decide_true, if_true, List.find?_cons]
      simp only [ne_eq] at ih
      rw [ih]

@[simp] theorem get?_erase_self (m : HMap K V) (k : K) : (m.erase k).get? k = none := by
  simp [get?, erase, List.find?_eq_none]

theorem get?_erase_ne (m : HMap K V) {k k' : K} (h : k' ≠ k) : (m.erase k).get? k' = m.get? k' := by
  simp only [get?, erase]; rw [find_filter_ne h]

theorem get?_erase (m : HMap K V) (k k' : K) :
    (m.erase k).get? k' = if k' = k then none else m.get? k' := by
  split
  · next h => subst h; simp
  · next h => exact get?_erase_ne m h

@[simp] theorem get?_insert_self (m : HMap K V) (k : K) (v : V) : (m.insert k v).get? k = some v := by
  simp [get?, insert]

theorem get?_insert_ne (m : HMap K V) {k k' : K} (v : V) (h : k' ≠ k) :
    (m.insert k v).get? k' = m.get? k' := by
  have h' : ¬ k = k' := fun e => h e.symm
  have := get?_erase_ne m h
  simp only [get?, insert, List.find?_cons, h', decide_false] at *
  exact this

theorem get?_insert (m : HMap K V) (k k' : K) (v : V) :
    (m.insert k v).get? k' = if k' = k then some v else m.get? k' := by
  split
  · next h => subst h; simp
  · next h => exact get?_insert_ne m v h

theorem get?_eq_some_iff (m : HMap K V) (k : K) (v : V) : m.get? k = some v ↔ (k, v) ∈ m.entries := by
  obtain ⟨l, hl⟩ := m
  simp only [get?]
  induction l with
  | nil => simp
  | cons a l ih =>
    simp only [List.map_cons, List.nodup_cons] at hl
    simp only [List.find?_cons, List.mem_cons]
    by_cases ha : a.1 = k
    · simp only [ha, decide_true, Option.map_some, Option.some.injEq]
      constructor
      · intro h; left; ext <;> simp [ha, ← h]
      · rintro (h | h)
        · rw [← h]
        · exact absurd (List.mem_map_of_mem (f := Prod.fst) h) (by simpa [ha] using hl.1)
    · simp only [ha, decide_false]
      rw [ih hl.2]
      constructor
      · exact Or.inr
      · rintro (h | h)
        · exact absurd (by rw [← h]) ha
        · exact h

theorem get?_isSome_iff (m : HMap K V) (k : K) : (m.get? k).isSome ↔ k ∈ m.keys := by
  rw [Option.isSome_iff_exists]
  simp only [get?_eq_some_iff, keys, List.mem_map]
  constructor
  · rintro ⟨v, h⟩; exact ⟨_, h, rfl⟩
  · rintro ⟨⟨a, b⟩, h, rfl⟩; exact ⟨b, h⟩

theorem get?_eq_none_iff (m : HMap K V) (k : K) : m.get? k = none ↔ k ∉ m.keys := by
  rw [← get?_isSome_iff]; simp

theorem mem_shuffle (o : HashOrder) {α : Type} (n : Nat) (l : List α) (a : α) :
    a ∈ o.shuffle n l ↔ a ∈ l := (o.perm n l).mem_iff

theorem entries_insert_empty (k : K) (v : V) : ((empty : HMap K V).insert k v).entries = [(k, v)] := rfl

omit [DecidableEq K] in
theorem keys_nodup (m : HMap K V) : m.keys.Nodup := m.nodup

theorem shuffle_singleton (o : HashOrder) {α : Type} (n : Nat) (a : α) : o.shuffle n [a] = [a] :=
  List.perm_singleton.mp (o.perm n [a])

end HMap
end JinjaLsp
