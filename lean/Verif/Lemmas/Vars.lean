import Verif.Model.Server
import Verif.Lemmas.HMap
/- The lists of `read_variables`. -/

namespace JinjaLsp
namespace LspFiles

theorem variableItem_label {vs : Bool} {st : Str} {r : Range} {v : Identifier} {i : CompletionItem}
    (h : variableItem vs st r v = some i) : i.label = v.name ∧ st <+: v.name := by
  unfold variableItem at h
  simp only at h
  split at h
  · rename_i he
    cases h
    exact ⟨rfl, by rw [List.isEmpty_iff.mp he]; exact List.nil_prefix⟩
  · split at h
    · rename_i hp
      refine ⟨?_, List.isPrefixOf_iff_prefix.mp hp⟩
      split at h <;> (cases h; rfl)
    · cases h

theorem variableItem_some {vs : Bool} {st : Str} {r : Range} {v : Identifier} (h : st <+: v.name) :
    ∃ i, variableItem vs st r v = some i := by
  unfold variableItem
  simp only [List.isPrefixOf_iff_prefix.mpr h, if_true]
  split
  · exact ⟨_, rfl⟩
  · split <;> exact ⟨_, rfl⟩

theorem variableItems_from {vs : Bool} {st : Str} {r : Range} : ∀ (l : List Identifier) (names : List Str) (i : CompletionItem),
    i ∈ variableItems vs st r names l → ∃ v ∈ l, v.name ∉ names ∧ variableItem vs st r v = some i
  | [], _, _, h => by simp [variableItems] at h
  | v :: l, names, i, h => by
    simp only [variableItems] at h
    split at h
    · obtain ⟨v', hv, h⟩ := variableItems_from l names i h
      exact ⟨v', by simp [hv], h⟩
    · rename_i hn
      split at h
      · rename_i item hi
        rcases List.mem_cons.mp h with rfl | h
        · exact ⟨v, by simp, hn, hi⟩
        · obtain ⟨v', hv, h1, h2⟩ := variableItems_from l _ i h
          exact ⟨v', by simp [hv], fun hm => h1 (by simp [hm]), h2⟩
      · obtain ⟨v', hv, h1, h2⟩ := variableItems_from l _ i h
        exact ⟨v', by simp [hv], fun hm => h1 (by simp [hm]), h2⟩

theorem variableItems_mem {vs : Bool} {st : Str} {r : Range} : ∀ (l : List Identifier) (names : List Str) (v : Identifier),
    v ∈ l → v.name ∉ names → st <+: v.name → ∃ i ∈ variableItems vs st r names l, i.label = v.name
  | x :: l, names, v, hv, hn, hp => by
    simp only [variableItems]
    split
    · rename_i hx
      rcases List.mem_cons.mp hv with rfl | hv
      · exact absurd hx hn
      · exact variableItems_mem l names v hv hn hp
    · rename_i hx
      by_cases he : x.name = v.name
      · obtain ⟨i, hi⟩ := variableItem_some (vs := vs) (r := r) (he ▸ hp : st <+: x.name)
        simp only [hi]
        exact ⟨i, by simp, (variableItem_label hi).1.trans he⟩
      · have hv' : v ∈ l := by
          rcases List.mem_cons.mp hv with rfl | hv
          · exact absurd rfl he
          · exact hv
        obtain ⟨i, hi, hl⟩ := variableItems_mem (vs := vs) (r := r) l (x.name :: names) v hv'
          (by simp only [List.mem_cons, not_or]; exact ⟨fun e => he e.symm, hn⟩) hp
        split
        · exact ⟨i, by simp [hi], hl⟩
        · exact ⟨i, hi, hl⟩

theorem variableItems_nodup {vs : Bool} {st : Str} {r : Range} : ∀ (l : List Identifier) (names : List Str),
    ((variableItems vs st r names l).map (·.label)).Nodup
  | [], _ => by simp [variableItems]
  | v :: l, names => by
    simp only [variableItems]
    split
    · exact variableItems_nodup l names
    · split
      · rename_i item hi
        simp only [List.map_cons, List.nodup_cons]
        refine ⟨?_, variableItems_nodup l _⟩
        intro hm
        obtain ⟨i, hi', hl⟩ := List.mem_map.mp hm
        obtain ⟨v', _, h1, h2⟩ := variableItems_from l _ i hi'
        apply h1
        rw [← (variableItem_label h2).1, hl, (variableItem_label hi).1]
        simp
      · exact variableItems_nodup l _

end LspFiles
end JinjaLsp
