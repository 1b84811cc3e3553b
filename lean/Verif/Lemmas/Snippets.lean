import Verif.Lemmas.Imports
/- Broken statements: when snippets are offered. -/

namespace JinjaLsp

/-- a syntax-error region that begins at most two columns after the cursor -/
def Spec.nearError (p : Point) (c : Capture) : Prop := c.name = .errorBlock ∧ c.start ≤ (⟨p.row, p.column + 2⟩ : Point)

instance (p : Point) (c : Capture) : Decidable (Spec.nearError p c) := by unfold Spec.nearError; infer_instance

/-- the cursor is in (or just before) a broken statement: it is not past the end of the first such region -/
def Spec.Broken (cs : List Capture) (p : Point) : Prop :=
  ∃ pre e post, cs = pre ++ e :: post ∧ Spec.nearError p e ∧ (∀ c ∈ pre, ¬ Spec.nearError p c) ∧ p ≤ e.stop

namespace Snippets

theorem run_none : ∀ (l : List Capture) (s : Snippets), (∀ c ∈ l, c.name ≠ .errorBlock) → (run s l).isError = s.isError
  | [], _, _ => rfl
  | c :: l, s, h => by
    have hc := h c (by simp)
    have hstep : (s.check c).2 = true ∧ (s.check c).1.isError = s.isError := by
      unfold Snippets.check
      split
      · exact ⟨rfl, rfl⟩
      · exact ⟨rfl, rfl⟩
      · rename_i hh; exact absurd hh hc
      · exact ⟨rfl, rfl⟩
      · exact ⟨rfl, rfl⟩
    simp only [run, hstep.1, if_true]
    rw [run_none l _ (fun x hx => h x (by simp [hx])), hstep.2]

theorem run_first : ∀ (l : List Capture) (s : Snippets) (e : Capture) (post : List Capture), (∀ c ∈ l, c.name ≠ .errorBlock) →
    e.name = .errorBlock → (run s (l ++ e :: post)).isError = true ∧ (run s (l ++ e :: post)).stop = e.stop
  | [], s, e, post, _, he => by simp [run, check, he]
  | c :: l, s, e, post, h, he => by
    have hc := h c (by simp)
    have hstep : (s.check c).2 = true := by
      unfold Snippets.check
      split <;> first | rfl | (rename_i hh; exact absurd hh hc)
    simp only [List.cons_append, run, hstep, if_true]
    exact run_first l _ e post (fun x hx => h x (by simp [hx])) he

theorem toComplete_eq (prof : Profile) (s : Snippets) (p : Point) :
    s.toComplete prof p = if s.isError ∧ p ≤ s.stop then .ok (some Range.zero) else .ok none := by
  unfold toComplete
  split
  · rfl
  · rename_i h
    have : ¬ (s.isError = true ∧ s.start ≤ p ∧ p ≤ s.stop) := fun hh => h ⟨hh.1, hh.2.2⟩
    simp only [this, if_false]

end Snippets

theorem selectCaptures_false (ms : List (List Capture)) (p : Point) :
    selectCaptures ms p false = ms.flatten.filter (fun c => decide (c.start ≤ p)) := by
  unfold selectCaptures
  simp only [Bool.false_or]
  induction ms with
  | nil => rfl
  | cons m ms ih => simp only [List.map_cons, List.flatten_cons, List.filter_append, ih]

/-- `snippets_query` followed by `to_complete` -/
theorem snippets_broken (env : Env) (tree : Tree) (text : Str) (p : Point)
    (h : Spec.Broken (env.queryMatches .jinjaSnippets tree text).flatten p) :
    (snippetsQuery env tree p text false).toComplete env.profile p = .ok (some Range.zero) := by
  obtain ⟨pre, e, post, hc, he, hpre, hp⟩ := h
  have hq : (snippetsQuery env tree p text false).isError = true ∧ (snippetsQuery env tree p text false).stop = e.stop := by
    unfold snippetsQuery
    rw [selectCaptures_false, hc, List.filter_append, List.filter_cons]
    simp only [he.2, decide_true, if_true]
    refine Snippets.run_first _ _ _ _ ?_ he.1
    intro c hc hn
    have hm := List.mem_filter.mp hc
    exact hpre c hm.1 ⟨hn, by simpa using hm.2⟩
  rw [Snippets.toComplete_eq, hq.2]
  simp [hq.1, hp]

theorem snippets_intact (env : Env) (tree : Tree) (text : Str) (p : Point)
    (h : ¬ Spec.Broken (env.queryMatches .jinjaSnippets tree text).flatten p) :
    (snippetsQuery env tree p text false).toComplete env.profile p = .ok none := by
  rw [Snippets.toComplete_eq]
  have hnot : ¬ ((snippetsQuery env tree p text false).isError = true ∧ p ≤ (snippetsQuery env tree p text false).stop) := by
    rintro ⟨h1, h2⟩
    apply h
    have hex : ∃ c ∈ (env.queryMatches .jinjaSnippets tree text).flatten, Spec.nearError p c := by
      apply Decidable.byContradiction
      intro hh
      have : (snippetsQuery env tree p text false).isError = Snippets.default.isError := by
        unfold snippetsQuery
        rw [selectCaptures_false]
        refine Snippets.run_none _ _ ?_
        intro c hc hn
        have hm := List.mem_filter.mp hc
        exact hh ⟨c, hm.1, hn, by simpa using hm.2⟩
      rw [this] at h1
      cases h1
    -- split at the first one
    have split : ∀ (l : List Capture), (∃ c ∈ l, Spec.nearError p c) →
        ∃ pre e post, l = pre ++ e :: post ∧ Spec.nearError p e ∧ ∀ c ∈ pre, ¬ Spec.nearError p c := by
      intro l
      induction l with
      | nil => rintro ⟨_, h, _⟩; cases h
      | cons c l ih =>
        rintro ⟨x, hx, hn⟩
        by_cases hc : Spec.nearError p c
        · exact ⟨[], c, l, rfl, hc, fun _ h => by cases h⟩
        · have hx' : x ∈ l := by
            rcases List.mem_cons.mp hx with rfl | hx
            · exact absurd hn hc
            · exact hx
          obtain ⟨pre, e, post, rfl, h1, h2⟩ := ih ⟨x, hx', hn⟩
          refine ⟨c :: pre, e, post, rfl, h1, ?_⟩
          intro y hy
          rcases List.mem_cons.mp hy with rfl | hy
          · exact hc
          · exact h2 y hy
    obtain ⟨pre, e, post, hl, he, hpre⟩ := split _ hex
    refine ⟨pre, e, post, hl, he, hpre, ?_⟩
    have hq : (snippetsQuery env tree p text false).stop = e.stop := by
      unfold snippetsQuery
      rw [selectCaptures_false, hl, List.filter_append, List.filter_cons]
      simp only [he.2, decide_true, if_true]
      refine (Snippets.run_first _ _ _ _ ?_ he.1).2
      intro c hc hn
      have hm := List.mem_filter.mp hc
      exact hpre c hm.1 ⟨hn, by simpa using hm.2⟩
    rw [← hq]; exact h2
  simp only [hnot, if_false]

/-- no broken statement at all -/
theorem snippets_none (env : Env) (tree : Tree) (text : Str) (p : Point)
    (h : ∀ c ∈ (env.queryMatches .jinjaSnippets tree text).flatten, c.name ≠ .errorBlock) :
    (snippetsQuery env tree p text false).toComplete env.profile p = .ok none := by
  refine snippets_intact env tree text p ?_
  rintro ⟨pre, e, post, hc, he, _⟩
  exact h e (by rw [hc]; simp) he.1

end JinjaLsp
