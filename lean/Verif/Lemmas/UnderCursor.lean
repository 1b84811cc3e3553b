import Verif.Spec.Imports
import Verif.Lemmas.Snippets
/- The template name under the cursor. -/

namespace JinjaLsp
open Spec
namespace JinjaImports

/-- the current statement has an entry -/
def Inv (s : JinjaImports) : Prop := ∀ id, s.current = some id → s.imports.get? id ≠ none

theorem inv_open {s : JinjaImports} (id : Nat) (v : Import) (again : Option Nat) (ha : again = none ∨ again = some id) :
    Inv (s.openImport id v again) ∧
      ∀ k, (s.openImport id v again).imports.get? k ≠ none → s.imports.get? k ≠ none ∨ k = id := by
  unfold openImport
  split
  · rename_i x hx
    refine ⟨?_, fun k hk => Or.inl hk⟩
    intro k hk
    rcases ha with rfl | rfl
    · cases hk
    · injection hk with hk; subst hk
      show s.imports.get? id ≠ none
      rw [hx]; simp
  · refine ⟨?_, ?_⟩
    · intro k hk
      injection hk with hk; subst hk
      simp
    · intro k hk
      by_cases e : k = id
      · exact Or.inr e
      · left
        intro hn
        apply hk
        show (s.imports.insert id v).get? k = none
        rw [HMap.get?_insert]
        simp [e, hn]

theorem insert_ne_none {m : HMap Nat Import} {id k : Nat} {v : Import} : (m.insert id v).get? k ≠ none → m.get? k ≠ none ∨ k = id := by
  intro hk
  by_cases e : k = id
  · exact Or.inr e
  · left
    intro hn
    apply hk
    rw [HMap.get?_insert]
    simp [e, hn]

theorem ne_none_insert {m : HMap Nat Import} {id k : Nat} {v : Import} : m.get? k ≠ none → (m.insert id v).get? k ≠ none := by
  intro hk
  rw [HMap.get?_insert]
  split
  · simp
  · exact hk

/-- a capture that is not an error does not stop the loop, and only statement captures create entries -/
theorem check_benign {s : JinjaImports} (h : Inv s) (c : Capture) (he : c.name ≠ .error) (ht : c.text ≠ none) :
    ∃ s', s.check c = some s' ∧ Inv s' ∧ ∀ k, s'.imports.get? k ≠ none → s.imports.get? k ≠ none ∨ (isStmt c ∧ k = c.id) := by
  obtain ⟨raw, hraw⟩ := Option.ne_none_iff_exists'.mp ht
  unfold check
  split
  · rename_i hn; exact absurd hn he
  · rename_i hn
    have := inv_open (s := s) c.id (.extends Identifier.default) none (Or.inl rfl)
    exact ⟨_, rfl, this.1, fun k hk => (this.2 k hk).imp id fun e => ⟨Or.inl hn, e⟩⟩
  · rename_i hn
    have := inv_open (s := s) c.id (.include []) (some c.id) (Or.inr rfl)
    exact ⟨_, rfl, this.1, fun k hk => (this.2 k hk).imp id fun e => ⟨Or.inr (Or.inl hn), e⟩⟩
  · rename_i hn
    have := inv_open (s := s) c.id (.import_ Identifier.default Identifier.default) (some c.id) (Or.inr rfl)
    exact ⟨_, rfl, this.1, fun k hk => (this.2 k hk).imp id fun e => ⟨Or.inr (Or.inr (Or.inr hn)), e⟩⟩
  · rename_i hn
    have := inv_open (s := s) c.id (.from_ Identifier.default []) (some c.id) (Or.inr rfl)
    exact ⟨_, rfl, this.1, fun k hk => (this.2 k hk).imp id fun e => ⟨Or.inr (Or.inr (Or.inl hn)), e⟩⟩
  · split
    · exact ⟨_, rfl, h, fun k hk => Or.inl hk⟩
    · rename_i id hid
      split
      · rename_i hnone; exact absurd hnone (h id hid)
      · rename_i last hlast
        simp only [hraw]
        refine ⟨_, rfl, ?_, ?_⟩
        · intro k hk
          exact ne_none_insert (h k hk)
        · intro k hk
          rcases insert_ne_none hk with h1 | h1
          · exact Or.inl h1
          · left; rw [h1, hlast]; simp
  · split
    · exact ⟨_, rfl, h, fun k hk => Or.inl hk⟩
    · rename_i id hid
      simp only [hraw]
      split
      · rename_i hnone; exact absurd hnone (h id hid)
      · rename_i last hlast
        have hins : ∀ v k, (s.imports.insert id v).get? k ≠ none → s.imports.get? k ≠ none := by
          intro v k hk
          rcases insert_ne_none hk with h1 | h1
          · exact h1
          · rw [h1, hlast]; simp
        split
        · exact ⟨_, rfl, fun k hk => ne_none_insert (h k hk), fun k hk => Or.inl (hins _ k hk)⟩
        · split
          · exact ⟨_, rfl, (fun k hk => by cases hk), fun k hk => Or.inl (hins _ k hk)⟩
          · exact ⟨_, rfl, h, fun k hk => Or.inl hk⟩
        · exact ⟨_, rfl, (fun k hk => by cases hk), fun k hk => Or.inl hk⟩
  · exact ⟨_, rfl, h, fun k hk => Or.inl hk⟩

theorem run_benign : ∀ (l : List Capture) (s : JinjaImports), Inv s → (∀ c ∈ l, c.name ≠ .error ∧ c.text ≠ none) →
    ∃ s', (∀ more, run s (l ++ more) = run s' more) ∧ Inv s' ∧
      ∀ k, s'.imports.get? k ≠ none → s.imports.get? k ≠ none ∨ ∃ c ∈ l, isStmt c ∧ k = c.id
  | [], s, h, _ => ⟨s, fun _ => rfl, h, fun k hk => Or.inl hk⟩
  | c :: l, s, h, hl => by
    obtain ⟨s1, h1, h2, h3⟩ := check_benign h c (hl c (by simp)).1 (hl c (by simp)).2
    obtain ⟨s2, k1, k2, k3⟩ := run_benign l s1 h2 (fun x hx => hl x (by simp [hx]))
    refine ⟨s2, ?_, k2, ?_⟩
    · intro more
      simp only [List.cons_append, run, h1]
      exact k1 more
    · intro k hk
      rcases k3 k hk with hk | ⟨x, hx, hs, e⟩
      · rcases h3 k hk with hk | ⟨hs, e⟩
        · exact Or.inl hk
        · exact Or.inr ⟨c, by simp, hs, e⟩
      · exact Or.inr ⟨x, by simp [hx], hs, e⟩

/-- the identifier recorded for a name -/
def tplIdent (t : Tok) : Identifier := { Identifier.new (stripQuotes t.text) t.start t.stop with idType := .jinjaTemplate }

def filled (t : Tok) : Identifier := fillTemplate Identifier.default (stripQuotes t.text) t.start t.stop

theorem filled_again (t : Tok) : fillTemplate (filled t) (stripQuotes t.text) t.start t.stop = filled t := by
  have h : filled t = { Identifier.default with name := stripQuotes t.text, start := t.start, stop := t.stop, idType := .jinjaTemplate } := rfl
  unfold fillTemplate
  split
  · rw [h]
  · rfl

/-- one more name of an include list -/
theorem run_include (s : JinjaImports) (hd kw t : Tok) (ts : List Identifier) (p : Point) (more : List Capture)
    (hh : hd.start ≤ p) (hs : (s.imports.get? hd.node = none ∧ ts = []) ∨ s.imports.get? hd.node = some (.include ts)) :
    ∃ s', run s (([hd.cap .include, kw.cap .other, t.cap .templateName].filter fun c => decide (c.start ≤ p)) ++ more) = run s' more ∧
      s'.current = some hd.node ∧
      s'.imports.get? hd.node = some (.include (if t.start ≤ p then ts ++ [tplIdent t] else ts)) := by
  have h1 : ∃ s1, s.check (hd.cap .include) = some s1 ∧ s1.current = some hd.node ∧ s1.imports.get? hd.node = some (.include ts) := by
    refine ⟨_, rfl, ?_⟩
    show (s.openImport hd.node _ _).current = _ ∧ (s.openImport hd.node _ _).imports.get? _ = _
    unfold openImport
    rcases hs with ⟨hs, rfl⟩ | hs
    · rw [hs]; simp
    · rw [hs]; exact ⟨rfl, hs⟩
  obtain ⟨s1, k1, k2, k3⟩ := h1
  have hk : ∀ m, run s1 (([kw.cap .other].filter fun c => decide (c.start ≤ p)) ++ m) = run s1 m := by
    intro m
    by_cases h : kw.start ≤ p
    · have : ([kw.cap .other].filter fun c => decide (c.start ≤ p)) = [kw.cap .other] := by simp [Tok.cap, h]
      rw [this]; rfl
    · have : ([kw.cap .other].filter fun c => decide (c.start ≤ p)) = [] := by simp [Tok.cap, h]
      rw [this]; rfl
  have hsplit : ([hd.cap .include, kw.cap .other, t.cap .templateName].filter fun c => decide (c.start ≤ p)) =
      hd.cap .include :: (([kw.cap .other].filter fun c => decide (c.start ≤ p)) ++ ([t.cap .templateName].filter fun c => decide (c.start ≤ p))) := by
    rw [← List.filter_append]
    simp [List.filter_cons, Tok.cap, hh]
  rw [hsplit]
  simp only [List.cons_append, run, k1, List.append_assoc, hk]
  by_cases h : t.start ≤ p
  · have hf : ([t.cap .templateName].filter fun c => decide (c.start ≤ p)) = [t.cap .templateName] := by simp [Tok.cap, h]
    rw [hf]
    refine ⟨{ s1 with imports := s1.imports.insert hd.node (.include (ts ++ [tplIdent t])) }, ?_, k2, ?_⟩
    · simp only [List.cons_append, List.nil_append, run]
      have : s1.check (t.cap .templateName) =
          some { s1 with imports := s1.imports.insert hd.node (.include (ts ++ [tplIdent t])) } := by
        simp only [check, Tok.cap, k2, k3, tplIdent]
      rw [this]
    · simp [h]
  · have hf : ([t.cap .templateName].filter fun c => decide (c.start ≤ p)) = [] := by simp [Tok.cap, h]
    rw [hf]
    exact ⟨s1, rfl, k2, by simp [h, k3]⟩

theorem run_includes (hd kw : Tok) (p : Point) (hh : hd.start ≤ p) : ∀ (names : List Tok) (s : JinjaImports) (ts : List Identifier)
    (more : List Capture), s.current = some hd.node → s.imports.get? hd.node = some (.include ts) →
    ∃ s', run s (((names.flatMap fun t => [hd.cap .include, kw.cap .other, t.cap .templateName]).filter fun c => decide (c.start ≤ p)) ++ more)
        = run s' more ∧ s'.current = some hd.node ∧
      s'.imports.get? hd.node = some (.include (ts ++ (names.filter fun t => decide (t.start ≤ p)).map tplIdent))
  | [], s, ts, more, hc, hs => ⟨s, rfl, hc, by simp [hs]⟩
  | t :: names, s, ts, more, _, hs => by
    obtain ⟨s1, h1, h2, h3⟩ := run_include s hd kw t ts p
      (((names.flatMap fun t => [hd.cap .include, kw.cap .other, t.cap .templateName]).filter fun c => decide (c.start ≤ p)) ++ more)
      hh (Or.inr hs)
    obtain ⟨s2, k1, k2, k3⟩ := run_includes hd kw p hh names s1 _ more h2 h3
    refine ⟨s2, ?_, k2, ?_⟩
    · rw [List.flatMap_cons, List.filter_append, List.append_assoc, h1, k1]
    · rw [k3]
      by_cases h : t.start ≤ p <;> simp [h]

/-- a statement with one name -/
theorem run_single (s : JinjaImports) (n : CapName) (v : Identifier → Import) (hd kw t : Tok) (m : List Capture) (p : Point)
    (more : List Capture) (hh : hd.start ≤ p) (ht : t.start ≤ p) (hm : ∀ c ∈ m, p < c.start)
    (hcheck : ∀ s : JinjaImports, s.check (hd.cap n) = some (s.openImport hd.node (v Identifier.default) (some hd.node)))
    (hname : ∀ (s : JinjaImports) (x : Identifier), s.current = some hd.node → s.imports.get? hd.node = some (v x) →
      s.check (t.cap .templateName) =
        some { s with imports := s.imports.insert hd.node (v (fillTemplate x (stripQuotes t.text) t.start t.stop)) })
    (hs : s.imports.get? hd.node = none ∨ s.imports.get? hd.node = some (v (filled t))) :
    ∃ s', run s ((([hd.cap n, kw.cap .other, t.cap .templateName] ++ m).filter fun c => decide (c.start ≤ p)) ++ more) = run s' more ∧
      s'.current = some hd.node ∧ s'.imports.get? hd.node = some (v (filled t)) := by
  have hmf : (m.filter fun c => decide (c.start ≤ p)) = [] := by
    rw [List.filter_eq_nil_iff]
    intro c hc
    have := hm c hc
    simp only [decide_eq_true_eq]
    exact fun h => Point.lt_irrefl _ (Point.lt_of_lt_of_le this h)
  have hsplit : ((([hd.cap n, kw.cap .other, t.cap .templateName] ++ m).filter fun c => decide (c.start ≤ p)) ++ more) =
      hd.cap n :: (([kw.cap .other].filter fun c => decide (c.start ≤ p)) ++ (t.cap .templateName :: more)) := by
    rw [List.filter_append, hmf]
    have : ([hd.cap n, kw.cap .other, t.cap .templateName].filter fun c => decide (c.start ≤ p)) =
        hd.cap n :: (([kw.cap .other].filter fun c => decide (c.start ≤ p)) ++ [t.cap .templateName]) := by
      by_cases h : kw.start ≤ p <;> simp [Tok.cap, hh, ht, h]
    rw [this]; simp
  rw [hsplit]
  have hk : ∀ (x : JinjaImports) m, run x (([kw.cap .other].filter fun c => decide (c.start ≤ p)) ++ m) = run x m := by
    intro x m
    by_cases h : kw.start ≤ p
    · have : ([kw.cap .other].filter fun c => decide (c.start ≤ p)) = [kw.cap .other] := by simp [Tok.cap, h]
      rw [this]; rfl
    · have : ([kw.cap .other].filter fun c => decide (c.start ≤ p)) = [] := by simp [Tok.cap, h]
      rw [this]; rfl
  simp only [run, hcheck, hk]
  have hopen : ∃ x, (s.openImport hd.node (v Identifier.default) (some hd.node)).current = some hd.node ∧
      (s.openImport hd.node (v Identifier.default) (some hd.node)).imports.get? hd.node = some (v x) ∧
      fillTemplate x (stripQuotes t.text) t.start t.stop = filled t := by
    unfold openImport
    rcases hs with hs | hs
    · rw [hs]; exact ⟨Identifier.default, rfl, by simp, rfl⟩
    · rw [hs]; exact ⟨filled t, rfl, hs, filled_again t⟩
  obtain ⟨x, h1, h2, h3⟩ := hopen
  rw [hname _ x h1 h2]
  exact ⟨_, rfl, h1, by simp [h3]⟩

theorem run_singles (n : CapName) (v : Identifier → Import) (hd kw t : Tok) (p : Point) (hh : hd.start ≤ p) (ht : t.start ≤ p)
    (hcheck : ∀ s : JinjaImports, s.check (hd.cap n) = some (s.openImport hd.node (v Identifier.default) (some hd.node)))
    (hname : ∀ (s : JinjaImports) (x : Identifier), s.current = some hd.node → s.imports.get? hd.node = some (v x) →
      s.check (t.cap .templateName) =
        some { s with imports := s.imports.insert hd.node (v (fillTemplate x (stripQuotes t.text) t.start t.stop)) }) :
    ∀ (ms : List (List Capture)) (s : JinjaImports) (more : List Capture), (∀ m ∈ ms, ∀ c ∈ m, p < c.start) →
      (s.imports.get? hd.node = none ∨ s.imports.get? hd.node = some (v (filled t))) →
      (ms = [] → s.current = some hd.node ∧ s.imports.get? hd.node = some (v (filled t))) →
      ∃ s', run s (((ms.flatMap fun m => [hd.cap n, kw.cap .other, t.cap .templateName] ++ m).filter fun c => decide (c.start ≤ p)) ++ more)
          = run s' more ∧ s'.current = some hd.node ∧ s'.imports.get? hd.node = some (v (filled t))
  | [], s, more, _, _, hn => ⟨s, rfl, hn rfl⟩
  | m :: ms, s, more, hm, hs, _ => by
    obtain ⟨s1, h1, h2, h3⟩ := run_single s n v hd kw t m p
      (((ms.flatMap fun m => [hd.cap n, kw.cap .other, t.cap .templateName] ++ m).filter fun c => decide (c.start ≤ p)) ++ more)
      hh ht (hm m (by simp)) hcheck hname hs
    obtain ⟨s2, k1, k2⟩ := run_singles n v hd kw t p hh ht hcheck hname ms s1 more (fun x hx => hm x (by simp [hx])) (Or.inr h3)
      (fun _ => ⟨h2, h3⟩)
    refine ⟨s2, ?_, k2⟩
    rw [List.flatMap_cons, List.filter_append, List.append_assoc, h1, k1]

end JinjaImports

open JinjaImports in
/-- the template name found with the cursor in the name `t` -/
theorem name_under_cursor {env : Env} {tree : Tree} {text : Str} {p : Point} {before rest : List Capture} {s : ImpStmt} {t : Tok}
    (h : OnName (env.queryMatches .jinjaImports tree text).flatten before s t rest p) :
    ∃ i, ((templatesQuery env tree p text false).inTemplate.bind fun x => x.getIdentifier p) = some i ∧
      i.name = stripQuotes t.text ∧ i.start = t.start ∧ i.stop = t.stop := by
  have hrest : (rest.filter fun c => decide (c.start ≤ p)) = [] := by
    rw [List.filter_eq_nil_iff]
    intro c hc
    have := h.after c hc
    simp only [decide_eq_true_eq]
    exact fun h => Point.lt_irrefl _ (Point.lt_of_lt_of_le this h)
  obtain ⟨s0, h1, h2, h3⟩ := run_benign (before.filter fun c => decide (c.start ≤ p)) JinjaImports.default (fun id hid => by cases hid)
    (fun c hc => ⟨(h.earlier c (List.mem_filter.mp hc).1).1, (h.earlier c (List.mem_filter.mp hc).1).2.1⟩)
  have hfresh : s0.imports.get? s.head.node = none := by
    apply Decidable.byContradiction
    intro hh
    rcases h3 _ hh with hh | ⟨c, hc, hst, e⟩
    · exact hh rfl
    · exact (h.earlier c (List.mem_filter.mp hc).1).2.2 hst e.symm
  have hcov : ∀ i : Identifier, i.start = t.start → i.stop = t.stop → i.covers p = true := by
    intro i e1 e2
    simp [Identifier.covers, e1, e2, h.start, h.stop]
  have hrun : templatesQuery env tree p text false = run s0 ((s.caps.filter fun c => decide (c.start ≤ p)) ++ []) := by
    unfold templatesQuery
    rw [selectCaptures_false, h.caps, List.filter_append, List.filter_append, hrest, h1]
  rw [hrun]
  have hname := h.name
  have honly := h.only
  have hhead := h.head
  have hids := h.ids
  have hsome := h.some_match
  have hfin : ∀ (s' : JinjaImports) (v : Import) (n : Nat), s'.current = some n → s'.imports.get? n = some v →
      (run s' []).inTemplate = some v := by
    intro s' v n e1 e2
    simp [run, inTemplate, e1, e2]
  have hfillname : ∀ t : Tok, (filled t).name = stripQuotes t.text ∧ (filled t).start = t.start ∧ (filled t).stop = t.stop := by
    intro t
    simp [filled, fillTemplate, Identifier.default]
  cases s with
  | «extends» hd kw t' =>
    cases List.mem_singleton.mp hname
    -- a single match: the statement is new
    have hsplit : ((ImpStmt.extends hd kw t).caps.filter fun c => decide (c.start ≤ p)) ++ [] =
        hd.cap .extends :: (([kw.cap .other].filter fun c => decide (c.start ≤ p)) ++ [t.cap .templateName]) := by
      have e1 : hd.start ≤ p := hhead
      by_cases hk : kw.start ≤ p <;> simp [ImpStmt.caps, Tok.cap, e1, h.start, hk]
    rw [hsplit]
    have hfr : s0.imports.get? hd.node = none := hfresh
    have hopen : s0.check (hd.cap .extends) = some ⟨s0.imports.insert hd.node (.extends Identifier.default), some hd.node, hd.node⟩ := by
      show some (s0.openImport hd.node _ none) = _
      unfold openImport
      rw [hfr]
    have hk : ∀ (x : JinjaImports) m, run x (([kw.cap .other].filter fun c => decide (c.start ≤ p)) ++ m) = run x m := by
      intro x m
      by_cases h : kw.start ≤ p
      · have : ([kw.cap .other].filter fun c => decide (c.start ≤ p)) = [kw.cap .other] := by simp [Tok.cap, h]
        rw [this]; rfl
      · have : ([kw.cap .other].filter fun c => decide (c.start ≤ p)) = [] := by simp [Tok.cap, h]
        rw [this]; rfl
    simp only [run, hopen, hk]
    have hn : (⟨s0.imports.insert hd.node (.extends Identifier.default), some hd.node, hd.node⟩ : JinjaImports).check (t.cap .templateName) =
        some ⟨(s0.imports.insert hd.node (.extends Identifier.default)).insert hd.node (.extends (filled t)), some hd.node, hd.node⟩ := by
      simp only [check, Tok.cap, HMap.get?_insert_self, filled]
    rw [hn]
    refine ⟨filled t, ?_, hfillname t⟩
    simp only [inTemplate, HMap.get?_insert_self, Option.bind_some, Import.getIdentifier]
    rw [hcov _ (hfillname t).2.1 (hfillname t).2.2]
    rfl
  | «include» hd kw ts =>
    cases ts with
    | nil => cases hname
    | cons t0 ts =>
      have e : ((ImpStmt.include hd kw (t0 :: ts)).caps.filter fun c => decide (c.start ≤ p)) ++ [] =
          ([hd.cap .include, kw.cap .other, t0.cap .templateName].filter fun c => decide (c.start ≤ p)) ++
          (((ts.flatMap fun t => [hd.cap .include, kw.cap .other, t.cap .templateName]).filter fun c => decide (c.start ≤ p)) ++ []) := by
        simp only [ImpStmt.caps, List.flatMap_cons, List.filter_append, List.append_nil]
      rw [e]
      obtain ⟨s1, k1, k2, k3⟩ := run_include s0 hd kw t0 [] p
        (((ts.flatMap fun t => [hd.cap .include, kw.cap .other, t.cap .templateName]).filter fun c => decide (c.start ≤ p)) ++ [])
        hhead (Or.inl ⟨hfresh, rfl⟩)
      obtain ⟨s2, l1, l2, l3⟩ := run_includes hd kw p hhead ts s1 _ [] k2 k3
      rw [k1, l1, hfin s2 _ _ l2 l3]
      have hlist : (if t0.start ≤ p then [] ++ [tplIdent t0] else []) ++ (ts.filter fun t => decide (t.start ≤ p)).map tplIdent =
          ((t0 :: ts).filter fun t => decide (t.start ≤ p)).map tplIdent := by
        by_cases h : t0.start ≤ p <;> simp [h]
      rw [hlist]
      simp only [Option.bind_some, Import.getIdentifier]
      have hmem : tplIdent t ∈ ((t0 :: ts).filter fun t => decide (t.start ≤ p)).map tplIdent :=
        List.mem_map.mpr ⟨t, List.mem_filter.mpr ⟨hname, by simpa using h.start⟩, rfl⟩
      cases hf : (((t0 :: ts).filter fun t => decide (t.start ≤ p)).map tplIdent).find? (fun t => t.covers p) with
      | none =>
        have := List.find?_eq_none.mp hf _ hmem
        rw [hcov _ rfl rfl] at this
        exact absurd rfl this
      | some i =>
        refine ⟨i, rfl, ?_⟩
        obtain ⟨t', ht', rfl⟩ := List.mem_map.mp (List.mem_of_find?_eq_some hf)
        have hc := List.find?_some hf
        simp only [Identifier.covers, Bool.and_eq_true, decide_eq_true_eq] at hc
        have : t' = t := honly t' (List.mem_filter.mp ht').1 hc.1 hc.2
        subst this
        exact ⟨rfl, rfl, rfl⟩
  | from_ hd kw t' ms =>
    cases List.mem_singleton.mp hname
    obtain ⟨s1, k1, k2, k3⟩ := run_singles .from_ (fun x => .from_ x []) hd kw t p hhead h.start (fun _ => rfl)
      (fun s x e1 e2 => by simp only [check, Tok.cap, e1, e2]) ms s0 [] hids (Or.inl hfresh) (fun e => absurd e hsome)
    have e : (ImpStmt.from_ hd kw t ms).caps = ms.flatMap fun m => [hd.cap .from_, kw.cap .other, t.cap .templateName] ++ m := rfl
    rw [e, k1, hfin s1 _ _ k2 k3]
    refine ⟨filled t, ?_, hfillname t⟩
    simp only [Option.bind_some, Import.getIdentifier]
    rw [hcov _ (hfillname t).2.1 (hfillname t).2.2]
    rfl
  | import_ hd kw t' ms =>
    cases List.mem_singleton.mp hname
    obtain ⟨s1, k1, k2, k3⟩ := run_singles .import_ (fun x => .import_ x Identifier.default) hd kw t p hhead h.start (fun _ => rfl)
      (fun s x e1 e2 => by simp only [check, Tok.cap, e1, e2]) ms s0 [] hids (Or.inl hfresh) (fun e => absurd e hsome)
    have e : (ImpStmt.import_ hd kw t ms).caps = ms.flatMap fun m => [hd.cap .import_, kw.cap .other, t.cap .templateName] ++ m := rfl
    rw [e, k1, hfin s1 _ _ k2 k3]
    refine ⟨filled t, ?_, hfillname t⟩
    simp only [Option.bind_some, Import.getIdentifier]
    rw [hcov _ (hfillname t).2.1 (hfillname t).2.2]
    rfl

end JinjaLsp
