import Verif.Lemmas.HMap
import Verif.Lemmas.Point
import Verif.Model.Imports
import Verif.Model.Backend
/- Where template names come from. -/

namespace JinjaLsp

/-- the name and range of a template-name capture -/
def TplFrom (cs : List Capture) (i : Identifier) : Prop :=
  ∃ c ∈ cs, c.name = .templateName ∧ (∃ t, c.text = some t ∧ i.name = stripQuotes t) ∧ i.start = c.start ∧ i.stop = c.stop

/-- … or still empty -/
def TplOk (cs : List Capture) (i : Identifier) : Prop :=
  (i.name = [] ∧ i.start = Point.zero ∧ i.stop = Point.zero) ∨ TplFrom cs i

def Import.TplOk (cs : List Capture) : Import → Prop
  | .extends t => JinjaLsp.TplOk cs t
  | .include ts => ∀ t ∈ ts, JinjaLsp.TplFrom cs t
  | .from_ t _ => JinjaLsp.TplOk cs t
  | .import_ t _ => JinjaLsp.TplOk cs t

namespace JinjaImports

def TplOk (cs : List Capture) (s : JinjaImports) : Prop := ∀ e ∈ s.imports.entries, e.2.TplOk cs

theorem tplOk_get {cs : List Capture} {s : JinjaImports} (h : s.TplOk cs) {id : Nat} {v : Import} (hg : s.imports.get? id = some v) :
    v.TplOk cs := h (id, v) ((HMap.get?_eq_some_iff _ _ _).mp hg)

theorem tplOk_insert {cs : List Capture} {m : HMap Nat Import} (h : ∀ e ∈ m.entries, e.2.TplOk cs) (id : Nat) (v : Import)
    (hv : v.TplOk cs) : ∀ e ∈ (m.insert id v).entries, e.2.TplOk cs := by
  intro e he
  simp only [HMap.insert, List.mem_cons] at he
  rcases he with rfl | he
  · exact hv
  · exact h e (List.mem_filter.mp he).1

theorem tplOk_open {cs : List Capture} {s : JinjaImports} (h : s.TplOk cs) (id : Nat) (v : Import) (again : Option Nat)
    (hv : v.TplOk cs) : (s.openImport id v again).TplOk cs := by
  unfold openImport
  split
  · exact h
  · exact tplOk_insert h id v hv

theorem default_ok (cs : List Capture) : JinjaLsp.TplOk cs Identifier.default := Or.inl ⟨rfl, rfl, rfl⟩

theorem fill_ok {cs : List Capture} {t : Identifier} (h : JinjaLsp.TplOk cs t) (c : Capture) (hc : c ∈ cs) (hn : c.name = .templateName)
    (raw : Str) (ht : c.text = some raw) : JinjaLsp.TplOk cs (fillTemplate t (stripQuotes raw) c.start c.stop) := by
  unfold fillTemplate
  split
  · exact Or.inr ⟨c, hc, hn, ⟨raw, ht, rfl⟩, rfl, rfl⟩
  · exact h

theorem tplOk_check {cs : List Capture} {s s' : JinjaImports} (h : s.TplOk cs) (c : Capture) (hc : c ∈ cs)
    (hk : s.check c = some s') : s'.TplOk cs := by
  unfold check at hk
  split at hk
  · cases hk
  · injection hk with hk; subst hk; exact tplOk_open h _ _ _ (default_ok cs)
  · injection hk with hk; subst hk; exact tplOk_open h _ _ _ (fun t ht => by cases ht)
  · injection hk with hk; subst hk; exact tplOk_open h _ _ _ (default_ok cs)
  · injection hk with hk; subst hk; exact tplOk_open h _ _ _ (default_ok cs)
  · rename_i hn
    split at hk
    · injection hk with hk; subst hk; exact h
    · split at hk
      · cases hk
      · rename_i last hl
        have hlast := tplOk_get h hl
        split at hk
        · cases hk
        · rename_i raw hraw
          simp only [Option.some.injEq] at hk
          subst hk
          refine tplOk_insert h _ _ ?_
          cases last with
          | «extends» t => exact fill_ok hlast c hc hn raw hraw
          | «include» ts =>
            intro t ht
            rcases List.mem_append.mp ht with ht | ht
            · exact hlast t ht
            · cases List.mem_singleton.mp ht
              exact ⟨c, hc, hn, ⟨raw, hraw, rfl⟩, rfl, rfl⟩
          | from_ t ids => exact fill_ok hlast c hc hn raw hraw
          | import_ t i => exact fill_ok hlast c hc hn raw hraw
  · split at hk
    · injection hk with hk; subst hk; exact h
    · split at hk
      · cases hk
      · split at hk
        · cases hk
        · rename_i last hl
          have hlast := tplOk_get h hl
          split at hk
          · injection hk with hk; subst hk
            exact tplOk_insert h _ _ hlast
          · split at hk
            · injection hk with hk; subst hk
              exact tplOk_insert h _ _ hlast
            · injection hk with hk; subst hk; exact h
          · injection hk with hk; subst hk; exact h
  · injection hk with hk; subst hk; exact h

theorem tplOk_run (cs : List Capture) : ∀ (l : List Capture) (s : JinjaImports), (∀ c ∈ l, c ∈ cs) → s.TplOk cs → (run s l).TplOk cs
  | [], _, _, h => h
  | c :: l, s, hl, h => by
    unfold run
    split
    · exact h
    · rename_i s' hk
      exact tplOk_run cs l s' (fun x hx => hl x (by simp [hx])) (tplOk_check h c (hl c (by simp)) hk)

end JinjaImports

theorem mem_selectCaptures {ms : List (List Capture)} {p : Point} {all : Bool} {c : Capture}
    (h : c ∈ selectCaptures ms p all) : c ∈ ms.flatten := by
  unfold selectCaptures at h
  simp only [List.mem_flatten, List.mem_map] at h ⊢
  obtain ⟨_, ⟨m, hm, rfl⟩, hc⟩ := h
  exact ⟨m, hm, (List.mem_filter.mp hc).1⟩

/-- the template under the cursor is a template-name capture that contains the cursor (or an empty name at the origin) -/
theorem template_under_cursor {env : Env} {tree : Tree} {p : Point} {text : Str} {all : Bool} {i : Identifier}
    (h : ((templatesQuery env tree p text all).inTemplate.bind fun x => x.getIdentifier p) = some i) :
    TplOk (env.queryMatches .jinjaImports tree text).flatten i ∧ i.start ≤ p ∧ p ≤ i.stop := by
  have hok : (templatesQuery env tree p text all).TplOk (env.queryMatches .jinjaImports tree text).flatten :=
    JinjaImports.tplOk_run _ _ _ (fun c hc => mem_selectCaptures hc) (fun e he => by cases he)
  generalize templatesQuery env tree p text all = s at h hok
  unfold JinjaImports.inTemplate at h
  split at h
  · rename_i id _
    cases hg : s.imports.get? id with
    | none => rw [hg] at h; cases h
    | some v =>
      rw [hg] at h
      have hv := JinjaImports.tplOk_get hok hg
      simp only [Option.bind_some] at h
      cases v with
      | «extends» t =>
        simp only [Import.getIdentifier] at h
        split at h
        · rename_i hcov
          injection h with h; subst h
          simp only [Identifier.covers, Bool.and_eq_true, decide_eq_true_eq] at hcov
          exact ⟨hv, hcov⟩
        · cases h
      | from_ t ids =>
        simp only [Import.getIdentifier] at h
        split at h
        · rename_i hcov
          injection h with h; subst h
          simp only [Identifier.covers, Bool.and_eq_true, decide_eq_true_eq] at hcov
          exact ⟨hv, hcov⟩
        · cases h
      | import_ t x =>
        simp only [Import.getIdentifier] at h
        split at h
        · rename_i hcov
          injection h with h; subst h
          simp only [Identifier.covers, Bool.and_eq_true, decide_eq_true_eq] at hcov
          exact ⟨hv, hcov⟩
        · cases h
      | «include» ts =>
        simp only [Import.getIdentifier] at h
        have hcov := List.find?_some h
        simp only [Identifier.covers, Bool.and_eq_true, decide_eq_true_eq] at hcov
        exact ⟨Or.inr (hv i (List.mem_of_find?_eq_some h)), hcov⟩
  · cases h

/-! ### Backend -/

theorem backendTemplates_from (cs : List Capture) : ∀ (l : List Capture) (s : BackendTemplates), (∀ c ∈ l, c ∈ cs) →
    (∀ t ∈ s.templates, TplFrom cs t) → ∀ t ∈ (l.foldl BackendTemplates.check s).templates, TplFrom cs t
  | [], _, _, h => h
  | c :: l, s, hl, h => by
    refine backendTemplates_from cs l (s.check c) (fun x hx => hl x (by simp [hx])) ?_
    unfold BackendTemplates.check
    split
    · rename_i hn
      split
      · exact h
      · rename_i raw hraw
        intro t ht
        rcases List.mem_append.mp ht with ht | ht
        · exact h t ht
        · cases List.mem_singleton.mp ht
          exact ⟨c, hl c (by simp), hn.1, ⟨raw, hraw, rfl⟩, rfl, rfl⟩
    · split
      · split
        · exact h
        · split
          · exact h
          · exact h
      · exact h

theorem backend_under_cursor {env : Env} {g : Grammar} {tree : Tree} {p : Point} {text : Str} {all : Bool} {i : Identifier}
    (h : (backendTemplatesQuery env g tree p text all).inTemplate p = some i) :
    TplFrom (env.queryMatches (.backendTemplates g) tree text).flatten i ∧ i.start ≤ p ∧ p ≤ i.stop := by
  have hf : ∀ t ∈ (backendTemplatesQuery env g tree p text all).templates,
      TplFrom (env.queryMatches (.backendTemplates g) tree text).flatten t :=
    backendTemplates_from _ _ _ (fun c hc => mem_selectCaptures hc) (fun t ht => by cases ht)
  unfold BackendTemplates.inTemplate at h
  split at h
  · cases h
  · rename_i last hl
    split at h
    · rename_i hcov
      injection h with h; subst h
      exact ⟨hf _ (List.mem_of_getLast? hl), hcov⟩
    · cases h

end JinjaLsp
