import Verif.Lemmas.UnderCursor
import Verif.Lemmas.Template
import Verif.Spec.Diagnostics
/- The references collected from a whole document. -/

namespace JinjaLsp
open Spec
namespace JinjaImports

/-- the references held by the state -/
def refs (s : JinjaImports) : List Ref :=
  s.imports.entries.flatMap fun e => (e.2.collect.filter fun i => i.idType = .jinjaTemplate).map Identifier.ref

theorem entries_insert_head {K V : Type} [DecidableEq K] {m : HMap K V} {k : K} {v : V} {old : HMap K V} (v' : V)
    (h : m.entries = (k, v) :: old.entries) (hk : k ∉ old.keys) : (m.insert k v').entries = (k, v') :: old.entries := by
  simp only [HMap.insert, HMap.erase, h, List.filter_cons]
  simp only [ne_eq, not_true_eq_false, decide_false, Bool.false_eq_true, if_false, List.cons.injEq, true_and]
  rw [List.filter_eq_self]
  intro e he
  simp only [decide_eq_true_eq]
  rintro rfl
  exact hk (List.mem_map.mpr ⟨e, he, rfl⟩)

theorem entries_insert_new {K V : Type} [DecidableEq K] {old : HMap K V} {k : K} (v' : V) (hk : k ∉ old.keys) :
    (old.insert k v').entries = (k, v') :: old.entries := by
  simp only [HMap.insert, HMap.erase, List.cons.injEq, true_and]
  rw [List.filter_eq_self]
  intro e he
  simp only [ne_eq, decide_eq_true_eq]
  rintro rfl
  exact hk (List.mem_map.mpr ⟨e, he, rfl⟩)

/-- the state after reading a part of the statement with the given node: its import is the newest entry -/
structure Reading (old : JinjaImports) (node : Nat) (v : Import) (s : JinjaImports) : Prop where
  entries : s.imports.entries = (node, v) :: old.imports.entries
  fresh : node ∉ old.imports.keys

theorem Reading.get {old s : JinjaImports} {node : Nat} {v : Import} (h : Reading old node v s) : s.imports.get? node = some v := by
  rw [HMap.get?_eq_some_iff, h.entries]; simp

theorem Reading.refs {old s : JinjaImports} {node : Nat} {v : Import} (h : Reading old node v s) :
    s.refs = (v.collect.filter fun i => i.idType = .jinjaTemplate).map Identifier.ref ++ old.refs := by
  unfold JinjaImports.refs; rw [h.entries]; simp

theorem Reading.keys {old s : JinjaImports} {node : Nat} {v : Import} (h : Reading old node v s) :
    s.imports.keys = node :: old.imports.keys := by
  unfold HMap.keys; rw [h.entries]; rfl

/-- opening the statement for the first time -/
theorem open_new {old : JinjaImports} {node : Nat} (v : Import) (again : Option Nat) (hk : node ∉ old.imports.keys) :
    Reading old node v (old.openImport node v again) ∧ (old.openImport node v again).current = some node := by
  have : old.imports.get? node = none := (HMap.get?_eq_none_iff _ _).mpr hk
  unfold openImport
  rw [this]
  exact ⟨⟨entries_insert_new v hk, hk⟩, rfl⟩

/-- opening it again -/
theorem open_again {old s : JinjaImports} {node : Nat} {v : Import} (v' : Import) (again : Option Nat) (h : Reading old node v s) :
    Reading old node v (s.openImport node v' again) ∧ (s.openImport node v' again).current = again := by
  unfold openImport
  rw [h.get]
  exact ⟨⟨h.entries, h.fresh⟩, rfl⟩

theorem Reading.set {old s : JinjaImports} {node : Nat} {v : Import} (h : Reading old node v s) (v' : Import) (cur : Option Nat) (l : Nat) :
    Reading old node v' ⟨s.imports.insert node v', cur, l⟩ := ⟨entries_insert_head v' h.entries h.fresh, h.fresh⟩

/-- imported identifiers do not change the references -/
theorem run_extras {old : JinjaImports} {node : Nat} (t : Identifier) (v : List Identifier → Identifier → Import)
    (hv : (∀ ids i, v ids i = .from_ t ids) ∨ (∀ ids i, v ids i = .import_ t i)) :
    ∀ (m : List Capture), (∀ c ∈ m, (c.name = .importIdentifier ∨ c.name = .other) ∧ c.text ≠ none) →
      ∀ (s : JinjaImports) (ids : List Identifier) (i : Identifier) (more : List Capture), (∀ x ∈ ids, x.idType ≠ .jinjaTemplate) →
        Reading old node (v ids i) s → (s.current = some node ∨ s.current = none) →
        ∃ s' ids' i', run s (m ++ more) = run s' more ∧ Reading old node (v ids' i') s' ∧ (∀ x ∈ ids', x.idType ≠ .jinjaTemplate)
  | [], _, s, ids, i, more, hids, hr, _ => ⟨s, ids, i, rfl, hr, hids⟩
  | c :: m, hm, s, ids, i, more, hids, hr, hcur => by
    have hm' : ∀ x ∈ m, (x.name = .importIdentifier ∨ x.name = .other) ∧ x.text ≠ none := fun x hx => hm x (by simp [hx])
    obtain ⟨hn, ht⟩ := hm c (by simp)
    obtain ⟨raw, hraw⟩ := Option.ne_none_iff_exists'.mp ht
    have key : ∃ s1 ids1 i1, s.check c = some s1 ∧ Reading old node (v ids1 i1) s1 ∧ (∀ x ∈ ids1, x.idType ≠ .jinjaTemplate) ∧
        (s1.current = some node ∨ s1.current = none) := by
      rcases hn with hn | hn
      · rcases hcur with hcur | hcur
        · have hg := hr.get
          rcases hv with hv | hv
          · rw [hv] at hg hr
            refine ⟨{ s with imports := s.imports.insert node (.from_ t (ids ++ [Identifier.new raw c.start c.stop])) },
              ids ++ [Identifier.new raw c.start c.stop], i, ?_, ?_, ?_, Or.inl hcur⟩
            · simp only [check, hn, hcur, hraw, hg]
            · rw [hv]; exact hr.set _ _ _
            · intro x hx
              rcases List.mem_append.mp hx with hx | hx
              · exact hids x hx
              · cases List.mem_singleton.mp hx; simp [Identifier.new]
          · rw [hv] at hg hr
            by_cases he : i.name.isEmpty = true
            · refine ⟨{ s with imports := s.imports.insert node (.import_ t { i with name := raw }), current := none },
                ids, { i with name := raw }, ?_, ?_, hids, Or.inr rfl⟩
              · simp only [check, hn, hcur, hraw, hg, he, if_true]
              · rw [hv]; exact hr.set _ _ _
            · refine ⟨s, ids, i, ?_, ?_, hids, Or.inl hcur⟩
              · simp only [check, hn, hcur, hraw, hg, he]
                rfl
              · rw [hv]; exact hr
        · exact ⟨s, ids, i, by simp only [check, hn, hcur], hr, hids, Or.inr hcur⟩
      · exact ⟨s, ids, i, by simp only [check, hn], hr, hids, hcur⟩
    obtain ⟨s1, ids1, i1, k1, k2, k3, k4⟩ := key
    obtain ⟨s2, ids2, i2, q1, q2, q3⟩ := run_extras t v hv m hm' s1 ids1 i1 more k3 k2 k4
    refine ⟨s2, ids2, i2, ?_, q2, q3⟩
    rw [List.cons_append, run, k1]
    exact q1

/-- the names of an include list -/
theorem run_include_all {old : JinjaImports} (hd kw : Tok) : ∀ (names : List Tok) (s : JinjaImports) (ts : List Identifier) (more : List Capture),
    Reading old hd.node (.include ts) s →
    ∃ s', run s ((names.flatMap fun t => [hd.cap .include, kw.cap .other, t.cap .templateName]) ++ more) = run s' more ∧
      Reading old hd.node (.include (ts ++ names.map tplIdent)) s'
  | [], s, ts, more, h => ⟨s, rfl, by simpa using h⟩
  | t :: names, s, ts, more, h => by
    obtain ⟨h1, h2⟩ := open_again (.include []) (some hd.node) h
    have e : (s.openImport hd.node (.include []) (some hd.node)).check (t.cap .templateName) =
        some { s.openImport hd.node (.include []) (some hd.node) with
          imports := (s.openImport hd.node (.include []) (some hd.node)).imports.insert hd.node (.include (ts ++ [tplIdent t])) } := by
      have hc : (t.cap .templateName).text = some t.text := rfl
      have hn : (t.cap .templateName).name = .templateName := rfl
      simp only [check, hn, h2, h1.get, hc]
      rfl
    obtain ⟨s', k1, k2⟩ := run_include_all hd kw names _ (ts ++ [tplIdent t]) more (h1.set (.include (ts ++ [tplIdent t])) _ _)
    refine ⟨s', ?_, by simpa using k2⟩
    rw [← k1]
    have a : s.check (hd.cap .include) = some (s.openImport hd.node (.include []) (some hd.node)) := rfl
    have b : ∀ x : JinjaImports, x.check (kw.cap .other) = some x := fun _ => rfl
    simp only [List.flatMap_cons, List.cons_append, List.nil_append]
    rw [run, a]; simp only
    rw [run, b]; simp only
    rw [run, e]

theorem filled_eq (t : Tok) : filled t = { Identifier.default with name := stripQuotes t.text, start := t.start, stop := t.stop, idType := .jinjaTemplate } := rfl

/-- the matches of a from or import statement -/
theorem run_matches {old : JinjaImports} (n : CapName) (hd kw t : Tok) (v : Identifier → List Identifier → Identifier → Import)
    (hv : (∀ x ids i, v x ids i = .from_ x ids) ∧ n = .from_ ∨ (∀ x ids i, v x ids i = .import_ x i) ∧ n = .import_) :
    ∀ (ms : List (List Capture)), (∀ m ∈ ms, ∀ c ∈ m, (c.name = .importIdentifier ∨ c.name = .other) ∧ c.text ≠ none) →
      ∀ (s : JinjaImports) (ids : List Identifier) (i : Identifier) (more : List Capture), (∀ x ∈ ids, x.idType ≠ .jinjaTemplate) →
        (Reading old hd.node (v (filled t) ids i) s) →
        ∃ s' ids' i', run s ((ms.flatMap fun m => [hd.cap n, kw.cap .other, t.cap .templateName] ++ m) ++ more) = run s' more ∧
          Reading old hd.node (v (filled t) ids' i') s' ∧ (∀ x ∈ ids', x.idType ≠ .jinjaTemplate)
  | [], _, s, ids, i, more, hids, hr => ⟨s, ids, i, rfl, hr, hids⟩
  | m :: ms, hm, s, ids, i, more, hids, hr => by
    obtain ⟨s3, j1, j2, j3⟩ : ∃ s3, run s ([hd.cap n, kw.cap .other, t.cap .templateName] ++ (m ++ ((ms.flatMap fun m => [hd.cap n, kw.cap .other, t.cap .templateName] ++ m) ++ more))) =
        run s3 (m ++ ((ms.flatMap fun m => [hd.cap n, kw.cap .other, t.cap .templateName] ++ m) ++ more)) ∧
        Reading old hd.node (v (filled t) ids i) s3 ∧ s3.current = some hd.node := by
      have b : ∀ x : JinjaImports, x.check (kw.cap .other) = some x := fun _ => rfl
      have hn : (t.cap .templateName).name = .templateName := rfl
      have hc : (t.cap .templateName).text = some t.text := rfl
      rcases hv with ⟨hv, rfl⟩ | ⟨hv, rfl⟩
      · rw [hv] at hr
        obtain ⟨h1, h2⟩ := open_again (.from_ Identifier.default []) (some hd.node) hr
        have a : s.check (hd.cap .from_) = some (s.openImport hd.node (.from_ Identifier.default []) (some hd.node)) := rfl
        refine ⟨{ s.openImport hd.node (.from_ Identifier.default []) (some hd.node) with
          imports := (s.openImport hd.node (.from_ Identifier.default []) (some hd.node)).imports.insert hd.node (.from_ (filled t) ids) }, ?_, ?_, h2⟩
        · simp only [List.cons_append, List.nil_append]
          rw [run, a]; simp only
          rw [run, b]; simp only
          rw [run]
          have hf : fillTemplate (filled t) (stripQuotes t.text) (t.cap .templateName).start (t.cap .templateName).stop = filled t := filled_again t
          simp only [check, hn, h2, h1.get, hc, hf]
        · rw [hv]; exact h1.set _ _ _
      · rw [hv] at hr
        obtain ⟨h1, h2⟩ := open_again (.import_ Identifier.default Identifier.default) (some hd.node) hr
        have a : s.check (hd.cap .import_) = some (s.openImport hd.node (.import_ Identifier.default Identifier.default) (some hd.node)) := rfl
        refine ⟨{ s.openImport hd.node (.import_ Identifier.default Identifier.default) (some hd.node) with
          imports := (s.openImport hd.node (.import_ Identifier.default Identifier.default) (some hd.node)).imports.insert hd.node (.import_ (filled t) i) }, ?_, ?_, h2⟩
        · simp only [List.cons_append, List.nil_append]
          rw [run, a]; simp only
          rw [run, b]; simp only
          rw [run]
          have hf : fillTemplate (filled t) (stripQuotes t.text) (t.cap .templateName).start (t.cap .templateName).stop = filled t := filled_again t
          simp only [check, hn, h2, h1.get, hc, hf]
        · rw [hv]; exact h1.set _ _ _
    have hv' : (∀ ids i, v (filled t) ids i = .from_ (filled t) ids) ∨ (∀ ids i, v (filled t) ids i = .import_ (filled t) i) := by
      rcases hv with ⟨hv, _⟩ | ⟨hv, _⟩
      · exact Or.inl (hv _)
      · exact Or.inr (hv _)
    obtain ⟨s4, ids4, i4, k1, k2, k3⟩ := run_extras (filled t) (v (filled t)) hv' m (hm m (by simp)) s3 ids i
      ((ms.flatMap fun m => [hd.cap n, kw.cap .other, t.cap .templateName] ++ m) ++ more) hids j2 (Or.inl j3)
    obtain ⟨s5, ids5, i5, q1, q2, q3⟩ := run_matches n hd kw t v hv ms (fun x hx => hm x (by simp [hx])) s4 ids4 i4 more k3 k2
    refine ⟨s5, ids5, i5, ?_, q2, q3⟩
    rw [List.flatMap_cons, List.append_assoc, List.append_assoc, j1, k1, q1]

theorem tplIdent_ref (t : Tok) : (tplIdent t).ref = t.ref := rfl
theorem filled_ref (t : Tok) : (filled t).ref = t.ref := rfl

/-- one statement adds its references -/
theorem run_stmt (s : JinjaImports) (st : ImpStmt) (more : List Capture) (hk : st.head.node ∉ s.imports.keys) (hm : st.extras ≠ [])
    (he : ∀ m ∈ st.extras, ∀ c ∈ m, (c.name = .importIdentifier ∨ c.name = .other) ∧ c.text ≠ none) :
    ∃ s', run s (st.caps ++ more) = run s' more ∧ s'.refs = st.names.map Tok.ref ++ s.refs ∧
      ∀ k ∈ s'.imports.keys, k = st.head.node ∨ k ∈ s.imports.keys := by
  have b : ∀ (kw : Tok) (x : JinjaImports), x.check (kw.cap .other) = some x := fun _ _ => rfl
  cases st with
  | «extends» hd kw t =>
    obtain ⟨h1, h2⟩ := open_new (.extends Identifier.default) none hk
    have a : s.check (hd.cap .extends) = some (s.openImport hd.node (.extends Identifier.default) none) := rfl
    have hr : Reading s hd.node (.extends (filled t)) ⟨(s.openImport hd.node (.extends Identifier.default) none).imports.insert hd.node (.extends (filled t)),
        (s.openImport hd.node (.extends Identifier.default) none).current, (s.openImport hd.node (.extends Identifier.default) none).lastId⟩ := h1.set _ _ _
    refine ⟨⟨(s.openImport hd.node (.extends Identifier.default) none).imports.insert hd.node (.extends (filled t)),
        (s.openImport hd.node (.extends Identifier.default) none).current, (s.openImport hd.node (.extends Identifier.default) none).lastId⟩, ?_, ?_, ?_⟩
    · simp only [ImpStmt.caps, List.cons_append, List.nil_append]
      rw [run, a]; simp only
      rw [run, b]; simp only
      rw [run]
      have hn : (t.cap .templateName).name = .templateName := rfl
      have hc : (t.cap .templateName).text = some t.text := rfl
      have h2' : (s.openImport hd.node (.extends Identifier.default) none).current = some hd.node := h2
      have hg : (s.openImport hd.node (.extends Identifier.default) none).imports.get? hd.node = _ := h1.get
      simp only [check, hn, h2', hg, hc]
      rfl
    · rw [hr.refs]; simp [ImpStmt.names, Import.collect, filled_eq, Identifier.ref, Tok.ref, stripQuotes]
    · intro k hk'; rw [hr.keys] at hk'; exact List.mem_cons.mp hk'
  | «include» hd kw names =>
    cases names with
    | nil => exact ⟨s, rfl, rfl, fun k hk' => Or.inr hk'⟩
    | cons t names =>
      obtain ⟨h1, h2⟩ := open_new (.include []) (some hd.node) hk
      have a : s.check (hd.cap .include) = some (s.openImport hd.node (.include []) (some hd.node)) := rfl
      have hr := h1.set (.include [tplIdent t]) (s.openImport hd.node (.include []) (some hd.node)).current (s.openImport hd.node (.include []) (some hd.node)).lastId
      obtain ⟨s', k1, k2⟩ := run_include_all hd kw names _ [tplIdent t] more hr
      refine ⟨s', ?_, ?_, ?_⟩
      · rw [← k1]
        simp only [ImpStmt.caps, List.flatMap_cons, List.cons_append, List.nil_append]
        rw [run, a]; simp only
        rw [run, b]; simp only
        rw [run]
        have hn : (t.cap .templateName).name = .templateName := rfl
        have hc : (t.cap .templateName).text = some t.text := rfl
        have h2' : (s.openImport hd.node (.include []) (some hd.node)).current = some hd.node := h2
        have hg : (s.openImport hd.node (.include []) (some hd.node)).imports.get? hd.node = _ := h1.get
        simp only [check, hn, h2', hg, hc]
        rfl
      · rw [k2.refs]
        have : ∀ l : List Tok, (l.map tplIdent).filter (fun i => i.idType = .jinjaTemplate) = l.map tplIdent := by
          intro l; rw [List.filter_eq_self]; intro x hx
          obtain ⟨y, _, rfl⟩ := List.mem_map.mp hx
          simp [tplIdent]
        have e : ([tplIdent t] ++ names.map tplIdent) = (t :: names).map tplIdent := rfl
        simp only [Import.collect, e, this, ImpStmt.names, List.map_map]
        rfl
      · intro k hk'; rw [k2.keys] at hk'; exact List.mem_cons.mp hk'
  | from_ hd kw t ms =>
    cases ms with
    | nil => exact absurd rfl hm
    | cons m ms =>
      obtain ⟨h1, h2⟩ := open_new (.from_ Identifier.default []) (some hd.node) hk
      have a : s.check (hd.cap .from_) = some (s.openImport hd.node (.from_ Identifier.default []) (some hd.node)) := rfl
      have hr := h1.set (.from_ (filled t) []) (s.openImport hd.node (.from_ Identifier.default []) (some hd.node)).current (s.openImport hd.node (.from_ Identifier.default []) (some hd.node)).lastId
      obtain ⟨s4, ids4, i4, k1, k2, k3⟩ := run_extras (filled t) (fun ids _ => .from_ (filled t) ids) (Or.inl fun _ _ => rfl) m (he m (by simp [ImpStmt.extras])) _ []
        Identifier.default ((ms.flatMap fun m => [hd.cap .from_, kw.cap .other, t.cap .templateName] ++ m) ++ more) (by simp) hr (Or.inl h2)
      obtain ⟨s5, ids5, i5, q1, q2, q3⟩ := run_matches .from_ hd kw t (fun x ids _ => .from_ x ids) (Or.inl ⟨fun _ _ _ => rfl, rfl⟩) ms
        (fun x hx => he x (by simp [ImpStmt.extras, hx])) s4 ids4 i4 more k3 k2
      refine ⟨s5, ?_, ?_, ?_⟩
      · rw [← q1, ← k1]
        simp only [ImpStmt.caps, List.flatMap_cons, List.cons_append, List.nil_append, List.append_assoc]
        rw [run, a]; simp only
        rw [run, b]; simp only
        rw [run]
        have hn : (t.cap .templateName).name = .templateName := rfl
        have hc : (t.cap .templateName).text = some t.text := rfl
        have h2' : (s.openImport hd.node (.from_ Identifier.default []) (some hd.node)).current = some hd.node := h2
        have hg : (s.openImport hd.node (.from_ Identifier.default []) (some hd.node)).imports.get? hd.node = _ := h1.get
        simp only [check, hn, h2', hg, hc]
        rfl
      · rw [q2.refs]
        have : ids5.filter (fun i => i.idType = .jinjaTemplate) = [] := by
          rw [List.filter_eq_nil_iff]; intro x hx; simpa using q3 x hx
        simp [Import.collect, ImpStmt.names, this, filled_eq, Identifier.ref, Tok.ref, stripQuotes]
      · intro k hk'; rw [q2.keys] at hk'; exact List.mem_cons.mp hk'
  | import_ hd kw t ms =>
    cases ms with
    | nil => exact absurd rfl hm
    | cons m ms =>
      obtain ⟨h1, h2⟩ := open_new (.import_ Identifier.default Identifier.default) (some hd.node) hk
      have a : s.check (hd.cap .import_) = some (s.openImport hd.node (.import_ Identifier.default Identifier.default) (some hd.node)) := rfl
      have hr := h1.set (.import_ (filled t) Identifier.default) (s.openImport hd.node (.import_ Identifier.default Identifier.default) (some hd.node)).current (s.openImport hd.node (.import_ Identifier.default Identifier.default) (some hd.node)).lastId
      obtain ⟨s4, ids4, i4, k1, k2, k3⟩ := run_extras (filled t) (fun _ i => .import_ (filled t) i) (Or.inr fun _ _ => rfl) m (he m (by simp [ImpStmt.extras])) _ []
        Identifier.default ((ms.flatMap fun m => [hd.cap .import_, kw.cap .other, t.cap .templateName] ++ m) ++ more) (by simp) hr (Or.inl h2)
      obtain ⟨s5, ids5, i5, q1, q2, q3⟩ := run_matches .import_ hd kw t (fun x _ i => .import_ x i) (Or.inr ⟨fun _ _ _ => rfl, rfl⟩) ms
        (fun x hx => he x (by simp [ImpStmt.extras, hx])) s4 ids4 i4 more k3 k2
      refine ⟨s5, ?_, ?_, ?_⟩
      · rw [← q1, ← k1]
        simp only [ImpStmt.caps, List.flatMap_cons, List.cons_append, List.nil_append, List.append_assoc]
        rw [run, a]; simp only
        rw [run, b]; simp only
        rw [run]
        have hn : (t.cap .templateName).name = .templateName := rfl
        have hc : (t.cap .templateName).text = some t.text := rfl
        have h2' : (s.openImport hd.node (.import_ Identifier.default Identifier.default) (some hd.node)).current = some hd.node := h2
        have hg : (s.openImport hd.node (.import_ Identifier.default Identifier.default) (some hd.node)).imports.get? hd.node = _ := h1.get
        simp only [check, hn, h2', hg, hc]
        rfl
      · rw [q2.refs]
        simp [Import.collect, ImpStmt.names, filled_eq, Identifier.ref, Tok.ref, stripQuotes]
      · intro k hk'; rw [q2.keys] at hk'; exact List.mem_cons.mp hk'

theorem run_stmts : ∀ (ss : List ImpStmt) (s : JinjaImports), ImpStmt.Wf ss → (∀ st ∈ ss, st.head.node ∉ s.imports.keys) →
    ((run s (ss.flatMap ImpStmt.caps)).refs).Perm (ImpStmt.refs ss ++ s.refs)
  | [], s, _, _ => List.Perm.refl _
  | st :: ss, s, h, hk => by
    have hn := h.nodes
    rw [List.map_cons, List.nodup_cons] at hn
    obtain ⟨s', h1, h2, h3⟩ := run_stmt s st (ss.flatMap ImpStmt.caps) (hk st (by simp)) (h.some_match st (by simp)) (h.extras st (by simp))
    have ih := run_stmts ss s' ⟨hn.2, fun x hx => h.some_match x (by simp [hx]), fun x hx => h.extras x (by simp [hx])⟩ (by
      intro x hx hmem
      rcases h3 _ hmem with e | e
      · exact hn.1 (List.mem_map.mpr ⟨x, hx, e⟩)
      · exact hk x (by simp [hx]) e)
    rw [List.flatMap_cons, h1]
    refine ih.trans ?_
    rw [h2]
    unfold ImpStmt.refs
    rw [List.flatMap_cons, List.append_assoc, ← List.append_assoc]
    refine (List.perm_append_comm.append_right _).trans ?_
    rw [List.append_assoc]

end JinjaImports

/-- the references collected from a document made of import statements -/
theorem refs_of_stmts (env : Env) (tree : Tree) (p : Point) (text : Str) (ss : List ImpStmt) (h : ImpStmt.Wf ss)
    (hc : (env.queryMatches .jinjaImports tree text).flatten = ss.flatMap ImpStmt.caps) (o : HashOrder) :
    ((((templatesQuery env tree p text true).collect o).filter fun i => i.idType = .jinjaTemplate).map Identifier.ref).Perm
      (ImpStmt.refs ss) := by
  have h1 := JinjaImports.run_stmts ss JinjaImports.default h (by intro st _ hh; cases hh)
  have h0 : JinjaImports.default.refs = [] := rfl
  rw [h0, List.append_nil] at h1
  unfold templatesQuery
  rw [selectCaptures_all, hc]
  refine List.Perm.trans ?_ h1
  unfold JinjaImports.collect JinjaImports.refs
  rw [List.filter_flatMap, List.map_flatMap]
  exact (o.perm 0 _).flatMap_right _

end JinjaLsp
