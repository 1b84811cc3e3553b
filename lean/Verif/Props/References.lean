import Verif.Props.Diagnostics
/-
  C27–C30: names defined in other files, references to templates and the files they stand for.
-/

namespace JinjaLsp
open Spec

/-! ## C27 -/

theorem readTree_inv {env : Env} {w : World} {f : LspFiles} {uri : Str} {ds : Diags} (he : fileExt uri = some .template)
    (h : f.readTree env w uri = .ok (some ds)) :
    ∃ text tree vars, f.documents.get? uri = some text ∧ (f.trees .template).get? uri = some tree ∧ f.variables.get? uri = some vars ∧
      ds = templateDiags env w f tree text vars := by
  cases hd : f.documents.get? uri with
  | none => unfold LspFiles.readTree at h; rw [hd] at h; cases h
  | some text =>
    cases ht : (f.trees .template).get? uri with
    | none => unfold LspFiles.readTree at h; simp only [hd, he, ht] at h; cases h
    | some tree =>
      cases hv : f.variables.get? uri with
      | none => rw [readTree_template_none he hv] at h; cases h
      | some vars =>
        rw [readTree_template he hd ht hv] at h
        cases h
        exact ⟨text, tree, vars, rfl, rfl, rfl, rfl⟩

/-- what was sent after opening or saving is the analysis of the new workspace -/
theorem analyses_inv {env : Env} {w : World} {s s' : Server} {uri : Str} {m : Msg} {out : List Send} {r : Reply} {ds : Diags}
    {l : LangType} (hm : m.Analyses uri) (he : fileExt uri = some l) (h : s.handle env w m = .ok (s', out, r))
    (ho : out = [.diag (HMap.empty.insert uri ds)]) :
    s'.files.readTree env w uri = .ok (some ds) ∨ (s'.files.readTree env w uri = .ok none ∧ ds = []) := by
  cases hm with
  | opened t =>
    simp only [Server.handle] at h
    split at h
    · cases h
    · rename_i f msg hf
      simp only [Except.ok.injEq, Prod.mk.injEq] at h
      obtain ⟨rfl, h, _⟩ := h
      obtain ⟨_, v, h2, h3⟩ := LspFiles.didOpen_inv he hf
      cases v with
      | none => rw [h3] at h; rw [← h] at ho; cases ho
      | some ds' =>
        rw [h3] at h; rw [← h] at ho
        injection ho with ho
        injection ho with ho
        have : [(uri, ds')] = [(uri, ds)] := congrArg HMap.entries ho
        cases this
        exact Or.inl h2
  | saved =>
    simp only [Server.handle] at h
    split at h
    · cases h
    · rename_i f msg hf
      simp only [Except.ok.injEq, Prod.mk.injEq] at h
      obtain ⟨rfl, h, _⟩ := h
      cases hd : s.files.documents.get? uri with
      | none =>
        unfold LspFiles.didSave at hf
        simp only [he, hd] at hf
        cases hf; rw [← h] at ho; cases ho
      | some c =>
        obtain ⟨_, v, h2, h3⟩ := LspFiles.didSave_inv he hd hf
        rw [h3] at h; rw [← h] at ho
        injection ho with ho
        injection ho with ho
        have : [(uri, v.getD [])] = [(uri, ds)] := congrArg HMap.entries ho
        cases v with
        | none => cases this; exact Or.inr ⟨h2, rfl⟩
        | some ds' => cases this; exact Or.inl h2

/-- **C27** (part) A use reported as defined somewhere has a name that some other file's table holds — or this file has a block of that name.
Missing: the table of the other file may hold the name as a block or as the name of a template (`C27_own_block_refuted`,
`C27_template_name_refuted`). -/
theorem C27_known_partial (env : Env) (w : World) (s s' : Server) (m : Msg) (uri : Str) (out : List Send) (r : Reply) (ds : Diags)
    (hm : m.Analyses uri) (he : fileExt uri = some .template) (h : s.handle env w m = .ok (s', out, r))
    (ho : out = [.diag (HMap.empty.insert uri ds)]) (d : JinjaDiagnostic × Identifier) (hd : d ∈ ds) (hk : d.1 = .definedSomewhere) :
    ∃ file vs v, s'.files.variables.get? file = some vs ∧ v ∈ vs ∧ v.name = d.2.name ∧ (file ≠ uri ∨ v.idType = .templateBlock) := by
  rcases analyses_inv hm he h ho with h1 | ⟨_, rfl⟩
  case inr => cases hd
  obtain ⟨text, tree, vars, _, _, hv, rfl⟩ := readTree_inv he h1
  have hmem : d ∈ (usesIn env tree text).filterMap (objectDiag w.order s'.files.variables vars s'.files.ignoreGlobals) := by
    rw [← templateDiags_uses]
    exact List.mem_filter.mpr ⟨hd, by simp [hk]⟩
  obtain ⟨obj, _, hobj⟩ := List.mem_filterMap.mp hmem
  cases hig : s'.files.ignoreGlobals with
  | true => rw [hig, objectDiag_ignore] at hobj; cases hobj
  | false =>
    rw [hig, objectDiag_eq] at hobj
    unfold verdict at hobj
    split at hobj
    · cases hobj
    · split at hobj
      · cases hobj
      · split at hobj
        · cases hobj; cases hk
        · rename_i hnone
          split at hobj
          · rename_i hkn
            cases hobj
            obtain ⟨u, vs, h2, v, hvv, hn⟩ := (mem_knownNames _ _).mp hkn
            refine ⟨u, vs, v, h2, hvv, hn, ?_⟩
            by_cases hu : u = uri
            · subst hu
              rw [hv] at h2; cases h2
              right
              apply Decidable.byContradiction
              intro hb
              exact hnone ⟨v.binding, List.mem_map.mpr ⟨v, hvv, rfl⟩, hn, hb⟩
            · exact Or.inl hu
          · cases hobj; cases hk

/-- the hypotheses of `C27_known_partial` hold, with a use so reported -/
example : ∃ s' r ds d, Fix.serverZ.handle (Fix.docEnv Fix.tpl Fix.uses []) Fix.world (.didSave Fix.uriA) =
      .ok (s', [.diag (HMap.empty.insert Fix.uriA ds)], r) ∧ d ∈ ds ∧ d.1 = .definedSomewhere ∧ d.2.name = c!"z" :=
  ⟨_, _, _, (.definedSomewhere, Identifier.new c!"z" ⟨8, 3⟩ ⟨8, 4⟩), rfl, by decide, rfl, rfl⟩

/-- how a use of a name is reported that the file binds at most as a block -/
theorem report_unbound (env : Env) (w : World) (s s' : Server) (m : Msg) (uri : Str) (out : List Send) (r : Reply)
    (vars : List Identifier) (uses : List JinjaObject) (hm : m.Analyses uri) (he : fileExt uri = some .template)
    (hig : s.files.ignoreGlobals = false) (h : s.handle env w m = .ok (s', out, r))
    (hu : s'.files.readObjects env uri = .ok (some uses)) (hv : s'.files.variables.get? uri = some vars)
    (u : JinjaObject) (huse : u ∈ uses) (hft : u.isFilter = false ∧ u.isTest = false)
    (hno : ∀ v ∈ vars, v.name = u.name → v.idType = .templateBlock)
    (hkn : (∃ v ∈ vars, v.name = u.name) ∨ u.name ∈ knownElsewhere s.files.variables uri) :
    ∃ ds, out = [.diag (HMap.empty.insert uri ds)] ∧ (⟨.definedSomewhere, u.name, u.location.1, u.location.2⟩ : Report) ∈ useDiags ds := by
  obtain ⟨ds, h1, h2⟩ := C25_reports_partial env w s s' m uri out r vars uses hm he hig h hu hv
  refine ⟨ds, h1, ?_⟩
  rw [h2]
  unfold useReports
  refine List.mem_filterMap.mpr ⟨u.info, List.mem_map.mpr ⟨u, huse, rfl⟩, ?_⟩
  have hver : verdict (vars.map Identifier.binding)
      ((vars.map Identifier.binding).map (·.name) ++ knownElsewhere s.files.variables uri) u.info = some .definedSomewhere := by
    unfold verdict
    have a1 : ¬ (u.info.filter = true ∨ u.info.test = true) := by
      show ¬ (u.isFilter = true ∨ u.isTest = true)
      simp [hft.1, hft.2]
    have a3 : ¬ ∃ b ∈ vars.map Identifier.binding, b.name = u.info.name ∧ b.kind ≠ .templateBlock := by
      rintro ⟨b, hb, hn, hk⟩
      obtain ⟨v, hvv, rfl⟩ := List.mem_map.mp hb
      exact hk (hno v hvv hn)
    have a2 : ¬ ∃ b ∈ vars.map Identifier.binding, b.VisibleAt u.info := by
      rintro ⟨b, hb, hvis⟩
      exact a3 ⟨b, hb, hvis.1, hvis.2.1⟩
    have a4 : u.info.name ∈ (vars.map Identifier.binding).map (·.name) ++ knownElsewhere s.files.variables uri := by
      rcases hkn with ⟨v, hvv, hn⟩ | hkn
      · exact List.mem_append.mpr (Or.inl (List.mem_map.mpr ⟨v.binding, List.mem_map.mpr ⟨v, hvv, rfl⟩, hn⟩))
      · exact List.mem_append.mpr (Or.inr hkn)
    rw [if_neg a1, if_neg a2, if_neg a3, if_pos a4]
  rw [hver]
  rfl

/-- **C27 is false for block names**: a use of the name of a block of the same file is reported as defined in another file, although
no other file knows the name. -/
theorem C27_own_block_refuted (env : Env) (w : World) (s s' : Server) (m : Msg) (uri : Str) (out : List Send) (r : Reply)
    (vars : List Identifier) (uses : List JinjaObject) (hm : m.Analyses uri) (he : fileExt uri = some .template)
    (hig : s.files.ignoreGlobals = false) (h : s.handle env w m = .ok (s', out, r))
    (hu : s'.files.readObjects env uri = .ok (some uses)) (hv : s'.files.variables.get? uri = some vars)
    (u : JinjaObject) (huse : u ∈ uses) (hft : u.isFilter = false ∧ u.isTest = false)
    (hno : ∀ v ∈ vars, v.name = u.name → v.idType = .templateBlock) (hblock : ∃ v ∈ vars, v.name = u.name)
    (hother : u.name ∉ knownElsewhere s.files.variables uri) :
    u.name ∉ knownElsewhere s'.files.variables uri ∧
    ∃ ds, out = [.diag (HMap.empty.insert uri ds)] ∧ (⟨.definedSomewhere, u.name, u.location.1, u.location.2⟩ : Report) ∈ useDiags ds := by
  refine ⟨?_, report_unbound env w s s' m uri out r vars uses hm he hig h hu hv u huse hft hno (Or.inl hblock)⟩
  have hf : Frame uri s.files s'.files := by
    cases handle_files h with
    | query hq => cases hm <;> cases hq
    | didOpen u' t m' hh => cases hm; exact Frame.didOpen hh
    | didSave u' m' hh => cases hm; exact Frame.didSave hh
    | _ => cases hm
  intro hmem
  obtain ⟨f', vs, hne, h1, v, h2, h3⟩ := (mem_knownElsewhere ..).mp hmem
  exact hother ((mem_knownElsewhere ..).mpr ⟨f', vs, hne, by rw [← (hf.same f' hne).vars]; exact h1, v, h2, h3⟩)

namespace Fix

/-- `{% block content %}{% endblock %}` and `{{ content }}` -/
def blockTpl : Tpl :=
  .blk (dl 0 0 16) (.block (tok 0 3 8 c!"block" 1) (tok 0 9 16 c!"content" 2) []) .nil (dl 1 0 12) (tok 1 3 11 c!"endblock" 3) [] .nil

def blockUse : List Elem := [.use ⟨.«variable», tok 2 3 10 c!"content" 50, []⟩]

end Fix

/-- the hypotheses of `C27_own_block_refuted` hold -/
example : ∃ s' out r, Fix.server.handle (Fix.docEnv Fix.blockTpl Fix.blockUse []) Fix.world (.didOpen Fix.uriA []) = .ok (s', out, r) ∧
    ∃ vars uses, s'.files.readObjects (Fix.docEnv Fix.blockTpl Fix.blockUse []) Fix.uriA = .ok (some uses) ∧
      s'.files.variables.get? Fix.uriA = some vars ∧ ∃ u ∈ uses, (u.isFilter = false ∧ u.isTest = false) ∧
        (∀ v ∈ vars, v.name = u.name → v.idType = .templateBlock) ∧ (∃ v ∈ vars, v.name = u.name) ∧
        u.name ∉ knownElsewhere Fix.server.files.variables Fix.uriA :=
  ⟨_, _, _, rfl, _, _, rfl, rfl, _, List.mem_singleton.mpr rfl, by decide, by decide, by decide, by decide⟩

/-- **C27 is false for template names**: if a backend file only renders a template of that name, a use of the name is reported as defined
in another file, although no file defines it. -/
theorem C27_template_name_refuted (env : Env) (w : World) (s s' : Server) (m : Msg) (uri : Str) (out : List Send) (r : Reply)
    (vars : List Identifier) (uses : List JinjaObject) (hm : m.Analyses uri) (he : fileExt uri = some .template)
    (hig : s.files.ignoreGlobals = false) (h : s.handle env w m = .ok (s', out, r))
    (hu : s'.files.readObjects env uri = .ok (some uses)) (hv : s'.files.variables.get? uri = some vars)
    (u : JinjaObject) (huse : u ∈ uses) (hft : u.isFilter = false ∧ u.isTest = false)
    (hno : ∀ v ∈ vars, v.name ≠ u.name)
    (hdef : ∀ f vs v, s.files.variables.get? f = some vs → v ∈ vs → v.name = u.name → v.idType = .jinjaTemplate)
    (href : ∃ f vs v, f ≠ uri ∧ s.files.variables.get? f = some vs ∧ v ∈ vs ∧ v.name = u.name) :
    (∀ f vs v, s'.files.variables.get? f = some vs → v ∈ vs → v.name = u.name → v.idType = .jinjaTemplate) ∧
    ∃ ds, out = [.diag (HMap.empty.insert uri ds)] ∧ (⟨.definedSomewhere, u.name, u.location.1, u.location.2⟩ : Report) ∈ useDiags ds := by
  obtain ⟨f0, vs0, v0, g1, g2, g3, g4⟩ := href
  refine ⟨?_, report_unbound env w s s' m uri out r vars uses hm he hig h hu hv u huse hft (fun v h1 h2 => absurd h2 (hno v h1))
    (Or.inr ((mem_knownElsewhere ..).mpr ⟨f0, vs0, g1, g2, v0, g3, g4⟩))⟩
  have hf : Frame uri s.files s'.files := by
    cases handle_files h with
    | query hq => cases hm <;> cases hq
    | didOpen u' t m' hh => cases hm; exact Frame.didOpen hh
    | didSave u' m' hh => cases hm; exact Frame.didSave hh
    | _ => cases hm
  intro f vs v h1 h2 h3
  by_cases hfu : f = uri
  · subst hfu; rw [hv] at h1; cases h1; exact absurd h3 (hno v h2)
  · exact hdef f vs v (by rw [← (hf.same f hfu).vars]; exact h1) h2 h3

namespace Fix

/-- a backend file renders the template `z` -/
def serverRef : Server := { server with files := { files with
  variables := (HMap.empty.insert uriA []).insert c!"file:///m.rs" [{ Identifier.new c!"z" ⟨0, 7⟩ ⟨0, 8⟩ with idType := .jinjaTemplate }] } }

def zUse : List Elem := [.use ⟨.«variable», tok 2 3 4 c!"z" 50, []⟩]

end Fix

/-- the hypotheses of `C27_template_name_refuted` hold -/
example : ∃ s' out r, Fix.serverRef.handle (Fix.docEnv .nil Fix.zUse []) Fix.world (.didSave Fix.uriA) = .ok (s', out, r) ∧
    ∃ uses, s'.files.readObjects (Fix.docEnv .nil Fix.zUse []) Fix.uriA = .ok (some uses) ∧
      s'.files.variables.get? Fix.uriA = some [] ∧ ∃ u ∈ uses, u.name = c!"z" ∧ (u.isFilter = false ∧ u.isTest = false) :=
  ⟨_, _, _, rfl, _, rfl, rfl, _, List.mem_singleton.mpr rfl, rfl, by decide⟩

/-! ## C28 -/

/-- **C28** (part: templates) After a template was opened or saved, the references reported as not found are exactly those with an empty
name and those for whose path the file system says that it does not exist.
Missing: look-ups that fail in another way (`C28_other_error_refuted`). -/
theorem C28_template_partial (env : Env) (w : World) (s s' : Server) (m : Msg) (uri : Str) (out : List Send) (r : Reply)
    (text : Str) (tree : Tree) (vars : List Identifier) (ss : List ImpStmt) (hm : m.Analyses uri) (he : fileExt uri = some .template)
    (h : s.handle env w m = .ok (s', out, r)) (hd : s'.files.documents.get? uri = some text)
    (ht : (s'.files.trees .template).get? uri = some tree) (hv : s'.files.variables.get? uri = some vars)
    (hss : ImpStmt.Wf ss) (hc : (env.queryMatches .jinjaImports tree text).flatten = ss.flatMap ImpStmt.caps) :
    ∃ ds, out = [.diag (HMap.empty.insert uri ds)] ∧
      (missingDiags ds).Perm (refReports w s.files.config.templates true (ImpStmt.refs ss)) := by
  obtain ⟨h1, h2⟩ := analyses_template hm he h hd ht hv
  refine ⟨_, h1, ?_⟩
  unfold missingDiags
  rw [templateDiags_refs, refReports_import, h2.conf.conf]
  exact refReports_perm _ _ _ (refs_of_stmts env tree Point.zero text ss hss hc w.order)

/-- **C28** (part: backend files) After a backend file was opened, the diagnostics are exactly: the first string arguments of calls that
take a template name, for whose path the file system says that it does not exist.  Missing: as above. -/
theorem C28_backend_partial (env : Env) (w : World) (s s' : Server) (uri text : Str) (out : List Send) (r : Reply) (ms : List Capture)
    (he : fileExt uri = some .backend)
    (hp : env.parseFails s.files.parserBackend text ((s.files.trees .backend).get? uri) = false)
    (hms : (env.queryMatches (.backendTemplates s.files.queriesBackend)
      (.parsed s.files.parserBackend text ((s.files.trees .backend).get? uri)) text).flatten = ms)
    (htext : ∀ c ∈ ms, c.text ≠ none)
    (htext' : ∀ c ∈ (env.queryMatches (.backendDefinitions s.files.queriesBackend)
      (.parsed s.files.parserBackend text ((s.files.trees .backend).get? uri)) text).flatten, c.text ≠ none)
    (h : s.handle env w (.didOpen uri text) = .ok (s', out, r)) :
    ∃ (ds : Diags) (refs : List Capture), out = [.diag (HMap.empty.insert uri ds)] ∧
      (∀ t, t ∈ refs ↔ Spec.FirstArgument ms t) ∧ refs.Sublist (ms.filter fun c => c.name = .templateName) ∧
      ds.map report = refReports w s.files.config.templates false
        ((refs.map Spec.refers).map fun x => ⟨x.1, x.2.1, x.2.2⟩) := by
  obtain ⟨vars, refs, h1, h2, h3, h4, _⟩ := C23_template_references env w s s' uri text out r ms he hp hms htext htext' h
  have hm : (Msg.didOpen uri text).Analyses uri := .opened text
  simp only [Server.handle] at h
  split at h
  · cases h
  · rename_i f msg hf
    simp only [Except.ok.injEq, Prod.mk.injEq] at h
    obtain ⟨rfl, h, _⟩ := h
    obtain ⟨ha, v, hr, hmsg⟩ := LspFiles.didOpen_inv he hf
    have hframe := Frame.didOpen hf
    have ht := LspFiles.openBase_tree (f := s.files) (n := uri) (l := .backend) hp
    have hdoc := LspFiles.openBase_document env s.files uri text .backend
    rw [LspFiles.addVariables_backend ht] at ha
    injection ha with ha
    have hdoc' : f.documents.get? uri = some text := by rw [← ha]; exact hdoc
    have ht' : (f.trees .backend).get? uri =
        some (.parsed (s.files.grammar .backend) text ((s.files.trees .backend).get? uri)) := by rw [← ha]; exact ht
    rw [readTree_backend he hdoc' ht' h1] at hr
    cases hr
    refine ⟨(vars.filter fun i => i.idType = .jinjaTemplate).filterMap (backendDiag w f.config.templates), refs, ?_, h4, h3, ?_⟩
    · rw [← h, hmsg]; rfl
    · rw [refReports_backend, ← h2, hframe.conf.conf]
      congr 1
      rw [List.map_map]
      rfl

/-- **C28 is false for look-ups that fail otherwise** (a path through a file, a directory without permission, …): such a reference is
not reported, although nothing exists at its path. -/
theorem C28_other_error_refuted (env : Env) (w : World) (s s' : Server) (m : Msg) (uri : Str) (out : List Send) (r : Reply)
    (text : Str) (tree : Tree) (vars : List Identifier) (ss : List ImpStmt) (hm : m.Analyses uri) (he : fileExt uri = some .template)
    (h : s.handle env w m = .ok (s', out, r)) (hd : s'.files.documents.get? uri = some text)
    (ht : (s'.files.trees .template).get? uri = some tree) (hv : s'.files.variables.get? uri = some vars)
    (hss : ImpStmt.Wf ss) (hc : (env.queryMatches .jinjaImports tree text).flatten = ss.flatMap ImpStmt.caps)
    (x : Ref) (_hx : x ∈ ImpStmt.refs ss) (hne : x.name ≠ [])
    (hfail : w.canonicalize (lookupPath s.files.config.templates x.name) = .error .other) :
    ∃ ds, out = [.diag (HMap.empty.insert uri ds)] ∧ ∀ d ∈ missingDiags ds, d.name ≠ x.name := by
  obtain ⟨ds, h1, h2⟩ := C28_template_partial env w s s' m uri out r text tree vars ss hm he h hd ht hv hss hc
  refine ⟨ds, h1, ?_⟩
  intro d hmem hname
  have := h2.mem_iff.mp hmem
  unfold refReports at this
  obtain ⟨y, hy, rfl⟩ := List.mem_map.mp this
  have hy' := (List.mem_filter.mp hy).2
  simp only at hname
  simp only [hname, hne, decide_false, Bool.and_false, Bool.false_or, decide_eq_true_eq] at hy'
  unfold Absent at hy'
  rw [hfail] at hy'
  cases hy'

namespace Fix

/-- `{% extends "base.html" %}` and `{% include ["a.html", "", "x/y.html"] %}` -/
def imports : List ImpStmt :=
  [.extends (tok 0 0 25 [] 30) (tok 0 3 10 c!"extends" 31) (tok 0 11 22 c!"\"base.html\"" 32),
   .include (tok 1 0 48 [] 40) (tok 1 3 10 c!"include" 41)
    [tok 1 12 20 c!"\"a.html\"" 42, tok 1 22 24 c!"\"\"" 43, tok 1 26 36 c!"\"x/y.html\"" 44]]

theorem imports_wf : ImpStmt.Wf imports := ⟨by decide, by decide, by decide⟩

/-- `base.html` exists, the look-up of `x/y.html` fails, everything else does not exist -/
def someWorld : World :=
  let look : Str → Except IoErr Str := fun p =>
    if p = c!"/base.html" then .ok p else if p = c!"/x/y.html" then .error .other else .error .notFound
  { world with canonicalize := look }

/-- the workspace, with the templates in the root directory -/
def rootServer : Server := { server with files := { files with config := { files.config with templates := c!"/" } } }

def importsEnv : Env := docEnv .nil [] (imports.flatMap ImpStmt.caps)

end Fix

/-- what is to be reported -/
example : refReports Fix.someWorld c!"/" true (ImpStmt.refs Fix.imports) =
    [⟨.templateNotFound, c!"a.html", ⟨1, 12⟩, ⟨1, 20⟩⟩, ⟨.templateNotFound, [], ⟨1, 22⟩, ⟨1, 24⟩⟩] := by decide

/-- the hypotheses of `C28_template_partial` and `C28_other_error_refuted` hold for it -/
example : ∃ s' out r vars tree, Fix.rootServer.handle Fix.importsEnv Fix.someWorld (.didOpen Fix.uriA []) = .ok (s', out, r) ∧
    s'.files.documents.get? Fix.uriA = some [] ∧ (s'.files.trees .template).get? Fix.uriA = some tree ∧
    s'.files.variables.get? Fix.uriA = some vars ∧
    (Fix.importsEnv.queryMatches .jinjaImports tree []).flatten = Fix.imports.flatMap ImpStmt.caps ∧
    ⟨c!"x/y.html", ⟨1, 26⟩, ⟨1, 36⟩⟩ ∈ ImpStmt.refs Fix.imports ∧
    Fix.someWorld.canonicalize (lookupPath Fix.rootServer.files.config.templates c!"x/y.html") = .error .other :=
  ⟨_, _, _, _, _, rfl, rfl, rfl, rfl, Fix.docEnv_imports .., by decide, rfl⟩

/-- the hypotheses of `C28_backend_partial` hold for a file with two calls -/
example : ∃ (env : Env) (ms : List Capture), (∀ tree, (env.queryMatches (.backendTemplates .rust) tree []).flatten = ms) ∧
    (∀ c ∈ ms, c.text ≠ none) ∧
    refReports Fix.emptyWorld c!"./" false (((callArgs false ms).map Spec.refers).map fun x => ⟨x.1, x.2.1, x.2.2⟩) =
      [⟨.templateNotFound, c!"a.html", ⟨0, 13⟩, ⟨0, 21⟩⟩] ∧
    ∃ s' out r, Fix.server.handle env Fix.emptyWorld (.didOpen c!"file:///main.rs" []) = .ok (s', out, r) :=
  ⟨Fix.envWith (.backendTemplates .rust) [(Fix.tok 0 0 12 c!"get_template" 1).cap .methodName,
      (Fix.tok 0 13 21 c!"\"a.html\"" 2).cap .templateName, (Fix.tok 0 23 31 c!"\"b.html\"" 3).cap .templateName,
      (Fix.tok 1 0 6 c!"format" 4).cap .methodName, (Fix.tok 1 13 21 c!"\"x.html\"" 5).cap .templateName],
    _, fun tree => Fix.envWith_caps .., by decide, by decide, _, _, _, rfl⟩

/-! ## C29 -/

/-- the path consists of the directory followed by further components; in particular it is absolute only if the directory is -/
def Below (dir p : Str) : Prop :=
  dir <+: p ∧ (∃ ss, segments p = segments dir ++ ss) ∧ (p.head? = some '/' → dir.head? = some '/')

theorem below_lookupPath (dir name : Str) : Below dir (lookupPath dir name) := by
  refine ⟨?_, ⟨_, segments_lookupPath dir name⟩, ?_⟩
  · unfold lookupPath; split <;> exact List.prefix_append _ _
  · intro h
    unfold lookupPath at h
    cases dir with
    | nil => simp only [true_or, if_true, List.nil_append] at h; exact absurd h (relative_head name)
    | cons c d => split at h <;> simpa using h

theorem importDiag_congr {w w' : World} {dir : Str} (h : ∀ name, w'.canonicalize (lookupPath dir name) = w.canonicalize (lookupPath dir name)) :
    importDiag w' dir = importDiag w dir := by
  funext i
  have : Absent w' dir i.name ↔ Absent w dir i.name := by unfold Absent; rw [h]
  simp only [importDiag_eq, this]

theorem backendDiag_congr {w w' : World} {dir : Str} (h : ∀ name, w'.canonicalize (lookupPath dir name) = w.canonicalize (lookupPath dir name)) :
    backendDiag w' dir = backendDiag w dir := by
  funext i
  have : Absent w' dir i.name ↔ Absent w dir i.name := by unfold Absent; rw [h]
  simp only [backendDiag_eq, this]

theorem readTree_congr {env : Env} {w w' : World} {f : LspFiles} (uri : Str) (ho : w'.order = w.order)
    (h : ∀ name, w'.canonicalize (lookupPath f.config.templates name) = w.canonicalize (lookupPath f.config.templates name)) :
    f.readTree env w' uri = f.readTree env w uri := by
  unfold LspFiles.readTree searchErrors
  simp only [ho, importDiag_congr h, backendDiag_congr h]

/-- **C29** Opening or saving a document, in a template or a backend file, looks up nothing but paths made of the templates directory
followed by the components of a name: two file systems that agree on those paths give the same result. -/
theorem C29_looks_below (env : Env) (w w' : World) (s : Server) (m : Msg) (uri : Str) (hm : m.Analyses uri) (ho : w'.order = w.order)
    (hagree : ∀ p, Below s.files.config.templates p → w'.canonicalize p = w.canonicalize p) :
    s.handle env w' m = s.handle env w m := by
  have key : ∀ f : LspFiles, f.config = s.files.config → f.readTree env w' uri = f.readTree env w uri := by
    intro f hf
    refine readTree_congr uri ho ?_
    intro name
    rw [hf]
    exact hagree _ (below_lookupPath _ name)
  cases hm with
  | opened t =>
    have : s.files.didOpen env w' uri t false = s.files.didOpen env w uri t false := by
      unfold LspFiles.didOpen
      split
      · rfl
      · simp only [Bool.false_eq_true, if_false]
        split
        · rfl
        · rename_i f3 h3
          have hc : f3.config = s.files.config := by
            have h1 := (Frame.addVariables h3).conf.conf
            rw [h1, (Frame.addTree ..).conf.conf]
            exact (Frame.deleteVariables ..).conf.conf
          rw [key f3 hc]
    simp only [Server.handle, this]
  | saved =>
    have : s.files.didSave env w' uri = s.files.didSave env w uri := by
      unfold LspFiles.didSave
      split
      · rfl
      · split
        · rfl
        · split
          · rfl
          · rename_i f1 h1
            have hc : f1.config = s.files.config := by
              rw [(Frame.addVariables h1).conf.conf]
              exact (Frame.deleteVariables ..).conf.conf
            rw [key f1 hc]
    simp only [Server.handle, this]

/-- **C29** The path checked for a name has the components of the templates directory followed by the components of the name; it extends
the directory, so a leading slash in the name never makes it absolute. -/
theorem C29_checked_path (dir name : Str) :
    segments (checkedPath dir name) = segments dir ++ segments name ∧ Below dir (checkedPath dir name) := by
  rw [checkedPath_eq]
  exact ⟨segments_lookupPath dir name, below_lookupPath dir name⟩

example : checkedPath c!"./templates" c!"/etc/passwd" = c!"./templates/etc/passwd" := by decide

/-- a file system that differs only outside the directory -/
example : ∃ w' : World, w'.order = Fix.world.order ∧ w'.canonicalize c!"/etc/passwd" ≠ Fix.world.canonicalize c!"/etc/passwd" ∧
    ∀ p, Below c!"./" p → w'.canonicalize p = Fix.world.canonicalize p := by
  refine ⟨{ Fix.world with canonicalize := fun p => if p.head? = some '/' then .error .notFound else .ok p }, rfl, ?_, ?_⟩
  · simp [Fix.world]
  · intro p hp
    have : p.head? ≠ some '/' := fun hh => by have := hp.2.2 hh; simp at this
    simp [Fix.world, this]

/-! ## C30 -/

/-- **C30** (part) After a template was opened or saved without reporting the name of a reference as missing, goto-definition on that name
opens the file that was looked up — provided the name is written as a plain relative path without quotes inside.
Missing: other names (`C30_absolute_refuted`), look-ups that fail otherwise than with "not found". -/
theorem C30_plain_partial (env : Env) (w : World) (s s' : Server) (m : Msg) (uri : Str) (out : List Send) (r : Reply)
    (text : Str) (tree : Tree) (vars : List Identifier) (ss : List ImpStmt) (ds : Diags) (hm : m.Analyses uri)
    (he : fileExt uri = some .template) (h : s.handle env w m = .ok (s', out, r)) (hd : s'.files.documents.get? uri = some text)
    (ht : (s'.files.trees .template).get? uri = some tree) (hv : s'.files.variables.get? uri = some vars)
    (hss : ImpStmt.Wf ss) (hc : (env.queryMatches .jinjaImports tree text).flatten = ss.flatMap ImpStmt.caps)
    (ho : out = [.diag (HMap.empty.insert uri ds)])
    (pos : Position) (hq : Quiet (env.queryMatches .jinjaObjects tree text).flatten (toPoint pos))
    (before rest : List Capture) (x : ImpStmt) (t : Tok) (hx : x ∈ ss)
    (hon : OnName (env.queryMatches .jinjaImports tree text).flatten before x t rest (toPoint pos))
    (name : Str) (hraw : Quoted t.text name) (hplain : ∀ c ∈ name, c ≠ '"' ∧ c ≠ '\'') (hpath : Plain name)
    (hnot : ∀ d ∈ missingDiags ds, d.name ≠ name)
    (hother : w.canonicalize (lookupPath s.files.config.templates name) ≠ .error .other) :
    ∃ target, w.canonicalize (lookupPath s.files.config.templates name) = .ok target ∧
      ∀ url, env.urlParse (c!"file://" ++ target) = some url →
        s'.files.gotoDefinition env w uri pos = .ok (some (.scalar ⟨url, ⟨⟨0, 0⟩, ⟨0, 0⟩⟩⟩)) := by
  obtain ⟨ds', h1, h2⟩ := C28_template_partial env w s s' m uri out r text tree vars ss hm he h hd ht hv hss hc
  have hds : ds' = ds := by
    rw [h1] at ho
    injection ho with ho
    injection ho with ho
    have : [(uri, ds')] = [(uri, ds)] := congrArg HMap.entries ho
    cases this; rfl
  subst hds
  have hstrip : t.text.filter (fun c => c ≠ '"' && c ≠ '\'') = name := by
    have e := stripQuotes_quoted hraw
    rw [stripQuotes_of_plain hplain] at e
    exact e
  have hmem : t.ref ∈ ImpStmt.refs ss := by
    unfold ImpStmt.refs
    exact List.mem_flatMap.mpr ⟨x, hx, List.mem_map.mpr ⟨t, hon.name, rfl⟩⟩
  have hname : t.ref.name = name := hstrip
  have hex : ¬ Absent w s.files.config.templates name := by
    intro ha
    have : (⟨.templateNotFound, t.ref.name, t.ref.start, t.ref.stop⟩ : Report) ∈ refReports w s.files.config.templates true (ImpStmt.refs ss) := by
      unfold refReports
      refine List.mem_map.mpr ⟨t.ref, List.mem_filter.mpr ⟨hmem, ?_⟩, rfl⟩
      simp only [Bool.true_and, Bool.or_eq_true, decide_eq_true_eq]
      rw [hname]; exact Or.inr ha
    exact hnot _ (h2.mem_iff.mpr this) hname
  have hconf : s'.files.config = s.files.config := (analyses_template hm he h hd ht hv).2.conf.conf
  cases hcan : w.canonicalize (lookupPath s.files.config.templates name) with
  | error e =>
    cases e with
    | notFound => exact absurd hcan hex
    | other => exact absurd hcan hother
  | ok target =>
    refine ⟨target, rfl, ?_⟩
    intro url hurl
    refine C21_goto_partial env w s'.files uri tree text pos he hd ht hq before rest x t hon name target url hraw hplain ?_ hurl
    rw [hconf, pathPush_plain _ hpath]
    exact hcan

/-- **C30 is false for names that start with a slash**: the name is looked up below the templates directory, and therefore not reported,
but goto-definition opens the absolute path. -/
theorem C30_absolute_refuted (env : Env) (w : World) (s s' : Server) (m : Msg) (uri : Str) (out : List Send) (r : Reply)
    (text : Str) (tree : Tree) (vars : List Identifier) (ss : List ImpStmt) (hm : m.Analyses uri)
    (he : fileExt uri = some .template) (h : s.handle env w m = .ok (s', out, r)) (hd : s'.files.documents.get? uri = some text)
    (ht : (s'.files.trees .template).get? uri = some tree) (hv : s'.files.variables.get? uri = some vars)
    (hss : ImpStmt.Wf ss) (hc : (env.queryMatches .jinjaImports tree text).flatten = ss.flatMap ImpStmt.caps)
    (pos : Position) (hq : Quiet (env.queryMatches .jinjaObjects tree text).flatten (toPoint pos))
    (before rest : List Capture) (x : ImpStmt) (t : Tok)
    (hon : OnName (env.queryMatches .jinjaImports tree text).flatten before x t rest (toPoint pos))
    (name : Str) (hraw : Quoted t.text ('/' :: name)) (hplain : ∀ c ∈ '/' :: name, c ≠ '"' ∧ c ≠ '\'')
    (checked opened url : Str) (hchecked : w.canonicalize (lookupPath s.files.config.templates ('/' :: name)) = .ok checked)
    (hopened : w.canonicalize ('/' :: name) = .ok opened) (hurl : env.urlParse (c!"file://" ++ opened) = some url) :
    (∃ ds, out = [.diag (HMap.empty.insert uri ds)] ∧ ∀ d ∈ missingDiags ds, d.name ≠ '/' :: name) ∧
      s'.files.gotoDefinition env w uri pos = .ok (some (.scalar ⟨url, ⟨⟨0, 0⟩, ⟨0, 0⟩⟩⟩)) := by
  constructor
  · obtain ⟨ds, h1, h2⟩ := C28_template_partial env w s s' m uri out r text tree vars ss hm he h hd ht hv hss hc
    refine ⟨ds, h1, ?_⟩
    intro d hmem hname
    have := h2.mem_iff.mp hmem
    unfold refReports at this
    obtain ⟨y, hy, rfl⟩ := List.mem_map.mp this
    have hy' := (List.mem_filter.mp hy).2
    simp only at hname
    simp only [hname, reduceCtorEq, decide_false, Bool.and_false, Bool.false_or, decide_eq_true_eq] at hy'
    unfold Absent at hy'
    rw [hchecked] at hy'
    cases hy'
  · refine C21_goto_partial env w s'.files uri tree text pos he hd ht hq before rest x t hon ('/' :: name) opened url hraw hplain ?_ hurl
    have : pathPush s'.files.config.templates ('/' :: name) = '/' :: name := by
      unfold pathPush; rw [if_pos (by rfl)]
    rw [this]; exact hopened

namespace Fix

/-- the workspace, with the templates in the directory `t` -/
def tplServer : Server := { server with files := { files with config := { files.config with templates := c!"t" } } }

/-- `{% include "/b.html" %}` -/
def absIncl : ImpStmt := .include (tok 0 15 48 [] 30) (tok 0 18 25 c!"include" 31) [tok 0 27 36 c!"\"/b.html\"" 32]

def absEnv : Env := docEnv .nil [] absIncl.caps

end Fix

/-- the hypotheses of `C30_absolute_refuted` hold, and another file is opened than was looked up -/
example : ∃ s' out r vars tree, Fix.tplServer.handle Fix.absEnv Fix.world (.didOpen Fix.uriA []) = .ok (s', out, r) ∧
    s'.files.documents.get? Fix.uriA = some [] ∧ (s'.files.trees .template).get? Fix.uriA = some tree ∧
    s'.files.variables.get? Fix.uriA = some vars ∧ ImpStmt.Wf [Fix.absIncl] ∧
    (Fix.absEnv.queryMatches .jinjaImports tree []).flatten = [Fix.absIncl].flatMap ImpStmt.caps ∧
    Quiet (Fix.absEnv.queryMatches .jinjaObjects tree []).flatten (toPoint ⟨0, 30⟩) ∧
    OnName (Fix.absEnv.queryMatches .jinjaImports tree []).flatten [] Fix.absIncl (Fix.tok 0 27 36 c!"\"/b.html\"" 32) [] (toPoint ⟨0, 30⟩) ∧
    Fix.world.canonicalize (lookupPath Fix.tplServer.files.config.templates c!"/b.html") = .ok c!"t/b.html" ∧
    Fix.world.canonicalize c!"/b.html" = .ok c!"/b.html" := by
  refine ⟨_, _, _, _, _, rfl, rfl, rfl, rfl, ⟨by decide, by decide, by decide⟩, Fix.docEnv_imports .., ?_, ?_, rfl, rfl⟩
  · constructor
    · decide
    all_goals (intro c hc; rw [Fix.absEnv, Fix.docEnv_objs] at hc; cases hc)
  · rw [Fix.absEnv, Fix.docEnv_imports]
    exact ⟨by simp, fun c hc => (by cases hc), by decide, by decide, by decide, by decide, by decide, by decide, by decide,
      fun c hc => (by cases hc)⟩

namespace Fix

/-- `{% include "b.html" %}` -/
def relIncl : ImpStmt := .include (tok 0 15 48 [] 30) (tok 0 18 25 c!"include" 31) [tok 0 27 35 c!"\"b.html\"" 32]

def relEnv : Env := docEnv .nil [] relIncl.caps

end Fix

/-- the hypotheses of `C30_plain_partial` hold -/
example : ∃ s' out r vars tree ds, Fix.tplServer.handle Fix.relEnv Fix.world (.didOpen Fix.uriA []) = .ok (s', out, r) ∧
    s'.files.documents.get? Fix.uriA = some [] ∧ (s'.files.trees .template).get? Fix.uriA = some tree ∧
    s'.files.variables.get? Fix.uriA = some vars ∧ ImpStmt.Wf [Fix.relIncl] ∧
    (Fix.relEnv.queryMatches .jinjaImports tree []).flatten = [Fix.relIncl].flatMap ImpStmt.caps ∧
    out = [.diag (HMap.empty.insert Fix.uriA ds)] ∧
    Quiet (Fix.relEnv.queryMatches .jinjaObjects tree []).flatten (toPoint ⟨0, 30⟩) ∧
    OnName (Fix.relEnv.queryMatches .jinjaImports tree []).flatten [] Fix.relIncl (Fix.tok 0 27 35 c!"\"b.html\"" 32) [] (toPoint ⟨0, 30⟩) ∧
    Plain c!"b.html" ∧ (∀ d ∈ missingDiags ds, d.name ≠ c!"b.html") ∧
    Fix.world.canonicalize (lookupPath Fix.tplServer.files.config.templates c!"b.html") = .ok c!"t/b.html" := by
  refine ⟨_, _, _, _, _, [], rfl, rfl, rfl, rfl, ⟨by decide, by decide, by decide⟩, Fix.docEnv_imports .., rfl, ?_, ?_, ?_, by decide, rfl⟩
  · constructor
    · decide
    all_goals (intro c hc; rw [Fix.relEnv, Fix.docEnv_objs] at hc; cases hc)
  · rw [Fix.relEnv, Fix.docEnv_imports]
    exact ⟨by simp, fun c hc => (by cases hc), by decide, by decide, by decide, by decide, by decide, by decide, by decide,
      fun c hc => (by cases hc)⟩
  · exact ⟨by decide, by decide⟩

end JinjaLsp
