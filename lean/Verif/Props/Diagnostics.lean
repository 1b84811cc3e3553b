import Verif.Lemmas.Diagnostics
import Verif.Props.Expressions
import Verif.Props.Imports
/-
  C25–C28: which diagnostics are reported when a document is opened or saved.
-/

namespace JinjaLsp
open Spec

/-- what is reported about uses of names, in order -/
def useDiags (ds : Diags) : List Report := (ds.filter fun d => d.1 ≠ .templateNotFound).map report

/-- what is reported about template references, in order -/
def missingDiags (ds : Diags) : List Report := (ds.filter fun d => d.1 = .templateNotFound).map report

/-! ## C25 -/

theorem readObjects_eq {env : Env} {f : LspFiles} {uri text : Str} {tree : Tree} (he : fileExt uri = some .template)
    (hd : f.documents.get? uri = some text) (ht : (f.trees .template).get? uri = some tree) :
    f.readObjects env uri = .ok (some (usesIn env tree text)) := by
  unfold LspFiles.readObjects
  simp only [hd, he, ht, objectsQuery_all]
  rfl

/-- **C25** (part) Opening or saving a template reports, in order, exactly the uses that are not filters or tests and for which
no recorded definition of the name is visible: as undefined if the file defines the name elsewhere or no file knows it, as defined
somewhere if only the workspace knows it.
Missing: the recorded definitions are not always those of the file (C12, C13, C16, C33). -/
theorem C25_reports_partial (env : Env) (w : World) (s s' : Server) (m : Msg) (uri : Str) (out : List Send) (r : Reply)
    (vars : List Identifier) (uses : List JinjaObject) (hm : m.Analyses uri) (he : fileExt uri = some .template)
    (hig : s.files.ignoreGlobals = false) (h : s.handle env w m = .ok (s', out, r))
    (hu : s'.files.readObjects env uri = .ok (some uses)) (hv : s'.files.variables.get? uri = some vars) :
    ∃ ds, out = [.diag (HMap.empty.insert uri ds)] ∧
      useDiags ds = useReports (vars.map Identifier.binding)
        ((vars.map Identifier.binding).map (·.name) ++ knownElsewhere s.files.variables uri) (uses.map JinjaObject.info) := by
  obtain ⟨text, tree, hd, ht⟩ : ∃ text tree, s'.files.documents.get? uri = some text ∧ (s'.files.trees .template).get? uri = some tree := by
    unfold LspFiles.readObjects at hu
    split at hu
    · rename_i hd' he'
      rw [he] at he'; cases he'
      split at hu
      · cases hu
      · rename_i ht; exact ⟨_, _, hd', ht⟩
    · cases hu
  rw [readObjects_eq he hd ht] at hu
  cases hu
  obtain ⟨h1, h2⟩ := analyses_template hm he h hd ht hv
  refine ⟨_, h1, ?_⟩
  have hig' : s'.files.ignoreGlobals = false := h2.conf.ign.trans hig
  unfold useDiags
  rw [templateDiags_uses, hig', useReports_eq]
  exact useReports_congr _ _ (known_after h2 hv)

/-- the definitions recorded for a template that is opened or saved: those found by the query if there is no syntax error -/
theorem analyses_records {env : Env} {w : World} {s s' : Server} {uri : Str} {m : Msg} {out : List Send} {r : Reply} {text : Str}
    {tree : Tree} (hm : m.Analyses uri) (he : fileExt uri = some .template) (h : s.handle env w m = .ok (s', out, r))
    (hd : s'.files.documents.get? uri = some text) (ht : (s'.files.trees .template).get? uri = some tree) :
    (¬ SyntaxError env tree text → ∃ defs, definitionQuery env tree Point.zero text true = .ok defs ∧
        s'.files.variables.get? uri = some defs.identifiers) ∧
      (SyntaxError env tree text → s'.files.variables.get? uri = (s.files.variables.get? uri).map fun _ => []) := by
  have hdel : ∀ f : LspFiles, (f.deleteVariables uri).variables.get? uri = (f.variables.get? uri).map fun _ => [] := by
    intro f
    unfold LspFiles.deleteVariables
    split
    · rename_i hn; simp [hn]
    · rename_i hn; simp [hn]
  -- both messages compute the definitions of some workspace with the same tree
  obtain ⟨f0, g1, g2, g3⟩ : ∃ f0 : LspFiles, f0.addVariables env uri .template text = .ok s'.files ∧
      (f0.trees .template).get? uri = some tree ∧ f0.variables.get? uri = (s.files.variables.get? uri).map fun _ => [] := by
    cases hm with
    | opened t =>
      simp only [Server.handle] at h
      split at h
      · cases h
      · rename_i f msg hf
        cases h
        obtain ⟨h1, _⟩ := LspFiles.didOpen_inv he hf
        have e := documents_addVariables h1
        have et : t = text := by
          have := LspFiles.openBase_document env s.files uri t .template
          rw [← e.1] at this
          rw [show f.documents.get? uri = some text from hd] at this
          exact (Option.some.inj this).symm
        subst et
        refine ⟨_, h1, by rw [← e.2]; exact ht, ?_⟩
        rw [← hdel]
        unfold LspFiles.openBase LspFiles.addTree
        split <;> rfl
    | saved =>
      simp only [Server.handle] at h
      split at h
      · cases h
      · rename_i f msg hf
        cases h
        have hdoc : s.files.documents.get? uri = some text := by
          rw [← hd]; exact congrArg (·.get? uri) (documents_didSave hf).1.symm
        obtain ⟨h1, _⟩ := LspFiles.didSave_inv he hdoc hf
        have e := documents_addVariables h1
        exact ⟨_, h1, by rw [← e.2]; exact ht, hdel _⟩
  constructor
  · intro hn
    obtain ⟨defs, hd1, e⟩ := LspFiles.addVariables_template g2 (isError_false hn _) g1
    exact ⟨defs, hd1, by rw [e]; exact HMap.get?_insert_self ..⟩
  · intro hn
    rw [LspFiles.addVariables_template_error g2 (isError_true hn _)] at g1
    cases g1
    exact g3

/-- the uses found in a document of well-formed expressions -/
theorem usesIn_elems {env : Env} {tree : Tree} {text : Str} {es : List Elem} (h : Elems.Wf es)
    (hc : (env.queryMatches .jinjaObjects tree text).flatten = es.flatMap Elem.caps) :
    (usesIn env tree text).map JinjaObject.info = Elems.uses es := by
  obtain ⟨s, q, h1, h2, _⟩ := objects_of_elems env tree text Point.zero es h [] (by simpa using hc)
  rw [objectsQuery_all] at h1
  have e := Except.ok.inj h1
  unfold usesIn
  rw [e]
  show s.objects.map JinjaObject.info = _
  rw [h2, useObj_info]

/-- **C25** (part) For every well-nested template, of any depth, with well-formed expressions and no syntax error: opening or saving
reports exactly the uses for which no binding of the template is visible.
Missing: `else`/`elif` branches and the other templates of C12, C13 and C16; syntax errors (C33). -/
theorem C25_wellnested_partial (env : Env) (w : World) (s s' : Server) (m : Msg) (uri text : Str) (tree : Tree) (out : List Send)
    (r : Reply) (t : Tpl) (es : List Elem) (hm : m.Analyses uri) (he : fileExt uri = some .template)
    (hig : s.files.ignoreGlobals = false) (h : s.handle env w m = .ok (s', out, r))
    (hd : s'.files.documents.get? uri = some text) (ht : (s'.files.trees .template).get? uri = some tree)
    (hno : ¬ SyntaxError env tree text) (hw : t.Wf) (hes : Elems.Wf es)
    (hc : (env.queryMatches .jinjaDefinitions tree text).flatten = t.caps)
    (hce : (env.queryMatches .jinjaObjects tree text).flatten = es.flatMap Elem.caps) :
    ∃ ds, out = [.diag (HMap.empty.insert uri ds)] ∧
      useDiags ds = useReports (t.bindings (env.rootEnd tree))
        ((t.bindings (env.rootEnd tree)).map (·.name) ++ knownElsewhere s.files.variables uri) (Elems.uses es) := by
  obtain ⟨defs, h1, hv⟩ := (analyses_records hm he h hd ht).1 hno
  obtain ⟨defs', h2, h3⟩ := C11_scopes env tree Point.zero text t hw hc
  rw [h1] at h2
  cases h2
  obtain ⟨ds, h4, h5⟩ := C25_reports_partial env w s s' m uri out r _ _ hm he hig h (readObjects_eq he hd ht) hv
  refine ⟨ds, h4, ?_⟩
  rw [h5, h3, usesIn_elems hes hce]

namespace Fix

/-- `{% for i in p %}{% endfor %}` in a macro, with uses of names -/
def uses : List Elem :=
  [.use ⟨.«variable», tok 3 7 8 c!"i" 50, []⟩, .use ⟨.«variable», tok 4 20 21 c!"i" 51, []⟩, .use ⟨.«variable», tok 7 3 4 c!"q" 52, []⟩,
   .use ⟨.«variable», tok 8 3 4 c!"z" 53, []⟩, .use ⟨.filter (tok 8 5 6 c!"|" 54), tok 8 6 11 c!"upper" 55, []⟩]

/-- the captures of a document with definitions, uses and imports -/
def docEnv (t : Tpl) (es : List Elem) (imports : List Capture) : Env :=
  { env with queryMatches := fun q _ _ => match q with
      | .jinjaDefinitions => t.caps.map fun c => [c]
      | .jinjaObjects => (es.flatMap Elem.caps).map fun c => [c]
      | .jinjaImports => imports.map fun c => [c]
      | _ => [] }

theorem docEnv_defs (t : Tpl) (es : List Elem) (is : List Capture) (tree : Tree) (text : Str) :
    ((docEnv t es is).queryMatches .jinjaDefinitions tree text).flatten = t.caps := flatten_singletons _
theorem docEnv_objs (t : Tpl) (es : List Elem) (is : List Capture) (tree : Tree) (text : Str) :
    ((docEnv t es is).queryMatches .jinjaObjects tree text).flatten = es.flatMap Elem.caps := flatten_singletons _
theorem docEnv_imports (t : Tpl) (es : List Elem) (is : List Capture) (tree : Tree) (text : Str) :
    ((docEnv t es is).queryMatches .jinjaImports tree text).flatten = is := flatten_singletons _
theorem docEnv_noError (t : Tpl) (es : List Elem) (is : List Capture) (tree : Tree) (text : Str) :
    ¬ SyntaxError (docEnv t es is) tree text := by rintro ⟨c, hc, _⟩; cases hc

theorem uses_wf : Elems.Wf uses := by
  refine ⟨?_, ⟨⟨0, 2⟩, by decide, ?_⟩⟩
  · simp [uses, Elem.Ok, Mark.Ok, reserved, tok]
  · simp [uses, Elem.toks, Use.toks, Mark.toks, Ordered, tok, Point.lt_def, Point.le_def]

/-- the second template of the workspace defines `z` -/
def serverZ : Server := { server with files := { files with
  variables := (HMap.empty.insert uriA []).insert uriB [Identifier.new c!"z" ⟨0, 7⟩ ⟨0, 8⟩] } }

end Fix

/-- the expected reports: the loop variable outside its loop and an unknown name are undefined, `z` is defined in another file -/
example : useReports (Fix.tpl.bindings ⟨9, 9⟩) ((Fix.tpl.bindings ⟨9, 9⟩).map (·.name) ++ knownElsewhere Fix.serverZ.files.variables Fix.uriA)
      (Elems.uses Fix.uses) =
    [⟨.undefined, c!"i", ⟨4, 20⟩, ⟨4, 21⟩⟩, ⟨.undefined, c!"q", ⟨7, 3⟩, ⟨7, 4⟩⟩, ⟨.definedSomewhere, c!"z", ⟨8, 3⟩, ⟨8, 4⟩⟩] := by decide

/-- the hypotheses of `C25_wellnested_partial` hold for it -/
example : Fix.tpl.Wf ∧ Elems.Wf Fix.uses ∧ Fix.serverZ.files.ignoreGlobals = false ∧ fileExt Fix.uriA = some .template ∧
    ∃ s' out r, Fix.serverZ.handle (Fix.docEnv Fix.tpl Fix.uses []) Fix.world (.didOpen Fix.uriA []) = .ok (s', out, r) ∧
      s'.files.documents.get? Fix.uriA = some [] ∧
      (s'.files.trees .template).get? Fix.uriA = some (.parsed .jinja [] (some (.parsed .jinja c!"aaa" none))) :=
  ⟨Fix.tpl_wf, Fix.uses_wf, rfl, by decide, _, _, _, rfl, rfl, rfl⟩

/-- **C25** (what happens with a syntax error) If the template was analysed before and now has a syntax error, saving or opening it
reports every use that is not a filter or test, whatever the file defines. -/
theorem C25_broken (env : Env) (w : World) (s s' : Server) (m : Msg) (uri text : Str) (tree : Tree) (out : List Send)
    (r : Reply) (hm : m.Analyses uri) (he : fileExt uri = some .template)
    (hig : s.files.ignoreGlobals = false) (hold : s.files.variables.get? uri ≠ none) (h : s.handle env w m = .ok (s', out, r))
    (hd : s'.files.documents.get? uri = some text) (ht : (s'.files.trees .template).get? uri = some tree)
    (herr : SyntaxError env tree text) :
    ∃ ds uses, out = [.diag (HMap.empty.insert uri ds)] ∧ s'.files.readObjects env uri = .ok (some uses) ∧
      useDiags ds = useReports [] (knownElsewhere s.files.variables uri) (uses.map JinjaObject.info) := by
  have hv := (analyses_records hm he h hd ht).2 herr
  obtain ⟨old, hold⟩ := Option.ne_none_iff_exists'.mp hold
  rw [hold] at hv
  obtain ⟨ds, h4, h5⟩ := C25_reports_partial env w s s' m uri out r _ _ hm he hig h (readObjects_eq he hd ht) hv
  exact ⟨ds, _, h4, readObjects_eq he hd ht, h5⟩

namespace Fix

/-- like `docEnv`, with a syntax error -/
def brokenEnv (t : Tpl) (es : List Elem) : Env :=
  { docEnv t es [] with queryMatches := fun q tree text => match q with
      | .jinjaSnippets => [[(tok 9 0 3 c!"{% " 60).cap .errorBlock]]
      | _ => (docEnv t es []).queryMatches q tree text }

theorem brokenEnv_error (t : Tpl) (es : List Elem) (tree : Tree) (text : Str) : SyntaxError (brokenEnv t es) tree text :=
  ⟨(tok 9 0 3 c!"{% " 60).cap .errorBlock, by simp [brokenEnv], rfl⟩

end Fix

/-- the hypotheses of `C25_broken` hold -/
example : SyntaxError (Fix.brokenEnv Fix.tpl Fix.uses) (.parsed .jinja c!"aaa" none) c!"aaa" ∧
    ∃ s' out r, Fix.serverZ.handle (Fix.brokenEnv Fix.tpl Fix.uses) Fix.world (.didSave Fix.uriA) = .ok (s', out, r) ∧
      s'.files.documents.get? Fix.uriA = some c!"aaa" ∧ (s'.files.trees .template).get? Fix.uriA = some (.parsed .jinja c!"aaa" none) :=
  ⟨Fix.brokenEnv_error .., _, _, _, rfl, rfl, rfl⟩

/-! ## C26 -/

/-- the message carries only missing-template diagnostics -/
def Send.OnlyMissing : Send → Prop
  | .diag m => ∀ e ∈ m.entries, ∀ d ∈ e.2, d.1 = .templateNotFound
  | .initialized => True

/-- the missing-template diagnostics carried, per file -/
def Send.missing : Send → Option (List (Str × List Report))
  | .diag m => some (m.entries.map fun e => (e.1, missingDiags e.2))
  | .initialized => none

theorem readTree_silent {env : Env} {w : World} {f : LspFiles} {uri : Str} {ds : Diags} (hig : f.ignoreGlobals = true)
    (h : f.readTree env w uri = .ok (some ds)) : ∀ d ∈ ds, d.1 = .templateNotFound := by
  unfold LspFiles.readTree searchErrors at h
  split at h
  · cases h
  · split at h
    · cases h
    · split at h
      · cases h
      · split at h
        · rw [objectsQuery_all] at h
          simp only at h
          split at h
          · cases h
          · simp only [Except.ok.injEq, Option.some.injEq] at h
            subst h
            intro d hd
            rcases List.mem_append.mp hd with hd | hd
            · obtain ⟨a, _, ha⟩ := List.mem_filterMap.mp hd
              rw [hig, objectDiag_ignore] at ha; cases ha
            · obtain ⟨a, _, ha⟩ := List.mem_filterMap.mp hd
              exact importDiag_kind ha
        · split at h
          · cases h
          · simp only [Except.ok.injEq, Option.some.injEq] at h
            subst h
            intro d hd
            obtain ⟨a, _, ha⟩ := List.mem_filterMap.mp hd
            exact backendDiag_kind ha

theorem readTreesLoop_silent {env : Env} {w : World} {f : LspFiles} (hig : f.ignoreGlobals = true) : ∀ (ns : List Str)
    (m m' : HMap Str Diags), (∀ e ∈ m.entries, ∀ d ∈ e.2, d.1 = .templateNotFound) → f.readTreesLoop env w ns m = .ok m' →
      ∀ e ∈ m'.entries, ∀ d ∈ e.2, d.1 = .templateNotFound
  | [], m, m', hm, h => by cases h; exact hm
  | n :: ns, m, m', hm, h => by
    unfold LspFiles.readTreesLoop at h
    split at h
    · cases h
    · exact readTreesLoop_silent hig ns m m' hm h
    · rename_i v hv
      refine readTreesLoop_silent hig ns _ m' ?_ h
      intro e he
      rcases List.mem_cons.mp he with rfl | he
      · exact readTree_silent hig hv
      · exact hm e (List.mem_filter.mp he).1

theorem walkdir_ignore {env : Env} {w : World} {c : JinjaConfig} {d : HMap Str Diags} {f : LspFiles}
    (h : walkdir env w c = .ok (some (d, f))) : f.ignoreGlobals = c.hideUndefined.getD false := by
  refine walkdir_induct (P := fun f => f.ignoreGlobals = c.hideUndefined.getD false) ?_ ?_ h
  · unfold walkStart; simp only; split <;> rfl
  · intro f path l g hf _ hr
    unfold LspFiles.readFile at hr
    split at hr
    · cases hr; exact hf
    · split at hr
      · cases hr; exact hf
      · rw [(Frame.addVariables hr).conf.ign, (Frame.addTree ..).conf.ign]; exact hf

/-- **C26** (part) When the workspace hides undefined variables (and so does the configuration), no message makes the server report
anything but missing templates, and every message except a new configuration keeps it that way.
Missing: the workspace does not follow the configuration when the start fails (`C26_failed_start_refuted`). -/
theorem C26_silent_partial (env : Env) (w : World) (s s' : Server) (m : Msg) (out : List Send) (r : Reply)
    (hf : s.files.ignoreGlobals = true) (hc : s.config.hideUndefined = some true) (h : s.handle env w m = .ok (s', out, r)) :
    (∀ x ∈ out, x.OnlyMissing) ∧ s'.files.ignoreGlobals = true ∧
      ((∀ c o, m ≠ .initialize c o) → (∀ c, m ≠ .didChangeConfiguration c) → s'.config.hideUndefined = some true) := by
  have hconf : ((∀ c o, m ≠ .initialize c o) → (∀ c, m ≠ .didChangeConfiguration c) → s'.config = s.config) := by
    intro h1 h2
    cases m with
    | «initialize» c o => exact absurd rfl (h1 c o)
    | didChangeConfiguration c => exact absurd rfl (h2 c)
    | initialized =>
      simp only [Server.handle] at h
      split at h
      · cases h
      · rename_i hi
        cases h
        unfold Server.onInitialized at hi
        split at hi
        · split at hi <;> cases hi <;> rfl
        · cases hi; rfl
    | didOpen u t => simp only [Server.handle] at h; split at h <;> cases h; rfl
    | didSave u => simp only [Server.handle] at h; split at h <;> cases h; rfl
    | didChange u t =>
      simp only [Server.handle] at h
      split at h
      · cases h
      · rename_i hi; cases h; obtain ⟨_, _, _, _, e, _⟩ := onDidChange_cases hi; exact e
    | completion => exact (handle_query (by exact trivial) h).2.1
    | hover => exact (handle_query (by exact trivial) h).2.1
    | goto => exact (handle_query (by exact trivial) h).2.1
    | codeAction => exact (handle_query (by exact trivial) h).2.1
    | documentSymbol => exact (handle_query (by exact trivial) h).2.1
    | executeCommand c => simp only [Server.handle] at h; cases h; rfl
    | codeActions c => simp only [Server.handle] at h; cases h; rfl
  have hout : (∀ x ∈ out, x.OnlyMissing) ∧ s'.files.ignoreGlobals = true := by
    have single : ∀ (u : Str) (ds : Diags), (∀ d ∈ ds, d.1 = .templateNotFound) →
        ∀ x ∈ [Send.diag (HMap.empty.insert u ds)], x.OnlyMissing := by
      intro u ds hds x hx
      cases List.mem_singleton.mp hx
      intro e he
      rw [HMap.entries_insert_empty] at he
      cases List.mem_singleton.mp he
      exact hds
    cases m with
    | «initialize» c o =>
      simp only [Server.handle] at h; cases h
      refine ⟨by simp, ?_⟩
      unfold Server.onInitialize
      simp only
      split <;> exact hf
    | didChangeConfiguration c =>
      simp only [Server.handle] at h
      have hx' : ∀ (b : Bool) (x : Send), x ∈ (if b = true then [Send.initialized] else []) → x.OnlyMissing := by
        intro b x hx
        cases b with
        | true => cases List.mem_singleton.mp hx; trivial
        | false => cases hx
      cases h
      exact ⟨fun x hx => hx' _ x hx, hf⟩
    | initialized =>
      simp only [Server.handle] at h
      split at h
      · cases h
      · rename_i hi
        cases h
        unfold Server.onInitialized at hi
        split at hi
        · split at hi
          · cases hi
          · cases hi; exact ⟨by simp, hf⟩
          · rename_i d f hw
            cases hi
            have hig : f.ignoreGlobals = true := by rw [walkdir_ignore hw, hc]; rfl
            refine ⟨?_, hig⟩
            intro x hx
            cases List.mem_singleton.mp hx
            unfold walkdir at hw
            split at hw
            · cases hw
            · cases hw
            · split at hw
              · cases hw
              · rename_i hr
                cases hw
                exact readTreesLoop_silent hig _ _ _ (by intro e he; cases he) hr
        · cases hi; exact ⟨by simp, hf⟩
    | didOpen u t =>
      simp only [Server.handle] at h
      split at h
      · cases h
      · rename_i f msg hi
        cases h
        have hig : f.ignoreGlobals = true := (Frame.didOpen hi).conf.ign.trans hf
        refine ⟨?_, hig⟩
        cases hl : fileExt u with
        | none =>
          unfold LspFiles.didOpen at hi; rw [hl] at hi; cases hi
          intro x hx; cases hx
        | some l =>
          obtain ⟨_, v, h2, rfl⟩ := LspFiles.didOpen_inv hl hi
          cases v with
          | none => intro x hx; cases hx
          | some ds => exact single u ds (readTree_silent hig h2)
    | didSave u =>
      simp only [Server.handle] at h
      split at h
      · cases h
      · rename_i f msg hi
        cases h
        have hig : f.ignoreGlobals = true := (Frame.didSave hi).conf.ign.trans hf
        refine ⟨?_, hig⟩
        cases hl : fileExt u with
        | none =>
          unfold LspFiles.didSave at hi; rw [hl] at hi; cases hi
          intro x hx; cases hx
        | some l =>
          cases hd : s.files.documents.get? u with
          | none =>
            unfold LspFiles.didSave at hi; simp only [hl, hd] at hi; cases hi
            intro x hx; cases hx
          | some c =>
            obtain ⟨_, v, h2, rfl⟩ := LspFiles.didSave_inv hl hd hi
            cases v with
            | none => exact single u [] (by simp)
            | some ds => exact single u ds (readTree_silent hig h2)
    | didChange u t =>
      simp only [Server.handle] at h
      split at h
      · cases h
      · rename_i hi
        cases h
        obtain ⟨f, b, h1, e, _⟩ := onDidChange_cases hi
        refine ⟨by simp, ?_⟩
        rw [e, (Frame.didChange h1).conf.ign]; exact hf
    | completion => obtain ⟨e, _, rfl⟩ := handle_query (by exact trivial) h; exact ⟨by simp, by rw [e]; exact hf⟩
    | hover => obtain ⟨e, _, rfl⟩ := handle_query (by exact trivial) h; exact ⟨by simp, by rw [e]; exact hf⟩
    | goto => obtain ⟨e, _, rfl⟩ := handle_query (by exact trivial) h; exact ⟨by simp, by rw [e]; exact hf⟩
    | codeAction => obtain ⟨e, _, rfl⟩ := handle_query (by exact trivial) h; exact ⟨by simp, by rw [e]; exact hf⟩
    | documentSymbol => obtain ⟨e, _, rfl⟩ := handle_query (by exact trivial) h; exact ⟨by simp, by rw [e]; exact hf⟩
    | executeCommand c =>
      simp only [Server.handle] at h; cases h
      refine ⟨?_, hf⟩
      intro x hx
      split at hx
      · cases List.mem_singleton.mp hx; trivial
      · cases hx
    | codeActions c =>
      simp only [Server.handle] at h; cases h
      exact ⟨by simp, (addCodeActions_frame ..).2.2.2.1.ign.trans hf⟩
  exact ⟨hout.1, hout.2, fun h1 h2 => by rw [hconf h1 h2]; exact hc⟩

/-- **C26** (part) A successful start of the server with this configuration brings about that state and reports nothing else. -/
theorem C26_established_partial (env : Env) (w : World) (s s' : Server) (out : List Send) (r : Reply) (d : HMap Str Diags) (f : LspFiles)
    (hc : s.config.hideUndefined = some true) (hl : s.config.lang = c!"rust" ∨ s.config.lang = c!"python")
    (hw : walkdir env w s.config = .ok (some (d, f))) (h : s.handle env w .initialized = .ok (s', out, r)) :
    s'.files.ignoreGlobals = true ∧ s'.config.hideUndefined = some true ∧ ∀ x ∈ out, x.OnlyMissing := by
  simp only [Server.handle, Server.onInitialized, hl, if_true, hw] at h
  cases h
  have hig : f.ignoreGlobals = true := by rw [walkdir_ignore hw, hc]; rfl
  refine ⟨hig, hc, ?_⟩
  intro x hx
  cases List.mem_singleton.mp hx
  unfold walkdir at hw
  split at hw
  · cases hw
  · cases hw
  · split at hw
    · cases hw
    · rename_i hr
      cases hw
      exact readTreesLoop_silent hig _ _ _ (by intro e he; cases he) hr

namespace Fix

/-- the user asked to hide undefined variables -/
def hideServer : Server := { server with config := { JinjaConfig.default with lang := c!"rust", hideUndefined := some true } }

end Fix

/-- the hypotheses of `C26_established_partial` hold for a directory without files -/
example : ∃ d f, walkdir Fix.env Fix.world Fix.hideServer.config = .ok (some (d, f)) := ⟨_, _, rfl⟩

/-- **C26 is false when the start fails** (an unreadable directory): the configuration asks to hide undefined variables, but opening or
saving a template reports them as usual. -/
theorem C26_failed_start_refuted (env : Env) (w w' : World) (s s₁ s' : Server) (m : Msg) (uri : Str) (out₁ out : List Send) (r₁ r : Reply)
    (vars : List Identifier) (uses : List JinjaObject) (hf : s.files.ignoreGlobals = false)
    (hc : s.config.hideUndefined = some true) (hw : walkdir env w s.config = .ok none)
    (hi : s.handle env w .initialized = .ok (s₁, out₁, r₁)) (hm : m.Analyses uri) (he : fileExt uri = some .template)
    (h : s₁.handle env w' m = .ok (s', out, r))
    (hu : s'.files.readObjects env uri = .ok (some uses)) (hv : s'.files.variables.get? uri = some vars) :
    s₁.config.hideUndefined = some true ∧ ∃ ds, out = [.diag (HMap.empty.insert uri ds)] ∧
      useDiags ds = useReports (vars.map Identifier.binding)
        ((vars.map Identifier.binding).map (·.name) ++ knownElsewhere s₁.files.variables uri) (uses.map JinjaObject.info) := by
  have e : s₁ = s := by
    simp only [Server.handle, Server.onInitialized, hw] at hi
    split at hi
    · cases hi
    · rename_i hh
      split at hh <;> cases hh <;> cases hi <;> rfl
  subst e
  exact ⟨hc, C25_reports_partial env w' s₁ s' m uri out r vars uses hm he hf h hu hv⟩

namespace Fix

/-- a directory that cannot be read -/
def unreadable : World := { world with walk := fun _ => [.err] }

end Fix

/-- the hypotheses hold, and something is reported -/
example : Fix.hideServer.files.ignoreGlobals = false ∧ Fix.hideServer.config.hideUndefined = some true ∧
    walkdir (Fix.docEnv Fix.tpl Fix.uses []) Fix.unreadable Fix.hideServer.config = .ok none ∧
    (∃ s₁ out₁ r₁ s' out r vars uses, Fix.hideServer.handle (Fix.docEnv Fix.tpl Fix.uses []) Fix.unreadable .initialized = .ok (s₁, out₁, r₁) ∧
      s₁.handle (Fix.docEnv Fix.tpl Fix.uses []) Fix.world (.didOpen Fix.uriA []) = .ok (s', out, r) ∧
      s'.files.readObjects (Fix.docEnv Fix.tpl Fix.uses []) Fix.uriA = .ok (some uses) ∧ s'.files.variables.get? Fix.uriA = some vars) ∧
    useReports (Fix.tpl.bindings ⟨9, 9⟩) [] (Elems.uses Fix.uses) ≠ [] :=
  ⟨rfl, rfl, rfl, ⟨_, _, _, _, _, _, _, _, rfl, rfl, rfl, rfl⟩, by decide⟩

namespace LspFiles

/-- the same workspace with other settings about undefined variables -/
def hide (f : LspFiles) (b : Bool) (h : Option Bool) : LspFiles :=
  { f with ignoreGlobals := b, config := { f.config with hideUndefined := h } }

theorem hide_deleteVariables (f : LspFiles) (b : Bool) (h : Option Bool) (n : Str) :
    (f.hide b h).deleteVariables n = (f.deleteVariables n).hide b h := by
  have : (f.hide b h).variables = f.variables := rfl
  unfold deleteVariables
  rw [this]
  split <;> rfl

theorem hide_addTree (env : Env) (f : LspFiles) (b : Bool) (h : Option Bool) (n : Str) (l : LangType) (c : Str) :
    (f.hide b h).addTree env n l c = (f.addTree env n l c).hide b h := by
  have : (f.hide b h).parse env l c (((f.hide b h).trees l).get? n) = f.parse env l c ((f.trees l).get? n) := by
    cases l <;> rfl
  unfold addTree
  rw [this]
  split <;> rfl

theorem hide_addVariables (env : Env) (f : LspFiles) (b : Bool) (h : Option Bool) (n : Str) (l : LangType) (c : Str) :
    (f.hide b h).addVariables env n l c = (f.addVariables env n l c).map fun f => f.hide b h := by
  have ht : (f.hide b h).trees = f.trees := rfl
  unfold addVariables
  rw [ht]
  split
  · rfl
  · split
    · rfl
    · split
      · rfl
      · split <;> rfl

theorem hide_readFile (env : Env) (w : World) (f : LspFiles) (b : Bool) (h : Option Bool) (p : Str) (l : LangType) :
    (f.hide b h).readFile env w p l = (f.readFile env w p l).map fun f => f.hide b h := by
  unfold readFile
  split
  · rfl
  · split
    · rfl
    · simp only
      rw [← hide_addVariables, ← hide_addTree]
      rfl

theorem hide_readTree (env : Env) (w : World) (f : LspFiles) (b : Bool) (h : Option Bool) (n : Str) (v : Option Diags)
    (hv : f.readTree env w n = .ok v) : ∃ v', (f.hide b h).readTree env w n = .ok v' ∧ v'.map missingDiags = v.map missingDiags := by
  obtain ⟨v', hv'⟩ := readTree_ok env w (f.hide b h) n
  refine ⟨v', hv', ?_⟩
  have hd : (f.hide b h).documents = f.documents := rfl
  have ht : (f.hide b h).trees = f.trees := rfl
  cases hdoc : f.documents.get? n with
  | none =>
    unfold readTree at hv hv'
    rw [hd] at hv'
    simp only [hdoc] at hv hv'
    cases hv; cases hv'; rfl
  | some c =>
    cases hl : fileExt n with
    | none =>
      unfold readTree at hv hv'
      rw [hd] at hv'
      simp only [hdoc, hl] at hv hv'
      cases hv; cases hv'; rfl
    | some l =>
      cases htr : (f.trees l).get? n with
      | none =>
        unfold readTree at hv hv'
        rw [hd, ht] at hv'
        simp only [hdoc, hl, htr] at hv hv'
        cases hv; cases hv'; rfl
      | some t =>
        cases hvar : f.variables.get? n with
        | none =>
          cases l with
          | template =>
            rw [readTree_template_none hl hvar] at hv
            rw [readTree_template_none (f := f.hide b h) hl hvar] at hv'
            cases hv; cases hv'; rfl
          | backend =>
            unfold readTree searchErrors at hv hv'
            rw [hd, ht] at hv'
            have : (f.hide b h).variables = f.variables := rfl
            rw [this] at hv'
            simp only [hdoc, hl, htr, hvar] at hv hv'
            cases hv; cases hv'; rfl
        | some vars =>
          cases l with
          | template =>
            rw [readTree_template hl hdoc htr hvar] at hv
            rw [readTree_template (f := f.hide b h) hl hdoc htr hvar] at hv'
            cases hv; cases hv'
            simp only [Option.map_some, missingDiags, templateDiags_refs]
            rfl
          | backend =>
            rw [readTree_backend hl hdoc htr hvar] at hv
            rw [readTree_backend (f := f.hide b h) hl hdoc htr hvar] at hv'
            cases hv; cases hv'
            rfl

end LspFiles

theorem missing_single (u : Str) (ds : Diags) : (Send.diag (HMap.empty.insert u ds)).missing = some [(u, missingDiags ds)] := rfl

/-- **C26** (second half) With any setting about undefined variables, opening or saving a document reports the same missing templates. -/
theorem C26_missing_unchanged (env : Env) (w : World) (s s' : Server) (uri : Str) (m : Msg) (out : List Send) (r : Reply) (b : Bool)
    (v : Option Bool) (hm : m.Analyses uri) (h : s.handle env w m = .ok (s', out, r)) :
    ∃ out', Server.handle env w { s with files := s.files.hide b v } m = .ok ({ s' with files := s'.files.hide b v }, out', r) ∧
      out'.map Send.missing = out.map Send.missing := by
  cases hm with
  | opened t =>
    simp only [Server.handle] at h ⊢
    cases hl : fileExt uri with
    | none =>
      simp only [LspFiles.didOpen, hl] at h ⊢
      cases h; exact ⟨_, rfl, rfl⟩
    | some l =>
      rw [LspFiles.didOpen_eq hl] at h ⊢
      have e : (s.files.hide b v).openBase env uri l t = (s.files.openBase env uri l t).hide b v := by
        unfold LspFiles.openBase
        rw [LspFiles.hide_deleteVariables]
        rw [← LspFiles.hide_addTree]
        rfl
      rw [e, LspFiles.hide_addVariables]
      cases hg : (s.files.openBase env uri l t).addVariables env uri l t with
      | error e => rw [hg] at h; cases h
      | ok g =>
        simp only [hg, Bool.false_eq_true, if_false, Except.map] at h ⊢
        obtain ⟨d, hd⟩ := readTree_ok env w g uri
        obtain ⟨d', hd', hmis⟩ := LspFiles.hide_readTree env w g b v uri d hd
        rw [hd] at h
        rw [hd']
        cases d with
        | none =>
          cases d' with
          | some _ => cases hmis
          | none => cases h; exact ⟨_, rfl, rfl⟩
        | some ds =>
          cases d' with
          | none => cases hmis
          | some ds' =>
            cases h
            refine ⟨_, rfl, ?_⟩
            simp only [Option.map_some, Option.some.injEq] at hmis
            show [_] = [_]
            rw [missing_single, missing_single, hmis]
  | saved =>
    simp only [Server.handle] at h ⊢
    have hdoc : (s.files.hide b v).documents = s.files.documents := rfl
    unfold LspFiles.didSave at h ⊢
    rw [hdoc, LspFiles.hide_deleteVariables]
    cases hl : fileExt uri with
    | none => simp only [hl] at h ⊢; cases h; exact ⟨_, rfl, rfl⟩
    | some l =>
      cases hd : s.files.documents.get? uri with
      | none => simp only [hl, hd] at h ⊢; cases h; exact ⟨_, rfl, rfl⟩
      | some c =>
        simp only [hl, hd] at h ⊢
        rw [LspFiles.hide_addVariables]
        cases hg : (s.files.deleteVariables uri).addVariables env uri l c with
        | error e => rw [hg] at h; cases h
        | ok g =>
          simp only [hg, Except.map] at h ⊢
          obtain ⟨d, hd⟩ := readTree_ok env w g uri
          obtain ⟨d', hd', hmis⟩ := LspFiles.hide_readTree env w g b v uri d hd
          rw [hd] at h
          rw [hd']
          cases d with
          | none =>
            cases d' with
            | some _ => cases hmis
            | none => cases h; exact ⟨_, rfl, rfl⟩
          | some ds =>
            cases d' with
            | none => cases hmis
            | some ds' =>
              cases h
              refine ⟨_, rfl, ?_⟩
              simp only [Option.map_some, Option.some.injEq] at hmis
              show [_] = [_]
              rw [missing_single, missing_single, hmis]

/-- the hypothesis of `C26_missing_unchanged` holds -/
example : ∃ s' out r, Fix.serverZ.handle (Fix.docEnv Fix.tpl Fix.uses []) Fix.emptyWorld (.didSave Fix.uriA) = .ok (s', out, r) :=
  ⟨_, _, _, rfl⟩

theorem hide_walkItems (env : Env) (w : World) (b : Bool) (v : Option Bool) : ∀ (is : List WalkItem) (f : LspFiles),
    walkItems env w (f.hide b v) is = (walkItems env w f is).map fun o => o.map fun f => f.hide b v
  | [], f => rfl
  | .err :: is, f => rfl
  | .nonFile p :: is, f => by simp only [walkItems]; exact hide_walkItems env w b v is f
  | .file p :: is, f => by
    simp only [walkItems]
    split
    · exact hide_walkItems env w b v is f
    · rw [LspFiles.hide_readFile]
      cases f.readFile env w p _ with
      | error e => rfl
      | ok g => exact hide_walkItems env w b v is g

theorem hide_walkDirs (env : Env) (w : World) (b : Bool) (v : Option Bool) : ∀ (ds : List Str) (f : LspFiles),
    walkDirs env w (f.hide b v) ds = (walkDirs env w f ds).map fun o => o.map fun f => f.hide b v
  | [], f => rfl
  | d :: ds, f => by
    simp only [walkDirs]
    rw [hide_walkItems]
    cases walkItems env w f (w.walk d) with
    | error e => rfl
    | ok o =>
      cases o with
      | none => rfl
      | some g => exact hide_walkDirs env w b v ds g

theorem filter_key_map {V W : Type} (g : Str × V → Str × W) (hg : ∀ e, (g e).1 = e.1) (k : Str) (l : List (Str × V)) :
    (l.filter fun e => decide (e.1 ≠ k)).map g = (l.map g).filter fun e => decide (e.1 ≠ k) := by
  induction l with
  | nil => rfl
  | cons e l ih =>
    simp only [List.filter_cons, List.map_cons, hg]
    split
    · rw [List.map_cons, ih]
    · exact ih

theorem hide_readTreesLoop (env : Env) (w : World) (f : LspFiles) (b : Bool) (v : Option Bool) : ∀ (ns : List Str) (m m' m1 : HMap Str Diags),
    (Send.diag m').missing = (Send.diag m).missing → f.readTreesLoop env w ns m = .ok m1 →
    ∃ m1', (f.hide b v).readTreesLoop env w ns m' = .ok m1' ∧ (Send.diag m1').missing = (Send.diag m1).missing
  | [], m, m', m1, hm, h => by cases h; exact ⟨m', rfl, hm⟩
  | n :: ns, m, m', m1, hm, h => by
    unfold LspFiles.readTreesLoop at h ⊢
    obtain ⟨d, hd⟩ := readTree_ok env w f n
    obtain ⟨d', hd', hmis⟩ := LspFiles.hide_readTree env w f b v n d hd
    rw [hd] at h
    rw [hd']
    cases d with
    | none =>
      cases d' with
      | some _ => cases hmis
      | none => exact hide_readTreesLoop env w f b v ns m m' m1 hm h
    | some ds =>
      cases d' with
      | none => cases hmis
      | some ds' =>
        simp only [Option.map_some, Option.some.injEq] at hmis
        refine hide_readTreesLoop env w f b v ns _ _ m1 ?_ h
        simp only [Send.missing, Option.some.injEq] at hm ⊢
        simp only [HMap.insert, HMap.erase, List.map_cons, hmis, List.cons.injEq, true_and]
        rw [filter_key_map (fun e => (e.1, missingDiags e.2)) (fun _ => rfl),
          filter_key_map (fun e => (e.1, missingDiags e.2)) (fun _ => rfl), hm]

/-- **C26** (second half, at start) With any setting about undefined variables, the start of the server reports the same missing templates. -/
theorem C26_start_missing_unchanged (env : Env) (w : World) (s s' : Server) (out : List Send) (r : Reply) (v : Option Bool)
    (h : s.handle env w .initialized = .ok (s', out, r)) :
    ∃ s'' out', Server.handle env w { s with config := { s.config with hideUndefined := v } } .initialized = .ok (s'', out', r) ∧
      out'.map Send.missing = out.map Send.missing := by
  have hstart : walkStart { s.config with hideUndefined := v } = (walkStart s.config).hide (v.getD false) v := by
    unfold walkStart; simp only; split <;> rfl
  have hwalk : ∀ x, walkdir env w s.config = .ok x → ∃ y, walkdir env w { s.config with hideUndefined := v } = .ok y ∧
      y.map (fun d => (Send.diag d.1).missing) = x.map (fun d => (Send.diag d.1).missing) := by
    intro x hx
    unfold walkdir at hx ⊢
    rw [hstart, hide_walkDirs]
    cases hd : walkDirs env w (walkStart s.config) (s.config.templates :: s.config.backend) with
    | error e => rw [hd] at hx; cases hx
    | ok o =>
      rw [hd] at hx
      cases o with
      | none => cases hx; exact ⟨none, rfl, rfl⟩
      | some f =>
        simp only [Except.map, Option.map_some] at hx ⊢
        cases hr : f.readTrees env w with
        | error e => rw [hr] at hx; cases hx
        | ok d =>
          rw [hr] at hx
          cases hx
          obtain ⟨d', h1, h2⟩ := hide_readTreesLoop env w f (v.getD false) v _ HMap.empty HMap.empty d rfl hr
          have h1' : (f.hide (v.getD false) v).readTrees env w = .ok d' := h1
          rw [h1']
          exact ⟨_, rfl, by simp only [Option.map_some, h2]⟩
  simp only [Server.handle, Server.onInitialized] at h ⊢
  by_cases hl : s.config.lang = c!"rust" ∨ s.config.lang = c!"python"
  · simp only [hl, if_true] at h ⊢
    cases hw : walkdir env w s.config with
    | error e => rw [hw] at h; cases h
    | ok x =>
      obtain ⟨y, hy, hxy⟩ := hwalk x hw
      rw [hw] at h
      rw [hy]
      cases x with
      | none =>
        cases y with
        | some _ => cases hxy
        | none => cases h; exact ⟨_, _, rfl, rfl⟩
      | some d =>
        cases y with
        | none => cases hxy
        | some d' =>
          cases h
          refine ⟨_, _, rfl, ?_⟩
          simp only [Option.map_some, Option.some.injEq] at hxy
          show [_] = [_]
          rw [hxy]
  · simp only [hl, if_false] at h ⊢
    cases h
    exact ⟨_, _, rfl, rfl⟩

/-- the hypothesis holds -/
example : ∃ s' out r, Fix.hideServer.handle Fix.env Fix.world .initialized = .ok (s', out, r) := ⟨_, _, _, rfl⟩

end JinjaLsp
