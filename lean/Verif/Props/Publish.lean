import Verif.Props.References
import Verif.Model.Protocol
/-
  C31–C34: what is published when documents are opened and saved.
-/

namespace JinjaLsp
open Spec

/-! ## Publication -/

theorem diagProcess_single {env : Env} (o : HashOrder) {uri u : Str} (ds : Diags) (hurl : env.urlParse uri = some u) :
    diagProcess env o (HMap.empty.insert uri ds) = .ok ([(u, toDiagnostics ds)], HMap.empty.insert uri (missingTemplates ds)) := by
  unfold diagProcess
  have : o.shuffle 9 (HMap.empty.insert uri ds : HMap Str Diags).entries = [(uri, ds)] := by
    rw [HMap.entries_insert_empty, HMap.shuffle_singleton]
  rw [this]
  simp only [diagLoop, hurl]

/-- the texts of the statement keywords of a template can be read (they are inside the text, at character boundaries) -/
def Readable (env : Env) (tree : Tree) (text : Str) : Prop :=
  ∀ c ∈ (env.queryMatches .jinjaDefinitions tree text).flatten, c.name = .definition → c.text ≠ none

theorem definitions_check_ok (s : JinjaDefinitions) (c : Capture) (h : c.name = .definition → c.text ≠ none) :
    ∃ r, s.check c = .ok r := by
  unfold JinjaDefinitions.check
  split
  · rename_i hn
    split
    · exact ⟨_, rfl⟩
    · split
      · rename_i ht; exact absurd ht (h hn)
      · split <;> exact ⟨_, rfl⟩
  · exact ⟨_, rfl⟩
  · exact ⟨_, rfl⟩
  · split <;> exact ⟨_, rfl⟩
  · exact ⟨_, rfl⟩
  · split
    · exact ⟨_, rfl⟩
    · split
      · exact ⟨_, rfl⟩
      · simp only; split <;> exact ⟨_, rfl⟩
  · split
    · split <;> exact ⟨_, rfl⟩
    · exact ⟨_, rfl⟩
  · split
    · split <;> exact ⟨_, rfl⟩
    · exact ⟨_, rfl⟩
  · exact ⟨_, rfl⟩

theorem definitions_run_ok : ∀ (cs : List Capture) (s : JinjaDefinitions), (∀ c ∈ cs, c.name = .definition → c.text ≠ none) →
    ∃ r, JinjaDefinitions.run s cs = .ok r
  | [], s, _ => ⟨s, rfl⟩
  | c :: cs, s, h => by
    obtain ⟨r, hr⟩ := definitions_check_ok s c (h c (by simp))
    cases r with
    | none => exact ⟨s, by simp [JinjaDefinitions.run, hr]⟩
    | some s' =>
      obtain ⟨r', hr'⟩ := definitions_run_ok cs s' (fun x hx => h x (by simp [hx]))
      exact ⟨r', by simp [JinjaDefinitions.run, hr, hr']⟩

theorem definitionQuery_ok {env : Env} {tree : Tree} {text : Str} (h : Readable env tree text) (p : Point) :
    ∃ d, definitionQuery env tree p text true = .ok d := by
  unfold definitionQuery
  rw [selectCaptures_all]
  obtain ⟨r, hr⟩ := definitions_run_ok _ JinjaDefinitions.default h
  exact ⟨_, by rw [hr]⟩

theorem addVariables_ok {env : Env} {f : LspFiles} {n c : Str} {l : LangType}
    (h : l = .template → ∀ t, (f.trees .template).get? n = some t → Readable env t c) : ∃ g, f.addVariables env n l c = .ok g := by
  cases ht : (f.trees l).get? n with
  | none => exact ⟨_, LspFiles.addVariables_no_tree ht⟩
  | some t =>
    cases l with
    | backend => exact ⟨_, LspFiles.addVariables_backend ht⟩
    | template =>
      cases hs : (snippetsQuery env t Point.zero c true).isError with
      | true => exact ⟨_, LspFiles.addVariables_template_error ht hs⟩
      | false =>
        obtain ⟨d, hd⟩ := definitionQuery_ok (h rfl t ht) Point.zero
        unfold LspFiles.addVariables
        simp only [ht, hs, Bool.false_eq_true, if_false, hd]
        exact ⟨_, rfl⟩

theorem openBase_variables (env : Env) (f : LspFiles) (n c : Str) (l : LangType) :
    (f.openBase env n l c).variables.get? n = (f.variables.get? n).map fun _ => [] := by
  have hdel : (f.deleteVariables n).variables.get? n = (f.variables.get? n).map fun _ => [] := by
    unfold LspFiles.deleteVariables
    split <;> rename_i hn <;> simp [hn]
  unfold LspFiles.openBase LspFiles.addTree
  split <;> exact hdel

/-! ## C31 -/

/-- **C31** (part) Saving a supported document that the server knows always succeeds and sends a list of diagnostics for that document and
no other; the diagnostics task publishes it for exactly that document.
Missing: documents whose tree no longer fits their text (`C31_unreadable_refuted`). -/
theorem C31_save_publishes_partial (env : Env) (w : World) (s : Server) (uri text u : Str) (l : LangType) (he : fileExt uri = some l)
    (hd : s.files.documents.get? uri = some text) (hurl : env.urlParse uri = some u)
    (hr : l = .template → ∀ t, (s.files.trees .template).get? uri = some t → Readable env t text) :
    ∃ s' ds, s.handle env w (.didSave uri) = .ok (s', [.diag (HMap.empty.insert uri ds)], .none) ∧
      ∀ o, diagProcess env o (HMap.empty.insert uri ds) = .ok ([(u, toDiagnostics ds)], HMap.empty.insert uri (missingTemplates ds)) := by
  obtain ⟨g, hg⟩ := addVariables_ok (env := env) (f := s.files.deleteVariables uri) (n := uri) (c := text) (l := l)
    (fun h t ht => hr h t (by rwa [LspFiles.trees_deleteVariables] at ht))
  obtain ⟨v, hv⟩ := readTree_ok env w g uri
  have hsave : s.files.didSave env w uri = .ok (g, some (HMap.empty.insert uri (v.getD []))) := by
    unfold LspFiles.didSave
    simp only [he, hd, hg, hv]
    cases v <;> rfl
  refine ⟨{ s with files := g }, v.getD [], ?_, fun o => diagProcess_single o _ hurl⟩
  simp only [Server.handle, hsave]
  rfl

/-- **C31** (part) In the running server: when the worker takes the save from its queue and the diagnostics task is idle with an empty queue,
the two tasks by themselves publish exactly one list, for that document. -/
theorem C31_published_partial (env : Env) (w : World) (σ : Sys) (s : Server) (uri text u : Str) (q : List Msg) (l : LangType)
    (he : fileExt uri = some l) (hd : s.files.documents.get? uri = some text) (hurl : env.urlParse uri = some u)
    (hr : l = .template → ∀ t, (s.files.trees .template).get? uri = some t → Readable env t text)
    (hw : σ.worker = some s) (ho : σ.wOut = []) (hq : σ.lspQ = .didSave uri :: q) (ha : σ.diagAlive = true) (hdq : σ.diagQ = [])
    (hdo : σ.dOut = none) :
    ∃ τ ds, Steps env σ τ ∧ τ.published = σ.published ++ [(u, toDiagnostics ds)] ∧ τ.lspQ = q := by
  obtain ⟨s', ds, h1, h2⟩ := C31_save_publishes_partial env w s uri text u l he hd hurl hr
  refine ⟨_, ds, .tail (.tail (.tail (.refl σ) (.task (.workerRecv w hw ho hq h1)))
    (.task (.workerSendDiag (s := s') (m := HMap.empty.insert uri ds) (r := []) rfl rfl ha (by simp [hdq, diagCap]))))
    (.task (.diagRecv (q := []) HashOrder.id ha hdo (by simp [hdq]) (h2 _))), rfl, rfl⟩

/-- **C31 is false when the tree is out of step with the text**: if the first statement keyword found can no longer be read as text, the save
is a panic; nothing is published and the worker is gone. -/
theorem C31_unreadable_refuted (env : Env) (w : World) (s : Server) (uri text : Str) (tree : Tree) (c : Capture) (cs : List Capture)
    (he : fileExt uri = some .template) (hd : s.files.documents.get? uri = some text) (ht : (s.files.trees .template).get? uri = some tree)
    (hno : ¬ SyntaxError env tree text) (hcs : (env.queryMatches .jinjaDefinitions tree text).flatten = c :: cs)
    (hc : c.name = .definition) (htext : c.text = none) :
    s.handle env w (.didSave uri) = .error .unwrap := by
  have hq : definitionQuery env tree Point.zero text true = .error .unwrap := by
    unfold definitionQuery
    rw [selectCaptures_all, hcs]
    simp [JinjaDefinitions.run, JinjaDefinitions.check, hc, htext, JinjaDefinitions.default]
  have hadd : (s.files.deleteVariables uri).addVariables env uri .template text = .error .unwrap := by
    unfold LspFiles.addVariables
    simp only [LspFiles.trees_deleteVariables, ht, isError_false hno, Bool.false_eq_true, if_false, hq]
  simp only [Server.handle, LspFiles.didSave, he, hd, hadd]

/-- the hypotheses of the first two theorems hold -/
example : ∃ (σ : Sys) (q : List Msg), fileExt Fix.uriA = some .template ∧ Fix.server.files.documents.get? Fix.uriA = some c!"aaa" ∧
    (Fix.docEnv Fix.tpl Fix.uses []).urlParse Fix.uriA = some Fix.uriA ∧
    (∀ t, Readable (Fix.docEnv Fix.tpl Fix.uses []) t c!"aaa") ∧ σ.worker = some Fix.server ∧ σ.wOut = [] ∧
    σ.lspQ = .didSave Fix.uriA :: q ∧ σ.diagAlive = true ∧ σ.diagQ = [] ∧ σ.dOut = none :=
  ⟨⟨some Fix.server, [.didSave Fix.uriA, .documentSymbol Fix.uriB], [], true, [], none, []⟩, _, by decide, by decide, rfl,
    by intro t; unfold Readable; rw [Fix.docEnv_defs]; decide, rfl, rfl, rfl, rfl, rfl, rfl⟩

/-- those of the third as well -/
example : ∃ (env : Env) (c : Capture), (env.queryMatches .jinjaDefinitions (.parsed .jinja c!"aaa" none) c!"aaa").flatten = [c] ∧
    ¬ SyntaxError env (.parsed .jinja c!"aaa" none) c!"aaa" ∧ c.name = .definition ∧ c.text = none :=
  ⟨Fix.envWith .jinjaDefinitions [{ (Fix.tok 0 3 6 c!"set" 1).cap .definition with text := none }], _, Fix.envWith_caps ..,
    by rintro ⟨c, hc, _⟩; simp [Fix.envWith] at hc, rfl, rfl⟩

/-! ## C32 -/

/-- **C32** (part) Opening a supported document publishes a list for exactly that document, if it is a backend file, has no syntax error or
was analysed before.  Missing: the first open of a template with a syntax error (`C32_first_error_refuted`). -/
theorem C32_open_publishes_partial (env : Env) (w : World) (s : Server) (uri text u : Str) (l : LangType) (he : fileExt uri = some l)
    (hp : env.parseFails (s.files.grammar l) text ((s.files.trees l).get? uri) = false) (hurl : env.urlParse uri = some u)
    (hr : Readable env (.parsed (s.files.grammar l) text ((s.files.trees l).get? uri)) text)
    (hcase : l = .backend ∨ ¬ SyntaxError env (.parsed (s.files.grammar l) text ((s.files.trees l).get? uri)) text ∨
      s.files.variables.get? uri ≠ none) :
    ∃ s' ds, s.handle env w (.didOpen uri text) = .ok (s', [.diag (HMap.empty.insert uri ds)], .none) ∧
      ∀ o, diagProcess env o (HMap.empty.insert uri ds) = .ok ([(u, toDiagnostics ds)], HMap.empty.insert uri (missingTemplates ds)) := by
  have ht := LspFiles.openBase_tree (f := s.files) (n := uri) (l := l) hp
  have hdoc := LspFiles.openBase_document env s.files uri text l
  have hvars := openBase_variables env s.files uri text l
  obtain ⟨g, hg⟩ := addVariables_ok (env := env) (f := s.files.openBase env uri l text) (n := uri) (c := text) (l := l)
    (fun h t ht' => by subst h; rw [ht] at ht'; cases ht'; exact hr)
  have hgdoc : g.documents.get? uri = some text := by
    rw [(documents_addVariables hg).1]; exact hdoc
  have hgtree : (g.trees l).get? uri = some (.parsed (s.files.grammar l) text ((s.files.trees l).get? uri)) := by
    rw [(documents_addVariables hg).2]; exact ht
  -- the variables of the document are recorded
  have hrec : ∃ vs, g.variables.get? uri = some vs := by
    cases l with
    | backend =>
      rw [LspFiles.addVariables_backend ht] at hg
      cases hg
      exact ⟨_, HMap.get?_insert_self ..⟩
    | template =>
      by_cases hs : SyntaxError env (.parsed (s.files.grammar .template) text ((s.files.trees .template).get? uri)) text
      · rw [LspFiles.addVariables_template_error ht (isError_true hs _)] at hg
        cases hg
        rw [hvars]
        rcases hcase with h | h | h
        · cases h
        · exact absurd hs h
        · obtain ⟨vs, hvs⟩ := Option.ne_none_iff_exists'.mp h
          exact ⟨[], by rw [hvs]; rfl⟩
      · obtain ⟨defs, _, rfl⟩ := LspFiles.addVariables_template ht (isError_false hs _) hg
        exact ⟨_, HMap.get?_insert_self ..⟩
  obtain ⟨vs, hvs⟩ := hrec
  have hread : ∃ ds, g.readTree env w uri = .ok (some ds) := by
    cases l with
    | backend => exact ⟨_, readTree_backend he hgdoc hgtree hvs⟩
    | template => exact ⟨_, readTree_template he hgdoc hgtree hvs⟩
  obtain ⟨ds, hds⟩ := hread
  refine ⟨{ s with files := g }, ds, ?_, fun o => diagProcess_single o ds hurl⟩
  have := LspFiles.didOpen_eq (env := env) (w := w) (f := s.files) (n := uri) (c := text) he false
  rw [hg] at this
  simp only [hds, Bool.false_eq_true, if_false] at this
  simp only [Server.handle, this]
  rfl

/-- **C32 is false for the first open of a template with a syntax error**: nothing is sent. -/
theorem C32_first_error_refuted (env : Env) (w : World) (s : Server) (uri text : Str) (he : fileExt uri = some .template)
    (hp : env.parseFails (s.files.grammar .template) text ((s.files.trees .template).get? uri) = false)
    (herr : SyntaxError env (.parsed (s.files.grammar .template) text ((s.files.trees .template).get? uri)) text)
    (hnew : s.files.variables.get? uri = none) : ∃ s', s.handle env w (.didOpen uri text) = .ok (s', [], .none) := by
  have ht := LspFiles.openBase_tree (f := s.files) (n := uri) (l := .template) hp
  have hg := LspFiles.addVariables_template_error (n := uri) (c := text) ht (isError_true herr _)
  have hvars : (s.files.openBase env uri .template text).variables.get? uri = none := by
    rw [openBase_variables, hnew]; rfl
  have := LspFiles.didOpen_eq (env := env) (w := w) (f := s.files) (n := uri) (c := text) he false
  rw [hg] at this
  simp only [readTree_template_none he hvars, Bool.false_eq_true, if_false] at this
  refine ⟨{ s with files := s.files.openBase env uri .template text }, ?_⟩
  simp only [Server.handle, this]
  rfl

/-- the hypotheses hold -/
example : ∃ text, fileExt Fix.uriA = some .template ∧
    (∀ g t o, (Fix.brokenEnv Fix.tpl Fix.uses).parseFails g t o = false) ∧
    (∀ t, Readable (Fix.brokenEnv Fix.tpl Fix.uses) t text) ∧ Fix.server.files.variables.get? Fix.uriA ≠ none ∧
    (∀ t, SyntaxError (Fix.brokenEnv Fix.tpl Fix.uses) t text) ∧ Server.init.files.variables.get? Fix.uriA = none :=
  ⟨[], by decide, fun _ _ _ => rfl, by
    intro t c hc
    have : ((Fix.brokenEnv Fix.tpl Fix.uses).queryMatches .jinjaDefinitions t []).flatten = Fix.tpl.caps :=
      Fix.docEnv_defs Fix.tpl Fix.uses [] t []
    rw [this] at hc
    revert c; decide, by decide, fun t => Fix.brokenEnv_error .., rfl⟩

/-! ## C33 -/

/-- **C33** (part) While a template was never analysed without a syntax error, opening or saving it with one reports nothing at all.
Missing: templates that were analysed before (`C33_refuted`). -/
theorem C33_never_analysed_partial (env : Env) (w : World) (s s' : Server) (m : Msg) (uri text : Str) (tree : Tree) (out : List Send)
    (r : Reply) (hm : m.Analyses uri) (he : fileExt uri = some .template) (hnew : s.files.variables.get? uri = none)
    (h : s.handle env w m = .ok (s', out, r)) (hd : s'.files.documents.get? uri = some text)
    (ht : (s'.files.trees .template).get? uri = some tree) (herr : SyntaxError env tree text) :
    out = [] ∨ out = [.diag (HMap.empty.insert uri [])] := by
  have hv := (analyses_records hm he h hd ht).2 herr
  rw [hnew] at hv
  have hnone : s'.files.readTree env w uri = .ok none := readTree_template_none he hv
  cases hm with
  | opened t =>
    left
    simp only [Server.handle] at h
    split at h
    · cases h
    · rename_i f msg hf
      cases h
      obtain ⟨_, v, h2, h3⟩ := LspFiles.didOpen_inv he hf
      have : v = none := by have := h2.symm.trans hnone; cases this; rfl
      rw [h3, this]; rfl
  | saved =>
    right
    simp only [Server.handle] at h
    split at h
    · cases h
    · rename_i f msg hf
      cases h
      have hdoc : s.files.documents.get? uri = some text := by
        rw [← hd]; exact congrArg (·.get? uri) (documents_didSave hf).1.symm
      obtain ⟨_, v, h2, h3⟩ := LspFiles.didSave_inv he hdoc hf
      have : v = none := by have := h2.symm.trans hnone; cases this; rfl
      rw [h3, this]; rfl

/-- **C33 is false**: let a template be analysed before and now have syntax errors, all of them after the use `u` of a name for which a
binding of the template is visible.  The use is reported all the same. -/
theorem C33_refuted (env : Env) (w : World) (s s' : Server) (m : Msg) (uri text : Str) (tree : Tree) (out : List Send)
    (r : Reply) (t : Tpl) (es : List Elem) (u : UseInfo) (hm : m.Analyses uri) (he : fileExt uri = some .template)
    (hig : s.files.ignoreGlobals = false) (hold : s.files.variables.get? uri ≠ none) (h : s.handle env w m = .ok (s', out, r))
    (hd : s'.files.documents.get? uri = some text) (ht : (s'.files.trees .template).get? uri = some tree)
    (herr : SyntaxError env tree text)
    (_hafter : ∀ c ∈ (env.queryMatches .jinjaSnippets tree text).flatten, c.name = .errorBlock → u.range.2 < c.start)
    (_hw : t.Wf) (hes : Elems.Wf es)
    (_hc : (env.queryMatches .jinjaDefinitions tree text).flatten = t.caps)
    (hce : (env.queryMatches .jinjaObjects tree text).flatten = es.flatMap Elem.caps)
    (hu : u ∈ Elems.uses es) (hft : u.filter = false ∧ u.test = false)
    (_hvis : ∃ b ∈ t.bindings (env.rootEnd tree), b.VisibleAt u) (hother : u.name ∉ knownElsewhere s.files.variables uri) :
    ∃ ds, out = [.diag (HMap.empty.insert uri ds)] ∧ (⟨.undefined, u.name, u.range.1, u.range.2⟩ : Report) ∈ useDiags ds := by
  obtain ⟨ds, uses, h1, h2, h3⟩ := C25_broken env w s s' m uri text tree out r hm he hig hold h hd ht herr
  refine ⟨ds, h1, ?_⟩
  rw [readObjects_eq he hd ht] at h2
  cases h2
  rw [h3, usesIn_elems hes hce]
  refine List.mem_filterMap.mpr ⟨u, hu, ?_⟩
  have : verdict [] (knownElsewhere s.files.variables uri) u = some .undefined := by
    unfold verdict
    simp [hft.1, hft.2, hother]
  rw [this]; rfl

/-- the hypotheses of `C33_refuted` hold -/
example : ∃ u ∈ Elems.uses Fix.uses, (u.filter = false ∧ u.test = false) ∧
    (∃ b ∈ Fix.tpl.bindings ⟨9, 9⟩, b.VisibleAt u) ∧ u.name ∉ knownElsewhere Fix.serverZ.files.variables Fix.uriA ∧
    (∀ tree text, ∀ c ∈ ((Fix.brokenEnv Fix.tpl Fix.uses).queryMatches .jinjaSnippets tree text).flatten,
      c.name = .errorBlock → u.range.2 < c.start) ∧
    Fix.serverZ.files.variables.get? Fix.uriA ≠ none ∧
    ∃ s' out r, Fix.serverZ.handle (Fix.brokenEnv Fix.tpl Fix.uses) Fix.world (.didSave Fix.uriA) = .ok (s', out, r) := by
  have : ∃ u ∈ Elems.uses Fix.uses, (u.filter = false ∧ u.test = false) ∧
      (∃ b ∈ Fix.tpl.bindings ⟨9, 9⟩, b.VisibleAt u) ∧ u.name ∉ knownElsewhere Fix.serverZ.files.variables Fix.uriA ∧
      u.range.2 < ⟨9, 0⟩ := by decide
  obtain ⟨u, h1, h2, h3, h4, h5⟩ := this
  refine ⟨u, h1, h2, h3, h4, ?_, by decide, _, _, _, rfl⟩
  intro tree text c hc _
  have : c = (Fix.tok 9 0 3 c!"{% " 60).cap .errorBlock := by simpa [Fix.brokenEnv] using hc
  rw [this]; exact h5

/-- the hypotheses of `C33_never_analysed_partial` hold -/
example : ∃ s' out r tree, Server.init.handle (Fix.brokenEnv Fix.tpl Fix.uses) Fix.world (.didOpen Fix.uriA []) = .ok (s', out, r) ∧
    Server.init.files.variables.get? Fix.uriA = none ∧ s'.files.documents.get? Fix.uriA = some [] ∧
    (s'.files.trees .template).get? Fix.uriA = some tree ∧ SyntaxError (Fix.brokenEnv Fix.tpl Fix.uses) tree [] :=
  ⟨_, _, _, _, rfl, rfl, rfl, rfl, Fix.brokenEnv_error ..⟩

/-! ## C34 -/

/-- what a client is to see for a report -/
def Spec.shown (r : Report) : Diagnostic where
  range := ⟨⟨r.start.row, r.start.column⟩, ⟨r.stop.row, r.stop.column⟩⟩
  severity := match r.kind with
    | .definedSomewhere => .information
    | .undefined => .warning
    | .templateNotFound => .warning
  message := match r.kind with
    | .undefined => c!"Undefined variable"
    | .definedSomewhere => c!"Variable is defined in other file."
    | .templateNotFound => c!"Template not found"
  source := c!"jinja-lsp"

/-- positions of tree-sitter are 32-bit numbers -/
def Small (ds : Diags) : Prop := ∀ d ∈ ds, (d.2.start.row < 4294967296 ∧ d.2.start.column < 4294967296) ∧
  d.2.stop.row < 4294967296 ∧ d.2.stop.column < 4294967296

theorem toDiagnostics_eq {ds : Diags} (h : Small ds) : toDiagnostics ds = (ds.map report).map shown := by
  unfold toDiagnostics
  rw [List.map_map]
  refine List.map_congr_left ?_
  intro d hd
  obtain ⟨⟨h1, h2⟩, h3, h4⟩ := h d hd
  unfold createDiagnostic shown report
  simp only [Function.comp_apply, toU32, Nat.mod_eq_of_lt h1, Nat.mod_eq_of_lt h2, Nat.mod_eq_of_lt h3, Nat.mod_eq_of_lt h4]
  cases d.1 <;> rfl

theorem diagLoop_ok (env : Env) : ∀ (es : List (Str × Diags)) (ca : HMap Str (List Identifier)),
    (∀ e ∈ es, env.urlParse e.1 ≠ none) → ∃ ca', diagLoop env es ca =
      .ok (es.map (fun e => ((env.urlParse e.1).getD [], toDiagnostics e.2)), ca')
  | [], ca, _ => ⟨ca, rfl⟩
  | e :: es, ca, h => by
    obtain ⟨u, hu⟩ := Option.ne_none_iff_exists'.mp (h e (by simp))
    obtain ⟨ca', h'⟩ := diagLoop_ok env es (ca.insert e.1 (missingTemplates e.2)) (fun x hx => h x (by simp [hx]))
    refine ⟨ca', ?_⟩
    unfold diagLoop
    simp only [hu, h', List.map_cons, Option.getD_some]

/-- **C34** For every analysis result whose files are URLs: exactly one list is published per file, in some order, and it shows exactly the
reports of that file, each once and in order, with the range of the token, source, severity and message of its category. -/
theorem C34_faithful (env : Env) (o : HashOrder) (m : HMap Str Diags) (hurl : ∀ k ds, m.get? k = some ds → env.urlParse k ≠ none)
    (hsmall : ∀ k ds, m.get? k = some ds → Small ds) :
    ∃ pubs ca, diagProcess env o m = .ok (pubs, ca) ∧
      pubs.Perm (m.entries.map fun e => ((env.urlParse e.1).getD [], (e.2.map report).map shown)) := by
  have hmem : ∀ e ∈ o.shuffle 9 m.entries, m.get? e.1 = some e.2 := fun e he =>
    (HMap.get?_eq_some_iff ..).mpr ((HMap.mem_shuffle ..).mp he)
  obtain ⟨ca, h⟩ := diagLoop_ok env (o.shuffle 9 m.entries) HMap.empty (fun e he => hurl _ _ (hmem e he))
  refine ⟨_, ca, h, ?_⟩
  have hcongr : (o.shuffle 9 m.entries).map (fun e => ((env.urlParse e.1).getD [], toDiagnostics e.2)) =
      (o.shuffle 9 m.entries).map (fun e => ((env.urlParse e.1).getD [], (e.2.map report).map shown)) := by
    refine List.map_congr_left ?_
    intro e he
    rw [toDiagnostics_eq (hsmall _ _ (hmem e he))]
  rw [hcongr]
  exact (o.perm 9 m.entries).map _

/-- **C34** From the analysis of a document to publication: what is published after opening or saving is the result of the analysis. -/
theorem C34_analysis_published (env : Env) (w : World) (s s' : Server) (m : Msg) (uri u text : Str) (l : LangType) (out : List Send)
    (r : Reply) (ds : Diags) (hm : m.Analyses uri) (he : fileExt uri = some l) (h : s.handle env w m = .ok (s', out, r))
    (hd : s'.files.documents.get? uri = some text) (hds : s'.files.readTree env w uri = .ok (some ds)) (hsmall : Small ds)
    (hurl : env.urlParse uri = some u) :
    ∃ x, out = [.diag x] ∧ ∀ o, ∃ ca, diagProcess env o x = .ok ([(u, (ds.map report).map shown)], ca) := by
  obtain ⟨v, h1, h2, _⟩ := analyses_out hm he h hd
  rw [hds] at h1
  cases h1
  refine ⟨_, h2 ds rfl, fun o => ⟨HMap.empty.insert uri (missingTemplates ds), ?_⟩⟩
  rw [diagProcess_single o ds hurl, toDiagnostics_eq hsmall]

/-- a result with two files; its publication -/
example : ∃ m : HMap Str Diags, (∀ k ds, m.get? k = some ds → Fix.env.urlParse k ≠ none) ∧ (∀ k ds, m.get? k = some ds → Small ds) ∧
    (m.entries.map fun e => ((Fix.env.urlParse e.1).getD [], (e.2.map report).map shown)) ≠ [] := by
  refine ⟨(HMap.empty.insert Fix.uriA [(.undefined, Identifier.new c!"x" ⟨0, 1⟩ ⟨0, 2⟩)]).insert Fix.uriB [], ?_, ?_, by decide⟩
  · intro k ds _; simp [Fix.env]
  · intro k ds h
    have := (HMap.get?_eq_some_iff ..).mp h
    have key : ∀ e ∈ ((HMap.empty.insert Fix.uriA [(.undefined, Identifier.new c!"x" ⟨0, 1⟩ ⟨0, 2⟩)]).insert Fix.uriB [] : HMap Str Diags).entries,
        ∀ d ∈ e.2, (d.2.start.row < 4294967296 ∧ d.2.start.column < 4294967296) ∧
          d.2.stop.row < 4294967296 ∧ d.2.stop.column < 4294967296 := by decide
    exact key _ this

end JinjaLsp
