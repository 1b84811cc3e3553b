import Verif.Props.BackendSyntax
import Verif.Props.History
import Verif.Props.Offered
import Verif.Props.Scoping
/-
  C74, C76, C78 at every point of a session; C124: what a backend file passes to templates is known in the templates.
-/

namespace JinjaLsp
open Spec

namespace Spec

/-- The server has been led to its state by some sequence of messages, whatever they were: changes came with ranges, and every change of the document
`b` was followed by a save or an opening of it. (Files are analysed at startup, when they are opened and when they are saved.) -/
def Reached (env : Env) (b : Str) (s : Server) : Prop :=
  ∃ ms, Server.init.run env ms = .ok s ∧ (∀ m ∈ ms, KeepsClass m.1 ∧ Ranged m.2) ∧ Saved b (ms.map Prod.snd)

/-- The backend file passes a name to templates; with the place where it is written. Rust: in the brackets of a macro such as `context!`, or registered
by a method such as `jinja.add_global`. Python: as keyword of `render` or `render_template`, or as key of `jinja_env.globals` or `.filters`. -/
inductive Passes (root : Syn) : Grammar → Str × Point × Point → Prop where
  | key {n : Syn} (h : InMacro root n) (hc : n.text ≠ some c!"context") : Passes root .rust n.info
  | registered {n : Syn} (h : Registered root n) : Passes root .rust n.unquoted
  | keyword {n : Syn} (h : Keyword root n) : Passes root .python n.info
  | table {n : Syn} (h : TableKey root n) : Passes root .python n.info

/-- the text of the backend file `b`, as it is now, has no syntax error and passes `d` -/
structure HasPassed (env : Env) (sx : Syntax) (s : Server) (b : Str) (d : Str × Point × Point) : Prop where
  backend : fileExt b = some .backend
  reached : Reached (env.over sx) b s
  passes : ∃ text T, s.files.documents.get? b = some text ∧ (s.files.trees .backend).get? b = some T ∧ Legible (sx.root T text) ∧
    ¬ HasError (sx.root T text) ∧ Passes (sx.root T text) s.files.queriesBackend d

end Spec

/-- the entries of a backend file are those of its present text -/
theorem Spec.Reached.variables {env : Env} {b text : Str} {T : Tree} {s : Server} (h : Reached env b s) (hp : ∀ g t o, env.parseFails g t o = false)
    (he : fileExt b = some .backend) (hd : s.files.documents.get? b = some text) (ht : (s.files.trees .backend).get? b = some T) :
    s.files.variables.get? b = some (s.files.backendVariables env T text) := by
  obtain ⟨ms, hr, hm, hs⟩ := h
  have k := kept_run hp b ms Server.init s False ((kept_init b).weaken fun _ => trivial) hm hr
  exact k.analysed (outdated_saved b _ False hs False.elim) .backend text T he hd ht

theorem declared_of {env : Env} {sx : Syntax} {b text : Str} {T : Tree} {f : LspFiles}
    (hv : f.variables.get? b = some (f.backendVariables (env.over sx) T text))
    (hl : ∀ c ∈ (sx.run (.backendDefinitions f.queriesBackend) T text).flatten, c.text ≠ none)
    (hno : ∀ c ∈ (sx.run (.backendDefinitions f.queriesBackend) T text).flatten, c.name ≠ .error) (d : Str × Point × Point) :
    Recorded f b .backendVariable d ↔ d ∈ (sx.run (.backendDefinitions f.queriesBackend) T text).flatten.filterMap Spec.declares := by
  rw [recorded_iff hv, (backendVariables_spec (env := env.over sx) hl).1]
  have : ((env.over sx).queryMatches (.backendDefinitions f.queriesBackend) T text).flatten.takeWhile (fun c => decide (c.name ≠ .error)) =
      (sx.run (.backendDefinitions f.queriesBackend) T text).flatten := takeWhile_all fun c hc => by simpa using hno c hc
  rw [this]

theorem referred_of {env : Env} {sx : Syntax} {b text : Str} {T : Tree} {f : LspFiles}
    (hv : f.variables.get? b = some (f.backendVariables (env.over sx) T text)) (hl : Legible (sx.root T text))
    (htext : ∀ c ∈ (sx.run (.backendTemplates f.queriesBackend) T text).flatten, c.text ≠ none) (d : Str × Point × Point) :
    Recorded f b .jinjaTemplate d ↔ d ∈ (callArgs false (sx.run (.backendTemplates f.queriesBackend) T text).flatten).map Spec.refers := by
  rw [recorded_iff hv, backendVariables_refs (env := env.over sx) rfl htext (definitions_legible hl)]
  exact Iff.rfl

/-- the names recorded for a file without syntax error are those it passes -/
theorem passes_of {env : Env} {sx : Syntax} {b text : Str} {T : Tree} {f : LspFiles}
    (hv : f.variables.get? b = some (f.backendVariables (env.over sx) T text)) (hq : f.queriesBackend = .rust ∨ f.queriesBackend = .python)
    (hl : Legible (sx.root T text)) (hno : ¬ HasError (sx.root T text)) (d : Str × Point × Point) :
    Recorded f b .backendVariable d ↔ Passes (sx.root T text) f.queriesBackend d := by
  rcases hq with hq | hq
  · rw [declared_of hv (by rw [hq]; exact rust_legible hl) (by rw [hq]; exact rust_noError hno) d, hq]
    refine (rust_declares hl d).trans ?_
    constructor
    · rintro (⟨n, h1, h2, rfl⟩ | ⟨n, h1, rfl⟩)
      · exact .key h1 h2
      · exact .registered h1
    · intro h
      cases h with
      | key a c => exact .inl ⟨_, a, c, rfl⟩
      | registered a => exact .inr ⟨_, a, rfl⟩
  · rw [declared_of hv (by rw [hq]; exact python_legible hl) (by rw [hq]; exact python_noError hno) d, hq]
    refine (python_declares hl d).trans ?_
    constructor
    · rintro ⟨n, h1 | h1, rfl⟩
      · exact .table h1
      · exact .keyword h1
    · intro h
      cases h with
      | keyword a => exact ⟨_, .inr a, rfl⟩
      | table a => exact ⟨_, .inl a, rfl⟩

/-! ## C74, C76, C78 in sessions -/

/-- **C74** (sessions) At every point of every session, the backend variables recorded for a Rust file without syntax error are exactly what the present
text passes. -/
theorem C74_session (env : Env) (sx : Syntax) (s : Server) (b text : Str) (T : Tree) (h : Reached (env.over sx) b s)
    (hp : ∀ g t o, env.parseFails g t o = false) (he : fileExt b = some .backend) (hq : s.files.queriesBackend = .rust)
    (hd : s.files.documents.get? b = some text) (ht : (s.files.trees .backend).get? b = some T) (hl : Legible (sx.root T text))
    (hno : ¬ HasError (sx.root T text)) (d : Str × Point × Point) :
    Recorded s.files b .backendVariable d ↔
      (∃ n, InMacro (sx.root T text) n ∧ n.text ≠ some c!"context" ∧ d = n.info) ∨ (∃ n, Registered (sx.root T text) n ∧ d = n.unquoted) := by
  rw [declared_of (h.variables hp he hd ht) (by rw [hq]; exact rust_legible hl) (by rw [hq]; exact rust_noError hno) d, hq]
  exact rust_declares hl d

/-- **C76** (sessions) The same for Python files. -/
theorem C76_session (env : Env) (sx : Syntax) (s : Server) (b text : Str) (T : Tree) (h : Reached (env.over sx) b s)
    (hp : ∀ g t o, env.parseFails g t o = false) (he : fileExt b = some .backend) (hq : s.files.queriesBackend = .python)
    (hd : s.files.documents.get? b = some text) (ht : (s.files.trees .backend).get? b = some T) (hl : Legible (sx.root T text))
    (hno : ¬ HasError (sx.root T text)) (d : Str × Point × Point) :
    Recorded s.files b .backendVariable d ↔ ∃ n, (TableKey (sx.root T text) n ∨ Keyword (sx.root T text) n) ∧ d = n.info := by
  rw [declared_of (h.variables hp he hd ht) (by rw [hq]; exact python_legible hl) (by rw [hq]; exact python_noError hno) d, hq]
  exact python_declares hl d

/-- **C78** (sessions, Rust) At every point of every session, the template names recorded for a Rust file are exactly the first strings among the
arguments of calls of `render_jinja` and `get_template` in its present text. -/
theorem C78_session_rust (env : Env) (sx : Syntax) (s : Server) (b text : Str) (T : Tree) (h : Reached (env.over sx) b s)
    (hp : ∀ g t o, env.parseFails g t o = false) (he : fileExt b = some .backend) (hq : s.files.queriesBackend = .rust)
    (hd : s.files.documents.get? b = some text) (ht : (s.files.trees .backend).get? b = some T) (hl : Legible (sx.root T text))
    (d : Str × Point × Point) :
    Recorded s.files b .jinjaTemplate d ↔ ∃ n,
      TemplateArgument .callExpression .arguments .fieldExpression .fieldIdentifier .stringLiteral (sx.root T text) n ∧ d = n.unquoted := by
  rw [referred_of (h.variables hp he hd ht) hl (by rw [hq]; exact templates_legible hl) d, hq]
  exact templates_refs (by simp) d

/-- **C78** (sessions, Python) The same for Python. -/
theorem C78_session_python (env : Env) (sx : Syntax) (s : Server) (b text : Str) (T : Tree) (h : Reached (env.over sx) b s)
    (hp : ∀ g t o, env.parseFails g t o = false) (he : fileExt b = some .backend) (hq : s.files.queriesBackend = .python)
    (hd : s.files.documents.get? b = some text) (ht : (s.files.trees .backend).get? b = some T) (hl : Legible (sx.root T text))
    (d : Str × Point × Point) :
    Recorded s.files b .jinjaTemplate d ↔ ∃ n,
      TemplateArgument .call .argumentList .attribute .identifier .string (sx.root T text) n ∧ d = n.unquoted := by
  rw [referred_of (h.variables hp he hd ht) hl (by rw [hq]; exact templates_legible hl) d, hq]
  exact templates_refs (by simp) d

/-- what a file passes is recorded -/
theorem Spec.HasPassed.recorded {env : Env} {sx : Syntax} {s : Server} {b : Str} {d : Str × Point × Point} (h : HasPassed env sx s b d)
    (hp : ∀ g t o, env.parseFails g t o = false) : Recorded s.files b .backendVariable d := by
  obtain ⟨he, hr, text, T, hd, ht, hl, hno, hps⟩ := h
  generalize hq : s.files.queriesBackend = g at hps
  cases hps with
  | key a c => exact (C74_session env sx s b text T hr hp he hq hd ht hl hno _).mpr (.inl ⟨_, a, c, rfl⟩)
  | registered a => exact (C74_session env sx s b text T hr hp he hq hd ht hl hno _).mpr (.inr ⟨_, a, rfl⟩)
  | keyword a => exact (C76_session env sx s b text T hr hp he hq hd ht hl hno _).mpr ⟨_, .inr a, rfl⟩
  | table a => exact (C76_session env sx s b text T hr hp he hq hd ht hl hno _).mpr ⟨_, .inl a, rfl⟩

theorem Spec.HasPassed.ne {env : Env} {sx : Syntax} {s : Server} {b uri : Str} {d : Str × Point × Point} (h : HasPassed env sx s b d)
    (hx : fileExt uri = some .template) : b ≠ uri := by
  rintro rfl
  rw [h.backend] at hx
  cases hx

theorem backend_ne {b uri : Str} (h : fileExt b = some .backend) (hx : fileExt uri = some .template) : b ≠ uri := by
  rintro rfl
  rw [h] at hx
  cases hx

/-! ## C124 -/

/-- a recorded name is reported as defined in another file -/
theorem known_reported (env : Env) (sx : Syntax) (w : World) (s s' : Server) (b : Str) (d : Str × Point × Point) (hb : fileExt b = some .backend) (hrec : Recorded s.files b .backendVariable d)
    (m : Msg) (uri text : Str) (tree : Tree) (out : List Send) (r : Reply) (is : List Item) (es : List Elem) (ss : List ImpStmt) (hm : m.Analyses uri)
    (he : fileExt uri = some .template) (hig : s.files.ignoreGlobals = false) (h : s.handle (env.over sx) w m = .ok (s', out, r))
    (hd : s'.files.documents.get? uri = some text) (ht : (s'.files.trees .template).get? uri = some tree)
    (hs : WellFormed (sx.root tree text)) (hk : (sx.root tree text).kind = .other)
    (hr : Tags sx.digit (sx.root tree text).children is) (hue : ReadsTree sx.digit (sx.root tree text) es) (hes : Elems.Wf es)
    (hi : Refs sx.options (sx.root tree text).children ss) (hss : ImpStmt.Wf ss)
    (u : Use) (hu : .use u ∈ es) (hvar : u.mark = .variable) (hn : u.root.text = d.1)
    (hno : ∀ x ∈ Items.bindings (env.rootEnd tree) 0 is, x.name = u.root.text → x.kind = .templateBlock) :
    ∃ ds, out = [.diag (HMap.empty.insert uri ds)] ∧ ⟨.definedSomewhere, d.1, u.root.start, u.root.stop⟩ ∈ useDiags ds ∧
      ∀ rep ∈ useDiags ds, rep.start = u.root.start → rep.kind = .definedSomewhere := by
  obtain ⟨ds, h1, h2, _⟩ := C71_diagnostics env sx w s s' m uri text tree out r is es ss hm he hig h hd ht hs hk hr hue hes hi hss
  have hnf : ¬ (u.info.filter = true ∨ u.info.test = true) := by
    obtain ⟨mk, _, _⟩ := u
    cases hvar
    simp [Use.info]
  obtain ⟨vars, hv, i, hi, _, hid⟩ := hrec
  have hname : i.name = u.root.text := by rw [hn, ← hid]
  have hver : verdict (Items.bindings (env.rootEnd tree) 0 is)
      ((Items.bindings (env.rootEnd tree) 0 is).map (·.name) ++ knownElsewhere s.files.variables uri) u.info = some .definedSomewhere := by
    unfold verdict
    rw [if_neg hnf, if_neg, if_neg, if_pos]
    · exact List.mem_append.mpr (.inr ((mem_knownElsewhere ..).mpr ⟨b, vars, backend_ne hb he, hv, i, hi, hname⟩))
    · rintro ⟨x, hx, hxn, hxk⟩
      exact hxk (hno x hx hxn)
    · rintro ⟨x, hx, hxv⟩
      exact hxv.2.1 (hno x hx hxv.1)
  refine ⟨ds, h1, ?_, ?_⟩
  · rw [h2, ← hn]
    refine List.mem_filterMap.mpr ⟨u.info, List.mem_filterMap.mpr ⟨_, hu, rfl⟩, ?_⟩
    rw [hver]; rfl
  · intro rep hrep hst
    rw [h2] at hrep
    obtain ⟨j, hj, hrep⟩ := List.mem_filterMap.mp hrep
    obtain ⟨e, hem, hei⟩ := List.mem_filterMap.mp hj
    cases e with
    | use v =>
      cases hei
      obtain ⟨k, hk, rfl⟩ := Option.map_eq_some_iff.mp hrep
      obtain ⟨_, _, ho⟩ := hes.ordered
      have : v = u := use_unique (ordered_starts ho).2 hem hu hst
      subst this
      rw [hver] at hk
      cases hk
      rfl
    | op => cases hei
    | word => cases hei
    | expr => cases hei

/-- **C124** (diagnostics) A variable that a backend file passes to templates, and that the template does not bind, is not reported as undefined: it is
reported as defined in another file. -/
theorem C124_reported (env : Env) (sx : Syntax) (w : World) (s s' : Server) (b : Str) (d : Str × Point × Point) (hb : HasPassed env sx s b d)
    (hpf : ∀ g t o, env.parseFails g t o = false) (m : Msg) (uri text : Str) (tree : Tree) (out : List Send) (r : Reply) (is : List Item) (es : List Elem) (ss : List ImpStmt) (hm : m.Analyses uri)
    (he : fileExt uri = some .template) (hig : s.files.ignoreGlobals = false) (h : s.handle (env.over sx) w m = .ok (s', out, r))
    (hd : s'.files.documents.get? uri = some text) (ht : (s'.files.trees .template).get? uri = some tree)
    (hs : WellFormed (sx.root tree text)) (hk : (sx.root tree text).kind = .other)
    (hr : Tags sx.digit (sx.root tree text).children is) (hue : ReadsTree sx.digit (sx.root tree text) es) (hes : Elems.Wf es)
    (hi : Refs sx.options (sx.root tree text).children ss) (hss : ImpStmt.Wf ss)
    (u : Use) (hu : .use u ∈ es) (hvar : u.mark = .variable) (hn : u.root.text = d.1)
    (hno : ∀ x ∈ Items.bindings (env.rootEnd tree) 0 is, x.name = u.root.text → x.kind = .templateBlock) :
    ∃ ds, out = [.diag (HMap.empty.insert uri ds)] ∧ ⟨.definedSomewhere, d.1, u.root.start, u.root.stop⟩ ∈ useDiags ds ∧
      ∀ rep ∈ useDiags ds, rep.start = u.root.start → rep.kind = .definedSomewhere :=
  known_reported env sx w s s' b d hb.backend (hb.recorded hpf) m uri text tree out r is es ss hm he hig h hd ht hs hk hr hue hes hi hss u hu hvar hn hno

/-- goto-definition leads to a recorded name -/
theorem known_goto (env : Env) (sx : Syntax) (w : World) (s : Server) (b : Str) (d : Str × Point × Point) (hb : fileExt b = some .backend) (hrec : Recorded s.files b .backendVariable d)
    (uri text : Str) (tree : Tree) (is : List Item) (es : List Elem)
    (ss : List ImpStmt) (u : Use) (pos : Position) (hx : fileExt uri = some .template) (h : Analysed env s.files uri text tree is)
    (hs : WellFormed (sx.root tree text)) (hl : Laid (sx.root tree text)) (hr : ReadsTree sx.digit (sx.root tree text) es) (hw : Elems.Wf es) (hu : .use u ∈ es)
    (h1 : u.root.start ≤ toPoint pos) (h2 : toPoint pos < u.root.stop) (hk : (sx.root tree text).kind = .other)
    (hi : Refs sx.options (sx.root tree text).children ss) (hss : ImpStmt.Wf ss)
    (hn : ∀ i ∈ ss, ∀ t ∈ i.names, ¬ (t.start ≤ toPoint pos ∧ toPoint pos ≤ t.stop))
    (hno : ∀ x ∈ Items.bindings (env.rootEnd tree) 0 is, ¬ Reaches u.root.text (toPoint pos) x)
    (hurl : ∀ file v, Elsewhere s.files uri u.root.text file v → env.urlParse (targetOf file v) ≠ none ∧ Fits v)
    (hname : u.root.text = d.1) (hdot : '.' ∉ d.1) (hne : d.2.1 ≠ ⟨0, 0⟩ ∨ d.2.2 ≠ ⟨0, 0⟩) :
    ∃ ls file, s.handle (env.over sx) w (.goto uri pos) = .ok (s, [], .goto (some (.array ls))) ∧ env.urlParse b = some file ∧
      ⟨file, ⟨⟨d.2.1.row, d.2.1.column⟩, ⟨d.2.2.row, d.2.2.column⟩⟩⟩ ∈ ls := by
  obtain ⟨vars, hv, i, him, _, hid⟩ := hrec
  obtain ⟨ls, k1, _, k2⟩ := C83_goto_elsewhere env sx w s uri text tree is es ss u pos hx h hs hl hr hw hu h1 h2 hk hi hss hn hno hurl
  have hin : i.name = d.1 := by rw [← hid]
  have his : i.start = d.2.1 := by rw [← hid]
  have hie : i.stop = d.2.2 := by rw [← hid]
  have hel : Elsewhere s.files uri u.root.text b i := ⟨backend_ne hb hx, vars, hv, him, by rw [hname]; exact hdot, .inl (by rw [hname, hin])⟩
  have ht : targetOf b i = b := by
    unfold targetOf
    rw [if_neg]
    rw [his, hie]
    rintro ⟨a, c⟩
    rcases hne with h | h
    · exact h a
    · exact h c
  have hurl' := (hurl b i hel).1
  rw [ht] at hurl'
  cases hf : env.urlParse b with
  | none => exact (hurl' hf).elim
  | some file =>
    refine ⟨ls, file, k1, rfl, (k2 _).mpr ⟨b, i, hel, ?_⟩⟩
    simp only [placeOf, ht, hf, Option.getD_some, rangeOf, his, hie]

/-- **C124** (goto-definition) With the cursor on such a variable, goto-definition leads to the place where the backend file passes it, among others. -/
theorem C124_goto (env : Env) (sx : Syntax) (w : World) (s : Server) (b : Str) (d : Str × Point × Point) (hb : HasPassed env sx s b d)
    (hpf : ∀ g t o, env.parseFails g t o = false) (uri text : Str) (tree : Tree) (is : List Item) (es : List Elem)
    (ss : List ImpStmt) (u : Use) (pos : Position) (hx : fileExt uri = some .template) (h : Analysed env s.files uri text tree is)
    (hs : WellFormed (sx.root tree text)) (hl : Laid (sx.root tree text)) (hr : ReadsTree sx.digit (sx.root tree text) es) (hw : Elems.Wf es) (hu : .use u ∈ es)
    (h1 : u.root.start ≤ toPoint pos) (h2 : toPoint pos < u.root.stop) (hk : (sx.root tree text).kind = .other)
    (hi : Refs sx.options (sx.root tree text).children ss) (hss : ImpStmt.Wf ss)
    (hn : ∀ i ∈ ss, ∀ t ∈ i.names, ¬ (t.start ≤ toPoint pos ∧ toPoint pos ≤ t.stop))
    (hno : ∀ x ∈ Items.bindings (env.rootEnd tree) 0 is, ¬ Reaches u.root.text (toPoint pos) x)
    (hurl : ∀ file v, Elsewhere s.files uri u.root.text file v → env.urlParse (targetOf file v) ≠ none ∧ Fits v)
    (hname : u.root.text = d.1) (hdot : '.' ∉ d.1) (hne : d.2.1 ≠ ⟨0, 0⟩ ∨ d.2.2 ≠ ⟨0, 0⟩) :
    ∃ ls file, s.handle (env.over sx) w (.goto uri pos) = .ok (s, [], .goto (some (.array ls))) ∧ env.urlParse b = some file ∧
      ⟨file, ⟨⟨d.2.1.row, d.2.1.column⟩, ⟨d.2.2.row, d.2.2.column⟩⟩⟩ ∈ ls :=
  known_goto env sx w s b d hb.backend (hb.recorded hpf) uri text tree is es ss u pos hx h hs hl hr hw hu h1 h2 hk hi hss hn hno hurl hname hdot hne

/-- hover shows a recorded name -/
theorem known_hover (env : Env) (sx : Syntax) (w : World) (s : Server) (b : Str) (d : Str × Point × Point) (hb : fileExt b = some .backend) (hrec : Recorded s.files b .backendVariable d)
    (uri text : Str) (tree : Tree) (is : List Item) (es : List Elem)
    (u : Use) (pos : Position) (hx : fileExt uri = some .template) (h : Analysed env s.files uri text tree is) (hs : WellFormed (sx.root tree text))
    (hl : Laid (sx.root tree text)) (hr : ReadsTree sx.digit (sx.root tree text) es) (hw : Elems.Wf es) (hu : .use u ∈ es) (hvar : u.mark = .variable)
    (h1 : u.root.start ≤ toPoint pos) (h2 : toPoint pos < u.root.stop)
    (hno : ∀ x ∈ Items.bindings (env.rootEnd tree) 0 is, ¬ InForce u.root.text u.root.start x) (hname : u.root.text = d.1) (hdot : '.' ∉ d.1) :
    s.handle (env.over sx) w (.hover uri pos) = .ok (s, [], .hover (some c!"Backend variable")) := by
  obtain ⟨vars, hv, i, him, _, hid⟩ := hrec
  rw [C83_hover_elsewhere env sx w s uri text tree is es u pos hx h hs hl hr hw hu hvar h1 h2 hno, if_pos]
  exact ⟨b, i, backend_ne hb hx, vars, hv, him, by rw [hname]; exact hdot, .inl (by rw [hname, ← hid])⟩

/-- **C124** (hover) Hovering such a variable shows that the backend defines it. -/
theorem C124_hover (env : Env) (sx : Syntax) (w : World) (s : Server) (b : Str) (d : Str × Point × Point) (hb : HasPassed env sx s b d)
    (hpf : ∀ g t o, env.parseFails g t o = false) (uri text : Str) (tree : Tree) (is : List Item) (es : List Elem)
    (u : Use) (pos : Position) (hx : fileExt uri = some .template) (h : Analysed env s.files uri text tree is) (hs : WellFormed (sx.root tree text))
    (hl : Laid (sx.root tree text)) (hr : ReadsTree sx.digit (sx.root tree text) es) (hw : Elems.Wf es) (hu : .use u ∈ es) (hvar : u.mark = .variable)
    (h1 : u.root.start ≤ toPoint pos) (h2 : toPoint pos < u.root.stop)
    (hno : ∀ x ∈ Items.bindings (env.rootEnd tree) 0 is, ¬ InForce u.root.text u.root.start x) (hname : u.root.text = d.1) (hdot : '.' ∉ d.1) :
    s.handle (env.over sx) w (.hover uri pos) = .ok (s, [], .hover (some c!"Backend variable")) :=
  known_hover env sx w s b d hb.backend (hb.recorded hpf) uri text tree is es u pos hx h hs hl hr hw hu hvar h1 h2 hno hname hdot

/-- completion offers a recorded name -/
theorem known_offered (env : Env) (sx : Syntax) (w : World) (s : Server) (b : Str) (d : Str × Point × Point) (hrec : Recorded s.files b .backendVariable d)
    (uri text : Str) (tree : Tree) (is : List Item) (pos : Position)
    (tr : TriggerKind) (htr : Requested tr) (hx : fileExt uri = some .template) (h : Analysed env s.files uri text tree is)
    (hr : Regular (sx.root tree text)) (hbe : Beside sx.digit (sx.root tree text) (toPoint pos))
    (hp : ∀ k ∈ (sx.root tree text).flat, IsPipe k → ¬ Touches (toPoint pos) k) (hin : ∃ e ∈ (sx.root tree text).flat, Within (toPoint pos) e) :
    ∃ items, s.handle (env.over sx) w (.completion uri pos tr) = .ok (s, [], .completion (some items)) ∧ d.1 ∈ items.map (·.label) := by
  obtain ⟨vars, hv, i, him, hik, hid⟩ := hrec
  obtain ⟨own, rest, k1, _, _, k2⟩ := C86_names env sx w s uri text tree is pos tr htr hx h hr hbe hp hin
  refine ⟨_, k1, ?_⟩
  rw [List.map_append, List.mem_append]
  exact .inr ((k2 _).mpr ⟨b, vars, i, hv, him, hik, by rw [← hid]⟩)

/-- **C124** (completion) Inside an expression, at a place without a name, it is offered. -/
theorem C124_offered (env : Env) (sx : Syntax) (w : World) (s : Server) (b : Str) (d : Str × Point × Point) (hb : HasPassed env sx s b d)
    (hpf : ∀ g t o, env.parseFails g t o = false) (uri text : Str) (tree : Tree) (is : List Item) (pos : Position)
    (tr : TriggerKind) (htr : Requested tr) (hx : fileExt uri = some .template) (h : Analysed env s.files uri text tree is)
    (hr : Regular (sx.root tree text)) (hbe : Beside sx.digit (sx.root tree text) (toPoint pos))
    (hp : ∀ k ∈ (sx.root tree text).flat, IsPipe k → ¬ Touches (toPoint pos) k) (hin : ∃ e ∈ (sx.root tree text).flat, Within (toPoint pos) e) :
    ∃ items, s.handle (env.over sx) w (.completion uri pos tr) = .ok (s, [], .completion (some items)) ∧ d.1 ∈ items.map (·.label) :=
  known_offered env sx w s b d (hb.recorded hpf) uri text tree is pos tr htr hx h hr hbe hp hin

/-- completion offers a recorded name while typing -/
theorem known_typed (env : Env) (sx : Syntax) (w : World) (s : Server) (b : Str) (d : Str × Point × Point) (hrec : Recorded s.files b .backendVariable d)
    (uri text : Str) (tree : Tree) (is : List Item) (es : List Elem)
    (pos : Position) (tr : TriggerKind) (htr : Requested tr) (hx : fileExt uri = some .template) (h : Analysed env s.files uri text tree is)
    (hr : Regular (sx.root tree text)) (hro : ReadsTree sx.digit (sx.root tree text) es) (hw : Elems.Wf es) (u : Use) (hu : .use u ∈ es)
    (typed untyped : Str) (hn : u.root.text = typed ++ untyped) (hty : typed ≠ [])
    (hstop : u.root.stop = ⟨u.root.start.row, u.root.start.column + utf8Len u.root.text⟩)
    (hpos : toPoint pos = ⟨u.root.start.row, u.root.start.column + utf8Len typed⟩)
    (h3 : ∀ n ∈ (sx.root tree text).flat, Relevant sx.digit n → u.root.stop ≤ n.start → toPoint pos < n.start)
    (e : Syn) (he : e ∈ (sx.root tree text).flat) (hek : e.kind = .expression) (he1 : e.first.2 ≤ u.root.start) (he2 : e.start ≤ u.root.start)
    (he3 : toPoint pos < e.stop) :
    ∃ items, s.handle (env.over sx) w (.completion uri pos tr) = .ok (s, [], .completion (some items)) ∧ d.1 ∈ items.map (·.label) := by
  obtain ⟨vars, hv, i, him, hik, hid⟩ := hrec
  obtain ⟨own, rest, k1, _, _, k2⟩ := C86_typed env sx w s uri text tree is es pos tr htr hx h hr hro hw u hu typed untyped hn hty hstop hpos h3 e he hek
    he1 he2 he3
  refine ⟨_, k1, ?_⟩
  rw [List.map_append, List.mem_append]
  exact .inr ((k2 _).mpr ⟨b, vars, i, hv, him, hik, by rw [← hid]⟩)

/-- **C124** (completion) While a name is typed, it is offered as well. -/
theorem C124_typed (env : Env) (sx : Syntax) (w : World) (s : Server) (b : Str) (d : Str × Point × Point) (hb : HasPassed env sx s b d)
    (hpf : ∀ g t o, env.parseFails g t o = false) (uri text : Str) (tree : Tree) (is : List Item) (es : List Elem)
    (pos : Position) (tr : TriggerKind) (htr : Requested tr) (hx : fileExt uri = some .template) (h : Analysed env s.files uri text tree is)
    (hr : Regular (sx.root tree text)) (hro : ReadsTree sx.digit (sx.root tree text) es) (hw : Elems.Wf es) (u : Use) (hu : .use u ∈ es)
    (typed untyped : Str) (hn : u.root.text = typed ++ untyped) (hty : typed ≠ [])
    (hstop : u.root.stop = ⟨u.root.start.row, u.root.start.column + utf8Len u.root.text⟩)
    (hpos : toPoint pos = ⟨u.root.start.row, u.root.start.column + utf8Len typed⟩)
    (h3 : ∀ n ∈ (sx.root tree text).flat, Relevant sx.digit n → u.root.stop ≤ n.start → toPoint pos < n.start)
    (e : Syn) (he : e ∈ (sx.root tree text).flat) (hek : e.kind = .expression) (he1 : e.first.2 ≤ u.root.start) (he2 : e.start ≤ u.root.start)
    (he3 : toPoint pos < e.stop) :
    ∃ items, s.handle (env.over sx) w (.completion uri pos tr) = .ok (s, [], .completion (some items)) ∧ d.1 ∈ items.map (·.label) :=
  known_typed env sx w s b d (hb.recorded hpf) uri text tree is es pos tr htr hx h hr hro hw u hu typed untyped hn hty hstop hpos h3 e he hek he1 he2 he3

/-- backend files are Rust or Python files -/
theorem language_handle {env : Env} {w : World} {s s1 : Server} {m : Msg} {out : List Send} {r : Reply}
    (hf : s.files.queriesBackend = .rust ∨ s.files.queriesBackend = .python) (h1 : s.handle env w m = .ok (s1, out, r)) :
    s1.files.queriesBackend = .rust ∨ s1.files.queriesBackend = .python := by
  cases handle_files h1 with
  | query _ h | command _ h | config _ h | notInitialized h => rw [h]; exact hf
  | «initialize» _ _ h => rcases h with h | h <;> (rw [h]; exact hf)
  | codeActions m h => rw [h, (addCodeActions_frame w.order s.files m).2.2.2.1.qb]; exact hf
  | didOpen u t m h => rw [(Frame.didOpen h).conf.qb]; exact hf
  | didSave u m h => rw [(Frame.didSave h).conf.qb]; exact hf
  | didChange u cs b h => rw [(Frame.didChange h).conf.qb]; exact hf
  | initialized f d h e =>
    rw [e]
    show f.queriesBackend = .rust ∨ f.queriesBackend = .python
    refine walkdir_induct (fun f => f.queriesBackend = .rust ∨ f.queriesBackend = .python) ?_ (fun f path l g hf hl hg => ?_) h
    · unfold walkStart
      split
      · exact .inr rfl
      · exact .inl rfl
    · cases hc : w.canonicalize path with
      | error e => simp only [LspFiles.readFile, hc] at hg; cases hg; exact hf
      | ok name => rw [(Frame.readFile hg hc).conf.qb]; exact hf

theorem language_run {env : Env} : ∀ (ms : List (World × Msg)) (s s' : Server),
    s.files.queriesBackend = .rust ∨ s.files.queriesBackend = .python → s.run env ms = .ok s' →
    s'.files.queriesBackend = .rust ∨ s'.files.queriesBackend = .python
  | [], s, s', hf, hr => by simp only [Server.run] at hr; cases hr; exact hf
  | (w, m) :: ms, s, s', hf, hr => by
    simp only [Server.run] at hr
    split at hr
    · cases hr
    · rename_i s1 out r h1
      exact language_run ms s1 s' (language_handle hf h1) hr

/-- the names with entries of the backend are those that some backend file passes -/
theorem backendName_iff {env : Env} {sx : Syntax} {s : Server} (hpf : ∀ g t o, env.parseFails g t o = false)
    {ms : List (World × Msg)} (hrun : Server.init.run (env.over sx) ms = .ok s) (hm : ∀ m ∈ ms, KeepsClass m.1 ∧ Ranged m.2)
    (hs : ∀ b, fileExt b = some .backend → Saved b (ms.map Prod.snd))
    (hall : ∀ b text T, fileExt b = some .backend → s.files.documents.get? b = some text → (s.files.trees .backend).get? b = some T →
      Legible (sx.root T text) ∧ ¬ HasError (sx.root T text)) (n : Str) :
    BackendName s.files n ↔ ∃ b d, HasPassed env sx s b d ∧ d.1 = n := by
  constructor
  · rintro ⟨b, vs, v, hv, hvm, hk, rfl⟩
    have hkind := C38_kinds_partial (env.over sx) ms Server.init s (by intro _ _ _ h; cases h) (fun m h => (hm m h).1) hrun
    have k := kept_run (env := env.over sx) hpf b ms Server.init s False ((kept_init b).weaken fun _ => trivial) hm hrun
    obtain ⟨hl, hd⟩ := k.vars (by rw [hv]; simp)
    cases he : fileExt b with
    | none => exact (hl he).elim
    | some l =>
      cases l with
      | template => exact (hkind b vs he hv v hvm hk).elim
      | backend =>
        cases hd' : s.files.documents.get? b with
        | none => exact (hd hd').elim
        | some text =>
          obtain ⟨old, ht⟩ := k.fresh .backend text he hd'
          obtain ⟨hl, hno⟩ := hall b text _ he hd' ht
          have hr : Reached (env.over sx) b s := ⟨ms, hrun, hm, hs b he⟩
          have hrec : Recorded s.files b .backendVariable (v.name, v.start, v.stop) := ⟨vs, hv, v, hvm, hk, rfl⟩
          have : Passes (sx.root (.parsed (s.files.grammar .backend) text old) text) s.files.queriesBackend (v.name, v.start, v.stop) := by
            rcases language_run ms Server.init s (.inl rfl) hrun with hq | hq
            · rw [hq]
              rcases (C74_session env sx s b text _ hr hpf he hq hd' ht hl hno _).mp hrec with ⟨n, h1, h2, h3⟩ | ⟨n, h1, h3⟩
              · rw [h3]; exact .key h1 h2
              · rw [h3]; exact .registered h1
            · rw [hq]
              obtain ⟨n, h1 | h1, h3⟩ := (C76_session env sx s b text _ hr hpf he hq hd' ht hl hno _).mp hrec
              · rw [h3]; exact .table h1
              · rw [h3]; exact .keyword h1
          exact ⟨b, _, ⟨he, hr, text, _, hd', ht, hl, hno, this⟩, rfl⟩
  · rintro ⟨b, d, hb, rfl⟩
    obtain ⟨vars, hv, i, him, hik, hid⟩ := hb.recorded hpf
    exact ⟨b, vars, i, hv, him, hik, by rw [← hid]⟩

/-- **C124** (completion) And nothing else: at every point of every session in which all backend files are saved and free of errors, what is offered inside
an expression are the variables in force there and, exactly, the names that backend files pass. -/
theorem C124_offered_only (env : Env) (sx : Syntax) (w : World) (s : Server) (hpf : ∀ g t o, env.parseFails g t o = false)
    (ms : List (World × Msg)) (hrun : Server.init.run (env.over sx) ms = .ok s) (hm : ∀ m ∈ ms, KeepsClass m.1 ∧ Ranged m.2)
    (hsv : ∀ b, fileExt b = some .backend → Saved b (ms.map Prod.snd))
    (hall : ∀ b text T, fileExt b = some .backend → s.files.documents.get? b = some text → (s.files.trees .backend).get? b = some T →
      Legible (sx.root T text) ∧ ¬ HasError (sx.root T text))
    (uri text : Str) (tree : Tree) (is : List Item) (pos : Position)
    (tr : TriggerKind) (htr : Requested tr) (hx : fileExt uri = some .template) (h : Analysed env s.files uri text tree is)
    (hr : Regular (sx.root tree text)) (hbe : Beside sx.digit (sx.root tree text) (toPoint pos))
    (hp : ∀ k ∈ (sx.root tree text).flat, IsPipe k → ¬ Touches (toPoint pos) k) (hin : ∃ e ∈ (sx.root tree text).flat, Within (toPoint pos) e) :
    ∃ items, s.handle (env.over sx) w (.completion uri pos tr) = .ok (s, [], .completion (some items)) ∧
      ∀ n, n ∈ items.map (·.label) ↔
        (∃ x ∈ Items.bindings (env.rootEnd tree) 0 is, InForce n (toPoint pos) x ∧ x.kind ≠ .jinjaTemplate) ∨
        ∃ b d, HasPassed env sx s b d ∧ d.1 = n := by
  obtain ⟨own, rest, k1, _, k3, k2⟩ := C86_names env sx w s uri text tree is pos tr htr hx h hr hbe hp hin
  refine ⟨_, k1, fun n => ?_⟩
  rw [List.map_append, List.mem_append, k3, k2, backendName_iff hpf hrun hm hsv hall]

namespace Fix

/-- `context! { b => c }` -/
def passRust : Syn := nd .other none 1
  [nd .macroInvocation none 2 [lf .identifier 3 0 0 7 c!"context", nd .tokenTree none 4
      [lf .identifier 5 0 11 12 c!"b", lf .other 6 0 13 15 c!"=>", lf .identifier 7 0 16 17 c!"c"]]]

/-- a project with this file and the template `{% set a = 1 %} {{ a }} {{ b |upper }}` -/
def passSyn : Syntax :=
  ⟨fun T _ => match T with
    | .parsed .jinja _ _ => flatRoot
    | _ => passRust, digit, fun _ _ => [[]], fun _ => true⟩

/-- the file is opened and saved -/
def passDay : List (World × Msg) := [(rootWorld, .didOpen uriRsFile []), (rootWorld, .didSave uriRsFile)]

end Fix

theorem Fix.pass_reached {s : Server} {rest : List (World × Msg)} (h : Server.init.run (Fix.env.over Fix.passSyn) (Fix.passDay ++ rest) = .ok s)
    (hr : rest = [] ∨ rest = [(Fix.rootWorld, .didOpen Fix.uriA [])]) (b : Str) :
    (∀ m ∈ Fix.passDay ++ rest, KeepsClass m.1 ∧ Ranged m.2) ∧ Saved b ((Fix.passDay ++ rest).map Prod.snd) := by
  constructor
  · intro m hm
    rcases hr with rfl | rfl <;> simp only [Fix.passDay, List.cons_append, List.nil_append, List.append_nil, List.mem_cons, List.not_mem_nil, or_false] at hm
    · rcases hm with rfl | rfl <;> exact ⟨Fix.rootWorld_orderly.1, fun u cs e => by cases e⟩
    · rcases hm with rfl | rfl | rfl <;> exact ⟨Fix.rootWorld_orderly.1, fun u cs e => by cases e⟩
  · intro x y cs e
    have : Msg.didChange b cs ∈ (Fix.passDay ++ rest).map Prod.snd := by rw [e]; simp
    rcases hr with rfl | rfl <;> simp [Fix.passDay] at this

/-- The hypotheses of `C124_reported` hold: a Rust file that passes `b` has been opened and saved, then a template is opened that uses `b`. -/
example : ∃ s s' out r, Server.init.run (Fix.env.over Fix.passSyn) Fix.passDay = .ok s ∧
    HasPassed Fix.env Fix.passSyn s Fix.uriRsFile (c!"b", ⟨0, 11⟩, ⟨0, 12⟩) ∧ s.files.ignoreGlobals = false ∧
    s.handle (Fix.env.over Fix.passSyn) Fix.rootWorld (.didOpen Fix.uriA []) = .ok (s', out, r) ∧
    s'.files.documents.get? Fix.uriA = some [] ∧ (s'.files.trees .template).get? Fix.uriA = some (.parsed .jinja [] none) ∧
    Fix.useB.root.text = c!"b" ∧ ∀ x ∈ Items.bindings ⟨9, 9⟩ 0 Fix.flatTags, x.name ≠ c!"b" := by
  have : ∃ s s' out r, Server.init.run (Fix.env.over Fix.passSyn) Fix.passDay = .ok s ∧ s.files.documents.get? Fix.uriRsFile = some [] ∧
      (s.files.trees .backend).get? Fix.uriRsFile = some (.parsed .rust [] none) ∧ s.files.queriesBackend = .rust ∧ s.files.ignoreGlobals = false ∧
      s.handle (Fix.env.over Fix.passSyn) Fix.rootWorld (.didOpen Fix.uriA []) = .ok (s', out, r) ∧
      s'.files.documents.get? Fix.uriA = some [] ∧ (s'.files.trees .template).get? Fix.uriA = some (.parsed .jinja [] none) :=
    ⟨_, _, _, _, rfl, rfl, rfl, rfl, rfl, rfl, rfl, rfl⟩
  obtain ⟨s, s', out, r, h1, h2, h3, h4, h5, h6, h7, h8⟩ := this
  have hre := Fix.pass_reached (rest := []) (by simpa using h1) (.inl rfl) Fix.uriRsFile
  simp only [List.append_nil] at hre
  refine ⟨s, s', out, r, h1, ⟨by decide, ⟨_, h1, hre.1, hre.2⟩, [], _, h2, h3, ?_, ?_, ?_⟩, h5, h6, h7, h8, rfl, by decide⟩
  · unfold Legible; decide
  · unfold HasError; decide
  · rw [h4]
    refine Passes.key (n := Fix.lf .identifier 5 0 11 12 c!"b") ⟨rfl, Fix.nd .tokenTree none 4
      [Fix.lf .identifier 5 0 11 12 c!"b", Fix.lf .other 6 0 13 15 c!"=>", Fix.lf .identifier 7 0 16 17 c!"c"], ?_, rfl, List.mem_cons_self ..⟩ (by decide)
    simp [Fix.passSyn, Fix.passRust, Fix.nd, Fix.lf, Syn.flat, Syn.flatAll]

/-- Those of the others hold after that. (For `flatRoot` see the examples of C83 and C86.) -/
example : ∃ s, Server.init.run (Fix.env.over Fix.passSyn) (Fix.passDay ++ [(Fix.rootWorld, .didOpen Fix.uriA [])]) = .ok s ∧
    HasPassed Fix.env Fix.passSyn s Fix.uriRsFile (c!"b", ⟨0, 11⟩, ⟨0, 12⟩) ∧
    Analysed Fix.env s.files Fix.uriA [] (.parsed .jinja [] none) Fix.flatTags ∧ Fix.passSyn.root (.parsed .jinja [] none) [] = Fix.flatRoot ∧
    (∀ file v, Elsewhere s.files Fix.uriA c!"b" file v → Fix.env.urlParse (targetOf file v) ≠ none ∧ Fits v) ∧
    (∀ b text T, fileExt b = some .backend → s.files.documents.get? b = some text → (s.files.trees .backend).get? b = some T →
      Legible (Fix.passSyn.root T text) ∧ ¬ HasError (Fix.passSyn.root T text)) := by
  have : ∃ (s₀ s : Server) (out : List Send) (r : Reply), Server.init.run (Fix.env.over Fix.passSyn) (Fix.passDay ++ [(Fix.rootWorld, .didOpen Fix.uriA [])]) = .ok s ∧
      s₀.handle (Fix.env.over Fix.passSyn) Fix.rootWorld (.didOpen Fix.uriA []) = .ok (s, out, r) ∧
      s.files.documents.get? Fix.uriRsFile = some [] ∧
      (s.files.trees .backend).get? Fix.uriRsFile = some (.parsed .rust [] none) ∧ s.files.queriesBackend = .rust ∧
      s.files.documents.get? Fix.uriA = some [] ∧ (s.files.trees .template).get? Fix.uriA = some (.parsed .jinja [] none) ∧
      (s.files.trees .backend).entries.map Prod.snd = [.parsed .rust [] none] ∧
      (∀ e ∈ s.files.variables.entries, ∀ v ∈ e.2, v.start.row < 5 ∧ v.start.column < 30 ∧ v.stop.row < 5 ∧ v.stop.column < 30) :=
    ⟨_, _, _, _, rfl, rfl, rfl, rfl, rfl, rfl, rfl, rfl, by decide⟩
  obtain ⟨s₀, s, out, r, h1, h0, h2, h3, h4, h5, h6, h7, h8⟩ := this
  have hre := Fix.pass_reached h1 (.inr rfl) Fix.uriRsFile
  have hl : Legible Fix.passRust := by unfold Legible; decide
  have hno : ¬ HasError Fix.passRust := by unfold HasError; decide
  refine ⟨s, h1, ⟨by decide, ⟨_, h1, hre.1, hre.2⟩, [], _, h2, h3, hl, hno, ?_⟩, ?_, rfl, ?_, ?_⟩
  · rw [h4]
    refine Passes.key (n := Fix.lf .identifier 5 0 11 12 c!"b") ⟨rfl, Fix.nd .tokenTree none 4
      [Fix.lf .identifier 5 0 11 12 c!"b", Fix.lf .other 6 0 13 15 c!"=>", Fix.lf .identifier 7 0 16 17 c!"c"], ?_, rfl, List.mem_cons_self ..⟩ (by decide)
    simp [Fix.passSyn, Fix.passRust, Fix.nd, Fix.lf, Syn.flat, Syn.flatAll]
  · exact C83_analysed Fix.env Fix.passSyn Fix.rootWorld s₀ s (.didOpen Fix.uriA []) Fix.uriA [] _ out r _ (.opened _) rfl h0 h5 h6
      Fix.flat_wellFormed rfl Fix.flatTags_read
  · rintro file v ⟨_, vs, hg, hv, _⟩
    have := h8 (file, vs) ((HMap.get?_eq_some_iff ..).mp hg) v hv
    refine ⟨by simp [Fix.env], ?_⟩
    simp only [Fits]
    omega
  · intro b text T _ _ ht
    have := List.mem_map_of_mem (f := Prod.snd) ((HMap.get?_eq_some_iff ..).mp ht)
    rw [h7] at this
    cases List.mem_singleton.mp this
    exact ⟨hl, hno⟩

/-- Those of `C76_session` and `C78_session_python` hold after the start of a Python project in which a file is opened. -/
example : ∃ s, Reached (Fix.env.over (Fix.pySyn Fix.pyRoot)) Fix.uriPyFile s ∧ s.files.queriesBackend = .python ∧
    s.files.documents.get? Fix.uriPyFile = some [] ∧ (s.files.trees .backend).get? Fix.uriPyFile = some (.parsed .python [] none) ∧
    Legible Fix.pyRoot ∧ ¬ HasError Fix.pyRoot := by
  have : ∃ s, Server.init.run (Fix.env.over (Fix.pySyn Fix.pyRoot))
      [(Fix.rootWorld, .initialize none (some (some { JinjaConfig.default with lang := c!"python", templates := c!"/t" }))), (Fix.rootWorld, .initialized),
        (Fix.rootWorld, .didOpen Fix.uriPyFile [])] = .ok s ∧ s.files.queriesBackend = .python ∧ s.files.documents.get? Fix.uriPyFile = some [] ∧
      (s.files.trees .backend).get? Fix.uriPyFile = some (.parsed .python [] none) := ⟨_, rfl, rfl, rfl, rfl⟩
  obtain ⟨s, h1, h2, h3, h4⟩ := this
  refine ⟨s, ⟨_, h1, ?_, ?_⟩, h2, h3, h4, by unfold Legible; decide, by unfold HasError; decide⟩
  · intro m hm
    simp only [List.mem_cons, List.not_mem_nil, or_false] at hm
    rcases hm with rfl | rfl | rfl <;> exact ⟨Fix.rootWorld_orderly.1, fun u cs e => by cases e⟩
  · intro x y cs e
    have : Msg.didChange Fix.uriPyFile cs ∈ x ++ Msg.didChange Fix.uriPyFile cs :: y := by simp
    rw [← e] at this
    simp at this

end JinjaLsp
