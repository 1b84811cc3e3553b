import Verif.Props.ScopedCompletion
import Verif.Props.Displayed
/-
  C123: what is on the screen when typing has stopped, against Jinja's scoping rules (Spec/Jinja.lean).
-/

namespace JinjaLsp
open Spec

namespace Spec

/-- the place of a token as the editor counts it -/
def Tok.range (t : Tok) : Range := ⟨⟨t.start.row, t.start.column⟩, ⟨t.stop.row, t.stop.column⟩⟩

/-- a diagnostic about a name, not about a missing template -/
def AboutName (d : Diagnostic) : Prop := d.message ≠ c!"Template not found"

/-- the token is underlined as undefined or as defined in another file -/
def Underlined (ds : List Diagnostic) (t : Tok) : Prop := ∃ d ∈ ds, AboutName d ∧ d.range = t.range

/-- nothing is underlined at the token -/
def Clear (ds : List Diagnostic) (t : Tok) : Prop := ∀ d ∈ ds, AboutName d → d.range.start ≠ t.range.start

/-- what the editor shows about a file -/
def Displays (σ : Sys) (u : Str) (ds : List Diagnostic) : Prop := (σ.published.filter fun p => p.1 = u).getLast? = some (u, ds)

end Spec

theorem underlined_of {u : Str} {ds : Diags} {t : Tok} (h : Reported u [.diag (HMap.empty.insert u ds)] t) :
    Underlined ((ds.map report).map shown) t := by
  obtain ⟨ds', h1, rep, h2, _, h3, h4⟩ := h
  have : ds' = ds := by
    simp only [List.cons.injEq, Send.diag.injEq, and_true] at h1
    have := congrArg (fun x => x.get? u) h1
    simpa using this.symm
  subst this
  obtain ⟨d, hd, rfl⟩ := List.mem_map.mp h2
  obtain ⟨hd1, hd2⟩ := List.mem_filter.mp hd
  refine ⟨shown (report d), List.mem_map_of_mem (List.mem_map_of_mem hd1), ?_, ?_⟩
  · obtain ⟨k, i⟩ := d
    cases k <;> simp_all [AboutName, shown, report]
  · simp only [shown, Tok.range, h3, h4]

theorem clear_of {u : Str} {ds : Diags} {t : Tok} (h : Unreported u [.diag (HMap.empty.insert u ds)] t) :
    Clear ((ds.map report).map shown) t := by
  obtain ⟨ds', h1, h2⟩ := h
  have : ds' = ds := by
    simp only [List.cons.injEq, Send.diag.injEq, and_true] at h1
    have := congrArg (fun x => x.get? u) h1
    simpa using this.symm
  subst this
  intro d hd ha he
  obtain ⟨rep, hr, rfl⟩ := List.mem_map.mp hd
  obtain ⟨e, hem, rfl⟩ := List.mem_map.mp hr
  refine h2 (report e) (List.mem_map_of_mem (List.mem_filter.mpr ⟨hem, ?_⟩)) ?_
  · obtain ⟨k, i⟩ := e
    cases k <;> simp_all [AboutName, shown, report]
  · simp only [shown, Tok.range, Position.mk.injEq] at he
    exact Point.ext he.1 he.2

/-- at rest, the template is one that has been saved -/
theorem rest_shown {W : World → Prop} (hO : ∀ w, W w → Orderly w) (env : Env) (sx : Syntax) (he : Sound (env.over sx))
    (hu : NormalUrls env) (cs : List Msg) (as : List (HMap Str Diags)) (σ : Sys) (s : Server) (h : Execution W (env.over sx) cs as σ)
    (hs : SmallResults as) (u : Str) (E : Editor) (ht : StoppedTyping (env.over sx) cs u E) (hi : AtRest σ s) (hm : s.files.mainChannel = true)
    (hx : fileExt u = some .template) (hig : s.files.ignoreGlobals = false) :
    ∃ text old w s1 s2 r ds, E u = some text ∧ (s.files.trees .template).get? u = some (.parsed .jinja text old) ∧
      Displays σ u ((ds.map report).map shown) ∧ SameWorkspace s2.files s.files ∧
      ∀ p es ss, AsProgram env sx text (.parsed .jinja text old) p es ss →
        Shown env sx w s1 s2 (.didSave u) u text (.parsed .jinja text old) [.diag (HMap.empty.insert u ds)] r p es ss ∧
        Spec.Analysed env s.files u text (.parsed .jinja text old) p.items := by
  obtain ⟨text, old, w, s1, s2, r, ds, e1, e2, e4, k1, k2, k3, hf, k4⟩ :=
    quiet_saved hO (env.over sx) he ⟨hu.same⟩ cs as σ s h hs u E ht hi hm hx
  refine ⟨text, old, w, s1, s2, r, ds, e1, e4, k4, k3, fun p es ss hr => ?_⟩
  have hsh : Shown env sx w s1 s2 (.didSave u) u text (.parsed .jinja text old) [.diag (HMap.empty.insert u ds)] r p es ss :=
    ⟨hr, .saved, hx, by rw [← hf.conf.ign, ← k3.conf.ign]; exact hig, k2, k3.documents ▸ e2, k3.trees ▸ e4⟩
  obtain ⟨_, _, vs, h1, h2⟩ := hsh.analysed
  exact ⟨hsh, e2, e4, vs, k3.variables ▸ h1, h2⟩

/-! ### Example -/

namespace Fix

/-- the template of C71 -/
def restP : Program :=
  .stmt (dst 1 0 22) [] (.cond (dst 2 1 10) (tok 1 3 5 c!"if" 13) [.name (tok 1 6 7 c!"c" 14)]
    (.set (dst 3 2 15) (tok 2 3 6 c!"set" 15) (tok 2 7 8 c!"a" 16) [.eq (tok 2 9 10 c!"=" 17)] .done) ⟨tok 3 3 8 c!"endif" 19, [], dst 4 3 11⟩
    (.out [.name (tok 4 3 4 c!"a" 20)] [] (.out [.name (tok 4 10 11 c!"b" 21), .name (tok 4 13 18 c!"upper" 23)] [] .done)))

theorem rest_reads (text : Str) (tree : Tree) : AsProgram showing syn text tree restP elems refs :=
  have h1 : WellFormed root := ⟨by decide, by decide, by decide⟩
  have h2 : InOrder ⟨9, 9⟩ restP.toks := ⟨by decide, by decide, by decide⟩
  ⟨h1, rfl, tags_read, elems_read, elems_wf, refs_read _, refs_wf, h2⟩

end Fix

/-! ## C123 -/

/-- **C123** (part: diagnostics) When typing has stopped and the server has come to rest, a variable of the text in the editor is underlined if Jinja does
not find it bound, and is not underlined if Jinja finds it bound.  Missing: the bindings and templates excluded in C120, for which this is false. -/
theorem C123_diagnostics_partial {W : World → Prop} (hO : ∀ w, W w → Orderly w) (env : Env) (sx : Syntax) (he : Sound (env.over sx))
    (hu : NormalUrls env) (cs : List Msg) (as : List (HMap Str Diags)) (σ : Sys) (s : Server) (h : Execution W (env.over sx) cs as σ)
    (hs : SmallResults as) (u : Str) (E : Editor) (ht : StoppedTyping (env.over sx) cs u E) (hi : AtRest σ s) (hm : s.files.mainChannel = true)
    (hx : fileExt u = some .template) (hig : s.files.ignoreGlobals = false) :
    ∃ text old ds, E u = some text ∧ (s.files.trees .template).get? u = some (.parsed .jinja text old) ∧ Displays σ u ds ∧
      ∀ p es ss, AsProgram env sx text (.parsed .jinja text old) p es ss → ∀ v : Use, .use v ∈ es → v.mark = .variable →
        (v.root.text ∉ p.heads.map (·.text) → Underlined ds v.root) ∧
        ∀ visible, (v.root, visible) ∈ p.sees [] [] →
          (p.Paired → LexicallyBound visible v.root → Clear ds v.root) ∧ (p.Simple → ¬ IsBound visible v.root → Underlined ds v.root) := by
  obtain ⟨text, old, w, s1, s2, r, ds, e1, e4, k4, k3, hr⟩ := rest_shown hO env sx he hu cs as σ s h hs u E ht hi hm hx hig
  refine ⟨text, old, _, e1, e4, k4, fun p es ss hread v hv hvar => ?_⟩
  have hsh := (hr p es ss hread).1
  refine ⟨fun hn => underlined_of (C120_never _ _ _ _ _ _ _ _ _ _ _ _ _ _ hsh v hv hvar hn), fun visible hvis => ⟨fun hp hb => ?_, fun hp hb => ?_⟩⟩
  · exact clear_of (C120_bound_partial _ _ _ _ _ _ _ _ _ _ _ _ _ _ hsh hp v hv hvar visible hvis hb)
  · exact underlined_of (C120_unbound_partial _ _ _ _ _ _ _ _ _ _ _ _ _ _ hsh hp v hv hvar visible hvis hb)

/-- the session of C82: `b` is never bound -/
example : (∃ (as : List (HMap Str Diags)) (σ : Sys) (s : Server) (E : Editor), Execution (· = Fix.rootWorld) (Fix.showing.over Fix.syn) Fix.typing as σ ∧
      SmallResults as ∧ StoppedTyping (Fix.showing.over Fix.syn) Fix.typing Fix.uriT E ∧ AtRest σ s ∧ s.files.mainChannel = true ∧
      s.files.ignoreGlobals = false) ∧
    (∀ text tree, AsProgram Fix.showing Fix.syn text tree Fix.restP Fix.elems Fix.refs) ∧ Fix.restP.Simple ∧
    .use ⟨.variable, Fix.tok 4 10 11 c!"b" 21, []⟩ ∈ Fix.elems ∧
    ∃ v, (Fix.tok 4 10 11 c!"b" 21, v) ∈ Fix.restP.sees [] [] ∧ ¬ IsBound v (Fix.tok 4 10 11 c!"b" 21) := by
  obtain ⟨as, σ, s, E, h1, h2, h3, h4, h5, h6, _⟩ := Fix.comesToRest
  exact ⟨⟨as, σ, s, E, h1, h2, h3, h4, h5, h6⟩, Fix.rest_reads, ⟨.inl rfl, ⟨by decide, trivial⟩, trivial⟩, by simp [Fix.elems],
    [⟨Fix.tok 2 7 8 c!"a" 16, .setVariable, true⟩], by decide, by decide⟩

/-- **C123** (part: requests) At rest, goto-definition leads from a variable to the binding that Jinja resolves it to, hover names its kind, and completion
in it offers the names Jinja sees there.  Missing: as above, and names of blocks for goto-definition. -/
theorem C123_requests_partial {W : World → Prop} (hO : ∀ w, W w → Orderly w) (env : Env) (sx : Syntax) (he : Sound (env.over sx))
    (hu : NormalUrls env) (cs : List Msg) (as : List (HMap Str Diags)) (σ : Sys) (s : Server) (h : Execution W (env.over sx) cs as σ)
    (hs : SmallResults as) (u : Str) (E : Editor) (ht : StoppedTyping (env.over sx) cs u E) (hi : AtRest σ s) (hm : s.files.mainChannel = true)
    (hx : fileExt u = some .template) (hig : s.files.ignoreGlobals = false) :
    ∃ text old, E u = some text ∧ (s.files.trees .template).get? u = some (.parsed .jinja text old) ∧
      ∀ p es ss, AsProgram env sx text (.parsed .jinja text old) p es ss → p.Simple → Narrow p →
        Regular (sx.root (.parsed .jinja text old) text) → ∀ (v : Use) (visible : List Bound) (pos : Position) (w : World), .use v ∈ es →
        v.mark = .variable → (v.root, visible) ∈ p.sees [] [] →
        (∀ x, resolve visible v.root.text = some x → x.Lexical → v.root.start ≤ toPoint pos → toPoint pos < v.root.stop →
          (v.root.text ∉ p.blocks → s.handle (env.over sx) w (.goto u pos) = .ok (s, [], .goto (some (.scalar ⟨u, x.tok.range⟩)))) ∧
          s.handle (env.over sx) w (.hover u pos) = .ok (s, [], .hover (some (kindText x.kind)))) ∧
        ∀ tr typed, Requested tr → v.root ∉ p.tagged → TypedUse sx.digit (sx.root (.parsed .jinja text old) text) v pos typed →
          Offers (env.over sx) w s u pos tr fun n => (∃ x ∈ visible, x.Lexical ∧ x.tok.text = n) ∧ typed <+: n := by
  obtain ⟨text, old, _, s1, s2, r, ds, e1, e4, k4, k3, hr⟩ := rest_shown hO env sx he hu cs as σ s h hs u E ht hi hm hx hig
  refine ⟨text, old, e1, e4, fun p es ss hread hq hfit hreg v visible pos w hv hvar hvis => ⟨fun x hres hxl h1 h2 => ⟨fun hb => ?_, ?_⟩, ?_⟩⟩
  · exact hread.goto hx (hr p es ss hread).2 w hq hreg.laid hfit v hv visible hvis x hres hxl hb pos h1 h2
  · exact hread.hover hx (hr p es ss hread).2 w hq hreg.laid v hv hvar visible hvis x hres hxl pos h1 h2
  · exact fun tr typed htr ho hty => hread.typed hx (hr p es ss hread).2 w hq hreg v hv visible hvis ho pos typed hty tr htr

namespace Fix

/-- `{% set customer = 1 %}{{ a customer b }}` -/
def smallP : Program :=
  .set (tagOn 0) (tk 0 1 c!"set") (tk 0 2 c!"customer") [.eq (tk 0 3 c!"=")]
    (.out [.name (tk 1 1 c!"a"), .name (tk 1 2 c!"customer"), .name (tk 1 3 c!"b")] [] .done)

def restDefs : List (List Capture) :=
  [[⟨.definition, 2, ⟨0, 11⟩, ⟨0, 19⟩, some c!"set", (⟨0, 0⟩, ⟨0, 0⟩), (⟨0, 0⟩, ⟨0, 0⟩), none⟩],
   [⟨.id, 3, ⟨0, 21⟩, ⟨0, 29⟩, some c!"customer", (⟨0, 0⟩, ⟨0, 0⟩), (⟨0, 0⟩, ⟨0, 0⟩), none⟩],
   [⟨.equals, 4, ⟨0, 31⟩, ⟨0, 39⟩, some c!"=", (⟨0, 0⟩, ⟨0, 0⟩), (⟨0, 0⟩, ⟨0, 0⟩), none⟩],
   [⟨.scopeEnd, 1, ⟨0, 1⟩, ⟨0, 9⟩, some c!"{%", (⟨0, 0⟩, ⟨0, 0⟩), (⟨0, 0⟩, ⟨0, 0⟩), none⟩, ⟨.scopeStart, 21, ⟨0, 201⟩, ⟨0, 209⟩, some c!"%}", (⟨0, 0⟩, ⟨0, 0⟩), (⟨0, 0⟩, ⟨0, 0⟩), none⟩],
   [⟨.id, 102, ⟨1, 11⟩, ⟨1, 19⟩, some c!"a", (⟨0, 0⟩, ⟨0, 0⟩), (⟨0, 0⟩, ⟨0, 0⟩), none⟩],
   [⟨.id, 103, ⟨1, 21⟩, ⟨1, 29⟩, some c!"customer", (⟨0, 0⟩, ⟨0, 0⟩), (⟨0, 0⟩, ⟨0, 0⟩), none⟩],
   [⟨.id, 104, ⟨1, 31⟩, ⟨1, 39⟩, some c!"b", (⟨0, 0⟩, ⟨0, 0⟩), (⟨0, 0⟩, ⟨0, 0⟩), none⟩]]

def restObjs : List (List Capture) :=
  [[⟨.justId, 3, ⟨0, 21⟩, ⟨0, 29⟩, some c!"customer", (⟨0, 0⟩, ⟨0, 0⟩), (⟨0, 0⟩, ⟨0, 0⟩), none⟩],
   [⟨.pipe, 4, ⟨0, 31⟩, ⟨0, 39⟩, some c!"=", (⟨0, 0⟩, ⟨0, 0⟩), (⟨0, 0⟩, ⟨0, 0⟩), none⟩],
   [⟨.expr, 2102, ⟨1, 11⟩, ⟨1, 39⟩, some c!"", (⟨1, 11⟩, ⟨1, 19⟩), (⟨1, 31⟩, ⟨1, 39⟩), none⟩],
   [⟨.justId, 102, ⟨1, 11⟩, ⟨1, 19⟩, some c!"a", (⟨0, 0⟩, ⟨0, 0⟩), (⟨0, 0⟩, ⟨0, 0⟩), none⟩],
   [⟨.justId, 103, ⟨1, 21⟩, ⟨1, 29⟩, some c!"customer", (⟨0, 0⟩, ⟨0, 0⟩), (⟨0, 0⟩, ⟨0, 0⟩), none⟩],
   [⟨.justId, 104, ⟨1, 31⟩, ⟨1, 39⟩, some c!"b", (⟨0, 0⟩, ⟨0, 0⟩), (⟨0, 0⟩, ⟨0, 0⟩), none⟩]]

def restSnips : List (List Capture) :=
  [[⟨.start, 1, ⟨0, 1⟩, ⟨0, 9⟩, some c!"{%", (⟨0, 0⟩, ⟨0, 0⟩), (⟨0, 0⟩, ⟨0, 0⟩), none⟩],
   [⟨.keyword, 2, ⟨0, 11⟩, ⟨0, 19⟩, some c!"set", (⟨0, 0⟩, ⟨0, 0⟩), (⟨0, 0⟩, ⟨0, 0⟩), none⟩],
   [⟨.stop, 21, ⟨0, 201⟩, ⟨0, 209⟩, some c!"%}", (⟨0, 0⟩, ⟨0, 0⟩), (⟨0, 0⟩, ⟨0, 0⟩), none⟩]]

/-- the matches written out -/
def restEnv : Env :=
  { showing with
    queryMatches := fun q _ _ => match q with
      | .jinjaDefinitions => restDefs
      | .jinjaObjects => restObjs
      | .jinjaSnippets => restSnips
      | _ => [] }

theorem restEnv_eq : showing.over (drawSyn smallP) = restEnv := by
  have : ∀ q, Syn.walk ((drawSyn smallP).reports q) [] [] (drawRoot smallP) = restEnv.queryMatches q (.parsed .jinja [] none) [] := by
    intro q
    cases q with
    | backendDefinitions b => cases b <;> rfl
    | backendTemplates b => cases b <;> rfl
    | _ => rfl
  have : (showing.over (drawSyn smallP)).queryMatches = restEnv.queryMatches := by
    funext q t x
    exact this q
  show ({ showing with queryMatches := (showing.over (drawSyn smallP)).queryMatches } : Env) = { showing with queryMatches := restEnv.queryMatches }
  rw [this]

theorem small_rests : ∃ (as : List (HMap Str Diags)) (σ : Sys) (s : Server) (E : Editor),
    Execution (· = rootWorld) (showing.over (drawSyn smallP)) typing as σ ∧
    SmallResults as ∧ StoppedTyping (showing.over (drawSyn smallP)) typing uriT E ∧ AtRest σ s ∧ s.files.mainChannel = true ∧
    s.files.ignoreGlobals = false := by
  rw [restEnv_eq]
  have e1 := Execution.start (W := (· = rootWorld)) (env := restEnv)
    |>.client (.initialize none (some (some { JinjaConfig.default with lang := c!"rust", templates := c!"/t" }))) trivial rfl (by decide)
  have e2 := e1.task (.workerRecv (q := []) rootWorld rfl rfl rfl rfl rfl)
  have e3 := e2.client .initialized trivial rfl (show 0 < 50 by decide)
  have e4 := e3.task (.workerRecv (q := []) rootWorld rfl rfl rfl rfl rfl)
  have e5 := e4.task (.workerSendDiag rfl rfl rfl (show 0 < 20 by decide))
  have e6 := e5.client (.didOpen uriT c!"aaa") trivial rfl (show 0 < 50 by decide)
  have e7 := e6.task (.workerRecv (q := []) rootWorld rfl rfl rfl rfl rfl)
  have e8 := e7.task (.workerSendDiag rfl rfl rfl (show 1 < 20 by decide))
  have e9 := e8.client (.didChange uriT ([(⟨⟨0, 3⟩, ⟨0, 3⟩⟩, c!"b")].map fun e => ⟨some e.1, e.2⟩)) trivial rfl (show 0 < 50 by decide)
  have e10 := e9.task (.workerRecv (q := []) rootWorld rfl rfl rfl rfl rfl)
  have e11 := e10.delayed (t := ⟨0, uriT, true, true⟩) (.timer rfl (List.mem_singleton.mpr rfl) rfl (show 0 < 50 by decide)) rfl
    (List.mem_singleton.mpr rfl) rfl
  have e12 := e11.task (.workerRecv (q := []) rootWorld rfl rfl rfl rfl rfl)
  have e13 := e12.task (.workerSendDiag rfl rfl rfl (show 2 < 20 by decide))
  have e14 := e13.task (.diagRecv HashOrder.id rfl rfl rfl rfl)
  have e15 := e14.task (.diagSend rfl rfl rfl (show 0 < 50 by decide))
  have e16 := e15.task (.diagRecv HashOrder.id rfl rfl rfl rfl)
  have e17 := e16.task (.diagSend rfl rfl rfl (show 1 < 50 by decide))
  have e18 := e17.task (.diagRecv HashOrder.id rfl rfl rfl rfl)
  have e19 := e18.task (.workerRecv rootWorld rfl rfl rfl rfl rfl)
  have e20 := e19.task (.workerRecv (q := []) rootWorld rfl rfl rfl rfl rfl)
  obtain ⟨E, h1, _⟩ := typing_stopped
  exact ⟨_, _, _, E, e20, smallResults_of_entries _ (by decide), ⟨h1.proper, h1.edits, h1.noQuickFix, h1.last, h1.supported⟩,
    ⟨rfl, rfl, rfl, rfl, rfl⟩, rfl, rfl⟩

theorem small_reads (text : Str) (tree : Tree) : AsProgram showing (drawSyn smallP) text tree smallP (plainElems (drawRoot smallP)) [] :=
  have h1 : WellFormed (drawRoot smallP) := ⟨by decide +kernel, by decide +kernel, by decide +kernel⟩
  have h2 : InOrder ⟨9, 9⟩ smallP.toks := ⟨by decide +kernel, by decide +kernel, by decide +kernel⟩
  ⟨h1, rfl, readTags_sound rfl, plainElems_read rfl, elems_wf_of (by decide +kernel), readRefs_sound rfl,
    ⟨by decide +kernel, by decide +kernel, by decide +kernel⟩, h2⟩

end Fix

/-- `{{ a cust|omer b }}` at rest -/
example : (∃ (as : List (HMap Str Diags)) (σ : Sys) (s : Server) (E : Editor),
      Execution (· = Fix.rootWorld) (Fix.showing.over (Fix.drawSyn Fix.smallP)) Fix.typing as σ ∧
      SmallResults as ∧ StoppedTyping (Fix.showing.over (Fix.drawSyn Fix.smallP)) Fix.typing Fix.uriT E ∧ AtRest σ s ∧ s.files.mainChannel = true ∧
      s.files.ignoreGlobals = false) ∧
    (∀ text tree, AsProgram Fix.showing (Fix.drawSyn Fix.smallP) text tree Fix.smallP (Fix.plainElems (Fix.drawRoot Fix.smallP)) []) ∧
    Fix.smallP.Simple ∧ Narrow Fix.smallP ∧ Regular (Fix.drawRoot Fix.smallP) ∧
    .use ⟨.variable, Fix.tk 1 2 c!"customer", []⟩ ∈ Fix.plainElems (Fix.drawRoot Fix.smallP) ∧
    (∃ v, (Fix.tk 1 2 c!"customer", v) ∈ Fix.smallP.sees [] [] ∧ resolve v c!"customer" = some ⟨Fix.tk 0 2 c!"customer", .setVariable, false⟩) ∧
    c!"customer" ∉ Fix.smallP.blocks ∧ Fix.tk 1 2 c!"customer" ∉ Fix.smallP.tagged ∧
    TypedUse Fix.digit (Fix.drawRoot Fix.smallP) ⟨.variable, Fix.tk 1 2 c!"customer", []⟩ ⟨1, 21 + utf8Len c!"cust"⟩ c!"cust" :=
  ⟨Fix.small_rests, Fix.small_reads, ⟨by decide +kernel, trivial⟩, by decide +kernel,
    ⟨⟨by decide +kernel, by decide +kernel, by decide +kernel⟩, ⟨by decide +kernel, by decide +kernel, by decide +kernel, by decide +kernel⟩,
      by unfold Legible; decide +kernel, by unfold HasError; decide +kernel, by decide +kernel, by decide +kernel, by decide +kernel⟩,
    Fix.uses_mem (by decide +kernel), ⟨[⟨Fix.tk 0 2 c!"customer", .setVariable, false⟩], by decide +kernel, rfl⟩, by decide +kernel, by decide +kernel,
    Fix.typedUse (by decide) (by decide) (by decide) (by decide +kernel) (by decide +kernel)⟩

end JinjaLsp
