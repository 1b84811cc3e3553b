import Verif.Props.Quiet
import Verif.Props.Syntax
/-
  C82: what the editor shows, once typing has stopped, in terms of the syntax tree of the text in it.
-/

namespace JinjaLsp
open Spec

/-- at rest the server holds the text in the editor, its tree, and what a save recorded and published for them -/
theorem quiet_saved {W : World → Prop} (hO : ∀ w, W w → Orderly w) (env : Env) (he : Sound env) (hu : NormalUrls env) (cs : List Msg)
    (as : List (HMap Str Diags)) (σ : Sys) (s : Server) (h : Execution W env cs as σ) (hs : SmallResults as) (u : Str) (E : Editor)
    (ht : StoppedTyping env cs u E) (hi : AtRest σ s) (hm : s.files.mainChannel = true) (hx : fileExt u = some .template) :
    ∃ (text : Str) (old : Option Tree) (w : World) (s1 s2 : Server) (r : Reply) (ds : Diags), E u = some text ∧ s.files.documents.get? u = some text ∧
      (s.files.trees .template).get? u = some (.parsed .jinja text old) ∧ W w ∧
      s1.handle env w (.didSave u) = .ok (s2, [.diag (HMap.empty.insert u ds)], r) ∧ SameWorkspace s2.files s.files ∧ Frame u s1.files s2.files ∧
      (σ.published.filter fun p => p.1 = u).getLast? = some (u, (ds.map report).map shown) := by
  obtain ⟨w, s1, s2, r, ds, k1, k2, k3, k4⟩ := quiet_current hO env he hu cs as σ s h hs u E ht hi hm
  obtain ⟨text, l, old, _, _, e1, e2, e3, e4, _⟩ := C69_shown hO env he hu cs as σ s h hs u E ht hi hm
  rw [hx] at e3
  cases e3
  refine ⟨text, old, w, s1, s2, r, ds, e1, e2, e4, k1, k2, k3, ?_, k4⟩
  have := handle_files k2
  cases this with
  | query hm => cases hm
  | didSave _ m hf => exact Frame.didSave hf

/-- **C82** Typing has stopped and nothing is left to do.  Then the server holds the text shown in the editor and a tree of it; and if this tree
reads as a sequence of tags, of uses of names and of references, the list shown for the document consists of exactly the uses for which no binding
of the tags is visible, in order, and the references to templates that do not exist. -/
theorem C82_displayed {W : World → Prop} (hO : ∀ w, W w → Orderly w) (env : Env) (sx : Syntax) (he : Sound (env.over sx))
    (hu : NormalUrls env) (cs : List Msg) (as : List (HMap Str Diags)) (σ : Sys) (s : Server) (h : Execution W (env.over sx) cs as σ)
    (hs : SmallResults as) (u : Str) (E : Editor) (ht : StoppedTyping (env.over sx) cs u E) (hi : AtRest σ s) (hm : s.files.mainChannel = true)
    (hx : fileExt u = some .template) (hig : s.files.ignoreGlobals = false) :
    ∃ text old w ds, E u = some text ∧ s.files.documents.get? u = some text ∧
      (s.files.trees .template).get? u = some (.parsed .jinja text old) ∧ W w ∧
      (σ.published.filter fun p => p.1 = u).getLast? = some (u, (ds.map report).map shown) ∧
      ∀ (root : Syn) (is : List Item) (es : List Elem) (ss : List ImpStmt), root = sx.root (.parsed .jinja text old) text →
        WellFormed root → root.kind = .other → Tags sx.digit root.children is → ReadsTree sx.digit root es → Elems.Wf es →
        Refs sx.options root.children ss → ImpStmt.Wf ss →
        useDiags ds = useReports (Items.bindings (env.rootEnd (.parsed .jinja text old)) 0 is)
          ((Items.bindings (env.rootEnd (.parsed .jinja text old)) 0 is).map (·.name) ++ knownElsewhere s.files.variables u) (Elems.uses es) ∧
        (missingDiags ds).Perm (refReports w s.files.config.templates true (ImpStmt.refs ss)) := by
  obtain ⟨text, old, w, s1, s2, r, ds, e1, e2, e4, k1, k2, k3, hf, k4⟩ :=
    quiet_saved hO (env.over sx) he ⟨hu.same⟩ cs as σ s h hs u E ht hi hm hx
  refine ⟨text, old, w, ds, e1, e2, e4, k1, k4, ?_⟩
  rintro root is es ss rfl hwf hk hr hue hes hre hss
  rw [k3.documents] at e2
  rw [k3.trees] at e4
  have hig1 : s1.files.ignoreGlobals = false := by rw [← hf.conf.ign, ← k3.conf.ign]; exact hig
  obtain ⟨d, o, h1, h2⟩ := C71_diagnostics env sx w s1 s2 (.didSave u) u text _ _ r is es ss .saved hx hig1 k2 e2 e4 hwf hk hr hue hes hre hss
  have hd : d = ds := by
    simp only [List.cons.injEq, Send.diag.injEq, and_true] at o
    have := congrArg (fun x => x.get? u) o
    simpa using this.symm
  subst hd
  constructor
  · rw [h1]
    refine useReports_congr _ _ (fun n => ?_)
    rw [List.mem_append, List.mem_append, mem_knownElsewhere, mem_knownElsewhere]
    have : ∀ v, v ≠ u → s1.files.variables.get? v = s.files.variables.get? v := by
      intro v hv
      rw [k3.variables, (hf.same v hv).vars]
    constructor
    · rintro (h | ⟨v, vs, h1, h2, h3⟩)
      · exact Or.inl h
      · exact Or.inr ⟨v, vs, h1, by rw [← this v h1]; exact h2, h3⟩
    · rintro (h | ⟨v, vs, h1, h2, h3⟩)
      · exact Or.inl h
      · exact Or.inr ⟨v, vs, h1, by rw [this v h1]; exact h2, h3⟩
  · rw [k3.conf.conf, hf.conf.conf]
    exact h2

/-- **C82** At rest the symbols the server lists for the document are the bindings of the tags of the text in the editor. -/
theorem C82_outline {W : World → Prop} (hO : ∀ w, W w → Orderly w) (env : Env) (sx : Syntax) (he : Sound (env.over sx))
    (hu : NormalUrls env) (cs : List Msg) (as : List (HMap Str Diags)) (σ : Sys) (s : Server) (h : Execution W (env.over sx) cs as σ)
    (hs : SmallResults as) (u : Str) (E : Editor) (ht : StoppedTyping (env.over sx) cs u E) (hi : AtRest σ s) (hm : s.files.mainChannel = true)
    (hx : fileExt u = some .template) (w' : World) :
    ∃ text old, E u = some text ∧ (s.files.trees .template).get? u = some (.parsed .jinja text old) ∧
      ∀ (root : Syn) (is : List Item), root = sx.root (.parsed .jinja text old) text → WellFormed root → root.kind = .other →
        Tags sx.digit root.children is →
        s.handle (env.over sx) w' (.documentSymbol u) = .ok (s, [], .symbols (some
          ((Items.bindings (env.rootEnd (.parsed .jinja text old)) 0 is).map fun b =>
            ⟨b.name, b.kind.symbolKind, toRange (b.start, b.stop), toRange (b.start, b.stop)⟩))) := by
  obtain ⟨text, old, w, s1, s2, r, ds, e1, e2, e4, k1, k2, k3, hf, k4⟩ :=
    quiet_saved hO (env.over sx) he ⟨hu.same⟩ cs as σ s h hs u E ht hi hm hx
  refine ⟨text, old, e1, e4, ?_⟩
  rintro root is rfl hwf hk hr
  rw [k3.documents] at e2
  rw [k3.trees] at e4
  have hno : ¬ SyntaxError (env.over sx) (.parsed .jinja text old) text := fun h => tags_no_error hk hr ((over_error ..).mp h)
  obtain ⟨defs, h1, hv⟩ := (analyses_records .saved hx k2 e2 e4).1 hno
  obtain ⟨defs', h2, h3⟩ := C64_bracket_matching (env.over sx) _ Point.zero text is (tags_wf hwf hr) (over_definitions hk hr)
  rw [h1] at h2
  cases h2
  have h3' : defs.identifiers.map Identifier.binding = Items.bindings (env.rootEnd (.parsed .jinja text old)) 0 is := h3
  rw [← k3.variables] at hv
  simp only [Server.handle, LspFiles.documentSymbols, hv, ← h3', List.map_map, Function.comp_def, Identifier.binding]

namespace Fix

/-- every text is read as the template of C71 -/
def showing : Env := { env with profile := .release }

theorem showing_sound : Sound (showing.over syn) where
  parses := fun _ _ _ => rfl
  readable := by
    intro g t o
    have : ∀ c ∈ tags.flatMap Item.caps, c.name = .definition → c.text ≠ none := by decide
    intro c hc
    rw [over_definitions (is := tags) rfl tags_read] at hc
    exact this c hc
  urls := by intro p h; cases h
  debug := by intro h; cases h

end Fix

namespace Fix

def defCaps : List (List Capture) :=
  [[⟨.scopeEnd, 101, ⟨0, 0⟩, ⟨0, 2⟩, some c!"{%", (⟨0, 0⟩, ⟨0, 0⟩), (⟨0, 0⟩, ⟨0, 0⟩), none⟩, ⟨.scopeStart, 201, ⟨0, 20⟩, ⟨0, 22⟩, some c!"%}", (⟨0, 0⟩, ⟨0, 0⟩), (⟨0, 0⟩, ⟨0, 0⟩), none⟩],
   [⟨.scope, 13, ⟨1, 3⟩, ⟨1, 5⟩, some c!"if", (⟨0, 0⟩, ⟨0, 0⟩), (⟨0, 0⟩, ⟨0, 0⟩), none⟩],
   [⟨.id, 14, ⟨1, 6⟩, ⟨1, 7⟩, some c!"c", (⟨0, 0⟩, ⟨0, 0⟩), (⟨0, 0⟩, ⟨0, 0⟩), none⟩],
   [⟨.scopeEnd, 102, ⟨1, 0⟩, ⟨1, 2⟩, some c!"{%", (⟨0, 0⟩, ⟨0, 0⟩), (⟨0, 0⟩, ⟨0, 0⟩), none⟩, ⟨.scopeStart, 202, ⟨1, 8⟩, ⟨1, 10⟩, some c!"%}", (⟨0, 0⟩, ⟨0, 0⟩), (⟨0, 0⟩, ⟨0, 0⟩), none⟩],
   [⟨.definition, 15, ⟨2, 3⟩, ⟨2, 6⟩, some c!"set", (⟨0, 0⟩, ⟨0, 0⟩), (⟨0, 0⟩, ⟨0, 0⟩), none⟩],
   [⟨.id, 16, ⟨2, 7⟩, ⟨2, 8⟩, some c!"a", (⟨0, 0⟩, ⟨0, 0⟩), (⟨0, 0⟩, ⟨0, 0⟩), none⟩],
   [⟨.equals, 17, ⟨2, 9⟩, ⟨2, 10⟩, some c!"=", (⟨0, 0⟩, ⟨0, 0⟩), (⟨0, 0⟩, ⟨0, 0⟩), none⟩],
   [⟨.scopeEnd, 103, ⟨2, 0⟩, ⟨2, 2⟩, some c!"{%", (⟨0, 0⟩, ⟨0, 0⟩), (⟨0, 0⟩, ⟨0, 0⟩), none⟩, ⟨.scopeStart, 203, ⟨2, 13⟩, ⟨2, 15⟩, some c!"%}", (⟨0, 0⟩, ⟨0, 0⟩), (⟨0, 0⟩, ⟨0, 0⟩), none⟩],
   [⟨.endblock, 19, ⟨3, 3⟩, ⟨3, 8⟩, some c!"endif", (⟨0, 0⟩, ⟨0, 0⟩), (⟨0, 0⟩, ⟨0, 0⟩), none⟩],
   [⟨.scopeEnd, 104, ⟨3, 0⟩, ⟨3, 2⟩, some c!"{%", (⟨0, 0⟩, ⟨0, 0⟩), (⟨0, 0⟩, ⟨0, 0⟩), none⟩, ⟨.scopeStart, 204, ⟨3, 9⟩, ⟨3, 11⟩, some c!"%}", (⟨0, 0⟩, ⟨0, 0⟩), (⟨0, 0⟩, ⟨0, 0⟩), none⟩],
   [⟨.id, 20, ⟨4, 3⟩, ⟨4, 4⟩, some c!"a", (⟨0, 0⟩, ⟨0, 0⟩), (⟨0, 0⟩, ⟨0, 0⟩), none⟩],
   [⟨.id, 21, ⟨4, 10⟩, ⟨4, 11⟩, some c!"b", (⟨0, 0⟩, ⟨0, 0⟩), (⟨0, 0⟩, ⟨0, 0⟩), none⟩],
   [⟨.id, 23, ⟨4, 13⟩, ⟨4, 18⟩, some c!"upper", (⟨0, 0⟩, ⟨0, 0⟩), (⟨0, 0⟩, ⟨0, 0⟩), none⟩]]

def objCaps : List (List Capture) :=
  [[⟨.justId, 14, ⟨1, 6⟩, ⟨1, 7⟩, some c!"c", (⟨0, 0⟩, ⟨0, 0⟩), (⟨0, 0⟩, ⟨0, 0⟩), none⟩],
   [⟨.justId, 16, ⟨2, 7⟩, ⟨2, 8⟩, some c!"a", (⟨0, 0⟩, ⟨0, 0⟩), (⟨0, 0⟩, ⟨0, 0⟩), none⟩],
   [⟨.pipe, 17, ⟨2, 9⟩, ⟨2, 10⟩, some c!"=", (⟨0, 0⟩, ⟨0, 0⟩), (⟨0, 0⟩, ⟨0, 0⟩), none⟩],
   [⟨.expr, 6, ⟨4, 0⟩, ⟨4, 7⟩, some c!"", (⟨4, 0⟩, ⟨4, 2⟩), (⟨4, 5⟩, ⟨4, 7⟩), none⟩],
   [⟨.justId, 20, ⟨4, 3⟩, ⟨4, 4⟩, some c!"a", (⟨0, 0⟩, ⟨0, 0⟩), (⟨0, 0⟩, ⟨0, 0⟩), none⟩],
   [⟨.expr, 7, ⟨4, 7⟩, ⟨4, 21⟩, some c!"", (⟨4, 7⟩, ⟨4, 9⟩), (⟨4, 19⟩, ⟨4, 21⟩), none⟩],
   [⟨.justId, 21, ⟨4, 10⟩, ⟨4, 11⟩, some c!"b", (⟨0, 0⟩, ⟨0, 0⟩), (⟨0, 0⟩, ⟨0, 0⟩), none⟩],
   [⟨.pipe, 22, ⟨4, 12⟩, ⟨4, 13⟩, some c!"|", (⟨0, 0⟩, ⟨0, 0⟩), (⟨0, 0⟩, ⟨0, 0⟩), none⟩],
   [⟨.justId, 23, ⟨4, 13⟩, ⟨4, 18⟩, some c!"upper", (⟨0, 0⟩, ⟨0, 0⟩), (⟨0, 0⟩, ⟨0, 0⟩), none⟩]]

def impCaps : List (List Capture) :=
  [[⟨.include, 1, ⟨0, 0⟩, ⟨0, 22⟩, some c!"", (⟨0, 0⟩, ⟨0, 0⟩), (⟨0, 0⟩, ⟨0, 0⟩), none⟩, ⟨.other, 11, ⟨0, 3⟩, ⟨0, 10⟩, some c!"include", (⟨0, 0⟩, ⟨0, 0⟩), (⟨0, 0⟩, ⟨0, 0⟩), none⟩, ⟨.templateName, 12, ⟨0, 11⟩, ⟨0, 19⟩, some c!"\"x.html\"", (⟨0, 0⟩, ⟨0, 0⟩), (⟨0, 0⟩, ⟨0, 0⟩), none⟩]]

def snipCaps : List (List Capture) :=
  [[⟨.start, 101, ⟨0, 0⟩, ⟨0, 2⟩, some c!"{%", (⟨0, 0⟩, ⟨0, 0⟩), (⟨0, 0⟩, ⟨0, 0⟩), none⟩],
   [⟨.keyword, 11, ⟨0, 3⟩, ⟨0, 10⟩, some c!"include", (⟨0, 0⟩, ⟨0, 0⟩), (⟨0, 0⟩, ⟨0, 0⟩), none⟩],
   [⟨.stop, 201, ⟨0, 20⟩, ⟨0, 22⟩, some c!"%}", (⟨0, 0⟩, ⟨0, 0⟩), (⟨0, 0⟩, ⟨0, 0⟩), none⟩],
   [⟨.start, 102, ⟨1, 0⟩, ⟨1, 2⟩, some c!"{%", (⟨0, 0⟩, ⟨0, 0⟩), (⟨0, 0⟩, ⟨0, 0⟩), none⟩],
   [⟨.keyword, 13, ⟨1, 3⟩, ⟨1, 5⟩, some c!"if", (⟨0, 0⟩, ⟨0, 0⟩), (⟨0, 0⟩, ⟨0, 0⟩), none⟩],
   [⟨.stop, 202, ⟨1, 8⟩, ⟨1, 10⟩, some c!"%}", (⟨0, 0⟩, ⟨0, 0⟩), (⟨0, 0⟩, ⟨0, 0⟩), none⟩],
   [⟨.start, 103, ⟨2, 0⟩, ⟨2, 2⟩, some c!"{%", (⟨0, 0⟩, ⟨0, 0⟩), (⟨0, 0⟩, ⟨0, 0⟩), none⟩],
   [⟨.keyword, 15, ⟨2, 3⟩, ⟨2, 6⟩, some c!"set", (⟨0, 0⟩, ⟨0, 0⟩), (⟨0, 0⟩, ⟨0, 0⟩), none⟩],
   [⟨.stop, 203, ⟨2, 13⟩, ⟨2, 15⟩, some c!"%}", (⟨0, 0⟩, ⟨0, 0⟩), (⟨0, 0⟩, ⟨0, 0⟩), none⟩],
   [⟨.start, 104, ⟨3, 0⟩, ⟨3, 2⟩, some c!"{%", (⟨0, 0⟩, ⟨0, 0⟩), (⟨0, 0⟩, ⟨0, 0⟩), none⟩],
   [⟨.keyword, 19, ⟨3, 3⟩, ⟨3, 8⟩, some c!"endif", (⟨0, 0⟩, ⟨0, 0⟩), (⟨0, 0⟩, ⟨0, 0⟩), none⟩],
   [⟨.stop, 204, ⟨3, 9⟩, ⟨3, 11⟩, some c!"%}", (⟨0, 0⟩, ⟨0, 0⟩), (⟨0, 0⟩, ⟨0, 0⟩), none⟩]]

/-- the matches written out -/
def written : Env :=
  { showing with
    queryMatches := fun q _ _ => match q with
      | .jinjaDefinitions => defCaps
      | .jinjaObjects => objCaps
      | .jinjaImports => impCaps
      | .jinjaSnippets => snipCaps
      | _ => [] }

theorem written_eq : showing.over syn = written := by
  have : ∀ q, Syn.walk (syn.reports q) [] [] root = written.queryMatches q (.parsed .jinja [] none) [] := by
    intro q
    cases q with
    | backendDefinitions b => cases b <;> rfl
    | backendTemplates b => cases b <;> rfl
    | _ => rfl
  have : (showing.over syn).queryMatches = written.queryMatches := by
    funext q t x
    exact this q
  show ({ showing with queryMatches := (showing.over syn).queryMatches } : Env) = { showing with queryMatches := written.queryMatches }
  rw [this]

end Fix

/-- the session of C69 with the tree of C71 comes to rest; shown are `c`, `a` after its scope, and `b`; the included
template exists -/
theorem Fix.comesToRest : ∃ (as : List (HMap Str Diags)) (σ : Sys) (s : Server) (E : Editor), Execution (· = Fix.rootWorld) (Fix.showing.over Fix.syn) Fix.typing as σ ∧
    SmallResults as ∧ StoppedTyping (Fix.showing.over Fix.syn) Fix.typing Fix.uriT E ∧ AtRest σ s ∧ s.files.mainChannel = true ∧
    s.files.ignoreGlobals = false ∧
    ((σ.published.filter fun p => p.1 = Fix.uriT).getLast?.map fun p => p.2.map fun d => d.range) =
      some [⟨⟨1, 6⟩, ⟨1, 7⟩⟩, ⟨⟨4, 3⟩, ⟨4, 4⟩⟩, ⟨⟨4, 10⟩, ⟨4, 11⟩⟩] := by
  rw [Fix.written_eq]
  have e1 := Execution.start (W := (· = Fix.rootWorld)) (env := Fix.written)
    |>.client (.initialize none (some (some { JinjaConfig.default with lang := c!"rust", templates := c!"/t" }))) trivial rfl (by decide)
  have e2 := e1.task (.workerRecv (q := []) Fix.rootWorld rfl rfl rfl rfl rfl)
  have e3 := e2.client .initialized trivial rfl (show 0 < 50 by decide)
  have e4 := e3.task (.workerRecv (q := []) Fix.rootWorld rfl rfl rfl rfl rfl)
  have e5 := e4.task (.workerSendDiag rfl rfl rfl (show 0 < 20 by decide))
  have e6 := e5.client (.didOpen Fix.uriT c!"aaa") trivial rfl (show 0 < 50 by decide)
  have e7 := e6.task (.workerRecv (q := []) Fix.rootWorld rfl rfl rfl rfl rfl)
  have e8 := e7.task (.workerSendDiag rfl rfl rfl (show 1 < 20 by decide))
  have e9 := e8.client (.didChange Fix.uriT ([(⟨⟨0, 3⟩, ⟨0, 3⟩⟩, c!"b")].map fun e => ⟨some e.1, e.2⟩)) trivial rfl (show 0 < 50 by decide)
  have e10 := e9.task (.workerRecv (q := []) Fix.rootWorld rfl rfl rfl rfl rfl)
  have e11 := e10.delayed (t := ⟨0, Fix.uriT, true, true⟩) (.timer rfl (List.mem_singleton.mpr rfl) rfl (show 0 < 50 by decide)) rfl
    (List.mem_singleton.mpr rfl) rfl
  have e12 := e11.task (.workerRecv (q := []) Fix.rootWorld rfl rfl rfl rfl rfl)
  have e13 := e12.task (.workerSendDiag rfl rfl rfl (show 2 < 20 by decide))
  have e14 := e13.task (.diagRecv HashOrder.id rfl rfl rfl rfl)
  have e15 := e14.task (.diagSend rfl rfl rfl (show 0 < 50 by decide))
  have e16 := e15.task (.diagRecv HashOrder.id rfl rfl rfl rfl)
  have e17 := e16.task (.diagSend rfl rfl rfl (show 1 < 50 by decide))
  have e18 := e17.task (.diagRecv HashOrder.id rfl rfl rfl rfl)
  have e19 := e18.task (.workerRecv Fix.rootWorld rfl rfl rfl rfl rfl)
  have e20 := e19.task (.workerRecv (q := []) Fix.rootWorld rfl rfl rfl rfl rfl)
  obtain ⟨E, h1, _⟩ := Fix.typing_stopped
  exact ⟨_, _, _, E, e20, smallResults_of_entries _ (by decide), ⟨h1.proper, h1.edits, h1.noQuickFix, h1.last, h1.supported⟩,
    ⟨rfl, rfl, rfl, rfl, rfl⟩, rfl, rfl, by decide⟩

example : ∃ (as : List (HMap Str Diags)) (σ : Sys) (s : Server) (E : Editor), Execution (· = Fix.rootWorld) (Fix.showing.over Fix.syn) Fix.typing as σ ∧
    SmallResults as ∧ StoppedTyping (Fix.showing.over Fix.syn) Fix.typing Fix.uriT E ∧ AtRest σ s ∧ s.files.mainChannel = true ∧
    s.files.ignoreGlobals = false := by
  obtain ⟨as, σ, s, E, h1, h2, h3, h4, h5, h6, _⟩ := Fix.comesToRest
  exact ⟨as, σ, s, E, h1, h2, h3, h4, h5, h6⟩

end JinjaLsp
