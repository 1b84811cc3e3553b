import Verif.Props.Passed
import Verif.Props.ScopedRest
import Verif.Props.Words
/-
  C125: what is known about a backend file when typing in it has stopped.
-/

namespace JinjaLsp
open Spec

namespace Spec

/-- the backend file loads a template: the name is the first string among the arguments of a call of `render_jinja`, `get_template`, … -/
inductive RefersTo (root : Syn) : Grammar → Str × Point × Point → Prop where
  | rust {n : Syn} (h : TemplateArgument .callExpression .arguments .fieldExpression .fieldIdentifier .stringLiteral root n) :
      RefersTo root .rust n.unquoted
  | python {n : Syn} (h : TemplateArgument .call .argumentList .attribute .identifier .string root n) : RefersTo root .python n.unquoted

end Spec

theorem refers_of {env : Env} {sx : Syntax} {b text : Str} {T : Tree} {f : LspFiles}
    (hv : f.variables.get? b = some (f.backendVariables (env.over sx) T text)) (hq : f.queriesBackend = .rust ∨ f.queriesBackend = .python)
    (hl : Legible (sx.root T text)) (d : Str × Point × Point) :
    Recorded f b .jinjaTemplate d ↔ RefersTo (sx.root T text) f.queriesBackend d := by
  rcases hq with hq | hq
  · rw [referred_of hv hl (by rw [hq]; exact templates_legible hl) d, hq]
    refine (templates_refs (by simp) d).trans ⟨?_, ?_⟩
    · rintro ⟨n, h, rfl⟩; exact .rust h
    · intro h; cases h with | rust h => exact ⟨_, h, rfl⟩
  · rw [referred_of hv hl (by rw [hq]; exact templates_legible hl) d, hq]
    refine (templates_refs (by simp) d).trans ⟨?_, ?_⟩
    · rintro ⟨n, h, rfl⟩; exact .python h
    · intro h; cases h with | python h => exact ⟨_, h, rfl⟩

/-- the language of the backend in executions -/
theorem language_execution {W : World → Prop} {env : Env} {cs : List Msg} {as : List (HMap Str Diags)} {σ : Sys} (h : Execution W env cs as σ) :
    ∀ s, σ.worker = some s → s.files.queriesBackend = .rust ∨ s.files.queriesBackend = .python := by
  induction h with
  | start => intro s hs; cases hs; exact .inl rfl
  | client h m hm hw hc ih => exact ih
  | delayed h hs hw ht hτ ih =>
    intro s hs
    rw [hτ] at hs
    cases hs
    have := ih _ hw
    exact this
  | task h hs ih =>
    cases hs with
    | workerRecv w hw ho hq hh hW => intro s hs; cases hs; exact language_handle (ih _ hw) hh
    | workerPanic w hw ho hq hh hW => intro s hs; cases hs
    | _ => exact ih

/-- a save records the names of the backend file -/
theorem save_backend {env : Env} {w : World} {s s' : Server} {u text : Str} {T : Tree} {out : List Send} {r : Reply}
    (hx : fileExt u = some .backend) (h : s.handle env w (.didSave u) = .ok (s', out, r)) (hd : s'.files.documents.get? u = some text)
    (ht : (s'.files.trees .backend).get? u = some T) : s'.files.variables.get? u = some (s'.files.backendVariables env T text) := by
  have hdoc := (Milder.handle (Or.inr ⟨u, rfl⟩) h).1
  simp only [Server.handle] at h
  split at h
  · cases h
  · rename_i f m hf
    cases h
    rw [hdoc] at hd
    obtain ⟨ha, _⟩ := LspFiles.didSave_inv hx hd hf
    cases ht' : ((s.files.deleteVariables u).trees .backend).get? u with
    | none =>
      rw [LspFiles.addVariables_no_tree ht'] at ha
      cases ha
      rw [ht'] at ht
      cases ht
    | some T' =>
      rw [LspFiles.addVariables_backend ht'] at ha
      cases ha
      rw [show ((s.files.deleteVariables u).trees .backend).get? u = some T from ht] at ht'
      cases ht'
      exact HMap.get?_insert_self ..

/-- at rest the server has recorded the names of the text in the editor -/
theorem quiet_passed {W : World → Prop} (hO : ∀ w, W w → Orderly w) (env : Env) (he : Sound env) (hu : NormalUrls env) (cs : List Msg)
    (as : List (HMap Str Diags)) (σ : Sys) (s : Server) (h : Execution W env cs as σ) (hs : Words env) (u : Str) (E : Editor)
    (ht : StoppedTyping env cs u E) (hi : AtRest σ s) (hm : s.files.mainChannel = true) (hx : fileExt u = some .backend) :
    ∃ text old w ds, E u = some text ∧ (s.files.trees .backend).get? u = some (.parsed (s.files.grammar .backend) text old) ∧ W w ∧
      s.files.variables.get? u = some (s.files.backendVariables env (.parsed (s.files.grammar .backend) text old) text) ∧
      (s.files.readTree env w u = .ok (some ds) ∨ s.files.readTree env w u = .ok none ∧ ds = []) ∧ s.files.documents.get? u = some text ∧
      Displays σ u ((ds.map report).map shown) := by
  have hsm := C65_small W env hs cs as σ h
  obtain ⟨w, s1, s2, r, ds, k1, k2, k3, k4⟩ := quiet_current hO env he hu cs as σ s h hsm u E ht hi hm
  obtain ⟨text, l, old, w', ds', e1, e2, e3, e4, e5, e6, e7⟩ := C69_shown hO env he hu cs as σ s h hsm u E ht hi hm
  rw [hx] at e3
  cases e3
  refine ⟨text, old, w', ds', e1, e4, e5, ?_, e6, e2, e7⟩
  have hv := save_backend hx k2 (by rw [← k3.documents]; exact e2) (by rw [← k3.trees]; exact e4)
  rw [k3.variables, hv]
  unfold LspFiles.backendVariables
  rw [k3.conf.qb]

/-! ## C125 -/

/-- **C125** (part: what is recorded) Typing in a backend file has stopped and nothing is left to do.  Then the server holds the text in the editor and a tree of
it; the names it has recorded are exactly those the text passes to templates (if it has no syntax error), and the templates exactly those it loads. -/
theorem C125_recorded_partial {W : World → Prop} (hO : ∀ w, W w → Orderly w) (env : Env) (sx : Syntax) (he : Sound (env.over sx)) (hu : NormalUrls env)
    (cs : List Msg) (as : List (HMap Str Diags)) (σ : Sys) (s : Server) (h : Execution W (env.over sx) cs as σ) (hs : Words (env.over sx)) (u : Str)
    (E : Editor) (ht : StoppedTyping (env.over sx) cs u E) (hi : AtRest σ s) (hm : s.files.mainChannel = true) (hx : fileExt u = some .backend) :
    ∃ text old, E u = some text ∧ (s.files.trees .backend).get? u = some (.parsed (s.files.grammar .backend) text old) ∧
      ∀ root, root = sx.root (.parsed (s.files.grammar .backend) text old) text → Legible root →
        (∀ d, Recorded s.files u .jinjaTemplate d ↔ RefersTo root s.files.queriesBackend d) ∧
        (¬ HasError root → ∀ d, Recorded s.files u .backendVariable d ↔ Passes root s.files.queriesBackend d) := by
  obtain ⟨text, old, w, ds, e1, e2, _, e3, _⟩ := quiet_passed hO (env.over sx) he ⟨hu.same⟩ cs as σ s h hs u E ht hi hm hx
  have hq := language_execution h s hi.worker
  refine ⟨text, old, e1, e2, ?_⟩
  rintro root rfl hl
  exact ⟨refers_of e3 hq hl, fun hno => passes_of e3 hq hl hno⟩

/-- **C125** (part: what is shown for the file) … And what is underlined in it are exactly the names of templates it loads that do not exist. -/
theorem C125_underlined_partial {W : World → Prop} (hO : ∀ w, W w → Orderly w) (env : Env) (sx : Syntax) (he : Sound (env.over sx)) (hu : NormalUrls env)
    (cs : List Msg) (as : List (HMap Str Diags)) (σ : Sys) (s : Server) (h : Execution W (env.over sx) cs as σ) (hs : Words (env.over sx)) (u : Str)
    (E : Editor) (ht : StoppedTyping (env.over sx) cs u E) (hi : AtRest σ s) (hm : s.files.mainChannel = true) (hx : fileExt u = some .backend) :
    ∃ text old w ds, E u = some text ∧ (s.files.trees .backend).get? u = some (.parsed (s.files.grammar .backend) text old) ∧ W w ∧ Displays σ u ds ∧
      (Legible (sx.root (.parsed (s.files.grammar .backend) text old) text) → ∀ x, x ∈ ds ↔
        ∃ d, RefersTo (sx.root (.parsed (s.files.grammar .backend) text old) text) s.files.queriesBackend d ∧ Absent w s.files.config.templates d.1 ∧
          x = shown ⟨.templateNotFound, d.1, d.2.1, d.2.2⟩) := by
  obtain ⟨text, old, w, ds, e1, e2, e4, e3, e5, e6, e7⟩ := quiet_passed hO (env.over sx) he ⟨hu.same⟩ cs as σ s h hs u E ht hi hm hx
  have hq := language_execution h s hi.worker
  refine ⟨text, old, w, _, e1, e2, e4, e7, fun hl x => ?_⟩
  rw [readTree_backend hx e6 e2 e3] at e5
  have e5 : ds = ((s.files.backendVariables (env.over sx) (.parsed (s.files.grammar .backend) text old) text).filter
      fun i => i.idType = .jinjaTemplate).filterMap (backendDiag w s.files.config.templates) := by
    rcases e5 with e5 | ⟨e5, _⟩
    · cases e5; rfl
    · cases e5
  simp only [← refers_of e3 hq hl]
  constructor
  · intro hxm
    obtain ⟨rep, hrep, rfl⟩ := List.mem_map.mp hxm
    obtain ⟨d, hd, rfl⟩ := List.mem_map.mp hrep
    rw [e5] at hd
    obtain ⟨i, hi, hd⟩ := List.mem_filterMap.mp hd
    obtain ⟨him, hik⟩ := List.mem_filter.mp hi
    rw [backendDiag_eq] at hd
    split at hd
    · rename_i hab
      cases hd
      exact ⟨(i.name, i.start, i.stop), ⟨_, e3, i, him, by simpa using hik, rfl⟩, hab, rfl⟩
    · cases hd
  · rintro ⟨d, ⟨vars, hv, i, him, hik, rfl⟩, hab, rfl⟩
    rw [e3] at hv
    cases hv
    refine List.mem_map.mpr ⟨_, List.mem_map.mpr ⟨(.templateNotFound, i), ?_, rfl⟩, rfl⟩
    rw [e5]
    refine List.mem_filterMap.mpr ⟨i, List.mem_filter.mpr ⟨him, by simpa using hik⟩, ?_⟩
    rw [backendDiag_eq, if_pos hab]

/-- **C125** (part: requests) … In every template that has been analysed, hovering a name the text passes shows that the backend defines it, and completion
inside an expression offers it. -/
theorem C125_requests_partial {W : World → Prop} (hO : ∀ w, W w → Orderly w) (env : Env) (sx : Syntax) (he : Sound (env.over sx)) (hu : NormalUrls env)
    (cs : List Msg) (as : List (HMap Str Diags)) (σ : Sys) (s : Server) (h : Execution W (env.over sx) cs as σ) (hs : Words (env.over sx)) (u : Str)
    (E : Editor) (ht : StoppedTyping (env.over sx) cs u E) (hi : AtRest σ s) (hm : s.files.mainChannel = true) (hx : fileExt u = some .backend) :
    ∃ text old, E u = some text ∧ (s.files.trees .backend).get? u = some (.parsed (s.files.grammar .backend) text old) ∧
      ∀ root d, root = sx.root (.parsed (s.files.grammar .backend) text old) text → Legible root → ¬ HasError root →
        Passes root s.files.queriesBackend d →
        ∀ (w : World) (uri t : Str) (tree : Tree) (is : List Item) (pos : Position), fileExt uri = some .template →
          Spec.Analysed env s.files uri t tree is → Regular (sx.root tree t) →
          (∀ es v, ReadsTree sx.digit (sx.root tree t) es → Elems.Wf es → .use v ∈ es → v.mark = .variable → v.root.start ≤ toPoint pos →
            toPoint pos < v.root.stop → (∀ x ∈ Items.bindings (env.rootEnd tree) 0 is, ¬ InForce v.root.text v.root.start x) → v.root.text = d.1 →
            '.' ∉ d.1 → s.handle (env.over sx) w (.hover uri pos) = .ok (s, [], .hover (some c!"Backend variable"))) ∧
          ∀ tr, Requested tr → Beside sx.digit (sx.root tree t) (toPoint pos) →
            (∀ k ∈ (sx.root tree t).flat, IsPipe k → ¬ Touches (toPoint pos) k) → (∃ e ∈ (sx.root tree t).flat, Within (toPoint pos) e) →
            ∃ items, s.handle (env.over sx) w (.completion uri pos tr) = .ok (s, [], .completion (some items)) ∧ d.1 ∈ items.map (·.label) := by
  obtain ⟨text, old, w, ds, e1, e2, _, e3, _⟩ := quiet_passed hO (env.over sx) he ⟨hu.same⟩ cs as σ s h hs u E ht hi hm hx
  have hq := language_execution h s hi.worker
  refine ⟨text, old, e1, e2, ?_⟩
  rintro root d rfl hl hno hp w uri t tree is pos hxt ha hreg
  have hrec := (passes_of e3 hq hl hno d).mpr hp
  refine ⟨fun es v hr hw hv hvar h1 h2 hb hn hdot => ?_, fun tr htr hbe hpi hin => ?_⟩
  · exact known_hover env sx w s u d hx hrec uri t tree is es v pos hxt ha hreg.formed hreg.laid hr hw hv hvar h1 h2 hb hn hdot
  · exact known_offered env sx w s u d hrec uri t tree is pos tr htr hxt ha hreg hbe hpi hin

/-- **C125** (part: goto-definition) … Goto-definition on such a name leads to the place where the text in the editor passes it, among others. -/
theorem C125_goto_partial {W : World → Prop} (hO : ∀ w, W w → Orderly w) (env : Env) (sx : Syntax) (he : Sound (env.over sx)) (hu : NormalUrls env)
    (cs : List Msg) (as : List (HMap Str Diags)) (σ : Sys) (s : Server) (h : Execution W (env.over sx) cs as σ) (hs : Words (env.over sx)) (u : Str)
    (E : Editor) (ht : StoppedTyping (env.over sx) cs u E) (hi : AtRest σ s) (hm : s.files.mainChannel = true) (hx : fileExt u = some .backend) :
    ∃ text old, E u = some text ∧ (s.files.trees .backend).get? u = some (.parsed (s.files.grammar .backend) text old) ∧
      ∀ root d, root = sx.root (.parsed (s.files.grammar .backend) text old) text → Legible root → ¬ HasError root →
        Passes root s.files.queriesBackend d → '.' ∉ d.1 → (d.2.1 ≠ ⟨0, 0⟩ ∨ d.2.2 ≠ ⟨0, 0⟩) →
        ∀ (w : World) (uri t : Str) (tree : Tree) (is : List Item) (es : List Elem) (ss : List ImpStmt) (v : Use) (pos : Position),
          fileExt uri = some .template → Spec.Analysed env s.files uri t tree is → Regular (sx.root tree t) → (sx.root tree t).kind = .other →
          ReadsTree sx.digit (sx.root tree t) es → Elems.Wf es → Refs sx.options (sx.root tree t).children ss → ImpStmt.Wf ss →
          .use v ∈ es → v.root.text = d.1 → v.root.start ≤ toPoint pos → toPoint pos < v.root.stop →
          (∀ i ∈ ss, ∀ t ∈ i.names, ¬ (t.start ≤ toPoint pos ∧ toPoint pos ≤ t.stop)) →
          (∀ x ∈ Items.bindings (env.rootEnd tree) 0 is, ¬ Reaches v.root.text (toPoint pos) x) →
          (∀ file i, Elsewhere s.files uri v.root.text file i → env.urlParse (targetOf file i) ≠ none ∧ Fits i) →
          ∃ ls, s.handle (env.over sx) w (.goto uri pos) = .ok (s, [], .goto (some (.array ls))) ∧
            ⟨u, ⟨⟨d.2.1.row, d.2.1.column⟩, ⟨d.2.2.row, d.2.2.column⟩⟩⟩ ∈ ls := by
  obtain ⟨text, old, w, ds, e1, e2, _, e3, _⟩ := quiet_passed hO (env.over sx) he ⟨hu.same⟩ cs as σ s h hs u E ht hi hm hx
  have hq := language_execution h s hi.worker
  refine ⟨text, old, e1, e2, ?_⟩
  rintro root d rfl hl hno hp hdot hne w uri t tree is es ss v pos hxt ha hreg hk hr hw hri hss hv hn h1 h2 hin hb hurl
  have hrec := (passes_of e3 hq hl hno d).mpr hp
  obtain ⟨ls, file, k1, k2, k3⟩ := known_goto env sx w s u d hx hrec uri t tree is es ss v pos hxt ha hreg.formed hreg.laid hr hw hv h1 h2 hk hri hss hin hb
    hurl hn hdot hne
  have := hu.same u file k2
  subst this
  exact ⟨ls, k1, k3⟩

/-! ### Example, and what is not updated -/

namespace Fix

/-- the template of C83; a Rust file that passes `b` once `b` has been typed at its end -/
def growSyn : Syntax :=
  ⟨fun T x => match T with
    | .parsed .jinja _ _ => flatRoot
    | _ => if x = c!"aaab" then passRust else nd .other none 1 [], digit, fun _ _ => [[]], fun _ => true⟩

def growing : List Msg :=
  [.initialize none (some (some { JinjaConfig.default with lang := c!"rust", templates := c!"/t" })), .initialized, .didOpen uriT c!"aaa",
   .didOpen uriRsFile c!"aaa", .didChange uriRsFile ([(⟨⟨0, 3⟩, ⟨0, 3⟩⟩, c!"b")].map fun e => ⟨some e.1, e.2⟩)]

theorem growing_stopped : ∃ E, StoppedTyping (showing.over growSyn) growing uriRsFile E ∧ E uriRsFile = some c!"aaab" := by
  refine ⟨_, ⟨?_, .cons (.«initialize» _ _ _) (.cons (.initialized _ fun _ => rfl) (.cons (.opens _ _ _) (.cons (.opens _ _ _)
    (.cons (.change _ uriRsFile c!"aaa" c!"aaab" _ (by decide) ?_ (by decide)) (.nil _))))), ?_, ⟨growing.take 4, [], _, rfl, by simp⟩, by decide⟩,
    by decide⟩
  · intro m hm
    simp only [growing, List.mem_cons, List.not_mem_nil, or_false] at hm
    rcases hm with rfl | rfl | rfl | rfl | rfl
    · trivial
    · trivial
    · exact ⟨_, rfl⟩
    · exact ⟨_, rfl⟩
    · exact ⟨⟨_, rfl⟩, by simp⟩
  · exact ⟨⟨3, 3, ⟨0, by decide, by simp, by decide, by decide⟩, ⟨0, by decide, by simp, by decide, by decide⟩, by decide⟩, fun _ _ => trivial⟩
  · intro m hm
    simp only [growing, List.mem_cons, List.not_mem_nil, or_false] at hm
    rcases hm with rfl | rfl | rfl | rfl | rfl <;> intro u p h <;> cases h

theorem grow_root (T : Tree) (x : Str) : growSyn.root T x = flatRoot ∨ growSyn.root T x = passRust ∨ growSyn.root T x = nd .other none 1 [] := by
  simp only [growSyn]
  split
  · exact .inl rfl
  · split
    · exact .inr (.inl rfl)
    · exact .inr (.inr rfl)

theorem grow_words : Words (showing.over growSyn) := by
  intro q T x
  show ∀ c ∈ (Syn.walk (growSyn.reports q) [] [] (growSyn.root T x)).flatten, _
  rcases grow_root T x with e | e | e <;> rw [e] <;>
  · cases q with
    | backendDefinitions g => cases g <;> decide
    | backendTemplates g => cases g <;> decide
    | _ => decide

theorem grow_sound : Sound (showing.over growSyn) where
  parses := fun _ _ _ => rfl
  readable := by
    intro g t o
    show ∀ c ∈ (Syn.walk (growSyn.reports .jinjaDefinitions) [] [] (growSyn.root (.parsed g t o) t)).flatten, _
    rcases grow_root (.parsed g t o) t with e | e | e <;> rw [e] <;> decide
  urls := by intro p h; cases h
  debug := by intro h; cases h

theorem grow_passes : Legible passRust ∧ ¬ HasError passRust ∧ Passes passRust .rust (c!"b", ⟨0, 11⟩, ⟨0, 12⟩) := by
  refine ⟨by unfold Legible; decide, by unfold HasError; decide, ?_⟩
  refine Passes.key (n := lf .identifier 5 0 11 12 c!"b") ⟨rfl, nd .tokenTree none 4
    [lf .identifier 5 0 11 12 c!"b", lf .other 6 0 13 15 c!"=>", lf .identifier 7 0 16 17 c!"c"], ?_, rfl, List.mem_cons_self ..⟩ (by decide)
  simp [passRust, nd, lf, Syn.flat, Syn.flatAll]

end Fix

theorem Fix.growing_rests : ∃ (as : List (HMap Str Diags)) (σ : Sys) (s : Server), Execution (· = Fix.rootWorld) (Fix.showing.over Fix.growSyn) Fix.growing as σ ∧
    AtRest σ s ∧ s.files.mainChannel = true ∧ s.files.queriesBackend = .rust ∧ s.files.parserBackend = .rust ∧
    ((σ.published.filter fun p => p.1 = Fix.uriT).getLast?.map fun p => p.2.map fun d => (d.message, d.range)) =
      some [(c!"Undefined variable", ⟨⟨1, 10⟩, ⟨1, 11⟩⟩)] := by
  have e1 := Execution.start (W := (· = Fix.rootWorld)) (env := Fix.showing.over Fix.growSyn)
    |>.client (.initialize none (some (some { JinjaConfig.default with lang := c!"rust", templates := c!"/t" }))) trivial rfl (by decide)
  have e2 := e1.task (.workerRecv (q := []) Fix.rootWorld rfl rfl rfl rfl rfl)
  have e3 := e2.client .initialized trivial rfl (show 0 < 50 by decide)
  have e4 := e3.task (.workerRecv (q := []) Fix.rootWorld rfl rfl rfl rfl rfl)
  have e5 := e4.task (.workerSendDiag rfl rfl rfl (show 0 < 20 by decide))
  have e6 := e5.client (.didOpen Fix.uriT c!"aaa") trivial rfl (show 0 < 50 by decide)
  have e7 := e6.task (.workerRecv (q := []) Fix.rootWorld rfl rfl rfl rfl rfl)
  have e8 := e7.task (.workerSendDiag rfl rfl rfl (show 1 < 20 by decide))
  have f6 := e8.client (.didOpen Fix.uriRsFile c!"aaa") trivial rfl (show 0 < 50 by decide)
  have f7 := f6.task (.workerRecv (q := []) Fix.rootWorld rfl rfl rfl rfl rfl)
  have f8 := f7.task (.workerSendDiag rfl rfl rfl (show 2 < 20 by decide))
  have e9 := f8.client (.didChange Fix.uriRsFile ([(⟨⟨0, 3⟩, ⟨0, 3⟩⟩, c!"b")].map fun e => ⟨some e.1, e.2⟩)) trivial rfl (show 0 < 50 by decide)
  have e10 := e9.task (.workerRecv (q := []) Fix.rootWorld rfl rfl rfl rfl rfl)
  have e11 := e10.delayed (t := ⟨0, Fix.uriRsFile, true, true⟩) (.timer rfl (List.mem_singleton.mpr rfl) rfl (show 0 < 50 by decide)) rfl
    (List.mem_singleton.mpr rfl) rfl
  have e12 := e11.task (.workerRecv (q := []) Fix.rootWorld rfl rfl rfl rfl rfl)
  have e13 := e12.task (.workerSendDiag rfl rfl rfl (show 3 < 20 by decide))
  have e14 := e13.task (.diagRecv HashOrder.id rfl rfl rfl rfl)
  have e15 := e14.task (.diagSend rfl rfl rfl (show 0 < 50 by decide))
  have e16 := e15.task (.diagRecv HashOrder.id rfl rfl rfl rfl)
  have e17 := e16.task (.diagSend rfl rfl rfl (show 1 < 50 by decide))
  have e18 := e17.task (.diagRecv HashOrder.id rfl rfl rfl rfl)
  have f19 := e18.task (.diagSend rfl rfl rfl (show 2 < 50 by decide))
  have f20 := f19.task (.diagRecv HashOrder.id rfl rfl rfl rfl)
  have e19 := f20.task (.workerRecv Fix.rootWorld rfl rfl rfl rfl rfl)
  have e20 := e19.task (.workerRecv Fix.rootWorld rfl rfl rfl rfl rfl)
  have e21 := e20.task (.workerRecv (q := []) Fix.rootWorld rfl rfl rfl rfl rfl)
  exact ⟨_, _, _, e21, ⟨rfl, rfl, rfl, rfl, rfl⟩, rfl, rfl, rfl, rfl⟩

/-- The hypotheses hold: the session comes to rest with a text that passes `b`. -/
example : ∃ (as : List (HMap Str Diags)) (σ : Sys) (s : Server) (E : Editor), Sound (Fix.showing.over Fix.growSyn) ∧ NormalUrls Fix.showing ∧
    Words (Fix.showing.over Fix.growSyn) ∧ Execution (· = Fix.rootWorld) (Fix.showing.over Fix.growSyn) Fix.growing as σ ∧
    StoppedTyping (Fix.showing.over Fix.growSyn) Fix.growing Fix.uriRsFile E ∧ AtRest σ s ∧ s.files.mainChannel = true ∧
    fileExt Fix.uriRsFile = some .backend ∧ E Fix.uriRsFile = some c!"aaab" ∧ s.files.queriesBackend = .rust ∧
    (∀ old, Fix.growSyn.root (.parsed .rust c!"aaab" old) c!"aaab" = Fix.passRust) ∧ Legible Fix.passRust ∧ ¬ HasError Fix.passRust ∧
    Passes Fix.passRust .rust (c!"b", ⟨0, 11⟩, ⟨0, 12⟩) := by
  obtain ⟨as, σ, s, h1, h2, h3, h4, _⟩ := Fix.growing_rests
  obtain ⟨E, h5, h6⟩ := Fix.growing_stopped
  exact ⟨as, σ, s, E, Fix.grow_sound, ⟨fun n u h => by simp [Fix.showing, Fix.env] at h; exact h.symm⟩, Fix.grow_words, h1, h5, h2, h3, by decide, h6, h4,
    fun _ => rfl, Fix.grow_passes⟩

/-- **C125 is false for what is shown in templates**: the list shown for an open template is not brought up to date.  Typing has stopped in a Rust file
that now passes `b`, nothing is left to do, the server has recorded `b`; the template that uses `b` still shows it as undefined. -/
theorem C125_open_refuted : ∃ (env : Env) (sx : Syntax) (cs : List Msg) (as : List (HMap Str Diags)) (σ : Sys) (s : Server) (u v : Str) (E : Editor)
    (ds : List Diagnostic) (d : Str × Point × Point), Sound (env.over sx) ∧ NormalUrls env ∧ Words (env.over sx) ∧
    Execution (· = Fix.rootWorld) (env.over sx) cs as σ ∧ StoppedTyping (env.over sx) cs u E ∧ AtRest σ s ∧ s.files.mainChannel = true ∧
    fileExt u = some .backend ∧ fileExt v = some .template ∧ Recorded s.files u .backendVariable d ∧ d.1 = c!"b" ∧ Displays σ v ds ∧
    (∀ old t, sx.root (.parsed .jinja t old) t = Fix.flatRoot) ∧ .use Fix.useB ∈ Fix.flatElems ∧ Fix.useB.root.text = c!"b" ∧
    ∃ x ∈ ds, x.message = c!"Undefined variable" ∧ x.range = ⟨⟨1, 10⟩, ⟨1, 11⟩⟩ := by
  obtain ⟨as, σ, s, h1, h2, h3, h4, h8, h7⟩ := Fix.growing_rests
  obtain ⟨E, h5, h6⟩ := Fix.growing_stopped
  have hn : NormalUrls Fix.showing := ⟨fun n u h => by simp [Fix.showing, Fix.env] at h; exact h.symm⟩
  obtain ⟨text, old, e1, e2, e3⟩ := C125_recorded_partial (W := (· = Fix.rootWorld)) (by rintro w rfl; exact Fix.rootWorld_orderly) Fix.showing Fix.growSyn
    Fix.grow_sound hn Fix.growing as σ s h1 Fix.grow_words Fix.uriRsFile E h5 h2 h3 (by decide)
  rw [h6] at e1
  cases e1
  obtain ⟨p1, p2, p3⟩ := Fix.grow_passes
  have hr : Fix.growSyn.root (.parsed (s.files.grammar .backend) c!"aaab" old) c!"aaab" = Fix.passRust := by
    rw [show s.files.grammar .backend = .rust from h8]
    rfl
  have hrec := ((e3 _ hr.symm p1).2 p2 (c!"b", ⟨0, 11⟩, ⟨0, 12⟩)).mpr (by rw [h4]; exact p3)
  cases hl : (σ.published.filter fun p => p.1 = Fix.uriT).getLast? with
  | none => rw [hl] at h7; cases h7
  | some x =>
    obtain ⟨n, ds⟩ := x
    have hx : n = Fix.uriT := by
      have := List.mem_of_getLast? hl
      simpa using (List.mem_filter.mp this).2
    subst hx
    rw [hl] at h7
    simp only [Option.map_some, Option.some.injEq] at h7
    refine ⟨Fix.showing, Fix.growSyn, Fix.growing, as, σ, s, Fix.uriRsFile, Fix.uriT, E, ds, _, Fix.grow_sound, hn, Fix.grow_words, h1, h5, h2, h3, by decide,
      by decide, hrec, rfl, hl, fun _ _ => rfl, by simp [Fix.flatElems], rfl, ?_⟩
    have : (c!"Undefined variable", (⟨⟨1, 10⟩, ⟨1, 11⟩⟩ : Range)) ∈ ds.map fun d => (d.message, d.range) := by rw [h7]; simp
    obtain ⟨x, hx, e⟩ := List.mem_map.mp this
    simp only [Prod.mk.injEq] at e
    exact ⟨x, hx, e⟩

end JinjaLsp
