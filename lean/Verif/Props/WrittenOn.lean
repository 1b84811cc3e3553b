import Verif.Props.Growing
import Verif.Props.ScopedRest
/-
  C132: what is underlined on the screen in one part of a template, before and after writing in another part.
-/

namespace JinjaLsp
open Spec

namespace Spec

/-- In some execution, typing in a template has stopped and the server has come to rest. -/
structure Calm (W : World → Prop) (env : Env) (sx : Syntax) (cs : List Msg) (as : List (HMap Str Diags)) (σ : Sys) (s : Server) (u : Str) (E : Editor) :
    Prop where
  run : Execution W (env.over sx) cs as σ
  small : SmallResults as
  stopped : StoppedTyping (env.over sx) cs u E
  rest : AtRest σ s
  channel : s.files.mainChannel = true
  template : fileExt u = some .template
  globals : s.files.ignoreGlobals = false

/-- the text in the editor, as parsed by the server, consists of the tags and of the elements -/
structure TextReads (sx : Syntax) (s : Server) (u text : Str) (tree : Tree) (is : List Item) (es : List Elem) : Prop where
  held : (s.files.trees .template).get? u = some tree
  formed : WellFormed (sx.root tree text)
  kind : (sx.root tree text).kind = .other
  tags : Tags sx.digit (sx.root tree text).children is
  reads : ReadsTree sx.digit (sx.root tree text) es
  wf : Elems.Wf es

end Spec

theorem aboutName_shown {d : JinjaDiagnostic × Identifier} (h : d.1 ≠ .templateNotFound) : AboutName (shown (report d)) := by
  obtain ⟨k, i⟩ := d
  cases k <;> simp_all [AboutName, shown, report]

/-- a name in the list that is shown -/
theorem underlined_iff {ds : Diags} {bs : List Binding} {known : List Str} {es : List Elem} (hw : Elems.Wf es) (h : useDiags ds = useReports bs known (Elems.uses es))
    {v : Use} (hv : .use v ∈ es) : Underlined ((ds.map report).map shown) v.root ↔
      ¬ (v.info.filter = true ∨ v.info.test = true) ∧ ¬ ∃ b ∈ bs, b.VisibleAt v.info := by
  constructor
  · rintro ⟨d, hd, ha, hr⟩
    obtain ⟨rep, hrep, rfl⟩ := List.mem_map.mp hd
    obtain ⟨e, he, rfl⟩ := List.mem_map.mp hrep
    have hm : report e ∈ useDiags ds := List.mem_map_of_mem (List.mem_filter.mpr ⟨he, by
      obtain ⟨k, i⟩ := e
      cases k <;> simp_all [AboutName, shown, report]⟩)
    have hs : (report e).start = v.root.start := by
      simp only [shown, Tok.range, Range.mk.injEq, Position.mk.injEq] at hr
      exact Point.ext hr.1.1 hr.1.2
    rw [h] at hm
    obtain ⟨i, hi, hq⟩ := List.mem_filterMap.mp hm
    obtain ⟨x, hx, hxi⟩ := List.mem_filterMap.mp hi
    cases x with
    | use v' =>
      cases hxi
      obtain ⟨k, hk, hk'⟩ := Option.map_eq_some_iff.mp hq
      obtain ⟨_, _, ho⟩ := hw.ordered
      have : v' = v := use_unique (ordered_starts ho).2 hx hv ((congrArg Report.start hk').trans hs)
      subst this
      unfold verdict at hk
      split at hk
      · cases hk
      split at hk
      · cases hk
      · exact ⟨‹_›, ‹_›⟩
    | op => cases hxi
    | word => cases hxi
    | expr => cases hxi
  · rintro ⟨h1, h2⟩
    have : ∃ k, verdict bs known v.info = some k := by
      unfold verdict
      rw [if_neg h1, if_neg h2]
      split
      · exact ⟨_, rfl⟩
      · split <;> exact ⟨_, rfl⟩
    obtain ⟨k, hk⟩ := this
    have hm := (reported_iff_verdict hw hv k).mpr hk
    rw [← h] at hm
    obtain ⟨d, hd, hd'⟩ := List.mem_map.mp hm
    obtain ⟨hd1, hd2⟩ := List.mem_filter.mp hd
    refine ⟨shown (report d), List.mem_map_of_mem (List.mem_map_of_mem hd1), ?_, ?_⟩
    · exact aboutName_shown (by simpa using hd2)
    · rw [hd']
      rfl

/-- at rest, the names underlined are the uses of names without visible binding -/
theorem calm_shown {W : World → Prop} (hO : ∀ w, W w → Orderly w) {env : Env} {sx : Syntax} (he : Sound (env.over sx)) (hu : NormalUrls env)
    {cs : List Msg} {as : List (HMap Str Diags)} {σ : Sys} {s : Server} {u : Str} {E : Editor} (h : Calm W env sx cs as σ s u E) :
    ∃ text ds, E u = some text ∧ Displays σ u ds ∧ ∀ tree is es, TextReads sx s u text tree is es →
      Spec.Analysed env s.files u text tree is ∧
      ∀ v : Use, .use v ∈ es → (Underlined ds v.root ↔ ¬ (v.info.filter = true ∨ v.info.test = true) ∧
        ¬ ∃ b ∈ Items.bindings (env.rootEnd tree) 0 is, b.VisibleAt v.info) := by
  obtain ⟨text, old, w, s1, s2, r, ds, e1, e2, e4, k1, k2, k3, hf, k4⟩ :=
    quiet_saved hO (env.over sx) he ⟨hu.same⟩ cs as σ s h.run h.small u E h.stopped h.rest h.channel h.template
  refine ⟨text, _, e1, k4, fun tree is es hr => ?_⟩
  have : tree = .parsed .jinja text old := by
    have := hr.held
    rw [e4] at this
    exact (Option.some.inj this).symm
  subst this
  have hig : s1.files.ignoreGlobals = false := by rw [← hf.conf.ign, ← k3.conf.ign]; exact h.globals
  have ha := C83_analysed env sx w s1 s2 (.didSave u) u text _ _ r is .saved h.template k2 (k3.documents ▸ e2) (k3.trees ▸ e4) hr.formed hr.kind hr.tags
  obtain ⟨_, _, vs, l1, l2⟩ := ha
  refine ⟨⟨e2, e4, vs, k3.variables ▸ l1, l2⟩, fun v hv => ?_⟩
  obtain ⟨d, o, h4⟩ := C25_reports_partial _ w s1 s2 (.didSave u) u _ r _ _ .saved h.template hig k2
    (readObjects_eq h.template (k3.documents ▸ e2) (k3.trees ▸ e4)) l1
  have hd : d = ds := by
    simp only [List.cons.injEq, Send.diag.injEq, and_true] at o
    have := congrArg (fun x => x.get? u) o
    simpa using this.symm
  subst hd
  rw [usesIn_elems hr.wf (over_objects hr.reads), l2] at h4
  exact underlined_iff hr.wf h4 hv

/-! ## C132 -/

/-- **C132** (end) Two moments at which typing has stopped and the server has come to rest, in one session or in two.  If the text in the editor
at the second is that at the first with further tags at the end, the names underlined in the part before are the same. -/
theorem C132_end {W : World → Prop} (hO : ∀ w, W w → Orderly w) (env : Env) (sx : Syntax) (he : Sound (env.over sx)) (hu : NormalUrls env)
    (cs cs' : List Msg) (as as' : List (HMap Str Diags)) (σ σ' : Sys) (s s' : Server) (u u' : Str) (E E' : Editor)
    (h : Calm W env sx cs as σ s u E) (h' : Calm W env sx cs' as' σ' s' u' E') :
    ∃ text ds text' ds', E u = some text ∧ Displays σ u ds ∧ E' u' = some text' ∧ Displays σ' u' ds' ∧
      ∀ tree tree' is js es es', TextReads sx s u text tree is es → TextReads sx s' u' text' tree' (is ++ js) es' →
        ∀ v : Use, .use v ∈ es → .use v ∈ es' → Items.Behind v.root.stop js → v.root.stop < env.rootEnd tree → v.root.stop < env.rootEnd tree' →
          (Underlined ds v.root ↔ Underlined ds' v.root) := by
  obtain ⟨text, ds, e1, e2, e3⟩ := calm_shown hO he hu h
  obtain ⟨text', ds', f1, f2, f3⟩ := calm_shown hO he hu h'
  refine ⟨text, ds, text', ds', e1, e2, f1, f2, fun tree tree' is js es es' hr hr' v hv hv' hb hl hl' => ?_⟩
  rw [(e3 _ _ _ hr).2 v hv, (f3 _ _ _ hr').2 v hv', (concur_appended hl hl' hb).exists_iff (P := fun b => b.VisibleAt v.info)
    (fun b hb => Concur.not_visible hb rfl rfl) (fun b b' hb => Concur.same_visible (Point.le_of_lt (use_spans hr.wf hv)) hb rfl)]

/-- **C130** (at rest) Two moments as above.  If the text at the second moment has a complete piece in addition, the names underlined around it are the same, but for those
behind it that it leaves behind.  Missing: pieces with `else`, `elif` or an inline `if`, as for C130. -/
theorem C130_rest_partial {W : World → Prop} (hO : ∀ w, W w → Orderly w) (env : Env) (sx : Syntax) (he : Sound (env.over sx)) (hu : NormalUrls env)
    (cs cs' : List Msg) (as as' : List (HMap Str Diags)) (σ σ' : Sys) (s s' : Server) (u u' : Str) (E E' : Editor)
    (h : Calm W env sx cs as σ s u E) (h' : Calm W env sx cs' as' σ' s' u' E') :
    ∃ text ds text' ds', E u = some text ∧ Displays σ u ds ∧ E' u' = some text' ∧ Displays σ' u' ds' ∧
      ∀ tree tree' pre seg post es es', TextReads sx s u text tree (pre ++ post) es → TextReads sx s' u' text' tree' (pre ++ (seg ++ post)) es' →
        Items.Complete seg → ∀ v : Use, .use v ∈ es → .use v ∈ es' →
          (Items.Behind v.root.stop seg ∨ Items.InFront v.root.start seg ∧ v.root.text ∉ Items.leaves 0 seg) →
          (env.rootEnd tree' = env.rootEnd tree ∨ v.root.stop < env.rootEnd tree ∧ v.root.stop < env.rootEnd tree') →
          (Underlined ds v.root ↔ Underlined ds' v.root) := by
  obtain ⟨text, ds, e1, e2, e3⟩ := calm_shown hO he hu h
  obtain ⟨text', ds', f1, f2, f3⟩ := calm_shown hO he hu h'
  refine ⟨text, ds, text', ds', e1, e2, f1, f2, fun tree tree' pre seg post es es' hr hr' hc v hv hv' hb hl => ?_⟩
  rw [(e3 _ _ _ hr).2 v hv, (f3 _ _ _ hr').2 v hv', (concur_piece hl hc hb).exists_iff (P := fun b => b.VisibleAt v.info)
    (fun b hb => Concur.not_visible hb rfl rfl) (fun b b' hb => Concur.same_visible (Point.le_of_lt (use_spans hr.wf hv)) hb rfl)]

/-- **C132** (anything) If the text at the second moment has tags in addition that end no block of their surroundings, no name elsewhere is
underlined that was not. -/
theorem C132_added {W : World → Prop} (hO : ∀ w, W w → Orderly w) (env : Env) (sx : Syntax) (he : Sound (env.over sx)) (hu : NormalUrls env)
    (cs cs' : List Msg) (as as' : List (HMap Str Diags)) (σ σ' : Sys) (s s' : Server) (u u' : Str) (E E' : Editor)
    (h : Calm W env sx cs as σ s u E) (h' : Calm W env sx cs' as' σ' s' u' E') :
    ∃ text ds text' ds', E u = some text ∧ Displays σ u ds ∧ E' u' = some text' ∧ Displays σ' u' ds' ∧
      ∀ tree tree' pre seg post es es', TextReads sx s u text tree (pre ++ post) es → TextReads sx s' u' text' tree' (pre ++ (seg ++ post)) es' →
        Items.NoStray (pre ++ post) → Items.NoStray seg → Items.Downwards post → ∀ v : Use, .use v ∈ es → .use v ∈ es' →
          v.root.stop < env.rootEnd tree' → Underlined ds' v.root → Underlined ds v.root := by
  obtain ⟨text, ds, e1, e2, e3⟩ := calm_shown hO he hu h
  obtain ⟨text', ds', f1, f2, f3⟩ := calm_shown hO he hu h'
  refine ⟨text, ds, text', ds', e1, e2, f1, f2, fun tree tree' pre seg post es es' hr hr' hn hc hd v hv hv' hl => ?_⟩
  rw [(e3 _ _ _ hr).2 v hv, (f3 _ _ _ hr').2 v hv']
  exact fun ⟨h1, h2⟩ => ⟨h1, fun hb => h2 ((extends_added hl hn hc hd).visible (Point.le_of_lt (use_spans hr.wf hv)) hb)⟩

/-! ### Example -/

namespace Fix

/-- `{% set a = 1 %}` below -/
def onP : Program :=
  .set (tagOn 0) (tk 0 1 c!"set") (tk 0 2 c!"customer") [.eq (tk 0 3 c!"=")]
    (.out [.name (tk 1 1 c!"a"), .name (tk 1 2 c!"customer"), .name (tk 1 3 c!"b")] []
      (.set (tagOn 2) (tk 2 1 c!"set") (tk 2 2 c!"a") [.eq (tk 2 3 c!"=")] .done))

/-- the session of C123 with another letter at the end -/
def typingOn : List Msg :=
  [.initialize none (some (some { JinjaConfig.default with lang := c!"rust", templates := c!"/t" })), .initialized, .didOpen uriT c!"aaa",
   .didChange uriT ([(⟨⟨0, 3⟩, ⟨0, 3⟩⟩, c!"c")].map fun e => ⟨some e.1, e.2⟩)]

theorem typingOn_stopped (env : Env) : ∃ E, StoppedTyping env typingOn uriT E ∧ E uriT = some c!"aaac" := by
  have h : ∀ c ∈ c!"aaa", PlainChar c := by unfold PlainChar; decide
  refine ⟨_, ⟨?_, .cons (.«initialize» _ _ _) (.cons (.initialized _ fun _ => rfl) (.cons (.opens _ _ _)
    (.cons (.change _ uriT c!"aaa" c!"aaac" _ (by decide) ?_ (by decide)) (.nil _)))), ?_, ⟨typingOn.take 3, [], _, rfl, by simp⟩, by decide⟩, by decide⟩
  · intro m hm
    simp only [typingOn, List.mem_cons, List.not_mem_nil, or_false] at hm
    rcases hm with rfl | rfl | rfl | rfl
    · trivial
    · trivial
    · exact ⟨_, rfl⟩
    · exact ⟨⟨_, rfl⟩, by simp⟩
  · exact ⟨⟨3, 3, ⟨0, by decide, by simp, by decide, by decide⟩, ⟨0, by decide, by simp, by decide, by decide⟩, by decide⟩, fun _ _ => trivial⟩
  · intro m hm
    simp only [typingOn, List.mem_cons, List.not_mem_nil, or_false] at hm
    rcases hm with rfl | rfl | rfl | rfl <;> intro u p h <;> cases h

/-- the text of the second session is the longer template -/
def synOn : Syntax := { drawSyn smallP with root := fun _ text => if text = c!"aaac" then drawRoot onP else drawRoot smallP }

def onMatches : QueryId → List (List Capture)
  | .jinjaDefinitions => restDefs ++
    [[⟨.definition, 202, ⟨2, 11⟩, ⟨2, 19⟩, some c!"set", (⟨0, 0⟩, ⟨0, 0⟩), (⟨0, 0⟩, ⟨0, 0⟩), none⟩],
     [⟨.id, 203, ⟨2, 21⟩, ⟨2, 29⟩, some c!"a", (⟨0, 0⟩, ⟨0, 0⟩), (⟨0, 0⟩, ⟨0, 0⟩), none⟩],
     [⟨.equals, 204, ⟨2, 31⟩, ⟨2, 39⟩, some c!"=", (⟨0, 0⟩, ⟨0, 0⟩), (⟨0, 0⟩, ⟨0, 0⟩), none⟩],
     [⟨.scopeEnd, 201, ⟨2, 1⟩, ⟨2, 9⟩, some c!"{%", (⟨0, 0⟩, ⟨0, 0⟩), (⟨0, 0⟩, ⟨0, 0⟩), none⟩,
      ⟨.scopeStart, 221, ⟨2, 201⟩, ⟨2, 209⟩, some c!"%}", (⟨0, 0⟩, ⟨0, 0⟩), (⟨0, 0⟩, ⟨0, 0⟩), none⟩]]
  | .jinjaObjects => restObjs ++
    [[⟨.justId, 203, ⟨2, 21⟩, ⟨2, 29⟩, some c!"a", (⟨0, 0⟩, ⟨0, 0⟩), (⟨0, 0⟩, ⟨0, 0⟩), none⟩],
     [⟨.pipe, 204, ⟨2, 31⟩, ⟨2, 39⟩, some c!"=", (⟨0, 0⟩, ⟨0, 0⟩), (⟨0, 0⟩, ⟨0, 0⟩), none⟩]]
  | .jinjaSnippets => restSnips ++
    [[⟨.start, 201, ⟨2, 1⟩, ⟨2, 9⟩, some c!"{%", (⟨0, 0⟩, ⟨0, 0⟩), (⟨0, 0⟩, ⟨0, 0⟩), none⟩],
     [⟨.keyword, 202, ⟨2, 11⟩, ⟨2, 19⟩, some c!"set", (⟨0, 0⟩, ⟨0, 0⟩), (⟨0, 0⟩, ⟨0, 0⟩), none⟩],
     [⟨.stop, 221, ⟨2, 201⟩, ⟨2, 209⟩, some c!"%}", (⟨0, 0⟩, ⟨0, 0⟩), (⟨0, 0⟩, ⟨0, 0⟩), none⟩]]
  | _ => []

/-- the matches written out -/
def onEnv : Env :=
  { showing with queryMatches := fun q _ text => if text = c!"aaac" then onMatches q else restEnv.queryMatches q (.parsed .jinja [] none) [] }

theorem onEnv_eq : showing.over synOn = onEnv := by
  have h : ∀ q, Syn.walk (synOn.reports q) [] [] (drawRoot smallP) = restEnv.queryMatches q (.parsed .jinja [] none) [] := by
    intro q
    cases q with
    | backendDefinitions b => cases b <;> rfl
    | backendTemplates b => cases b <;> rfl
    | _ => rfl
  have h' : ∀ q, Syn.walk (synOn.reports q) [] [] (drawRoot onP) = onMatches q := by
    intro q
    cases q with
    | backendDefinitions b => cases b <;> rfl
    | backendTemplates b => cases b <;> rfl
    | _ => rfl
  have : (showing.over synOn).queryMatches = onEnv.queryMatches := by
    funext q t x
    show Syn.walk (synOn.reports q) [] [] (if x = c!"aaac" then drawRoot onP else drawRoot smallP) =
      if x = c!"aaac" then onMatches q else restEnv.queryMatches q (.parsed .jinja [] none) []
    split
    · exact h' q
    · exact h q
  show ({ showing with queryMatches := (showing.over synOn).queryMatches } : Env) = { showing with queryMatches := onEnv.queryMatches }
  rw [this]

theorem on_sound : Sound (showing.over synOn) where
  parses := fun _ _ _ => rfl
  readable := by
    intro g t o
    have h1 : ∀ c ∈ restDefs.flatten, c.name = .definition → c.text ≠ none := by decide
    have h2 : ∀ c ∈ (onMatches .jinjaDefinitions).flatten, c.name = .definition → c.text ≠ none := by decide
    rw [onEnv_eq]
    intro c hc
    have hc : c ∈ (if t = c!"aaac" then onMatches .jinjaDefinitions else restDefs).flatten := hc
    split at hc
    · exact h2 c hc
    · exact h1 c hc
  urls := by intro p h; cases h
  debug := by intro h; cases h

theorem on_first : ∃ (as : List (HMap Str Diags)) (σ : Sys) (s : Server) (E : Editor) (tree : Tree),
    Calm (· = rootWorld) showing synOn typing as σ s uriT E ∧ E uriT = some c!"aaab" ∧ (s.files.trees .template).get? uriT = some tree := by
  have main : ∃ (as : List (HMap Str Diags)) (σ : Sys) (s : Server) (E : Editor) (tree : Tree), Execution (· = rootWorld) onEnv typing as σ ∧
      SmallResults as ∧ StoppedTyping onEnv typing uriT E ∧ E uriT = some c!"aaab" ∧ AtRest σ s ∧ s.files.mainChannel = true ∧
      s.files.ignoreGlobals = false ∧ (s.files.trees .template).get? uriT = some tree := by
    have e1 := Execution.start (W := (· = rootWorld)) (env := onEnv)
      |>.client (.initialize none (some (some { JinjaConfig.default with lang := c!"rust", templates := c!"/t" }))) trivial rfl (by decide)
    have e2 := e1.task (.workerRecv (q := []) rootWorld rfl rfl rfl rfl rfl)
    have e3 := e2.client .initialized trivial rfl (show 0 < 50 by decide)
    have e4 := e3.task (.workerRecv (q := []) rootWorld rfl rfl rfl rfl rfl)
    have e5 := e4.task (.workerSendDiag rfl rfl rfl (show 0 < 20 by decide))
    have e6 := e5.client (.didOpen uriT c!"aaa") trivial rfl (show 0 < 50 by decide)
    have e7 := e6.task (.workerRecv (q := []) rootWorld rfl rfl rfl rfl rfl)
    have e8 := e7.task (.workerSendDiag rfl rfl rfl (show 1 < 20 by decide))
    have e9 := e8.client (.didChange uriT ([(⟨⟨0, 3⟩, ⟨0, 3⟩⟩, c!"b")].map fun e => ⟨some e.1, e.2⟩)) trivial rfl (show 0 < 50 by decide)
    have e10 := e9.task (.workerRecv (q := []) rootWorld rfl rfl rfl rfl rfl)
    have e11 := e10.delayed (t := ⟨0, uriT, true, true⟩) (.timer rfl (List.mem_singleton.mpr rfl) rfl (show 0 < 50 by decide)) rfl
      (List.mem_singleton.mpr rfl) rfl
    have e12 := e11.task (.workerRecv (q := []) rootWorld rfl rfl rfl rfl rfl)
    have e13 := e12.task (.workerSendDiag rfl rfl rfl (show 2 < 20 by decide))
    have e14 := e13.task (.diagRecv HashOrder.id rfl rfl rfl rfl)
    have e15 := e14.task (.diagSend rfl rfl rfl (show 0 < 50 by decide))
    have e16 := e15.task (.diagRecv HashOrder.id rfl rfl rfl rfl)
    have e17 := e16.task (.diagSend rfl rfl rfl (show 1 < 50 by decide))
    have e18 := e17.task (.diagRecv HashOrder.id rfl rfl rfl rfl)
    have e19 := e18.task (.workerRecv rootWorld rfl rfl rfl rfl rfl)
    have e20 := e19.task (.workerRecv (q := []) rootWorld rfl rfl rfl rfl rfl)
    obtain ⟨E, h1, h2⟩ := typing_stopped
    exact ⟨_, _, _, E, _, e20, smallResults_of_entries _ (by decide), ⟨h1.proper, h1.edits, h1.noQuickFix, h1.last, h1.supported⟩, h2,
      ⟨rfl, rfl, rfl, rfl, rfl⟩, rfl, rfl, rfl⟩
  obtain ⟨as, σ, s, E, tree, h1, h2, h3, h4, h5, h6, h7, h8⟩ := main
  rw [← onEnv_eq] at h1 h3
  exact ⟨as, σ, s, E, tree, ⟨h1, h2, h3, h5, h6, by decide, h7⟩, h4, h8⟩

theorem on_second : ∃ (as : List (HMap Str Diags)) (σ : Sys) (s : Server) (E : Editor) (tree : Tree),
    Calm (· = rootWorld) showing synOn typingOn as σ s uriT E ∧ E uriT = some c!"aaac" ∧ (s.files.trees .template).get? uriT = some tree := by
  have main : ∃ (as : List (HMap Str Diags)) (σ : Sys) (s : Server) (E : Editor) (tree : Tree), Execution (· = rootWorld) onEnv typingOn as σ ∧
      SmallResults as ∧ StoppedTyping onEnv typingOn uriT E ∧ E uriT = some c!"aaac" ∧ AtRest σ s ∧ s.files.mainChannel = true ∧
      s.files.ignoreGlobals = false ∧ (s.files.trees .template).get? uriT = some tree := by
    have e1 := Execution.start (W := (· = rootWorld)) (env := onEnv)
      |>.client (.initialize none (some (some { JinjaConfig.default with lang := c!"rust", templates := c!"/t" }))) trivial rfl (by decide)
    have e2 := e1.task (.workerRecv (q := []) rootWorld rfl rfl rfl rfl rfl)
    have e3 := e2.client .initialized trivial rfl (show 0 < 50 by decide)
    have e4 := e3.task (.workerRecv (q := []) rootWorld rfl rfl rfl rfl rfl)
    have e5 := e4.task (.workerSendDiag rfl rfl rfl (show 0 < 20 by decide))
    have e6 := e5.client (.didOpen uriT c!"aaa") trivial rfl (show 0 < 50 by decide)
    have e7 := e6.task (.workerRecv (q := []) rootWorld rfl rfl rfl rfl rfl)
    have e8 := e7.task (.workerSendDiag rfl rfl rfl (show 1 < 20 by decide))
    have e9 := e8.client (.didChange uriT ([(⟨⟨0, 3⟩, ⟨0, 3⟩⟩, c!"c")].map fun e => ⟨some e.1, e.2⟩)) trivial rfl (show 0 < 50 by decide)
    have e10 := e9.task (.workerRecv (q := []) rootWorld rfl rfl rfl rfl rfl)
    have e11 := e10.delayed (t := ⟨0, uriT, true, true⟩) (.timer rfl (List.mem_singleton.mpr rfl) rfl (show 0 < 50 by decide)) rfl
      (List.mem_singleton.mpr rfl) rfl
    have e12 := e11.task (.workerRecv (q := []) rootWorld rfl rfl rfl rfl rfl)
    have e13 := e12.task (.workerSendDiag rfl rfl rfl (show 2 < 20 by decide))
    have e14 := e13.task (.diagRecv HashOrder.id rfl rfl rfl rfl)
    have e15 := e14.task (.diagSend rfl rfl rfl (show 0 < 50 by decide))
    have e16 := e15.task (.diagRecv HashOrder.id rfl rfl rfl rfl)
    have e17 := e16.task (.diagSend rfl rfl rfl (show 1 < 50 by decide))
    have e18 := e17.task (.diagRecv HashOrder.id rfl rfl rfl rfl)
    have e19 := e18.task (.workerRecv rootWorld rfl rfl rfl rfl rfl)
    have e20 := e19.task (.workerRecv (q := []) rootWorld rfl rfl rfl rfl rfl)
    obtain ⟨E, h1, h2⟩ := typingOn_stopped onEnv
    exact ⟨_, _, _, E, _, e20, smallResults_of_entries _ (by decide), ⟨h1.proper, h1.edits, h1.noQuickFix, h1.last, h1.supported⟩, h2,
      ⟨rfl, rfl, rfl, rfl, rfl⟩, rfl, rfl, rfl⟩
  obtain ⟨as, σ, s, E, tree, h1, h2, h3, h4, h5, h6, h7, h8⟩ := main
  rw [← onEnv_eq] at h1 h3
  exact ⟨as, σ, s, E, tree, ⟨h1, h2, h3, h5, h6, by decide, h7⟩, h4, h8⟩

end Fix

/-- the hypotheses hold, with `{{ a customer b }}` in both: `a`, set below in the second, is underlined in both; `customer` in none -/
example : (∃ as σ s E text tree, Calm (· = Fix.rootWorld) Fix.showing Fix.synOn Fix.typing as σ s Fix.uriT E ∧ E Fix.uriT = some text ∧
      TextReads Fix.synOn s Fix.uriT text tree Fix.smallP.items (Fix.plainElems (Fix.drawRoot Fix.smallP))) ∧
    (∃ as σ s E text tree, Calm (· = Fix.rootWorld) Fix.showing Fix.synOn Fix.typingOn as σ s Fix.uriT E ∧ E Fix.uriT = some text ∧
      TextReads Fix.synOn s Fix.uriT text tree Fix.onP.items (Fix.plainElems (Fix.drawRoot Fix.onP))) ∧
    Sound (Fix.showing.over Fix.synOn) ∧
    .use ⟨.variable, Fix.tk 1 1 c!"a", []⟩ ∈ Fix.plainElems (Fix.drawRoot Fix.smallP) ∧ .use ⟨.variable, Fix.tk 1 1 c!"a", []⟩ ∈ Fix.plainElems (Fix.drawRoot Fix.onP) ∧
    .use ⟨.variable, Fix.tk 1 2 c!"customer", []⟩ ∈ Fix.plainElems (Fix.drawRoot Fix.smallP) ∧
    .use ⟨.variable, Fix.tk 1 2 c!"customer", []⟩ ∈ Fix.plainElems (Fix.drawRoot Fix.onP) ∧
    ∃ js, Fix.onP.items = Fix.smallP.items ++ js ∧ js.length = 1 ∧ Items.Behind (Fix.tk 1 1 c!"a").stop js ∧ Items.Behind (Fix.tk 1 2 c!"customer").stop js ∧
      Items.Complete js ∧ Items.NoStray js ∧ Items.NoStray Fix.smallP.items ∧ Items.Downwards ([] : List Item) ∧
      ∀ tree, (Fix.tk 1 2 c!"customer").stop < Fix.showing.rootEnd tree := by
  refine ⟨?_, ?_, Fix.on_sound, Fix.uses_mem (by decide +kernel), Fix.uses_mem (by decide +kernel), Fix.uses_mem (by decide +kernel), Fix.uses_mem (by decide +kernel),
    _, rfl, rfl, ⟨by decide +kernel, ?_⟩, ⟨by decide +kernel, ?_⟩, rfl, ⟨0, rfl⟩, ⟨0, rfl⟩, ⟨.nil, fun _ h => by cases h⟩, fun _ => show (⟨1, 29⟩ : Point) < ⟨9, 9⟩ by decide⟩
  · obtain ⟨as, σ, s, E, tree, h1, h2, h3⟩ := Fix.on_first
    exact ⟨as, σ, s, E, _, tree, h1, h2, h3, (⟨by decide +kernel, by decide +kernel, by decide +kernel⟩ : WellFormed (Fix.drawRoot Fix.smallP)), rfl,
      (Fix.readTags_sound rfl : Tags Fix.digit (Fix.draw Fix.smallP) Fix.smallP.items),
      (Fix.plainElems_read rfl : ReadsTree Fix.digit (Fix.drawRoot Fix.smallP) _), Fix.elems_wf_of (by decide +kernel)⟩
  · obtain ⟨as, σ, s, E, tree, h1, h2, h3⟩ := Fix.on_second
    exact ⟨as, σ, s, E, _, tree, h1, h2, h3, (⟨by decide +kernel, by decide +kernel, by decide +kernel⟩ : WellFormed (Fix.drawRoot Fix.onP)), rfl,
      (Fix.readTags_sound rfl : Tags Fix.digit (Fix.draw Fix.onP) Fix.onP.items),
      (Fix.plainElems_read rfl : ReadsTree Fix.digit (Fix.drawRoot Fix.onP) _), Fix.elems_wf_of (by decide +kernel)⟩
  all_goals
    intro e h
    have h : Item.closing e ∈ [_] := h
    cases List.mem_singleton.mp h

end JinjaLsp
