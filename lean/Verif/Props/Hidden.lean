import Verif.Props.Squiggles
import Verif.Props.Fixes
/-
  C145: when undefined names are hidden, what is underlined are the missing templates, and nothing else.
-/

namespace JinjaLsp
open Spec

theorem all_missing {ds : Diags} (h : ∀ d ∈ ds, d.1 = .templateNotFound) : useDiags ds = [] ∧ missingDiags ds = ds.map report := by
  unfold useDiags missingDiags
  constructor
  · rw [List.filter_eq_nil_iff.mpr fun d hd => by simp [h d hd]]; rfl
  · rw [List.filter_eq_self.mpr fun d hd => by simp [h d hd]]

/-- the places of some missing references -/
theorem missing_clear {sx : Syntax} {root : Syn} {ss : List ImpStmt} {rs : List Report} {w : World} {dir : Str} {empty : Bool} (hs : WellFormed root)
    (hl : Laid root) (hi : Refs sx.options root.children ss) (h : rs.Perm (refReports w dir empty (ImpStmt.refs ss))) :
    (∀ r ∈ rs, ∃ n ∈ root.flat, n.kind = .string ∧ r.start = n.start ∧ r.stop = n.stop) ∧
      rs.Pairwise fun a b => Clears (a.start, a.stop) (b.start, b.stop) := by
  obtain ⟨ys, y1, y2, y3⟩ := refs_nodes hi
  have y1 : ys.Sublist root.flat := by rw [flat_eq]; exact y1.cons _
  have : ((refReports w dir empty (ImpStmt.refs ss)).map fun r => (r.start, r.stop)).Sublist (ys.map fun m => (m.start, m.stop)) := by
    rw [← y3]
    unfold refReports
    rw [List.map_map]
    exact List.filter_sublist.map _
  obtain ⟨zs, z1, z2⟩ := List.sublist_map_iff.mp this
  have z2 : (rs.map fun r => (r.start, r.stop)).Perm (zs.map fun m => (m.start, m.stop)) := z2 ▸ h.map _
  constructor
  · intro r hr
    obtain ⟨n, hn, e⟩ := List.mem_map.mp (z2.subset (List.mem_map_of_mem hr))
    rw [Prod.mk.injEq] at e
    exact ⟨n, y1.subset (z1.subset hn), y2 n (z1.subset hn), e.1.symm, e.2.symm⟩
  · exact List.pairwise_map.mp ((z2.pairwise_iff fun h => Clears.symm h).mpr
      (nodes_pairwise hs hl (z1.trans y1) fun m hm => .inr (y2 m (z1.subset hm))))

/-! ## C145 -/

/-- **C145** When undefined names are hidden, opening or saving a template reports exactly the references that are not found: each once, and no name. -/
theorem C145_reports (env : Env) (sx : Syntax) (w : World) (s s' : Server) (m : Msg) (uri text : Str) (tree : Tree) (out : List Send)
    (r : Reply) (is : List Item) (ss : List ImpStmt) (hm : m.Analyses uri) (he : fileExt uri = some .template)
    (hig : s.files.ignoreGlobals = true) (h : s.handle (env.over sx) w m = .ok (s', out, r))
    (hd : s'.files.documents.get? uri = some text) (ht : (s'.files.trees .template).get? uri = some tree)
    (hs : WellFormed (sx.root tree text)) (hk : (sx.root tree text).kind = .other) (hr : Tags sx.digit (sx.root tree text).children is)
    (hi : Refs sx.options (sx.root tree text).children ss) (hss : ImpStmt.Wf ss) :
    ∃ ds, out = [.diag (HMap.empty.insert uri ds)] ∧ (ds.map report).Perm (refReports w s.files.config.templates true (ImpStmt.refs ss)) := by
  obtain ⟨_, _, vs, hv, _⟩ := C83_analysed env sx w s s' m uri text tree out r is hm he h hd ht hs hk hr
  obtain ⟨ds, h1, h2⟩ := C28_template_partial (env.over sx) w s s' m uri out r text tree vs ss hm he h hd ht hv hss (over_imports hk hi)
  obtain ⟨k1, k2⟩ := analyses_template hm he h hd ht hv
  have e : ds = templateDiags (env.over sx) w s'.files tree text vs := by
    rw [h1] at k1
    simp only [List.cons.injEq, Send.diag.injEq, and_true] at k1
    have := congrArg (fun x => x.get? uri) k1
    simpa using this
  refine ⟨ds, h1, ?_⟩
  have none : ds.filter (fun d => d.1 ≠ .templateNotFound) = [] := by
    rw [e, templateDiags_uses, k2.conf.ign, hig]
    exact List.filterMap_eq_nil_iff.mpr fun o _ => objectDiag_ignore ..
  rw [← (all_missing fun d hd => by simpa using List.filter_eq_nil_iff.mp none d hd).2]
  exact h2

/-- **C145** (places) … and the places reported have an extent and do not overlap. -/
theorem C145_apart (env : Env) (sx : Syntax) (w : World) (s s' : Server) (m : Msg) (uri text : Str) (tree : Tree) (out : List Send)
    (r : Reply) (is : List Item) (ss : List ImpStmt) (hm : m.Analyses uri) (he : fileExt uri = some .template)
    (hig : s.files.ignoreGlobals = true) (h : s.handle (env.over sx) w m = .ok (s', out, r))
    (hd : s'.files.documents.get? uri = some text) (ht : (s'.files.trees .template).get? uri = some tree)
    (hs : WellFormed (sx.root tree text)) (hl : Laid (sx.root tree text)) (hf : Solid (sx.root tree text)) (hk : (sx.root tree text).kind = .other)
    (hr : Tags sx.digit (sx.root tree text).children is) (hi : Refs sx.options (sx.root tree text).children ss) (hss : ImpStmt.Wf ss) :
    ∃ ds, out = [.diag (HMap.empty.insert uri ds)] ∧ (∀ r ∈ ds.map report, r.start < r.stop) ∧
      (ds.map report).Pairwise fun a b => a.stop ≤ b.start ∨ b.stop ≤ a.start := by
  obtain ⟨ds, h1, h2⟩ := C145_reports env sx w s s' m uri text tree out r is ss hm he hig h hd ht hs hk hr hi hss
  obtain ⟨k1, k2⟩ := missing_clear hs hl hi h2
  refine ⟨ds, h1, fun r hr => ?_, k2⟩
  obtain ⟨n, l1, l2, l3, l4⟩ := k1 r hr
  rw [l3, l4]
  exact hf n l1 (.inr l2)

/-- **C145** (at rest) When typing has stopped and the server has come to rest with undefined names hidden, the editor shows exactly the references of its
text that are not found, and they do not overlap. -/
theorem C145_rest {W : World → Prop} (hO : ∀ w, W w → Orderly w) (env : Env) (sx : Syntax) (he : Sound (env.over sx))
    (hu : NormalUrls env) (cs : List Msg) (as : List (HMap Str Diags)) (σ : Sys) (s : Server) (h : Execution W (env.over sx) cs as σ)
    (hs : SmallResults as) (u : Str) (E : Editor) (ht : StoppedTyping (env.over sx) cs u E) (hi : AtRest σ s) (hm : s.files.mainChannel = true)
    (hx : fileExt u = some .template) (hig : s.files.ignoreGlobals = true) :
    ∃ text tree w ds, E u = some text ∧ (s.files.trees .template).get? u = some tree ∧ W w ∧ Displays σ u ds ∧
      ∀ (is : List Item) (ss : List ImpStmt), WellFormed (sx.root tree text) → (sx.root tree text).kind = .other →
        Tags sx.digit (sx.root tree text).children is → Refs sx.options (sx.root tree text).children ss → ImpStmt.Wf ss →
        ds.Perm ((refReports w s.files.config.templates true (ImpStmt.refs ss)).map shown) ∧
        (Laid (sx.root tree text) →
          ds.Pairwise fun a b => toPoint a.range.stop ≤ toPoint b.range.start ∨ toPoint b.range.stop ≤ toPoint a.range.start) := by
  obtain ⟨text, old, w, s1, s2, r, ds, e1, e2, e4, k1, k2, k3, hf, k4⟩ :=
    quiet_saved hO (env.over sx) he ⟨hu.same⟩ cs as σ s h hs u E ht hi hm hx
  refine ⟨text, _, w, _, e1, e4, k1, k4, fun is ss hwf hk hr hre hss => ?_⟩
  rw [k3.documents] at e2
  rw [k3.trees] at e4
  have hig1 : s1.files.ignoreGlobals = true := by rw [← hf.conf.ign, ← k3.conf.ign]; exact hig
  obtain ⟨d, o, h1⟩ := C145_reports env sx w s1 s2 (.didSave u) u text _ _ r is ss .saved hx hig1 k2 e2 e4 hwf hk hr hre hss
  have hd : d = ds := by
    simp only [List.cons.injEq, Send.diag.injEq, and_true] at o
    have := congrArg (fun x => x.get? u) o
    simpa using this.symm
  subst hd
  have hc : s1.files.config.templates = s.files.config.templates := by rw [← hf.conf.conf, ← k3.conf.conf]
  rw [hc] at h1
  exact ⟨h1.map _, fun hl => List.pairwise_map.mpr (missing_clear hwf hl hre h1).2⟩

/-! ### Examples -/

/-- in the template of C71, three names are hidden and the missing include is reported -/
example : ∃ ds, (∃ s' r, ({ Fix.server with files := { Fix.server.files with ignoreGlobals := true } } : Server).handle (Fix.env.over Fix.syn) Fix.emptyWorld
      (.didOpen Fix.uriA []) = .ok (s', [.diag (HMap.empty.insert Fix.uriA ds)], r)) ∧
    (ds.map report).Perm [⟨.templateNotFound, c!"x.html", ⟨0, 11⟩, ⟨0, 19⟩⟩] := by
  have main : ∃ s' out r, ({ Fix.server with files := { Fix.server.files with ignoreGlobals := true } } : Server).handle (Fix.env.over Fix.syn) Fix.emptyWorld
        (.didOpen Fix.uriA []) = .ok (s', out, r) ∧
      s'.files.documents.get? Fix.uriA = some [] ∧
      (s'.files.trees .template).get? Fix.uriA = some (.parsed .jinja [] (some (.parsed .jinja c!"aaa" none))) := ⟨_, _, _, rfl, rfl, rfl⟩
  obtain ⟨s', out, r, h1, h2, h3⟩ := main
  have wf : WellFormed Fix.root := ⟨by decide, by decide, by decide⟩
  obtain ⟨ds, k1, k2⟩ := C145_reports Fix.env Fix.syn Fix.emptyWorld _ s' _ Fix.uriA [] _ out r Fix.tags Fix.refs (.opened _) (by decide) rfl h1 h2 h3
    wf rfl Fix.tags_read (Fix.refs_read _) Fix.refs_wf
  obtain ⟨_, l1, _⟩ := C145_apart Fix.env Fix.syn Fix.emptyWorld _ s' _ Fix.uriA [] _ out r Fix.tags Fix.refs (.opened _) (by decide) rfl h1 h2 h3
    wf Fix.root_laid Fix.root_solid rfl Fix.tags_read (Fix.refs_read _) Fix.refs_wf
  subst k1
  exact ⟨ds, ⟨s', r, h1⟩, k2⟩

namespace Fix

/-- the session of C69, in a workspace that hides undefined names -/
def silentTyping : List Msg :=
  [.initialize none (some (some { JinjaConfig.default with lang := c!"rust", templates := c!"/t", hideUndefined := some true })), .initialized,
   .didOpen uriT c!"aaa", .didChange uriT ([(⟨⟨0, 3⟩, ⟨0, 3⟩⟩, c!"b")].map fun e => ⟨some e.1, e.2⟩)]

theorem silentTyping_stopped : ∃ E, StoppedTyping (showing.over syn) silentTyping uriT E := by
  refine ⟨_, ⟨?_, .cons (.«initialize» _ _ _) (.cons (.initialized _ fun _ => rfl) (.cons (.opens _ _ _)
    (.cons (.change _ uriT c!"aaa" c!"aaab" _ (by decide) ?_ (by decide)) (.nil _)))), ?_, ⟨silentTyping.take 3, [], _, rfl, by simp⟩, by decide⟩⟩
  · intro m hm
    simp only [silentTyping, List.mem_cons, List.not_mem_nil, or_false] at hm
    rcases hm with rfl | rfl | rfl | rfl
    · trivial
    · trivial
    · exact ⟨_, rfl⟩
    · exact ⟨⟨_, rfl⟩, by simp⟩
  · exact ⟨⟨3, 3, ⟨0, by decide, by simp, by decide, by decide⟩, ⟨0, by decide, by simp, by decide, by decide⟩, by decide⟩, fun _ _ => trivial⟩
  · intro m hm
    simp only [silentTyping, List.mem_cons, List.not_mem_nil, or_false] at hm
    rcases hm with rfl | rfl | rfl | rfl <;> intro u p h <;> cases h

/-- it comes to rest; the missing include is shown, and nothing else -/
theorem hides : ∃ (as : List (HMap Str Diags)) (σ : Sys) (s : Server) (E : Editor), Execution (· = gapWorld) (showing.over syn) silentTyping as σ ∧
    SmallResults as ∧ StoppedTyping (showing.over syn) silentTyping uriT E ∧ AtRest σ s ∧ s.files.mainChannel = true ∧
    s.files.ignoreGlobals = true ∧ ((σ.published.filter fun p => p.1 = uriT).getLast?.map fun p => p.2.map fun d => d.range) = some [⟨⟨0, 11⟩, ⟨0, 19⟩⟩] := by
  obtain ⟨E, h1⟩ := silentTyping_stopped
  revert h1
  rw [written_eq]
  intro h1
  have e1 := Execution.start (W := (· = gapWorld)) (env := written)
    |>.client (.initialize none (some (some { JinjaConfig.default with lang := c!"rust", templates := c!"/t", hideUndefined := some true }))) trivial rfl (by decide)
  have e2 := e1.task (.workerRecv (q := []) gapWorld rfl rfl rfl rfl rfl)
  have e3 := e2.client .initialized trivial rfl (show 0 < 50 by decide)
  have e4 := e3.task (.workerRecv (q := []) gapWorld rfl rfl rfl rfl rfl)
  have e5 := e4.task (.workerSendDiag rfl rfl rfl (show 0 < 20 by decide))
  have e6 := e5.client (.didOpen uriT c!"aaa") trivial rfl (show 0 < 50 by decide)
  have e7 := e6.task (.workerRecv (q := []) gapWorld rfl rfl rfl rfl rfl)
  have e8 := e7.task (.workerSendDiag rfl rfl rfl (show 1 < 20 by decide))
  have e9 := e8.client (.didChange uriT ([(⟨⟨0, 3⟩, ⟨0, 3⟩⟩, c!"b")].map fun e => ⟨some e.1, e.2⟩)) trivial rfl (show 0 < 50 by decide)
  have e10 := e9.task (.workerRecv (q := []) gapWorld rfl rfl rfl rfl rfl)
  have e11 := e10.delayed (t := ⟨0, uriT, true, true⟩) (.timer rfl (List.mem_singleton.mpr rfl) rfl (show 0 < 50 by decide)) rfl
    (List.mem_singleton.mpr rfl) rfl
  have e12 := e11.task (.workerRecv (q := []) gapWorld rfl rfl rfl rfl rfl)
  have e13 := e12.task (.workerSendDiag rfl rfl rfl (show 2 < 20 by decide))
  have e14 := e13.task (.diagRecv HashOrder.id rfl rfl rfl rfl)
  have e15 := e14.task (.diagSend rfl rfl rfl (show 0 < 50 by decide))
  have e16 := e15.task (.diagRecv HashOrder.id rfl rfl rfl rfl)
  have e17 := e16.task (.diagSend rfl rfl rfl (show 1 < 50 by decide))
  have e18 := e17.task (.diagRecv HashOrder.id rfl rfl rfl rfl)
  have e19 := e18.task (.workerRecv gapWorld rfl rfl rfl rfl rfl)
  have e20 := e19.task (.workerRecv (q := []) gapWorld rfl rfl rfl rfl rfl)
  have e21 := e20.task (.diagSend rfl rfl rfl (show 0 < 50 by decide))
  have e22 := e21.task (.workerRecv (q := []) gapWorld rfl rfl rfl rfl rfl)
  exact ⟨_, _, _, E, e22, smallResults_of_entries _ (by decide), h1, ⟨rfl, rfl, rfl, rfl, rfl⟩, rfl, rfl, by decide⟩

end Fix

example : ∃ as σ s E tree ds w, Execution (· = Fix.gapWorld) (Fix.showing.over Fix.syn) Fix.silentTyping as σ ∧ AtRest σ s ∧
    StoppedTyping (Fix.showing.over Fix.syn) Fix.silentTyping Fix.uriT E ∧ (s.files.trees .template).get? Fix.uriT = some tree ∧ Displays σ Fix.uriT ds ∧ ds.length = 1 ∧
    ds.Perm ((refReports w s.files.config.templates true (ImpStmt.refs Fix.refs)).map shown) := by
  obtain ⟨as, σ, s, E, h1, h2, h3, h4, h5, h6, h7⟩ := Fix.hides
  obtain ⟨text, tree, w, ds, k1, k2, k3, k4, k5⟩ := C145_rest (W := (· = Fix.gapWorld)) (fun _ h => h ▸ Fix.gapWorld_orderly) Fix.showing Fix.syn Fix.showing_sound
    ⟨fun n u h => by simp [Fix.showing, Fix.env] at h; exact h.symm⟩ Fix.silentTyping as σ s h1 h2 Fix.uriT E h3 h4 h5 (by decide) h6
  refine ⟨as, σ, s, E, tree, ds, w, h1, h4, h3, k2, k4, ?_,
    (k5 Fix.tags Fix.refs (⟨by decide, by decide, by decide⟩ : WellFormed Fix.root) rfl Fix.tags_read (Fix.refs_read _) Fix.refs_wf).1⟩
  unfold Displays at k4
  rw [k4] at h7
  have := congrArg List.length (Option.some.inj h7)
  rwa [List.length_map] at this

end JinjaLsp
