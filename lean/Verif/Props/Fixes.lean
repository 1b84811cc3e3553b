import Verif.Props.Named
/-
  C85: the quick fixes offered once typing has stopped.
-/

namespace JinjaLsp
open Spec

/-- **C85** Typing has stopped and nothing is left to do; in particular the diagnostics task is idle.  Then a quick fix that creates a template is
offered exactly where the list the client shows reports a missing template, and it creates a template reported there. -/
theorem C85_offered {W : World → Prop} (hO : ∀ w, W w → Orderly w) (env : Env) (he : Sound env) (hu : NormalUrls env) (cs : List Msg)
    (as : List (HMap Str Diags)) (σ : Sys) (s : Server) (h : Execution W env cs as σ) (hs : SmallResults as) (u : Str) (E : Editor)
    (ht : StoppedTyping env cs u E) (hi : AtRest σ s) (hidle : σ.dOut = none) (hm : s.files.mainChannel = true) :
    ∃ ds : Diags, (σ.published.filter fun p => p.1 = u).getLast? = some (u, (ds.map report).map shown) ∧
      (∀ (w' : World) (dir : Str) (pos : Position), w'.canonicalize s.files.config.templates = .ok dir → (∀ name, env.urlParse (c!"file:///" ++ lookupPath dir name) ≠ none) →
        (∃ r, MissingAt (ds.map report) (toPoint pos) r) →
        ∃ r, MissingAt (ds.map report) (toPoint pos) r ∧ ∃ (s' : Server) (title url : Str), env.urlParse (c!"file:///" ++ lookupPath dir r.name) = some url ∧
          s.handle env w' (.codeAction u pos) = .ok (s', [], .codeAction (some [.createFile title url false true]))) ∧
      ∀ (w' : World) (pos : Position) (s' : Server) (out : List Send) (items : List CodeActionItem), (∀ r, ¬ MissingAt (ds.map report) (toPoint pos) r) →
        s.handle env w' (.codeAction u pos) = .ok (s', out, .codeAction (some items)) → ∀ i ∈ items, ¬ i.Creates := by
  obtain ⟨w, s1, s2, r, ds, k1, k2, k3, k4, k5⟩ := quiet_fixed hO env he hu cs as σ s h hs u E ht hi hm
  obtain ⟨text, l, old, _, _, _, e2, e3, e4, _⟩ := C69_shown hO env he hu cs as σ s h hs u E ht hi hm
  have k5 := k5 hidle
  refine ⟨ds, k4, ?_, ?_⟩
  · intro w' dir pos hdir hurl hin
    exact codeAction_inside k5 e3 (by rw [e4]; simp) (by rw [e2]; simp) hdir hurl hin
  · intro w' pos s' out items hno hreq
    exact codeAction_outside k5 (fun i hi hh =>
      hno (report (.templateNotFound, i)) ⟨List.mem_map_of_mem (mem_missing.mp hi), rfl, hh.1, hh.2⟩) hreq

/-! ### In terms of the syntax tree -/

/-- the cursor is strictly inside one name only -/
theorem names_apart {sx : Syntax} {root : Syn} {ss : List ImpStmt} {i i' : ImpStmt} {t t' : Tok} {p : Point}
    (hs : WellFormed root) (hl : Laid root) (hr : Refs sx.options root.children ss) (hi : i ∈ ss) (ht : t ∈ i.names) (hi' : i' ∈ ss)
    (ht' : t' ∈ i'.names) (h1 : t.start < p) (h2 : p < t.stop) (h3 : t'.start ≤ p) (h4 : p ≤ t'.stop) : t' = t := by
  have key : ∀ {i : ImpStmt} {t : Tok}, i ∈ ss → t ∈ i.names → ∃ n ∈ root.flat, n.kind = .string ∧ t = tokOf n := by
    intro i t hi ht
    obtain ⟨n, hn, parts, hrn⟩ := refs_node hr hi
    rw [hrn.names] at ht
    obtain ⟨s, hsp, rfl⟩ := List.mem_map.mp ht
    have hnr : n ∈ root.flat := by rw [flat_eq]; exact List.mem_cons_of_mem _ (flatAll_self hn)
    exact ⟨s, Syn.flat_children root hnr (hrn.within s hsp).1, (hrn.within s hsp).2, rfl⟩
  obtain ⟨n, hn, hk, rfl⟩ := key hi ht
  obtain ⟨n', hn', hk', rfl⟩ := key hi' ht'
  have e1 : (tokOf n).start = n.start := rfl
  have e2 : (tokOf n).stop = n.stop := rfl
  have e3 : (tokOf n').start = n'.start := rfl
  have e4 : (tokOf n').stop = n'.stop := rfl
  rw [e1] at h1; rw [e2] at h2; rw [e3] at h3; rw [e4] at h4
  rcases pairwise_either (laid_leaves hs hl) hn hn' with e | h | h
  · rw [e]
  · exact absurd (Point.lt_of_lt_of_le h2 (Point.le_trans (h.2 (.inr hk)) h3)) (Point.lt_irrefl _)
  · exact absurd (Point.lt_of_lt_of_le h1 (Point.le_trans h4 (h.2 (.inr hk')))) (Point.lt_irrefl _)

/-- **C85** (in terms of the syntax tree) Typing has stopped and nothing is left to do.  With the cursor strictly inside a name of an extends,
include, from or import statement of the text shown: if the name is empty or there was no such template at the last analysis, the quick fix
offered creates exactly this template; otherwise no template is created. -/
theorem C85_tree {W : World → Prop} (hO : ∀ w, W w → Orderly w) (env : Env) (sx : Syntax) (he : Sound (env.over sx))
    (hu : NormalUrls env) (cs : List Msg) (as : List (HMap Str Diags)) (σ : Sys) (s : Server) (h : Execution W (env.over sx) cs as σ)
    (hs : SmallResults as) (u : Str) (E : Editor) (ht : StoppedTyping (env.over sx) cs u E) (hi : AtRest σ s) (hidle : σ.dOut = none)
    (hm : s.files.mainChannel = true) (hx : fileExt u = some .template) :
    ∃ (text : Str) (old : Option Tree) (w : World), E u = some text ∧ W w ∧
      ∀ (root : Syn) (ss : List ImpStmt) (i : ImpStmt) (t : Tok) (pos : Position) (name : Str), root = sx.root (.parsed .jinja text old) text →
        WellFormed root → Laid root → root.kind = .other → ¬ HasError root → Refs sx.options root.children ss → ImpStmt.Wf ss →
        i ∈ ss → t ∈ i.names → t.start < toPoint pos → toPoint pos < t.stop → Quoted t.text name → (∀ c ∈ name, c ≠ '"' ∧ c ≠ '\'') →
        (name = [] ∨ Absent w s.files.config.templates name → ∀ (w' : World) (dir : Str), w'.canonicalize s.files.config.templates = .ok dir →
          (∀ name, env.urlParse (c!"file:///" ++ lookupPath dir name) ≠ none) →
          ∃ (s' : Server) (title url : Str), env.urlParse (c!"file:///" ++ lookupPath dir name) = some url ∧
            s.handle (env.over sx) w' (.codeAction u pos) = .ok (s', [], .codeAction (some [.createFile title url false true]))) ∧
        (¬ (name = [] ∨ Absent w s.files.config.templates name) → ∀ (w' : World) (s' : Server) (out : List Send) (items : List CodeActionItem),
          s.handle (env.over sx) w' (.codeAction u pos) = .ok (s', out, .codeAction (some items)) → ∀ x ∈ items, ¬ x.Creates) := by
  obtain ⟨w, s1, s2, r, ds, k1, k2, k3, k4, k5⟩ := quiet_fixed hO (env.over sx) he ⟨hu.same⟩ cs as σ s h hs u E ht hi hm
  obtain ⟨text, l, old, _, _, e1, e2, e3, e4, _⟩ := C69_shown hO (env.over sx) he ⟨hu.same⟩ cs as σ s h hs u E ht hi hm
  have k5 := k5 hidle
  rw [hx] at e3
  cases e3
  have hf : Frame u s1.files s2.files := by
    have := handle_files k2
    cases this with
    | query hm => cases hm
    | didSave _ m hf => exact Frame.didSave hf
  refine ⟨text, old, w, e1, k1, ?_⟩
  rintro root ss i t pos name rfl hwf hl hk hne hr hw hin htn h1 h2 hraw hq
  have e4' : (s.files.trees .template).get? u = some (.parsed .jinja text old) := e4
  have hno : ¬ SyntaxError (env.over sx) (.parsed .jinja text old) text := fun h => hne ((over_error ..).mp h)
  have hd2 := e2
  have ht2 := e4'
  rw [k3.documents] at hd2
  rw [k3.trees] at ht2
  obtain ⟨defs, _, hv⟩ := (analyses_records .saved hx k2 hd2 ht2).1 hno
  obtain ⟨ds', j1, j2⟩ := C28_template_partial (env.over sx) w s1 s2 (.didSave u) u _ r text _ _ ss .saved hx k2 hd2 ht2 hv hw (over_imports hk hr)
  have hds : ds' = ds := by
    simp only [List.cons.injEq, Send.diag.injEq, and_true] at j1
    have := congrArg (fun x => x.get? u) j1
    simpa using this.symm
  subst hds
  have hconf : s1.files.config = s.files.config := by rw [← hf.conf.conf, ← k3.conf.conf]
  rw [hconf] at j2
  have hname : t.ref.name = name := by
    have e := stripQuotes_quoted hraw
    rw [stripQuotes_of_plain hq] at e
    exact e
  -- what is reported here is about this name
  have hat : ∀ r, MissingAt (ds'.map report) (toPoint pos) r →
      r.name = name ∧ (name = [] ∨ Absent w s.files.config.templates name) := by
    rintro r ⟨hr1, hr2, hr3, hr4⟩
    have hmem : r ∈ missingDiags ds' := by
      obtain ⟨d, hd, rfl⟩ := List.mem_map.mp hr1
      exact List.mem_map_of_mem (List.mem_filter.mpr ⟨hd, by simpa [report] using hr2⟩)
    have := j2.mem_iff.mp hmem
    unfold refReports at this
    obtain ⟨x, hx1, rfl⟩ := List.mem_map.mp this
    obtain ⟨hx1, hx2⟩ := List.mem_filter.mp hx1
    unfold ImpStmt.refs at hx1
    obtain ⟨i', hi', hx1⟩ := List.mem_flatMap.mp hx1
    obtain ⟨t', ht', rfl⟩ := List.mem_map.mp hx1
    have := names_apart hwf hl hr hin htn hi' ht' h1 h2 hr3 hr4
    subst this
    refine ⟨hname, ?_⟩
    rw [hname] at hx2
    simpa using hx2
  constructor
  · intro hab w' dir hdir hurl
    have hin' : (⟨.templateNotFound, t.ref.name, t.ref.start, t.ref.stop⟩ : Report) ∈ refReports w s.files.config.templates true (ImpStmt.refs ss) := by
      unfold refReports
      refine List.mem_map.mpr ⟨t.ref, List.mem_filter.mpr ⟨?_, ?_⟩, rfl⟩
      · unfold ImpStmt.refs
        exact List.mem_flatMap.mpr ⟨i, hin, List.mem_map.mpr ⟨t, htn, rfl⟩⟩
      · rw [hname]; simpa using hab
    have hrep : (⟨.templateNotFound, t.ref.name, t.ref.start, t.ref.stop⟩ : Report) ∈ ds'.map report := by
      have := j2.mem_iff.mpr hin'
      obtain ⟨d, hd, e⟩ := List.mem_map.mp this
      rw [← e]
      exact List.mem_map_of_mem (List.mem_filter.mp hd).1
    obtain ⟨r, hr1, s', title, url, hr2, hr3⟩ := codeAction_inside (env := env.over sx) (w' := w') (pos := pos) k5 hx (by rw [e4']; simp) (by rw [e2]; simp)
      hdir hurl ⟨_, hrep, rfl, Point.le_of_lt h1, Point.le_of_lt h2⟩
    rw [(hat r hr1).1] at hr2
    exact ⟨s', title, url, hr2, hr3⟩
  · intro hab w' s' out items hreq
    exact codeAction_outside k5 (fun x hx hh =>
      hab (hat (report (.templateNotFound, x)) ⟨List.mem_map_of_mem (mem_missing.mp hx), rfl, hh.1, hh.2⟩).2) hreq

/-! ### An instance -/

namespace Fix

/-- all absolute paths exist, except one -/
def gapWorld : World := { rootWorld with canonicalize := fun p => if p = c!"/t/x.html" then .error .notFound else rootWorld.canonicalize p }

theorem gapWorld_orderly : Orderly gapWorld := by
  constructor
  · intro p n l h hl
    simp only [gapWorld] at h
    split at h
    · cases h
    · exact rootWorld_orderly.1 p n l h hl
  · intro p n h
    simp only [gapWorld] at h
    split at h
    · cases h
    · exact rootWorld_orderly.absolute p n h

end Fix

/-- the session of C69 with the tree of C71 comes to rest; the included template is missing and the quick fix is recorded -/
example : (∀ w, w = Fix.gapWorld → Orderly w) ∧ ∃ (as : List (HMap Str Diags)) (σ : Sys) (s : Server) (E : Editor),
    Execution (· = Fix.gapWorld) (Fix.showing.over Fix.syn) Fix.typing as σ ∧
    SmallResults as ∧ StoppedTyping (Fix.showing.over Fix.syn) Fix.typing Fix.uriT E ∧ AtRest σ s ∧ σ.dOut = none ∧ s.files.mainChannel = true ∧
    Absent Fix.gapWorld s.files.config.templates c!"x.html" ∧ Fix.gapWorld.canonicalize s.files.config.templates = .ok c!"/t" ∧
    (s.files.codeActions.get? Fix.uriT).map (fun l => l.map fun i => (i.name, i.start, i.stop)) = some [(c!"x.html", ⟨0, 11⟩, ⟨0, 19⟩)] := by
  refine ⟨fun w h => h ▸ Fix.gapWorld_orderly, ?_⟩
  rw [Fix.written_eq]
  have e1 := Execution.start (W := (· = Fix.gapWorld)) (env := Fix.written)
    |>.client (.initialize none (some (some { JinjaConfig.default with lang := c!"rust", templates := c!"/t" }))) trivial rfl (by decide)
  have e2 := e1.task (.workerRecv (q := []) Fix.gapWorld rfl rfl rfl rfl rfl)
  have e3 := e2.client .initialized trivial rfl (show 0 < 50 by decide)
  have e4 := e3.task (.workerRecv (q := []) Fix.gapWorld rfl rfl rfl rfl rfl)
  have e5 := e4.task (.workerSendDiag rfl rfl rfl (show 0 < 20 by decide))
  have e6 := e5.client (.didOpen Fix.uriT c!"aaa") trivial rfl (show 0 < 50 by decide)
  have e7 := e6.task (.workerRecv (q := []) Fix.gapWorld rfl rfl rfl rfl rfl)
  have e8 := e7.task (.workerSendDiag rfl rfl rfl (show 1 < 20 by decide))
  have e9 := e8.client (.didChange Fix.uriT ([(⟨⟨0, 3⟩, ⟨0, 3⟩⟩, c!"b")].map fun e => ⟨some e.1, e.2⟩)) trivial rfl (show 0 < 50 by decide)
  have e10 := e9.task (.workerRecv (q := []) Fix.gapWorld rfl rfl rfl rfl rfl)
  have e11 := e10.delayed (t := ⟨0, Fix.uriT, true, true⟩) (.timer rfl (List.mem_singleton.mpr rfl) rfl (show 0 < 50 by decide)) rfl
    (List.mem_singleton.mpr rfl) rfl
  have e12 := e11.task (.workerRecv (q := []) Fix.gapWorld rfl rfl rfl rfl rfl)
  have e13 := e12.task (.workerSendDiag rfl rfl rfl (show 2 < 20 by decide))
  have e14 := e13.task (.diagRecv HashOrder.id rfl rfl rfl rfl)
  have e15 := e14.task (.diagSend rfl rfl rfl (show 0 < 50 by decide))
  have e16 := e15.task (.diagRecv HashOrder.id rfl rfl rfl rfl)
  have e17 := e16.task (.diagSend rfl rfl rfl (show 1 < 50 by decide))
  have e18 := e17.task (.diagRecv HashOrder.id rfl rfl rfl rfl)
  have e19 := e18.task (.workerRecv Fix.gapWorld rfl rfl rfl rfl rfl)
  have e20 := e19.task (.workerRecv (q := []) Fix.gapWorld rfl rfl rfl rfl rfl)
  have e21 := e20.task (.diagSend rfl rfl rfl (show 0 < 50 by decide))
  have e22 := e21.task (.workerRecv (q := []) Fix.gapWorld rfl rfl rfl rfl rfl)
  obtain ⟨E, h1, _⟩ := Fix.typing_stopped
  exact ⟨_, _, _, E, e22, smallResults_of_entries _ (by decide), ⟨h1.proper, h1.edits, h1.noQuickFix, h1.last, h1.supported⟩,
    ⟨rfl, rfl, rfl, rfl, rfl⟩, rfl, rfl, rfl, rfl, by decide⟩

end JinjaLsp
