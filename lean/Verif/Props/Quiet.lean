import Verif.Props.InStep
import Verif.Props.Diagnostics
import Verif.Props.References
import Verif.Props.Actions
/-
  C69: what is shown when typing has stopped.
-/

namespace JinjaLsp
open Spec

namespace Spec

/-- requests and messages that do not touch documents -/
def Harmless : Msg → Prop
  | .completion .. | .hover .. | .goto .. | .documentSymbol .. | .codeActions .. => True
  | _ => False

/-- the same workspace, up to the recorded quick fixes -/
structure SameWorkspace (f g : LspFiles) : Prop where
  documents : g.documents = f.documents
  trees : g.trees = f.trees
  variables : g.variables = f.variables
  conf : SameConf f g

end Spec

theorem Spec.SameWorkspace.refl (f : LspFiles) : SameWorkspace f f := ⟨rfl, rfl, rfl, SameConf.refl f⟩

theorem Spec.SameWorkspace.trans {f g h : LspFiles} (a : SameWorkspace f g) (b : SameWorkspace g h) : SameWorkspace f h :=
  ⟨b.documents.trans a.documents, b.trees.trans a.trees, b.variables.trans a.variables, a.conf.trans b.conf⟩

theorem Spec.Harmless.handle {env : Env} {w : World} {s s' : Server} {m : Msg} {o : List Send} {r : Reply} (hm : Harmless m)
    (h : s.handle env w m = .ok (s', o, r)) : SameWorkspace s.files s'.files ∧ s'.timers = s.timers ∧ o = [] := by
  have ht := handle_timers h (by rintro u cs rfl; exact hm) (by rintro u p rfl; exact hm)
  by_cases hq : m.isQuery
  · obtain ⟨h1, _, h2⟩ := handle_query hq h
    exact ⟨by rw [h1]; exact SameWorkspace.refl _, ht.1, h2⟩
  · cases m with
    | codeActions m =>
      simp only [Server.handle, Except.ok.injEq, Prod.mk.injEq] at h
      obtain ⟨rfl, rfl, _⟩ := h
      obtain ⟨h1, h2, h3, h4, _⟩ := addCodeActions_frame w.order s.files m
      exact ⟨⟨h1, h2, h3, h4⟩, rfl, rfl⟩
    | _ => first | exact absurd trivial hq | exact hm.elim

/-! ### Delays -/

/-- only the re-analysis of the last change is pending -/
structure Spec.OneDelay (s : Server) (E : Editor) : Prop where
  task : ∀ t ∈ s.timers, s.files.diagnosticsTask = some t.handle
  opened : s.timers ≠ [] → ∃ u, E u ≠ none

theorem Spec.Editor.set_ne_none {E : Editor} {u t : Str} {v : Str} (h : E v ≠ none) : E.set u t v ≠ none := by
  unfold Editor.set
  split
  · simp
  · exact h

theorem Spec.EditStep.keeps {E F : Editor} {m : Msg} (h : EditStep E m F) (v : Str) (hv : E v ≠ none) : F v ≠ none := by
  cases h with
  | opens => exact Editor.set_ne_none hv
  | change => exact Editor.set_ne_none hv
  | _ => exact hv

theorem Spec.OneDelay.handle {env : Env} {w : World} {s s' : Server} {m : Msg} {o : List Send} {r : Reply} {E F : Editor}
    (hi : OneDelay s E) (he : EditStep E m F) (hna : ∀ u p, m ≠ .codeAction u p) (h : s.handle env w m = .ok (s', o, r)) : OneDelay s' F := by
  by_cases hd : ∃ u cs, m = .didChange u cs
  · obtain ⟨u, cs, rfl⟩ := hd
    have hF : ∃ v, F v ≠ none := by
      cases he with
      | change => exact ⟨u, by simp [Editor.set]⟩
    simp only [Server.handle] at h
    split at h
    · cases h
    · rename_i s1 h1
      cases h
      obtain ⟨f, b, hf, e1, e2, hfalse, htrue⟩ := onDidChange_cases h1
      have htask := task_didChange hf
      cases b with
      | false =>
        obtain ⟨t1, _⟩ := hfalse rfl
        simp only [Bool.false_eq_true, if_false] at htask
        exact ⟨by rw [t1, e1, htask]; exact hi.task, fun _ => hF⟩
      | true =>
        obtain ⟨t1, _⟩ := htrue rfl
        simp only [if_true] at htask
        refine ⟨?_, fun _ => hF⟩
        rw [t1, e1, htask]
        intro t ht
        rcases List.mem_append.mp ht with ht | ht
        · obtain ⟨h3, h4⟩ := List.mem_filter.mp ht
          simp [hi.task t h3] at h4
        · simp only [List.mem_singleton] at ht; subst ht; rfl
  · obtain ⟨t1, _, t3⟩ := handle_timers h (fun u cs e => hd ⟨u, cs, e⟩) hna
    refine ⟨?_, ?_⟩
    · rw [t1]
      intro t ht
      by_cases hin : m = .initialized
      · subst hin
        obtain ⟨u, hu⟩ := hi.opened (List.ne_nil_of_mem ht)
        cases he with
        | initialized hE => exact absurd (hE u) hu
      · rw [t3 hin]; exact hi.task t ht
    · rw [t1]
      intro ht
      obtain ⟨u, hu⟩ := hi.opened ht
      exact ⟨u, he.keeps u hu⟩

/-- a carried out change leaves exactly one pending re-analysis -/
theorem Spec.OneDelay.change {env : Env} {w : World} {s s' : Server} {u t : Str} {cs : List TextChange} {o : List Send} {r : Reply} {E : Editor}
    (hi : OneDelay s E) (hd : s.files.documents.get? u = some t) (hcs : ∀ c ∈ cs, c.range.isSome)
    (h : s.handle env w (.didChange u cs) = .ok (s', o, r)) :
    s'.timers = [⟨s.nextHandle, u, s'.files.mainChannel, true⟩] ∧ o = [] := by
  simp only [Server.handle] at h
  split at h
  · cases h
  · rename_i s1 h1
    cases h
    obtain ⟨f, b, hf, e1, e2, _, htrue⟩ := onDidChange_cases h1
    obtain ⟨t', es', hap, _⟩ := didChange_ok hd hf
    have hb := applyChanges_ranged env.profile cs t t' es' b hcs hap
    obtain ⟨t1, _⟩ := htrue hb
    refine ⟨?_, rfl⟩
    rw [t1, e1, (Frame.didChange hf).conf.chan, List.filter_eq_nil_iff.mpr]
    · rfl
    · intro t ht
      simp [hi.task t ht]

/-- the process in a session without quick fixes -/
structure Spec.Timed (E : Editor) (σ : Sys) : Prop where
  noAction : ∀ m ∈ σ.lspQ, ∀ u p, m ≠ .codeAction u p
  follows : ∃ s E₁, σ.worker = some s ∧ OneDelay s E₁ ∧ Editing E₁ σ.lspQ E

theorem timed {env : Env} (he : Sound env) {cs : List Msg} {as : List (HMap Str Diags)} {σ : Sys} (h : Execution Orderly env cs as σ)
    (hc : ∀ m ∈ cs, Proper env m) (E : Editor) (hE : Editing (fun _ => none) cs E) (hna : ∀ m ∈ cs, ∀ u p, m ≠ .codeAction u p) : Timed E σ := by
  induction h generalizing E with
  | start =>
    cases hE
    exact ⟨by simp [Sys.init], _, fun _ => none, rfl, ⟨by simp [Server.init], by simp [Server.init]⟩, .nil _⟩
  | client h m hm hw hl ih =>
    obtain ⟨F, h1, h2⟩ := hE.split
    obtain ⟨hq, s, E₁, hws, hi, hed⟩ := ih (fun x hx => hc x (by simp [hx])) F h1 (fun x hx => hna x (by simp [hx]))
    refine ⟨?_, s, E₁, hws, hi, hed.append h2⟩
    intro x hx
    rcases List.mem_append.mp hx with hx | hx
    · exact hq x hx
    · exact hna x (by simp [List.mem_singleton.mp hx])
  | task h hs ih =>
    obtain ⟨hq, s, E₁, hws, hi, hed⟩ := ih hc E hE hna
    have hf := following he h hc E hE
    cases hs with
    | workerRecv w hw' ho' hq' hr hW =>
      rw [hws] at hw'
      cases hw'
      rw [hq'] at hed hq
      cases hed with
      | cons h r => exact ⟨fun x hx => hq x (by simp [hx]), _, _, rfl, hi.handle h (hq _ (by simp)) hr, r⟩
    | workerPanic w hw' ho' hq' hr hW =>
      have := hf.step he (.workerPanic w hw' ho' hq' hr hW)
      obtain ⟨x, hx, _⟩ := this.well.worker
      cases hx
    | workerSendSelf hw' ho' hc =>
      have := hf.quiet
      rw [ho'] at this; simp at this
    | diagSend ha hdo hw' hc =>
      refine ⟨?_, s, E₁, hws, hi, hed.internal (.actions _ _)⟩
      intro x hx
      rcases List.mem_append.mp hx with hx | hx
      · exact hq x hx
      · rw [List.mem_singleton.mp hx]; intro u p hh; cases hh
    | workerSendDiag | workerSendDiagDead | diagRecv | diagPanic | diagSendDead | diagStop => exact ⟨hq, s, E₁, hws, hi, hed⟩
  | delayed h hs hw ht hτ ih =>
    obtain ⟨hq, s2, E₁, hw2, hi, hed⟩ := ih hc E hE hna
    rw [hw] at hw2
    cases hw2
    rename_i s t
    have hi' : OneDelay { s with timers := s.timers.erase t } E₁ :=
      ⟨fun x hx => hi.task x (List.mem_of_mem_erase hx), fun _ => hi.opened (List.ne_nil_of_mem ht)⟩
    cases hs with
    | client m hm hw2 hc2 =>
      dsimp only at hτ
      rw [hw] at hτ
      injection hτ with hτ
      have hlen := congrArg (fun s => s.timers.length) hτ
      simp only [List.length_erase, ht, if_true] at hlen
      have : 0 < s.timers.length := List.length_pos_of_mem ht
      omega
    | clientDead hw2 => rw [hw] at hw2; cases hw2
    | timer hw2 ht2 hl hc2 =>
      refine ⟨?_, _, E₁, hτ, hi', hed.internal (.save _ _)⟩
      intro x hx
      rcases List.mem_append.mp hx with hx | hx
      · exact hq x hx
      · rw [List.mem_singleton.mp hx]; intro u p hh; cases hh
    | timerMute hw2 ht2 hl => exact ⟨hq, _, E₁, hτ, hi', hed⟩

/-! ### The last change -/

namespace Spec

/-- messages that leave documents alone -/
def Milder (m : Msg) : Prop := Harmless m ∨ ∃ v, m = .didSave v

/-- and, of the workspace, at most save `u` -/
def Mild (u : Str) (m : Msg) : Prop := Harmless m ∨ m = .didSave u

/-- `m` was computed by saving `u` in a workspace that is still the current one -/
def Current (W : World → Prop) (env : Env) (u : Str) (s : Server) (m : HMap Str Diags) : Prop :=
  ∃ (w : World) (s1 s2 : Server) (r : Reply), W w ∧ s1.handle env w (.didSave u) = .ok (s2, [.diag m], r) ∧ SameWorkspace s2.files s.files

/-- quick fixes on their way to the worker -/
def fixesUnderway (σ : Sys) : List (HMap Str (List Identifier)) :=
  σ.lspQ.filterMap (fun m => match m with | .codeActions ca => some ca | _ => none) ++ σ.dOut.toList

/-- where the quick fixes of the result `m`, which is the last one and found `ds` in `u`, are on their way to the worker -/
inductive FixesOf (u : Str) (m : HMap Str Diags) (ds : Diags) (σ : Sys) : Prop where
  | computed (h : (σ.diagQ ++ results σ.wOut).getLast? = some m)
  | sent (h0 : σ.diagQ ++ results σ.wOut = []) (ca : HMap Str (List Identifier)) (h : (fixesUnderway σ).getLast? = some ca)
      (hca : ca.get? u = some (missingTemplates ds))
  | recorded (h0 : σ.diagQ ++ results σ.wOut = []) (h : fixesUnderway σ = []) (s : Server) (hw : σ.worker = some s)
      (hs : s.files.codeActions.get? u = some (missingTemplates ds))

/-- where the last change, of document `u`, is on its way to the diagnostics -/
inductive Stage (W : World → Prop) (env : Env) (u : Str) : List (HMap Str Diags) → Sys → Prop where
  | waiting {as σ} (q1 q2 : List Msg) (chs : List TextChange) (hq : σ.lspQ = q1 ++ .didChange u chs :: q2) (h2 : ∀ m ∈ q2, Milder m) :
      Stage W env u as σ
  | mute {as σ} (s : Server) (hw : σ.worker = some s) (hm : s.files.mainChannel = false) (hq : ∀ m ∈ σ.lspQ, Milder m) : Stage W env u as σ
  | armed {as σ} (s : Server) (k : Nat) (hw : σ.worker = some s) (ht : s.timers = [⟨k, u, true, true⟩]) (hd : s.files.documents.get? u ≠ none)
      (hq : ∀ m ∈ σ.lspQ, Milder m) : Stage W env u as σ
  | due {as σ} (s : Server) (q1 q2 : List Msg) (hw : σ.worker = some s) (ht : s.timers = []) (hd : s.files.documents.get? u ≠ none)
      (hq : σ.lspQ = q1 ++ .didSave u :: q2) (h1 : ∀ m ∈ q1, Milder m) (h2 : ∀ m ∈ q2, Mild u m) : Stage W env u as σ
  | done {as σ} (s : Server) (hw : σ.worker = some s) (ht : s.timers = []) (hd : s.files.documents.get? u ≠ none)
      (hq : ∀ m ∈ σ.lspQ, Mild u m) (before : List (HMap Str Diags)) (m : HMap Str Diags) (has : as = before ++ [m]) (hc : Current W env u s m)
      (ds : Diags) (hds : m.get? u = some ds) (hfx : FixesOf u m ds σ) : Stage W env u as σ

end Spec

/-- nothing changed for the quick fixes -/
theorem Spec.FixesOf.same {u : Str} {m : HMap Str Diags} {ds : Diags} {σ τ : Sys} (h : FixesOf u m ds σ)
    (h1 : τ.diagQ ++ results τ.wOut = σ.diagQ ++ results σ.wOut) (h2 : fixesUnderway τ = fixesUnderway σ)
    (h3 : ∀ s, σ.worker = some s → ∃ s', τ.worker = some s' ∧ s'.files.codeActions = s.files.codeActions) : FixesOf u m ds τ := by
  cases h with
  | computed h => exact .computed (h1 ▸ h)
  | sent h0 ca h hca => exact .sent (h1.trans h0) ca (h2 ▸ h) hca
  | recorded h0 h s hw hs =>
    obtain ⟨s', hw', e⟩ := h3 s hw
    exact .recorded (h1.trans h0) (h2.trans h) s' hw' (e ▸ hs)

/-- the diagnostics task receives a result -/
theorem Spec.FixesOf.recv {env : Env} {o : HashOrder} {u : Str} {m m' : HMap Str Diags} {ds : Diags} {σ : Sys} {q : List (HMap Str Diags)}
    {pubs : List (Str × List Diagnostic)} {ca : HMap Str (List Identifier)} (h : FixesOf u m ds σ) (hds : m.get? u = some ds)
    (hq : σ.diagQ = m' :: q) (hp : diagProcess env o m' = .ok (pubs, ca)) (pub : List (Str × List Diagnostic)) :
    FixesOf u m ds { σ with diagQ := q, dOut := some ca, published := pub } := by
  cases h with
  | computed h =>
    rw [hq] at h
    cases hl : q ++ results σ.wOut with
    | nil =>
      rw [List.cons_append, hl, List.getLast?_singleton] at h
      cases h
      refine .sent hl ca (by simp [fixesUnderway]) ?_
      rw [diagProcess_actions hp, hds]; rfl
    | cons x l =>
      rw [List.cons_append, hl, List.getLast?_cons_cons] at h
      exact .computed (by dsimp only; rw [hl]; exact h)
  | sent h0 => rw [hq] at h0; cases h0
  | recorded h0 => rw [hq] at h0; cases h0

/-- the worker receives a message that does not touch documents -/
theorem Spec.FixesOf.harmless {env : Env} {w : World} {u : Str} {m : HMap Str Diags} {ds : Diags} {σ : Sys} {s s' : Server} {x : Msg} {q : List Msg}
    {r : Reply} (h : FixesOf u m ds σ) (hw : σ.worker = some s) (ho : σ.wOut = []) (hq : σ.lspQ = x :: q) (hx : Harmless x)
    (hh : s.handle env w x = .ok (s', [], r)) : FixesOf u m ds { σ with worker := some s', lspQ := q, wOut := [] } := by
  by_cases hc : ∃ ca, x = .codeActions ca
  · obtain ⟨ca, rfl⟩ := hc
    have hfx : fixesUnderway σ = ca :: fixesUnderway { σ with worker := some s', lspQ := q, wOut := [] } := by
      simp [fixesUnderway, hq]
    cases h with
    | computed h => exact .computed (by rw [ho] at h; exact h)
    | sent h0 ca' h hca =>
      rw [ho] at h0
      cases hl : fixesUnderway { σ with worker := some s', lspQ := q, wOut := [] } with
      | nil =>
        rw [hfx, hl, List.getLast?_singleton] at h
        cases h
        refine .recorded h0 hl s' rfl ?_
        simp only [Server.handle, Except.ok.injEq, Prod.mk.injEq] at hh
        obtain ⟨rfl, _⟩ := hh
        dsimp only
        rw [addCodeActions_get, hca]; rfl
      | cons y l =>
        rw [hfx, hl, List.getLast?_cons_cons, ← hl] at h
        exact .sent h0 ca' h hca
    | recorded h0 h => rw [hfx] at h; cases h
  · have hfx : fixesUnderway { σ with worker := some s', lspQ := q, wOut := [] } = fixesUnderway σ := by
      unfold fixesUnderway
      rw [hq]
      cases x <;> first | rfl | exact absurd ⟨_, rfl⟩ hc
    have hqr : x.isQuery := by cases x <;> first | trivial | exact hx.elim | exact absurd ⟨_, rfl⟩ hc
    refine h.same (by rw [ho]) hfx fun s1 h1 => ?_
    rw [hw] at h1
    cases h1
    exact ⟨s', rfl, by rw [(handle_query hqr hh).1]⟩

/-- the client sends a message -/
theorem Spec.FixesOf.client {u : Str} {m : HMap Str Diags} {ds : Diags} {σ : Sys} (h : FixesOf u m ds σ) {x : Msg} (hx : x.fromClient) :
    FixesOf u m ds { σ with lspQ := σ.lspQ ++ [x] } := by
  refine h.same rfl ?_ fun s hs => ⟨s, hs, rfl⟩
  unfold fixesUnderway
  cases x <;> first | exact hx.elim | simp

theorem Spec.Mild.milder {u : Str} {m : Msg} (h : Mild u m) : Milder m := h.imp id fun h => ⟨u, h⟩

theorem Spec.Milder.handle {env : Env} {w : World} {s s' : Server} {m : Msg} {o : List Send} {r : Reply} (hm : Milder m)
    (h : s.handle env w m = .ok (s', o, r)) :
    s'.files.documents = s.files.documents ∧ s'.timers = s.timers ∧ s'.files.mainChannel = s.files.mainChannel := by
  rcases hm with hm | ⟨v, rfl⟩
  · obtain ⟨h1, h2, _⟩ := hm.handle h
    exact ⟨h1.documents, h2, h1.conf.chan⟩
  · have ht := handle_timers h (by intro _ _ h; cases h) (by intro _ _ h; cases h)
    have hf := handle_files h
    cases hf with
    | query hm => cases hm
    | didSave _ m hf => exact ⟨(documents_didSave hf).1, ht.1, (Frame.didSave hf).conf.chan⟩

theorem save_sends {env : Env} {w : World} {s s' : Server} {u : Str} {o : List Send} {r : Reply} (hx : fileExt u ≠ none)
    (hd : s.files.documents.get? u ≠ none) (h : s.handle env w (.didSave u) = .ok (s', o, r)) :
    ∃ ds, o = [.diag (HMap.empty.insert u ds)] := by
  obtain ⟨l, hl⟩ := Option.ne_none_iff_exists'.mp hx
  obtain ⟨t, ht⟩ := Option.ne_none_iff_exists'.mp hd
  simp only [Server.handle, LspFiles.didSave, hl, ht] at h
  split at h
  · cases h
  · rename_i f m hf
    cases h
    split at hf
    · cases hf
    · split at hf
      · cases hf
      · cases hf; exact ⟨_, rfl⟩
      · cases hf; exact ⟨_, rfl⟩

theorem Spec.Stage.step {W : World → Prop} (hO : ∀ w, W w → Orderly w) {env : Env} (he : Sound env) {u : Str} (hx : fileExt u ≠ none) {E : Editor} {as : List (HMap Str Diags)} {σ τ : Sys}
    (h : Stage W env u as σ) (hf : Following env E σ) (htm : Timed E σ) (hs : TaskStepIn W env σ τ) :
    Stage W env u (as ++ if σ.wOut = [] then results τ.wOut else []) τ := by
  have hτ := hf.step he (hs.weaken hO)
  have same : ∀ l : List Send, (if l = [] then results l else []) = ([] : List (HMap Str Diags)) := by
    intro l; split
    · rename_i h; rw [h]; rfl
    · rfl
  cases hs with
  | workerPanic =>
    obtain ⟨x, hx, _⟩ := hτ.well.worker
    cases hx
  | workerSendSelf hw' ho' hc =>
    have := hf.quiet
    rw [ho'] at this; simp at this
  | diagSendDead ha hdo hw' =>
    obtain ⟨x, hx, _⟩ := hτ.well.worker
    dsimp only at hx
    rw [hw'] at hx; cases hx
  | diagStop ha hdo hq hw' =>
    obtain ⟨x, hx, _⟩ := hτ.well.worker
    dsimp only at hx
    rw [hw'] at hx; cases hx
  | workerSendDiag hw' ho' ha hc =>
    rw [if_neg (by rw [ho']; simp), List.append_nil]
    cases h with
    | waiting q1 q2 chs hq h2 => exact .waiting q1 q2 chs hq h2
    | mute s hw hm hq => exact .mute s hw hm hq
    | armed s k hw ht hd hq => exact .armed s k hw ht hd hq
    | due s q1 q2 hw ht hd hq h1 h2 => exact .due s q1 q2 hw ht hd hq h1 h2
    | done s hw ht hd hq b m has hc ds hds hfx =>
      exact .done s hw ht hd hq b m has hc ds hds (hfx.same (by rw [ho']; simp [results]) rfl fun s h => ⟨s, h, rfl⟩)
  | workerSendDiagDead hw' ho' ha =>
    rw [if_neg (by rw [ho']; simp), List.append_nil]
    cases h with
    | waiting q1 q2 chs hq h2 => exact .waiting q1 q2 chs hq h2
    | mute s hw hm hq => exact .mute s hw hm hq
    | armed s k hw ht hd hq => exact .armed s k hw ht hd hq
    | due s q1 q2 hw ht hd hq h1 h2 => exact .due s q1 q2 hw ht hd hq h1 h2
    | done s hw ht hd hq b m has hc ds hds hfx => have := hf.well.diag; rw [ha] at this; cases this
  | diagRecv o ha hdo hq' hp =>
    dsimp only
    rw [same, List.append_nil]
    cases h with
    | waiting q1 q2 chs hq h2 => exact .waiting q1 q2 chs hq h2
    | mute s hw hm hq => exact .mute s hw hm hq
    | armed s k hw ht hd hq => exact .armed s k hw ht hd hq
    | due s q1 q2 hw ht hd hq h1 h2 => exact .due s q1 q2 hw ht hd hq h1 h2
    | done s hw ht hd hq b m has hc ds hds hfx => exact .done s hw ht hd hq b m has hc ds hds (hfx.recv hds hq' hp _)
  | diagPanic o ha hdo hq' hp =>
    dsimp only
    rw [same, List.append_nil]
    cases h with
    | waiting q1 q2 chs hq h2 => exact .waiting q1 q2 chs hq h2
    | mute s hw hm hq => exact .mute s hw hm hq
    | armed s k hw ht hd hq => exact .armed s k hw ht hd hq
    | due s q1 q2 hw ht hd hq h1 h2 => exact .due s q1 q2 hw ht hd hq h1 h2
    | done s hw ht hd hq b m has hc ds hds hfx => have := hτ.well.diag; cases this
  | diagSend ha hdo hw' hc =>
    dsimp only
    rw [same, List.append_nil]
    rename_i ca
    have app : ∀ {P : Msg → Prop} {q : List Msg}, (∀ m ∈ q, P m) → P (.codeActions ca) → ∀ m ∈ q ++ [.codeActions ca], P m := by
      intro P q hq hca m hm
      rcases List.mem_append.mp hm with hm | hm
      · exact hq m hm
      · rw [List.mem_singleton.mp hm]; exact hca
    have hml : Milder (.codeActions ca) := Or.inl trivial
    have hmd : Mild u (.codeActions ca) := Or.inl trivial
    cases h with
    | waiting q1 q2 chs hq h2 => exact .waiting q1 (q2 ++ [.codeActions ca]) chs (by simp [hq]) (app h2 hml)
    | mute s hw hm hq => exact .mute s hw hm (app hq hml)
    | armed s k hw ht hd hq => exact .armed s k hw ht hd (app hq hml)
    | due s q1 q2 hw ht hd hq h1 h2 => exact .due s q1 (q2 ++ [.codeActions ca]) hw ht hd (by simp [hq]) h1 (app h2 hmd)
    | done s hw ht hd hq b m has hc ds hds hfx =>
      exact .done s hw ht hd (app hq hmd) b m has hc ds hds (hfx.same rfl (by simp [fixesUnderway, hdo]) fun s h => ⟨s, h, rfl⟩)
  | workerRecv w hw' ho' hq' hr hW =>
    rename_i s0 s' m q o r
    rw [if_pos ho']
    dsimp only
    cases h with
    | waiting q1 q2 chs hq h2 =>
      rw [hq'] at hq
      cases q1 with
      | cons m' q1 =>
        simp only [List.cons_append, List.cons.injEq] at hq
        exact .waiting q1 q2 chs hq.2 h2
      | nil =>
        simp only [List.nil_append, List.cons.injEq] at hq
        obtain ⟨rfl, rfl⟩ := hq
        obtain ⟨_, _, s1, E₁, hw1, hi, hed⟩ := hf
        obtain ⟨_, s2, E₂, hw2, hone, _⟩ := htm
        rw [hw'] at hw1 hw2
        cases hw1
        cases hw2
        rw [hq'] at hed
        cases hed with
        | cons hstep hrest =>
          cases hstep with
          | change _ t t' es hE hp ha =>
            have hd := hi.held u t hx hE
            obtain ⟨h1, rfl⟩ := hone.change hd (fun c hc => by obtain ⟨e, _, rfl⟩ := List.mem_map.mp hc; rfl) hr
            have hd' : s'.files.documents.get? u ≠ none := by
              have hff := handle_files hr
              cases hff with
              | query hm => cases hm
              | didChange _ _ b hff =>
                obtain ⟨t1, _, _, h4⟩ := didChange_ok hd hff
                rw [h4]
                simp
            cases hmc : s'.files.mainChannel with
            | false => exact .mute s' rfl hmc h2
            | true =>
              rw [hmc] at h1
              exact .armed s' _ rfl h1 hd' h2
    | mute s hw hm hq =>
      rw [hw'] at hw
      cases hw
      rw [hq'] at hq
      obtain ⟨_, _, h3⟩ := (hq m (by simp)).handle hr
      exact .mute s' rfl (by rw [h3]; exact hm) fun x hx => hq x (by simp [hx])
    | armed s k hw ht hd hq =>
      rw [hw'] at hw
      cases hw
      rw [hq'] at hq
      obtain ⟨h1, h2, h3⟩ := (hq m (by simp)).handle hr
      exact .armed s' k rfl (by rw [h2]; exact ht) (by rw [h1]; exact hd) fun x hx => hq x (by simp [hx])
    | due s q1 q2 hw ht hd hq h1 h2 =>
      rw [hw'] at hw
      cases hw
      rw [hq'] at hq
      cases q1 with
      | cons m' q1 =>
        simp only [List.cons_append, List.cons.injEq] at hq
        obtain ⟨rfl, rfl⟩ := hq
        obtain ⟨e1, e2, e3⟩ := (h1 m (by simp)).handle hr
        exact .due s' q1 q2 rfl (by rw [e2]; exact ht) (by rw [e1]; exact hd) rfl (fun x hx => h1 x (by simp [hx])) h2
      | nil =>
        simp only [List.nil_append, List.cons.injEq] at hq
        obtain ⟨rfl, rfl⟩ := hq
        obtain ⟨ds, rfl⟩ := save_sends hx hd hr
        obtain ⟨e1, e2, e3⟩ := Milder.handle (Or.inr ⟨u, rfl⟩) hr
        exact .done s' rfl (by rw [e2]; exact ht) (by rw [e1]; exact hd) h2 as _ rfl ⟨w, _, s', r, hW, hr, SameWorkspace.refl _⟩
          ds (HMap.get?_insert_self _ _ _) (.computed (by simp [results]))
    | done s hw ht hd hq b m' has hc ds hds hfx =>
      rw [hw'] at hw
      cases hw
      rw [hq'] at hq
      rcases hq m (by simp) with hh | rfl
      · obtain ⟨e1, e2, rfl⟩ := hh.handle hr
        obtain ⟨w1, s1, s2, r1, k1, k2, k3⟩ := hc
        refine .done s' rfl (by rw [e2]; exact ht) (by rw [e1.documents]; exact hd) (fun x hx => hq x (by simp [hx])) b m' ?_
          ⟨w1, s1, s2, r1, k1, k2, k3.trans e1⟩ ds hds (hfx.harmless hw' ho' hq' hh hr)
        simp [results, has]
      · obtain ⟨ds, rfl⟩ := save_sends hx hd hr
        obtain ⟨e1, e2, e3⟩ := Milder.handle (Or.inr ⟨u, rfl⟩) hr
        exact .done s' rfl (by rw [e2]; exact ht) (by rw [e1]; exact hd) (fun x hx => hq x (by simp [hx])) as _ rfl
          ⟨w, _, s', r, hW, hr, SameWorkspace.refl _⟩ ds (HMap.get?_insert_self _ _ _) (.computed (by simp [results]))

theorem Spec.Execution.weaken {W W' : World → Prop} (hW : ∀ w, W w → W' w) {env : Env} {cs : List Msg} {as : List (HMap Str Diags)} {σ : Sys}
    (h : Execution W env cs as σ) : Execution W' env cs as σ := by
  induction h with
  | start => exact .start
  | client h m hm hw hl ih => exact ih.client m hm hw hl
  | task h hs ih => exact ih.task (hs.weaken hW)
  | delayed h hs hw ht hτ ih => exact ih.delayed hs hw ht hτ

theorem stage {W : World → Prop} (hO : ∀ w, W w → Orderly w) {env : Env} (he : Sound env) {u : Str} (hx : fileExt u ≠ none) {cs : List Msg} {as : List (HMap Str Diags)} {σ : Sys}
    (h : Execution W env cs as σ)
    (hc : ∀ m ∈ cs, Proper env m) (E : Editor) (hE : Editing (fun _ => none) cs E) (hna : ∀ m ∈ cs, ∀ u p, m ≠ .codeAction u p)
    (pre post : List Msg) (chs : List TextChange) (hcs : cs = pre ++ .didChange u chs :: post) (hpost : ∀ m ∈ post, Mild u m) :
    Stage W env u as σ := by
  induction h generalizing E pre post with
  | start => simp at hcs
  | client h m hm hw hl ih =>
    rename_i cs as σ s
    rcases List.eq_nil_or_concat post with rfl | ⟨post', m', rfl⟩
    · have := List.append_inj' hcs rfl
      obtain ⟨_, h2⟩ := this
      cases h2
      exact .waiting σ.lspQ [] chs rfl (by simp)
    · rw [List.concat_eq_append, ← List.cons_append, ← List.append_assoc] at hcs
      obtain ⟨h1, h2⟩ := List.append_inj' hcs rfl
      cases h2
      obtain ⟨F, hE1, _⟩ := hE.split
      have hs := ih (fun x hx => hc x (by simp [hx])) F hE1 (fun x hx => hna x (by simp [hx])) pre post' h1
        (fun x hx => hpost x (by simp [hx]))
      have hmm : Mild u m := hpost m (by simp)
      have app : ∀ {P : Msg → Prop} {q : List Msg}, (∀ m ∈ q, P m) → P m → ∀ x ∈ q ++ [m], P x := by
        intro P q hq hca x hx
        rcases List.mem_append.mp hx with hx | hx
        · exact hq x hx
        · rw [List.mem_singleton.mp hx]; exact hca
      cases hs with
      | waiting q1 q2 chs hq h2 => exact .waiting q1 (q2 ++ [m]) chs (by simp [hq]) (app h2 hmm.milder)
      | mute s hw hm hq => exact .mute s hw hm (app hq hmm.milder)
      | armed s k hw ht hd hq => exact .armed s k hw ht hd (app hq hmm.milder)
      | due s q1 q2 hw ht hd hq h1 h2 => exact .due s q1 (q2 ++ [m]) hw ht hd (by simp [hq]) h1 (app h2 hmm)
      | done s hw ht hd hq b m has hc ds hds hfx => exact .done s hw ht hd (app hq hmm) b m has hc ds hds (hfx.client hm)
  | task h hs ih =>
    exact (ih hc E hE hna pre post hcs hpost).step hO he hx (following he (h.weaken hO) hc E hE) (timed he (h.weaken hO) hc E hE hna) hs
  | delayed h hs hw ht hτ ih =>
    rename_i cs as σ τ s t
    have hst := ih hc E hE hna pre post hcs hpost
    cases hs with
    | client m hm hw2 hc2 =>
      dsimp only at hτ
      rw [hw] at hτ
      injection hτ with hτ
      have hlen := congrArg (fun s => s.timers.length) hτ
      simp only [List.length_erase, ht, if_true] at hlen
      have : 0 < s.timers.length := List.length_pos_of_mem ht
      omega
    | clientDead hw2 => rw [hw] at hw2; cases hw2
    | timerMute hw2 ht2 hl =>
      rename_i s' t'
      cases hst with
      | waiting q1 q2 chs hq h2 => exact .waiting q1 q2 chs hq h2
      | mute s1 hw1 hm hq => rw [hw2] at hw1; cases hw1; exact .mute _ rfl hm hq
      | armed s1 k hw1 ht1 hd hq =>
        rw [hw2] at hw1; cases hw1
        rw [ht1] at ht2
        rw [List.mem_singleton.mp ht2] at hl
        cases hl
      | due s1 q1 q2 hw1 ht1 hd hq h1 h2 => rw [hw2] at hw1; cases hw1; rw [ht1] at ht2; cases ht2
      | done s1 hw1 ht1 hd hq b m has hc ds hds hfx => rw [hw2] at hw1; cases hw1; rw [ht1] at ht2; cases ht2
    | timer hw2 ht2 hl hc2 =>
      rename_i s' t'
      have app : ∀ {P : Msg → Prop} {q : List Msg}, (∀ m ∈ q, P m) → P (.didSave t'.uri) → ∀ x ∈ q ++ [.didSave t'.uri], P x := by
        intro P q hq hca x hx
        rcases List.mem_append.mp hx with hx | hx
        · exact hq x hx
        · rw [List.mem_singleton.mp hx]; exact hca
      have hml : Milder (.didSave t'.uri) := Or.inr ⟨_, rfl⟩
      cases hst with
      | waiting q1 q2 chs hq h2 => exact .waiting q1 (q2 ++ [.didSave t'.uri]) chs (by simp [hq]) (app h2 hml)
      | mute s1 hw1 hm hq => rw [hw2] at hw1; cases hw1; exact .mute _ rfl hm (app hq hml)
      | armed s1 k hw1 ht1 hd hq =>
        rw [hw2] at hw1; cases hw1
        rw [ht1] at ht2
        have := List.mem_singleton.mp ht2
        subst this
        exact .due _ σ.lspQ [] rfl (by simp [ht1]) hd rfl hq (by simp)
      | due s1 q1 q2 hw1 ht1 hd hq h1 h2 => rw [hw2] at hw1; cases hw1; rw [ht1] at ht2; cases ht2
      | done s1 hw1 ht1 hd hq b m has hc ds hds hfx => rw [hw2] at hw1; cases hw1; rw [ht1] at ht2; cases ht2

namespace Spec

/-- The conditions of C69: a session of plain edits (C68) without quick fixes, whose last change concerned the supported document `u` and
was followed by requests and saves of `u` only; the workspace was loaded. -/
structure StoppedTyping (env : Env) (cs : List Msg) (u : Str) (E : Editor) : Prop where
  proper : ∀ m ∈ cs, Proper env m
  edits : Editing (fun _ => none) cs E
  noQuickFix : ∀ m ∈ cs, ∀ v p, m ≠ .codeAction v p
  last : ∃ pre post chs, cs = pre ++ .didChange u chs :: post ∧ ∀ m ∈ post, Mild u m
  supported : fileExt u ≠ none

/-- nothing is left to do -/
structure AtRest (σ : Sys) (s : Server) : Prop where
  worker : σ.worker = some s
  queue : σ.lspQ = []
  out : σ.wOut = []
  results : σ.diagQ = []
  delays : s.timers = []

/-- `u` is known by a URL in normal form, and so are all others -/
structure NormalUrls (env : Env) : Prop where
  same : ∀ n u, env.urlParse n = some u → u = n

end Spec

/-- what is published last for `u` is the analysis of the current workspace, and once the diagnostics task is idle its quick fixes are recorded -/
theorem quiet_fixed {W : World → Prop} (hO : ∀ w, W w → Orderly w) (env : Env) (he : Sound env) (hu : NormalUrls env) (cs : List Msg)
    (as : List (HMap Str Diags)) (σ : Sys) (s : Server) (h : Execution W env cs as σ) (hs : SmallResults as) (u : Str) (E : Editor)
    (ht : StoppedTyping env cs u E) (hi : AtRest σ s) (hm : s.files.mainChannel = true) :
    ∃ (w : World) (s1 s2 : Server) (r : Reply) (ds : Diags), W w ∧
      s1.handle env w (.didSave u) = .ok (s2, [.diag (HMap.empty.insert u ds)], r) ∧ SameWorkspace s2.files s.files ∧
      (σ.published.filter fun p => p.1 = u).getLast? = some (u, (ds.map report).map shown) ∧
      (σ.dOut = none → s.files.codeActions.get? u = some (missingTemplates ds)) := by
  obtain ⟨pre, post, chs, hcs, hpost⟩ := ht.last
  have hst := stage hO he ht.supported h ht.proper E ht.edits ht.noQuickFix pre post chs hcs hpost
  have hfile : FileUri u := by
    have := ht.proper (.didChange u chs) (by rw [hcs]; simp)
    exact this.1
  cases hst with
  | waiting q1 q2 chs hq h2 => rw [hi.queue] at hq; simp at hq
  | mute s1 hw hm1 hq => rw [hi.worker] at hw; cases hw; rw [hm] at hm1; cases hm1
  | armed s1 k hw ht1 hd hq => rw [hi.worker] at hw; cases hw; rw [hi.delays] at ht1; cases ht1
  | due s1 q1 q2 hw ht1 hd hq h1 h2 => rw [hi.queue] at hq; simp at hq
  | done s0 hw ht1 hd hq before m has hc ds0 hds0 hfx =>
    rw [hi.worker] at hw
    cases hw
    obtain ⟨w, s1, s2, r, k1, k2, k3⟩ := hc
    have hd1 : s1.files.documents.get? u ≠ none := by
      rw [← (Milder.handle (Or.inr ⟨u, rfl⟩) k2).1, ← k3.documents]
      exact hd
    obtain ⟨ds, hds⟩ := save_sends ht.supported hd1 k2
    simp only [List.cons.injEq, Send.diag.injEq, and_true] at hds
    subst hds
    have hdd : ds0 = ds := by rw [HMap.get?_insert_self] at hds0; exact (Option.some.inj hds0).symm
    subst hdd
    refine ⟨w, s1, s2, r, ds0, k1, k2, k3, ?_, ?_⟩
    rotate_left
    · intro hidle
      cases hfx with
      | computed h => rw [hi.results, hi.out] at h; cases h
      | sent h0 ca h hca => simp [fixesUnderway, hi.queue, hidle] at h
      | recorded h0 h s' hw' hs' => rw [hi.worker] at hw'; cases hw'; exact hs'
    have hf := following he (h.weaken hO) ht.proper E ht.edits
    have hp := hfile.parse he []
    rw [List.append_nil] at hp
    exact C65_last_shown W env cs as σ h hs hf.well.diag hi.results hi.out hu.same before [] (HMap.empty.insert u ds0) u ds0 hp (by rw [has]; simp) (by simp) (by simp)
      (by rintro rfl; obtain ⟨x, hx⟩ := hfile; cases hx)

/-- what is published last for `u` is the analysis of the current workspace -/
theorem quiet_current {W : World → Prop} (hO : ∀ w, W w → Orderly w) (env : Env) (he : Sound env) (hu : NormalUrls env) (cs : List Msg)
    (as : List (HMap Str Diags)) (σ : Sys) (s : Server) (h : Execution W env cs as σ) (hs : SmallResults as) (u : Str) (E : Editor)
    (ht : StoppedTyping env cs u E) (hi : AtRest σ s) (hm : s.files.mainChannel = true) :
    ∃ (w : World) (s1 s2 : Server) (r : Reply) (ds : Diags), W w ∧
      s1.handle env w (.didSave u) = .ok (s2, [.diag (HMap.empty.insert u ds)], r) ∧ SameWorkspace s2.files s.files ∧
      (σ.published.filter fun p => p.1 = u).getLast? = some (u, (ds.map report).map shown) := by
  obtain ⟨w, s1, s2, r, ds, k1, k2, k3, k4, _⟩ := quiet_fixed hO env he hu cs as σ s h hs u E ht hi hm
  exact ⟨w, s1, s2, r, ds, k1, k2, k3, k4⟩

/-- **C69** When typing has stopped and nothing is left to do – in every interleaving, whatever was typed before, with any number of requests
and saves since – the list the client shows for the document is what an analysis of its current text in the current workspace reports: the server
holds the text the editor shows and a tree parsed from it, and the list published last is the reports read from that tree. -/
theorem C69_shown {W : World → Prop} (hO : ∀ w, W w → Orderly w) (env : Env) (he : Sound env) (hu : NormalUrls env) (cs : List Msg)
    (as : List (HMap Str Diags)) (σ : Sys) (s : Server) (h : Execution W env cs as σ) (hs : SmallResults as) (u : Str) (E : Editor)
    (ht : StoppedTyping env cs u E) (hi : AtRest σ s) (hm : s.files.mainChannel = true) :
    ∃ t l old w ds, E u = some t ∧ s.files.documents.get? u = some t ∧ fileExt u = some l ∧
      (s.files.trees l).get? u = some (.parsed (s.files.grammar l) t old) ∧ W w ∧
      (s.files.readTree env w u = .ok (some ds) ∨ s.files.readTree env w u = .ok none ∧ ds = []) ∧
      (σ.published.filter fun p => p.1 = u).getLast? = some (u, (ds.map report).map shown) := by
  obtain ⟨w, s1, s2, r, ds, k1, k2, k3, k4⟩ := quiet_current hO env he hu cs as σ s h hs u E ht hi hm
  obtain ⟨l, hl⟩ := Option.ne_none_iff_exists'.mp ht.supported
  obtain ⟨hd, s', hw', _, hin⟩ := C68_in_step env he cs as σ (h.weaken hO) ht.proper E ht.edits
  rw [hi.worker] at hw'
  cases hw'
  obtain ⟨pre, post, chs, hcs, hpost⟩ := ht.last
  have hE : ∃ t, E u = some t := by
    have := ht.edits
    rw [hcs] at this
    obtain ⟨F, h1, h2⟩ := this.split
    cases h2 with
    | cons h r =>
      have : ∀ {F G : Editor} {q : List Msg}, Editing F q G → F u ≠ none → G u ≠ none := by
        intro F G q h
        induction h with
        | nil => exact id
        | cons h r ih => exact fun hF => ih (h.keeps u hF)
      refine Option.ne_none_iff_exists'.mp (this r ?_)
      cases h with
      | change => simp [Editor.set]
  obtain ⟨t, hE⟩ := hE
  have hdoc := hin hi.queue u t ht.supported hE
  obtain ⟨s'', hw'', hh⟩ := (following he (h.weaken hO) ht.proper E ht.edits).well.worker
  rw [hi.worker] at hw''
  cases hw''
  obtain ⟨old, ho⟩ := hh.fresh u l t hl hdoc
  refine ⟨t, l, old, w, ds, hE, hdoc, hl, ho, k1, ?_, k4⟩
  have hrd : s.files.readTree env w u = s2.files.readTree env w u := by
    unfold LspFiles.readTree
    rw [k3.documents, k3.trees, k3.variables, k3.conf.conf, k3.conf.ign]
  rw [hrd]
  simp only [Server.handle] at k2
  split at k2
  · cases k2
  · rename_i f m hf
    simp only [Except.ok.injEq, Prod.mk.injEq] at k2
    obtain ⟨rfl, hm2, _⟩ := k2
    unfold LspFiles.didSave at hf
    rw [hl] at hf
    simp only at hf
    split at hf
    · cases hf; simp [Server.sends] at hm2
    · split at hf
      · cases hf
      · rename_i f1 hf1
        have inj : ∀ {d : Diags}, Server.sends (some (HMap.empty.insert u d)) = [.diag (HMap.empty.insert u ds)] → d = ds := by
          intro d hd
          simp only [Server.sends, List.cons.injEq, Send.diag.injEq, and_true] at hd
          have := congrArg (fun x => x.get? u) hd
          simpa using this
        split at hf
        · cases hf
        · rename_i hrt
          cases hf
          exact Or.inr ⟨hrt, (inj hm2).symm⟩
        · rename_i v hrt
          cases hf
          rw [inj hm2] at hrt
          exact Or.inl hrt

/-! ### Well-nested templates -/

namespace Spec

/-- tree-sitter reads `text` as the well-nested template `t` with the expressions `es` and the import statements `ss`, without syntax error -/
structure ReadsAs (env : Env) (text : Str) (t : Tpl) (es : List Elem) (ss : List ImpStmt) (stop : Point) : Prop where
  tpl : t.Wf
  elems : Elems.Wf es
  stmts : ImpStmt.Wf ss
  ends : ∀ old, env.rootEnd (.parsed .jinja text old) = stop
  clean : ∀ old, ¬ SyntaxError env (.parsed .jinja text old) text
  defs : ∀ old, (env.queryMatches .jinjaDefinitions (.parsed .jinja text old) text).flatten = t.caps
  objs : ∀ old, (env.queryMatches .jinjaObjects (.parsed .jinja text old) text).flatten = es.flatMap Elem.caps
  imps : ∀ old, (env.queryMatches .jinjaImports (.parsed .jinja text old) text).flatten = ss.flatMap ImpStmt.caps

end Spec

/-- **C69** For every well-nested template the list shown when everything is at rest consists of exactly: the uses of names for which no binding
of the text in the editor is visible, in order, and the references of that text to templates which the file system said do not exist. -/
theorem C69_wellnested {W : World → Prop} (hO : ∀ w, W w → Orderly w) (env : Env) (he : Sound env) (hu : NormalUrls env) (cs : List Msg)
    (as : List (HMap Str Diags)) (σ : Sys) (s : Server) (h : Execution W env cs as σ) (hs : SmallResults as) (u : Str) (E : Editor)
    (ht : StoppedTyping env cs u E) (hi : AtRest σ s) (hm : s.files.mainChannel = true) (hx : fileExt u = some .template)
    (hig : s.files.ignoreGlobals = false) (text : Str) (hE : E u = some text) (t : Tpl) (es : List Elem) (ss : List ImpStmt) (stop : Point)
    (hr : ReadsAs env text t es ss stop) :
    ∃ w ds, W w ∧ (σ.published.filter fun p => p.1 = u).getLast? = some (u, (ds.map report).map shown) ∧
      useDiags ds = useReports (t.bindings stop) ((t.bindings stop).map (·.name) ++ knownElsewhere s.files.variables u) (Elems.uses es) ∧
      (missingDiags ds).Perm (refReports w s.files.config.templates true (ImpStmt.refs ss)) := by
  obtain ⟨w, s1, s2, r, ds, k1, k2, k3, k4⟩ := quiet_current hO env he hu cs as σ s h hs u E ht hi hm
  obtain ⟨text', l, old, _, _, e1, e2, e3, e4, _⟩ := C69_shown hO env he hu cs as σ s h hs u E ht hi hm
  rw [hE] at e1
  cases e1
  rw [hx] at e3
  cases e3
  rw [k3.documents] at e2
  rw [k3.trees] at e4
  have hf : Frame u s1.files s2.files := by
    have := handle_files k2
    cases this with
    | query hm => cases hm
    | didSave _ m hf => exact Frame.didSave hf
  have inj : ∀ {d : Diags}, [Send.diag (HMap.empty.insert u ds)] = [.diag (HMap.empty.insert u d)] → d = ds := by
    intro d hd
    simp only [List.cons.injEq, Send.diag.injEq, and_true] at hd
    have := congrArg (fun x => x.get? u) hd
    simpa using this.symm
  have hig1 : s1.files.ignoreGlobals = false := by rw [← hf.conf.ign, ← k3.conf.ign]; exact hig
  obtain ⟨d1, o1, h1⟩ := C25_wellnested_partial env w s1 s2 (.didSave u) u text _ _ r t es .saved hx hig1 k2 e2 e4 (hr.clean old) hr.tpl hr.elems
    (hr.defs old) (hr.objs old)
  obtain ⟨defs, _, hv⟩ := (analyses_records .saved hx k2 e2 e4).1 (hr.clean old)
  obtain ⟨d2, o2, h2⟩ := C28_template_partial env w s1 s2 (.didSave u) u _ r text _ _ ss .saved hx k2 e2 e4 hv hr.stmts (hr.imps old)
  rw [inj o1] at h1
  rw [inj o2] at h2
  refine ⟨w, ds, k1, k4, ?_, ?_⟩
  · rw [h1]
    have : env.rootEnd (.parsed (s.files.grammar .template) text old) = stop := hr.ends old
    rw [this]
    refine useReports_congr _ _ (fun n => ?_)
    rw [List.mem_append, List.mem_append, mem_knownElsewhere, mem_knownElsewhere]
    have : ∀ v, v ≠ u → s1.files.variables.get? v = s.files.variables.get? v := by
      intro v hv
      rw [k3.variables, (hf.same v hv).vars]
    constructor
    · rintro (h | ⟨v, vs, h1, h2, h3⟩)
      · exact Or.inl h
      · exact Or.inr ⟨v, vs, h1, by rw [← this v h1]; exact h2, h3⟩
    · rintro (h | ⟨v, vs, h1, h2, h3⟩)
      · exact Or.inl h
      · exact Or.inr ⟨v, vs, h1, by rw [this v h1]; exact h2, h3⟩
  · rw [k3.conf.conf, hf.conf.conf]
    exact h2

namespace Fix

/-- tree-sitter reads every text as the template of C25 -/
def typingEnv : Env := { docEnv tpl uses [] with profile := .release }

theorem typingEnv_sound : Sound typingEnv where
  parses := fun _ _ _ => rfl
  readable := by
    intro g t o
    have : ∀ c ∈ tpl.caps, c.name = .definition → c.text ≠ none := by decide
    intro c hc
    rw [show typingEnv.queryMatches .jinjaDefinitions (.parsed g t o) t = tpl.caps.map fun c => [c] from rfl, flatten_singletons] at hc
    exact this c hc
  urls := by intro p h; cases h
  debug := by intro h; cases h

def uriT : Str := c!"file:///t/a.html"

/-- the workspace is loaded, a document opened and one character typed -/
def typing : List Msg :=
  [.initialize none (some (some { JinjaConfig.default with lang := c!"rust", templates := c!"/t" })), .initialized, .didOpen uriT c!"aaa",
   .didChange uriT ([(⟨⟨0, 3⟩, ⟨0, 3⟩⟩, c!"b")].map fun e => ⟨some e.1, e.2⟩)]

theorem typing_stopped : ∃ E, StoppedTyping typingEnv typing uriT E ∧ E uriT = some c!"aaab" := by
  have h : ∀ c ∈ c!"aaa", PlainChar c := by unfold PlainChar; decide
  refine ⟨_, ⟨?_, .cons (.«initialize» _ _ _) (.cons (.initialized _ fun _ => rfl) (.cons (.opens _ _ _)
    (.cons (.change _ uriT c!"aaa" c!"aaab" _ (by decide) ?_ (by decide)) (.nil _)))), ?_, ⟨typing.take 3, [], _, rfl, by simp⟩, by decide⟩, by decide⟩
  · intro m hm
    simp only [typing, List.mem_cons, List.not_mem_nil, or_false] at hm
    rcases hm with rfl | rfl | rfl | rfl
    · trivial
    · trivial
    · exact ⟨_, rfl⟩
    · exact ⟨⟨_, rfl⟩, by simp⟩
  · exact ⟨⟨3, 3, ⟨0, by decide, by simp, by decide, by decide⟩, ⟨0, by decide, by simp, by decide, by decide⟩, by decide⟩, fun _ _ => trivial⟩
  · intro m hm
    simp only [typing, List.mem_cons, List.not_mem_nil, or_false] at hm
    rcases hm with rfl | rfl | rfl | rfl <;> intro u p h <;> cases h

theorem typing_reads (text : Str) : ReadsAs typingEnv text tpl uses [] ⟨9, 9⟩ where
  tpl := tpl_wf
  elems := uses_wf
  stmts := ⟨by decide, by simp, by simp⟩
  ends := fun _ => rfl
  clean := by rintro old ⟨c, hc, _⟩; cases hc
  defs := fun _ => flatten_singletons _
  objs := fun _ => flatten_singletons _
  imps := fun _ => rfl

end Fix

theorem smallResults_of_entries (as : List (HMap Str Diags)) (h : ∀ m ∈ as, ∀ e ∈ m.entries, ∀ d ∈ e.2,
    (d.2.start.row < 4294967296 ∧ d.2.start.column < 4294967296) ∧ d.2.stop.row < 4294967296 ∧ d.2.stop.column < 4294967296) :
    SmallResults as :=
  fun m hm k ds hk => h m hm (k, ds) ((HMap.get?_eq_some_iff ..).mp hk)

/-- the session of the fixture comes to rest after the delayed analysis and its publication; what is shown then are the loop variable
used outside its loop and the names `q` and `z`, and nothing else -/
example : ∃ (as : List (HMap Str Diags)) (σ : Sys) (s : Server), Execution (· = Fix.rootWorld) Fix.typingEnv Fix.typing as σ ∧ SmallResults as ∧
    AtRest σ s ∧ s.files.mainChannel = true ∧ s.files.ignoreGlobals = false ∧
    ((σ.published.filter fun p => p.1 = Fix.uriT).getLast?.map fun p => p.2.map fun d => d.range) = some [⟨⟨4, 20⟩, ⟨4, 21⟩⟩, ⟨⟨7, 3⟩, ⟨7, 4⟩⟩, ⟨⟨8, 3⟩, ⟨8, 4⟩⟩] := by
  have e1 := Execution.start (W := (· = Fix.rootWorld)) (env := Fix.typingEnv)
    |>.client (.initialize none (some (some { JinjaConfig.default with lang := c!"rust", templates := c!"/t" }))) trivial rfl (by decide)
  have e2 := e1.task (.workerRecv (q := []) Fix.rootWorld rfl rfl rfl rfl rfl)
  have e3 := e2.client .initialized trivial rfl (show 0 < 50 by decide)
  have e4 := e3.task (.workerRecv (q := []) Fix.rootWorld rfl rfl rfl rfl rfl)
  have e5 := e4.task (.workerSendDiag rfl rfl rfl (show 0 < 20 by decide))
  have e6 := e5.client (.didOpen Fix.uriT c!"aaa") trivial rfl (show 0 < 50 by decide)
  have e7 := e6.task (.workerRecv (q := []) Fix.rootWorld rfl rfl rfl rfl rfl)
  have e8 := e7.task (.workerSendDiag rfl rfl rfl (show 1 < 20 by decide))
  have e9 := e8.client (.didChange Fix.uriT ([(⟨⟨0, 3⟩, ⟨0, 3⟩⟩, c!"b")].map fun e => ⟨some e.1, e.2⟩)) trivial rfl (show 0 < 50 by decide)
  have e10 := e9.task (.workerRecv (q := []) Fix.rootWorld rfl rfl rfl rfl rfl)
  have e11 := e10.delayed (t := ⟨0, Fix.uriT, true, true⟩) (.timer rfl (List.mem_singleton.mpr rfl) rfl (show 0 < 50 by decide)) rfl
    (List.mem_singleton.mpr rfl) rfl
  have e12 := e11.task (.workerRecv (q := []) Fix.rootWorld rfl rfl rfl rfl rfl)
  have e13 := e12.task (.workerSendDiag rfl rfl rfl (show 2 < 20 by decide))
  have e14 := e13.task (.diagRecv HashOrder.id rfl rfl rfl rfl)
  have e15 := e14.task (.diagSend rfl rfl rfl (show 0 < 50 by decide))
  have e16 := e15.task (.diagRecv HashOrder.id rfl rfl rfl rfl)
  have e17 := e16.task (.diagSend rfl rfl rfl (show 1 < 50 by decide))
  have e18 := e17.task (.diagRecv HashOrder.id rfl rfl rfl rfl)
  have e19 := e18.task (.workerRecv Fix.rootWorld rfl rfl rfl rfl rfl)
  have e20 := e19.task (.workerRecv (q := []) Fix.rootWorld rfl rfl rfl rfl rfl)
  exact ⟨_, _, _, e20, smallResults_of_entries _ (by decide), ⟨rfl, rfl, rfl, rfl, rfl⟩, rfl, rfl, by decide⟩

/-! ### Where the condition is needed -/

namespace Fix

/-- only the text `aaab` uses names -/
def changedEnv : Env :=
  { env with
    profile := .release
    queryMatches := fun q _ text => match q with
      | .jinjaObjects => if text = c!"aaab" then (uses.flatMap Elem.caps).map fun c => [c] else []
      | _ => [] }

theorem changedEnv_sound : Sound changedEnv where
  parses := fun _ _ _ => rfl
  readable := by intro g t o c hc; cases hc
  urls := by intro p h; cases h
  debug := by intro h; cases h

end Fix

/-- **C69 is false before the workspace was loaded**: a document is opened and changed, everything comes to rest, and what is shown is still
the (empty) list of the text before the change, although an analysis of the current text would report names. -/
theorem C69_unloaded_refuted : ∃ (env : Env) (cs : List Msg) (as : List (HMap Str Diags)) (σ : Sys) (s : Server) (u : Str) (E : Editor),
    Sound env ∧ NormalUrls env ∧ Execution (· = Fix.rootWorld) env cs as σ ∧ SmallResults as ∧ StoppedTyping env cs u E ∧ AtRest σ s ∧
    s.files.mainChannel = false ∧ (σ.published.filter fun p => p.1 = u).getLast? = some (u, []) ∧
    ∃ d ds, s.files.readTree env Fix.rootWorld u = .ok (some (d :: ds)) := by
  have e6 := Execution.start (W := (· = Fix.rootWorld)) (env := Fix.changedEnv)
    |>.client (.didOpen Fix.uriT c!"aaa") trivial rfl (show 0 < 50 by decide)
  have e7 := e6.task (.workerRecv (q := []) Fix.rootWorld rfl rfl rfl rfl rfl)
  have e8 := e7.task (.workerSendDiag rfl rfl rfl (show 0 < 20 by decide))
  have e9 := e8.client (.didChange Fix.uriT ([(⟨⟨0, 3⟩, ⟨0, 3⟩⟩, c!"b")].map fun e => ⟨some e.1, e.2⟩)) trivial rfl (show 0 < 50 by decide)
  have e10 := e9.task (.workerRecv (q := []) Fix.rootWorld rfl rfl rfl rfl rfl)
  have e11 := e10.delayed (t := ⟨0, Fix.uriT, false, true⟩) (.timerMute rfl (List.mem_singleton.mpr rfl) rfl) rfl
    (List.mem_singleton.mpr rfl) rfl
  have e12 := e11.task (.diagRecv HashOrder.id rfl rfl rfl rfl)
  have e13 := e12.task (.diagSend rfl rfl rfl (show 0 < 50 by decide))
  have e14 := e13.task (.workerRecv (q := []) Fix.rootWorld rfl rfl rfl rfl rfl)
  refine ⟨_, _, _, _, _, Fix.uriT, _, Fix.changedEnv_sound, ⟨fun n u h => by cases h; rfl⟩, e14, smallResults_of_entries _ (by decide),
    ⟨?_, .cons (.opens _ _ _) (.cons (.change _ Fix.uriT c!"aaa" c!"aaab" _ (by decide) ?_ (by decide)) (.nil _)), ?_,
      ⟨[.didOpen Fix.uriT c!"aaa"], [], _, rfl, by simp⟩, by decide⟩, ⟨rfl, rfl, rfl, rfl, rfl⟩, rfl, rfl, _, _, rfl⟩
  · intro m hm
    simp only [List.nil_append, List.cons_append, List.mem_cons, List.not_mem_nil, or_false] at hm
    rcases hm with rfl | rfl
    · exact ⟨_, rfl⟩
    · exact ⟨⟨_, rfl⟩, by simp⟩
  · exact ⟨⟨3, 3, ⟨0, by decide, by simp, by decide, by decide⟩, ⟨0, by decide, by simp, by decide, by decide⟩, by decide⟩, fun _ _ => trivial⟩
  · intro m hm
    simp only [List.nil_append, List.cons_append, List.mem_cons, List.not_mem_nil, or_false] at hm
    rcases hm with rfl | rfl <;> intro u p h <;> cases h

end JinjaLsp
