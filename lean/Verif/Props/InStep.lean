import Verif.Props.Survival
/-
  C68: a client that edits what it shows.
-/

namespace JinjaLsp
open Spec

namespace Spec

/-- the texts of the documents open in an editor -/
abbrev Editor := Str → Option Str

/-- the editor after a document was opened or changed -/
def Editor.set (E : Editor) (u t : Str) : Editor := fun v => if v = u then some t else E v

/-- what a message of the client means for its own documents. Changes are edits between plain positions of the text the editor shows. The
workspace is only initialised while no document is open. -/
inductive EditStep : Editor → Msg → Editor → Prop where
  | opens (E : Editor) (u t : Str) : EditStep E (.didOpen u t) (E.set u t)
  | change (E : Editor) (u t t' : Str) (es : List (Range × Str)) (h : E u = some t) (hp : PlainEdits t es) (ha : applyEdits t es = some t') :
      EditStep E (.didChange u (es.map fun e => ⟨some e.1, e.2⟩)) (E.set u t')
  | «initialize» (E : Editor) (c : Option Str) (o : Option (Option JinjaConfig)) : EditStep E (.initialize c o) E
  | initialized (E : Editor) (h : ∀ u, E u = none) : EditStep E .initialized E
  | save (E : Editor) (u : Str) : EditStep E (.didSave u) E
  | completion (E : Editor) (u : Str) (p : Position) (t : TriggerKind) : EditStep E (.completion u p t) E
  | hover (E : Editor) (u : Str) (p : Position) : EditStep E (.hover u p) E
  | goto (E : Editor) (u : Str) (p : Position) : EditStep E (.goto u p) E
  | codeAction (E : Editor) (u : Str) (p : Position) : EditStep E (.codeAction u p) E
  | documentSymbol (E : Editor) (u : Str) : EditStep E (.documentSymbol u) E
  | command (E : Editor) (c : Str) (h : c ≠ c!"reset_variables") : EditStep E (.executeCommand c) E
  | actions (E : Editor) (m : HMap Str (List Identifier)) : EditStep E (.codeActions m) E

/-- a sequence of messages -/
inductive Editing : Editor → List Msg → Editor → Prop where
  | nil (E : Editor) : Editing E [] E
  | cons {E F G : Editor} {m : Msg} {ms : List Msg} (h : EditStep E m F) (r : Editing F ms G) : Editing E (m :: ms) G

/-- the server holds the texts the editor shows, of all supported documents -/
structure InStep (f : LspFiles) (E : Editor) : Prop where
  held : ∀ u t, fileExt u ≠ none → E u = some t → f.documents.get? u = some t
  supported : ∀ u, fileExt u = none → f.documents.get? u = none

end Spec

theorem Spec.Editing.append {E F G : Editor} {a b : List Msg} (h : Editing E a F) (h' : Editing F b G) : Editing E (a ++ b) G := by
  induction h with
  | nil => exact h'
  | cons h r ih => exact .cons h (ih h')

theorem Spec.Editing.split {E G : Editor} {a b : List Msg} (h : Editing E (a ++ b) G) : ∃ F, Editing E a F ∧ Editing F b G := by
  induction a generalizing E with
  | nil => exact ⟨E, .nil E, h⟩
  | cons m a ih =>
    cases h with
    | cons h r =>
      obtain ⟨F, h1, h2⟩ := ih r
      exact ⟨F, .cons h h1, h2⟩

theorem Spec.Editing.one {E G : Editor} {m : Msg} (h : Editing E [m] G) : EditStep E m G := by
  cases h with
  | cons h r => cases r; exact h

/-- the text of a document after it was opened -/
theorem documents_didOpen {env : Env} {w : World} {f g : LspFiles} {n c : Str} {ig : Bool} {m : Option (HMap Str Diags)}
    (h : f.didOpen env w n c ig = .ok (g, m)) (he : fileExt n ≠ none) : g.documents.get? n = some c := by
  obtain ⟨l, hl⟩ := Option.ne_none_iff_exists'.mp he
  unfold LspFiles.didOpen at h
  rw [hl] at h
  simp only at h
  split at h
  · cases h
  · rename_i f1 hf1
    have key : f1.documents.get? n = some c := by
      rw [(documents_addVariables hf1).1, documents_addTree]
      simp
    split at h
    · cases h; exact key
    · split at h
      · cases h
      · cases h; exact key
      · cases h; exact key

theorem didOpen_unsupported {env : Env} {w : World} {f g : LspFiles} {n c : Str} {ig : Bool} {m : Option (HMap Str Diags)}
    (h : f.didOpen env w n c ig = .ok (g, m)) (he : fileExt n = none) : g = f := by
  unfold LspFiles.didOpen at h
  rw [he] at h
  cases h
  rfl

/-- one message keeps the server in step with the editor -/
theorem Spec.InStep.handle {env : Env} {w : World} (hw : Orderly w) {s s' : Server} {m : Msg} {o : List Send} {r : Reply} {E F : Editor}
    (hi : InStep s.files E) (he : EditStep E m F) (h : s.handle env w m = .ok (s', o, r)) : InStep s'.files F := by
  have other : F = E → m ≠ .initialized → (∀ u t, m ≠ .didOpen u t) → (∀ u cs, m ≠ .didChange u cs) → InStep s'.files F := by
    rintro rfl h1 h2 h3
    constructor
    · intro u t hu ht
      rw [handle_documents h u h1 (h2 u) (h3 u)]
      exact hi.held u t hu ht
    · intro u hu
      rw [handle_documents h u h1 (h2 u) (h3 u)]
      exact hi.supported u hu
  cases he with
  | opens u t =>
    have hf := handle_files h
    cases hf with
    | query hm => cases hm
    | didOpen _ _ m hf =>
      constructor
      · intro v x hv hx
        unfold Editor.set at hx
        split at hx
        · rename_i e
          subst e
          cases hx
          exact documents_didOpen hf hv
        · rename_i e
          rw [((Frame.didOpen hf).same v e).doc]
          exact hi.held v x hv hx
      · intro v hv
        by_cases e : v = u
        · subst e
          rw [didOpen_unsupported hf hv]
          exact hi.supported v hv
        · rw [((Frame.didOpen hf).same v e).doc]
          exact hi.supported v hv
  | change u t t' es hE hp ha =>
    have hf := handle_files h
    cases hf with
    | query hm => cases hm
    | didChange _ _ b hf =>
      constructor
      · intro v x hv hx
        unfold Editor.set at hx
        split at hx
        · rename_i e
          subst e
          cases hx
          have hd := hi.held v t hv hE
          obtain ⟨t1, ies, h1, h2⟩ := didChange_ok hd hf
          obtain ⟨t2, ies', h3, h4⟩ := C01_batch_partial env.profile es t hp
          rw [h4] at h1
          cases h1
          rw [h2, HMap.get?_insert_self]
          rw [h3] at ha
          exact ha
        · rename_i e
          rw [((Frame.didChange hf).same v e).doc]
          exact hi.held v x hv hx
      · intro v hv
        by_cases e : v = u
        · subst e
          have hd := hi.supported v hv
          rw [didChange_none hd] at hf
          injection hf with hf
          injection hf with hf _
          rw [← hf]
          exact hd
        · rw [((Frame.didChange hf).same v e).doc]
          exact hi.supported v hv
  | initialized hE =>
    constructor
    · intro u t _ ht
      rw [hE u] at ht
      cases ht
    · intro u hu
      by_cases ho : o = []
      · have : s'.files = s.files := by
          have hf := handle_files h
          cases hf with
          | query hm => cases hm
          | notInitialized h => exact h
          | initialized f d hwd hf =>
            simp only [Server.handle, Server.onInitialized] at h
            split at h
            · cases h
            · rename_i heq
              cases h
              split at heq
              · rw [hwd] at heq
                cases heq
                cases ho
              · cases heq
                rfl
        rw [this]
        exact hi.supported u hu
      · cases hd : s'.files.documents.get? u with
        | none => rfl
        | some c =>
          obtain ⟨l, path, name, hr⟩ := (C56_documents env w s s' o r h ho u c).mp hd
          have := hw.keeps path name l hr.canonical hr.kind
          rw [← hr.uri, hu] at this
          cases this
  | «initialize» | save | completion | hover | goto | codeAction | documentSymbol | command | actions =>
    exact other rfl (by intro h; cases h) (by intro _ _ h; cases h) (by intro _ _ h; cases h)

theorem EditStep.self {env : Env} {w : World} {s s' : Server} {m : Msg} {o : List Send} {r : Reply} {E F : Editor}
    (he : EditStep E m F) (h : s.handle env w m = .ok (s', o, r)) : .initialized ∉ o := by
  have hs : ∀ x : Option (HMap Str Diags), Send.initialized ∉ Server.sends x := by
    intro x; cases x <;> simp [Server.sends]
  cases he with
  | opens =>
    simp only [Server.handle] at h
    split at h
    · cases h
    · cases h; exact hs _
  | save =>
    simp only [Server.handle] at h
    split at h
    · cases h
    · cases h; exact hs _
  | initialized =>
    simp only [Server.handle, Server.onInitialized] at h
    split at h
    · cases h
    · rename_i heq
      cases h
      split at heq
      · split at heq
        · cases heq
        · cases heq; simp
        · cases heq; simp
      · cases heq; simp
  | command c hc =>
    simp only [Server.handle, Except.ok.injEq, Prod.mk.injEq] at h
    rw [← h.2.1, if_neg hc]
    simp
  | change | completion | hover | goto | codeAction =>
    simp only [Server.handle] at h
    split at h
    · cases h
    · cases h; simp
  | «initialize» | documentSymbol | actions =>
    simp only [Server.handle, Except.ok.injEq, Prod.mk.injEq] at h
    rw [← h.2.1]
    simp

/-- a change of the text the editor shows is one the server can apply -/
theorem Spec.InStep.applies {env : Env} {s : Server} {E F : Editor} {u : Str} {cs : List TextChange} (hi : InStep s.files E)
    (he : EditStep E (.didChange u cs) F) : ¬ OutOfBounds env s u cs := by
  rintro ⟨t, pre, c, post, r, t1, ies, hd, hcs, h1, h2, h3⟩
  cases he with
  | change _ t0 t' es hE hp ha =>
    have ht : t = t0 := by
      have := hi.held u t0 (by
        intro hx
        rw [hi.supported u hx] at hd
        cases hd) hE
      rw [this] at hd
      injection hd with hd
      exact hd.symm
    subst ht
    obtain ⟨t2, ies', _, h4⟩ := C01_batch_partial env.profile es t hp
    obtain ⟨e, hx⟩ := (applyChanges_error_iff env.profile _ t).mpr ⟨pre, c, post, r, t1, ies, hcs, h1, h2, h3⟩
    rw [h4] at hx
    cases hx

/-- the process and the editor: the server has worked off what the client sent up to some moment, and the rest is queued -/
structure Spec.Following (env : Env) (E : Editor) (σ : Sys) : Prop where
  well : AllWell env σ
  quiet : .initialized ∉ σ.wOut
  follows : ∃ s E₁, σ.worker = some s ∧ InStep s.files E₁ ∧ Editing E₁ σ.lspQ E

/-- internal messages mean nothing for the editor -/
theorem Spec.Editing.internal {E F : Editor} {q : List Msg} {m : Msg} (h : Editing E q F) (hm : EditStep F m F) : Editing E (q ++ [m]) F :=
  h.append (.cons hm (.nil F))

theorem Spec.Following.step {env : Env} (he : Sound env) {E : Editor} {σ τ : Sys} (h : Following env E σ) (hs : TaskStepIn Orderly env σ τ) :
    Following env E τ := by
  obtain ⟨hwell, hquiet, s, E₁, hw, hi, hed⟩ := h
  have hw2 : AllWell env τ := by
    rcases hwell.step he hs with h | ⟨s', u, cs, q, h1, h2, h3, h4⟩
    · exact h
    · rw [hw] at h1
      cases h1
      rw [h3] at hed
      cases hed with
      | cons h r => exact absurd h4 (hi.applies h)
  refine ⟨hw2, ?_, ?_⟩
  · cases hs with
    | workerRecv w hw' ho' hq' hr hW =>
      rw [hw] at hw'
      cases hw'
      rw [hq'] at hed
      cases hed with
      | cons h r => exact EditStep.self h hr
    | workerPanic => simp
    | workerSendDiag hw' ho' ha hc => rw [ho'] at hquiet; intro hx; exact hquiet (by simp [hx])
    | workerSendDiagDead hw' ho' ha => rw [ho'] at hquiet; intro hx; exact hquiet (by simp [hx])
    | workerSendSelf hw' ho' hc => rw [ho'] at hquiet; simp at hquiet
    | diagRecv | diagPanic | diagSend | diagSendDead | diagStop => exact hquiet
  · cases hs with
    | workerRecv w hw' ho' hq' hr hW =>
      rw [hw] at hw'
      cases hw'
      rw [hq'] at hed
      cases hed with
      | cons h r => exact ⟨_, _, rfl, hi.handle hW h hr, r⟩
    | workerPanic =>
      obtain ⟨⟨x, hx, _⟩, _⟩ := hw2
      cases hx
    | workerSendSelf hw' ho' hc => rw [ho'] at hquiet; simp at hquiet
    | diagSend ha hdo hw' hc => exact ⟨s, E₁, hw, hi, hed.internal (.actions _ _)⟩
    | workerSendDiag | workerSendDiagDead | diagRecv | diagPanic | diagSendDead | diagStop => exact ⟨s, E₁, hw, hi, hed⟩

theorem following {env : Env} (he : Sound env) {cs : List Msg} {as : List (HMap Str Diags)} {σ : Sys} (h : Execution Orderly env cs as σ)
    (hc : ∀ m ∈ cs, Proper env m) (E : Editor) (hE : Editing (fun _ => none) cs E) : Following env E σ := by
  induction h generalizing E with
  | start =>
    cases hE
    refine ⟨⟨⟨_, rfl, healthy_init⟩, rfl, by simp [Sys.init], by simp [Sys.init, results], by simp [Sys.init]⟩, by simp [Sys.init], _,
      fun _ => none, rfl, ⟨by simp, fun u _ => rfl⟩, .nil _⟩
  | client h m hm hw hl ih =>
    obtain ⟨F, h1, h2⟩ := hE.split
    obtain ⟨ih, hq, s, E₁, hws, hi, hed⟩ := ih (fun x hx => hc x (by simp [hx])) F h1
    refine ⟨⟨ih.worker, ih.diag, ?_, ih.out, ih.diagQ⟩, hq, s, E₁, hws, hi, hed.append h2⟩
    intro x hx
    rcases List.mem_append.mp hx with hx | hx
    · exact ih.queue x hx
    · rw [List.mem_singleton.mp hx]; exact hc m (by simp)
  | task h hs ih => exact (ih hc E hE).step he hs
  | delayed h hs hw ht hτ ih =>
    obtain ⟨⟨⟨s1, hw1, hh⟩, hd, hq, ho, hdq⟩, hquiet, s2, E₁, hw2, hi, hed⟩ := ih hc E hE
    rw [hw] at hw1 hw2
    cases hw1
    cases hw2
    rename_i s t
    have this : Healthy { s with timers := s.timers.erase t } :=
      ⟨hh.fresh, hh.named, fun x hx => hh.timers x (List.mem_of_mem_erase hx)⟩
    cases hs with
    | client m hm hw2 hc2 =>
      dsimp only at hτ
      rw [hw] at hτ
      injection hτ with hτ
      have hlen := congrArg (fun s => s.timers.length) hτ
      simp only [List.length_erase, ht, if_true] at hlen
      have : 0 < s.timers.length := List.length_pos_of_mem ht
      omega
    | clientDead hw2 => rw [hw] at hw2; cases hw2
    | timer hw2 ht2 hl hc2 =>
      refine ⟨⟨⟨_, hτ, this⟩, hd, ?_, ho, hdq⟩, hquiet, _, E₁, hτ, hi, hed.internal (.save _ _)⟩
      intro x hx
      rcases List.mem_append.mp hx with hx | hx
      · exact hq x hx
      · rw [List.mem_singleton.mp hx]
        rw [hw2] at hw
        cases hw
        exact hh.timers _ ht2
    | timerMute hw2 ht2 hl => exact ⟨⟨⟨_, hτ, this⟩, hd, hq, ho, hdq⟩, hquiet, _, E₁, hτ, hi, hed⟩

/-- **C68** A client that opens documents, changes them by edits between plain positions of the texts it shows, saves them and asks whatever
it likes, never ends the server — for all documents, edits, interleavings with the diagnostics task, delays and worlds. At every moment
the server holds the texts which the editor showed at some earlier moment, and the queue holds what leads from there to the texts shown
now. Once the queue is empty, the server holds exactly the text the editor shows, for every supported document. -/
theorem C68_in_step (env : Env) (he : Sound env) (cs : List Msg) (as : List (HMap Str Diags)) (σ : Sys) (h : Execution Orderly env cs as σ)
    (hc : ∀ m ∈ cs, Proper env m) (E : Editor) (hE : Editing (fun _ => none) cs E) :
    σ.diagAlive = true ∧ ∃ s, σ.worker = some s ∧ (∃ E₁, InStep s.files E₁ ∧ Editing E₁ σ.lspQ E) ∧
      (σ.lspQ = [] → ∀ u t, fileExt u ≠ none → E u = some t → s.files.documents.get? u = some t) := by
  obtain ⟨hwell, _, s, E₁, hw, hi, hed⟩ := following he h hc E hE
  refine ⟨hwell.diag, s, hw, ⟨E₁, hi, hed⟩, ?_⟩
  intro hq u t hu ht
  rw [hq] at hed
  cases hed
  exact hi.held u t hu ht

/-- two documents are opened, one is changed twice in one notification (typing at the end of its second line, then replacing the first
line), which meets the conditions -/
example : ∃ E : Editor, Editing (fun _ => none) [.didOpen Fix.uriA c!"x\nabc", .didOpen Fix.uriB c!"",
    .didChange Fix.uriA ([(⟨⟨1, 3⟩, ⟨1, 3⟩⟩, c!"d"), (⟨⟨0, 0⟩, ⟨0, 1⟩⟩, c!"yz")].map fun e => ⟨some e.1, e.2⟩)] E ∧
    E Fix.uriA = some c!"yz\nabcd" ∧ E Fix.uriB = some [] := by
  refine ⟨_, .cons (.opens _ _ _) (.cons (.opens _ _ _) (.cons (.change _ Fix.uriA c!"x\nabc" c!"yz\nabcd" _ (by decide) ?_ (by decide)) (.nil _))),
    by decide, by decide⟩
  have h : ∀ c ∈ c!"x\nabc", PlainChar c := by unfold PlainChar; decide
  refine ⟨⟨5, 5, ⟨2, by decide, fun c hc => h c (List.mem_of_mem_take hc), by decide, by decide⟩,
    ⟨2, by decide, fun c hc => h c (List.mem_of_mem_take hc), by decide, by decide⟩, by decide⟩, ?_⟩
  intro t' ht
  have ht' : t' = c!"x\nabcd" := by
    have : applyEdit c!"x\nabc" ⟨⟨1, 3⟩, ⟨1, 3⟩⟩ c!"d" = some c!"x\nabcd" := by decide
    rw [this] at ht
    cases ht; rfl
  subst ht'
  exact ⟨⟨0, 1, ⟨0, by decide, by simp, by decide, by decide⟩, ⟨0, by decide, by simp, by decide, by decide⟩, by decide⟩,
    fun _ _ => trivial⟩

/-! ### Re-initialisation -/

/-- **C68 is false once the workspace is read again** (command `reset_variables`, a new configuration): for every document that is on disk
with fewer lines than the editor shows, the next change in the lines that are missing on disk ends the worker, whatever it is. -/
theorem C68_reread_refuted (env : Env) (w w' : World) (s s' : Server) (out : List Send) (r : Reply)
    (h : s.handle env w .initialized = .ok (s', out, r)) (ho : out ≠ []) (u c : Str) (l : LangType) (path name : Str)
    (hr : Reads w (entries w s.config) u c l path name) (rg : Range) (text : Str) (cs : List TextChange)
    (hl : lineByte c rg.start.line = none) :
    ∃ e, s'.handle env w' (.didChange u (⟨some rg, text⟩ :: cs)) = .error e := by
  have hd := (C56_documents env w s s' out r h ho u c).mpr ⟨l, path, name, hr⟩
  refine (C06_notification_crash_iff env w' s' u _).mpr ⟨c, [], _, cs, rg, c, [], hd, rfl, rfl, rfl, ?_⟩
  unfold EditCrash
  rw [hl]
  trivial

/-- a workspace with a template of one line, of which the editor shows three -/
example : ∃ (s s' : Server) (out : List Send) (r : Reply), s.handle Fix.env Fix.rootWorld .initialized = .ok (s', out, r) ∧ out ≠ [] ∧
    Reads Fix.rootWorld (entries Fix.rootWorld s.config) c!"file:///t/a.html" c!"aaa" .template c!"/t/a.html" c!"/t/a.html" ∧
    lineByte c!"aaa" 2 = none :=
  ⟨{ Server.init with config := { JinjaConfig.default with lang := c!"rust", templates := c!"/t" } }, _, _, _, rfl, by simp,
    ⟨List.mem_flatMap.mpr ⟨c!"/t", by simp, by decide⟩, by decide, rfl, by decide, by decide⟩, by decide⟩

/-- **C68 is false for sessions with a reset**: a client whose messages, apart from one command `reset_variables`, are those of an orderly
session ends the server by a change that is valid in the text it shows. -/
theorem C68_reset_refuted : ∃ (env : Env) (a b : List Msg) (as : List (HMap Str Diags)) (σ : Sys) (E : Editor), Sound env ∧
    Execution Orderly env (a ++ .executeCommand c!"reset_variables" :: b) as σ ∧
    (∀ m ∈ a ++ .executeCommand c!"reset_variables" :: b, Proper env m) ∧ Editing (fun _ => none) (a ++ b) E ∧ σ.worker = none := by
  let u : Str := c!"file:///t/a.html"
  let i : Msg := .initialize none (some (some { JinjaConfig.default with lang := c!"rust", templates := c!"/t" }))
  let d : Msg := .didOpen u c!"aaa\nbbb\nccc"
  let k : Msg := .executeCommand c!"reset_variables"
  let ch : Msg := .didChange u ([(⟨⟨2, 0⟩, ⟨2, 0⟩⟩, c!"x")].map fun e => ⟨some e.1, e.2⟩)
  have ho := Fix.rootWorld_orderly
  have e1 := Execution.start (W := Orderly) (env := Fix.env) |>.client i trivial rfl (by decide)
  have e2 := e1.task (.workerRecv (q := []) Fix.rootWorld rfl rfl rfl rfl ho)
  have e3 := e2.client .initialized trivial rfl (show 0 < 50 by decide)
  have e4 := e3.task (.workerRecv (q := []) Fix.rootWorld rfl rfl rfl rfl ho)
  have e5 := e4.task (.workerSendDiag rfl rfl rfl (show 0 < 20 by decide))
  have e6 := e5.client d trivial rfl (show 0 < 50 by decide)
  have e7 := e6.task (.workerRecv (q := []) Fix.rootWorld rfl rfl rfl rfl ho)
  have e8 := e7.task (.workerSendDiag rfl rfl rfl (show 1 < 20 by decide))
  have e9 := e8.client k trivial rfl (show 0 < 50 by decide)
  have e10 := e9.task (.workerRecv (q := []) Fix.rootWorld rfl rfl rfl rfl ho)
  have e11 := e10.task (.workerSendSelf rfl rfl (show 0 < 50 by decide))
  have e12 := e11.task (.workerRecv (q := []) Fix.rootWorld rfl rfl rfl rfl ho)
  have e13 := e12.task (.workerSendDiag rfl rfl rfl (show 2 < 20 by decide))
  have e14 := e13.client ch trivial rfl (show 0 < 50 by decide)
  have e15 := e14.task (.workerPanic (p := .lineIndex) (q := []) Fix.rootWorld rfl rfl rfl rfl ho)
  refine ⟨Fix.env, [i, .initialized, d], [ch], _, _, _, Fix.env_sound, e15, ?_,
    .cons (.«initialize» _ _ _) (.cons (.initialized _ fun _ => rfl) (.cons (.opens _ _ _)
      (.cons (.change _ u c!"aaa\nbbb\nccc" c!"aaa\nbbb\nxccc" _ (by decide) ?_ (by decide)) (.nil _)))), rfl⟩
  · intro m hm
    simp only [List.cons_append, List.nil_append, List.mem_cons, List.not_mem_nil, or_false] at hm
    rcases hm with rfl | rfl | rfl | rfl | rfl
    · trivial
    · trivial
    · exact ⟨_, rfl⟩
    · trivial
    · exact ⟨⟨_, rfl⟩, by simp⟩
  · have h : ∀ c ∈ c!"aaa\nbbb\nccc", PlainChar c := by unfold PlainChar; decide
    exact ⟨⟨8, 8, ⟨8, by decide, fun c hc => h c (List.mem_of_mem_take hc), by decide, by decide⟩,
      ⟨8, by decide, fun c hc => h c (List.mem_of_mem_take hc), by decide, by decide⟩, by decide⟩, fun _ _ => trivial⟩

end JinjaLsp
