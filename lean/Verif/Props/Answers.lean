import Verif.Props.Quiet
import Verif.Props.Hover
/-
  C79: which text an answer is about.
-/

namespace JinjaLsp
open Spec

namespace Spec

/-- A session of an editor with the process: the messages `cs` it sent, the texts `E` it shows now, the queue `q` and the answers `rs`.
With each message goes the record of what the editor showed when the message was put into the queue. -/
inductive Session (W : World → Prop) (env : Env) : List Msg → Editor → List (Msg × Editor) → List (Msg × Editor × Reply) → Sys → Prop where
  | start : Session W env [] (fun _ => none) [] [] Sys.init
  /-- the editor sends a message -/
  | client {cs E F q rs} {σ : Sys} {s : Server} (h : Session W env cs E q rs σ) (m : Msg) (hm : m.fromClient) (hw : σ.worker = some s)
      (hc : σ.lspQ.length < lspCap) (he : EditStep E m F) : Session W env (cs ++ [m]) F (q ++ [(m, E)]) rs { σ with lspQ := σ.lspQ ++ [m] }
  /-- the worker takes the first message of the queue and answers it -/
  | answer {cs E q rs} {σ : Sys} {s s' : Server} {m : Msg} {A : Editor} {o : List Send} {r : Reply} (w : World)
      (h : Session W env cs E ((m, A) :: q) rs σ) (hw : σ.worker = some s) (ho : σ.wOut = [])
      (hh : s.handle env w m = .ok (s', o, r)) (hW : W w) :
      Session W env cs E q (rs ++ [(m, A, r)]) { σ with worker := some s', lspQ := q.map Prod.fst, wOut := o }
  /-- any other step of the two tasks, which may put messages into the queue -/
  | task {cs E q rs} {σ τ : Sys} {new : List Msg} (h : Session W env cs E q rs σ) (hs : TaskStepIn W env σ τ) (hn : τ.lspQ = σ.lspQ ++ new) :
      Session W env cs E (q ++ new.map fun m => (m, E)) rs τ
  /-- a delay is over -/
  | delayed {cs E q rs} {σ τ : Sys} {s : Server} {t : Timer} {new : List Msg} (h : Session W env cs E q rs σ) (hs : EnvStep σ τ)
      (hw : σ.worker = some s) (ht : t ∈ s.timers) (hτ : τ.worker = some { s with timers := s.timers.erase t }) (hn : τ.lspQ = σ.lspQ ++ new) :
      Session W env cs E (q ++ new.map fun m => (m, E)) rs τ

/-- the answer was computed from the texts the editor showed when it asked, by a server whose syntax trees are those of these texts -/
def AboutTheText (W : World → Prop) (env : Env) (a : Msg × Editor × Reply) : Prop :=
  ∃ (s : Server) (w : World) (s' : Server) (o : List Send), W w ∧ s.handle env w a.1 = .ok (s', o, a.2.2) ∧
    ∀ u t l, fileExt u = some l → a.2.1 u = some t →
      s.files.documents.get? u = some t ∧ ∃ old, (s.files.trees l).get? u = some (.parsed (s.files.grammar l) t old)

/-- a queue of messages, each with the texts shown when it was sent, that lead from one state of the editor to another -/
inductive Pending : Editor → List (Msg × Editor) → Editor → Prop where
  | nil (E : Editor) : Pending E [] E
  | cons {E F G : Editor} {m : Msg} {q : List (Msg × Editor)} (h : EditStep E m F) (r : Pending F q G) : Pending E ((m, E) :: q) G

end Spec

theorem Spec.Pending.append {E F G : Editor} {q : List (Msg × Editor)} {m : Msg} (h : Pending E q F) (he : EditStep F m G) :
    Pending E (q ++ [(m, F)]) G := by
  induction h with
  | nil => exact .cons he (.nil _)
  | cons h _ ih => exact .cons h (ih he)

theorem Spec.Pending.editing {E F : Editor} {q : List (Msg × Editor)} (h : Pending E q F) : Editing E (q.map Prod.fst) F := by
  induction h with
  | nil => exact .nil _
  | cons h _ ih => exact .cons h ih

/-- the session as an execution -/
theorem Spec.Session.execution {W : World → Prop} {env : Env} {cs E q rs σ} (h : Session W env cs E q rs σ) :
    (∃ as, Execution W env cs as σ) ∧ q.map Prod.fst = σ.lspQ ∧ Editing (fun _ => none) cs E := by
  induction h with
  | start => exact ⟨⟨_, .start⟩, rfl, .nil _⟩
  | client h m hm hw hc he ih =>
    obtain ⟨⟨as, h1⟩, h2, h3⟩ := ih
    exact ⟨⟨_, h1.client m hm hw hc⟩, by simp [h2], h3.append (.cons he (.nil _))⟩
  | answer w h hw ho hh hW ih =>
    obtain ⟨⟨as, h1⟩, h2, h3⟩ := ih
    exact ⟨⟨_, h1.task (.workerRecv w hw ho h2.symm hh hW)⟩, rfl, h3⟩
  | task h hs hn ih =>
    obtain ⟨⟨as, h1⟩, h2, h3⟩ := ih
    exact ⟨⟨_, h1.task hs⟩, by simp [h2, hn, List.map_map, Function.comp_def], h3⟩
  | delayed h hs hw ht hτ hn ih =>
    obtain ⟨⟨as, h1⟩, h2, h3⟩ := ih
    exact ⟨⟨_, h1.delayed hs hw ht hτ⟩, by simp [h2, hn, List.map_map, Function.comp_def], h3⟩

/-- **C79** (order) In a session every message the editor sent is answered at most once and in the order of sending: the answered messages
followed by those waiting are the messages sent, interleaved with messages the server sent to itself. -/
theorem C79_order {W : World → Prop} {env : Env} {cs E q rs σ} (h : Session W env cs E q rs σ) :
    ∃ is, Merge cs is (rs.map Prod.fst ++ q.map Prod.fst) ∧ ∀ i ∈ is, internal i := by
  induction h with
  | start => exact ⟨[], .nil, by simp⟩
  | client h m hm hw hc he ih =>
    obtain ⟨is, h1, h2⟩ := ih
    refine ⟨is, ?_, h2⟩
    simp only [List.map_append, List.map_cons, List.map_nil, ← List.append_assoc]
    exact h1.left m
  | answer w h hw ho hh hW ih =>
    obtain ⟨is, h1, h2⟩ := ih
    refine ⟨is, ?_, h2⟩
    simpa using h1
  | task h hs hn ih =>
    rename_i σ τ new
    obtain ⟨is, h1, h2⟩ := ih
    have key : new = [] ∨ ∃ m, new = [m] ∧ internal m := by
      cases hs with
      | workerRecv w hw' ho' hq' hr hW =>
        rw [hq'] at hn
        have := congrArg List.length hn
        simp at this
        omega
      | workerPanic w hw' ho' hq' hh =>
        rw [hq'] at hn
        cases hn
      | workerSendSelf hw' ho hc => exact Or.inr ⟨_, (List.append_cancel_left hn).symm, Or.inl rfl⟩
      | diagSend ha hd hw' hc => exact Or.inr ⟨_, (List.append_cancel_left hn).symm, Or.inr (Or.inr ⟨_, rfl⟩)⟩
      | workerSendDiag | workerSendDiagDead | diagRecv | diagPanic | diagSendDead | diagStop =>
        exact Or.inl (by simpa using hn)
    rcases key with rfl | ⟨m, rfl, hm⟩
    · exact ⟨is, by simpa using h1, h2⟩
    · refine ⟨is ++ [m], ?_, ?_⟩
      · simp only [List.map_append, List.map_cons, List.map_nil, ← List.append_assoc]
        exact h1.right m
      · intro i hi
        rcases List.mem_append.mp hi with hi | hi
        · exact h2 i hi
        · rw [List.mem_singleton.mp hi]; exact hm
  | delayed h hs hw ht hτ hn ih =>
    rename_i σ τ s t new
    obtain ⟨is, h1, h2⟩ := ih
    have key : new = [] ∨ ∃ u, new = [.didSave u] := by
      cases hs with
      | client m hm hw2 hc2 =>
        exfalso
        dsimp only at hτ
        rw [hw] at hτ
        injection hτ with hτ
        have hlen := congrArg (fun s => s.timers.length) hτ
        simp only [List.length_erase, ht, if_true] at hlen
        have : 0 < s.timers.length := List.length_pos_of_mem ht
        omega
      | clientDead hw2 => rw [hw] at hw2; cases hw2
      | timer hw2 ht2 hl hc2 => exact Or.inr ⟨_, (List.append_cancel_left hn).symm⟩
      | timerMute hw2 ht2 hl => exact Or.inl (by simpa using hn)
    rcases key with rfl | ⟨u, rfl⟩
    · exact ⟨is, by simpa using h1, h2⟩
    · refine ⟨is ++ [.didSave u], ?_, ?_⟩
      · simp only [List.map_append, List.map_cons, List.map_nil, ← List.append_assoc]
        exact h1.right _
      · intro i hi
        rcases List.mem_append.mp hi with hi | hi
        · exact h2 i hi
        · rw [List.mem_singleton.mp hi]; exact Or.inr (Or.inl ⟨u, rfl⟩)

/-- what the worker holds, and what waits for it -/
theorem session_pending {env : Env} (he : Sound env) {cs E q rs σ} (h : Session Orderly env cs E q rs σ) (hc : ∀ m ∈ cs, Proper env m) :
    (∃ s E₁, σ.worker = some s ∧ InStep s.files E₁ ∧ Fresh s.files ∧ Pending E₁ q E) ∧ ∀ a ∈ rs, AboutTheText Orderly env a := by
  have fresh : ∀ {cs E q rs σ}, Session Orderly env cs E q rs σ → (∀ m ∈ cs, Proper env m) → ∀ s, σ.worker = some s → Fresh s.files := by
    intro cs E q rs σ h hc s hs
    obtain ⟨⟨as, h1⟩, _, h3⟩ := h.execution
    obtain ⟨⟨⟨s', hs', hh⟩, _⟩, _⟩ := following he h1 hc E h3
    rw [hs] at hs'
    cases hs'
    exact hh.fresh
  induction h with
  | start => exact ⟨⟨_, fun _ => none, rfl, ⟨by simp, fun u _ => rfl⟩, C03_start, .nil _⟩, by simp⟩
  | client h m hm hw hc' he' ih =>
    obtain ⟨⟨s, E₁, h1, h2, h3, h4⟩, h5⟩ := ih (fun x hx => hc x (by simp [hx]))
    exact ⟨⟨s, E₁, h1, h2, h3, h4.append he'⟩, h5⟩
  | answer w h hw ho hh hW ih =>
    have hfr := fresh (h.answer w hw ho hh hW) hc _ rfl
    obtain ⟨⟨s, E₁, h1, h2, h3, h4⟩, h5⟩ := ih hc
    rw [hw] at h1
    cases h1
    cases h4 with
    | cons hst hr =>
      refine ⟨⟨_, _, rfl, h2.handle hW hst hh, hfr, hr⟩, ?_⟩
      intro a ha
      rcases List.mem_append.mp ha with ha | ha
      · exact h5 a ha
      · rw [List.mem_singleton.mp ha]
        refine ⟨_, w, _, _, hW, hh, ?_⟩
        intro u t l hu ht
        have hd := h2.held u t (by rw [hu]; simp) ht
        exact ⟨hd, h3 u l t hu hd⟩
  | task h hs hn ih =>
    rename_i σ τ new
    have hfr := fresh (h.task hs hn) hc
    obtain ⟨⟨s, E₁, h1, h2, h3, h4⟩, h5⟩ := ih hc
    obtain ⟨⟨as, hx⟩, _, hx3⟩ := h.execution
    obtain ⟨_, hquiet, _⟩ := following he hx hc _ hx3
    refine ⟨?_, h5⟩
    cases hs with
    | workerRecv w hw' ho' hq' hr hW =>
      rw [hq'] at hn
      have := congrArg List.length hn
      simp at this
      omega
    | workerPanic w hw' ho' hq' hh =>
      rw [hq'] at hn
      cases hn
    | workerSendSelf hw' ho hc => rw [ho] at hquiet; simp at hquiet
    | diagSend ha hd hw' hc =>
      cases (List.append_cancel_left hn).symm
      exact ⟨s, E₁, h1, h2, h3, h4.append (.actions _ _)⟩
    | workerSendDiag | workerSendDiagDead | diagRecv | diagPanic | diagSendDead | diagStop =>
      have : new = [] := by simpa using hn
      subst this
      exact ⟨s, E₁, h1, h2, h3, by simpa using h4⟩
  | delayed h hs hw ht hτ hn ih =>
    rename_i σ τ s1 t new
    obtain ⟨⟨s, E₁, h1, h2, h3, h4⟩, h5⟩ := ih hc
    rw [hw] at h1
    cases h1
    refine ⟨⟨_, E₁, hτ, h2, h3, ?_⟩, h5⟩
    cases hs with
    | client m hm hw2 hc2 =>
      exfalso
      dsimp only at hτ
      rw [hw] at hτ
      injection hτ with hτ
      have hlen := congrArg (fun s => s.timers.length) hτ
      simp only [List.length_erase, ht, if_true] at hlen
      have : 0 < s1.timers.length := List.length_pos_of_mem ht
      omega
    | clientDead hw2 => rw [hw] at hw2; cases hw2
    | timer hw2 ht2 hl hc2 =>
      cases (List.append_cancel_left hn).symm
      exact h4.append (.save _ _)
    | timerMute hw2 ht2 hl =>
      have : new = [] := by simpa using hn
      subst this
      simpa using h4

/-- **C79** (text) In every session of plain edits, whatever the interleaving and however many messages wait: each answer is computed from the
texts the editor showed when it asked, of all supported documents, with syntax trees of exactly these texts. -/
theorem C79_text (env : Env) (he : Sound env) (cs : List Msg) (E : Editor) (q : List (Msg × Editor)) (rs : List (Msg × Editor × Reply)) (σ : Sys)
    (h : Session Orderly env cs E q rs σ) (hc : ∀ m ∈ cs, Proper env m) : ∀ a ∈ rs, AboutTheText Orderly env a :=
  (session_pending he h hc).2

/-- **C79** (every execution) Every execution of the process in which the client makes plain edits is such a session, so the above is about
all of them. -/
theorem C79_session (env : Env) (he : Sound env) (cs : List Msg) (as : List (HMap Str Diags)) (σ : Sys) (h : Execution Orderly env cs as σ)
    (hc : ∀ m ∈ cs, Proper env m) (E : Editor) (hE : Editing (fun _ => none) cs E) : ∃ q rs, Session Orderly env cs E q rs σ := by
  induction h generalizing E with
  | start => cases hE; exact ⟨_, _, .start⟩
  | client h m hm hw hl ih =>
    obtain ⟨F, h1, h2⟩ := hE.split
    obtain ⟨q, rs, ih⟩ := ih (fun x hx => hc x (by simp [hx])) F h1
    exact ⟨_, _, ih.client m hm hw hl h2.one⟩
  | task h hs ih =>
    obtain ⟨q, rs, ih⟩ := ih hc E hE
    have hf := following he h hc E hE
    have hf2 := hf.step he hs
    have same : ∀ {cs} {σ τ : Sys}, Session Orderly env cs E q rs σ → TaskStepIn Orderly env σ τ → τ.lspQ = σ.lspQ →
        ∃ q rs, Session Orderly env cs E q rs τ := fun hx hy hz => ⟨_, _, hx.task hy (new := []) (by simpa using hz)⟩
    cases hs with
    | workerRecv w hw' ho' hq' hr hW =>
      have hq := ih.execution.2.1
      rw [hq'] at hq
      cases q with
      | nil => cases hq
      | cons a q =>
        obtain ⟨m', A⟩ := a
        simp only [List.map_cons, List.cons.injEq] at hq
        obtain ⟨rfl, rfl⟩ := hq
        exact ⟨_, _, ih.answer w hw' ho' hr hW⟩
    | workerPanic w hw' ho' hq' hh =>
      obtain ⟨s, _, hw, _⟩ := hf2.follows
      cases hw
    | workerSendSelf hw' ho hc => exact ⟨_, _, ih.task (.workerSendSelf hw' ho hc) rfl⟩
    | diagSend ha hd hw' hc => exact ⟨_, _, ih.task (.diagSend ha hd hw' hc) rfl⟩
    | workerSendDiag a b c d => exact same ih (.workerSendDiag a b c d) rfl
    | workerSendDiagDead a b c => exact same ih (.workerSendDiagDead a b c) rfl
    | diagRecv o a b c d => exact same ih (.diagRecv o a b c d) rfl
    | diagPanic o a b c d => exact same ih (.diagPanic o a b c d) rfl
    | diagSendDead a b c => exact same ih (.diagSendDead a b c) rfl
    | diagStop a b c d => exact same ih (.diagStop a b c d) rfl
  | delayed h hs hw ht hτ ih =>
    rename_i σ τ s t
    obtain ⟨q, rs, ih⟩ := ih hc E hE
    cases hs with
    | client m hm hw2 hc2 =>
      exfalso
      dsimp only at hτ
      rw [hw] at hτ
      injection hτ with hτ
      have hlen := congrArg (fun s => s.timers.length) hτ
      simp only [List.length_erase, ht, if_true] at hlen
      have : 0 < s.timers.length := List.length_pos_of_mem ht
      omega
    | clientDead hw2 => rw [hw] at hw2; cases hw2
    | timer hw2 ht2 hl hc2 => exact ⟨_, _, ih.delayed (.timer hw2 ht2 hl hc2) hw ht hτ rfl⟩
    | timerMute hw2 ht2 hl => exact ⟨_, _, ih.delayed (.timerMute hw2 ht2 hl) hw ht hτ (new := []) (by simp)⟩

/-- **C79** (hover) What hover shows for a filter depends on nothing but the text shown when asking: it is the documentation of the filter
under the cursor there, whatever was sent before or waits behind. -/
theorem C79_filter (env : Env) (he : Sound env) (cs : List Msg) (E : Editor) (q : List (Msg × Editor)) (rs : List (Msg × Editor × Reply)) (σ : Sys)
    (h : Session Orderly env cs E q rs σ) (hc : ∀ m ∈ cs, Proper env m) (uri text : Str) (pos : Position) (A : Editor) (r : Reply)
    (ha : (.hover uri pos, A, r) ∈ rs) (hx : fileExt uri = some .template) (ht : A uri = some text) (es : List Elem) (u : Use)
    (rest : List Capture) (hu : ∀ old, OnUse (env.queryMatches .jinjaObjects (.parsed .jinja text old) text).flatten es u rest (toPoint pos))
    (hf : u.info.filter = true) :
    (∀ d, (u.root.text, d) ∈ filterTable → r = .hover (some d)) ∧ ((∀ d, (u.root.text, d) ∉ filterTable) → r = .hover none) := by
  obtain ⟨s, w, s', o, _, hh, hd⟩ := C79_text env he cs E q rs σ h hc _ ha
  obtain ⟨h1, old, h2⟩ := hd uri text .template hx ht
  obtain ⟨h3, h4⟩ := C44_filter env w s uri _ text pos hx h1 h2 es u rest (hu old) hf
  dsimp only at hh
  refine ⟨?_, ?_⟩
  · intro d hd
    have := h3 d hd
    rw [hh] at this
    cases this
    rfl
  · intro hno
    have := h4 hno
    rw [hh] at this
    cases this
    rfl

namespace Fix

/-- in every text the filter `upper` is at column 6 -/
def filterEnv : Env := { envWith .jinjaObjects (upperCaps (.filter (tok 0 5 6 c!"|" 4)) c!"upper") with profile := .release }

theorem filterEnv_sound : Sound filterEnv where
  parses := fun _ _ _ => rfl
  readable := by intro g t o c hc; cases hc
  urls := by intro p h; cases h
  debug := by intro h; cases h

end Fix

/-- a hover request is followed by a change before the worker takes it: the answer is about the text shown when asking, which is no longer
the one shown when the answer arrives -/
example : ∃ (E A : Editor) (q : List (Msg × Editor)) (rs : List (Msg × Editor × Reply)) (σ : Sys) (r : Reply),
    Session Orderly Fix.filterEnv [.didOpen Fix.uriT c!"aaa", .hover Fix.uriT ⟨0, 8⟩,
      .didChange Fix.uriT ([(⟨⟨0, 0⟩, ⟨0, 3⟩⟩, [])].map fun e => ⟨some e.1, e.2⟩)] E q rs σ ∧
    (.hover Fix.uriT ⟨0, 8⟩, A, r) ∈ rs ∧ A Fix.uriT = some c!"aaa" ∧ E Fix.uriT = some [] ∧ r = .hover (some c!"md/filters/upper.md") := by
  have e1 := Session.start (W := Orderly) (env := Fix.filterEnv)
    |>.client (.didOpen Fix.uriT c!"aaa") trivial rfl (show 0 < 50 by decide) (.opens _ _ _)
  have e2 := Session.answer (q := []) Fix.rootWorld e1 rfl rfl rfl Fix.rootWorld_orderly
  have e3 := e2.task (new := []) (.workerSendDiag rfl rfl rfl (show 0 < 20 by decide)) rfl
  have e4 := e3.client (.hover Fix.uriT ⟨0, 8⟩) trivial rfl (show 0 < 50 by decide) (.hover _ _ _)
  have e5 := e4.client (.didChange Fix.uriT ([(⟨⟨0, 0⟩, ⟨0, 3⟩⟩, [])].map fun e => ⟨some e.1, e.2⟩)) trivial rfl (show 1 < 50 by decide)
    (.change _ Fix.uriT c!"aaa" [] [(⟨⟨0, 0⟩, ⟨0, 3⟩⟩, [])] (by decide) ⟨⟨0, 3, ⟨0, by decide, by simp, by decide, by decide⟩,
      ⟨0, by decide, by simp, by decide, by decide⟩, by decide⟩, fun _ _ => trivial⟩ (by decide))
  have e6 := Session.answer Fix.rootWorld e5 rfl rfl rfl Fix.rootWorld_orderly
  have last : ∀ {l : List (Msg × Editor × Reply)} {a}, a ∈ l ++ [a] := by simp
  refine ⟨_, _, _, _, _, _, e6, last, by decide, by decide, ?_⟩
  refine (C79_filter Fix.filterEnv Fix.filterEnv_sound _ _ _ _ _ e6 ?_ Fix.uriT c!"aaa" ⟨0, 8⟩ _ _ last (by decide) (by decide) _ _ _
    (fun old => Fix.upper_on (.filter (Fix.tok 0 5 6 c!"|" 4)) c!"upper" (by simp [Mark.Ok, Fix.tok]) (by decide) (by
      simp only [Fix.opened, List.flatMap_cons, List.flatMap_nil, Elem.toks, Mark.toks, Fix.tok, List.append_nil, List.nil_append,
        List.cons_append, Ordered]
      decide) (.parsed .jinja c!"aaa" old) c!"aaa") rfl).1 _ (by decide)
  intro m hm
  simp only [List.nil_append, List.cons_append, List.mem_cons, List.not_mem_nil, or_false] at hm
  rcases hm with rfl | rfl | rfl
  · exact ⟨_, rfl⟩
  · trivial
  · exact ⟨⟨_, rfl⟩, by simp⟩

/-- a message after which the definitions recorded for a document may be others -/
def Spec.MayAnalyse (uri : Str) : Msg → Prop
  | .initialized => True
  | .didOpen u _ | .didSave u => u = uri
  | _ => False

theorem handle_variables {env : Env} {w : World} {s s' : Server} {m : Msg} {o : List Send} {r : Reply} {uri : Str}
    (h : s.handle env w m = .ok (s', o, r)) (hm : ¬ MayAnalyse uri m) : s'.files.variables.get? uri = s.files.variables.get? uri := by
  have hs := handle_files h
  clear h
  cases hs with
  | query _ h => rw [h]
  | command c h => rw [h]
  | config c h => rw [h]
  | «initialize» c o h => rcases h with h | h <;> rw [h]
  | codeActions m h => rw [h, (addCodeActions_frame w.order s.files m).2.2.1]
  | didOpen u t m h => exact ((Frame.didOpen h).same uri (fun e => hm e.symm)).vars
  | didSave u m h => exact ((Frame.didSave h).same uri (fun e => hm e.symm)).vars
  | didChange u cs b h => rw [variables_didChange h]
  | notInitialized h => exact absurd trivial hm
  | initialized f d h hf => exact absurd trivial hm

/-- **C79 is false for definitions**: whatever is typed, until the next analysis of the document the symbols, and with them the definitions
all other requests refer to, are those of the text analysed last.  No change has any effect on them. -/
theorem C79_outdated_refuted (env : Env) (uri : Str) (w w' : World) : ∀ (ms : List (World × Msg)) (s s' : Server), s.run env ms = .ok s' →
    (∀ m ∈ ms, ¬ MayAnalyse uri m.2) → s'.files.variables.get? uri = s.files.variables.get? uri ∧
      ∃ r, s.handle env w (.documentSymbol uri) = .ok (s, [], r) ∧ s'.handle env w' (.documentSymbol uri) = .ok (s', [], r)
  | [], s, s', h, _ => by cases h; exact ⟨rfl, _, rfl, rfl⟩
  | m :: ms, s, s', h, hm => by
    simp only [Server.run] at h
    split at h
    · cases h
    · rename_i s1 o r hh
      obtain ⟨h1, r1, h2, h3⟩ := C79_outdated_refuted env uri w w' ms s1 s' h (fun x hx => hm x (by simp [hx]))
      have h4 := handle_variables hh (hm m (by simp))
      have h5 := h1.trans h4
      refine ⟨h5, _, rfl, ?_⟩
      simp only [Server.handle, LspFiles.documentSymbols, h5]

namespace Fix

/-- only the text `aaa` defines names -/
def definingEnv : Env :=
  { env with
    profile := .release
    queryMatches := fun q _ text => match q with
      | .jinjaDefinitions => if text = c!"aaa" then tpl.caps.map fun c => [c] else []
      | _ => [] }

theorem definingEnv_sound : Sound definingEnv where
  parses := fun _ _ _ => rfl
  readable := by
    intro g t o c hc
    have h : ∀ c ∈ tpl.caps, c.name = .definition → c.text ≠ none := by decide
    by_cases ht : t = c!"aaa"
    · have : definingEnv.queryMatches .jinjaDefinitions (.parsed g t o) t = tpl.caps.map fun c => [c] := by simp [definingEnv, ht]
      rw [this, flatten_singletons] at hc
      exact h c hc
    · have : definingEnv.queryMatches .jinjaDefinitions (.parsed g t o) t = [] := by simp [definingEnv, ht]
      rw [this] at hc
      cases hc
  urls := by intro p h; cases h
  debug := by intro h; cases h

/-- a document is opened, everything in it is deleted, and its symbols are asked for -/
def emptying : List Msg :=
  [.didOpen uriT c!"aaa", .didChange uriT ([(⟨⟨0, 0⟩, ⟨0, 3⟩⟩, [])].map fun e => ⟨some e.1, e.2⟩), .documentSymbol uriT]

end Fix

/-- **C79 is false for definitions**, as seen by an editor: a document is opened, emptied, and its symbols are asked for while it is empty; the
answer lists symbols.  The hypotheses of `C79_text` hold. -/
theorem C79_symbols_refuted : ∃ (env : Env) (E : Editor) (rs : List (Msg × Editor × Reply)) (σ : Sys) (A : Editor) (y : DocSymbol) (ys : List DocSymbol),
    Sound env ∧ Session (· = Fix.rootWorld) env Fix.emptying E [] rs σ ∧ (∀ m ∈ Fix.emptying, Proper env m) ∧
    (.documentSymbol Fix.uriT, A, .symbols (some (y :: ys))) ∈ rs ∧ A Fix.uriT = some [] := by
  have e1 := Session.start (W := (· = Fix.rootWorld)) (env := Fix.definingEnv)
    |>.client (.didOpen Fix.uriT c!"aaa") trivial rfl (show 0 < 50 by decide) (.opens _ _ _)
  have e2 := Session.answer (q := []) Fix.rootWorld e1 rfl rfl rfl rfl
  have e3 := e2.task (new := []) (.workerSendDiag rfl rfl rfl (show 0 < 20 by decide)) rfl
  have e4 := e3.client (.didChange Fix.uriT ([(⟨⟨0, 0⟩, ⟨0, 3⟩⟩, [])].map fun e => ⟨some e.1, e.2⟩)) trivial rfl (show 0 < 50 by decide)
    (.change _ Fix.uriT c!"aaa" [] [(⟨⟨0, 0⟩, ⟨0, 3⟩⟩, [])] (by decide) ⟨⟨0, 3, ⟨0, by decide, by simp, by decide, by decide⟩,
      ⟨0, by decide, by simp, by decide, by decide⟩, by decide⟩, fun _ _ => trivial⟩ (by decide))
  have e5 := e4.client (.documentSymbol Fix.uriT) trivial rfl (show 1 < 50 by decide) (.documentSymbol _ _)
  have e6 := Session.answer Fix.rootWorld e5 rfl rfl rfl rfl
  have e7 := Session.answer (q := []) Fix.rootWorld e6 rfl rfl rfl rfl
  refine ⟨_, _, _, _, _, _, _, Fix.definingEnv_sound, e7, ?_, List.mem_append.mpr (Or.inr (List.mem_singleton.mpr rfl)), by decide⟩
  intro m hm
  simp only [Fix.emptying, List.mem_cons, List.not_mem_nil, or_false] at hm
  rcases hm with rfl | rfl | rfl
  · exact ⟨_, rfl⟩
  · exact ⟨⟨_, rfl⟩, by simp⟩
  · trivial

end JinjaLsp
