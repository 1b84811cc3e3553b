import Verif.Props.Handlers
import Verif.Props.Settle
/-
  C107: every call gets its answer.
-/

namespace JinjaLsp
open Spec

namespace Spec

/-- a step of the process and its handlers without the client: no call arrives and none is cancelled -/
def Serving (W : World → Prop) (env : Env) (lim : Nat) (calls : List ClientCall) (a b : List FrontEvent × Front) : Prop :=
  ∃ e, FrontStep W env lim calls a.2 e b.2 ∧ b.1 = a.1 ++ [e] ∧ b.2.started = a.2.started ∧ ∀ n, e ≠ .answered n none

/-- `n` such steps -/
inductive ServingFor (W : World → Prop) (env : Env) (lim : Nat) (calls : List ClientCall) :
    Nat → List FrontEvent × Front → List FrontEvent × Front → Prop where
  | zero (a : List FrontEvent × Front) : ServingFor W env lim calls 0 a a
  | succ {n : Nat} {a b c : List FrontEvent × Front} (h : ServingFor W env lim calls n a b) (h' : Serving W env lim calls b c) :
      ServingFor W env lim calls (n + 1) a c

/-- whatever happens, `P` holds at some time -/
inductive Leads {α : Type _} (R : α → α → Prop) (P : α → Prop) : α → Prop where
  | now {a : α} (h : P a) : Leads R P a
  | later {a : α} (h : ∃ b, R a b) (h' : ∀ b, R a b → Leads R P b) : Leads R P a

/-- the handlers that have not sent their message -/
def unsent (hs : List Handler) : Nat := (hs.filter fun h => match h.phase with | .sending _ => true | _ => false).length

end Spec

/-- how many steps a handler takes and causes -/
def Phase.load : Phase → Nat
  | .sending m => m.load + 3
  | .awaiting => 2
  | .finished _ => 1

def handlersLoad (hs : List Handler) : Nat := (hs.map fun h => h.phase.load).sum

def Front.load (φ : Front) : Nat := φ.sys.load + handlersLoad φ.running

theorem handlersLoad_mid (pre post : List Handler) (h : Handler) :
    handlersLoad (pre ++ h :: post) = handlersLoad pre + (h.phase.load + handlersLoad post) := by
  simp [handlersLoad]

theorem handlersLoad_append (pre post : List Handler) : handlersLoad (pre ++ post) = handlersLoad pre + handlersLoad post := by
  simp [handlersLoad]

theorem unsent_append (pre post : List Handler) : unsent (pre ++ post) = unsent pre + unsent post := by
  simp [unsent]

theorem unsent_cons (h : Handler) (hs : List Handler) :
    unsent (h :: hs) = (match h.phase with | .sending _ => 1 | _ => 0) + unsent hs := by
  unfold unsent
  rw [List.filter_cons]
  cases hp : h.phase <;> simp [Nat.add_comm]

theorem handlersLoad_map (f : Handler → Handler) (hf : ∀ h, (f h).phase.load ≤ h.phase.load) : ∀ hs : List Handler,
    handlersLoad (hs.map f) ≤ handlersLoad hs
  | [] => Nat.le_refl _
  | h :: hs => by
    have h1 := handlersLoad_map f hf hs
    have h2 := hf h
    simp only [handlersLoad, List.map_cons, List.sum_cons] at h1 ⊢
    omega

theorem unsent_map (f : Handler → Handler) (hf : ∀ h m, (f h).phase = .sending m ↔ h.phase = .sending m) : ∀ hs : List Handler,
    unsent (hs.map f) = unsent hs
  | [] => rfl
  | h :: hs => by
    rw [List.map_cons, unsent_cons, unsent_cons, unsent_map f hf hs]
    cases hp : h.phase with
    | sending m => rw [(hf h m).mpr hp]
    | awaiting =>
      cases hq : (f h).phase with
      | sending m => rw [(hf h m).mp hq] at hp; cases hp
      | awaiting => rfl
      | finished r => rfl
    | finished r =>
      cases hq : (f h).phase with
      | sending m => rw [(hf h m).mp hq] at hp; cases hp
      | awaiting => rfl
      | finished r => rfl

theorem receive_load (r : Reply) (h : Handler) : (h.receive r).phase.load ≤ h.phase.load := by
  unfold Handler.receive
  split
  · rename_i hp
    rw [hp]
    simp [Phase.load]
  · exact Nat.le_refl _

theorem sent_load (h : Handler) : h.sent.phase.load ≤ 2 ∧ (match h.sent.phase with | .sending _ => 1 | _ => 0) = 0 := by
  unfold Handler.sent
  simp only
  split <;> simp [Phase.load]

theorem load_push (σ : Sys) (m : Msg) : ({ σ with lspQ := σ.lspQ ++ [m] } : Sys).load = σ.load + m.load ∧
    underWay { σ with lspQ := σ.lspQ ++ [m] } = underWay σ + 1 := by
  constructor
  · simp only [Sys.load, delays, List.map_append, List.sum_append, List.map_cons, List.map_nil, List.sum_cons, List.sum_nil]
    omega
  · simp only [underWay, delays, List.length_append, List.length_singleton]
    omega

theorem serving_load {W : World → Prop} {env : Env} {lim : Nat} {calls : List ClientCall} {a b : List FrontEvent × Front}
    (h : Serving W env lim calls a b) :
    b.2.load < a.2.load ∧ underWay b.2.sys + unsent b.2.running ≤ underWay a.2.sys + unsent a.2.running := by
  obtain ⟨es, φ⟩ := a
  obtain ⟨es', ψ⟩ := b
  obtain ⟨e, hs, he, hst, hne⟩ := h
  clear he
  simp only at hs hst ⊢
  cases hs with
  | start hl hc => simp at hst
  | send hr hp hf hw hq =>
    rename_i pre post h m s
    obtain ⟨h1, h2⟩ := load_push φ.sys m
    obtain ⟨h3, h4⟩ := sent_load h
    have h5 : (Phase.sending m).load = m.load + 3 := rfl
    simp only [Front.load, hr, h1, h2, handlersLoad_mid, unsent_append, unsent_cons, hp, h4, h5]
    omega
  | sendDead hr hp hw =>
    rename_i pre post h m
    simp only [Front.load, hr, handlersLoad_mid, unsent_append, unsent_cons, hp]
    simp only [Phase.load]
    omega
  | process w hw ho hq ht hh hW =>
    rename_i s s' m q outs r t ts
    obtain ⟨h1, h2⟩ := alone_load (.task (.workerRecv w hw ho hq hh hW))
    have h3 := handlersLoad_map (fun h => if t = some h.id then h.receive r else h) (fun h => by
      split
      · exact receive_load r h
      · exact Nat.le_refl _) φ.running
    have h4 := unsent_map (fun h => if t = some h.id then h.receive r else h) (fun h m => by
      split
      · exact FrontInv.receive_sending
      · exact Iff.rfl) φ.running
    simp only [Front.load, h4]
    omega
  | panic w hw ho hq hh hW =>
    obtain ⟨h1, h2⟩ := alone_load (.task (.workerPanic w hw ho hq hh hW))
    have h3 := handlersLoad_map (Handler.receive .none) (receive_load _) φ.running
    have h4 := unsent_map (Handler.receive .none) (fun _ _ => FrontInv.receive_sending) φ.running
    simp only [Front.load, h4]
    omega
  | task hs hq =>
    obtain ⟨h1, h2⟩ := alone_load (.task hs)
    simp only [Front.load]
    omega
  | delayed hs hw ht hτ hq =>
    obtain ⟨h1, h2⟩ := alone_load (W := W) (env := env) (.delayed hs hw ht hτ)
    simp only [Front.load]
    omega
  | answer hr hp =>
    rename_i pre post h r
    have h5 : (Phase.finished r).load = 1 := rfl
    have h6 := handlersLoad_mid pre post h
    rw [hp, h5] at h6
    simp only [Front.load, hr, h6, handlersLoad_append, unsent_append, unsent_cons, hp]
    omega
  | cancel hr hc => exact absurd rfl (hne _)

theorem front_load_le (φ : Front) : φ.load ≤ 7 * underWay φ.sys + 1 + 10 * φ.running.length := by
  have h1 := load_le φ.sys
  have h2 : ∀ hs : List Handler, handlersLoad hs ≤ 10 * hs.length := by
    intro hs
    induction hs with
    | nil => simp [handlersLoad]
    | cons h hs ih =>
      have : h.phase.load ≤ 10 := by
        cases h.phase with
        | sending m => cases m <;> simp [Phase.load, Msg.load]
        | awaiting => simp [Phase.load]
        | finished r => simp [Phase.load]
      simp only [handlersLoad, List.map_cons, List.sum_cons, List.length_cons] at ih ⊢
      omega
  have := h2 φ.running
  unfold Front.load
  omega

theorem servingFor_load {W : World → Prop} {env : Env} {lim : Nat} {calls : List ClientCall} {n : Nat} {a b : List FrontEvent × Front}
    (h : ServingFor W env lim calls n a b) : n + b.2.load ≤ a.2.load := by
  induction h with
  | zero => omega
  | succ h h' ih => have := (serving_load h').1; omega

/-- **C107, bound** Without new calls, at most seven steps are taken for each message in a queue, being sent or delayed, ten for each running
handler and one more. -/
theorem C107_bounded (W : World → Prop) (env : Env) (lim : Nat) (calls : List ClientCall) (n : Nat) (es es' : List FrontEvent) (φ ψ : Front)
    (h : ServingFor W env lim calls n (es, φ) (es', ψ)) : n ≤ 7 * underWay φ.sys + 10 * φ.running.length + 1 := by
  have h1 := servingFor_load h
  have h2 := front_load_le φ
  simp only at h1
  omega

/-- a worker with messages in its queue goes on, if not too much is under way -/
theorem worker_goes_on {W : World → Prop} {env : Env} (lim : Nat) (calls : List ClientCall) (hne : ∃ w, W w) {φ : Front} {s : Server}
    (hw : φ.sys.worker = some s) (hq : φ.sys.lspQ ≠ []) (hl : φ.tags.length = φ.sys.lspQ.length) (hu : underWay φ.sys ≤ 50) (es : List FrontEvent) :
    ∃ b, Serving W env lim calls (es, φ) b := by
  have ser : ∀ {e : FrontEvent} {ψ : Front}, FrontStep W env lim calls φ e ψ → ψ.started = φ.started → (∀ n, e ≠ .answered n none) →
      ∃ b, Serving W env lim calls (es, φ) b := fun hs h1 h2 => ⟨(_, _), _, hs, rfl, h1, h2⟩
  have silent : ∀ n, FrontEvent.silent ≠ .answered n none := fun _ h => by cases h
  have quiet : ∀ {τ : Sys}, TaskStepIn W env φ.sys τ → (∃ extra, τ.lspQ = φ.sys.lspQ ++ extra) → ∃ b, Serving W env lim calls (es, φ) b :=
    fun hs ⟨_, hx⟩ => ser (.task hs hx) rfl silent
  cases hm : φ.sys.lspQ with
  | nil => exact absurd hm hq
  | cons m q =>
    cases ht : φ.tags with
    | nil => rw [ht, hm] at hl; cases hl
    | cons t ts =>
      have room : φ.sys.wOut ≠ [] → φ.sys.lspQ.length < lspCap := by
        intro h
        have : 0 < φ.sys.wOut.length := List.length_pos_iff.mpr h
        unfold underWay at hu
        show φ.sys.lspQ.length < 50
        omega
      cases ho : φ.sys.wOut with
      | nil =>
        obtain ⟨w, hW⟩ := hne
        cases hh : s.handle env w m with
        | error p => exact ser (.panic w hw ho hm hh hW) rfl silent
        | ok x =>
          obtain ⟨s', outs, r⟩ := x
          exact ser (.process w hw ho hm ht hh hW) rfl (fun _ h => by cases h)
      | cons o r =>
        have hr := room (by rw [ho]; simp)
        cases o with
        | initialized => exact quiet (.workerSendSelf hw ho hr) ⟨_, rfl⟩
        | diag d =>
          cases ha : φ.sys.diagAlive with
          | false => exact quiet (.workerSendDiagDead hw ho ha) ⟨[], (List.append_nil _).symm⟩
          | true =>
            cases hd : φ.sys.dOut with
            | some ca => exact quiet (.diagSend ha hd hw hr) ⟨_, rfl⟩
            | none =>
              cases hdq : φ.sys.diagQ with
              | nil => exact quiet (.workerSendDiag hw ho ha (by rw [hdq]; decide)) ⟨[], (List.append_nil _).symm⟩
              | cons x xs =>
                obtain ⟨w, _⟩ := hne
                cases hp : diagProcess env w.order x with
                | error p => exact quiet (.diagPanic w.order ha hd hdq hp) ⟨[], (List.append_nil _).symm⟩
                | ok y => exact quiet (.diagRecv w.order ha hd hdq hp) ⟨[], (List.append_nil _).symm⟩

/-- the first handler that has not sent its message -/
theorem first_unsent : ∀ {hs : List Handler} {x : Handler} {m : Msg}, x ∈ hs → x.phase = .sending m →
    ∃ pre h post m', hs = pre ++ h :: post ∧ h.phase = .sending m' ∧ ∀ y ∈ pre, ∀ m'', y.phase ≠ .sending m''
  | [], _, _, hx, _ => by cases hx
  | h :: hs, x, m, hx, hp => by
    by_cases hh : ∃ m', h.phase = .sending m'
    · obtain ⟨m', hm'⟩ := hh
      exact ⟨[], h, hs, m', rfl, hm', by simp⟩
    · rcases List.mem_cons.mp hx with rfl | hx
      · exact absurd ⟨m, hp⟩ hh
      · obtain ⟨pre, h', post, m', h1, h2, h3⟩ := first_unsent hx hp
        refine ⟨h :: pre, h', post, m', by rw [h1]; rfl, h2, fun y hy m'' => ?_⟩
        rcases List.mem_cons.mp hy with rfl | hy
        · exact fun e => hh ⟨m'', e⟩
        · exact h3 y hy m''

/-- as long as a handler runs and not too much is under way, something happens -/
theorem served {W : World → Prop} {env : Env} {lim : Nat} {calls : List ClientCall} (hne : ∃ w, W w) {es : List FrontEvent} {φ : Front}
    (h : FrontRun W env lim calls es φ) (hu : underWay φ.sys ≤ 50) (hr : φ.running ≠ []) : ∃ b, Serving W env lim calls (es, φ) b := by
  obtain ⟨P, hi⟩ := h.inv
  have silent : ∀ n, FrontEvent.silent ≠ .answered n none := fun _ h => by cases h
  obtain ⟨x, hx⟩ := List.exists_mem_of_ne_nil _ hr
  cases hp : x.phase with
  | finished r =>
    obtain ⟨pre, post, he⟩ := List.append_of_mem hx
    exact ⟨(_, _), _, .answer he hp, rfl, rfl, fun _ h => by cases h⟩
  | awaiting =>
    obtain ⟨hw, m, hm, _⟩ := C106_waiting W env lim calls es φ h x hx hp
    obtain ⟨s, hs⟩ := Option.ne_none_iff_exists'.mp hw
    exact worker_goes_on lim calls hne hs (List.ne_nil_of_mem hm) hi.len hu es
  | sending m =>
    cases hw : φ.sys.worker with
    | none =>
      obtain ⟨pre, post, he⟩ := List.append_of_mem hx
      exact ⟨(_, _), _, .sendDead he hp hw, rfl, rfl, silent⟩
    | some s =>
      by_cases hq : φ.sys.lspQ.length < lspCap
      · obtain ⟨pre, h', post, m', h1, h2, h3⟩ := first_unsent hx hp
        exact ⟨(_, _), _, .send h1 h2 h3 hw hq, rfl, rfl, silent⟩
      · refine worker_goes_on lim calls hne hw ?_ hi.len hu es
        intro e
        rw [e] at hq
        exact hq (by decide)

/-- **C107** If no more calls arrive, every call gets its answer: whatever the schedule, the file system and the hash orders, and also if a task
panics, provided at most 50 messages are under way or waiting to be sent. -/
theorem C107_answered_partial (W : World → Prop) (env : Env) (hne : ∃ w, W w) (lim : Nat) (calls : List ClientCall) (es : List FrontEvent) (φ : Front)
    (h : FrontRun W env lim calls es φ) (hu : underWay φ.sys + unsent φ.running ≤ 50) :
    Leads (Serving W env lim calls) (fun b : List FrontEvent × Front => FrontRun W env lim calls b.1 b.2 ∧ b.2.running = [] ∧
      ∀ n < φ.started, (∃ r, (n, some r) ∈ answersOf b.1) ∨ (n, none) ∈ answersOf es) (es, φ) := by
  have key : ∀ (k : Nat) (es' : List FrontEvent) (ψ : Front), ψ.load = k → FrontRun W env lim calls es' ψ →
      underWay ψ.sys + unsent ψ.running ≤ 50 → ψ.started = φ.started → (∀ n, (n, none) ∈ answersOf es' → (n, none) ∈ answersOf es) →
      Leads (Serving W env lim calls) (fun b : List FrontEvent × Front => FrontRun W env lim calls b.1 b.2 ∧ b.2.running = [] ∧
        ∀ n < φ.started, (∃ r, (n, some r) ∈ answersOf b.1) ∨ (n, none) ∈ answersOf es) (es', ψ) := by
    intro k
    induction k using Nat.strongRecOn with
    | ind k ih =>
      intro es' ψ hk hrun hu' hst hold
      by_cases hr : ψ.running = []
      · refine .now ⟨hrun, hr, fun n hn => ?_⟩
        obtain ⟨_, _, h3⟩ := C106_once W env lim calls es' ψ hrun
        obtain ⟨r, h4⟩ := (h3 n (by rw [hst]; exact hn)).mpr (by rw [hr]; simp)
        cases r with
        | none => exact Or.inr (hold n h4)
        | some r => exact Or.inl ⟨r, h4⟩
      · refine .later (served hne hrun (by omega) hr) fun b hb => ?_
        obtain ⟨h1, h2⟩ := serving_load hb
        obtain ⟨es2, ψ2⟩ := b
        obtain ⟨e, hs, he, hst2, hne2⟩ := hb
        simp only at hs he hst2 h1 h2
        subst he
        refine ih _ (by rw [← hk]; exact h1) _ ψ2 rfl (hrun.step hs) (by omega) (hst2.trans hst) fun n hn => ?_
        rw [answersOf_append] at hn
        rcases List.mem_append.mp hn with hn | hn
        · exact hold n hn
        · cases e with
          | silent => cases hn
          | processed t w m => cases hn
          | answered k r =>
            rcases List.mem_cons.mp hn with hn | hn
            · cases hn
              exact absurd rfl (hne2 n)
            · cases hn
  exact key _ es φ rfl h hu rfl fun _ h => h

/-! ### A client that floods the server -/

/-- a notification that finds room in the queue -/
theorem notify {W : World → Prop} {env : Env} {lim : Nat} {calls : List ClientCall} {es : List FrontEvent} {σ : Sys} {tags : List (Option Nat)}
    {n : Nat} {s : Server} {c : ClientCall} {m : Msg} (h : FrontRun W env lim calls es ⟨σ, tags, [], n⟩) (hl : 0 < lim) (hw : σ.worker = some s)
    (hc : calls[n]? = some c) (hm : c.msg = some m) (ha : c.awaits = false) (hq : σ.lspQ.length < lspCap) :
    ∃ es', FrontRun W env lim calls es' ⟨{ σ with lspQ := σ.lspQ ++ [m] }, tags ++ [some n], [], n + 1⟩ := by
  have hst : Handler.start n c = ⟨n, c, .sending m⟩ := by simp only [Handler.start, hm]
  have hse : (⟨n, c, .sending m⟩ : Handler).sent = ⟨n, c, .finished .none⟩ := by simp [Handler.sent, ha]
  have h1 := h.step (.start (c := c) hl hc)
  simp only [hst, List.nil_append] at h1
  have h2 := h1.step (.send (pre := []) (h := ⟨n, c, .sending m⟩) (post := []) rfl rfl (by simp) hw hq)
  simp only [hse, List.nil_append] at h2
  exact ⟨_, h2.step (.answer (pre := []) (h := ⟨n, c, .finished .none⟩) (post := []) rfl rfl)⟩

/-- as many notifications as there is room for -/
theorem flood {W : World → Prop} {env : Env} {lim : Nat} {calls : List ClientCall} {s : Server} {c : ClientCall} {m : Msg} (hl : 0 < lim)
    (hm : c.msg = some m) (ha : c.awaits = false) : ∀ (k n : Nat) {es : List FrontEvent} {σ : Sys} {tags : List (Option Nat)},
    FrontRun W env lim calls es ⟨σ, tags, [], n⟩ → σ.worker = some s → (∀ i < k, calls[n + i]? = some c) → σ.lspQ.length + k ≤ 50 →
    ∃ es' tags', FrontRun W env lim calls es' ⟨{ σ with lspQ := σ.lspQ ++ List.replicate k m }, tags', [], n + k⟩
  | 0, n, es, σ, tags, h, _, _, _ => ⟨es, tags, by simpa using h⟩
  | k + 1, n, es, σ, tags, h, hw, hc, hk => by
    obtain ⟨es1, h1⟩ := notify h hl hw (hc 0 (Nat.succ_pos k)) hm ha (show σ.lspQ.length < 50 by omega)
    obtain ⟨es2, tags2, h2⟩ := flood hl hm ha k (n + 1) h1 hw (fun i hi => by
      have := hc (i + 1) (Nat.succ_lt_succ hi)
      rwa [show n + (i + 1) = n + 1 + i by omega] at this) (by simp only [List.length_append, List.length_singleton]; omega)
    refine ⟨es2, tags2, ?_⟩
    rw [show n + (k + 1) = n + 1 + k by omega, List.replicate_succ]
    simpa using h2

/-- **C107 is false for clients that send too much**: the client asks for a reset and, while the worker is about to begin, sends 50 notifications;
the next request is never answered: nothing happens any more, unless it is cancelled. -/
theorem C107_flood_refuted (W : World → Prop) (env : Env) (hne : ∃ w, W w) (lim : Nat) (hl : 0 < lim) (uri : Str) (pos : Position) :
    ∃ calls es φ x, FrontRun W env lim calls es φ ∧ φ.sys.worker ≠ none ∧ φ.started = calls.length ∧
      x ∈ φ.running ∧ x.call = .hover uri pos ∧ ¬ ∃ b, Serving W env lim calls (es, φ) b := by
  obtain ⟨w, hW⟩ := hne
  let reset : ClientCall := .executeCommand c!"reset_variables"
  let calls : List ClientCall := reset :: (List.replicate 50 (.didSave uri) ++ [.hover uri pos])
  obtain ⟨es1, h1⟩ := notify (W := W) (env := env) (calls := calls) (c := reset) (m := .executeCommand c!"reset_variables") (s := Server.init)
    (n := 0) (σ := Sys.init) (tags := []) (es := []) .init hl rfl rfl rfl rfl (by decide)
  have h2 := h1.step (.process (s := Server.init) (s' := Server.init) (outs := [.initialized]) (r := .none) (q := []) (t := some 0) (ts := [])
    (m := .executeCommand c!"reset_variables") w rfl rfl rfl rfl (by simp [Server.handle]) hW)
  obtain ⟨es3, tags3, h3⟩ := flood (W := W) (env := env) (calls := calls) (c := .didSave uri) (m := .didSave uri) (s := Server.init) hl rfl rfl
    50 1 (σ := { Sys.init with wOut := [.initialized] }) h2 rfl (by
      intro i hi
      rw [show 1 + i = i + 1 by omega]
      show (reset :: (List.replicate 50 (.didSave uri) ++ [.hover uri pos]))[i + 1]? = _
      rw [List.getElem?_cons_succ, List.getElem?_append_left (by simpa using hi), List.getElem?_replicate, if_pos hi]) (by decide)
  have h4 := h3.step (.start (c := .hover uri pos) hl rfl)
  refine ⟨calls, _, _, Handler.start 51 (.hover uri pos), h4, fun h => (by cases h), rfl, List.mem_cons_self, rfl, ?_⟩
  rintro ⟨⟨es', ψ⟩, e, hs, -, hst, hne⟩
  have hno : ¬ ∃ τ, Alone W env { Sys.init with wOut := [.initialized], lspQ := Sys.init.lspQ ++ List.replicate 50 (.didSave uri) } τ := by
    refine (C87_end W env ⟨w, hW⟩ _ _ rfl rfl).mpr (.inr ⟨.inl ⟨⟨[], rfl⟩, by simp [Sys.init], fun _ => rfl⟩, ?_⟩)
    intro t ht
    cases ht
  simp only at hs hst
  cases hs with
  | start _ _ => simp at hst
  | send _ _ _ _ hq => simp [Sys.init, lspCap] at hq
  | sendDead _ _ hw => cases hw
  | process _ _ ho _ _ _ _ => cases ho
  | panic _ _ ho _ _ _ => cases ho
  | task hs _ => exact hno ⟨_, .task hs⟩
  | delayed hs hw ht hτ _ => exact hno ⟨_, .delayed hs hw ht hτ⟩
  | answer hr hp =>
    rename_i pre post x r
    have : x = Handler.start 51 (.hover uri pos) := by
      have hx : x ∈ pre ++ x :: post := List.mem_append_right _ List.mem_cons_self
      rw [← hr] at hx
      simpa using hx
    subst this
    cases hp
  | cancel _ _ => exact absurd rfl (hne _)

theorem Spec.Leads.mono {α : Type _} {step : α → α → Prop} {P Q : α → Prop} (hPQ : ∀ a, P a → Q a) {a : α} (h : Leads step P a) : Leads step Q a := by
  induction h with
  | now hb => exact .now (hPQ _ hb)
  | later hx _ ih => exact .later hx ih

/-- not vacuous: with a waiting hover request, every schedule answers it -/
example : ∃ es φ, FrontRun (fun _ => True) Fix.apartEnv 4 Fix.frontCalls es φ ∧ φ.running ≠ [] ∧
    Leads (Serving (fun _ => True) Fix.apartEnv 4 Fix.frontCalls) (fun b => ∃ r, (2, some r) ∈ answersOf b.1) (es, φ) := by
  obtain ⟨es, h, ha⟩ := Fix.front_start
  refine ⟨es, _, h, by simp, ?_⟩
  refine (C107_answered_partial (fun _ => True) Fix.apartEnv ⟨Fix.rootWorld, trivial⟩ 4 Fix.frontCalls es _ h (by decide)).mono fun b hb => ?_
  obtain ⟨_, _, h3⟩ := hb
  rcases h3 2 (by decide) with h4 | h4
  · exact h4
  · rw [ha] at h4
    simp at h4

end JinjaLsp
