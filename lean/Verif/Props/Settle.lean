import Verif.Props.Quiet
import Verif.Props.Deadlock
import Verif.Props.Answers
/-
  C87: left alone, the server comes to rest.
-/

namespace JinjaLsp
open Spec

namespace Spec

/-- a step of the process without the client: of one of the two tasks, or a delay is over -/
inductive Alone (W : World → Prop) (env : Env) : Sys → Sys → Prop where
  | task {σ τ : Sys} (h : TaskStepIn W env σ τ) : Alone W env σ τ
  | delayed {σ τ : Sys} {s : Server} {t : Timer} (h : EnvStep σ τ) (hw : σ.worker = some s) (ht : t ∈ s.timers)
      (hτ : τ.worker = some { s with timers := s.timers.erase t }) : Alone W env σ τ

/-- `n` such steps -/
inductive AloneFor (W : World → Prop) (env : Env) : Nat → Sys → Sys → Prop where
  | zero (σ : Sys) : AloneFor W env 0 σ σ
  | succ {n : Nat} {σ τ υ : Sys} (h : AloneFor W env n σ τ) (h' : Alone W env τ υ) : AloneFor W env (n + 1) σ υ

/-- whatever happens, `P` holds at some time -/
inductive Eventually (R : Sys → Sys → Prop) (P : Sys → Prop) : Sys → Prop where
  | now {σ : Sys} (h : P σ) : Eventually R P σ
  | later {σ : Sys} (h : ∃ τ, R σ τ) (h' : ∀ τ, R σ τ → Eventually R P τ) : Eventually R P σ

/-- the delayed tasks that have not expired -/
def delays (σ : Sys) : Nat :=
  match σ.worker with
  | none => 0
  | some s => s.timers.length

/-- what is under way: messages in the two queues, being sent, and delayed -/
def underWay (σ : Sys) : Nat := σ.lspQ.length + σ.wOut.length + σ.diagQ.length + (if σ.dOut = none then 0 else 1) + delays σ

end Spec

/-- how many steps a message can cause -/
def Msg.load : Msg → Nat
  | .codeActions _ => 1
  | .didSave _ => 5
  | .initialized => 5
  | _ => 7

def Send.load : Send → Nat
  | .diag _ => 4
  | .initialized => 6

def outLoad (dOut : Option (HMap Str (List Identifier))) : Nat :=
  match dOut with
  | none => 0
  | some _ => 2

def Sys.load (σ : Sys) : Nat :=
  6 * delays σ + (σ.lspQ.map Msg.load).sum + (σ.wOut.map Send.load).sum + 3 * σ.diagQ.length + outLoad σ.dOut + (if σ.diagAlive then 1 else 0)

theorem sends_load (m : Option (HMap Str Diags)) : ((Server.sends m).map Send.load).sum ≤ 4 ∧ (Server.sends m).length ≤ 1 := by
  cases m <;> simp [Server.sends, Send.load]

/-- a message causes at most one other -/
theorem handle_load {env : Env} {w : World} {s s' : Server} {m : Msg} {outs : List Send} {r : Reply}
    (h : s.handle env w m = .ok (s', outs, r)) :
    (outs.map Send.load).sum + 6 * s'.timers.length < m.load + 6 * s.timers.length ∧ outs.length + s'.timers.length ≤ 1 + s.timers.length := by
  cases m with
  | «initialize» c o => simp only [Server.handle, Except.ok.injEq, Prod.mk.injEq] at h; obtain ⟨rfl, rfl, _⟩ := h; simp [Server.onInitialize, Msg.load]
  | initialized =>
    simp only [Server.handle] at h
    split at h
    · cases h
    · rename_i x s1 out hi
      simp only [Except.ok.injEq, Prod.mk.injEq] at h
      obtain ⟨rfl, rfl, _⟩ := h
      unfold Server.onInitialized at hi
      split at hi
      · split at hi
        · cases hi
        · simp only [Except.ok.injEq, Prod.mk.injEq] at hi; obtain ⟨rfl, rfl⟩ := hi; simp [Msg.load]
        · simp only [Except.ok.injEq, Prod.mk.injEq] at hi; obtain ⟨rfl, rfl⟩ := hi; simp [Msg.load, Send.load]
      · simp only [Except.ok.injEq, Prod.mk.injEq] at hi; obtain ⟨rfl, rfl⟩ := hi; simp [Msg.load]
  | didChange uri chs =>
    simp only [Server.handle] at h
    split at h
    · cases h
    · rename_i x s1 hi
      simp only [Except.ok.injEq, Prod.mk.injEq] at h
      obtain ⟨rfl, rfl, _⟩ := h
      unfold Server.onDidChange at hi
      split at hi
      · cases hi
      · simp only [Except.ok.injEq] at hi; subst hi; simp [Msg.load]
      · simp only [Except.ok.injEq] at hi
        subst hi
        have := List.length_filter_le (fun t : Timer => decide (s.files.diagnosticsTask ≠ some t.handle)) s.timers
        simp only [List.map_nil, List.sum_nil, List.length_append, List.length_singleton, List.length_nil, Msg.load]
        omega
  | didSave uri =>
    simp only [Server.handle] at h
    split at h
    · cases h
    · rename_i x f m hi
      simp only [Except.ok.injEq, Prod.mk.injEq] at h
      obtain ⟨rfl, rfl, _⟩ := h
      have := sends_load m
      simp only [Msg.load]
      omega
  | didOpen uri text =>
    simp only [Server.handle] at h
    split at h
    · cases h
    · rename_i x f m hi
      simp only [Except.ok.injEq, Prod.mk.injEq] at h
      obtain ⟨rfl, rfl, _⟩ := h
      have := sends_load m
      simp only [Msg.load]
      omega
  | completion uri pos tr =>
    simp only [Server.handle] at h
    split at h
    · cases h
    · simp only [Except.ok.injEq, Prod.mk.injEq] at h; obtain ⟨rfl, rfl, _⟩ := h; simp [Msg.load]
  | hover uri pos =>
    simp only [Server.handle] at h
    split at h
    · cases h
    · simp only [Except.ok.injEq, Prod.mk.injEq] at h; obtain ⟨rfl, rfl, _⟩ := h; simp [Msg.load]
  | goto uri pos =>
    simp only [Server.handle] at h
    split at h
    · cases h
    · simp only [Except.ok.injEq, Prod.mk.injEq] at h; obtain ⟨rfl, rfl, _⟩ := h; simp [Msg.load]
  | codeAction uri start =>
    simp only [Server.handle] at h
    split at h
    · cases h
    · rename_i x s1 items hi
      simp only [Except.ok.injEq, Prod.mk.injEq] at h
      obtain ⟨rfl, rfl, _⟩ := h
      unfold Server.onCodeAction at hi
      split at hi
      · cases hi
      · simp only [Except.ok.injEq, Prod.mk.injEq] at hi; obtain ⟨rfl, rfl⟩ := hi; simp [Msg.load]
      · split at hi
        · cases hi
        · simp only [Except.ok.injEq, Prod.mk.injEq] at hi; obtain ⟨rfl, rfl⟩ := hi; simp [Msg.load]
        · simp only [Except.ok.injEq, Prod.mk.injEq] at hi
          obtain ⟨rfl, rfl⟩ := hi
          simp only [List.map_nil, List.sum_nil, List.length_append, List.length_singleton, List.length_nil, Msg.load]
          omega
  | executeCommand c =>
    simp only [Server.handle, Except.ok.injEq, Prod.mk.injEq] at h
    obtain ⟨rfl, rfl, _⟩ := h
    split <;> simp [Msg.load, Send.load]
  | documentSymbol uri => simp only [Server.handle, Except.ok.injEq, Prod.mk.injEq] at h; obtain ⟨rfl, rfl, _⟩ := h; simp [Msg.load]
  | didChangeConfiguration o =>
    simp only [Server.handle, Except.ok.injEq, Prod.mk.injEq] at h
    obtain ⟨rfl, rfl, _⟩ := h
    dsimp only
    split
    · simp [Msg.load, Send.load]
    · split <;> simp [Msg.load, Send.load]
  | codeActions m => simp only [Server.handle, Except.ok.injEq, Prod.mk.injEq] at h; obtain ⟨rfl, rfl, _⟩ := h; simp [Msg.load]

theorem delays_some {σ : Sys} {s : Server} (h : σ.worker = some s) : delays σ = s.timers.length := by simp [delays, h]
theorem delays_none {σ : Sys} (h : σ.worker = none) : delays σ = 0 := by simp [delays, h]

theorem Msg.load_pos (m : Msg) : 0 < m.load := by cases m <;> simp [Msg.load]

/-- a delay that is over -/
theorem expired {σ τ : Sys} {s : Server} {t : Timer} (h : EnvStep σ τ) (hw : σ.worker = some s) (ht : t ∈ s.timers)
    (hτ : τ.worker = some { s with timers := s.timers.erase t }) :
    delays τ + 1 = delays σ ∧ τ.wOut = σ.wOut ∧ τ.diagQ = σ.diagQ ∧ τ.dOut = σ.dOut ∧ τ.diagAlive = σ.diagAlive ∧
      (τ.lspQ = σ.lspQ ∨ ∃ u, τ.lspQ = σ.lspQ ++ [.didSave u]) := by
  have hd : delays τ + 1 = delays σ := by
    rw [delays_some hτ, delays_some hw]
    have := List.length_erase_of_mem ht
    have := List.length_pos_of_mem ht
    simp only
    omega
  cases h with
  | client m hm hw' hc => exfalso; simp only [delays] at hd; omega
  | clientDead hw' => rw [hw] at hw'; cases hw'
  | timer hw' ht' hl hc => exact ⟨hd, rfl, rfl, rfl, rfl, .inr ⟨_, rfl⟩⟩
  | timerMute hw' ht' hl => exact ⟨hd, rfl, rfl, rfl, rfl, .inl rfl⟩

/-- every step without the client uses up some load, and no more gets under way -/
theorem alone_load {W : World → Prop} {env : Env} {σ τ : Sys} (h : Alone W env σ τ) : τ.load < σ.load ∧ underWay τ ≤ underWay σ := by
  cases h with
  | delayed h hw ht hτ =>
    obtain ⟨h1, h2, h3, h4, h5, h6⟩ := expired h hw ht hτ
    unfold Sys.load underWay
    rw [h2, h3, h4, h5]
    rcases h6 with h6 | ⟨u, h6⟩ <;> rw [h6]
    · omega
    · simp only [List.map_append, List.sum_append, List.map_cons, List.map_nil, List.sum_cons, List.sum_nil, Msg.load, List.length_append,
        List.length_singleton]
      omega
  | task h =>
    cases h with
    | workerRecv w hw ho hq hh hW =>
      obtain ⟨h1, h2⟩ := handle_load hh
      unfold Sys.load underWay
      rw [delays_some hw, ho, hq]
      simp only [delays, List.map_cons, List.sum_cons, List.length_cons, List.map_nil, List.sum_nil, List.length_nil]
      omega
    | workerPanic w hw ho hq hh hW =>
      rename_i m q p
      have := Msg.load_pos m
      unfold Sys.load underWay
      rw [delays_some hw, ho, hq]
      simp only [delays, List.map_cons, List.sum_cons, List.length_cons, List.map_nil, List.sum_nil, List.length_nil]
      omega
    | workerSendDiag hw ho ha hc =>
      unfold Sys.load underWay
      rw [ho]
      simp only [delays, hw, List.map_cons, List.sum_cons, List.length_cons, List.length_append, List.length_nil, Send.load]
      omega
    | workerSendDiagDead hw ho ha =>
      unfold Sys.load underWay
      rw [ho]
      simp only [delays, hw, List.map_cons, List.sum_cons, List.length_cons, Send.load]
      omega
    | workerSendSelf hw ho hc =>
      unfold Sys.load underWay
      rw [ho]
      simp only [delays, hw, List.map_append, List.sum_append, List.map_cons, List.map_nil, List.sum_cons, List.sum_nil, List.length_cons,
        List.length_append, List.length_nil, Send.load, Msg.load]
      omega
    | diagRecv o ha hd hq hp =>
      unfold Sys.load underWay
      rw [hd, hq]
      simp only [delays, outLoad, List.length_cons, reduceCtorEq, if_false, if_true]
      omega
    | diagPanic o ha hd hq hp =>
      unfold Sys.load underWay
      rw [ha, hq]
      simp only [delays, List.length_cons, List.length_nil, if_true, Bool.false_eq_true, if_false]
      omega
    | diagSend ha hd hw hc =>
      unfold Sys.load underWay
      rw [hd]
      simp only [delays, hw, outLoad, List.map_append, List.sum_append, List.map_cons, List.map_nil, List.sum_cons, List.sum_nil,
        List.length_append, List.length_cons, List.length_nil, Msg.load, reduceCtorEq, if_false, if_true]
      omega
    | diagSendDead ha hd hw =>
      unfold Sys.load underWay
      rw [hd]
      simp only [delays, outLoad, reduceCtorEq, if_false, if_true]
      omega
    | diagStop ha hd hq hw =>
      unfold Sys.load underWay
      rw [ha]
      simp only [delays, Bool.false_eq_true, if_false, if_true]
      omega

theorem load_le (σ : Sys) : σ.load ≤ 7 * underWay σ + 1 := by
  have h1 : ∀ q : List Msg, (q.map Msg.load).sum ≤ 7 * q.length := by
    intro q
    induction q with
    | nil => simp
    | cons m q ih =>
      have : m.load ≤ 7 := by cases m <;> simp [Msg.load]
      simp only [List.map_cons, List.sum_cons, List.length_cons]; omega
  have h2 : ∀ q : List Send, (q.map Send.load).sum ≤ 7 * q.length := by
    intro q
    induction q with
    | nil => simp
    | cons m q ih =>
      have : m.load ≤ 7 := by cases m <;> simp [Send.load]
      simp only [List.map_cons, List.sum_cons, List.length_cons]; omega
  have := h1 σ.lspQ
  have := h2 σ.wOut
  unfold Sys.load underWay
  have h3 : outLoad σ.dOut ≤ 7 * (if σ.dOut = none then 0 else 1) := by cases σ.dOut <;> simp [outLoad]
  have h4 : (if σ.diagAlive then 1 else 0) ≤ 1 := by split <;> omega
  omega

/-- **C87** (it ends) Without the client the process takes at most seven steps for each message that is in a queue, being sent or delayed, and one
more: for every schedule, file system and hash order. -/
theorem C87_bounded (W : World → Prop) (env : Env) (n : Nat) (σ τ : Sys) (h : AloneFor W env n σ τ) : n ≤ 7 * underWay σ + 1 := by
  have : n + τ.load ≤ σ.load := by
    induction h with
    | zero => omega
    | succ h h' ih => have := (alone_load h').1; omega
  have := load_le σ
  omega

/-- **C87** (no deadlock) From at most 50 messages under way, neither of the two deadlocks of C53 is reached without the client. -/
theorem C87_no_deadlock (W : World → Prop) (env : Env) (n : Nat) (σ τ : Sys) (h : AloneFor W env n σ τ) (hn : underWay σ ≤ 50) :
    ¬ SelfDeadlock τ ∧ ¬ MutualDeadlock τ := by
  have h1 : underWay τ ≤ underWay σ := by
    clear hn
    induction h with
    | zero => omega
    | succ h h' ih => have := (alone_load h').2; omega
  unfold underWay at h1
  unfold underWay at hn
  constructor
  · rintro ⟨⟨r, e⟩, h2, _⟩
    rw [e, List.length_cons] at h1
    omega
  · rintro ⟨⟨m, r, e⟩, h2, _, h3⟩
    rw [e, List.length_cons] at h1
    omega

/-! ### What the end looks like -/

/-- with some world to work in, a task that can take a step can take one in it -/
theorem step_in {W : World → Prop} {env : Env} {σ τ : Sys} (hne : ∃ w, W w) (h : TaskStep env σ τ) : ∃ υ, TaskStepIn W env σ υ := by
  obtain ⟨w, hW⟩ := hne
  have recv : ∀ {s : Server} {m : Msg} {q : List Msg}, σ.worker = some s → σ.wOut = [] → σ.lspQ = m :: q → ∃ υ, TaskStepIn W env σ υ := by
    intro s m q hw ho hq
    cases hh : s.handle env w m with
    | error p => exact ⟨_, .workerPanic w hw ho hq hh hW⟩
    | ok x => obtain ⟨s', o, r⟩ := x; exact ⟨_, .workerRecv w hw ho hq hh hW⟩
  cases h with
  | workerRecv _ hw ho hq => exact recv hw ho hq
  | workerPanic _ hw ho hq => exact recv hw ho hq
  | workerSendDiag hw ho ha hc => exact ⟨_, .workerSendDiag hw ho ha hc⟩
  | workerSendDiagDead hw ho ha => exact ⟨_, .workerSendDiagDead hw ho ha⟩
  | workerSendSelf hw ho hc => exact ⟨_, .workerSendSelf hw ho hc⟩
  | diagRecv o ha hd hq hp => exact ⟨_, .diagRecv o ha hd hq hp⟩
  | diagPanic o ha hd hq hp => exact ⟨_, .diagPanic o ha hd hq hp⟩
  | diagSend ha hd hw hc => exact ⟨_, .diagSend ha hd hw hc⟩
  | diagSendDead ha hd hw => exact ⟨_, .diagSendDead ha hd hw⟩
  | diagStop ha hd hq hw => exact ⟨_, .diagStop ha hd hq hw⟩

/-- a delay can be over whenever the queue has room -/
theorem delay_over {W : World → Prop} {env : Env} {σ : Sys} {s : Server} {t : Timer} (hw : σ.worker = some s) (ht : t ∈ s.timers)
    (hc : σ.lspQ.length < 50) : ∃ τ, Alone W env σ τ := by
  cases hl : t.live with
  | true => exact ⟨_, .delayed (.timer hw ht hl hc) hw ht rfl⟩
  | false => exact ⟨_, .delayed (.timerMute hw ht hl) hw ht rfl⟩

/-- **C87** (how it ends) While both tasks live, nothing more can happen without the client exactly if everything is done and no delay is running,
or in one of the two deadlocks of C53 with delayed messages, if any, waiting for room in the full queue as well. -/
theorem C87_end (W : World → Prop) (env : Env) (hne : ∃ w, W w) (σ : Sys) (s : Server) (hw : σ.worker = some s) (ha : σ.diagAlive = true) :
    (¬ ∃ τ, Alone W env σ τ) ↔
      (AtRest σ s ∧ σ.dOut = none) ∨ ((SelfDeadlock σ ∨ MutualDeadlock σ) ∧ ∀ t ∈ s.timers, t.live = true) := by
  have hn : σ.worker ≠ none := by rw [hw]; simp
  constructor
  · intro h
    have hst : Stuck env σ := fun ⟨τ, hτ⟩ => h ((step_in hne hτ).imp fun _ hυ => .task hυ)
    rcases (C53_stuck_iff env σ hn ha).mp hst with hi | hd
    · obtain ⟨h1, h2, h3, h4⟩ := hi
      refine .inl ⟨⟨hw, h2, h1, h4, ?_⟩, h3⟩
      cases ht : s.timers with
      | nil => rfl
      | cons t ts => exact absurd (delay_over hw (ht ▸ List.mem_cons_self) (by rw [h2]; decide)) h
    · refine .inr ⟨hd, fun t ht => ?_⟩
      cases hl : t.live with
      | true => rfl
      | false => exact absurd ⟨_, .delayed (.timerMute hw ht hl) hw ht rfl⟩ h
  · rintro h ⟨τ, hτ⟩
    cases hτ with
    | task ht =>
      refine (C53_stuck_iff env σ hn ha).mpr ?_ ⟨τ, ht.weaken fun _ _ => trivial⟩
      rcases h with ⟨h1, h2⟩ | ⟨h1, _⟩
      · exact .inl ⟨h1.out, h1.queue, h2, h1.results⟩
      · exact .inr h1
    | delayed he hw1 ht1 hτ1 =>
      rw [hw] at hw1
      cases hw1
      have hlen := List.length_erase_of_mem ht1
      have hpos := List.length_pos_of_mem ht1
      rcases h with ⟨h1, h2⟩ | ⟨h1, h2⟩
      · rw [h1.delays] at ht1; cases ht1
      · have hq : 50 ≤ σ.lspQ.length := h1.elim (·.2.1) (·.2.2.2)
        cases he with
        | client m hm hw' hc => simp only [lspCap] at hc; omega
        | clientDead hw' => exact hn hw'
        | timer hw' ht' hl hc => simp only [lspCap] at hc; omega
        | timerMute hw' ht' hl =>
          rw [hw] at hw'
          cases hw'
          have := h2 _ ht'
          rw [hl] at this
          cases this

/-- **C87** (whatever the tasks do) From at most 50 messages under way, without the client, and whatever the schedule, the file system and the
order of hash maps: at some time the process is at rest, unless one of its tasks has died by then. -/
theorem C87_eventually (W : World → Prop) (env : Env) (hne : ∃ w, W w) (σ : Sys) (hn : underWay σ ≤ 50) :
    Eventually (Alone W env) (fun τ => τ.worker = none ∨ τ.diagAlive = false ∨ ∃ s, AtRest τ s ∧ τ.dOut = none) σ := by
  generalize hk : σ.load = k
  induction k using Nat.strongRecOn generalizing σ with
  | ind k ih =>
    by_cases hP : σ.worker = none ∨ σ.diagAlive = false ∨ ∃ s, AtRest σ s ∧ σ.dOut = none
    · exact .now hP
    · have hw : σ.worker ≠ none := fun e => hP (.inl e)
      obtain ⟨s, hs⟩ := Option.ne_none_iff_exists'.mp hw
      have ha : σ.diagAlive = true := by
        cases e : σ.diagAlive with
        | true => rfl
        | false => exact absurd (.inr (.inl e)) hP
      refine .later (Classical.byContradiction fun h => ?_) fun τ hτ => ?_
      · rcases (C87_end W env hne σ s hs ha).mp h with h | ⟨h, _⟩
        · exact hP (.inr (.inr ⟨s, h⟩))
        · obtain ⟨h1, h2⟩ := C87_no_deadlock W env 0 σ σ (.zero σ) hn
          exact h.elim h1 h2
      · obtain ⟨h1, h2⟩ := alone_load hτ
        exact ih _ (hk ▸ h1) τ (Nat.le_trans h2 hn) rfl

theorem Spec.Eventually.mono {R : Sys → Sys → Prop} {P Q : Sys → Prop} {σ : Sys} (h : Eventually R P σ) (hPQ : ∀ τ, P τ → Q τ) :
    Eventually R Q σ := by
  induction h with
  | now h => exact .now (hPQ _ h)
  | later h h' ih => exact .later h ih

/-- executions go on without the client -/
theorem Spec.Execution.alone {W : World → Prop} {env : Env} {cs : List Msg} {as : List (HMap Str Diags)} {σ τ : Sys}
    (h : Execution W env cs as σ) (ha : Alone W env σ τ) : ∃ new, Execution W env cs (as ++ new) τ := by
  cases ha with
  | task hs => exact ⟨_, h.task hs⟩
  | delayed hs hw ht hτ => exact ⟨[], by simpa using h.delayed hs hw ht hτ⟩

/-- **C87** (settles) In a session of plain edits (C68), whenever the client falls silent with at most 50 messages under way, the process comes
to rest, whatever happens: both tasks live, all queues are empty, nothing is being sent and no delay is running. -/
theorem C87_settles {W : World → Prop} (hne : ∃ w, W w) (hO : ∀ w, W w → Orderly w) (env : Env) (he : Sound env) (cs : List Msg)
    (as : List (HMap Str Diags)) (σ : Sys) (h : Execution W env cs as σ) (hc : ∀ m ∈ cs, Proper env m) (E : Editor)
    (hE : Editing (fun _ => none) cs E) (hn : underWay σ ≤ 50) :
    Eventually (Alone W env) (fun τ => ∃ new s, Execution W env cs (as ++ new) τ ∧ AtRest τ s ∧ τ.dOut = none ∧ τ.diagAlive = true) σ := by
  generalize hk : σ.load = k
  induction k using Nat.strongRecOn generalizing σ as with
  | ind k ih =>
    obtain ⟨ha, s, hs, _⟩ := C68_in_step env he cs as σ (h.weaken hO) hc E hE
    by_cases hr : AtRest σ s ∧ σ.dOut = none
    · exact .now ⟨[], s, by simpa using h, hr.1, hr.2, ha⟩
    · refine .later (Classical.byContradiction fun h' => ?_) fun τ hτ => ?_
      · rcases (C87_end W env hne σ s hs ha).mp h' with h' | ⟨h', _⟩
        · exact hr h'
        · obtain ⟨h1, h2⟩ := C87_no_deadlock W env 0 σ σ (.zero σ) hn
          exact h'.elim h1 h2
      · obtain ⟨h1, h2⟩ := alone_load hτ
        obtain ⟨new, hx⟩ := h.alone hτ
        refine (ih _ (hk ▸ h1) (as ++ new) τ hx (Nat.le_trans h2 hn) rfl).mono ?_
        rintro υ ⟨n2, s2, hp⟩
        exact ⟨new ++ n2, s2, by rw [← List.append_assoc]; exact hp.1, hp.2⟩

/-! ### What is reached -/

/-- once the workspace was loaded it stays loaded -/
theorem handle_loaded {env : Env} {w : World} {s s' : Server} {m : Msg} {o : List Send} {r : Reply} (h : s.handle env w m = .ok (s', o, r))
    (hm : s.files.mainChannel = true) : s'.files.mainChannel = true := by
  have hf := handle_files h
  clear h
  cases hf with
  | query _ h => rw [h, hm]
  | command _ h => rw [h, hm]
  | config _ h => rw [h, hm]
  | «initialize» _ _ h => rcases h with h | h <;> rw [h] <;> exact hm
  | codeActions m h => rw [h, (addCodeActions_frame w.order s.files m).2.2.2.1.chan, hm]
  | didOpen _ _ _ h => rw [(Frame.didOpen h).conf.chan, hm]
  | didSave _ _ h => rw [(Frame.didSave h).conf.chan, hm]
  | didChange _ _ _ h => rw [(Frame.didChange h).conf.chan, hm]
  | notInitialized h => rw [h, hm]
  | initialized _ _ _ h => rw [h]

theorem alone_loaded {W : World → Prop} {env : Env} {σ τ : Sys} (h : Alone W env σ τ)
    (hm : ∀ s, σ.worker = some s → s.files.mainChannel = true) : ∀ s, τ.worker = some s → s.files.mainChannel = true := by
  intro s hs
  cases h with
  | delayed he hw ht hτ => have := hm _ hw; rw [hτ] at hs; cases hs; exact this
  | task h =>
    cases h with
    | workerRecv w hw ho hq hh hW => cases hs; exact handle_loaded hh (hm _ hw)
    | workerPanic w hw ho hq hh hW => cases hs
    | _ => exact hm s hs

/-- an invariant of the steps holds at the end as well -/
theorem Spec.Eventually.keeps {R : Sys → Sys → Prop} {P I : Sys → Prop} {σ : Sys} (h : Eventually R P σ) (hI : ∀ σ τ, R σ τ → I σ → I τ)
    (h0 : I σ) : Eventually R (fun τ => P τ ∧ I τ) σ := by
  induction h with
  | now h => exact .now ⟨h, h0⟩
  | later h h' ih => exact .later h fun τ hτ => ih τ hτ (hI _ _ hτ h0)

/-- **C87** (the editor catches up) The workspace was loaded, and the last change of the text was made to the supported document `u` (C69). If
then the client falls silent with at most 50 messages under way, the list of diagnostics that `u` shows becomes that of the text of the editor,
whatever happens. -/
theorem C87_shown {W : World → Prop} (hne : ∃ w, W w) (hO : ∀ w, W w → Orderly w) (env : Env) (he : Sound env) (hu : NormalUrls env)
    (cs : List Msg) (as : List (HMap Str Diags)) (σ : Sys) (h : Execution W env cs as σ) (u : Str) (E : Editor)
    (ht : StoppedTyping env cs u E) (hm : ∀ s, σ.worker = some s → s.files.mainChannel = true) (hn : underWay σ ≤ 50) :
    Eventually (Alone W env) (fun τ => ∃ new s, Execution W env cs (as ++ new) τ ∧ AtRest τ s ∧ τ.dOut = none ∧
      (SmallResults (as ++ new) → ∃ t l old w ds, E u = some t ∧ s.files.documents.get? u = some t ∧ fileExt u = some l ∧
        (s.files.trees l).get? u = some (.parsed (s.files.grammar l) t old) ∧ W w ∧
        (s.files.readTree env w u = .ok (some ds) ∨ s.files.readTree env w u = .ok none ∧ ds = []) ∧
        (τ.published.filter fun p => p.1 = u).getLast? = some (u, (ds.map report).map shown))) σ := by
  refine ((C87_settles hne hO env he cs as σ h ht.proper E ht.edits hn).keeps (fun _ _ => alone_loaded) hm).mono ?_
  rintro τ ⟨⟨new, s, h1, h2, h3, _⟩, h4⟩
  exact ⟨new, s, h1, h2, h3, fun hs => C69_shown hO env he hu cs (as ++ new) τ s h1 hs u E ht h2 (h4 s h2.worker)⟩

/-- sessions go on without the client, as long as the worker lives -/
theorem Spec.Session.alone {W : World → Prop} {env : Env} {cs E q rs} {σ τ : Sys} (h : Session W env cs E q rs σ) (ha : Alone W env σ τ)
    (hl : τ.worker ≠ none) : ∃ q' new, Session W env cs E q' (rs ++ new) τ := by
  have same : ∀ {new : List Msg}, TaskStepIn W env σ τ → τ.lspQ = σ.lspQ ++ new → ∃ q' new, Session W env cs E q' (rs ++ new) τ :=
    fun hs hn => ⟨_, [], by simpa using h.task hs hn⟩
  cases ha with
  | delayed hs hw ht hτ =>
    obtain ⟨_, _, _, _, _, h6⟩ := expired hs hw ht hτ
    rcases h6 with h6 | ⟨u, h6⟩
    · exact ⟨_, [], by simpa using h.delayed (new := []) hs hw ht hτ (by simp [h6])⟩
    · exact ⟨_, [], by simpa using h.delayed hs hw ht hτ h6⟩
  | task hs =>
    cases hs with
    | workerRecv w hw ho hq hh hW =>
      have h2 := h.execution.2.1
      rw [hq] at h2
      cases q with
      | nil => cases h2
      | cons a q =>
        obtain ⟨m', A⟩ := a
        simp only [List.map_cons, List.cons.injEq] at h2
        obtain ⟨rfl, rfl⟩ := h2
        exact ⟨q, _, .answer w h hw ho hh hW⟩
    | workerPanic w hw ho hq hh hW => exact absurd rfl hl
    | workerSendDiag hw ho ha hc => exact same (new := []) (.workerSendDiag hw ho ha hc) (by simp)
    | workerSendDiagDead hw ho ha => exact same (new := []) (.workerSendDiagDead hw ho ha) (by simp)
    | workerSendSelf hw ho hc => exact same (.workerSendSelf hw ho hc) rfl
    | diagRecv o ha hd hq hp => exact same (new := []) (.diagRecv o ha hd hq hp) (by simp)
    | diagPanic o ha hd hq hp => exact same (new := []) (.diagPanic o ha hd hq hp) (by simp)
    | diagSend ha hd hw hc => exact same (.diagSend ha hd hw hc) rfl
    | diagSendDead ha hd hw => exact same (new := []) (.diagSendDead ha hd hw) (by simp)
    | diagStop ha hd hq hw => exact same (new := []) (.diagStop ha hd hq hw) (by simp)

/-- **C87** (every request is answered) In a session of plain edits, if the client falls silent with at most 50 messages under way, then at some
time, whatever happens, every message it has sent is answered: the messages answered are those it sent, in order, with messages the server sent to
itself in between, and the answers given before stay as they were. -/
theorem C87_answered {W : World → Prop} (hne : ∃ w, W w) (hO : ∀ w, W w → Orderly w) (env : Env) (he : Sound env) (cs : List Msg) (E : Editor)
    (q : List (Msg × Editor)) (rs : List (Msg × Editor × Reply)) (σ : Sys) (h : Session W env cs E q rs σ) (hc : ∀ m ∈ cs, Proper env m)
    (hn : underWay σ ≤ 50) :
    Eventually (Alone W env) (fun τ => ∃ new is, Session W env cs E [] (rs ++ new) τ ∧ Merge cs is ((rs ++ new).map Prod.fst) ∧
      ∀ i ∈ is, internal i) σ := by
  generalize hk : σ.load = k
  induction k using Nat.strongRecOn generalizing σ q rs with
  | ind k ih =>
    obtain ⟨⟨as, hx⟩, hq, hE⟩ := h.execution
    obtain ⟨ha, s, hs, _⟩ := C68_in_step env he cs as σ (hx.weaken hO) hc E hE
    by_cases hr : q = []
    · subst hr
      obtain ⟨is, h1, h2⟩ := C79_order h
      exact .now ⟨[], is, by simpa using h, by simpa using h1, h2⟩
    · refine .later (Classical.byContradiction fun h' => ?_) fun τ hτ => ?_
      · rcases (C87_end W env hne σ s hs ha).mp h' with h' | ⟨h', _⟩
        · rw [h'.1.queue] at hq
          exact hr (List.map_eq_nil_iff.mp hq)
        · obtain ⟨h1, h2⟩ := C87_no_deadlock W env 0 σ σ (.zero σ) hn
          exact h'.elim h1 h2
      · obtain ⟨h1, h2⟩ := alone_load hτ
        obtain ⟨_, hx'⟩ := hx.alone hτ
        obtain ⟨_, s', hs', _⟩ := C68_in_step env he cs _ τ (hx'.weaken hO) hc E hE
        obtain ⟨q', new, h3⟩ := h.alone hτ (by rw [hs']; simp)
        refine (ih _ (hk ▸ h1) q' (rs ++ new) τ h3 (Nat.le_trans h2 hn) rfl).mono ?_
        rintro υ ⟨n2, is, h4, h5⟩
        exact ⟨new ++ n2, is, by rw [← List.append_assoc]; exact ⟨h4, h5⟩⟩

/-- **C87** (the bound is exact) With 51 messages under way the process can be stuck for ever, short of rest: a command that reloads the workspace
is processed while the client fills the queue. -/
theorem C87_exact (W : World → Prop) (env : Env) (hne : ∃ w, W w) :
    ∃ σ, Steps env Sys.init σ ∧ underWay σ = 51 ∧ ¬ ∃ τ, Alone W env σ τ := by
  let σ1 : Sys := { Sys.init with lspQ := [.executeCommand c!"reset_variables"] }
  have e1 : Steps env Sys.init σ1 := Steps.one (.env (.client _ trivial rfl (by decide)))
  let σ2 : Sys := { Sys.init with wOut := [.initialized] }
  have e2 : Steps env σ1 σ2 := Steps.one (.task (.workerRecv (σ := σ1) (m := .executeCommand c!"reset_variables") (r := .none)
    Fix.world rfl rfl rfl (by simp [Server.handle])))
  have e3 := client_fill (env := env) (List.replicate 50 (.didSave Fix.uriA)) σ2
    (fun m hm => by rw [List.eq_of_mem_replicate hm]; trivial) (by simp [σ2, Sys.init]) (by simp [σ2, Sys.init])
  refine ⟨_, (e1.trans e2).trans e3, by simp [underWay, delays, σ2, Sys.init, Server.init], ?_⟩
  refine (C87_end W env hne _ _ rfl rfl).mpr (.inr ⟨.inl ⟨⟨[], rfl⟩, by simp [σ2, Sys.init], fun _ => rfl⟩, ?_⟩)
  intro t ht
  cases ht

/-- a process whose client sends only while fewer than 50 messages are under way -/
inductive Spec.Polite (W : World → Prop) (env : Env) : Sys → Prop where
  | start : Polite W env Sys.init
  | alone {σ τ : Sys} (h : Polite W env σ) (ha : Alone W env σ τ) : Polite W env τ
  | client {σ : Sys} {s : Server} (h : Polite W env σ) (m : Msg) (hm : m.fromClient) (hw : σ.worker = some s) (hu : underWay σ < 50) :
      Polite W env { σ with lspQ := σ.lspQ ++ [m] }

/-- **C87** (a polite client) If the client sends only while fewer than 50 messages are under way, no deadlock is ever reached, and at any time the
process would come to rest if left alone, unless a task dies. -/
theorem C87_polite (W : World → Prop) (env : Env) (hne : ∃ w, W w) (σ : Sys) (h : Polite W env σ) :
    ¬ SelfDeadlock σ ∧ ¬ MutualDeadlock σ ∧
    Eventually (Alone W env) (fun τ => τ.worker = none ∨ τ.diagAlive = false ∨ ∃ s, AtRest τ s ∧ τ.dOut = none) σ := by
  have hn : underWay σ ≤ 50 := by
    induction h with
    | start => decide
    | alone h ha ih => exact Nat.le_trans (alone_load ha).2 ih
    | client h m hm hw hu ih =>
      unfold underWay delays at *
      simp only [List.length_append, List.length_singleton]
      omega
  obtain ⟨h1, h2⟩ := C87_no_deadlock W env 0 σ σ (.zero σ) hn
  exact ⟨h1, h2, C87_eventually W env hne σ hn⟩

/-- the client of the fixture opens the workspace and a document and types: when the change has just been processed, two results wait for the
diagnostics task and a delay is running; from there it takes twelve steps to rest in one
of the possible orders, and at most 22 in any -/
example : ∃ (as : List (HMap Str Diags)) (σ τ : Sys) (s : Server), Execution (· = Fix.rootWorld) Fix.typingEnv Fix.typing as σ ∧
    (∀ s, σ.worker = some s → s.files.mainChannel = true) ∧ underWay σ = 3 ∧ σ.diagQ.length = 2 ∧
    AloneFor (· = Fix.rootWorld) Fix.typingEnv 12 σ τ ∧ AtRest τ s ∧ τ.dOut = none := by
  have e1 := Execution.start (W := (· = Fix.rootWorld)) (env := Fix.typingEnv)
    |>.client (.initialize none (some (some { JinjaConfig.default with lang := c!"rust", templates := c!"/t" }))) trivial rfl (by decide)
  have e2 := e1.task (.workerRecv (q := []) Fix.rootWorld rfl rfl rfl rfl rfl)
  have e3 := e2.client .initialized trivial rfl (show 0 < 50 by decide)
  have e4 := e3.task (.workerRecv (q := []) Fix.rootWorld rfl rfl rfl rfl rfl)
  have e5 := e4.task (.workerSendDiag rfl rfl rfl (show 0 < 20 by decide))
  have e6 := e5.client (.didOpen Fix.uriT c!"aaa") trivial rfl (show 0 < 50 by decide)
  have e7 := e6.task (.workerRecv (q := []) Fix.rootWorld rfl rfl rfl rfl rfl)
  have e8 := e7.task (.workerSendDiag rfl rfl rfl (show 1 < 20 by decide))
  have e9 := e8.client (.didChange Fix.uriT ([(⟨⟨0, 3⟩, ⟨0, 3⟩⟩, c!"b")].map fun e => ⟨some e.1, e.2⟩)) trivial rfl (show 0 < 50 by decide)
  have e10 := e9.task (.workerRecv (q := []) Fix.rootWorld rfl rfl rfl rfl rfl)
  have a10 : ∀ {cs as σ}, Execution (· = Fix.rootWorld) Fix.typingEnv cs as σ → AloneFor (· = Fix.rootWorld) Fix.typingEnv 0 σ σ := fun _ => .zero _
  have a11 := (a10 e10).succ (.delayed (t := ⟨0, Fix.uriT, true, true⟩) (.timer rfl (List.mem_singleton.mpr rfl) rfl
    (show 0 < 50 by decide)) rfl (List.mem_singleton.mpr rfl) rfl)
  have a12 := a11.succ (.task (.workerRecv (q := []) Fix.rootWorld rfl rfl rfl rfl rfl))
  have a13 := a12.succ (.task (.workerSendDiag rfl rfl rfl (show 2 < 20 by decide)))
  have a14 := a13.succ (.task (.diagRecv HashOrder.id rfl rfl rfl rfl))
  have a15 := a14.succ (.task (.diagSend rfl rfl rfl (show 0 < 50 by decide)))
  have a16 := a15.succ (.task (.diagRecv HashOrder.id rfl rfl rfl rfl))
  have a17 := a16.succ (.task (.diagSend rfl rfl rfl (show 1 < 50 by decide)))
  have a18 := a17.succ (.task (.diagRecv HashOrder.id rfl rfl rfl rfl))
  have a19 := a18.succ (.task (.workerRecv Fix.rootWorld rfl rfl rfl rfl rfl))
  have a20 := a19.succ (.task (.workerRecv (q := []) Fix.rootWorld rfl rfl rfl rfl rfl))
  have a21 := a20.succ (.task (.diagSend rfl rfl rfl (show 0 < 50 by decide)))
  have a22 := a21.succ (.task (.workerRecv (q := []) Fix.rootWorld rfl rfl rfl rfl rfl))
  exact ⟨_, _, _, _, e10, fun s hs => by cases hs; rfl, by decide, by decide, a22, ⟨rfl, rfl, rfl, rfl, rfl⟩, rfl⟩

/-- a document is opened and two requests about it wait in the queue, the result of its analysis is being sent -/
example : ∃ (E : Editor) (q : List (Msg × Editor)) (rs : List (Msg × Editor × Reply)) (σ : Sys),
    Session Orderly Fix.filterEnv [.didOpen Fix.uriT c!"aaa", .hover Fix.uriT ⟨0, 8⟩, .documentSymbol Fix.uriT] E q rs σ ∧
    (∀ m ∈ [Msg.didOpen Fix.uriT c!"aaa", .hover Fix.uriT ⟨0, 8⟩, .documentSymbol Fix.uriT], Proper Fix.filterEnv m) ∧
    q.length = 2 ∧ σ.wOut.length = 1 ∧ underWay σ = 3 := by
  have e1 := Session.start (W := Orderly) (env := Fix.filterEnv)
    |>.client (.didOpen Fix.uriT c!"aaa") trivial rfl (show 0 < 50 by decide) (.opens _ _ _)
  have e2 := Session.answer (q := []) Fix.rootWorld e1 rfl rfl rfl Fix.rootWorld_orderly
  have e3 := e2.client (.hover Fix.uriT ⟨0, 8⟩) trivial rfl (show 0 < 50 by decide) (.hover _ _ _)
  have e4 := e3.client (.documentSymbol Fix.uriT) trivial rfl (show 1 < 50 by decide) (.documentSymbol _ _)
  refine ⟨_, _, _, _, e4, ?_, by decide, by decide, by decide⟩
  intro m hm
  simp only [List.mem_cons, List.not_mem_nil, or_false] at hm
  rcases hm with rfl | rfl | rfl
  · exact ⟨_, rfl⟩
  · trivial
  · trivial

end JinjaLsp
