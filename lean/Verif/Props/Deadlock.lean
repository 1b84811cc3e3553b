import Verif.Props.Publish
import Verif.Model.Protocol
/- C53: capacities of the queues, progress of the two tasks. -/

namespace JinjaLsp
open Spec

theorem Steps.trans {env : Env} {σ τ υ : Sys} (h : Steps env σ τ) (h' : Steps env τ υ) : Steps env σ υ := by
  induction h' with
  | refl => exact h
  | tail _ s ih => exact ih.tail s

theorem Steps.one {env : Env} {σ τ : Sys} (h : SysStep env σ τ) : Steps env σ τ := (Steps.refl σ).tail h

/-- **C53** (capacities) In every reachable state the queues are within their capacities. -/
theorem C53_bounded (env : Env) (σ : Sys) (h : Steps env Sys.init σ) : σ.lspQ.length ≤ 50 ∧ σ.diagQ.length ≤ 20 := by
  have key : ∀ {σ τ : Sys}, Steps env σ τ → σ.lspQ.length ≤ 50 ∧ σ.diagQ.length ≤ 20 → τ.lspQ.length ≤ 50 ∧ τ.diagQ.length ≤ 20 := by
    intro σ τ h h0
    induction h with
    | refl => exact h0
    | tail _ s ih =>
      cases s with
      | task s => cases s <;> simp_all [lspCap, diagCap] <;> omega
      | env s => cases s <;> simp_all [lspCap] <;> omega
  exact key h ⟨Nat.zero_le _, Nat.zero_le _⟩

/-- neither task can take a step -/
def Spec.Stuck (env : Env) (σ : Sys) : Prop := ¬ ∃ τ, TaskStep env σ τ

/-- no task takes a step any more, whatever the client does and whatever delayed tasks expire -/
def Spec.DeadForEver (env : Env) (σ : Sys) : Prop := ∀ τ, Steps env σ τ → Stuck env τ

/-- the worker waits to put a message into its own full queue, the diagnostics task has nothing to do or waits for that queue as well -/
def Spec.SelfDeadlock (σ : Sys) : Prop :=
  (∃ r, σ.wOut = .initialized :: r) ∧ 50 ≤ σ.lspQ.length ∧ (σ.dOut = none → σ.diagQ = [])

/-- each task waits for room in the queue of the other -/
def Spec.MutualDeadlock (σ : Sys) : Prop :=
  (∃ m r, σ.wOut = .diag m :: r) ∧ 20 ≤ σ.diagQ.length ∧ σ.dOut ≠ none ∧ 50 ≤ σ.lspQ.length

/-- nothing to do -/
def Spec.Idle (σ : Sys) : Prop := σ.wOut = [] ∧ σ.lspQ = [] ∧ σ.dOut = none ∧ σ.diagQ = []

/-- **C53** (exact) While both tasks live, no task can take a step exactly if there is nothing to do or in one of the two deadlocks. -/
theorem C53_stuck_iff (env : Env) (σ : Sys) (hw : σ.worker ≠ none) (ha : σ.diagAlive = true) :
    Stuck env σ ↔ Idle σ ∨ SelfDeadlock σ ∨ MutualDeadlock σ := by
  obtain ⟨s, hs⟩ := Option.ne_none_iff_exists'.mp hw
  constructor
  · intro h
    have worker : (σ.wOut = [] ∧ σ.lspQ = []) ∨ ((∃ r, σ.wOut = .initialized :: r) ∧ 50 ≤ σ.lspQ.length) ∨
        ((∃ m r, σ.wOut = .diag m :: r) ∧ 20 ≤ σ.diagQ.length) := by
      cases ho : σ.wOut with
      | nil =>
        cases hq : σ.lspQ with
        | nil => exact Or.inl ⟨rfl, rfl⟩
        | cons m q =>
          cases hh : s.handle env Fix.world m with
          | error p => exact absurd ⟨_, .workerPanic Fix.world hs ho hq hh⟩ h
          | ok x =>
            obtain ⟨s', o, r⟩ := x
            exact absurd ⟨_, .workerRecv Fix.world hs ho hq hh⟩ h
      | cons x r =>
        cases x with
        | initialized =>
          refine Or.inr (Or.inl ⟨⟨r, rfl⟩, Nat.le_of_not_lt fun hlt => h ⟨_, .workerSendSelf hs ho hlt⟩⟩)
        | diag m => exact Or.inr (Or.inr ⟨⟨m, r, rfl⟩, Nat.le_of_not_lt fun hlt => h ⟨_, .workerSendDiag hs ho ha hlt⟩⟩)
    have diag : (σ.dOut = none ∧ σ.diagQ = []) ∨ (σ.dOut ≠ none ∧ 50 ≤ σ.lspQ.length) := by
      cases hd : σ.dOut with
      | none =>
        cases hq : σ.diagQ with
        | nil => exact Or.inl ⟨rfl, rfl⟩
        | cons m q =>
          cases hp : diagProcess env HashOrder.id m with
          | error p => exact absurd ⟨_, .diagPanic HashOrder.id ha hd hq hp⟩ h
          | ok x =>
            obtain ⟨pubs, ca⟩ := x
            exact absurd ⟨_, .diagRecv HashOrder.id ha hd hq hp⟩ h
      | some ca => exact Or.inr ⟨by simp, Nat.le_of_not_lt fun hlt => h ⟨_, .diagSend ha hd hs hlt⟩⟩
    rcases worker with ⟨h1, h2⟩ | ⟨h1, h2⟩ | ⟨h1, h2⟩ <;> rcases diag with ⟨h3, h4⟩ | ⟨h3, h4⟩
    · exact Or.inl ⟨h1, h2, h3, h4⟩
    · rw [h2] at h4; simp at h4
    · exact Or.inr (Or.inl ⟨h1, h2, fun _ => h4⟩)
    · exact Or.inr (Or.inl ⟨h1, h2, fun h => absurd h h3⟩)
    · rw [h4] at h2; simp at h2
    · exact Or.inr (Or.inr ⟨h1, h2, h3, h4⟩)
  · rintro (⟨h1, h2, h3, h4⟩ | ⟨⟨r, h1⟩, h2, h3⟩ | ⟨⟨m, r, h1⟩, h2, h3, h4⟩) ⟨τ, ht⟩
    · cases ht <;> simp_all
    · cases ht <;> simp_all [lspCap] <;> omega
    · cases ht <;> simp_all [lspCap, diagCap] <;> omega

/-- what a deadlock leaves as it is -/
structure Frozen (σ τ : Sys) : Prop where
  worker : τ.worker ≠ none
  alive : τ.diagAlive = σ.diagAlive
  lspQ : τ.lspQ = σ.lspQ
  wOut : τ.wOut = σ.wOut
  diagQ : τ.diagQ = σ.diagQ
  dOut : τ.dOut = σ.dOut
  published : τ.published = σ.published

theorem frozen_steps {env : Env} {σ : Sys} (hw : σ.worker ≠ none) (ha : σ.diagAlive = true) (hd : SelfDeadlock σ ∨ MutualDeadlock σ)
    {τ : Sys} (h : Steps env σ τ) : Frozen σ τ := by
  induction h with
  | refl => exact ⟨hw, rfl, rfl, rfl, rfl, rfl, rfl⟩
  | tail h s ih =>
    rename_i τ υ
    have hd' : SelfDeadlock τ ∨ MutualDeadlock τ := by
      unfold SelfDeadlock MutualDeadlock
      rw [ih.lspQ, ih.wOut, ih.diagQ, ih.dOut]
      exact hd
    have hstuck := (C53_stuck_iff env τ ih.worker (ih.alive.trans ha)).mpr (Or.inr hd')
    have hfull : 50 ≤ τ.lspQ.length := by
      rcases hd' with h | h
      · exact h.2.1
      · exact h.2.2.2
    cases s with
    | task s => exact absurd ⟨_, s⟩ hstuck
    | env s =>
      cases s with
      | client m hm hw' hc => exact absurd hfull (Nat.not_le.mpr hc)
      | clientDead hw' => exact ih
      | timer hw' ht hl hc => exact absurd hfull (Nat.not_le.mpr hc)
      | timerMute hw' ht hl => exact ⟨by simp, ih.alive, ih.lspQ, ih.wOut, ih.diagQ, ih.dOut, ih.published⟩

/-- **C53** (exact) While both tasks live, the server is dead for ever exactly in the two deadlocks: then no message is processed and nothing is
published any more, whatever the client does; in all other states some continuation lets a task proceed. -/
theorem C53_dead_iff (env : Env) (σ : Sys) (hw : σ.worker ≠ none) (ha : σ.diagAlive = true) :
    DeadForEver env σ ↔ SelfDeadlock σ ∨ MutualDeadlock σ := by
  constructor
  · intro h
    rcases (C53_stuck_iff env σ hw ha).mp (h σ (.refl σ)) with hi | hd
    · obtain ⟨s, hs⟩ := Option.ne_none_iff_exists'.mp hw
      obtain ⟨h1, h2, h3, h4⟩ := hi
      refine absurd ?_ (h _ (Steps.one (.env (.client (σ := σ) (s := s) .initialized trivial hs (by rw [h2]; decide)))))
      cases hh : s.handle env Fix.world .initialized with
      | error p => exact ⟨_, .workerPanic (q := []) Fix.world hs h1 (by simp [h2]) hh⟩
      | ok x =>
        obtain ⟨s', o, r⟩ := x
        exact ⟨_, .workerRecv (q := []) Fix.world hs h1 (by simp [h2]) hh⟩
    · exact hd
  · intro hd τ h
    have fr := frozen_steps hw ha hd h
    refine (C53_stuck_iff env τ fr.worker (fr.alive.trans ha)).mpr (Or.inr ?_)
    unfold SelfDeadlock MutualDeadlock
    rw [fr.lspQ, fr.wOut, fr.diagQ, fr.dOut]
    exact hd

/-- **C53** (what holds) As long as the queue of the worker has room and there is something to do, one of the tasks can take a step.
Missing: a full queue (`C53_self_deadlock_refuted`, `C53_mutual_deadlock_refuted`). -/
theorem C53_progress_partial (env : Env) (σ : Sys) (hw : σ.worker ≠ none) (ha : σ.diagAlive = true) (hq : σ.lspQ.length < 50)
    (hi : ¬ Idle σ) : ∃ τ, TaskStep env σ τ := by
  refine Classical.byContradiction fun h => ?_
  rcases (C53_stuck_iff env σ hw ha).mp h with h | h | h
  · exact hi h
  · exact absurd h.2.1 (Nat.not_le.mpr hq)
  · exact absurd h.2.2.2 (Nat.not_le.mpr hq)

/-- a message waits in the queue -/
example : ∃ σ : Sys, σ.worker ≠ none ∧ σ.diagAlive = true ∧ σ.lspQ.length < 50 ∧ ¬ Idle σ :=
  ⟨{ Sys.init with lspQ := [.initialized] }, by simp [Sys.init], rfl, by decide, fun h => by cases h.2.1⟩

/-- **C53** (what holds) If only one task is left, it is never blocked by the other: with a dead worker the diagnostics task always has a step
until it ends; with a dead diagnostics task the worker has a step whenever its queue has room and there is something to do. -/
theorem C53_survivor_partial (env : Env) (σ : Sys) :
    (σ.worker = none → σ.diagAlive = true → ∃ τ, TaskStep env σ τ) ∧
    (σ.worker ≠ none → σ.diagAlive = false → σ.lspQ.length < 50 → (σ.wOut ≠ [] ∨ σ.lspQ ≠ []) → ∃ τ, TaskStep env σ τ) := by
  constructor
  · intro hw ha
    cases hd : σ.dOut with
    | some ca => exact ⟨_, .diagSendDead ha hd hw⟩
    | none =>
      cases hq : σ.diagQ with
      | nil => exact ⟨_, .diagStop ha hd hq hw⟩
      | cons m q =>
        cases hp : diagProcess env HashOrder.id m with
        | error p => exact ⟨_, .diagPanic HashOrder.id ha hd hq hp⟩
        | ok x =>
          obtain ⟨pubs, ca⟩ := x
          exact ⟨_, .diagRecv HashOrder.id ha hd hq hp⟩
  · intro hw ha hq hn
    obtain ⟨s, hs⟩ := Option.ne_none_iff_exists'.mp hw
    cases ho : σ.wOut with
    | nil =>
      cases hl : σ.lspQ with
      | nil => rcases hn with h | h <;> contradiction
      | cons m q =>
        cases hh : s.handle env Fix.world m with
        | error p => exact ⟨_, .workerPanic Fix.world hs ho hl hh⟩
        | ok x =>
          obtain ⟨s', o, r⟩ := x
          exact ⟨_, .workerRecv Fix.world hs ho hl hh⟩
    | cons x r =>
      cases x with
      | initialized => exact ⟨_, .workerSendSelf hs ho hq⟩
      | diag m => exact ⟨_, .workerSendDiagDead hs ho ha⟩

/-! ### Both deadlocks are reachable -/

/-- the client fills the queue -/
theorem client_fill {env : Env} : ∀ (ms : List Msg) (σ : Sys), (∀ m ∈ ms, m.fromClient) → σ.worker ≠ none → σ.lspQ.length + ms.length ≤ 50 →
    Steps env σ { σ with lspQ := σ.lspQ ++ ms }
  | [], σ, _, _, _ => by rw [List.append_nil]; exact .refl σ
  | m :: ms, σ, hm, hw, hl => by
    obtain ⟨s, hs⟩ := Option.ne_none_iff_exists'.mp hw
    have h1 : Steps env σ { σ with lspQ := σ.lspQ ++ [m] } :=
      Steps.one (.env (.client m (hm m (by simp)) hs (by simp at hl; unfold lspCap; omega)))
    have h2 := client_fill (env := env) ms { σ with lspQ := σ.lspQ ++ [m] } (fun x hx => hm x (by simp [hx])) hw (by simp at hl ⊢; omega)
    have := h1.trans h2
    simpa using this

/-- **C53** (refuted) From every state in which both tasks wait for work: the client asks for a reset and sends any 50 further messages before
the worker has put its message into its own queue. Then the server is dead for ever. -/
theorem C53_self_deadlock_refuted (env : Env) (σ : Sys) (hw : σ.worker ≠ none) (ha : σ.diagAlive = true) (hi : Idle σ) (ms : List Msg)
    (hm : ∀ m ∈ ms, m.fromClient) (hl : ms.length = 50) :
    ∃ τ, Steps env σ τ ∧ τ.lspQ = ms ∧ DeadForEver env τ := by
  obtain ⟨h1, h2, h3, h4⟩ := hi
  obtain ⟨s, hs⟩ := Option.ne_none_iff_exists'.mp hw
  let σ1 : Sys := { σ with lspQ := σ.lspQ ++ [.executeCommand c!"reset_variables"] }
  have e1 : Steps env σ σ1 := Steps.one (.env (.client _ trivial hs (by rw [h2]; decide)))
  let σ2 : Sys := { σ1 with worker := some s, lspQ := [], wOut := [.initialized] }
  have e2 : Steps env σ1 σ2 := Steps.one (.task (.workerRecv (σ := σ1) (s := s) (m := .executeCommand c!"reset_variables") (r := .none)
    Fix.world hs h1 (by simp [σ1, h2]) (by simp [Server.handle])))
  have e3 := client_fill (env := env) ms σ2 hm (by simp [σ2]) (by simp [σ2, hl])
  refine ⟨_, (e1.trans e2).trans e3, by simp [σ2], ?_⟩
  refine (C53_dead_iff env { σ2 with lspQ := σ2.lspQ ++ ms } (by simp [σ2]) ha).mpr (Or.inl ⟨⟨[], rfl⟩, by simp [σ2, hl], fun _ => h4⟩)

/-- the state right after start-up is such a state -/
example : Sys.init.worker ≠ none ∧ Sys.init.diagAlive = true ∧ Idle Sys.init ∧
    (∀ m ∈ List.replicate 50 (Msg.didSave Fix.uriA), m.fromClient) ∧ (List.replicate 50 (Msg.didSave Fix.uriA)).length = 50 :=
  ⟨by simp [Sys.init], rfl, ⟨rfl, rfl, rfl, rfl⟩, fun m hm => by rw [List.eq_of_mem_replicate hm]; trivial, by simp⟩

/-- what saving needs to produce diagnostics, and keeps -/
structure Savable (env : Env) (s : Server) (uri : Str) (l : LangType) (text : Str) : Prop where
  kind : fileExt uri = some l
  doc : s.files.documents.get? uri = some text
  fits : l = .template → ∀ t, (s.files.trees .template).get? uri = some t → Readable env t text

theorem Savable.save {env : Env} {s : Server} {uri u text : Str} {l : LangType} (h : Savable env s uri l text) (hurl : env.urlParse uri = some u)
    (w : World) : ∃ s' m, s.handle env w (.didSave uri) = .ok (s', [.diag m], .none) ∧ Savable env s' uri l text ∧
      ∀ o, ∃ x, diagProcess env o m = .ok x := by
  obtain ⟨s', ds, hh, hd⟩ := C31_save_publishes_partial env w s uri text u l h.kind h.doc hurl h.fits
  refine ⟨s', _, hh, ?_, fun o => ⟨_, hd o⟩⟩
  cases handle_files hh with
  | didSave _ m g =>
    obtain ⟨h1, _⟩ := LspFiles.didSave_inv h.kind h.doc g
    obtain ⟨h2, h3⟩ := documents_addVariables h1
    refine ⟨h.kind, ?_, ?_⟩
    · rw [h2]; unfold LspFiles.deleteVariables; split <;> exact h.doc
    · rw [h3, LspFiles.trees_deleteVariables]; exact h.fits
  | query hq _ => exact absurd hq id

/-- the worker processes `k` queued saves while the diagnostics task does nothing -/
theorem worker_saves {env : Env} {uri u text : Str} {l : LangType} (hurl : env.urlParse uri = some u) : ∀ (k : Nat) (σ : Sys) (s : Server) (q : List Msg),
    σ.worker = some s → Savable env s uri l text → σ.diagAlive = true → σ.wOut = [] → σ.lspQ = List.replicate k (.didSave uri) ++ q →
    σ.diagQ.length + k ≤ 20 →
    ∃ s' dq, Savable env s' uri l text ∧ dq.length = σ.diagQ.length + k ∧ Steps env σ { σ with worker := some s', lspQ := q, diagQ := dq }
  | 0, σ, s, q, hw, hs, _, _, hq, _ => by
    refine ⟨s, σ.diagQ, hs, rfl, ?_⟩
    have : ({ σ with worker := some s, lspQ := q, diagQ := σ.diagQ } : Sys) = σ := by
      cases σ; simp_all
    rw [this]
    exact .refl σ
  | k + 1, σ, s, q, hw, hs, ha, ho, hq, hl => by
    obtain ⟨s1, m, hh, hs1, _⟩ := hs.save hurl Fix.world
    have hq : σ.lspQ = .didSave uri :: (List.replicate k (.didSave uri) ++ q) := by rw [hq]; rfl
    let σ1 : Sys := { σ with worker := some s1, lspQ := List.replicate k (.didSave uri) ++ q, wOut := [.diag m] }
    have e1 : Steps env σ σ1 := Steps.one (.task (.workerRecv Fix.world hw ho hq hh))
    let σ2 : Sys := { σ1 with wOut := [], diagQ := σ.diagQ ++ [m] }
    have e2 : Steps env σ1 σ2 := Steps.one (.task (.workerSendDiag (σ := σ1) rfl rfl ha (by show σ.diagQ.length < 20; omega)))
    obtain ⟨s', dq, h1, h2, h3⟩ := worker_saves hurl k σ2 s1 q rfl hs1 ha rfl rfl (by simp [σ2]; omega)
    refine ⟨s', dq, h1, by rw [h2]; simp [σ2]; omega, ?_⟩
    have := (e1.trans e2).trans h3
    have e : ({ σ2 with worker := some s', lspQ := q, diagQ := dq } : Sys) = { σ with worker := some s', lspQ := q, diagQ := dq } := by
      cases σ; simp_all [σ2, σ1]
    rw [e] at this
    exact this

/-- **C53** (refuted) From every state in which both tasks wait for work and the server holds some document: if that document is saved often
enough while the diagnostics task is busy, each task ends up waiting for room in the queue of the other, and the server is dead for ever. -/
theorem C53_mutual_deadlock_refuted (env : Env) (σ : Sys) (s : Server) (hw : σ.worker = some s) (ha : σ.diagAlive = true) (hi : Idle σ)
    (uri u text : Str) (l : LangType) (he : fileExt uri = some l) (hd : s.files.documents.get? uri = some text)
    (hr : l = .template → ∀ t, (s.files.trees .template).get? uri = some t → Readable env t text) (hurl : env.urlParse uri = some u) :
    ∃ τ, Steps env σ τ ∧ MutualDeadlock τ ∧ DeadForEver env τ := by
  obtain ⟨h1, h2, h3, h4⟩ := hi
  have hs : Savable env s uri l text := ⟨he, hd, hr⟩
  have saves : ∀ k, ∀ m ∈ List.replicate k (Msg.didSave uri), m.fromClient := fun k m hm => by rw [List.eq_of_mem_replicate hm]; trivial
  -- the first save reaches the diagnostics task
  let σ1 : Sys := { σ with lspQ := σ.lspQ ++ List.replicate 22 (.didSave uri) }
  have e1 : Steps env σ σ1 := client_fill _ σ (saves 22) (by rw [hw]; simp) (by rw [h2]; simp)
  obtain ⟨s1, m1, hh1, hs1, hp1⟩ := hs.save hurl Fix.world
  let σ2 : Sys := { σ1 with worker := some s1, lspQ := List.replicate 21 (.didSave uri), wOut := [.diag m1] }
  have e2 : Steps env σ1 σ2 := Steps.one (.task (.workerRecv (σ := σ1) Fix.world hw h1 (by simp only [σ1, h2]; rfl) hh1))
  let σ3 : Sys := { σ2 with wOut := [], diagQ := σ.diagQ ++ [m1] }
  have e3 : Steps env σ2 σ3 := Steps.one (.task (.workerSendDiag (σ := σ2) rfl rfl ha (by show σ.diagQ.length < 20; rw [h4]; decide)))
  obtain ⟨⟨pubs, ca⟩, hx⟩ := hp1 HashOrder.id
  let σ4 : Sys := { σ3 with diagQ := [], dOut := some ca, published := σ.published ++ pubs }
  have e4 : Steps env σ3 σ4 := Steps.one (.task (.diagRecv (σ := σ3) (q := []) HashOrder.id ha h3 (by simp [σ3, h4]) hx))
  -- 20 more saves fill the queue of the diagnostics task
  obtain ⟨s5, dq, hs5, hl5, e5⟩ := worker_saves (σ := σ4) hurl 20 s1 [.didSave uri] rfl hs1 ha rfl
    (by show List.replicate 21 (Msg.didSave uri) = _; rfl) (by simp [σ4])
  -- one more save cannot be reported
  obtain ⟨s6, m6, hh6, _, _⟩ := hs5.save hurl Fix.world
  let σ5 : Sys := { σ4 with worker := some s5, lspQ := [.didSave uri], diagQ := dq }
  let σ6 : Sys := { σ5 with worker := some s6, lspQ := [], wOut := [.diag m6] }
  have e6 : Steps env σ5 σ6 := Steps.one (.task (.workerRecv (σ := σ5) Fix.world rfl rfl rfl hh6))
  have e7 := client_fill (env := env) (List.replicate 50 (.didSave uri)) σ6 (saves 50) (by simp [σ6]) (by simp [σ6])
  have hdead : MutualDeadlock { σ6 with lspQ := σ6.lspQ ++ List.replicate 50 (.didSave uri) } :=
    ⟨⟨m6, [], rfl⟩, by show 20 ≤ dq.length; rw [hl5]; simp [σ4], by simp [σ6, σ5, σ4], by simp [σ6]⟩
  refine ⟨_, (((((e1.trans e2).trans e3).trans e4).trans e5).trans e6).trans e7, hdead, ?_⟩
  exact (C53_dead_iff env { σ6 with lspQ := σ6.lspQ ++ List.replicate 50 (.didSave uri) } (by simp [σ6]) ha).mpr (Or.inr hdead)

/-- a server that holds two templates and has nothing to do -/
example : ∃ σ : Sys, σ.worker = some Fix.server ∧ σ.diagAlive = true ∧ Idle σ ∧ fileExt Fix.uriA = some .template ∧
    Fix.server.files.documents.get? Fix.uriA = some c!"aaa" ∧ (∀ t, Readable Fix.env t c!"aaa") ∧ Fix.env.urlParse Fix.uriA = some Fix.uriA :=
  ⟨{ Sys.init with worker := some Fix.server }, rfl, rfl, ⟨rfl, rfl, rfl, rfl⟩, by decide, by decide, fun _ c hc => by simp [Fix.env] at hc, rfl⟩

end JinjaLsp
