import Verif.Model.Server
/-
  backend.rs:156-171: the two tasks, their bounded channels, the client handlers and the delayed tasks as a
  transition system.  A `send(..).await` on a full channel blocks its task; sending to a dropped receiver returns
  immediately.  Waiting client handlers and expired timers are represented by the fact that their step is only
  enabled when the channel has room.
-/

namespace JinjaLsp

/-- backend.rs:158 -/
def lspCap : Nat := 50
/-- backend.rs:159 -/
def diagCap : Nat := 20

/-- State of the whole process. `worker = none`: the worker task panicked. `wOut`: the sends the worker still has
to perform for the message it is processing; `dOut`: the `CodeActions` message the diagnostics task is sending. -/
structure Sys where
  worker : Option Server
  lspQ : List Msg
  wOut : List Send
  diagAlive : Bool
  diagQ : List (HMap Str Diags)
  dOut : Option (HMap Str (List Identifier))
  published : List (Str × List Diagnostic)

/-- state right after `_new` (backend.rs:157-170) -/
def Sys.init : Sys := ⟨some Server.init, [], [], true, [], none, []⟩

/-- Messages the client can cause (everything except the internal ones is sent by backend.rs; `Initialized` is both) -/
def Msg.fromClient : Msg → Prop
  | .codeActions _ => False
  | _ => True

/-- Steps of the two server tasks, in worlds (file system, hash order) that satisfy `W`. -/
inductive TaskStepIn (W : World → Prop) (env : Env) : Sys → Sys → Prop where
  /-- lsp.rs:44: receive and process a message -/
  | workerRecv {σ : Sys} {s s' : Server} {m : Msg} {q : List Msg} {outs : List Send} {r : Reply} (w : World)
      (hw : σ.worker = some s) (ho : σ.wOut = []) (hq : σ.lspQ = m :: q)
      (hh : s.handle env w m = .ok (s', outs, r)) (hW : W w := by trivial) :
      TaskStepIn W env σ { σ with worker := some s', lspQ := q, wOut := outs }
  /-- processing panics: the task is gone, its receiver is dropped with everything queued -/
  | workerPanic {σ : Sys} {s : Server} {m : Msg} {q : List Msg} {p : Panic} (w : World)
      (hw : σ.worker = some s) (ho : σ.wOut = []) (hq : σ.lspQ = m :: q)
      (hh : s.handle env w m = .error p) (hW : W w := by trivial) :
      TaskStepIn W env σ { σ with worker := none, lspQ := [], wOut := [] }
  /-- lsp.rs:131, 154, 342: send diagnostics -/
  | workerSendDiag {σ : Sys} {s : Server} {m : HMap Str Diags} {r : List Send}
      (hw : σ.worker = some s) (ho : σ.wOut = .diag m :: r) (ha : σ.diagAlive = true)
      (hc : σ.diagQ.length < diagCap) :
      TaskStepIn W env σ { σ with wOut := r, diagQ := σ.diagQ ++ [m] }
  /-- the diagnostics task is gone: the send fails at once -/
  | workerSendDiagDead {σ : Sys} {s : Server} {m : HMap Str Diags} {r : List Send}
      (hw : σ.worker = some s) (ho : σ.wOut = .diag m :: r) (ha : σ.diagAlive = false) :
      TaskStepIn W env σ { σ with wOut := r }
  /-- lsp.rs:336, 360: send to its own queue -/
  | workerSendSelf {σ : Sys} {s : Server} {r : List Send}
      (hw : σ.worker = some s) (ho : σ.wOut = .initialized :: r) (hc : σ.lspQ.length < lspCap) :
      TaskStepIn W env σ { σ with wOut := r, lspQ := σ.lspQ ++ [.initialized] }
  /-- diagnostics.rs:20-45: receive and publish -/
  | diagRecv {σ : Sys} {m : HMap Str Diags} {q : List (HMap Str Diags)} {pubs : List (Str × List Diagnostic)}
      {ca : HMap Str (List Identifier)} (o : HashOrder)
      (ha : σ.diagAlive = true) (hd : σ.dOut = none) (hq : σ.diagQ = m :: q)
      (hp : diagProcess env o m = .ok (pubs, ca)) :
      TaskStepIn W env σ { σ with diagQ := q, dOut := some ca, published := σ.published ++ pubs }
  /-- diagnostics.rs:43: `Url::parse(&uri).unwrap()` panics; the files before are published -/
  | diagPanic {σ : Sys} {m : HMap Str Diags} {q : List (HMap Str Diags)} {p : Panic} (o : HashOrder)
      (ha : σ.diagAlive = true) (hd : σ.dOut = none) (hq : σ.diagQ = m :: q)
      (hp : diagProcess env o m = .error p) :
      TaskStepIn W env σ { σ with diagAlive := false, diagQ := []
                                  published := σ.published ++ diagBefore env (o.shuffle 9 m.entries) }
  /-- diagnostics.rs:46-48: send the code actions -/
  | diagSend {σ : Sys} {s : Server} {ca : HMap Str (List Identifier)}
      (ha : σ.diagAlive = true) (hd : σ.dOut = some ca) (hw : σ.worker = some s)
      (hc : σ.lspQ.length < lspCap) :
      TaskStepIn W env σ { σ with dOut := none, lspQ := σ.lspQ ++ [.codeActions ca] }
  /-- the worker is gone: the send fails at once -/
  | diagSendDead {σ : Sys} {ca : HMap Str (List Identifier)}
      (ha : σ.diagAlive = true) (hd : σ.dOut = some ca) (hw : σ.worker = none) :
      TaskStepIn W env σ { σ with dOut := none }
  /-- diagnostics.rs:20: all senders dropped and the channel drained -/
  | diagStop {σ : Sys} (ha : σ.diagAlive = true) (hd : σ.dOut = none) (hq : σ.diagQ = [])
      (hw : σ.worker = none) :
      TaskStepIn W env σ { σ with diagAlive := false }

/-- steps of the two tasks in any world -/
abbrev TaskStep (env : Env) : Sys → Sys → Prop := TaskStepIn (fun _ => True) env

/-- Steps of the environment: client messages and expiring delayed tasks. -/
inductive EnvStep : Sys → Sys → Prop where
  | client {σ : Sys} {s : Server} (m : Msg) (hm : m.fromClient) (hw : σ.worker = some s)
      (hc : σ.lspQ.length < lspCap) :
      EnvStep σ { σ with lspQ := σ.lspQ ++ [m] }
  /-- a message for a dead worker is dropped -/
  | clientDead {σ : Sys} (hw : σ.worker = none) : EnvStep σ σ
  /-- lsp_files.rs:198-203, 574-579: a delayed task expires and sends `DidSave` -/
  | timer {σ : Sys} {s : Server} {t : Timer} (hw : σ.worker = some s) (ht : t ∈ s.timers)
      (hl : t.live = true) (hc : σ.lspQ.length < lspCap) :
      EnvStep σ { σ with worker := some { s with timers := s.timers.erase t }
                         lspQ := σ.lspQ ++ [.didSave t.uri] }
  /-- a delayed task without channel just ends -/
  | timerMute {σ : Sys} {s : Server} {t : Timer} (hw : σ.worker = some s) (ht : t ∈ s.timers)
      (hl : t.live = false) :
      EnvStep σ { σ with worker := some { s with timers := s.timers.erase t } }

/-- one step of the system -/
inductive SysStep (env : Env) : Sys → Sys → Prop where
  | task {σ τ : Sys} (h : TaskStep env σ τ) : SysStep env σ τ
  | env {σ τ : Sys} (h : EnvStep σ τ) : SysStep env σ τ

/-- reflexive-transitive closure -/
inductive Steps (env : Env) : Sys → Sys → Prop where
  | refl (σ : Sys) : Steps env σ σ
  | tail {σ τ υ : Sys} (h : Steps env σ τ) (h' : SysStep env τ υ) : Steps env σ υ

end JinjaLsp
