import Verif.Model.Client
import Verif.Model.Protocol
/-
  backend.rs:32-154: the handlers of the client's calls as they run concurrently.  Each handler first sends its message to the queue of the
  worker (`main_channel.send(..).await`, which waits while the queue is full) and, if it serves a request with an answer of the worker, then
  waits for that answer (`rx.await`, `tx.await`).  Of tower-lsp (main.rs:21, `Server::new(..).serve(..)`) is assumed: calls are started in the
  order in which they arrive, at most `lim` handlers run at the same time (`buffer_unordered`), handlers are polled first in the order in which
  they were started, and a cancelled request drops its handler.  Of tokio: senders waiting for room get it in the order in which they began to wait.
-/

namespace JinjaLsp

/-- the handlers that wait for the answer of the worker: backend.rs:33-44 `initialize`, 68-78 `completion`, 80-90 `hover`, 92-105
`goto_definition`, 107-117 `code_action`, 128-142 `document_symbol`; the others return after sending (`execute_command` backend.rs:119-126
drops the receiver) -/
def ClientCall.awaits : ClientCall → Bool
  | .initialize .. => true
  | .completion .. => true
  | .hover .. => true
  | .goto .. => true
  | .codeAction .. => true
  | .documentSymbol .. => true
  | _ => false

/-- the calls that are requests: these get a response and can be cancelled; the others are notifications -/
def ClientCall.request : ClientCall → Bool
  | .executeCommand _ => true
  | .shutdown => true
  | c => c.awaits

/-- where a handler stands -/
inductive Phase where
  /-- at `main_channel.send(m).await` -/
  | sending (m : Msg)
  /-- at `rx.await` -/
  | awaiting
  /-- it returns `r` -/
  | finished (r : Reply)

/-- the running handler of the call with the number `id` -/
structure Handler where
  id : Nat
  call : ClientCall
  phase : Phase

/-- a handler that starts (`did_close` and `shutdown` send nothing, backend.rs:58, 151-153) -/
def Handler.start (n : Nat) (c : ClientCall) : Handler :=
  ⟨n, c, match c.msg with
    | some m => .sending m
    | none => .finished .none⟩

/-- a handler that has sent its message -/
def Handler.sent (h : Handler) : Handler :=
  { h with phase := if h.call.awaits then .awaiting else .finished .none }

/-- the receiver gets `r`: the answer, or `none` if the sender was dropped (backend.rs:39-43, 74-77, …) -/
def Handler.receive (r : Reply) (h : Handler) : Handler :=
  match h.phase with
  | .awaiting => { h with phase := .finished r }
  | _ => h

/-- the process together with the handlers: `tags` says for each message in the queue of the worker which call it comes from (`none`: the server
sent it itself), `started` counts the calls handlers were started for -/
structure Front where
  sys : Sys
  tags : List (Option Nat)
  running : List Handler
  started : Nat

def Front.init : Front := ⟨Sys.init, [], [], 0⟩

/-- what can be observed of a step -/
inductive FrontEvent where
  | silent
  /-- the worker processed a message -/
  | processed (tag : Option Nat) (w : World) (m : Msg)
  /-- a call was answered; `none`: it was cancelled -/
  | answered (n : Nat) (r : Option Reply)

/-- Steps of the process with its handlers, for a client that sends the calls `calls` in this order. -/
inductive FrontStep (W : World → Prop) (env : Env) (lim : Nat) (calls : List ClientCall) : Front → FrontEvent → Front → Prop where
  /-- the next call arrives and its handler is started -/
  | start {φ : Front} {c : ClientCall} (hl : φ.running.length < lim) (hc : calls[φ.started]? = some c) :
      FrontStep W env lim calls φ .silent
        { φ with running := φ.running ++ [Handler.start φ.started c], started := φ.started + 1 }
  /-- the handler that has waited longest sends its message -/
  | send {φ : Front} {pre post : List Handler} {h : Handler} {m : Msg} {s : Server} (hr : φ.running = pre ++ h :: post)
      (hp : h.phase = .sending m) (hf : ∀ x ∈ pre, ∀ m', x.phase ≠ .sending m') (hw : φ.sys.worker = some s)
      (hq : φ.sys.lspQ.length < lspCap) :
      FrontStep W env lim calls φ .silent
        { φ with sys := { φ.sys with lspQ := φ.sys.lspQ ++ [m] }, tags := φ.tags ++ [some h.id], running := pre ++ h.sent :: post }
  /-- the worker is gone: the message is dropped together with the sender of the answer -/
  | sendDead {φ : Front} {pre post : List Handler} {h : Handler} {m : Msg} (hr : φ.running = pre ++ h :: post)
      (hp : h.phase = .sending m) (hw : φ.sys.worker = none) :
      FrontStep W env lim calls φ .silent { φ with running := pre ++ { h with phase := .finished .none } :: post }
  /-- lsp.rs:44-366: the worker processes the next message and answers it -/
  | process {φ : Front} {s s' : Server} {m : Msg} {q : List Msg} {outs : List Send} {r : Reply} {t : Option Nat} {ts : List (Option Nat)}
      (w : World) (hw : φ.sys.worker = some s) (ho : φ.sys.wOut = []) (hq : φ.sys.lspQ = m :: q) (ht : φ.tags = t :: ts)
      (hh : s.handle env w m = .ok (s', outs, r)) (hW : W w) :
      FrontStep W env lim calls φ (.processed t w m)
        { φ with sys := { φ.sys with worker := some s', lspQ := q, wOut := outs }, tags := ts
                 running := φ.running.map fun h => if t = some h.id then h.receive r else h }
  /-- processing panics: the queue is dropped and with it the senders of all answers -/
  | panic {φ : Front} {s : Server} {m : Msg} {q : List Msg} {p : Panic} (w : World) (hw : φ.sys.worker = some s) (ho : φ.sys.wOut = [])
      (hq : φ.sys.lspQ = m :: q) (hh : s.handle env w m = .error p) (hW : W w) :
      FrontStep W env lim calls φ .silent
        { φ with sys := { φ.sys with worker := none, lspQ := [], wOut := [] }, tags := [], running := φ.running.map (Handler.receive .none) }
  /-- the other steps of the two tasks; `extra` is what they put into the queue of the worker -/
  | task {φ : Front} {τ : Sys} {extra : List Msg} (hs : TaskStepIn W env φ.sys τ) (hq : τ.lspQ = φ.sys.lspQ ++ extra) :
      FrontStep W env lim calls φ .silent { φ with sys := τ, tags := φ.tags ++ extra.map fun _ => none }
  /-- a delayed task expires -/
  | delayed {φ : Front} {τ : Sys} {s : Server} {t : Timer} {extra : List Msg} (hs : EnvStep φ.sys τ) (hw : φ.sys.worker = some s)
      (ht : t ∈ s.timers) (hτ : τ.worker = some { s with timers := s.timers.erase t }) (hq : τ.lspQ = φ.sys.lspQ ++ extra) :
      FrontStep W env lim calls φ .silent { φ with sys := τ, tags := φ.tags ++ extra.map fun _ => none }
  /-- a handler returns -/
  | answer {φ : Front} {pre post : List Handler} {h : Handler} {r : Reply} (hr : φ.running = pre ++ h :: post) (hp : h.phase = .finished r) :
      FrontStep W env lim calls φ (.answered h.id (some r)) { φ with running := pre ++ post }
  /-- the client cancels a request -/
  | cancel {φ : Front} {pre post : List Handler} {h : Handler} (hr : φ.running = pre ++ h :: post) (hc : h.call.request = true) :
      FrontStep W env lim calls φ (.answered h.id none) { φ with running := pre ++ post }

/-- a run from the start of the process and what can be observed of it -/
inductive FrontRun (W : World → Prop) (env : Env) (lim : Nat) (calls : List ClientCall) : List FrontEvent → Front → Prop where
  | init : FrontRun W env lim calls [] Front.init
  | step {es : List FrontEvent} {φ ψ : Front} {e : FrontEvent} (h : FrontRun W env lim calls es φ) (hs : FrontStep W env lim calls φ e ψ) :
      FrontRun W env lim calls (es ++ [e]) ψ

end JinjaLsp
