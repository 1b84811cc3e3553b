import Verif.Model.Server
/-
  backend.rs:32-154: the calls of the client and the message each of them puts into the queue of the worker.
  Not modelled: the other methods of `LanguageServer` that backend.rs does not override (tower-lsp answers them itself and no
  message is sent).
-/

namespace JinjaLsp

/-- The methods of `impl LanguageServer for Backend` (backend.rs:32-154), and `will_save`, which it does not override. -/
inductive ClientCall where
  | initialize (client : Option Str) (options : Option (Option JinjaConfig))
  | initialized
  | didOpen (uri text : Str)
  | didClose (uri : Str)
  | didChange (uri : Str) (changes : List TextChange)
  | didSave (uri : Str)
  | willSave (uri : Str)
  | completion (uri : Str) (pos : Position) (trigger : TriggerKind)
  | hover (uri : Str) (pos : Position)
  | goto (uri : Str) (pos : Position)
  | codeAction (uri : Str) (start : Position)
  | executeCommand (command : Str)
  | documentSymbol (uri : Str)
  | didChangeConfiguration (settings : Option JinjaConfig)
  | shutdown

/-- What a call sends to the worker; `none`: nothing (`did_close` backend.rs:58, `shutdown` backend.rs:151-153,
`will_save` is left to tower-lsp, which logs a warning). -/
def ClientCall.msg : ClientCall → Option Msg
  | .initialize c o => some (.initialize c o)
  | .initialized => some .initialized
  | .didOpen u t => some (.didOpen u t)
  | .didClose _ => none
  | .didChange u cs => some (.didChange u cs)
  | .didSave u => some (.didSave u)
  | .willSave _ => none
  | .completion u p t => some (.completion u p t)
  | .hover u p => some (.hover u p)
  | .goto u p => some (.goto u p)
  | .codeAction u p => some (.codeAction u p)
  | .executeCommand c => some (.executeCommand c)
  | .documentSymbol u => some (.documentSymbol u)
  | .didChangeConfiguration c => some (.didChangeConfiguration c)
  | .shutdown => none

/-- A session: each call is processed before the next one; a call without message is answered by backend.rs. -/
def clientRun (env : Env) : Option Server → List (World × ClientCall) → Option Server × List Reply
  | s, [] => (s, [])
  | s, c :: cs =>
    match c.2.msg with
    | none =>
      let rest := clientRun env s cs
      (rest.1, .none :: rest.2)
    | some m =>
      let r := workerStep env c.1 s m
      let rest := clientRun env r.1 cs
      (rest.1, r.2 :: rest.2)

end JinjaLsp
