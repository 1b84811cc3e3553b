import Verif.Model.Base
/-
  lsp.rs:63-109: what the server announces in its answer to `initialize`.
  Not modelled: fields that stay at their default and concern methods backend.rs does not override (references,
  renaming, formatting, …), `server_info`, `resolve_provider: false`, progress options.
-/

namespace JinjaLsp

/-- `lsp_types::TextDocumentSyncKind` -/
inductive SyncKind where
  | none | full | incremental
deriving DecidableEq, Repr

/-- the part of `lsp_types::ServerCapabilities` the server fills in; `none`: the field is not sent -/
structure Capabilities where
  /-- `text_document_sync.open_close` -/
  openClose : Option Bool := .none
  change : Option SyncKind := .none
  willSave : Option Bool := .none
  willSaveWaitUntil : Option Bool := .none
  save : Option Bool := .none
  /-- `completion_provider.trigger_characters` -/
  completion : Option (List Str) := .none
  hover : Option Bool := .none
  definition : Option Bool := .none
  references : Option Bool := .none
  codeAction : Option Bool := .none
  documentSymbol : Option Bool := .none
  /-- `execute_command_provider.commands` -/
  commands : Option (List Str) := .none
  /-- `position_encoding`: absent means UTF-16 -/
  positionEncoding : Option Str := .none
deriving DecidableEq, Repr

/-- lsp.rs:63-109 -/
def announced : Capabilities where
  change := some .incremental
  willSave := some true
  save := some true
  completion := some [c!"-", c!"\"", c!" ", c!"%", c!"{"]
  hover := some true
  definition := some true
  codeAction := some true
  documentSymbol := some true
  commands := some [c!"reset_variables", c!"warn"]

end JinjaLsp
