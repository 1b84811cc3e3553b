import Verif.Model.LspFiles
import Verif.Model.Tables
import Verif.Model.Capabilities
/-
  channels/lsp.rs (the worker), channels/diagnostics.rs (the diagnostics task), config.rs (search_config,
  walkdir), backend.rs (what the client gets to see).
-/

namespace JinjaLsp

/-! ## config.rs -/

/-- config.rs:36-46: the loop of `search_config` -/
def searchConfigIn (env : Env) (w : World) : List Str → Option JinjaConfig
  | [] => none
  | file :: files =>
    let contents := (w.readFile file).getD []
    if contents.isEmpty then searchConfigIn env w files
    else
      match env.tomlConfig contents with
      | some c => some { c with userDefined := true }
      | none => searchConfigIn env w files

/-- config.rs:34-48 `search_config`. -/
def searchConfig (env : Env) (w : World) : Option JinjaConfig :=
  searchConfigIn env w [c!"pyproject.toml", c!"Cargo.toml", c!"jinja-lsp.toml"]

/-- config.rs:87-97: one directory; `.ok none` is the early return of an error (`?`). -/
def walkItems (env : Env) (w : World) : LspFiles → List WalkItem → Res (Option LspFiles)
  | f, [] => .ok (some f)
  | _, .err :: _ => .ok none
  | f, .nonFile _ :: is => walkItems env w f is
  | f, .file path :: is =>
    match fileExt path with
    | none => walkItems env w f is
    | some ext =>
      match f.readFile env w path ext with
      | .error e => .error e
      | .ok f' => walkItems env w f' is

/-- config.rs:85-98: all directories -/
def walkDirs (env : Env) (w : World) : LspFiles → List Str → Res (Option LspFiles)
  | f, [] => .ok (some f)
  | f, d :: ds =>
    match walkItems env w f (w.walk d) with
    | .error e => .error e
    | .ok none => .ok none
    | .ok (some f') => walkDirs env w f' ds

/-- config.rs:77-83: the workspace before any file is read -/
def walkStart (config : JinjaConfig) : LspFiles :=
  let f := { LspFiles.default with config := config, ignoreGlobals := config.hideUndefined.getD false }
  if config.lang = c!"python" then { f with parserBackend := .python, queriesBackend := .python } else f

/-- config.rs:73-102 `walkdir`; `.ok none` is `Err`. -/
def walkdir (env : Env) (w : World) (config : JinjaConfig) : Res (Option (HMap Str Diags × LspFiles)) :=
  match walkDirs env w (walkStart config) (config.templates :: config.backend) with
  | .error e => .error e
  | .ok none => .ok none
  | .ok (some f) =>
    match f.readTrees env w with
    | .error e => .error e
    | .ok diags => .ok (some (diags, f))

/-! ## The worker (channels/lsp.rs) -/

/-- lsp.rs:370-396 `LspMessage` (the oneshot senders are represented by the `Reply` of the step) -/
inductive Msg where
  /-- client name, initialization options (`some none`: present but not a valid configuration) -/
  | initialize (client : Option Str) (options : Option (Option JinjaConfig))
  | initialized
  | didOpen (uri text : Str)
  | didChange (uri : Str) (changes : List TextChange)
  | didSave (uri : Str)
  | completion (uri : Str) (pos : Position) (trigger : TriggerKind)
  | hover (uri : Str) (pos : Position)
  | goto (uri : Str) (pos : Position)
  | codeAction (uri : Str) (start : Position)
  | executeCommand (command : Str)
  | documentSymbol (uri : Str)
  | didChangeConfiguration (settings : Option JinjaConfig)
  | codeActions (m : HMap Str (List Identifier))

/-- A delayed task spawned by the server (lsp_files.rs:198-203, 574-579). `live`: it holds a channel; `typing`: it was
spawned by `did_change` (the first citation), not by a quick fix. -/
structure Timer where
  handle : Nat
  uri : Str
  live : Bool
  typing : Bool
deriving DecidableEq, Repr

/-- The variables of `lsp_task` (lsp.rs:38-42) and the delayed tasks it spawned that have not expired. -/
structure Server where
  config : JinjaConfig
  files : LspFiles
  timers : List Timer
  nextHandle : Nat

/-- lsp.rs:38-42 -/
def Server.init : Server := ⟨JinjaConfig.default, LspFiles.default, [], 0⟩

/-- What the worker sends to channels while processing one message, in order. -/
inductive Send where
  /-- `diagnostics_channel.send(Errors(m))` -/
  | diag (m : HMap Str Diags)
  /-- `lsp_channel.send(Initialized(..))` -/
  | initialized

/-- What the client receives as the answer (backend.rs:33-142; a dropped oneshot sender gives `Ok(None)`). -/
inductive Reply where
  | none
  | initializeResult (capabilities : Capabilities)
  | completion (items : Option (List CompletionItem))
  | hover (value : Option Str)
  | goto (r : Option GotoResponse)
  | codeAction (items : Option (List CodeActionItem))
  | symbols (s : Option (List DocSymbol))

/-- lsp.rs:217-243: snippet items -/
def snippetItem (isVscode : Bool) (range : Range) (s : Str × Str × Str) : CompletionItem :=
  { label := s.1, detail := some s.2.1, kind := some .snippet
    textEdit := if isVscode then none else some (.insertReplace s.2.2 range range) }

/-- lsp.rs:169-179, 188-198: filter and test items -/
def docItem (e : Str × Str) : CompletionItem :=
  { label := e.1, detail := none, kind := some .text, documentation := some e.2 }

/-- lsp.rs:163-257: from the completion type to the items -/
def completionItems (w : World) (f : LspFiles) (uri : Str) (pos : Position) :
    CompletionType → Option (List CompletionItem)
  | .filter => some (filterTable.map docItem)
  | .test => some (testTable.map docItem)
  | .identifier => f.readVariables w uri pos none none
  | .includedTemplate name range => f.readTemplates w name range pos
  | .snippets range => some (snippetTable.map (snippetItem f.isVscode range))
  | .incompleteIdentifier name range => f.readVariables w uri pos (some (name, range)) none
  | .incompleteFilter _ _ => none

/-- `table.iter().find(|e| e.name == name)` (lsp.rs:269, 284) -/
def lookupDoc (table : List (Str × Str)) (name : Str) : Option Str :=
  (table.find? fun e => decide (e.1 = name)).map Prod.snd

/-- lsp.rs:266-309: hover text -/
def hoverText (w : World) (f : LspFiles) (uri : Str) (h : Identifier × CompletionType) : Option Str :=
  if h.2 = .filter then lookupDoc filterTable h.1.name
  else if h.2 = .test then lookupDoc testTable h.1.name
  else (f.dataType w uri h.1).map IdType.completionDetail

namespace Server

/-- lsp.rs:46-111: the `Initialize` message -/
def onInitialize (env : Env) (w : World) (s : Server) (client : Option Str)
    (options : Option (Option JinjaConfig)) : Server :=
  let files := if client = some c!"Visual Studio Code" then { s.files with isVscode := true } else s.files
  let fallback := (searchConfig env w).getD s.config
  let config := match options with
    | some (some c) => { c with userDefined := true }
    | _ => fallback
  { s with files := files, config := config }

/-- lsp.rs:112-148: the `Initialized` message -/
def onInitialized (env : Env) (w : World) (s : Server) : Res (Server × List Send) :=
  if s.config.lang = c!"rust" ∨ s.config.lang = c!"python" then
    match walkdir env w s.config with
    | .error e => .error e
    | .ok none => .ok (s, [])
    | .ok (some (diags, f)) =>
      .ok ({ s with files := { f with isVscode := s.files.isVscode, config := s.config, mainChannel := true } },
        [.diag diags])
  else .ok (s, [])

/-- lsp.rs:149-151 with lsp_files.rs:194-203: `DidChange` and its timer -/
def onDidChange (env : Env) (s : Server) (uri : Str) (changes : List TextChange) : Res Server :=
  match s.files.didChange env uri changes s.nextHandle with
  | .error e => .error e
  | .ok (f, false) => .ok { s with files := f }
  | .ok (f, true) =>
    .ok { s with files := f
                 timers := s.timers.filter (fun t => decide (s.files.diagnosticsTask ≠ some t.handle)) ++
                   [⟨s.nextHandle, uri, s.files.mainChannel, true⟩]
                 nextHandle := s.nextHandle + 1 }

/-- the `Option<DiagnosticMessage>` of `did_open`/`did_save` (lsp.rs:153-155, 341-343) -/
def sends : Option (HMap Str Diags) → List Send
  | none => []
  | some m => [.diag m]

/-- lsp.rs:317-331: the `CodeAction` message -/
def onCodeAction (env : Env) (w : World) (s : Server) (uri : Str) (start : Position) :
    Res (Server × Option (List CodeActionItem)) :=
  match s.files.codeAction env uri start with
  | .error e => .error e
  | .ok none => .ok (s, none)
  | .ok (some a) =>
    match s.files.processCodeActions env w a with
    | .error e => .error e
    | .ok (items, false) => .ok (s, some items)
    | .ok (items, true) =>
      .ok ({ s with timers := s.timers ++ [⟨s.nextHandle, uri, s.files.mainChannel, false⟩]
                    nextHandle := s.nextHandle + 1 }, some items)

/-- lsp.rs:157-259: the answer to a completion request -/
def onCompletion (env : Env) (w : World) (s : Server) (uri : Str) (pos : Position) (tr : TriggerKind) :
    Res (Option (List CompletionItem)) :=
  match s.files.completion env uri pos tr with
  | .error e => .error e
  | .ok none => .ok none
  | .ok (some c) => .ok (completionItems w s.files uri pos c.1)

/-- lsp.rs:260-311: the answer to a hover request -/
def onHover (env : Env) (w : World) (s : Server) (uri : Str) (pos : Position) : Res (Option Str) :=
  match s.files.hover env uri pos with
  | .error e => .error e
  | .ok none => .ok none
  | .ok (some h) => .ok (hoverText w s.files uri h)

/-- lsp.rs:44-366: processing of one message -/
def handle (env : Env) (w : World) (s : Server) : Msg → Res (Server × List Send × Reply)
  | .initialize client options => .ok (s.onInitialize env w client options, [], .initializeResult announced)
  | .initialized =>
    match s.onInitialized env w with
    | .error e => .error e
    | .ok (s', out) => .ok (s', out, .none)
  | .didChange uri changes =>
    match s.onDidChange env uri changes with
    | .error e => .error e
    | .ok s' => .ok (s', [], .none)
  | .didSave uri =>
    match s.files.didSave env w uri with
    | .error e => .error e
    | .ok (f, m) => .ok ({ s with files := f }, sends m, .none)
  | .didOpen uri text =>
    match s.files.didOpen env w uri text false with
    | .error e => .error e
    | .ok (f, m) => .ok ({ s with files := f }, sends m, .none)
  | .completion uri pos tr =>
    match s.onCompletion env w uri pos tr with
    | .error e => .error e
    | .ok items => .ok (s, [], .completion items)
  | .hover uri pos =>
    match s.onHover env w uri pos with
    | .error e => .error e
    | .ok v => .ok (s, [], .hover v)
  | .goto uri pos =>
    match s.files.gotoDefinition env w uri pos with
    | .error e => .error e
    | .ok r => .ok (s, [], .goto r)
  | .codeAction uri start =>
    match s.onCodeAction env w uri start with
    | .error e => .error e
    | .ok (s', items) => .ok (s', [], .codeAction items)
  | .executeCommand command =>
    .ok (s, if command = c!"reset_variables" then [.initialized] else [], .none)
  | .documentSymbol uri => .ok (s, [], .symbols (s.files.documentSymbols uri))
  | .didChangeConfiguration settings =>
    let config := match settings with
      | some c => { c with userDefined := true }
      | none => s.config
    .ok ({ s with config := config }, if config.userDefined then [.initialized] else [], .none)
  | .codeActions m => .ok ({ s with files := s.files.addCodeActions w.order m }, [], .none)

/-- lsp.rs:43-366: the worker processes a sequence of messages (the outside world may be different each time) -/
def run (env : Env) : Server → List (World × Msg) → Res Server
  | s, [] => .ok s
  | s, m :: ms =>
    match s.handle env m.1 m.2 with
    | .error e => .error e
    | .ok (s', _, _) => run env s' ms

end Server

/-- The worker as the client sees it: a panic ends the tokio task (`Cargo.toml` does not set `panic = "abort"`);
from then on the oneshot sender of every request is dropped and backend.rs answers `Ok(None)`. -/
def workerStep (env : Env) (w : World) : Option Server → Msg → Option Server × Reply
  | none, _ => (none, .none)
  | some s, m =>
    match s.handle env w m with
    | .error _ => (none, .none)
    | .ok (s', _, r) => (some s', r)

/-- a sequence of messages with the replies -/
def workerRun (env : Env) : Option Server → List (World × Msg) → Option Server × List Reply
  | s, [] => (s, [])
  | s, m :: ms =>
    let r := workerStep env m.1 s m.2
    let rest := workerRun env r.1 ms
    (rest.1, r.2 :: rest.2)

/-! ## The diagnostics task (channels/diagnostics.rs) -/

/-- diagnostics.rs:26-33: the missing-template entries of a file -/
def missingTemplates (ds : Diags) : List Identifier :=
  (ds.filter fun d => d.1 = .templateNotFound).map Prod.snd

/-- diagnostics.rs:34-42: conversion of the diagnostics of a file -/
def toDiagnostics (ds : Diags) : List Diagnostic :=
  ds.map fun d => createDiagnostic d.2 d.1.severity d.1.message

/-- diagnostics.rs:25-45: the loop over files; result: what is published and the code actions -/
def diagLoop (env : Env) : List (Str × Diags) → HMap Str (List Identifier) →
    Res (List (Str × List Diagnostic) × HMap Str (List Identifier))
  | [], ca => .ok ([], ca)
  | e :: es, ca =>
    match env.urlParse e.1 with
    | none => .error .unwrap
    | some uri =>
      match diagLoop env es (ca.insert e.1 (missingTemplates e.2)) with
      | .error err => .error err
      | .ok (pubs, ca') => .ok ((uri, toDiagnostics e.2) :: pubs, ca')

/-- diagnostics.rs:25-45: what the loop has published when it panics: the files before the first one whose name is not a URL -/
def diagBefore (env : Env) : List (Str × Diags) → List (Str × List Diagnostic)
  | [] => []
  | e :: es =>
    match env.urlParse e.1 with
    | none => []
    | some uri => (uri, toDiagnostics e.2) :: diagBefore env es

/-- diagnostics.rs:23-49: processing of one `Errors` message: publications and the `CodeActions` message -/
def diagProcess (env : Env) (o : HashOrder) (m : HMap Str Diags) :
    Res (List (Str × List Diagnostic) × HMap Str (List Identifier)) :=
  diagLoop env (o.shuffle 9 m.entries) HMap.empty

end JinjaLsp
