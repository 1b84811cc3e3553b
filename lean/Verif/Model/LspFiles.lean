import Verif.Model.Helper
import Verif.Model.Rope
/-
  jinja-lsp/src/lsp_files.rs
-/

namespace JinjaLsp

abbrev Diags := List (JinjaDiagnostic × Identifier)

/-- lsp_files.rs:50-62 `LspFiles`.  The outer map of `trees` always has exactly the two keys
(`Default`, 916-936), so it is a function; `parserBackend`/`queriesBackend` are the grammars the backend parser
and backend queries are set to; `diagnosticsTask` is a timer handle, `mainChannel` whether it is `Some`. -/
structure LspFiles where
  trees : LangType → HMap Str Tree
  documents : HMap Str Rope
  parserBackend : Grammar
  queriesBackend : Grammar
  config : JinjaConfig
  diagnosticsTask : Option Nat
  mainChannel : Bool
  variables : Variables
  codeActions : HMap Str (List Identifier)
  isVscode : Bool
  ignoreGlobals : Bool

/-- lsp_files.rs:1002-1005 `JinjaCodeAction`. -/
inductive JinjaCodeAction where
  | reset
  | createTemplate (name : Str)
deriving DecidableEq, Repr

/-- a content change of `DidChangeTextDocumentParams` -/
structure TextChange where
  range : Option Range
  text : Str
deriving DecidableEq, Repr

/-- `CompletionContext.trigger_kind` (`none`: no context) -/
inductive TriggerKind where
  | none | invoked | triggerCharacter | incomplete
deriving DecidableEq, Repr

structure TextEdit where
  range : Range
  newText : Str
deriving DecidableEq, Repr

/-- `CompletionTextEdit` -/
inductive CompletionEdit where
  | edit (e : TextEdit)
  | insertReplace (newText : Str) (insert replace : Range)
deriving DecidableEq, Repr

/-- `InsertTextFormat` -/
inductive InsertFormat where
  | plainText | snippet
deriving DecidableEq, Repr

/-- `CompletionItem` (fields that are set, and `insert_text_format`, which is left at its default `None` everywhere) -/
structure CompletionItem where
  label : Str
  detail : Option Str
  kind : Option ItemKind
  documentation : Option Str := none
  textEdit : Option CompletionEdit := none
  additional : Option (List TextEdit) := none
  format : Option InsertFormat := none
deriving DecidableEq, Repr

structure Location where
  uri : Str
  range : Range
deriving DecidableEq, Repr

/-- `GotoDefinitionResponse` (variants in use) -/
inductive GotoResponse where
  | scalar (l : Location)
  | array (ls : List Location)
deriving DecidableEq, Repr

structure DocSymbol where
  name : Str
  kind : SymKind
  range : Range
  selectionRange : Range
deriving DecidableEq, Repr

/-- `CodeActionOrCommand` values in use: a command, or a "create file" quick fix -/
inductive CodeActionItem where
  | command (title command : Str)
  | createFile (title : Str) (uri : Str) (overwrite ignoreIfExists : Bool)
deriving DecidableEq, Repr

namespace LspFiles

/-- lsp_files.rs:915-936 `Default`. -/
def default : LspFiles :=
  ⟨fun _ => HMap.empty, HMap.empty, .rust, .rust, JinjaConfig.default, none, false, HMap.empty, HMap.empty,
   false, false⟩

/-- lsp_files.rs:938-964 `Clone` (parsers and queries are fresh defaults, the task handle is dropped). -/
def clone (f : LspFiles) : LspFiles :=
  { f with parserBackend := .rust, queriesBackend := .rust, diagnosticsTask := none }

/-- `trees.get(&lang).insert(name, tree)` -/
def setTree (f : LspFiles) (lang : LangType) (name : Str) (t : Tree) : LspFiles :=
  { f with trees := fun l => if l = lang then (f.trees lang).insert name t else f.trees l }

/-- parsers.rs:11-21 `parse`: which grammar -/
def grammar (f : LspFiles) : LangType → Grammar
  | .template => .jinja
  | .backend => f.parserBackend

/-- parsers.rs:11-21 `Parsers::parse`. -/
def parse (env : Env) (f : LspFiles) (lang : LangType) (text : Str) (old : Option Tree) : Option Tree :=
  if env.parseFails (f.grammar lang) text old then none else some (.parsed (f.grammar lang) text old)

/-- lsp_files.rs:124-146 `add_tree`. -/
def addTree (env : Env) (f : LspFiles) (name : Str) (lang : LangType) (content : Str) : LspFiles :=
  match f.parse env lang content ((f.trees lang).get? name) with
  | none => f
  | some t => f.setTree lang name t

/-- lsp_files.rs:83-103: the variables of a backend file -/
def backendVariables (env : Env) (f : LspFiles) (tree : Tree) (content : Str) : List Identifier :=
  backendDefinitionQuery env f.queriesBackend tree Point.zero content true ++
    (backendTemplatesQuery env f.queriesBackend tree Point.zero content true).templates

/-- lsp_files.rs:79-122 `add_variables`. -/
def addVariables (env : Env) (f : LspFiles) (name : Str) (lang : LangType) (content : Str) : Res LspFiles :=
  match (f.trees lang).get? name with
  | none => .ok f
  | some tree =>
    match lang with
    | .backend =>
      .ok { f with variables := f.variables.insert name (f.backendVariables env tree content)
                   codeActions := f.codeActions.insert name [] }
    | .template =>
      if (snippetsQuery env tree Point.zero content true).isError then .ok f
      else
        match definitionQuery env tree Point.zero content true with
        | .error e => .error e
        | .ok defs =>
          .ok { f with variables := f.variables.insert name defs.identifiers
                       codeActions := f.codeActions.insert name [] }

/-- lsp_files.rs:65-77 `read_file`. -/
def readFile (env : Env) (w : World) (f : LspFiles) (path : Str) (lang : LangType) : Res LspFiles :=
  match w.canonicalize path with
  | .error _ => .ok f
  | .ok name =>
    match w.readFile name with
    | none => .ok f
    | some content =>
      let uri := c!"file://" ++ name
      let f1 := { f with documents := f.documents.insert uri content }
      (f1.addTree env uri lang content).addVariables env uri lang content

/-- lsp_files.rs:148-163 `input_edit` (the stored tree is edited in place before parsing). -/
def inputEdit (env : Env) (f : LspFiles) (file : Str) (code : Str) (e : InputEdit)
    (lang : Option LangType) : LspFiles :=
  match lang with
  | none => f
  | some lang =>
    match (f.trees lang).get? file with
    | none => f
    | some old =>
      match f.parse env lang code (some (.edited old e)) with
      | none => f.setTree lang file (.edited old e)
      | some t => f.setTree lang file t

/-- lsp_files.rs:170-186: apply the content changes to the rope one after the other; the boolean is `false`
when a change without range stopped the processing (`change.range?`). -/
def applyChanges (prof : Profile) : Rope → List TextChange → Res (Rope × List (Str × InputEdit) × Bool)
  | t, [] => .ok (t, [], true)
  | t, c :: cs =>
    match c.range with
    | none => .ok (t, [], false)
    | some range =>
      match Rope.applyChange prof t range c.text with
      | .error e => .error e
      | .ok (t1, ie) =>
        match applyChanges prof t1 cs with
        | .error e => .error e
        | .ok (t2, rest, fin) => .ok (t2, (t1, ie) :: rest, fin)

/-- lsp_files.rs:165-205 `did_change`.  `handle` is the handle of the task that may be spawned; the boolean
says whether it was (then the task `f.diagnosticsTask` was aborted). -/
def didChange (env : Env) (f : LspFiles) (uri : Str) (changes : List TextChange) (handle : Nat) :
    Res (LspFiles × Bool) :=
  match f.documents.get? uri with
  | none => .ok (f, false)
  | some rope =>
    let lang := fileExt uri
    match applyChanges env.profile rope changes with
    | .error e => .error e
    | .ok (rope', edits, fin) =>
      let f1 := { f with documents := f.documents.insert uri rope' }
      if !fin then .ok (f1, false)
      else
        let f2 := edits.foldl (fun f (ch : Str × InputEdit) => f.inputEdit env uri ch.1 ch.2 lang) f1
        .ok ({ f2 with diagnosticsTask := some handle }, true)

/-- lsp_files.rs:207-225 `read_tree`. -/
def readTree (env : Env) (w : World) (f : LspFiles) (name : Str) : Res (Option Diags) :=
  match f.documents.get? name with
  | none => .ok none
  | some content =>
    match fileExt name with
    | none => .ok none
    | some lang =>
      match (f.trees lang).get? name with
      | none => .ok none
      | some tree =>
        searchErrors env w tree content f.variables name f.config.templates lang f.ignoreGlobals

/-- lsp_files.rs:327-331 `delete_variables`. -/
def deleteVariables (f : LspFiles) (uri : Str) : LspFiles :=
  match f.variables.get? uri with
  | none => f
  | some _ => { f with variables := f.variables.insert uri [] }

/-- lsp_files.rs:227-246 `did_save`; the result is the `DiagnosticMessage::Errors` map. -/
def didSave (env : Env) (w : World) (f : LspFiles) (uri : Str) :
    Res (LspFiles × Option (HMap Str Diags)) :=
  match fileExt uri with
  | none => .ok (f, none)
  | some lang =>
    match f.documents.get? uri with
    | none => .ok (f, none)
    | some content =>
      match (f.deleteVariables uri).addVariables env uri lang content with
      | .error e => .error e
      | .ok f1 =>
        match f1.readTree env w uri with
        | .error e => .error e
        | .ok none => .ok (f1, some (HMap.empty.insert uri []))
        | .ok (some v) => .ok (f1, some (HMap.empty.insert uri v))

/-- lsp_files.rs:782-803 `did_open`. -/
def didOpen (env : Env) (w : World) (f : LspFiles) (name : Str) (content : Str) (ignore : Bool) :
    Res (LspFiles × Option (HMap Str Diags)) :=
  match fileExt name with
  | none => .ok (f, none)
  | some lang =>
    let f1 := f.deleteVariables name
    let f2 := { f1 with documents := f1.documents.insert name content }
    match (f2.addTree env name lang content).addVariables env name lang content with
    | .error e => .error e
    | .ok f3 =>
      if ignore then .ok (f3, some HMap.empty)
      else
        match f3.readTree env w name with
        | .error e => .error e
        | .ok none => .ok (f3, none)
        | .ok (some v) => .ok (f3, some (HMap.empty.insert name v))

/-- lsp_files.rs:248-325 `completion`. -/
def completion (env : Env) (f : LspFiles) (uri : Str) (pos : Position) (trigger : TriggerKind) :
    Res (Option (CompletionType × Bool)) :=
  if !(trigger = .triggerCharacter || trigger = .invoked) then .ok none
  else
    let point := toPoint pos
    match fileExt uri with
    | none => .ok none
    | some ext =>
      match (f.trees ext).get? uri, f.documents.get? uri with
      | some tree, some content =>
        match ext with
        | .template =>
          match (snippetsQuery env tree point content false).toComplete env.profile point with
          | .error e => .error e
          | .ok (some _) =>
            match uadd32 env.profile (toPosition2 point).character 1 with
            | .error e => .error e
            | .ok ch =>
              .ok (some (.snippets ⟨toPosition2 point, ⟨(toPosition2 point).line, ch⟩⟩, false))
          | .ok none =>
            match objectsQuery env tree point content false with
            | .error e => .error e
            | .ok objects =>
              match objects.completion env.profile point with
              | .error e => .error e
              | .ok (some c) => .ok (some c)
              | .ok none =>
                match ((templatesQuery env tree point content false).inTemplate.bind
                    (fun i => i.getIdentifier point)) with
                | none => .ok none
                | some identifier =>
                  match completionStart env.profile point identifier with
                  | .error e => .error e
                  | .ok none => .ok none
                  | .ok (some start) =>
                    .ok (some (.includedTemplate start (toRange (identifier.start, identifier.stop)), false))
        | .backend =>
          match (backendTemplatesQuery env f.queriesBackend tree point content false).inTemplate point with
          | none => .ok none
          | some identifier =>
            match completionStart env.profile point identifier with
            | .error e => .error e
            | .ok none => .ok none
            | .ok (some start) =>
              .ok (some (.includedTemplate start (toRange (identifier.start, identifier.stop)), false))
      | _, _ => .ok none

/-- lsp_files.rs:333-374 `hover`. -/
def hover (env : Env) (f : LspFiles) (uri : Str) (pos : Position) :
    Res (Option (Identifier × CompletionType)) :=
  if fileExt uri ≠ some .template then .ok none
  else
    let point := toPoint pos
    match (f.trees .template).get? uri, f.documents.get? uri with
    | some tree, some content =>
      match objectsQuery env tree point content false with
      | .error e => .error e
      | .ok objects =>
        if objects.isHover point then
          match objects.getLastId with
          | none => .ok none
          | some object =>
            if object.isFilter then .ok (some (Identifier.ofObject object, .filter))
            else if object.isTest then .ok (some (Identifier.ofObject object, .test))
            else .ok (some (Identifier.ofObject object, .identifier))
        else .ok none
    | _, _ => .ok none

/-- `item.name.split('.').next().unwrap_or(&item.name)` (lsp_files.rs:440, 863) -/
def firstSegment (name : Str) : Str := ((splitChar '.' name).head?).getD name

/-- lsp_files.rs:403-418: the definition in the same file -/
def localDefinition (f : LspFiles) (uri : Str) (ident : Str) (point : Point) : Option GotoResponse :=
  match f.variables.get? uri with
  | none => none
  | some variables =>
    match iterMax (variables.filter fun item =>
        decide (item.name = ident) && decide (item.start ≤ point) && decide (point ≤ item.scopeEnd)) with
    | none => none
    | some max => some (.scalar ⟨uri, ⟨toPosition2 max.start, toPosition2 max.stop⟩⟩)

/-- lsp_files.rs:423-430, 470-477: the file a template name refers to -/
def templateLocation (env : Env) (w : World) (f : LspFiles) (name : Str) : Option GotoResponse :=
  match w.canonicalize (pathPush f.config.templates name) with
  | .error _ => none
  | .ok buffer =>
    match env.urlParse (c!"file://" ++ buffer) with
    | none => none
    | some url => some (.scalar ⟨url, Range.zero⟩)

/-- lsp_files.rs:443-456: location of a variable of another file; `unwrap` may panic -/
def variableLocation (env : Env) (file : Str) (v : Identifier) : Res Location :=
  let target := if v.start = Point.zero ∧ v.stop = Point.zero then file ++ '-' :: v.name else file
  match env.urlParse target with
  | none => .error .unwrap
  | some uri => .ok ⟨uri, ⟨toPosition2 v.start, toPosition2 v.stop⟩⟩

/-- lsp_files.rs:439-441: variables of a file whose first dotted segment is the identifier -/
def segmentMatches (ident : Str) (vs : List Identifier) : List Identifier :=
  vs.filter fun v => decide (firstSegment v.name = ident)

/-- `for variable in variables` of lsp_files.rs:442-457 -/
def collectLocations (env : Env) (file : Str) : List Identifier → Res (List Location)
  | [] => .ok []
  | v :: vs =>
    match variableLocation env file v with
    | .error e => .error e
    | .ok l =>
      match collectLocations env file vs with
      | .error e => .error e
      | .ok ls => .ok (l :: ls)

/-- lsp_files.rs:435-458: the loop over all files -/
def collectFiles (env : Env) (uri ident : Str) : List (Str × List Identifier) → Res (List Location)
  | [] => .ok []
  | file :: fs =>
    if file.1 = uri then collectFiles env uri ident fs
    else
      match collectLocations env file.1 (segmentMatches ident file.2) with
      | .error e => .error e
      | .ok ls =>
        match collectFiles env uri ident fs with
        | .error e => .error e
        | .ok ls' => .ok (ls ++ ls')

/-- lsp_files.rs:376-480 `goto_definition`. -/
def gotoDefinition (env : Env) (w : World) (f : LspFiles) (uri : Str) (pos : Position) :
    Res (Option GotoResponse) :=
  match fileExt uri with
  | none => .ok none
  | some lang =>
    let point := toPoint pos
    match (f.trees lang).get? uri, f.documents.get? uri with
    | some tree, some content =>
      match lang with
      | .template =>
        match objectsQuery env tree point content false with
        | .error e => .error e
        | .ok objects =>
          let ident := objects.isIdent point
          match ident.bind fun ident => f.localDefinition uri ident point with
          | some r => .ok (some r)
          | none =>
            match ((templatesQuery env tree point content false).inTemplate.bind
                (fun i => i.getIdentifier point)).bind (fun i => f.templateLocation env w i.name) with
            | some r => .ok (some r)
            | none =>
              match collectFiles env uri (ident.getD []) (w.order.shuffle 2 f.variables.entries) with
              | .error e => .error e
              | .ok all => .ok (some (.array all))
      | .backend =>
        match (backendTemplatesQuery env f.queriesBackend tree point content false).inTemplate point with
        | none => .ok none
        | some template => .ok (f.templateLocation env w template.name)
    | _, _ => .ok none

/-- lsp_files.rs:482-519 `code_action`. -/
def codeAction (env : Env) (f : LspFiles) (uri : Str) (pos : Position) : Res (Option JinjaCodeAction) :=
  match fileExt uri with
  | none => .ok none
  | some lang =>
    let point := toPoint pos
    match (f.trees lang).get? uri, f.codeActions.get? uri with
    | some tree, some actions =>
      let action := actions.find? fun item => decide (item.start ≤ point) && decide (point ≤ item.stop)
      match lang with
      | .template =>
        match f.documents.get? uri with
        | none => .ok none
        | some content =>
          match action with
          | some a => .ok (some (.createTemplate a.name))
          | none =>
            match objectsQuery env tree point content false with
            | .error e => .error e
            | .ok objects => if objects.inExpr point then .ok (some .reset) else .ok none
      | .backend =>
        match action with
        | some a => .ok (some (.createTemplate a.name))
        | none => .ok none
    | _, _ => .ok none

/-- lsp_files.rs:521-583 `process_code_actions`; the boolean says whether a delayed save was scheduled. -/
def processCodeActions (env : Env) (w : World) (f : LspFiles) (a : JinjaCodeAction) :
    Res (List CodeActionItem × Bool) :=
  match a with
  | .reset =>
    .ok ([.command c!"Reset variables" c!"reset_variables", .command c!"Warn about unused" c!"warn"], false)
  | .createTemplate template =>
    match w.canonicalize f.config.templates with
    | .error _ => .ok ([], true)
    | .ok path =>
      match env.urlParse (c!"file:///" ++ pathPush path (pathItems template)) with
      | none => .error .unwrap
      | some uri => .ok ([.createFile c!"Generate new template" uri false true], true)

/-- lsp_files.rs:585-593 `add_code_actions`. -/
def addCodeActions (o : HashOrder) (f : LspFiles) (m : HMap Str (List Identifier)) : LspFiles :=
  (o.shuffle 3 m.entries).foldl
    (fun f (e : Str × List Identifier) => { f with codeActions := f.codeActions.insert e.1 e.2 }) f

/-- lsp_files.rs:596-601: the loop of `read_trees` -/
def readTreesLoop (env : Env) (w : World) (f : LspFiles) : List Str → HMap Str Diags → Res (HMap Str Diags)
  | [], m => .ok m
  | n :: ns, m =>
    match f.readTree env w n with
    | .error e => .error e
    | .ok none => readTreesLoop env w f ns m
    | .ok (some v) => readTreesLoop env w f ns (m.insert n v)

/-- lsp_files.rs:595-602 `read_trees` (started with an empty map, config.rs:84). -/
def readTrees (env : Env) (w : World) (f : LspFiles) : Res (HMap Str Diags) :=
  readTreesLoop env w f ((w.order.shuffle 4 (f.trees .template).entries).map Prod.fst) HMap.empty

/-- lsp_files.rs:618-628: the variables of this file visible at the position -/
def visibleAt (p : Point) (v : Identifier) : Bool :=
  (decide (v.idType ≠ .templateBlock) && decide (v.idType ≠ .jinjaTemplate)) &&
    (decide (v.stop ≤ p) && decide (p ≤ v.scopeEnd))

/-- lsp_files.rs:633-668: the completion item of a variable of this file (`none`: not pushed) -/
def variableItem (isVscode : Bool) (startItem : Str) (range : Range) (v : Identifier) :
    Option CompletionItem :=
  let item : CompletionItem :=
    { label := v.name, detail := some v.idType.completionDetail, kind := some v.idType.completionKind }
  if startItem.isEmpty then some item
  else if startItem.isPrefixOf v.name then
    if isVscode then
      some { item with textEdit := some (.edit ⟨⟨range.start, range.start⟩, []⟩)
                       additional := some [⟨range, startItem⟩] }
    else some { item with textEdit := some (.insertReplace v.name range range) }
  else none

/-- lsp_files.rs:630-679: the loop with the set of names already seen -/
def variableItems (isVscode : Bool) (startItem : Str) (range : Range) :
    List Str → List Identifier → List CompletionItem
  | _, [] => []
  | names, v :: vs =>
    if v.name ∈ names then variableItems isVscode startItem range names vs
    else
      match variableItem isVscode startItem range v with
      | some item => item :: variableItems isVscode startItem range (v.name :: names) vs
      | none => variableItems isVscode startItem range (v.name :: names) vs

/-- lsp_files.rs:688-693 -/
def backendItem (v : Identifier) : CompletionItem :=
  { label := v.name, detail := some v.idType.completionDetail, kind := some v.idType.completionKind }

/-- lsp_files.rs:604-698 `read_variables`. -/
def readVariables (w : World) (f : LspFiles) (uri : Str) (pos : Position)
    (starting : Option (Str × Range)) (nodejsUri : Option Str) : Option (List CompletionItem) :=
  match f.variables.get? uri with
  | none => none
  | some thisFile =>
    let st := starting.getD ([], Range.zero)
    let items := variableItems f.isVscode st.1 st.2 [] (thisFile.filter (visibleAt (toPoint pos)))
    let files := (w.order.shuffle 5 f.variables.entries).filter fun file =>
      match nodejsUri with
      | none => true
      | some u => decide (file.1 = u)
    some (items ++ files.flatMap fun file =>
      (file.2.filter fun v => v.idType = .backendVariable).map backendItem)

/-- `s.replacen('/', "", 1)` -/
def removeFirstSlash : Str → Str
  | [] => []
  | c :: r => if c = '/' then r else c :: removeFirstSlash r

/-- lsp_files.rs:716-756: the item for one template URI; `none` is the early return at line 725 -/
def templateItem (f : LspFiles) (range : Range) (startPoint : Position) (template : Str) :
    Option CompletionItem :=
  let c := f.config.templates.filter fun ch => ch ≠ '.'
  match (splitStr c template).tail.head? with
  | none => none
  | some part =>
    let label := removeFirstSlash part
    let newText := '"' :: label ++ ['"']
    some <|
      if f.isVscode then
        { label := label, detail := some c!"Jinja template", kind := some .file
          textEdit := some (.edit ⟨⟨startPoint, startPoint⟩, []⟩), additional := some [⟨range, newText⟩] }
      else
        { label := label, detail := some c!"Jinja template", kind := some .file
          textEdit := some (.insertReplace newText range range) }

/-- lsp_files.rs:715-758: the loop; the first failing item makes the whole function return `None` -/
def templateItems (f : LspFiles) (range : Range) (startPoint : Position) :
    List Str → Option (List CompletionItem)
  | [] => some []
  | t :: ts =>
    match f.templateItem range startPoint t with
    | none => none
    | some i =>
      match templateItems f range startPoint ts with
      | none => none
      | some is => some (i :: is)

/-- lsp_files.rs:700-761 `read_templates`. -/
def readTemplates (w : World) (f : LspFiles) (pfx : Str) (range : Range) (startPoint : Position) :
    Option (List CompletionItem) :=
  let pfx := if pfx.isEmpty then c!"file:///" else pfx
  f.templateItems range startPoint
    (((w.order.shuffle 6 (f.trees .template).entries).map Prod.fst).filter fun t => containsSub pfx t)

/-- lsp_files.rs:763-780 `get_variable`. -/
def getVariable (f : LspFiles) (pfx : Str) (id : Str) (fileName : Str) : Option (List Str) :=
  match f.variables.get? id with
  | none => none
  | some vs =>
    some ((vs.filter fun v => containsSub pfx v.name).map (·.name) ++
      (((f.variables.get? fileName).getD []).filter fun v => containsSub pfx v.name).map (·.name))

/-- lsp_files.rs:805-822 `read_objects`. -/
def readObjects (env : Env) (f : LspFiles) (uri : Str) : Res (Option (List JinjaObject)) :=
  match f.documents.get? uri, fileExt uri with
  | some content, some lang =>
    match (f.trees lang).get? uri with
    | none => .ok none
    | some tree =>
      match objectsQuery env tree Point.zero content true with
      | .error e => .error e
      | .ok o => .ok (some o.objects)
  | _, _ => .ok none

/-- lsp_files.rs:824-839 `read_python_ids`. -/
def readPythonIds (env : Env) (w : World) (f : LspFiles) (uri : Str) : Option (List PythonIdentifier) :=
  match f.documents.get? uri, fileExt uri with
  | some content, some lang =>
    match (f.trees lang).get? uri with
    | none => none
    | some tree => some (pythonIdentifiers env w.order tree content 0)
  | _, _ => none

/-- lsp_files.rs:841-869 `data_type`. -/
def dataType (w : World) (f : LspFiles) (uri : Str) (hover : Identifier) : Option IdType :=
  match f.variables.get? uri with
  | none => none
  | some thisFile =>
    match iterMax ((thisFile.filter fun v => decide (v.idType ≠ .templateBlock)).filter fun v =>
        decide (v.stop ≤ hover.start) && decide (hover.start ≤ v.scopeEnd) && decide (hover.name = v.name)) with
    | some v => some v.idType
    | none =>
      if (w.order.shuffle 7 f.variables.entries).any fun file =>
        decide (file.1 ≠ uri) && decide (0 < (segmentMatches hover.name file.2).length)
      then some .backendVariable
      else none

/-- lsp_files.rs:871-892 `document_symbols`. -/
def documentSymbols (f : LspFiles) (uri : Str) : Option (List DocSymbol) :=
  match f.variables.get? uri with
  | none => none
  | some vs =>
    some (vs.map fun v =>
      ⟨v.name, v.idType.symbolKind, toRange (v.start, v.stop), toRange (v.start, v.stop)⟩)

/-- lsp_files.rs:905-911: removal of one document -/
def removeDocument (f : LspFiles) (i : Str) : LspFiles :=
  { f with documents := f.documents.erase i
           variables := f.variables.erase i
           trees := fun l => if l = .template then (f.trees .template).erase i else f.trees l }

/-- lsp_files.rs:898-912 `delete_documents_with_id`. -/
def deleteDocumentsWithId (o : HashOrder) (f : LspFiles) (id : Str) : LspFiles :=
  (((o.shuffle 8 f.documents.entries).map Prod.fst).filter fun k => containsSub id k).foldl removeDocument f

end LspFiles
end JinjaLsp
