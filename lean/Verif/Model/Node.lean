import Verif.Model.LspFiles
import Verif.Model.Tables
/-
  jinja-lsp-nodejs/src/lib.rs
-/

namespace JinjaLsp.Node

/-- lib.rs:699-703 `Action`. -/
structure Action where
  name : Str
  description : Str
deriving DecidableEq, Repr

/-- lib.rs:547-563 `JsIdentifierType`: the identifier types plus `Link`. -/
inductive JsIdType where
  | ofIdType (t : IdType)
  | link
deriving DecidableEq, Repr

/-- lib.rs:565-573 `JsIdentifier` (positions are u32, `error` is always `None`). -/
structure JsIdentifier where
  start : Position
  stop : Position
  name : Str
  idType : JsIdType
deriving DecidableEq, Repr

/-- lib.rs:650-659 `JsCompletionItem` (`insert`/`replace` are always equal; completion type and kind follow from
`isFilter`: Filter/FIELD or Identifier/VARIABLE). -/
structure JsItem where
  isFilter : Bool
  label : Str
  description : Str
  newText : Option Str
  range : Option Range
deriving DecidableEq, Repr

/-- lib.rs:614-621 `JsHover` (fields that vary) -/
structure JsHover where
  value : Str
  range : Range
deriving DecidableEq, Repr

/-- lib.rs:630-637 `JsLocation` (`name` is always empty). -/
structure JsLocation where
  uri : Str
  range : Range
  isBackend : Bool
deriving DecidableEq, Repr

/-- lib.rs:48-57 `NodejsLspFiles` (the constant tables are left out). -/
structure NodeFiles where
  files : LspFiles
  counter : Nat
  actions : HMap Str (List Action)
  actionObjects : HMap Str (List (List Str))

/-- lib.rs:709-718 `impl From<&Action> for ActionObject`. -/
def actionFields (a : Action) : List Str := splitChar '.' a.name

/-- lib.rs:720-729 `impl From<&JinjaObject> for ActionObject`. -/
def objectFields (o : JinjaObject) : List Str := o.name :: o.fields.map Prod.fst

/-- lib.rs:731-742 `impl From<&PythonIdentifier> for ActionObject`. -/
def pythonFields (p : PythonIdentifier) : List Str := splitChar '.' p.field

/-- lib.rs:83-84, 102-103: the variable made from an action -/
def actionVariable (a : Action) : Identifier :=
  { Identifier.new a.name Point.zero Point.zero with idType := .backendVariable }

/-- `position.line += line` on u32 -/
def shiftPos (prof : Profile) (p : Position) (line : Nat) : Res Position :=
  match uadd32 prof p.line line with
  | .error e => .error e
  | .ok l => .ok ⟨l, p.character⟩

/-- lines 280-281, 444-445, 498-499: both ends of a range -/
def shiftRange (prof : Profile) (r : Range) (line : Nat) : Res Range :=
  match shiftPos prof r.start line with
  | .error e => .error e
  | .ok s =>
    match shiftPos prof r.stop line with
    | .error e => .error e
    | .ok t => .ok ⟨s, t⟩

/-- decimal representation of a `u32` (`{id}` in `format!`) -/
def decimal (n : Nat) : Str := (toString n).toList

/-- `Url::parse(&format!("file:///home/{filename}.{id}.{ext}")).unwrap()` (lib.rs:152, 264, 348, 478) -/
def docUri (env : Env) (filename : Str) (id : Nat) (ext : Str) : Res Str :=
  match env.urlParse (c!"file:///home/" ++ filename ++ '.' :: decimal id ++ '.' :: ext) with
  | none => .error .unwrap
  | some u => .ok u

namespace NodeFiles

/-- lib.rs:62-74 `new`. -/
def new : NodeFiles :=
  ⟨{ LspFiles.default with parserBackend := .python, queriesBackend := .python }, 0, HMap.empty, HMap.empty⟩

/-- lib.rs:78-93 `add_link_hints`. -/
def addLinkHints (n : NodeFiles) (uri : Str) (actions : Option (List Action)) : NodeFiles :=
  match actions with
  | none => n
  | some as =>
    { n with actions := n.actions.insert uri as
             actionObjects := n.actionObjects.insert uri (as.map actionFields) }

/-- lib.rs:96-115 `save_link_hint`. -/
def saveLinkHint (n : NodeFiles) (actions : Option (List Action)) (hint : Option Str) : NodeFiles :=
  let hint := hint.getD c!"temp"
  match actions with
  | none => n
  | some as =>
    { n with actionObjects := n.actionObjects.insert hint (as.map actionFields)
             files := { n.files with variables := n.files.variables.insert hint (as.map actionVariable) }
             actions := n.actions.insert hint as }

/-- lib.rs:118-123 `remove_temp_link_hint`. -/
def removeTempLinkHint (n : NodeFiles) (hint : Option Str) : NodeFiles :=
  let hint := hint.getD c!"temp"
  { n with files := { n.files with variables := n.files.variables.erase hint }
           actions := n.actions.erase hint
           actionObjects := n.actionObjects.erase hint }

/-- lib.rs:126-130 `delete_all`. -/
def deleteAll (o : HashOrder) (n : NodeFiles) (filename : Str) : NodeFiles :=
  { n with files := n.files.deleteDocumentsWithId o filename, counter := 0 }

/-- lib.rs:170-181, 198-209: the link made for a match -/
def link (prof : Profile) (start stop : Point) (name : Str) (line : Nat) : Res JsIdentifier :=
  match shiftPos prof (toPosition2 start) line with
  | .error e => .error e
  | .ok s =>
    match shiftPos prof (toPosition2 stop) line with
    | .error e => .error e
    | .ok t => .ok ⟨s, t, name, .link⟩

/-- lib.rs:168-183, 196-211: one link per matching hint of one candidate -/
def linksOf (prof : Profile) (line : Nat) (fields : List Str) (start stop : Point) (name : Str) :
    List (List Str) → Res (List JsIdentifier)
  | [] => .ok []
  | g :: gs =>
    if g = fields then
      match link prof start stop name line with
      | .error e => .error e
      | .ok l =>
        match linksOf prof line fields start stop name gs with
        | .error e => .error e
        | .ok ls => .ok (l :: ls)
    else linksOf prof line fields start stop name gs

/-- lib.rs:166-184, 194-212: all candidates; a candidate is (fields, start, end, name) -/
def allLinks (prof : Profile) (line : Nat) (hints : List (List Str)) :
    List (List Str × Point × Point × Str) → Res (List JsIdentifier)
  | [] => .ok []
  | c :: cs =>
    match linksOf prof line c.1 c.2.1 c.2.2.1 c.2.2.2 hints with
    | .error e => .error e
    | .ok ls =>
      match allLinks prof line hints cs with
      | .error e => .error e
      | .ok ls' => .ok (ls ++ ls')

/-- lib.rs:133-240 `add_one`. -/
def addOne (env : Env) (w : World) (n : NodeFiles) (id : Nat) (filename content : Str) (line : Nat)
    (ext : Str) (col : Option Nat) : Res (NodeFiles × List JsIdentifier) :=
  let content := List.replicate (col.getD 0) ' ' ++ content
  match docUri env filename id ext with
  | .error e => .error e
  | .ok uri =>
    match n.files.didOpen env w uri content true with
    | .error e => .error e
    | .ok (f, _) =>
      let n1 := { n with files := f }
      if ext = c!"jinja" then
        match f.readObjects env uri with
        | .error e => .error e
        | .ok none => .ok (n1, [])
        | .ok (some objects) =>
          match n.actionObjects.get? c!"temp" with
          | none => .ok (n1, [])
          | some hints =>
            match allLinks env.profile line hints
                (objects.map fun o => (objectFields o, o.location.1, o.lastFieldEnd, o.name)) with
            | .error e => .error e
            | .ok ls => .ok (n1, ls)
      else if ext = c!"py" then
        match f.readPythonIds env w uri with
        | none => .ok (n1, [])
        | some ids =>
          match n.actionObjects.get? c!"temp" with
          | none => .ok (n1, [])
          | some hints =>
            match allLinks env.profile line hints
                (ids.map fun p => (pythonFields p, p.start, p.stop, p.field)) with
            | .error e => .error e
            | .ok ls => .ok (n1, ls)
      else .ok (n1, [])

/-- lib.rs:246-251: shifted variables -/
def shiftAll (prof : Profile) (line : Nat) : List Identifier → Res (List JsIdentifier)
  | [] => .ok []
  | v :: vs =>
    match shiftPos prof (toPosition2 v.start) line with
    | .error e => .error e
    | .ok s =>
      match shiftPos prof (toPosition2 v.stop) line with
      | .error e => .error e
      | .ok t =>
        match shiftAll prof line vs with
        | .error e => .error e
        | .ok r => .ok (⟨s, t, v.name, .ofIdType v.idType⟩ :: r)

/-- lib.rs:243-253 `get_variables`. -/
def getVariables (env : Env) (n : NodeFiles) (id : Str) (line : Nat) : Res (Option (List JsIdentifier)) :=
  match n.files.variables.get? id with
  | none => .ok none
  | some vs =>
    match shiftAll env.profile line vs with
    | .error e => .error e
    | .ok r => .ok (some r)

/-- lib.rs:299-314: text shown for a variable -/
def variableHover (n : NodeFiles) (fullName : Str) (t : IdType) : Str :=
  match ((n.actions.get? c!"temp").getD []).find? (fun a => fullName.isPrefixOf a.name) with
  | some a => a.description
  | none => t.completionDetail ++ c!"\n\n---\n**" ++ fullName ++ c!"**"

/-- lib.rs:256-336 `hover`. -/
def hover (env : Env) (w : World) (n : NodeFiles) (id : Nat) (filename : Str) (line : Nat)
    (pos : Position) : Res (Option JsHover) :=
  match usub32 env.profile pos.line line with
  | .error e => .error e
  | .ok l =>
    match docUri env filename id c!"jinja" with
    | .error e => .error e
    | .ok uri =>
      match n.files.hover env uri ⟨l, pos.character⟩ with
      | .error e => .error e
      | .ok none => .ok none
      | .ok (some h) =>
        match shiftRange env.profile ⟨toPosition2 h.1.start, toPosition2 h.1.stop⟩ line with
        | .error e => .error e
        | .ok range =>
          if h.2 = .filter then
            .ok (((filterTable.find? fun e => decide (e.1 = h.1.name)).map Prod.snd).map fun v => ⟨v, range⟩)
          else
            .ok ((n.files.dataType w uri h.1).map fun t => ⟨n.variableHover h.1.name t, range⟩)

/-- lib.rs:339-467 `complete`. -/
def complete (env : Env) (w : World) (n : NodeFiles) (id : Nat) (filename : Str) (line : Nat)
    (pos : Position) : Res (Option (List JsItem)) :=
  match usub32 env.profile pos.line line with
  | .error e => .error e
  | .ok l =>
    match docUri env filename id c!"jinja" with
    | .error e => .error e
    | .ok uri =>
      match n.files.completion env uri ⟨l, pos.character⟩ .triggerCharacter with
      | .error e => .error e
      | .ok none => .ok none
      | .ok (some (c, _)) =>
        match c with
        | .filter => .ok (some (filterTable.map fun e => ⟨true, e.1, e.2, none, none⟩))
        | .identifier =>
          match n.files.readVariables w uri ⟨l, pos.character⟩ none none with
          | none => .ok none
          | some vars =>
            .ok (some (((n.actions.get? c!"temp_").getD []).map (fun a => ⟨false, a.name, a.description, none, none⟩)
              ++ vars.map fun i => ⟨false, i.label, i.detail.getD [], none, none⟩))
        | .incompleteIdentifier name range =>
          match shiftRange env.profile range line with
          | .error e => .error e
          | .ok range =>
            match n.files.getVariable name filename c!"temp" with
            | none => .ok none
            | some vs => .ok (some (vs.map fun v => ⟨false, v, v, some v, some range⟩))
        | _ => .ok none

/-- lib.rs:504-514: array results -/
def shiftLocations (env : Env) (line : Nat) : List Location → Res (List JsLocation)
  | [] => .ok []
  | loc :: ls =>
    if containsSub c!"temp" loc.uri then
      match env.urlParse loc.uri with
      | none => .error .unwrap
      | some u =>
        match shiftRange env.profile loc.range line with
        | .error e => .error e
        | .ok r =>
          match shiftLocations env line ls with
          | .error e => .error e
          | .ok rest => .ok (⟨u, r, true⟩ :: rest)
    else shiftLocations env line ls

/-- lib.rs:470-519 `goto_definition`. -/
def gotoDefinition (env : Env) (w : World) (n : NodeFiles) (id : Nat) (filename : Str) (line : Nat)
    (pos : Position) : Res (Option (List JsLocation)) :=
  match usub32 env.profile pos.line line with
  | .error e => .error e
  | .ok l =>
    match docUri env filename id c!"jinja" with
    | .error e => .error e
    | .ok uri =>
      match n.files.gotoDefinition env w uri ⟨l, pos.character⟩ with
      | .error e => .error e
      | .ok none => .ok none
      | .ok (some (.scalar loc)) =>
        if containsSub filename loc.uri then
          match env.urlParse filename with
          | none => .error .unwrap
          | some u =>
            match shiftRange env.profile loc.range line with
            | .error e => .error e
            | .ok r => .ok (some [⟨u, r, false⟩])
        else .ok (some [])
      | .ok (some (.array ls)) =>
        match shiftLocations env line ls with
        | .error e => .error e
        | .ok r => .ok (some r)

end NodeFiles

/-- lib.rs:32-46 `basic`: fresh parsers and queries; `len() as i32` -/
def basic (env : Env) (content : Str) : Res (Option Int32) :=
  match LspFiles.default.parse env .template content none with
  | none => .ok none
  | some tree =>
    match objectsQuery env tree Point.zero content true with
    | .error e => .error e
    | .ok objects => .ok (some (Int32.ofNat objects.objects.length))

end JinjaLsp.Node
