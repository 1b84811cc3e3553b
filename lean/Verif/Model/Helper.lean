import Verif.Model.Objects
import Verif.Model.Imports
import Verif.Model.Backend
/-
  jinja-lsp-queries/src/lsp_helper.rs, config.rs:51-60 (`file_ext`), and the parts of `std::path` they use.
-/

namespace JinjaLsp

/-! ## std::path (Unix) -/

/-- `PathBuf::push`: an absolute path replaces, otherwise a separator is added when needed. -/
def pathPush (base p : Str) : Str :=
  if p.head? = some '/' then p
  else if base.isEmpty || base.getLast? = some '/' then base ++ p
  else base ++ '/' :: p

/-- `Path::file_name`: last component that is neither empty nor `.`; `..` is not a file name. -/
def pathFileName (p : Str) : Option Str :=
  match ((splitChar '/' p).filter fun s => s ≠ [] && s ≠ c!".").getLast? with
  | none => none
  | some f => if f = c!".." then none else some f

/-- `str::rsplitn(2, '.')`: text before and after the last dot; `none` without a dot. -/
def rsplitDot : Str → Option (Str × Str)
  | [] => none
  | c :: r =>
    match rsplitDot r with
    | some (b, a) => some (c :: b, a)
    | none => if c = '.' then some ([], r) else none

/-- `Path::extension`. -/
def pathExtension (p : Str) : Option Str :=
  match pathFileName p with
  | none => none
  | some f =>
    match rsplitDot f with
    | none => none
    | some (b, a) => if b.isEmpty then none else some a

/-- config.rs:51-60 `file_ext` (does not depend on the configuration). -/
def fileExt (p : Str) : Option LangType :=
  match pathExtension p with
  | none => none
  | some e =>
    if e = c!"html" ∨ e = c!"jinja" ∨ e = c!"j2" then some .template
    else if e = c!"rs" ∨ e = c!"py" then some .backend
    else none

/-! ## lsp_helper.rs -/

/-- lsp_helper.rs:149-151 `path_items`: `template.split('/').collect::<PathBuf>()`. -/
def pathItems (t : Str) : Str := (splitChar '/' t).foldl pathPush []

/-- lsp_helper.rs:100-101, 118-119: the path whose existence is checked -/
def checkedPath (templates name : Str) : Str := pathPush templates (pathItems name)

/-- lsp_helper.rs:102-107, 120-125: `canonicalize` failed with `NotFound` -/
def notFound (w : World) (path : Str) : Bool :=
  match w.canonicalize path with
  | .error .notFound => true
  | _ => false

abbrev Variables := HMap Str (List Identifier)

/-- lsp_helper.rs:42-45: candidates with the same name that are not blocks -/
def sameName (name : Str) (v : Identifier) : Bool := v.name = name && v.idType ≠ .templateBlock

/-- lsp_helper.rs:46-56: is the definition in scope at the use? -/
def locatedAt (o : JinjaObject) (v : Identifier) : Bool :=
  let bigger := decide (v.start ≤ o.location.2)
  let global := decide (v.scopeEnd = Point.zero)
  let inScope := decide (o.location.1 < v.scopeEnd)
  if bigger && global then true else bigger && inScope

/-- lsp_helper.rs:33-84: the diagnostic (if any) for one variable use. `exist` is set by the closure as soon as
one variable of that name is examined, and `count()` examines all. -/
def objectDiag (o : HashOrder) (variables : Variables) (thisFile : List Identifier) (ignoreGlobals : Bool)
    (obj : JinjaObject) : Option (JinjaDiagnostic × Identifier) :=
  if obj.isFilter || obj.isTest then none
  else
    let cands := thisFile.filter (sameName obj.name)
    let exist := !cands.isEmpty
    let empty := (cands.filter (locatedAt obj)).length = 0
    if empty ∧ exist = true then
      if ignoreGlobals then none else some (.undefined, Identifier.ofObject obj)
    else if empty then
      if ignoreGlobals then none
      else
        let found := (o.shuffle 1 variables.entries).any fun f => f.2.any fun v => v.name = obj.name
        some (if found then .definedSomewhere else .undefined, Identifier.ofObject obj)
    else none

/-- lsp_helper.rs:94-109: the diagnostic (if any) for one template reference of a template -/
def importDiag (w : World) (templates : Str) (i : Identifier) : Option (JinjaDiagnostic × Identifier) :=
  if i.name.isEmpty then some (.templateNotFound, i)
  else if notFound w (checkedPath templates i.name) then some (.templateNotFound, i)
  else none

/-- lsp_helper.rs:117-126: the diagnostic (if any) for one template reference of a backend file -/
def backendDiag (w : World) (templates : Str) (i : Identifier) : Option (JinjaDiagnostic × Identifier) :=
  if notFound w (checkedPath templates i.name) then some (.templateNotFound, i) else none

/-- lsp_helper.rs:14-130 `search_errors`. -/
def searchErrors (env : Env) (w : World) (root : Tree) (source : Str) (variables : Variables)
    (fileName : Str) (templates : Str) (lang : LangType) (ignoreGlobals : Bool) :
    Res (Option (List (JinjaDiagnostic × Identifier))) :=
  match lang with
  | .template =>
    match objectsQuery env root Point.zero source true with
    | .error e => .error e
    | .ok objs =>
      match variables.get? fileName with
      | none => .ok none
      | some thisFile =>
        let d1 := objs.objects.filterMap (objectDiag w.order variables thisFile ignoreGlobals)
        let imports := (templatesQuery env root Point.zero source true).collect w.order
        let d2 := (imports.filter fun i => i.idType = .jinjaTemplate).filterMap (importDiag w templates)
        .ok (some (d1 ++ d2))
  | .backend =>
    match variables.get? fileName with
    | none => .ok none
    | some all =>
      .ok (some ((all.filter fun i => i.idType = .jinjaTemplate).filterMap (backendDiag w templates)))

/-- `lsp_types::Diagnostic` (fields that are set) -/
structure Diagnostic where
  range : Range
  severity : Severity
  message : Str
  source : Str
deriving DecidableEq, Repr

/-- lsp_helper.rs:132-147 `create_diagnostic`. -/
def createDiagnostic (t : Identifier) (severity : Severity) (message : Str) : Diagnostic :=
  ⟨⟨⟨toU32 t.start.row, toU32 t.start.column⟩, ⟨toU32 t.stop.row, toU32 t.stop.column⟩⟩,
   severity, message, c!"jinja-lsp"⟩

end JinjaLsp
