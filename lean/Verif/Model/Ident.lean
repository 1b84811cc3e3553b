import Verif.Model.Base
/-
  jinja-lsp-queries/src/search/mod.rs and tree_builder.rs
-/

namespace JinjaLsp

/-- search/mod.rs:92-106 `IdentifierType`. -/
inductive IdType where
  | forLoopKey
  | forLoopValue
  | forLoopCount
  | setVariable
  | withVariable
  | macroName
  | macroParameter
  | templateBlock
  | backendVariable
  | undefinedVariable
  | jinjaTemplate
deriving DecidableEq, Repr

/-- position of the variant, used by the derived `Ord` (search/mod.rs:92) -/
def IdType.rank : IdType → Nat
  | .forLoopKey => 0
  | .forLoopValue => 1
  | .forLoopCount => 2
  | .setVariable => 3
  | .withVariable => 4
  | .macroName => 5
  | .macroParameter => 6
  | .templateBlock => 7
  | .backendVariable => 8
  | .undefinedVariable => 9
  | .jinjaTemplate => 10

/-- `CompletionItemKind` values in use -/
inductive ItemKind where
  | variable | field | function | module | constant | file | text | snippet
deriving DecidableEq, Repr

/-- `SymbolKind` values in use -/
inductive SymKind where
  | variable | field | function | module | constant | file
deriving DecidableEq, Repr

/-- search/mod.rs:109-123 `completion_detail`. -/
def IdType.completionDetail : IdType → Str
  | .forLoopKey => c!"For loop key"
  | .forLoopValue => c!"For loop value"
  | .forLoopCount => c!"For loop count"
  | .setVariable => c!"Set variable"
  | .withVariable => c!"With variable"
  | .macroName => c!"Macro"
  | .macroParameter => c!"Macro parameter"
  | .templateBlock => c!"Template block"
  | .backendVariable => c!"Backend variable"
  | .undefinedVariable => c!"Undefined variable"
  | .jinjaTemplate => c!"Jinja template"

/-- search/mod.rs:125-139 `completion_kind`. -/
def IdType.completionKind : IdType → ItemKind
  | .forLoopKey => .variable
  | .forLoopValue => .variable
  | .forLoopCount => .field
  | .setVariable => .variable
  | .withVariable => .variable
  | .macroName => .function
  | .macroParameter => .field
  | .templateBlock => .module
  | .backendVariable => .variable
  | .undefinedVariable => .constant
  | .jinjaTemplate => .file

/-- search/mod.rs:141-155 `symbol_kind`. -/
def IdType.symbolKind : IdType → SymKind
  | .forLoopKey => .variable
  | .forLoopValue => .variable
  | .forLoopCount => .field
  | .setVariable => .variable
  | .withVariable => .variable
  | .macroName => .function
  | .macroParameter => .field
  | .templateBlock => .module
  | .backendVariable => .variable
  | .undefinedVariable => .constant
  | .jinjaTemplate => .file

/-- search/mod.rs:16-24 `Identifier`; `scopeId`/`scopeEnd` are the two components of `scope_ends`. -/
structure Identifier where
  start : Point
  stop : Point
  name : Str
  scopeId : Nat
  scopeEnd : Point
  idType : IdType
  fields : List (Str × (Point × Point))
deriving DecidableEq, Repr

/-- `Identifier::default()` (derived; the default `IdentifierType` is `UndefinedVariable`, mod.rs:103). -/
def Identifier.default : Identifier :=
  ⟨Point.zero, Point.zero, [], 0, Point.zero, .undefinedVariable, []⟩

instance : Inhabited Identifier := ⟨Identifier.default⟩

/-- search/mod.rs:27-36 `Identifier::new`. -/
def Identifier.new (name : Str) (start stop : Point) : Identifier :=
  ⟨start, stop, name, 0, Point.zero, .undefinedVariable, []⟩

/-- search/mod.rs:38-45 `Identifier::merge`: name and fields joined by dots. -/
def Identifier.merge (i : Identifier) : Str :=
  i.fields.foldl (fun acc f => acc ++ '.' :: f.1) i.name

/-! ### The derived order on identifiers -/

/-- derived `Ord` of `Point` -/
def Point.cmp (a b : Point) : Ordering :=
  (compare a.row b.row).then (compare a.column b.column)

/-- lexicographic order on vectors -/
def cmpList {α : Type} (cmp : α → α → Ordering) : List α → List α → Ordering
  | [], [] => .eq
  | [], _ :: _ => .lt
  | _ :: _, [] => .gt
  | a :: as, b :: bs => (cmp a b).then (cmpList cmp as bs)

/-- order on strings (bytewise order of UTF-8 is the order of code points) -/
def cmpStr : Str → Str → Ordering := cmpList fun a b => compare a.toNat b.toNat

/-- search/mod.rs:16 derived `Ord for Identifier`: fields compared in declaration order. -/
def Identifier.cmp (a b : Identifier) : Ordering :=
  (Point.cmp a.start b.start).then <|
  (Point.cmp a.stop b.stop).then <|
  (cmpStr a.name b.name).then <|
  (compare a.scopeId b.scopeId).then <|
  (Point.cmp a.scopeEnd b.scopeEnd).then <|
  (compare a.idType.rank b.idType.rank).then <|
  cmpList (fun x y => (cmpStr x.1 y.1).then ((Point.cmp x.2.1 y.2.1).then (Point.cmp x.2.2 y.2.2)))
    a.fields b.fields

/-- `Iterator::max`: the last of the maximal elements. -/
def iterMax : List Identifier → Option Identifier
  | [] => none
  | x :: xs => some (xs.foldl (fun m y => match m.cmp y with | .gt => m | _ => y) x)

/-! ### Conversions -/

/-- search/mod.rs:76-80 `to_range`. -/
def toRange (p : Point × Point) : Range :=
  ⟨⟨toU32 p.1.row, toU32 p.1.column⟩, ⟨toU32 p.2.row, toU32 p.2.column⟩⟩

/-- search/mod.rs:82-84 `to_point`. -/
def toPoint (p : Position) : Point := ⟨p.line, p.character⟩

/-- search/mod.rs:86-90 `to_range2`: is the point inside the range (both ends inclusive)? -/
def toRange2 (r : Range) (p : Point) : Bool :=
  decide (toPoint r.start ≤ p) && decide (p ≤ toPoint r.stop)

/-- to_input_edit.rs:72-74 `to_position2`. -/
def toPosition2 (p : Point) : Position := ⟨toU32 p.row, toU32 p.column⟩

/-- search/mod.rs:56-75 `completion_start`: the part of the identifier's name before the cursor. -/
def completionStart (prof : Profile) (trigger : Point) (i : Identifier) : Res (Option Str) :=
  let col := if trigger.column > 0 then trigger.column - 1 else trigger.column
  let len := utf8Len i.name
  if len = 0 then .ok (some [])
  else
    match usub prof i.stop.column col with
    | .error e => .error e
    | .ok diff =>
      if diff = 0 || diff = 1 then .ok (some i.name)
      else if diff > len then .ok (some i.name)
      else
        let to := len - diff
        .ok (bytePrefix i.name (to + 1))

/-! ### Diagnostics vocabulary (tree_builder.rs) -/

/-- tree_builder.rs:11-16 `JinjaDiagnostic`. -/
inductive JinjaDiagnostic where
  | definedSomewhere
  | undefined
  | templateNotFound
deriving DecidableEq, Repr

inductive Severity where
  | error | warning | information | hint
deriving DecidableEq, Repr

/-- tree_builder.rs:19-25 `severity`. -/
def JinjaDiagnostic.severity : JinjaDiagnostic → Severity
  | .definedSomewhere => .information
  | .undefined => .warning
  | .templateNotFound => .warning

/-- tree_builder.rs:28-36 `Display`. -/
def JinjaDiagnostic.message : JinjaDiagnostic → Str
  | .undefined => c!"Undefined variable"
  | .definedSomewhere => c!"Variable is defined in other file."
  | .templateNotFound => c!"Template not found"

end JinjaLsp
