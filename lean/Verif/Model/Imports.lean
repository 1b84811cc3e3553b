import Verif.Model.Definition
/-
  jinja-lsp-queries/src/search/templates.rs
-/

namespace JinjaLsp

/-- templates.rs:8-23 `Import`. -/
inductive Import where
  | extends (template : Identifier)
  | include (templates : List Identifier)
  | from_ (template : Identifier) (identifiers : List Identifier)
  | import_ (template : Identifier) (identifier : Identifier)
deriving DecidableEq, Repr

/-- `trigger_point >= template.start && trigger_point <= template.end` (templates.rs:31, 39) -/
def Identifier.covers (i : Identifier) (p : Point) : Bool := decide (i.start ≤ p) && decide (p ≤ i.stop)

/-- templates.rs:26-44 `get_identifier`. -/
def Import.getIdentifier (i : Import) (p : Point) : Option Identifier :=
  match i with
  | .extends t => if t.covers p then some t else none
  | .from_ t _ => if t.covers p then some t else none
  | .import_ t _ => if t.covers p then some t else none
  | .include ts => ts.find? (fun t => t.covers p)

/-- templates.rs:46-67 `Import::collect`. -/
def Import.collect : Import → List Identifier
  | .extends t => [t]
  | .include ts => ts
  | .from_ t ids => t :: ids
  | .import_ t _ => [t]

/-- templates.rs:77-82 `JinjaImports`; `current = none` is `Current::Nothing`. -/
structure JinjaImports where
  imports : HMap Nat Import
  current : Option Nat
  lastId : Nat

/-- `JinjaImports::default()` -/
def JinjaImports.default : JinjaImports := ⟨HMap.empty, none, 0⟩

namespace JinjaImports

/-- templates.rs:162-167 (174-181, 182-189): the first non-empty name fills the template slot -/
def fillTemplate (t : Identifier) (name : Str) (start stop : Point) : Identifier :=
  if t.name.isEmpty then { t with name := name, start := start, stop := stop, idType := .jinjaTemplate }
  else t

/-- templates.rs:97-152: a statement capture; `again` is the value of `current` when it was seen before -/
def openImport (s : JinjaImports) (id : Nat) (fresh : Import) (again : Option Nat) : JinjaImports :=
  match s.imports.get? id with
  | some _ => { s with current := again }
  | none => ⟨s.imports.insert id fresh, some id, id⟩

/-- templates.rs:92-218 `check`; `none` makes the loop of `templates_query` stop (state unchanged). -/
def check (s : JinjaImports) (c : Capture) : Option JinjaImports :=
  match c.name with
  | .error => none
  | .extends => some (s.openImport c.id (.extends Identifier.default) none)
  | .include => some (s.openImport c.id (.include []) (some c.id))
  | .import_ => some (s.openImport c.id (.import_ Identifier.default Identifier.default) (some c.id))
  | .from_ => some (s.openImport c.id (.from_ Identifier.default []) (some c.id))
  | .templateName =>
    match s.current with
    | none => some s
    | some id =>
      match s.imports.get? id with
      | none => none
      | some last =>
        match c.text with
        | none => none
        | some raw =>
          let name := stripQuotes raw
          let last' := match last with
            | .extends t => Import.extends (fillTemplate t name c.start c.stop)
            | .include ts =>
              Import.include (ts ++ [{ Identifier.new name c.start c.stop with idType := .jinjaTemplate }])
            | .from_ t ids => Import.from_ (fillTemplate t name c.start c.stop) ids
            | .import_ t i => Import.import_ (fillTemplate t name c.start c.stop) i
          some { s with imports := s.imports.insert id last' }
  | .importIdentifier =>
    match s.current with
    | none => some s
    | some id =>
      match c.text with
      | none => none
      | some name =>
        match s.imports.get? id with
        | none => none
        | some last =>
          match last with
          | .from_ t ids =>
            some { s with imports := s.imports.insert id
                            (.from_ t (ids ++ [Identifier.new name c.start c.stop])) }
          | .import_ t i =>
            if i.name.isEmpty then
              some { s with imports := s.imports.insert id (.import_ t { i with name := name })
                            current := none }
            else some s
          | _ => some { s with current := none }
  | _ => some s

/-- templates.rs:243-249: the loop -/
def run : JinjaImports → List Capture → JinjaImports
  | s, [] => s
  | s, c :: cs =>
    match s.check c with
    | none => s
    | some s' => run s' cs

/-- templates.rs:85-91 `in_template` (the point is ignored). -/
def inTemplate (s : JinjaImports) : Option Import :=
  match s.current with
  | some id => s.imports.get? id
  | none => none

/-- templates.rs:220-224 `collect`: iteration over a hash map. -/
def collect (o : HashOrder) (s : JinjaImports) : List Identifier :=
  (o.shuffle 0 s.imports.entries).flatMap fun e => e.2.collect

end JinjaImports

/-- templates.rs:226-251 `templates_query`. -/
def templatesQuery (env : Env) (tree : Tree) (trigger : Point) (text : Str) (all : Bool) : JinjaImports :=
  JinjaImports.run JinjaImports.default
    (selectCaptures (env.queryMatches .jinjaImports tree text) trigger all)

end JinjaLsp
