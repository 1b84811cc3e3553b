import Verif.Model.Definition
/-
  jinja-lsp-queries/src/search/{rust_identifiers,rust_template_completion,python_identifiers,
  snippets_completion}.rs
-/

namespace JinjaLsp

/-! ## rust_identifiers.rs -/

/-- rust_identifiers.rs:22-47 `BackendIdentifiers::check`; `none` stops the loop. -/
def backendCheck (vars : List Identifier) (c : Capture) : Option (List Identifier) :=
  match c.name with
  | .keyId =>
    match c.text with
    | none => none
    | some name => some (vars ++ [{ Identifier.new name c.start c.stop with idType := .backendVariable }])
  | .name =>
    match c.text with
    | none => none
    | some name =>
      some (vars ++ [{ Identifier.new (stripQuotes name) c.start c.stop with idType := .backendVariable }])
  | .error => none
  | _ => some vars

/-- rust_identifiers.rs:67-72: the loop -/
def backendRun : List Identifier → List Capture → List Identifier
  | vars, [] => vars
  | vars, c :: cs =>
    match backendCheck vars c with
    | none => vars
    | some vars' => backendRun vars' cs

/-- rust_identifiers.rs:50-74 `backend_definition_query` followed by `show` (18-20). -/
def backendDefinitionQuery (env : Env) (g : Grammar) (tree : Tree) (trigger : Point) (text : Str)
    (all : Bool) : List Identifier :=
  backendRun [] (selectCaptures (env.queryMatches (.backendDefinitions g) tree text) trigger all)

/-! ## rust_template_completion.rs -/

/-- rust_template_completion.rs:5-9 `BackendTemplates`. -/
structure BackendTemplates where
  templates : List Identifier
  inMethod : Bool
deriving DecidableEq, Repr

/-- rust_template_completion.rs:70 `METHODS`. -/
def backendMethods : List Str := [c!"render_jinja", c!"get_template"]

/-- rust_template_completion.rs:21-39 `check` (its result is ignored by the caller, line 65). -/
def BackendTemplates.check (s : BackendTemplates) (c : Capture) : BackendTemplates :=
  if c.name = .templateName ∧ s.inMethod = true then
    match c.text with
    | none => s
    | some t =>
      ⟨s.templates ++ [{ Identifier.new (stripQuotes t) c.start c.stop with idType := .jinjaTemplate }], false⟩
  else if c.name = .methodName then
    match c.text with
    | none => s
    | some content => if content ∈ backendMethods then { s with inMethod := true } else s
  else s

/-- rust_template_completion.rs:46-68 `backend_templates_query`. -/
def backendTemplatesQuery (env : Env) (g : Grammar) (tree : Tree) (trigger : Point) (text : Str)
    (all : Bool) : BackendTemplates :=
  (selectCaptures (env.queryMatches (.backendTemplates g) tree text) trigger all).foldl
    BackendTemplates.check ⟨[], false⟩

/-- rust_template_completion.rs:12-19 `in_template`. -/
def BackendTemplates.inTemplate (s : BackendTemplates) (p : Point) : Option Identifier :=
  match s.templates.getLast? with
  | none => none
  | some last => if last.start ≤ p ∧ p ≤ last.stop then some last else none

/-! ## python_identifiers.rs -/

/-- python_identifiers.rs:39-45 `PythonIdentifier`. -/
structure PythonIdentifier where
  id : Nat
  start : Point
  stop : Point
  field : Str
deriving DecidableEq, Repr

/-- python_identifiers.rs:61-78: group the captures by the start of their parent -/
def pythonGroup : HMap Point (List PythonIdentifier) → List Capture → HMap Point (List PythonIdentifier)
  | m, [] => m
  | m, c :: cs =>
    match c.parentStart with
    | none => pythonGroup m cs
    | some p =>
      let old := (m.get? p).getD []
      let ident : PythonIdentifier := ⟨c.id, c.start, c.stop, c.text.getD []⟩
      pythonGroup (m.insert p (old ++ [ident])) cs

/-- python_identifiers.rs:16-24: names joined by dots -/
def pythonJoin : List PythonIdentifier → Str
  | [] => []
  | [x] => x.field
  | x :: y :: r => x.field ++ '.' :: pythonJoin (y :: r)

/-- python_identifiers.rs:12-34: one merged identifier per group -/
def pythonMergeOne (line : Nat) (e : Point × List PythonIdentifier) : PythonIdentifier :=
  let stop := match e.2.getLast? with
    | some i => i.stop
    | none => e.1
  ⟨0, ⟨e.1.row + line, e.1.column⟩, ⟨stop.row + line, stop.column⟩, pythonJoin e.2⟩

/-- python_identifiers.rs:10-36 `PythonAttributes::merge`. -/
def pythonMerge (o : HashOrder) (m : HMap Point (List PythonIdentifier)) (line : Nat) :
    List PythonIdentifier :=
  (o.shuffle 0 m.entries).map (pythonMergeOne line)

/-- python_identifiers.rs:47-80 `python_identifiers`. -/
def pythonIdentifiers (env : Env) (o : HashOrder) (tree : Tree) (text : Str) (line : Nat) :
    List PythonIdentifier :=
  pythonMerge o (pythonGroup HMap.empty (env.queryMatches .pythonIdentifiers tree text).flatten) line

/-! ## snippets_completion.rs -/

/-- snippets_completion.rs:7-13 `Snippets`. -/
structure Snippets where
  start : Point
  stop : Point
  keyword : Point
  isError : Bool
deriving DecidableEq, Repr

/-- `Snippets::default()` -/
def Snippets.default : Snippets := ⟨Point.zero, Point.zero, Point.zero, false⟩

/-- snippets_completion.rs:16-37 `check`; the boolean says whether the loop goes on. -/
def Snippets.check (s : Snippets) (c : Capture) : Snippets × Bool :=
  match c.name with
  | .start => ({ s with start := c.start }, true)
  | .stop => ({ s with stop := c.stop }, true)
  | .errorBlock => ({ s with isError := true, stop := c.stop }, false)
  | .keyword => ({ s with keyword := c.start }, true)
  | _ => (s, true)

/-- snippets_completion.rs:74-80: the loop -/
def Snippets.run : Snippets → List Capture → Snippets
  | s, [] => s
  | s, c :: cs => if (s.check c).2 then run (s.check c).1 cs else (s.check c).1

/-- snippets_completion.rs:56-82 `snippets_query` (the trigger column is moved two to the right). -/
def snippetsQuery (env : Env) (tree : Tree) (trigger : Point) (text : Str) (all : Bool) : Snippets :=
  Snippets.run Snippets.default
    (selectCaptures (env.queryMatches .jinjaSnippets tree text) ⟨trigger.row, trigger.column + 2⟩ all)

/-- snippets_completion.rs:39-53 `to_complete`. -/
def Snippets.toComplete (prof : Profile) (s : Snippets) (p : Point) : Res (Option Range) :=
  if s.isError ∧ p ≤ s.stop then .ok (some Range.zero)
  else if s.isError ∧ s.start ≤ p ∧ p ≤ s.stop then
    if s.start ≤ s.keyword ∧ s.keyword ≤ s.stop then .ok none
    else
      match uadd32 prof (toPosition2 p).character 1 with
      | .error e => .error e
      | .ok ch => .ok (some ⟨toPosition2 p, ⟨(toPosition2 p).line, ch⟩⟩)
  else .ok none

end JinjaLsp
