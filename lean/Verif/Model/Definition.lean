import Verif.Model.Ident
/-
  jinja-lsp-queries/src/search/definition.rs
-/

namespace JinjaLsp

/-- definition.rs:8-27 `Definition`. -/
inductive Definition where
  | forLoop (key : Identifier) (value : Option Identifier)
  | set (key : Identifier) (equals : Bool)
  | with_ (keys : List Identifier)
  | macro_ (keys : List Identifier) (scope : Nat)
  | block (name : Identifier)
deriving DecidableEq, Repr

/-- definition.rs:50-59: macro keys, the first is the macro's name -/
def macroKeys : List Identifier → List Identifier
  | [] => []
  | k :: ks => { k with idType := .macroName } :: ks.map fun k => { k with idType := .macroParameter }

/-- definition.rs:30-65 `Definition::collect` (the pushed identifiers). -/
def Definition.collect : Definition → List Identifier
  | .forLoop key value =>
    { key with idType := .forLoopKey } ::
      (match value with
       | some v => [{ v with idType := .forLoopValue }]
       | none => [])
  | .set key _ => [{ key with idType := .setVariable }]
  | .with_ keys => keys.map fun k => { k with idType := .withVariable }
  | .macro_ keys _ => macroKeys keys
  | .block name => [{ name with idType := .templateBlock }]

/-- definition.rs:68-93 `impl From<&str> for Definition`. -/
def Definition.ofKeyword (s : Str) : Definition :=
  if s = c!"for" then .forLoop Identifier.default none
  else if s = c!"set" then .set Identifier.default false
  else if s = c!"with" then .with_ []
  else if s = c!"macro" then .macro_ [] 0
  else if s = c!"block" then .block Identifier.default
  else .forLoop Identifier.default none

/-- definition.rs:129-134 `Scope`. -/
structure Scope where
  id : Nat
  start : Point
  stop : Point
deriving DecidableEq, Repr

/-- definition.rs:146-156 `JinjaDefinitions`; `currentScope` has the innermost scope first. -/
structure JinjaDefinitions where
  definitions : List Definition
  canCloseScope : Bool
  canOpenScope : Bool
  canAddId : Bool
  isEnd : Bool
  currentScope : List Scope
  allScopes : List Scope
  allIds : List Nat
deriving DecidableEq, Repr

/-- `JinjaDefinitions::default()` -/
def JinjaDefinitions.default : JinjaDefinitions := ⟨[], false, false, false, false, [], [], []⟩

namespace JinjaDefinitions

/-- `self.current_scope.front().unwrap_or(&Scope::default()).id` (definition.rs:173, 223) -/
def frontId (s : JinjaDefinitions) : Nat :=
  match s.currentScope with
  | [] => 0
  | sc :: _ => sc.id

/-- definition.rs:230-262: an identifier token updates the latest definition; the boolean tells whether
`can_add_id` keeps its value (`false`: it is cleared). -/
def addId (d : Definition) (ident : Identifier) : Definition × Bool :=
  match d with
  | .forLoop key value =>
    if key.name.isEmpty then (.forLoop ident value, true)
    else match value with
      | some v => if v.name.isEmpty then (.forLoop key (some ident), false) else (.forLoop key (some v), true)
      | none => (.forLoop key none, true)
  | .set key eq => if key.name.isEmpty then (.set ident eq, false) else (.set key eq, true)
  | .with_ keys => (.with_ (keys ++ [ident]), true)
  | .macro_ keys scope =>
    if keys.isEmpty then (.macro_ [{ ident with scopeId := scope }] scope, true)
    else (.macro_ (keys ++ [ident]) scope, true)
  | .block name => if name.name.isEmpty then (.block ident, false) else (.block name, true)

/-- definition.rs:159-288 `check`.  `.ok none` is the Rust `None` (the loop of `definition_query` stops);
`.error` is a panic of `utf8_text(..).unwrap()` (line 166). -/
def check (s : JinjaDefinitions) (c : Capture) : Res (Option JinjaDefinitions) :=
  match c.name with
  | .definition =>
    if c.id ∈ s.allIds then .ok (some s)
    else match c.text with
      | none => .error .unwrap
      | some content =>
        match Definition.ofKeyword content with
        | .set k e =>
          .ok (some { s with allIds := c.id :: s.allIds
                             definitions := s.definitions ++ [.set k e]
                             canAddId := true })
        | d =>
          let d := match d with
            | .macro_ keys _ => Definition.macro_ keys s.frontId
            | d => d
          .ok (some { s with allIds := c.id :: s.allIds
                             definitions := s.definitions ++ [d]
                             currentScope := ⟨c.id, Point.zero, Point.zero⟩ :: s.currentScope
                             canCloseScope := false
                             canOpenScope := true
                             isEnd := false
                             canAddId := true })
  | .scope =>
    .ok (some { s with canCloseScope := false
                       canOpenScope := true
                       isEnd := false
                       canAddId := false
                       currentScope := ⟨c.id, Point.zero, Point.zero⟩ :: s.currentScope })
  | .endblock => .ok (some { s with isEnd := true, canCloseScope := true, canOpenScope := false })
  | .equals =>
    match s.definitions.getLast? with
    | some (.set k _) =>
      .ok (some { s with definitions := s.definitions.dropLast ++ [.set k true], canOpenScope := false })
    | _ => .ok (some s)
  | .error => .ok none
  | .id =>
    if !s.canAddId then .ok (some s)
    else match c.text with
      | none => .ok none
      | some content =>
        let ident : Identifier :=
          { Identifier.default with start := c.start, stop := c.stop, name := content, scopeId := s.frontId }
        match s.definitions.getLast? with
        | none => .ok (some s)
        | some d =>
          let r := addId d ident
          .ok (some { s with definitions := s.definitions.dropLast ++ [r.1]
                             canAddId := if r.2 then s.canAddId else false })
  | .scopeEnd =>
    if s.canCloseScope && s.isEnd then
      match s.currentScope with
      | [] => .ok (some { s with canCloseScope := false, canAddId := false, isEnd := false })
      | sc :: rest =>
        .ok (some { s with canCloseScope := false
                           canAddId := false
                           isEnd := false
                           currentScope := rest
                           allScopes := s.allScopes ++ [{ sc with stop := c.start }] })
    else .ok (some s)
  | .scopeStart =>
    if s.canOpenScope then
      match s.currentScope with
      | [] => .ok (some { s with canOpenScope := false, canAddId := false })
      | sc :: rest =>
        .ok (some { s with canOpenScope := false
                           canAddId := false
                           currentScope := { sc with start := c.stop } :: rest })
    else .ok (some s)
  | _ => .ok (some s)

/-- definition.rs:379-385: the loop over the captures of `definition_query` -/
def run : JinjaDefinitions → List Capture → Res JinjaDefinitions
  | s, [] => .ok s
  | s, c :: cs =>
    match s.check c with
    | .error e => .error e
    | .ok none => .ok s
    | .ok (some s') => run s' cs

/-- definition.rs:304-308 (and repetitions): the end of the scope with the given id, the end of the document
when no such scope was closed -/
def scopeEndOf (scopes : List Scope) (lastLine : Point) (id : Nat) : Point :=
  match scopes.find? (fun sc => sc.id = id) with
  | some sc => sc.stop
  | none => lastLine

/-- definition.rs:301-357: `fix_end` for one definition -/
def fixEndDef (scopes : List Scope) (lastLine : Point) : Definition → Definition
  | .forLoop key value =>
    let e := scopeEndOf scopes lastLine key.scopeId
    .forLoop { key with scopeEnd := e } (value.map fun v => { v with scopeEnd := e })
  | .set key eq => .set { key with scopeEnd := scopeEndOf scopes lastLine key.scopeId } eq
  | .with_ keys => .with_ (keys.map fun k => { k with scopeEnd := scopeEndOf scopes lastLine k.scopeId })
  | .macro_ keys scope =>
    .macro_ (match keys with
      | [] => []
      | k :: ks =>
        { k with scopeEnd := scopeEndOf scopes lastLine scope } ::
          ks.map fun k => { k with scopeEnd := scopeEndOf scopes lastLine k.scopeId }) scope
  | .block name => .block { name with scopeEnd := scopeEndOf scopes lastLine name.scopeId }

/-- definition.rs:299-359 `fix_end`. -/
def fixEnd (s : JinjaDefinitions) (lastLine : Point) : JinjaDefinitions :=
  { s with definitions := s.definitions.map (fixEndDef s.allScopes lastLine) }

/-- definition.rs:290-297 `identifiers`. -/
def identifiers (s : JinjaDefinitions) : List Identifier := s.definitions.flatMap Definition.collect

end JinjaDefinitions

/-- The captures a query function looks at (definition.rs:374-378 and the same lines in templates.rs,
rust_identifiers.rs, …): all captures of all matches, or those starting at or before the trigger point. -/
def selectCaptures (ms : List (List Capture)) (trigger : Point) (all : Bool) : List Capture :=
  (ms.map fun m => m.filter fun c => all || decide (c.start ≤ trigger)).flatten

/-- definition.rs:362-389 `definition_query`. -/
def definitionQuery (env : Env) (tree : Tree) (trigger : Point) (text : Str) (all : Bool) :
    Res JinjaDefinitions :=
  match JinjaDefinitions.run JinjaDefinitions.default
      (selectCaptures (env.queryMatches .jinjaDefinitions tree text) trigger all) with
  | .error e => .error e
  | .ok s => .ok (s.fixEnd (env.rootEnd tree))

end JinjaLsp
