import Verif.Model.Base
/-
  jinja-lsp-queries/src/search/queries.rs:55-298 (the texts of the seven queries), interpreted over syntax trees.

  tree-sitter reports a match when the last node of its pattern is reached in a walk over the tree; a node that two alternatives of a
  pattern end at (only a dot does, in OBJECTS) reports the later alternative first, as the repository's test of completion requires
  (test_queries.rs:205-214, checked in `Checks/Upstream`). A step of a pattern may skip siblings, so a pattern with several steps below
  one parent matches once for every choice of children in the right order. Simplified: where a pattern ends with a repetition (`+`) or
  an option (`?`) only the longest choice is reported, when the walk leaves the parent; how the options in the middle of `from` and
  `import` statements are chosen is left open (`Syntax.options`).
-/

namespace JinjaLsp

/-- The kinds of nodes that occur in the queries; `other` stands for all other kinds, named or not. -/
inductive SKind where
  | statement | statementBegin | statementEnd | expression | identifier | keyword | operator | string | error                -- jinja
  | macroInvocation | tokenTree | fieldExpression | fieldIdentifier | arguments | stringLiteral | callExpression             -- rust
  | subscript | attribute | stringContent | call | argumentList | keywordArgument                                            -- python
  | other
deriving DecidableEq, Repr

/-- The fields that occur in the queries (queries.rs:251-279). -/
inductive SField where
  | object | attribute | function | arguments | name
deriving DecidableEq, Repr

/-- A node of a syntax tree: kind, field of the parent it fills, `id()`, extent, text (`none`: not UTF-8), children. -/
inductive Syn where
  | node (kind : SKind) (field : Option SField) (id : Nat) (start stop : Point) (text : Option Str) (children : List Syn)

namespace Syn

def kind : Syn → SKind
  | .node k .. => k

def field : Syn → Option SField
  | .node _ f .. => f

def id : Syn → Nat
  | .node _ _ i .. => i

def start : Syn → Point
  | .node _ _ _ a .. => a

def stop : Syn → Point
  | .node _ _ _ _ b .. => b

def text : Syn → Option Str
  | .node _ _ _ _ _ t _ => t

def children : Syn → List Syn
  | .node _ _ _ _ _ _ cs => cs

/-- extent of the first child, of the node itself without children (objects.rs:86-90) -/
def first (n : Syn) : Point × Point :=
  match n.children.head? with
  | some c => (c.start, c.stop)
  | none => (n.start, n.stop)

/-- extent of the last child (objects.rs:91-95) -/
def last (n : Syn) : Point × Point :=
  match n.children.getLast? with
  | some c => (c.start, c.stop)
  | none => (n.start, n.stop)

end Syn

/-- An ancestor together with the siblings to its left. -/
abbrev Above := Syn × List Syn

/-- a node as the capture `cn`; `up` are its ancestors, the nearest first.  What the code does not read is left out: the text of an
expression, the children of anything else and the parents of all but the captures of PYTHON_IDENTIFIERS (for errors see there). -/
def Syn.cap (cn : CapName) (up : List Above) (n : Syn) : Capture :=
  match cn with
  | .expr => { name := .expr, id := n.id, start := n.start, stop := n.stop, text := some [], firstChild := n.first, lastChild := n.last }
  | .identifier =>
    { name := .identifier, id := n.id, start := n.start, stop := n.stop, text := n.text, parentStart := up.head?.map fun a => a.1.start }
  | cn => { name := cn, id := n.id, start := n.start, stop := n.stop, text := n.text }

/-- The walk enters a node and leaves it again. -/
inductive Visit where
  | enter
  | leave
deriving DecidableEq, Repr

/-- What a query reports at a visit, given ancestors, siblings to the left and the node. -/
abbrev Reports := Visit → List Above → List Syn → Syn → List (List Capture)

mutual
/-- `QueryCursor::matches`: everything reported during the walk below (and at) a node -/
def Syn.walk (f : Reports) (up : List Above) (left : List Syn) : Syn → List (List Capture)
  | .node k fd i a b t cs =>
    f .enter up left (.node k fd i a b t cs) ++ Syn.walkAll f ((.node k fd i a b t cs, left) :: up) [] cs ++
      f .leave up left (.node k fd i a b t cs)

/-- the walk over siblings -/
def Syn.walkAll (f : Reports) (up : List Above) (left : List Syn) : List Syn → List (List Capture)
  | [] => []
  | c :: cs => Syn.walk f up left c ++ Syn.walkAll f up (left ++ [c]) cs
end

/-- All ways to choose nodes meeting the tests one after the other, in document order. -/
def picks : List (Syn → Bool) → List Syn → List (List Syn)
  | [], _ => [[]]
  | _ :: _, [] => []
  | p :: ps, n :: ns => (if p n then (picks ps ns).map (n :: ·) else []) ++ picks (p :: ps) ns

/-! ## Predicates.  A text that is not UTF-8 equals no word and matches no regular expression. -/

/-- `#eq?` -/
def eqText (n : Syn) (s : Str) : Bool := decide (n.text = some s)

/-- `#match? "^(a|b|…)$"`, `#any-of?` -/
def anyText (n : Syn) (ws : List Str) : Bool :=
  match n.text with
  | some t => decide (t ∈ ws)
  | none => false

/-- `#match? "^p"` -/
def startsText (n : Syn) (p : Str) : Bool :=
  match n.text with
  | some t => p.isPrefixOf t
  | none => false

/-- `#match? "p"` -/
def hasText (n : Syn) (p : Str) : Bool :=
  match n.text with
  | some t => containsSub p t
  | none => false

/-- `^\d+$` for the regular expressions' notion of a digit -/
def digits (digit : Char → Bool) (t : Str) : Bool := !t.isEmpty && t.all digit

/-- `#match? "^(\\d+)$"` -/
def numeral (digit : Char → Bool) (n : Syn) : Bool :=
  match n.text with
  | some t => digits digit t
  | none => false

/-! ## The queries -/

/-- one match with one capture when the test holds -/
def single (b : Bool) (cn : CapName) (up : List Above) (n : Syn) : List (List Capture) :=
  if b then [[n.cap cn up]] else []

/-- queries.rs:210 -/
def definitionWords : List Str := [c!"for", c!"set", c!"with", c!"macro", c!"block"]

/-- queries.rs:215 -/
def scopeWords : List Str := [c!"if", c!"elif", c!"else", c!"filter", c!"autoescape", c!"raw"]

/-- queries.rs:197-229 `DEFINITIONS` -/
def qDefinitions (digit : Char → Bool) : Reports
  | .leave, _, _, _ => []
  | .enter, up, left, n =>
    match n.kind with
    | .statementEnd =>
      match up with
      | (p, _) :: _ =>
        if p.kind = .statement then
          (picks [fun m => m.kind = .statementBegin] left).map fun m => m.map (Syn.cap .scopeEnd up) ++ [n.cap .scopeStart up]
        else []
      | [] => []
    | .identifier => single (!numeral digit n) .id up n
    | .keyword =>
      single (anyText n definitionWords) .definition up n ++ single (anyText n scopeWords) .scope up n ++
        single (startsText n c!"end") .endblock up n
    | .operator => single (hasText n c!"=") .equals up n
    | .error => single true .error up n
    | _ => []

/-- queries.rs:55-83 `OBJECTS` -/
def qObjects (digit : Char → Bool) : Reports
  | .leave, _, _, _ => []
  | .enter, up, _, n =>
    match n.kind with
    | .operator => single true .pipe up n ++ single (eqText n c!".") .dot up n
    | .identifier => single (!numeral digit n) .justId up n
    | .expression => single true .expr up n
    | .keyword => single (eqText n c!"is") .is up n
    | .error => single true .error up n
    | _ => []

/-- queries.rs:115-165 `JINJA_IMPORTS`; `options` are the captures of the optional parts, one list for each match -/
def qImports (options : Syn → Syn → List (List Capture)) : Reports
  | .leave, _, _, _ => []
  | .enter, up, left, n =>
    match n.kind with
    | .statementEnd =>
      match up with
      | (p, _) :: above =>
        if p.kind = .statement then
          (picks [fun m => m.kind = .statementBegin, fun m => m.kind = .keyword, fun m => m.kind = .string] left).flatMap fun m =>
            match m with
            | [_, kw, s] =>
              if eqText kw c!"extends" then [[p.cap .extends above, kw.cap .other up, s.cap .templateName up]]
              else if eqText kw c!"include" then [[p.cap .include above, kw.cap .other up, s.cap .templateName up]]
              else if eqText kw c!"from" then
                (options p s).map fun o => [p.cap .from_ above, kw.cap .other up, s.cap .templateName up] ++ o
              else if eqText kw c!"import" then
                (options p s).map fun o => [p.cap .import_ above, kw.cap .other up, s.cap .templateName up] ++ o
              else []
            | _ => []
        else []
      | [] => []
    | .error => single true .error up n
    | _ => []

/-- queries.rs:183-195 `JINJA_SNIPPETS` -/
def qSnippets : Reports
  | .leave, up, _, n =>
    if n.kind = .error ∧ ∀ c ∈ n.children, c.kind ≠ .error then [[n.cap .errorBlock up]] else []
  | .enter, up, _, n =>
    match n.kind with
    | .statementBegin => single true .start up n
    | .statementEnd => single true .stop up n
    | .keyword => single true .keyword up n
    | .error =>
      match up with
      | (p, _) :: above => if p.kind = .error then [[p.cap .errorBlock above, n.cap .other up]] else []
      | [] => []
    | _ => []

/-- the nodes among the children of a node that meet a test, as captures of one repetition -/
def repeated (cn : CapName) (up : List Above) (left : List Syn) (n : Syn) (k : SKind) : List Capture :=
  (n.children.filter fun c => c.kind = k).map (Syn.cap cn ((n, left) :: up))

/-- queries.rs:85-113 `RUST_DEFINITIONS` -/
def qRustDefinitions : Reports
  | .leave, up, left, n =>
    if n.kind = .arguments ∧ repeated .name up left n .stringLiteral ≠ [] then
      (picks [fun m => m.kind = .fieldExpression] left).flatMap fun m => m.flatMap fun fe =>
        (picks [fun c => c.kind = .identifier, fun c => c.kind = .fieldIdentifier] fe.children).flatMap fun c =>
          match c with
          | [obj, method] =>
            if eqText obj c!"jinja" && (hasText method c!"add_global" || hasText method c!"add_filter" || hasText method c!"add_function")
            then [repeated .name up left n .stringLiteral] else []
          | _ => []
    else []
  | .enter, up, _, n =>
    match n.kind with
    | .identifier =>
      match up with
      | (p, _) :: above =>
        (if p.kind = .macroInvocation && eqText n c!"context" then [[p.cap .other above, n.cap .other up]] else []) ++
          single (decide (p.kind = .tokenTree) && !eqText n c!"context") .keyId up n
      | [] => []
    | .error => single true .error up n
    | _ => []

/-- queries.rs:174, 238 -/
def templateMethods : List Str := [c!"render_jinja", c!"get_template"]

/-- the callee of a call as `@method_name`: the node itself or one of its parts -/
def callees (direct via part : SKind) (up : List Above) (left : List Syn) : List (List Capture) :=
  left.flatMap fun m =>
    if m.kind = via then
      (m.children.filter fun c => c.kind = part && anyText c templateMethods).map fun c => [c.cap .methodName ((m, []) :: up)]
    else if m.kind = direct && anyText m templateMethods then [[m.cap .methodName up]]
    else []

/-- queries.rs:167-181 `RUST_TEMPLATES` and 231-244 `PYTHON_TEMPLATES`, which differ in the kinds of nodes.  The predicate stands among
the alternatives for the callee (queries.rs:174, 238), so tree-sitter may also accept calls without looking at the callee: `loose` says
for which argument lists. -/
def qTemplates (loose : Syn → Bool) (callKind argsKind via part literal : SKind) : Reports
  | .enter, _, _, _ => []
  | .leave, up, left, n =>
    match up with
    | (p, _) :: _ =>
      if p.kind = callKind ∧ n.kind = argsKind ∧ repeated .templateName up left n literal ≠ [] then
        ((callees .identifier via part up left).map fun m => m ++ repeated .templateName up left n literal) ++
          if loose n then [repeated .templateName up left n literal] else []
      else []
    | [] => []

/-- queries.rs:246-290 `PYTHON_DEFINITIONS` -/
def qPythonDefinitions : Reports
  | .leave, _, _, _ => []
  | .enter, up, _, n =>
    match n.kind with
    | .stringContent =>
      match up with
      | (str, left) :: (sub, _) :: _ =>
        if str.kind = .string ∧ sub.kind = .subscript then
          (left.filter fun at' => at'.kind = .attribute).flatMap fun at' =>
            if (at'.children.filter fun c => decide (c.kind = .identifier ∧ c.field = some .object)).all (eqText · c!"jinja_env") then
              (at'.children.filter fun c =>
                decide (c.kind = .identifier ∧ c.field = some .attribute) && anyText c [c!"globals", c!"filters"]).map fun _ =>
                [n.cap .keyId up]
            else []
        else []
      | _ => []
    | .identifier =>
      match up with
      | (kwa, _) :: (args, left) :: (c, _) :: _ =>
        if n.field = some .name ∧ kwa.kind = .keywordArgument ∧ args.kind = .argumentList ∧ args.field = some .arguments ∧ c.kind = .call then
          (left.filter fun f => f.field = some .function).flatMap fun f =>
            if f.kind = .identifier && anyText f [c!"render_template", c!"render"] then [[n.cap .keyId up]]
            else if f.kind = .attribute && f.children.any (fun o => decide (o.kind = .identifier ∧ o.field = some .object)) then
              (f.children.filter fun m =>
                decide (m.kind = .identifier ∧ m.field = some .attribute) && anyText m [c!"render_template", c!"render"]).map fun _ =>
                [n.cap .keyId up]
            else []
        else []
      | _ => []
    | .error => single true .error up n
    | _ => []

/-- queries.rs:292-298 `PYTHON_IDENTIFIERS` -/
def qPythonIdentifiers : Reports
  | .leave, _, _, _ => []
  | .enter, up, _, n =>
    match n.kind with
    | .identifier =>
      match up with
      | (p, _) :: _ => single (decide (p.kind = .attribute)) .identifier up n
      | [] => []
    | .error => [[{ n.cap .error up with parentStart := up.head?.map fun a => a.1.start }]]
    | _ => []

/-- What is left open: the syntax tree of a parse tree over a text (the grammars), the digits of the regular expressions, the optional
parts of imports, the calls whose callee is not looked at. -/
structure Syntax where
  root : Tree → Str → Syn
  digit : Char → Bool
  options : Syn → Syn → List (List Capture)
  loose : Syn → Bool

/-- queries.rs:20-53: the query of an id -/
def Syntax.reports (sx : Syntax) : QueryId → Reports
  | .jinjaDefinitions => qDefinitions sx.digit
  | .jinjaObjects => qObjects sx.digit
  | .jinjaImports => qImports sx.options
  | .backendDefinitions .python => qPythonDefinitions
  | .backendDefinitions _ => qRustDefinitions
  | .backendTemplates .python => qTemplates sx.loose .call .argumentList .attribute .identifier .string
  | .backendTemplates _ => qTemplates sx.loose .callExpression .arguments .fieldExpression .fieldIdentifier .stringLiteral
  | .jinjaSnippets => qSnippets
  | .pythonIdentifiers => qPythonIdentifiers

/-- the matches of a query in a parse tree over a text -/
def Syntax.run (sx : Syntax) (q : QueryId) (tree : Tree) (text : Str) : List (List Capture) :=
  Syn.walk (sx.reports q) [] [] (sx.root tree text)

/-- the libraries, with the queries of queries.rs -/
def Env.over (env : Env) (sx : Syntax) : Env :=
  { env with queryMatches := sx.run }

end JinjaLsp
