import Verif.Model.Definition
/-
  Independent specification for templates: an abstract syntax of well-nested templates, the stream of captures the
  DEFINITIONS query (queries.rs:197-233) reports for it, and which names are bound where.
-/

namespace JinjaLsp.Spec

/-- A token of a template: its extent, text and syntax node. -/
structure Tok where
  start : Point
  stop : Point
  text : Str
  node : Nat
deriving DecidableEq, Repr

/-- The two delimiters `{%` and `%}` of a statement. -/
structure Delims where
  opening : Tok
  closing : Tok
deriving DecidableEq, Repr

/-- What may follow the keyword of a statement (or occur in `{{ … }}`): identifiers and operators containing `=`;
all other tokens (strings, numbers, commas …) are not captured. -/
inductive HTok where
  | name (t : Tok)
  | eq (t : Tok)
deriving DecidableEq, Repr

/-- Constructs without a body. -/
inductive Leaf where
  /-- `{{ … }}` -/
  | expr (ts : List HTok)
  /-- a statement that neither binds nor opens a block (include, extends, import, …) -/
  | stmt (d : Delims) (ts : List HTok)
  /-- `{% set target … %}` without end tag -/
  | set (d : Delims) (kw target : Tok) (ts : List HTok)
deriving DecidableEq, Repr

/-- Opening tags of blocks; `kw` is the keyword token. -/
inductive Head where
  /-- `{% for target … %}` -/
  | for_ (kw target : Tok) (ts : List HTok)
  /-- `{% with … %}` -/
  | with_ (kw : Tok) (ts : List HTok)
  /-- `{% macro name(…) %}` -/
  | macro_ (kw name : Tok) (ts : List HTok)
  /-- `{% block name %}` -/
  | block (kw name : Tok) (ts : List HTok)
  /-- `{% if/filter/autoescape/raw … %}`: a block that binds nothing -/
  | plain (kw : Tok) (ts : List HTok)
deriving DecidableEq, Repr

/-- Well-nested templates. -/
inductive Tpl where
  | nil
  | leaf (l : Leaf) (rest : Tpl)
  /-- opening tag, body, end tag (its delimiters, keyword and further tokens), what follows -/
  | blk (d : Delims) (h : Head) (body : Tpl) (de : Delims) (kwEnd : Tok) (te : List HTok) (rest : Tpl)
deriving DecidableEq, Repr

/-! ### Captures -/

/-- capture of a token -/
def Tok.cap (n : CapName) (t : Tok) : Capture := { name := n, id := t.node, start := t.start, stop := t.stop, text := some t.text }

def HTok.cap : HTok → Capture
  | .name t => t.cap .id
  | .eq t => t.cap .equals

def hcaps (ts : List HTok) : List Capture := ts.map HTok.cap

/-- the match of `(statement (statement_begin) @scope_end (statement_end) @scope_start)`, reported when `%}` is reached -/
def Delims.caps (d : Delims) : List Capture := [d.opening.cap .scopeEnd, d.closing.cap .scopeStart]

/-- keyword with a given spelling -/
def Tok.kwCap (t : Tok) (word : Str) : Capture := Tok.cap .definition { t with text := word }

def Leaf.caps : Leaf → List Capture
  | .expr ts => hcaps ts
  | .stmt d ts => hcaps ts ++ d.caps
  | .set d kw target ts => kw.kwCap c!"set" :: target.cap .id :: hcaps ts ++ d.caps

def Head.kw : Head → Tok
  | .for_ kw _ _ | .with_ kw _ | .macro_ kw _ _ | .block kw _ _ | .plain kw _ => kw

def Head.caps : Head → List Capture
  | .for_ kw target ts => kw.kwCap c!"for" :: target.cap .id :: hcaps ts
  | .with_ kw ts => kw.kwCap c!"with" :: hcaps ts
  | .macro_ kw name ts => kw.kwCap c!"macro" :: name.cap .id :: hcaps ts
  | .block kw name ts => kw.kwCap c!"block" :: name.cap .id :: hcaps ts
  | .plain kw ts => kw.cap .scope :: hcaps ts

/-- the stream of captures of a template -/
def Tpl.caps : Tpl → List Capture
  | .nil => []
  | .leaf l rest => l.caps ++ rest.caps
  | .blk d h body de kwEnd te rest =>
    h.caps ++ d.caps ++ (body.caps ++ (kwEnd.cap .endblock :: hcaps te ++ de.caps ++ rest.caps))

/-! ### Well-formedness -/

/-- names that the grammar guarantees to be non-empty -/
def Leaf.Ok : Leaf → Prop
  | .set _ _ target _ => target.text ≠ []
  | _ => True

def Head.Ok : Head → Prop
  | .for_ _ target _ => target.text ≠ []
  | .macro_ _ name _ => name.text ≠ []
  | .block _ name _ => name.text ≠ []
  | _ => True

def Tpl.Ok : Tpl → Prop
  | .nil => True
  | .leaf l rest => l.Ok ∧ rest.Ok
  | .blk _ h body _ _ _ rest => h.Ok ∧ body.Ok ∧ rest.Ok

def Leaf.nodes : Leaf → List Nat
  | .set _ kw _ _ => [kw.node]
  | _ => []

/-- syntax nodes of the keywords that bind or open a block -/
def Tpl.nodes : Tpl → List Nat
  | .nil => []
  | .leaf l rest => l.nodes ++ rest.nodes
  | .blk _ h body _ _ _ rest => h.kw.node :: (body.nodes ++ rest.nodes)

/-- Well-formed: names are not empty, distinct keyword nodes have distinct non-null addresses. -/
structure Tpl.Wf (t : Tpl) : Prop where
  ok : t.Ok
  nodup : t.nodes.Nodup
  nonzero : 0 ∉ t.nodes

/-! ### Bindings -/

/-- A name bound by a template: where it is written, what binds it, and up to where it is visible. -/
structure Binding where
  name : Str
  start : Point
  stop : Point
  kind : IdType
  visibleTo : Point
deriving DecidableEq, Repr

def Tok.bind (t : Tok) (k : IdType) (e : Point) : Binding := ⟨t.text, t.start, t.stop, k, e⟩

/-- the identifiers among some tokens -/
def names : List HTok → List Tok
  | [] => []
  | .name t :: ts => t :: names ts
  | .eq _ :: ts => names ts

/-- What an opening tag binds: `inner` is the start of its own end tag, `outer` of the block around it. -/
def Head.bindings (inner outer : Point) : Head → List Binding
  | .for_ _ target _ => [target.bind .forLoopKey inner]
  | .with_ _ ts => (names ts).map (·.bind .withVariable inner)
  | .macro_ _ name ts => name.bind .macroName outer :: (names ts).map (·.bind .macroParameter inner)
  | .block _ name _ => [name.bind .templateBlock inner]
  | .plain _ _ => []

/-- All bindings of a template in document order; `outer` is the start of the enclosing end tag or the end of the
document. -/
def Tpl.bindings (outer : Point) : Tpl → List Binding
  | .nil => []
  | .leaf (.set _ _ target _) rest => target.bind .setVariable outer :: rest.bindings outer
  | .leaf _ rest => rest.bindings outer
  | .blk _ h body de _ _ rest =>
    h.bindings de.opening.start outer ++ body.bindings de.opening.start ++ rest.bindings outer

/-- what is recorded about an identifier, as a binding -/
def _root_.JinjaLsp.Identifier.binding (i : Identifier) : Binding := ⟨i.name, i.start, i.stop, i.idType, i.scopeEnd⟩

end JinjaLsp.Spec

namespace JinjaLsp.Spec

/-! ### Constructs beyond well-nested blocks -/

/-- An `else`/`elif` branch of a block: its keyword, further tokens, delimiters and body. -/
structure Branch where
  kw : Tok
  ts : List HTok
  d : Delims
  body : Tpl

def Branch.caps (b : Branch) : List Capture := (Head.plain b.kw b.ts).caps ++ b.d.caps ++ b.body.caps
def Branch.nodes (b : Branch) : List Nat := b.kw.node :: b.body.nodes

/-- an end tag -/
structure EndTag where
  kw : Tok
  ts : List HTok
  d : Delims

def EndTag.caps (e : EndTag) : List Capture := e.kw.cap .endblock :: hcaps e.ts ++ e.d.caps

/-- where the end tag begins -/
def EndTag.start (e : EndTag) : Point := e.d.opening.start

/-- Any sequence of tags, well-nested or not. -/
inductive Item where
  | leaf (l : Leaf)
  /-- an opening tag; `else` and `elif` are `plain` -/
  | opening (d : Delims) (h : Head)
  /-- an `if` or `else` inside an expression with the tokens that follow it -/
  | inline (kw : Tok) (ts : List HTok)
  /-- an end tag, including `endset` -/
  | closing (e : EndTag)

def Item.caps : Item → List Capture
  | .leaf l => l.caps
  | .opening d h => h.caps ++ d.caps
  | .inline kw ts => (Head.plain kw ts).caps
  | .closing e => e.caps

def Item.Ok : Item → Prop
  | .leaf l => l.Ok
  | .opening _ h => h.Ok
  | _ => True

def Item.nodes : Item → List Nat
  | .leaf l => l.nodes
  | .opening _ h => [h.kw.node]
  | .inline kw _ => [kw.node]
  | .closing _ => []

/-- names are not empty, distinct keyword nodes have distinct non-null addresses -/
structure Items.Wf (is : List Item) : Prop where
  ok : ∀ i ∈ is, i.Ok
  nodup : (is.flatMap Item.nodes).Nodup
  nonzero : 0 ∉ is.flatMap Item.nodes

/-- Bracket matching in which every opening tag, every `else`/`elif` and every inline `if`/`else` counts as an opening
bracket and every end tag as a closing one: the start of the end tag that closes the bracket `k` levels up. -/
def matchEnd : Nat → List Item → Option Point
  | _, [] => none
  | k, .leaf _ :: r => matchEnd k r
  | k, .opening _ _ :: r => matchEnd (k + 1) r
  | k, .inline _ _ :: r => matchEnd (k + 1) r
  | 0, .closing e :: _ => some e.start
  | k + 1, .closing _ :: r => matchEnd k r

/-- Bindings of a sequence of tags under that matching; `depth` is the number of open brackets. -/
def Items.bindings (last : Point) : Nat → List Item → List Binding
  | _, [] => []
  | depth, .leaf (.set _ _ target _) :: r =>
    target.bind .setVariable (if depth = 0 then last else (matchEnd 0 r).getD last) :: bindings last depth r
  | depth, .leaf _ :: r => bindings last depth r
  | depth, .opening _ h :: r =>
    h.bindings ((matchEnd 0 r).getD last) (if depth = 0 then last else (matchEnd 1 r).getD last) ++
      bindings last (depth + 1) r
  | depth, .inline _ _ :: r => bindings last (depth + 1) r
  | depth, .closing _ :: r => bindings last (depth - 1) r

/-- a well-nested template as a sequence of tags -/
def Tpl.items : Tpl → List Item
  | .nil => []
  | .leaf l rest => .leaf l :: rest.items
  | .blk d h body de kwEnd te rest => .opening d h :: (body.items ++ .closing ⟨kwEnd, te, de⟩ :: rest.items)

def Branch.items (b : Branch) : List Item := .opening b.d (.plain b.kw b.ts) :: b.body.items

/-- An assignment of a `with` header or a parameter with default of a `macro` header: the target, the operator and the
identifiers of the right-hand side. -/
structure Assign where
  target : Tok
  eq : Tok
  rhs : List Tok

def Assign.toks (a : Assign) : List HTok := .name a.target :: .eq a.eq :: a.rhs.map .name

/-- all opening tags of a template with the start of their end tags -/
def Tpl.heads : Tpl → List (Head × Point)
  | .nil => []
  | .leaf _ rest => rest.heads
  | .blk _ h body de _ _ rest => (h, de.opening.start) :: (body.heads ++ rest.heads)

end JinjaLsp.Spec
