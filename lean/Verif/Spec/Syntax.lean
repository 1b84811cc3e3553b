import Verif.Spec.Template
import Verif.Spec.Expr
import Verif.Spec.Imports
import Verif.Model.Queries
/-
  How a reader reads a syntax tree: the tags of a template, the uses of names, the names of other templates.  Independent of the walk
  and the queries of Model/Queries.lean, except for the type of syntax trees and the lists of keywords.
-/

namespace JinjaLsp

mutual
/-- all nodes of a tree in document order, parents before their children -/
def Syn.flat : Syn → List Syn
  | .node k f i a b t cs => .node k f i a b t cs :: Syn.flatAll cs

def Syn.flatAll : List Syn → List Syn
  | [] => []
  | c :: cs => Syn.flat c ++ Syn.flatAll cs
end

namespace Spec

/-- a node as a token -/
def tokOf (n : Syn) : Tok := ⟨n.start, n.stop, n.text.getD [], n.id⟩

/-- a node without parts whose text can be read -/
structure Token (n : Syn) : Prop where
  leaf : n.children = []
  text : n.text ≠ none

/-- a numeral: digits only -/
def IsNumeral (digit : Char → Bool) (s : Str) : Prop := s ≠ [] ∧ ∀ c ∈ s, digit c = true

instance (digit : Char → Bool) (s : Str) : Decidable (IsNumeral digit s) := inferInstanceAs (Decidable (_ ∧ _))

/-- keywords that bind names or open or close blocks -/
def Structural (s : Str) : Prop :=
  s ∈ [c!"for", c!"set", c!"with", c!"macro", c!"block", c!"if", c!"elif", c!"else", c!"filter", c!"autoescape", c!"raw"] ∨ c!"end" <+: s

/-- the part of a tag or expression that a token contributes: names that are not numerals, operators with an equals sign -/
inductive Contributes (digit : Char → Bool) : Syn → List HTok → Prop where
  | name {n : Syn} : n.kind = .identifier → ¬ IsNumeral digit (tokOf n).text → Contributes digit n [.name (tokOf n)]
  | numeral {n : Syn} : n.kind = .identifier → IsNumeral digit (tokOf n).text → Contributes digit n []
  | eq {n : Syn} : n.kind = .operator → '=' ∈ (tokOf n).text → Contributes digit n [.eq (tokOf n)]
  | op {n : Syn} : n.kind = .operator → '=' ∉ (tokOf n).text → Contributes digit n []
  | word {n : Syn} : n.kind = .keyword → ¬ Structural (tokOf n).text → Contributes digit n []
  | string {n : Syn} : n.kind = .string → Contributes digit n []
  | other {n : Syn} : n.kind = .other → Contributes digit n []

/-- tokens without structural keywords and what they contribute -/
inductive Header (digit : Char → Bool) : List Syn → List HTok → Prop where
  | nil : Header digit [] []
  | cons {n : Syn} {ns : List Syn} {hs ts : List HTok} : Token n → Contributes digit n hs → Header digit ns ts →
      Header digit (n :: ns) (hs ++ ts)

/-- the inside of an expression: what precedes the first `if` or `else`, then each of them with what follows it -/
inductive Inline (digit : Char → Bool) : List Syn → List HTok → List Item → Prop where
  | nil : Inline digit [] [] []
  | tok {n : Syn} {ns : List Syn} {hs ts : List HTok} {is : List Item} : Token n → Contributes digit n hs → Inline digit ns ts is →
      Inline digit (n :: ns) (hs ++ ts) is
  | branch {n : Syn} {ns : List Syn} {ts : List HTok} {is : List Item} : Token n → n.kind = .keyword →
      (tokOf n).text ∈ [c!"if", c!"else"] → Inline digit ns ts is → Inline digit (n :: ns) [] (.inline (tokOf n) ts :: is)

/-- the inside of a statement between its delimiters -/
inductive Tag (digit : Char → Bool) (d : Delims) : List Syn → Item → Prop where
  | plain {ns : List Syn} {ts : List HTok} : Header digit ns ts → Tag digit d ns (.leaf (.stmt d ts))
  | set {kw : Syn} {ns : List Syn} {t : Tok} {ts : List HTok} : Token kw → kw.kind = .keyword → kw.text = some c!"set" →
      Header digit ns (.name t :: ts) → Tag digit d (kw :: ns) (.leaf (.set d (tokOf kw) t ts))
  | for_ {kw : Syn} {ns : List Syn} {t : Tok} {ts : List HTok} : Token kw → kw.kind = .keyword → kw.text = some c!"for" →
      Header digit ns (.name t :: ts) → Tag digit d (kw :: ns) (.opening d (.for_ (tokOf kw) t ts))
  | with_ {kw : Syn} {ns : List Syn} {ts : List HTok} : Token kw → kw.kind = .keyword → kw.text = some c!"with" →
      Header digit ns ts → Tag digit d (kw :: ns) (.opening d (.with_ (tokOf kw) ts))
  | macro_ {kw : Syn} {ns : List Syn} {t : Tok} {ts : List HTok} : Token kw → kw.kind = .keyword → kw.text = some c!"macro" →
      Header digit ns (.name t :: ts) → Tag digit d (kw :: ns) (.opening d (.macro_ (tokOf kw) t ts))
  | block {kw : Syn} {ns : List Syn} {t : Tok} {ts : List HTok} : Token kw → kw.kind = .keyword → kw.text = some c!"block" →
      Header digit ns (.name t :: ts) → Tag digit d (kw :: ns) (.opening d (.block (tokOf kw) t ts))
  | open_ {kw : Syn} {ns : List Syn} {ts : List HTok} : Token kw → kw.kind = .keyword →
      (tokOf kw).text ∈ [c!"if", c!"elif", c!"else", c!"filter", c!"autoescape", c!"raw"] →
      Header digit ns ts → Tag digit d (kw :: ns) (.opening d (.plain (tokOf kw) ts))
  | close {kw : Syn} {ns : List Syn} {ts : List HTok} : Token kw → kw.kind = .keyword → c!"end" <+: (tokOf kw).text →
      Header digit ns ts → Tag digit d (kw :: ns) (.closing ⟨tokOf kw, ts, d⟩)

/-- the nodes below the root of a template, read as a sequence of tags -/
inductive Tags (digit : Char → Bool) : List Syn → List Item → Prop where
  | nil : Tags digit [] []
  /-- text and comments -/
  | text {n : Syn} {ns : List Syn} {is : List Item} : n.kind = .other → n.children = [] → Tags digit ns is → Tags digit (n :: ns) is
  /-- `{{ … }}` -/
  | expr {n : Syn} {ns : List Syn} {ts : List HTok} {is rest : List Item} : n.kind = .expression → Inline digit n.children ts is →
      Tags digit ns rest → Tags digit (n :: ns) (.leaf (.expr ts) :: is ++ rest)
  /-- `{% … %}` -/
  | stmt {n b e : Syn} {inner ns : List Syn} {i : Item} {rest : List Item} : n.kind = .statement → n.children = b :: inner ++ [e] →
      Token b → b.kind = .statementBegin → Token e → e.kind = .statementEnd → Tag digit ⟨tokOf b, tokOf e⟩ inner i →
      Tags digit ns rest → Tags digit (n :: ns) (i :: rest)

/-! ### Uses of names -/

/-- nodes that matter for the uses of names: operators, names that are not numerals, the word `is`, expressions -/
def Relevant (digit : Char → Bool) (n : Syn) : Prop :=
  n.kind = .operator ∨ (n.kind = .identifier ∧ ¬ IsNumeral digit (tokOf n).text) ∨ (n.kind = .keyword ∧ n.text = some c!"is") ∨
    n.kind = .expression ∨ n.kind = .error

/-- a name -/
structure IsName (digit : Char → Bool) (n : Syn) : Prop where
  kind : n.kind = .identifier
  text : n.text ≠ none
  name : ¬ IsNumeral digit (tokOf n).text

/-- an operator other than the dot -/
structure IsOp (n : Syn) : Prop where
  kind : n.kind = .operator
  text : n.text ≠ none
  op : n.text ≠ some c!"."

/-- a dot -/
structure IsDot (n : Syn) : Prop where
  kind : n.kind = .operator
  text : n.text = some c!"."

/-- what precedes a name: nothing, a pipe, or `is` with reserved words -/
inductive Marks (digit : Char → Bool) : List Syn → Mark → Prop where
  | variable : Marks digit [] .variable
  | filter {p : Syn} : IsOp p → Marks digit [p] (.filter (tokOf p))
  | test {k : Syn} {ws : List Syn} : k.kind = .keyword → k.text = some c!"is" → (∀ w ∈ ws, IsName digit w) →
      Marks digit (k :: ws) (.test (tokOf k) (ws.map tokOf))

/-- attributes: a dot and a name each -/
inductive Attrs (digit : Char → Bool) : List Syn → List (Tok × Tok) → Prop where
  | nil : Attrs digit [] []
  | cons {d n : Syn} {ns : List Syn} {fs : List (Tok × Tok)} : IsDot d → IsName digit n → Attrs digit ns fs →
      Attrs digit (d :: n :: ns) ((tokOf d, tokOf n) :: fs)

/-- a sequence of nodes read as uses, operators, words and beginnings of expressions -/
inductive ReadsOff (digit : Char → Bool) : List Syn → List Elem → Prop where
  | nil : ReadsOff digit [] []
  | expr {n : Syn} {ns : List Syn} {es : List Elem} : n.kind = .expression → ReadsOff digit ns es →
      ReadsOff digit (n :: ns) (.expr n.id n.start n.stop n.first n.last :: es)
  | op {n : Syn} {ns : List Syn} {es : List Elem} : IsOp n → ReadsOff digit ns es → ReadsOff digit (n :: ns) (.op (tokOf n) :: es)
  | word {n : Syn} {ns : List Syn} {es : List Elem} : IsName digit n → ReadsOff digit ns es → ReadsOff digit (n :: ns) (.word (tokOf n) :: es)
  | use {ms fs ns : List Syn} {r : Syn} {m : Mark} {as : List (Tok × Tok)} {es : List Elem} : Marks digit ms m → IsName digit r →
      Attrs digit fs as → ReadsOff digit ns es → ReadsOff digit (ms ++ r :: fs ++ ns) (.use ⟨m, tokOf r, as⟩ :: es)

/-- the uses of a syntax tree: its relevant nodes in document order, read as such a sequence -/
def ReadsTree (digit : Char → Bool) (root : Syn) (es : List Elem) : Prop :=
  ∃ p : Syn → Bool, (∀ n, p n = true ↔ Relevant digit n) ∧ ReadsOff digit (root.flat.filter p) es

/-! ### Names of other templates -/

/-- the keywords of statements that name other templates -/
def importWords : List Str := [c!"extends", c!"include", c!"from", c!"import"]

/-- the strings among some nodes -/
def strings (ns : List Syn) : List Syn := ns.filter fun n => n.kind = .string

/-- no keyword of a reference is followed by a string -/
def NoRef : List Syn → Prop
  | [] => True
  | n :: ns => (n.kind = .keyword → (tokOf n).text ∈ importWords → strings ns = []) ∧ NoRef ns

/-- a statement: its delimiters and what is between them -/
structure IsStmt (n b : Syn) (inner : List Syn) (e : Syn) : Prop where
  kind : n.kind = .statement
  parts : n.children = b :: inner ++ [e]
  opening : Token b ∧ b.kind = .statementBegin
  closing : Token e ∧ e.kind = .statementEnd
  inner : ∀ t ∈ inner, Token t ∧ t.kind ≠ .statementBegin ∧ t.kind ≠ .statementEnd ∧ t.kind ≠ .error

/-- the statements below the root of a template that name other templates -/
inductive Refs (options : Syn → Syn → List (List Capture)) : List Syn → List ImpStmt → Prop where
  | nil : Refs options [] []
  /-- text, comments and expressions -/
  | other {n : Syn} {ns : List Syn} {ss : List ImpStmt} : n.kind = .other ∨ n.kind = .expression →
      (∀ c ∈ n.children, c.children = [] ∧ c.kind ≠ .error ∧ c.kind ≠ .statementEnd) → Refs options ns ss → Refs options (n :: ns) ss
  /-- other statements -/
  | stmt {n b e : Syn} {inner ns : List Syn} {ss : List ImpStmt} : IsStmt n b inner e → NoRef inner → Refs options ns ss →
      Refs options (n :: ns) ss
  | extends {n b kw e s : Syn} {rest ns : List Syn} {ss : List ImpStmt} : IsStmt n b (kw :: rest) e → n.text ≠ none →
      kw.kind = .keyword → kw.text = some c!"extends" → strings rest = [s] → NoRef rest → Refs options ns ss →
      Refs options (n :: ns) (.extends (tokOf n) (tokOf kw) (tokOf s) :: ss)
  | include {n b kw e : Syn} {rest ns : List Syn} {ss : List ImpStmt} : IsStmt n b (kw :: rest) e → n.text ≠ none →
      kw.kind = .keyword → kw.text = some c!"include" → NoRef rest → Refs options ns ss →
      Refs options (n :: ns) (.include (tokOf n) (tokOf kw) ((strings rest).map tokOf) :: ss)
  | from_ {n b kw e s : Syn} {rest ns : List Syn} {ss : List ImpStmt} : IsStmt n b (kw :: rest) e → n.text ≠ none →
      kw.kind = .keyword → kw.text = some c!"from" → strings rest = [s] → NoRef rest → Refs options ns ss →
      Refs options (n :: ns) (.from_ (tokOf n) (tokOf kw) (tokOf s) (options n s) :: ss)
  | import_ {n b kw e s : Syn} {rest ns : List Syn} {ss : List ImpStmt} : IsStmt n b (kw :: rest) e → n.text ≠ none →
      kw.kind = .keyword → kw.text = some c!"import" → strings rest = [s] → NoRef rest → Refs options ns ss →
      Refs options (n :: ns) (.import_ (tokOf n) (tokOf kw) (tokOf s) (options n s) :: ss)

/-! ### Syntax trees -/

/-- a tree as tree-sitter builds it: nodes have distinct non-null addresses, names are not empty -/
structure WellFormed (root : Syn) : Prop where
  ids : (root.flat.map Syn.id).Nodup
  nonzero : ∀ n ∈ root.flat, n.id ≠ 0
  names : ∀ n ∈ root.flat, n.kind = .identifier → n.text ≠ some []

/-- a tree over a text: nodes have an extent and are in document order, those that are not parts of each other do not overlap, names and
strings have no parts, and an operator is inside a tag, not the first character -/
structure Laid (root : Syn) : Prop where
  spans : ∀ n ∈ root.flat, n.start ≤ n.stop
  order : root.flat.Pairwise fun a b => a.start ≤ b.start ∧ (b.id ∈ a.flat.map Syn.id ∨ a.stop ≤ b.start)
  leaves : ∀ n ∈ root.flat, n.kind = .identifier ∨ n.kind = .string → n.children = []
  inside : ∀ n ∈ root.flat, n.kind = .operator → n.start ≠ Point.zero

/-- the tree has an error node -/
def HasError (root : Syn) : Prop := ∃ n ∈ root.flat, n.kind = .error

/-! ### Backend files -/

/-- the text of every node can be read -/
def Legible (root : Syn) : Prop := ∀ n ∈ root.flat, n.text ≠ none

/-- a node's text and extent -/
def _root_.JinjaLsp.Syn.info (n : Syn) : Str × Point × Point := (n.text.getD [], n.start, n.stop)

/-- the same without quotes -/
def _root_.JinjaLsp.Syn.unquoted (n : Syn) : Str × Point × Point :=
  ((n.text.getD []).filter fun c => c ≠ '"' && c ≠ '\'', n.start, n.stop)

/-- Rust: an identifier directly inside the brackets of a macro (or brackets nested in them) -/
structure InMacro (root n : Syn) : Prop where
  kind : n.kind = .identifier
  parent : ∃ p ∈ root.flat, p.kind = .tokenTree ∧ n ∈ p.children

/-- Rust: `jinja.m` where `m` contains `add_global`, `add_filter` or `add_function` -/
def IsAdd (fe : Syn) : Prop :=
  fe.kind = .fieldExpression ∧ ∃ x o y m z, fe.children = x ++ o :: (y ++ m :: z) ∧ o.kind = .identifier ∧ o.text = some c!"jinja" ∧
    m.kind = .fieldIdentifier ∧ ∃ t, m.text = some t ∧ (c!"add_global" <:+: t ∨ c!"add_filter" <:+: t ∨ c!"add_function" <:+: t)

/-- Rust: a string among the arguments of such a call -/
structure Registered (root n : Syn) : Prop where
  kind : n.kind = .stringLiteral
  call : ∃ p ∈ root.flat, ∃ a fe b args c, p.children = a ++ fe :: (b ++ args :: c) ∧ IsAdd fe ∧ args.kind = .arguments ∧ n ∈ args.children

/-- Python: `object.globals` or `object.filters`; if the object is a plain name, it is `jinja_env` -/
def IsTable (attr : Syn) : Prop :=
  attr.kind = .attribute ∧ (∀ o ∈ attr.children, o.kind = .identifier → o.field = some .object → o.text = some c!"jinja_env") ∧
    ∃ f ∈ attr.children, f.kind = .identifier ∧ f.field = some .attribute ∧ (f.text = some c!"globals" ∨ f.text = some c!"filters")

/-- Python: the text of a string that subscripts such a table -/
structure TableKey (root n : Syn) : Prop where
  kind : n.kind = .stringContent
  sub : ∃ p ∈ root.flat, ∃ a t b str c, p.children = a ++ t :: (b ++ str :: c) ∧ p.kind = .subscript ∧ IsTable t ∧ str.kind = .string ∧
    n ∈ str.children

/-- the name of a function that renders a template -/
def IsRender (n : Syn) : Prop := n.kind = .identifier ∧ (n.text = some c!"render_template" ∨ n.text = some c!"render")

/-- Python: `render`, or `name.render` -/
def IsRenderer (f : Syn) : Prop :=
  IsRender f ∨ f.kind = .attribute ∧ (∃ o ∈ f.children, o.kind = .identifier ∧ o.field = some .object) ∧
    ∃ m ∈ f.children, m.field = some .attribute ∧ IsRender m

/-- Python: the name of a keyword argument of a call of such a function -/
structure Keyword (root n : Syn) : Prop where
  kind : n.kind = .identifier ∧ n.field = some .name
  call : ∃ p ∈ root.flat, ∃ a f b args c k, p.children = a ++ f :: (b ++ args :: c) ∧ p.kind = .call ∧ f.field = some .function ∧
    IsRenderer f ∧ args.kind = .argumentList ∧ args.field = some .arguments ∧ k ∈ args.children ∧ k.kind = .keywordArgument ∧ n ∈ k.children

/-- a call of `render_jinja` or `get_template`, directly or through a part of a node of kind `via` -/
def IsLoader (via part : SKind) (m : Syn) : Prop :=
  (m.kind = via ∧ ∃ c ∈ m.children, c.kind = part ∧ (c.text = some c!"render_jinja" ∨ c.text = some c!"get_template")) ∨
    (m.kind = .identifier ∧ (m.text = some c!"render_jinja" ∨ m.text = some c!"get_template"))

/-- the first string among the arguments of such a call -/
def TemplateArgument (callKind argsKind via part literal : SKind) (root n : Syn) : Prop :=
  ∃ p ∈ root.flat, ∃ a m b l c x y, p.children = a ++ m :: (b ++ l :: c) ∧ p.kind = callKind ∧ IsLoader via part m ∧ l.kind = argsKind ∧
    l.children = x ++ n :: y ∧ n.kind = literal ∧ ∀ k ∈ x, k.kind ≠ literal

end Spec
end JinjaLsp
