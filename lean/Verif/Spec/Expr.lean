import Verif.Spec.Template
import Verif.Model.Objects
/-
  Independent specification for expressions: sequences of variable uses, operators and reserved words, the captures the
  OBJECTS query (queries.rs:55-83) reports for them, and the uses a reader sees.
-/

namespace JinjaLsp.Spec

/-- how a name is used -/
inductive Mark where
  | variable
  /-- directly after a pipe -/
  | filter (pipe : Tok)
  /-- after `is`, with reserved words (`not`) in between -/
  | test (kw : Tok) (words : List Tok)

/-- a use of a name with its attributes: each a dot and a name -/
structure Use where
  mark : Mark
  root : Tok
  fields : List (Tok × Tok)

/-- the elements of a sequence of expressions and statements -/
inductive Elem where
  | use (u : Use)
  /-- an operator other than a dot or a pipe -/
  | op (t : Tok)
  /-- a reserved word that is not an operand (`not`, `as`, `true`, …) -/
  | word (t : Tok)
  /-- an `{{ … }}` begins: the node with its first and last child -/
  | expr (node : Nat) (start stop : Point) (first last : Point × Point)

/-- reserved words: never variables -/
def reserved : List Str := [c!"loop", c!"true", c!"false", c!"not", c!"as", c!"module", c!"super", c!"url_for"]

/-! ### Captures: every operator is captured as `@pipe`, a dot then also as `@dot` -/

def dotCaps (t : Tok) : List Capture := [t.cap .pipe, t.cap .dot]

def Mark.caps : Mark → List Capture
  | .variable => []
  | .filter p => [p.cap .pipe]
  | .test k ws => k.cap .is :: ws.map (·.cap .justId)

def Use.caps (u : Use) : List Capture :=
  u.mark.caps ++ u.root.cap .justId :: u.fields.flatMap fun f => dotCaps f.1 ++ [f.2.cap .justId]

def Elem.caps : Elem → List Capture
  | .use u => u.caps
  | .op t => [t.cap .pipe]
  | .word t => [t.cap .justId]
  | .expr n a b f l =>
    [{ name := .expr, id := n, start := a, stop := b, text := some [], firstChild := f, lastChild := l }]

/-! ### Well-formedness -/

def Mark.toks : Mark → List Tok
  | .variable => []
  | .filter p => [p]
  | .test k ws => k :: ws

def Use.toks (u : Use) : List Tok := u.mark.toks ++ u.root :: u.fields.flatMap fun f => [f.1, f.2]

def Elem.toks : Elem → List Tok
  | .use u => u.toks
  | .op t => [t]
  | .word t => [t]
  | .expr .. => []

/-- tokens follow each other without overlap, the first starts at or after `cur` -/
def Ordered : Point → List Tok → Prop
  | _, [] => True
  | cur, t :: ts => cur ≤ t.start ∧ t.start < t.stop ∧ Ordered t.stop ts

def Mark.Ok (root : Tok) : Mark → Prop
  | .variable => True
  | .filter p => p.text.head? = some '|' ∧ p.stop = root.start
  | .test _ ws => ∀ w ∈ ws, w.text ∈ reserved

def Elem.Ok : Elem → Prop
  | .use u => u.mark.Ok u.root ∧ u.root.text ∉ reserved ∧ ∀ f ∈ u.fields, f.1.stop = f.2.start ∧ f.1.text = c!"."
  | .op t => t.text.head? ≠ some '|'
  | .word t => t.text ∈ reserved
  | .expr .. => True

/-- A well-formed sequence: every element is, and its tokens follow each other somewhere after the first character of
the document (they are inside `{{`/`{%`). -/
structure Elems.Wf (es : List Elem) : Prop where
  ok : ∀ e ∈ es, e.Ok
  ordered : ∃ p, Point.zero < p ∧ Ordered p (es.flatMap Elem.toks)

/-! ### What is to be reported -/

/-- a reported use -/
structure UseInfo where
  name : Str
  range : Point × Point
  filter : Bool
  test : Bool
  attrs : List (Str × (Point × Point))
deriving DecidableEq, Repr

def Use.info (u : Use) : UseInfo where
  name := u.root.text
  range := (u.root.start, u.root.stop)
  filter := match u.mark with | .filter _ => true | _ => false
  test := match u.mark with | .test _ _ => true | _ => false
  attrs := u.fields.map fun f => (f.2.text, (f.2.start, f.2.stop))

/-- the uses of a sequence, in document order -/
def Elems.uses (es : List Elem) : List UseInfo := es.filterMap fun | .use u => some u.info | _ => none

/-! ### The cursor -/

/-- the last `{{ … }}` begun -/
def lastExpr : (Point × Point) × ExprRange → List Elem → (Point × Point) × ExprRange
  | acc, [] => acc
  | _, .expr _ a b f l :: es => lastExpr ((a, b), ⟨f, l⟩) es
  | acc, _ :: es => lastExpr acc es

/-- a document with the cursor on the name of the use `u`: `es` precedes it, `rest` are the captures after it -/
structure OnUse (cs : List Capture) (es : List Elem) (u : Use) (rest : List Capture) (p : Point) : Prop where
  caps : cs = es.flatMap Elem.caps ++ ((u.mark.caps ++ [u.root.cap .justId]) ++ rest)
  ok : ∀ e ∈ es, e.Ok
  mark : u.mark.Ok u.root
  name : u.root.text ∉ reserved
  ordered : ∃ q, Point.zero < q ∧ Ordered q (es.flatMap Elem.toks ++ (u.mark.toks ++ [u.root]))
  exprs : ∀ n a b f l, Elem.expr n a b f l ∈ es → a ≤ u.root.start
  start : u.root.start ≤ p
  stop : p ≤ u.root.stop
  after : ∀ c ∈ rest, p < c.start

/-- what the server reports about a use -/
def _root_.JinjaLsp.JinjaObject.info (o : JinjaObject) : UseInfo := ⟨o.name, o.location, o.isFilter, o.isTest, o.fields⟩

/-- no dot comes before the first name -/
def NoDotBeforeName : List Capture → Prop
  | [] => True
  | c :: cs => c.name ≠ .dot ∧ (c.name ≠ .justId → NoDotBeforeName cs)

end JinjaLsp.Spec
