import Verif.Spec.Syntax
import Verif.Spec.Diagnostics
/-
  Independent specification of rewritings of a template that should not matter: names are replaced consistently, the text is moved
  without changing the order of its places, nodes get new ids.
-/

namespace JinjaLsp.Spec

/-- What becomes of names, places and ids of nodes. -/
structure Recast where
  name : Str → Str
  place : Point → Point
  node : Nat → Nat

/-- Different names stay different, and words that are not names stay as they are; the order of places is kept; different nodes have
different ids. -/
structure Recast.Ok (φ : Recast) (digit : Char → Bool) : Prop where
  names : ∀ a b, φ.name a = φ.name b → a = b
  empty : φ.name [] = []
  reserved : ∀ t ∈ reserved, φ.name t = t
  numeral : ∀ t, IsNumeral digit t → φ.name t = t
  places : ∀ p q, p < q → φ.place p < φ.place q
  nodes : ∀ i j, φ.node i = φ.node j → i = j
  zero : φ.node 0 = 0

/-- The elements of two lists correspond. -/
inductive Zip {α β : Type} (R : α → β → Prop) : List α → List β → Prop where
  | nil : Zip R [] []
  | cons {a : α} {b : β} {as : List α} {bs : List β} : R a b → Zip R as bs → Zip R (a :: as) (b :: bs)

/-- what becomes of the text of a node: names are replaced, other tokens stay; the texts of composed nodes are of no interest -/
def Recast.Text (φ : Recast) (k : SKind) (t t' : Option Str) : Prop :=
  match k with
  | .identifier => t' = t.map φ.name
  | .keyword | .operator | .string => t' = t
  | _ => True

/-- The second tree is the first one rewritten.  Names are not empty and do not stand at the very beginning of the text. -/
inductive Recast.Tree (φ : Recast) : Syn → Syn → Prop where
  | node {k : SKind} {f : Option SField} {i : Nat} {a b : Point} {t t' : Option Str} {cs cs' : List Syn} :
    φ.Text k t t' → (k = .identifier → a ≠ ⟨0, 0⟩ ∧ a ≤ b ∧ t ≠ some []) → Zip φ.Tree cs cs' →
      φ.Tree (.node k f i a b t cs) (.node k f (φ.node i) (φ.place a) (φ.place b) t' cs')

/-- the captures that are names -/
def nameCapture : CapName → Prop
  | .id | .justId | .importIdentifier => True
  | _ => False

/-- the captures that are other tokens -/
def wordCapture : CapName → Prop
  | .definition | .scope | .endblock | .equals | .dot | .pipe | .is | .templateName => True
  | _ => False

/-- the second capture is the first one rewritten -/
structure Recast.Cap (φ : Recast) (c c' : Capture) : Prop where
  name : c'.name = c.name
  id : c'.id = φ.node c.id
  start : c'.start = φ.place c.start
  stop : c'.stop = φ.place c.stop
  names : nameCapture c.name → c'.text = c.text.map φ.name
  words : wordCapture c.name → c'.text = c.text
  sound : c.name = .id ∨ c.name = .justId → c.start ≠ ⟨0, 0⟩ ∧ c.start ≤ c.stop ∧ c.text ≠ some []

/-- the optional parts of imports are chosen in the same way in rewritten statements -/
def Recast.Options (φ : Recast) (options : Syn → Syn → List (List Capture)) : Prop :=
  ∀ p p' s s', φ.Tree p p' → φ.Tree s s' → Zip (Zip φ.Cap) (options p s) (options p' s')

/-- a report about a name -/
def Recast.report (φ : Recast) (r : Report) : Report := ⟨r.kind, φ.name r.name, φ.place r.start, φ.place r.stop⟩

/-- a report about a template reference -/
def Recast.missing (φ : Recast) (r : Report) : Report := ⟨r.kind, r.name, φ.place r.start, φ.place r.stop⟩

/-- a binding; those without a name have no place -/
def Recast.binding (φ : Recast) (b : Binding) : Binding :=
  if b.name = [] then { b with visibleTo := φ.place b.visibleTo }
  else ⟨φ.name b.name, φ.place b.start, φ.place b.stop, b.kind, φ.place b.visibleTo⟩

/-- a use -/
def Recast.use (φ : Recast) (u : UseInfo) : UseInfo :=
  ⟨φ.name u.name, (φ.place u.range.1, φ.place u.range.2), u.filter, u.test,
    u.attrs.map fun a => (φ.name a.1, (φ.place a.2.1, φ.place a.2.2))⟩

end JinjaLsp.Spec
