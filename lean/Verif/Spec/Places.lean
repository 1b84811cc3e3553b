import Verif.Spec.Snippet
import Verif.Spec.Syntax
/-
  Where a name stands: in the text, in the syntax tree, on the screen.
-/
namespace JinjaLsp.Spec

/-- the characters of the last line of `t` -/
def lineOf (t : Str) : Str := (t.reverse.takeWhile fun c => decide (c ≠ '\n')).reverse

/-- After the characters `pre` of `text` come the characters `s`, and tree-sitter says that they reach from `a` to `b` (rows are
ended by LF, columns count bytes). -/
structure Occurs (text : Str) (a b : Point) (pre s : Str) : Prop where
  text : ∃ post, text = pre ++ s ++ post
  start : a = advance ⟨0, 0⟩ pre
  stop : b = advance ⟨0, 0⟩ (pre ++ s)

/-- What tree-sitter guarantees of the tree of a text: the names and strings stand in the text where their nodes say. -/
def Spelled (text : Str) (root : Syn) : Prop :=
  ∀ n ∈ root.flat, n.kind = .identifier ∨ n.kind = .string → ∃ pre s, n.text = some s ∧ Occurs text n.start n.stop pre s

/-- In an editor that shows `text` the range `r` covers the characters `s` that come after `pre`. -/
def Selects (text : Str) (r : Range) (pre s : Str) : Prop :=
  (∃ post, text = pre ++ s ++ post) ∧ offset text r.start = some pre.length ∧ offset text r.stop = some (pre.length + s.length)

/-- a printable word of one line: ASCII, not empty -/
def AsciiWord (s : Str) : Prop := s ≠ [] ∧ ∀ c ∈ s, c.toNat < 128 ∧ c ≠ '\n' ∧ c ≠ '\r'

end JinjaLsp.Spec
