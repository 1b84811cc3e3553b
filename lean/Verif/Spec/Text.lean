import Verif.Model.Base
/-
  Independent specifications about text: LSP positions and edits, line terminators.
-/
namespace JinjaLsp.Spec

/-! ### The LSP definition of positions and ranges

Lines end with LF, CR or CR LF; columns count UTF-16 code units and are clamped to the line's length. -/

/-- UTF-16 length of a character -/
def utf16Len (c : Char) : Nat := if c.toNat < 0x10000 then 1 else 2

/-- index of the first character of line `n` (`none`: no such line) -/
def lineStart : Str → Nat → Option Nat
  | _, 0 => some 0
  | [], _ + 1 => none
  | c :: r, n + 1 =>
    if c = '\n' ∨ (c = '\r' ∧ r.head? ≠ some '\n') then (lineStart r n).map (· + 1)
    else (lineStart r (n + 1)).map (· + 1)

/-- number of characters covered by `n` UTF-16 units of a line -/
def columnChars : Str → Nat → Nat
  | _, 0 => 0
  | [], _ + 1 => 0
  | c :: r, n + 1 =>
    if c = '\n' ∨ c = '\r' then 0
    else if utf16Len c ≤ n + 1 then 1 + columnChars r (n + 1 - utf16Len c)
    else 0

/-- character index of an LSP position -/
def offset (t : Str) (p : Position) : Option Nat :=
  (lineStart t p.line).map fun s => s + columnChars (t.drop s) p.character

/-- an LSP text edit; `none` when the range is not a range of the text -/
def applyEdit (t : Str) (r : Range) (text : Str) : Option Str :=
  match offset t r.start, offset t r.stop with
  | some a, some b => if a ≤ b then some (t.take a ++ text ++ t.drop b) else none
  | _, _ => none

/-- a batch (or history) of edits, each relative to the result of the previous one -/
def applyEdits : Str → List (Range × Str) → Option Str
  | t, [] => some t
  | t, e :: es => (applyEdit t e.1 e.2).bind fun t' => applyEdits t' es

/-! ### Line terminators of Unicode (what `ropey` recognises) -/

/-- LF, VT, FF, CR, NEL, LS, PS -/
def terminators : List Char := ['\n', '\x0b', '\x0c', '\r', '\u0085', '\u2028', '\u2029']

/-- number of line terminators that lie entirely in the first `n` bytes; CR LF is one terminator -/
def terminatorsIn : Str → Nat → Nat
  | [], _ => 0
  | c :: r, n =>
    if n < c.utf8Size then 0
    else if c = '\r' ∧ r.head? = some '\n' then terminatorsIn r (n - c.utf8Size)
    else (if c ∈ terminators then 1 else 0) + terminatorsIn r (n - c.utf8Size)

/-- byte offset of the start of line `l`; one line past the last one is the end of the text -/
def lineByte : Str → Nat → Option Nat
  | _, 0 => some 0
  | [], 1 => some 0
  | [], _ + 2 => none
  | c :: r, l + 1 =>
    if c ∈ terminators ∧ ¬ (c = '\r' ∧ r.head? = some '\n')
    then (lineByte r l).map (c.utf8Size + ·)
    else (lineByte r (l + 1)).map (c.utf8Size + ·)

/-- the point reached after reading `text` from point `p` (rows are ended by LF, columns count bytes): tree-sitter's
convention -/
def advance : Point → Str → Point
  | p, [] => p
  | p, c :: r => advance (if c = '\n' then ⟨p.row + 1, 0⟩ else ⟨p.row, p.column + c.utf8Size⟩) r

end JinjaLsp.Spec

namespace JinjaLsp.Spec

/-- When a ranged edit goes out of bounds: a line lies beyond the end of the document, an offset lies beyond the end
of the text, or (reversed range) the insertion point lies beyond the end of what remains.  Offsets: byte offset of the
line plus column, compared with the number of characters. -/
def EditCrash (t : Str) (r : Range) (text : Str) : Prop :=
  match lineByte t r.start.line, lineByte t r.stop.line with
  | some a, some b =>
    let s := a + r.start.character
    let e := b + r.stop.character
    t.length < max s e ∨ (text ≠ [] ∧ t.length - (max s e - min s e) < s)
  | _, _ => True

/-- every CR is followed by LF -/
def NoLoneCR : Str → Prop
  | [] => True
  | c :: r => (c = '\r' → r.head? = some '\n') ∧ NoLoneCR r

/-- an ASCII character other than VT and FF -/
def PlainChar (c : Char) : Prop := c.toNat < 128 ∧ c ≠ '\x0b' ∧ c ≠ '\x0c'

/-- The position `p` denotes character `a` of `t`, its column is neither clamped nor shifted by a surrogate pair, and
the lines before it are ASCII without VT/FF. -/
structure PlainPos (t : Str) (p : Position) (a : Nat) : Prop where
  ex : ∃ s, lineStart t p.line = some s ∧ (∀ c ∈ t.take s, PlainChar c) ∧
    columnChars (t.drop s) p.character = p.character ∧ a = s + p.character

/-- a forward range between two such positions -/
def PlainEdit (t : Str) (r : Range) : Prop :=
  ∃ a b, PlainPos t r.start a ∧ PlainPos t r.stop b ∧ a ≤ b

/-- every edit of the sequence is plain in the text it applies to -/
def PlainEdits : Str → List (Range × Str) → Prop
  | _, [] => True
  | t, e :: es => PlainEdit t e.1 ∧ ∀ t', applyEdit t e.1 e.2 = some t' → PlainEdits t' es

/-- the position exists in the text as it stands: the line exists and the column is within the line -/
def InRange (t : Str) (p : Position) : Prop :=
  ∃ s, lineStart t p.line = some s ∧ columnChars (t.drop s) p.character = p.character

/-- every edit of the sequence has a forward range inside the text it applies to -/
def InRangeEdits : Str → List (Range × Str) → Prop
  | _, [] => True
  | t, e :: es => InRange t e.1.start ∧ InRange t e.1.stop ∧
      ∃ t', applyEdit t e.1 e.2 = some t' ∧ InRangeEdits t' es

end JinjaLsp.Spec
