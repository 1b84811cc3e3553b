import Verif.Model.Ident
/-
  The part of `ropey::Rope` (1.6.1, features `unicode_lines`) that the server uses, and
  jinja-lsp-queries/src/to_input_edit.rs.
-/

namespace JinjaLsp

/-- A rope is modelled by its text. -/
abbrev Rope := Str

namespace Rope

/-- single characters that end a line in ropey with `unicode_lines`: LF, VT, FF, CR, NEL, LS, PS -/
def isBreak (c : Char) : Bool :=
  c.toNat = 0x0A || c.toNat = 0x0B || c.toNat = 0x0C || c.toNat = 0x0D ||
  c.toNat = 0x85 || c.toNat = 0x2028 || c.toNat = 0x2029

/-- byte offsets of the starts of all lines after the first; `off` is the offset of the list's head.
CR LF counts as one break. -/
def lineStartsFrom : Nat → Str → List Nat
  | _, [] => []
  | off, c :: r =>
    if isBreak c && !(c = '\r' && r.head? = some '\n')
    then (off + c.utf8Size) :: lineStartsFrom (off + c.utf8Size) r
    else lineStartsFrom (off + c.utf8Size) r

/-- byte offsets of all line starts -/
def lineStarts (t : Rope) : List Nat := 0 :: lineStartsFrom 0 t

/-- `Rope::len_bytes` -/
def lenBytes (t : Rope) : Nat := utf8Len t

/-- `Rope::len_chars` -/
def lenChars (t : Rope) : Nat := t.length

/-- `Rope::len_lines`: number of line breaks plus one -/
def lenLines (t : Rope) : Nat := (lineStarts t).length

/-- `Rope::line_to_byte`: panics when `line > len_lines`; one past the end is the text's length. -/
def lineToByte (t : Rope) (line : Nat) : Res Nat :=
  match (lineStarts t ++ [lenBytes t])[line]? with
  | some b => .ok b
  | none => .error .lineIndex

/-- `Rope::remove(start..end)` (char indices): panics when `start > end` or `end > len_chars`. -/
def remove (t : Rope) (a b : Nat) : Res Rope :=
  if a ≤ b ∧ b ≤ lenChars t then .ok (t.take a ++ t.drop b) else .error .charIndex

/-- `Rope::insert(char_idx, text)`: panics when `char_idx > len_chars`. -/
def insert (t : Rope) (a : Nat) (s : Str) : Res Rope :=
  if a ≤ lenChars t then .ok (t.take a ++ s ++ t.drop a) else .error .charIndex

/-- to_input_edit.rs:19-22 `to_byte`. -/
def toByte (t : Rope) (p : Position) : Res Nat :=
  match lineToByte t p.line with
  | .ok b => .ok (b + p.character)
  | .error e => .error e

/-- to_input_edit.rs:34-41: the binary search loop; `fuel` bounds the number of iterations
(`toPosition` passes `high`, which the loop never exhausts: `Lemmas/Rope.lean`). -/
def searchLine (t : Rope) (offset : Nat) : Nat → Nat → Nat → Res Nat
  | 0, low, _ => .ok low
  | fuel + 1, low, high =>
    if low < high then
      let mid := low + (high - low) / 2
      match lineToByte t mid with
      | .error e => .error e
      | .ok b =>
        if b > offset then searchLine t offset fuel low mid
        else searchLine t offset fuel (mid + 1) high
    else .ok low

/-- to_input_edit.rs:24-45 `to_position`. -/
def toPosition (prof : Profile) (t : Rope) (offset : Nat) : Res Position :=
  let offset := min offset (lenBytes t)
  let high := lenLines t
  if high = 0 then .ok ⟨0, toU32 offset⟩
  else
    match searchLine t offset high 0 high with
    | .error e => .error e
    | .ok low =>
      match usub prof low 1 with
      | .error e => .error e
      | .ok line =>
        match lineToByte t line with
        | .error e => .error e
        | .ok b =>
          match usub prof offset b with
          | .error e => .error e
          | .ok character => .ok ⟨toU32 line, toU32 character⟩

/-- to_input_edit.rs:47-69 `to_input_edit`. -/
def toInputEdit (prof : Profile) (t : Rope) (range : Range) (text : Str) : Res InputEdit :=
  match toByte t range.start with
  | .error e => .error e
  | .ok startByte =>
    let newEndByte := startByte + utf8Len text
    match toPosition prof t newEndByte with
    | .error e => .error e
    | .ok newEndPos =>
      match toByte t range.stop with
      | .error e => .error e
      | .ok oldEndByte =>
        .ok { startByte := startByte
              oldEndByte := oldEndByte
              newEndByte := newEndByte
              startPosition := toPoint range.start
              oldEndPosition := toPoint range.stop
              newEndPosition := toPoint newEndPos }

/-- lsp_files.rs:172-185: one ranged content change applied to the rope, together with the edit
descriptor that is later handed to the parser. -/
def applyChange (prof : Profile) (t : Rope) (range : Range) (text : Str) : Res (Rope × InputEdit) :=
  match toInputEdit prof t range text with
  | .error e => .error e
  | .ok ie =>
    match toByte t range.start with
    | .error e => .error e
    | .ok start =>
      match toByte t range.stop with
      | .error e => .error e
      | .ok stop =>
        match (if start ≤ stop then remove t start stop else remove t stop start) with
        | .error e => .error e
        | .ok t' =>
          if text.isEmpty then .ok (t', ie)
          else
            match insert t' start text with
            | .error e => .error e
            | .ok t'' => .ok (t'', ie)

end Rope

end JinjaLsp
