import Verif.Spec.Text
/-
  Independent specifications about snippets: the snippet syntax of the protocol, the statements of a template text.
-/
namespace JinjaLsp.Spec

/-! ### The snippet syntax of the protocol

`$n` and `${n:default}` (numbers of one digit) are places to fill in. -/

/-- where in a snippet: in its text, after `$`, after `${`, after `${n`, in the default text of place `n` -/
inductive Hole where
  | text | dollar | brace | colon (n : Nat) | default (n : Nat)

/-- the digit of a place -/
def digitOf (c : Char) : Nat := c.toNat - 48

/-- the text an editor puts in for a snippet; `fill n`: what its user typed at place `n`, if anything -/
def expand (fill : Nat → Option Str) : Hole → Str → Str
  | _, [] => []
  | .text, c :: cs => if c = '$' then expand fill .dollar cs else c :: expand fill .text cs
  | .dollar, c :: cs =>
    if c = '{' then expand fill .brace cs else (fill (digitOf c)).getD [] ++ expand fill .text cs
  | .brace, c :: cs => expand fill (.colon (digitOf c)) cs
  | .colon n, _ :: cs => (fill n).getD [] ++ expand fill (.default n) cs
  | .default n, c :: cs =>
    if c = '}' then expand fill .text cs
    else if (fill n).isSome then expand fill (.default n) cs else c :: expand fill (.default n) cs

/-- what is typed does not end the statement and does not turn a block into an assignment -/
def Innocuous (fill : Nat → Option Str) : Prop := ∀ n x, fill n = some x → ∀ c ∈ x, c ≠ '%' ∧ c ≠ '='

/-! ### The statements of a text -/

/-- where in a text: outside of statements (the last character was `{`?), in a statement with the text so far (the last character was
`%`?) -/
inductive Where where
  | outside (open_ : Bool) | inside (content : Str) (percent : Bool)

/-- the texts between `{%` and `%}`; `none` if the last statement is not closed -/
def statements : Where → Str → Option (List Str)
  | .outside _, [] => some []
  | .inside .., [] => none
  | .outside b, c :: cs =>
    if b = true ∧ c = '%' then statements (.inside [] false) cs else statements (.outside (decide (c = '{'))) cs
  | .inside a p, c :: cs =>
    if p = true ∧ c = '}' then (statements (.outside false) cs).map (a.dropLast :: ·)
    else statements (.inside (a ++ [c]) (decide (c = '%'))) cs

/-- the first word of a statement -/
def keyword (s : Str) : Str := (s.dropWhile (fun c => decide (c = ' '))).takeWhile (fun c => decide (c ≠ ' '))

/-- the statement opens a block: `for`, `if`, `with`, and `set` without a value -/
def OpensBlock (s : Str) : Prop :=
  keyword s ∈ [c!"for", c!"if", c!"with"] ∨ (keyword s = c!"set" ∧ '=' ∉ s)

/-- the blocks are closed in the reverse order of their openings, `elif` occurs in `if` only -/
inductive Nested : List Str → List Str → Prop where
  | done : Nested [] []
  | «open» {st s ss} : OpensBlock s → Nested (keyword s :: st) ss → Nested st (s :: ss)
  | close {k st s ss} : keyword s = c!"end" ++ k → Nested st ss → Nested (k :: st) (s :: ss)
  | branch {st s ss} : keyword s = c!"elif" → Nested (c!"if" :: st) ss → Nested (c!"if" :: st) (s :: ss)
  | plain {st s ss} : ¬ OpensBlock s → ¬ c!"end" <+: keyword s → keyword s ≠ c!"elif" → Nested st ss → Nested st (s :: ss)

/-- the text consists of complete statements, with all blocks closed, the first one being a `word` statement -/
def Complete (word : Str) (t : Str) : Prop :=
  ∃ s ss, statements (.outside false) t = some (s :: ss) ∧ Nested [] (s :: ss) ∧ keyword s = word

/-! ### The editor -/

/-- length in UTF-16 code units -/
def units : Str → Nat
  | [] => 0
  | c :: r => utf16Len c + units r

/-- the cursor `pos` stands between `pre` and `post` -/
def Stands (text : Str) (pos : Position) (pre post : Str) : Prop :=
  text = pre ++ post ∧ ∃ above line, pre = above ++ line ∧ lineStart text pos.line = some above.length ∧
    (∀ c ∈ line, c ≠ '\n' ∧ c ≠ '\r') ∧ units line = pos.character

/-- the text without its first character, if that is a character of the same line and takes one UTF-16 code unit -/
def withoutUnit : Str → Str
  | [] => []
  | c :: r => if c = '\n' ∨ c = '\r' ∨ utf16Len c = 2 then c :: r else r

end JinjaLsp.Spec
