/-
  Base vocabulary of the model: strings, points, ranges, hash maps, panics, arithmetic, and the
  oracles standing for the external libraries (tree-sitter, url, file system, walkdir, toml/serde).
-/

namespace JinjaLsp

/-- Rust `String`/`&str` are modelled as lists of Unicode scalar values. -/
abbrev Str := List Char

/-- `c!"abc"` is the explicit character list `['a', 'b', 'c']`. -/
syntax:max (name := strLit) "c!" str : term
macro_rules
  | `(c! $s:str) => do
      let cs := s.getString.toList.map fun c => Lean.Syntax.mkCharLit c
      `(([$(cs.toArray),*] : List Char))

/-! ## Points, positions, ranges -/

/-- `tree_sitter::Point` (row, column), ordered lexicographically (derived `Ord`). -/
@[ext] structure Point where
  row : Nat
  column : Nat
deriving DecidableEq, Repr

namespace Point

/-- `Point::default()`. -/
def zero : Point := ⟨0, 0⟩

instance : Inhabited Point := ⟨zero⟩

instance : LE Point := ⟨fun a b => a.row < b.row ∨ (a.row = b.row ∧ a.column ≤ b.column)⟩
instance : LT Point := ⟨fun a b => a.row < b.row ∨ (a.row = b.row ∧ a.column < b.column)⟩

theorem le_def (a b : Point) : a ≤ b ↔ (a.row < b.row ∨ (a.row = b.row ∧ a.column ≤ b.column)) :=
  Iff.rfl
theorem lt_def (a b : Point) : a < b ↔ (a.row < b.row ∨ (a.row = b.row ∧ a.column < b.column)) :=
  Iff.rfl

instance (a b : Point) : Decidable (a ≤ b) := inferInstanceAs (Decidable (_ ∨ _))
instance (a b : Point) : Decidable (a < b) := inferInstanceAs (Decidable (_ ∨ _))

end Point

/-- `lsp_types::Position`; both fields are `u32` in the protocol. -/
structure Position where
  line : Nat
  character : Nat
deriving DecidableEq, Repr, Inhabited

/-- `lsp_types::Range`. -/
structure Range where
  start : Position
  stop : Position
deriving DecidableEq, Repr, Inhabited

/-- `Range::default()`. -/
def Range.zero : Range := ⟨⟨0, 0⟩, ⟨0, 0⟩⟩

/-- Rust's `as u32` on a `usize`: truncation modulo 2^32. -/
def toU32 (n : Nat) : Nat := n % 4294967296

/-! ## Panics and arithmetic -/

/-- The ways in which the Rust code can terminate abnormally (in the parts modelled). -/
inductive Panic where
  /-- `ropey::Rope::line_to_byte` with a line index greater than the number of lines -/
  | lineIndex
  /-- `ropey::Rope::remove/insert` out of bounds -/
  | charIndex
  /-- `.unwrap()` on `None`/`Err` -/
  | unwrap
  /-- arithmetic overflow (debug profile only) -/
  | overflow
deriving DecidableEq, Repr

/-- Result of code that may panic. -/
abbrev Res (α : Type) := Except Panic α

/-- `cargo build` profile: decides what arithmetic overflow does. -/
inductive Profile where
  | debug
  | release
deriving DecidableEq, Repr

/-- `usize` subtraction `a - b` (64 bit): panics on underflow in debug, wraps in release. -/
def usub (p : Profile) (a b : Nat) : Res Nat :=
  if b ≤ a then .ok (a - b)
  else match p with
    | .debug => .error .overflow
    | .release => .ok (a + 18446744073709551616 - b)

/-- `u32` subtraction. -/
def usub32 (p : Profile) (a b : Nat) : Res Nat :=
  if b ≤ a then .ok (a - b)
  else match p with
    | .debug => .error .overflow
    | .release => .ok (a + 4294967296 - b)

/-- `u32` addition. -/
def uadd32 (p : Profile) (a b : Nat) : Res Nat :=
  if a + b < 4294967296 then .ok (a + b)
  else match p with
    | .debug => .error .overflow
    | .release => .ok ((a + b) % 4294967296)

/-! ## Hash maps -/

/-- `std::collections::HashMap`: a finite map.  The list order is *not* observable: every iteration in
the model goes through `HashOrder.shuffle`. -/
structure HMap (K V : Type) where
  entries : List (K × V)
  nodup : (entries.map Prod.fst).Nodup

namespace HMap
variable {K V : Type} [DecidableEq K]

/-- `HashMap::new()` -/
def empty : HMap K V := ⟨[], List.nodup_nil⟩

instance : Inhabited (HMap K V) := ⟨empty⟩

/-- `HashMap::get` -/
def get? (m : HMap K V) (k : K) : Option V :=
  (m.entries.find? (fun e => decide (e.1 = k))).map Prod.snd

/-- `HashMap::remove` -/
def erase (m : HMap K V) (k : K) : HMap K V :=
  ⟨m.entries.filter (fun e => decide (e.1 ≠ k)),
   List.Nodup.sublist (List.Sublist.map _ (List.filter_sublist)) m.nodup⟩

/-- `HashMap::insert` -/
def insert (m : HMap K V) (k : K) (v : V) : HMap K V :=
  ⟨(k, v) :: (m.erase k).entries, by
    simp only [List.map_cons, List.nodup_cons]
    refine ⟨?_, (m.erase k).nodup⟩
    simp [erase]⟩

/-- `HashMap::contains_key` -/
def contains (m : HMap K V) (k : K) : Bool := (m.get? k).isSome

/-- set of keys -/
def keys (m : HMap K V) : List K := m.entries.map Prod.fst

end HMap

/-- An arbitrary iteration order for hash maps: at each iteration site any permutation of the entries. -/
structure HashOrder where
  shuffle : {α : Type} → Nat → List α → List α
  perm : ∀ {α : Type} (site : Nat) (l : List α), (shuffle site l).Perm l

/-- The identity order (used in examples). -/
def HashOrder.id : HashOrder := ⟨fun _ l => l, fun _ _ => List.Perm.refl _⟩

/-! ## Tree-sitter -/

/-- tree_builder.rs:5-9 `LangType`. -/
inductive LangType where
  | template
  | backend
deriving DecidableEq, Repr

/-- The grammars the parsers can be set to (parsers.rs:18-42). -/
inductive Grammar where
  | jinja
  | rust
  | python
deriving DecidableEq, Repr

/-- `tree_sitter::InputEdit` (to_input_edit.rs:61-68). -/
structure InputEdit where
  startByte : Nat
  oldEndByte : Nat
  newEndByte : Nat
  startPosition : Point
  oldEndPosition : Point
  newEndPosition : Point
deriving DecidableEq, Repr

/-- A parse tree, represented by the calls that produced it (`Parser::parse`, `Tree::edit`).
Because tree-sitter is deterministic every real tree is a function of this term. -/
inductive Tree where
  | parsed (g : Grammar) (text : Str) (old : Option Tree)
  | edited (t : Tree) (e : InputEdit)

/-- Names of the captures of the seven queries (queries.rs:55-298).  `other` stands for captures the Rust
code ignores (`@macro`, `@context`, `@jinja`, `@extends_keyword`, …). -/
inductive CapName where
  | definition | scope | endblock | equals | error | id | scopeEnd | scopeStart      -- DEFINITIONS
  | justId | dot | pipe | is | expr                                                  -- OBJECTS
  | start | stop | errorBlock | keyword                                              -- JINJA_SNIPPETS
  | extends | include | import_ | from_ | templateName | importIdentifier            -- JINJA_IMPORTS
  | keyId | name                                                                     -- *_DEFINITIONS
  | methodName                                                                       -- *_TEMPLATES
  | identifier                                                                       -- PYTHON_IDENTIFIERS
  | other
deriving DecidableEq, Repr

/-- Everything the code reads from a `QueryCapture`: its name, `node.id()`, `start_position()`,
`end_position()`, `utf8_text()` (`none` = not valid UTF-8), the ranges of first and last child
(objects.rs:86-95, the node itself when it has no child) and the parent's start (python_identifiers.rs:63). -/
structure Capture where
  name : CapName
  id : Nat
  start : Point
  stop : Point
  text : Option Str
  firstChild : Point × Point := (⟨0, 0⟩, ⟨0, 0⟩)
  lastChild : Point × Point := (⟨0, 0⟩, ⟨0, 0⟩)
  parentStart : Option Point := none
deriving DecidableEq, Repr

/-- The queries (queries.rs:4-12); the backend ones exist for two grammars (queries.rs:43-52). -/
inductive QueryId where
  | jinjaDefinitions
  | jinjaObjects
  | jinjaImports
  | backendDefinitions (g : Grammar)
  | backendTemplates (g : Grammar)
  | jinjaSnippets
  | pythonIdentifiers
deriving DecidableEq, Repr

/-! ## Oracles -/

/-- Configuration record, config.rs:18-26 (`templates` is a UTF-8 path). -/
structure JinjaConfig where
  templates : Str
  backend : List Str
  lang : Str
  userDefined : Bool
  hideUndefined : Option Bool
deriving DecidableEq, Repr

/-- `JinjaConfig::default()`. -/
def JinjaConfig.default : JinjaConfig := ⟨[], [], [], false, none⟩

/-- Deterministic libraries. -/
structure Env where
  profile : Profile
  /-- `Parser::parse` returning `None` -/
  parseFails : Grammar → Str → Option Tree → Bool
  /-- `tree.root_node().end_position()` -/
  rootEnd : Tree → Point
  /-- matches of a query on a tree, each with its captures, in the order tree-sitter reports them -/
  queryMatches : QueryId → Tree → Str → List (List Capture)
  /-- `Url::parse(s)`, `some` of the normalised string on success -/
  urlParse : Str → Option Str
  /-- `toml::from_str::<ExternalConfig>` -/
  tomlConfig : Str → Option JinjaConfig

/-- kinds of I/O errors that are distinguished (lsp_helper.rs:103) -/
inductive IoErr where
  | notFound
  | other
deriving DecidableEq, Repr

/-- what `WalkDir` yields (config.rs:87-98): an error, a regular file, something else -/
inductive WalkItem where
  | err
  | file (path : Str)
  | nonFile (path : Str)
deriving DecidableEq, Repr

/-- The outside world during one step: file system and hash iteration order. -/
structure World where
  /-- `std::fs::canonicalize` (UTF-8 result) -/
  canonicalize : Str → Except IoErr Str
  /-- `std::fs::read_to_string(..).ok()` -/
  readFile : Str → Option Str
  /-- `WalkDir::new(dir).into_iter()` (including the errors of `entry.metadata()`) -/
  walk : Str → List WalkItem
  order : HashOrder

/-! ## String functions of std -/

/-- `s.contains(p)` for a string pattern. -/
def containsSub (p : Str) : Str → Bool
  | [] => p.isEmpty
  | c :: r => p.isPrefixOf (c :: r) || containsSub p r

/-- `s.split(c)` for a character pattern. -/
def splitChar (sep : Char) : Str → List Str
  | [] => [[]]
  | c :: r =>
    if c = sep then [] :: splitChar sep r
    else match splitChar sep r with
      | [] => [[c]]
      | x :: xs => (c :: x) :: xs

/-- worker of `splitStr`: `skip` characters of a match remain to be skipped, `acc` is the current piece -/
def splitStrGo (pat : Str) (skip : Nat) (acc : Str) : Str → List Str
  | [] => [acc]
  | c :: r =>
    if 0 < skip then splitStrGo pat (skip - 1) acc r
    else if pat.isPrefixOf (c :: r) then acc :: splitStrGo pat (pat.length - 1) [] r
    else splitStrGo pat 0 (acc ++ [c]) r

/-- `s.split(pat)` for a string pattern: leftmost non-overlapping occurrences; the empty pattern matches at
every character boundary. -/
def splitStr (pat : Str) (s : Str) : List Str :=
  if pat.isEmpty then [] :: (s.map fun c => [c]) ++ [[]]
  else splitStrGo pat 0 [] s

/-- `s.len()`: number of UTF-8 bytes. -/
def utf8Len (s : Str) : Nat := (s.map Char.utf8Size).sum

/-- `s.get(0..n)`: the first `n` bytes if that is a character boundary. -/
def bytePrefix : Str → Nat → Option Str
  | _, 0 => some []
  | [], _ + 1 => none
  | c :: r, n + 1 =>
    if c.utf8Size ≤ n + 1 then (bytePrefix r (n + 1 - c.utf8Size)).map (c :: ·) else none

/-- `s.replace(['\"', '\''], "")` -/
def stripQuotes (s : Str) : Str := s.filter fun c => c ≠ '"' && c ≠ '\''

end JinjaLsp
