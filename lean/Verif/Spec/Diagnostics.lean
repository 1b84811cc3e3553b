import Verif.Spec.Expr
import Verif.Spec.Imports
import Verif.Spec.Paths
/-
  Independent specification of diagnostics: which uses of names and which template references are to be reported.
-/

namespace JinjaLsp.Spec

/-- The binding is visible at the use: it begins before the use ends, and the use begins inside its scope. -/
def Binding.VisibleAt (b : Binding) (u : UseInfo) : Prop :=
  b.name = u.name ∧ b.kind ≠ .templateBlock ∧ b.start ≤ u.range.2 ∧ (u.range.1 < b.visibleTo ∨ b.visibleTo = ⟨0, 0⟩)

instance (b : Binding) (u : UseInfo) : Decidable (b.VisibleAt u) := inferInstanceAs (Decidable (_ ∧ _ ∧ _ ∧ _))

/-- What is to be reported for a use: `bs` are the bindings of the file, `known` all names known in the workspace. -/
def verdict (bs : List Binding) (known : List Str) (u : UseInfo) : Option JinjaDiagnostic :=
  if u.filter = true ∨ u.test = true then none
  else if ∃ b ∈ bs, b.VisibleAt u then none
  else if ∃ b ∈ bs, b.name = u.name ∧ b.kind ≠ .templateBlock then some .undefined
  else if u.name ∈ known then some .definedSomewhere
  else some .undefined

/-- a reported token: what is reported, its name and range -/
structure Report where
  kind : JinjaDiagnostic
  name : Str
  start : Point
  stop : Point
deriving DecidableEq, Repr

/-- reports about the uses of a file, in order -/
def useReports (bs : List Binding) (known : List Str) (us : List UseInfo) : List Report :=
  us.filterMap fun u => (verdict bs known u).map fun k => ⟨k, u.name, u.range.1, u.range.2⟩

/-- what the server found, as a report -/
def _root_.JinjaLsp.report (d : JinjaDiagnostic × Identifier) : Report := ⟨d.1, d.2.name, d.2.start, d.2.stop⟩

/-- all names in a table of variables -/
def knownNames (vars : HMap Str (List Identifier)) : List Str := vars.entries.flatMap fun e => e.2.map (·.name)

/-! ### Template references -/

/-- a template reference: its name without quotes and its range -/
structure Ref where
  name : Str
  start : Point
  stop : Point
deriving DecidableEq, Repr

def _root_.JinjaLsp.Identifier.ref (i : Identifier) : Ref := ⟨i.name, i.start, i.stop⟩

def Tok.ref (t : Tok) : Ref := ⟨t.text.filter (fun c => c ≠ '"' && c ≠ '\''), t.start, t.stop⟩

/-- the references of import statements, in order -/
def ImpStmt.refs (ss : List ImpStmt) : List Ref := ss.flatMap fun s => s.names.map Tok.ref

/-- a well-formed sequence of import statements: distinct nodes; after the name of an import come only imported identifiers -/
structure ImpStmt.Wf (ss : List ImpStmt) : Prop where
  nodes : (ss.map fun s => s.head.node).Nodup
  some_match : ∀ s ∈ ss, s.extras ≠ []
  extras : ∀ s ∈ ss, ∀ m ∈ s.extras, ∀ c ∈ m, (c.name = .importIdentifier ∨ c.name = .other) ∧ c.text ≠ none

/-- the file system says that the file of the name does not exist -/
def Absent (w : World) (dir name : Str) : Prop := w.canonicalize (lookupPath dir name) = .error .notFound

instance (w : World) (dir name : Str) : Decidable (Absent w dir name) := by
  unfold Absent
  cases h : w.canonicalize (lookupPath dir name) with
  | ok _ => exact .isFalse (by simp)
  | error e => exact decidable_of_iff (e = .notFound) (by simp)

/-- what is to be reported about references: with `empty`, also those with an empty name -/
def refReports (w : World) (dir : Str) (empty : Bool) (rs : List Ref) : List Report :=
  (rs.filter fun r => (empty && decide (r.name = [])) || decide (Absent w dir r.name)).map
    fun r => ⟨.templateNotFound, r.name, r.start, r.stop⟩

end JinjaLsp.Spec
