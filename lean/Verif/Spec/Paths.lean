import Verif.Model.Base
/-
  Independent specification of how a template name is looked up: the components of the name below the templates directory.
-/

namespace JinjaLsp.Spec

/-- the non-empty components of a slash-separated path -/
def segments (p : Str) : List Str := (splitChar '/' p).filter fun s => decide (s ≠ [])

/-- components joined by slashes -/
def join : List Str → Str
  | [] => []
  | [s] => s
  | s :: ss => s ++ '/' :: join ss

/-- the name as a relative path: its components, and a final slash if it has one -/
def relative (name : Str) : Str :=
  if name.getLast? = some '/' ∧ segments name ≠ [] then join (segments name) ++ ['/'] else join (segments name)

/-- the path that a template name stands for -/
def lookupPath (dir name : Str) : Str :=
  if dir = [] ∨ dir.getLast? = some '/' then dir ++ relative name else dir ++ '/' :: relative name

/-- a name that is written as a plain relative path: no leading, trailing or doubled slash -/
def Plain (name : Str) : Prop := name ≠ [] ∧ ∀ s ∈ splitChar '/' name, s ≠ []

end JinjaLsp.Spec
