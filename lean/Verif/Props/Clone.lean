import Verif.Props.Fixtures
import Verif.Lemmas.Files
import Verif.Props.Python
/-
  C63: clones of a workspace.
-/

namespace JinjaLsp
open Spec

/-- **C63, queries that do not look at backend grammars** For every workspace, of any configuration, the clone gives the same
answers to: hover, type of a name, document symbols, code actions and what they lead to, objects, Python names, variables,
template names, names under a file, diagnostics of a file and of the workspace. -/
theorem C63_queries_partial (env : Env) (w : World) (f : LspFiles) :
    (∀ uri pos, f.clone.hover env uri pos = f.hover env uri pos) ∧
    (∀ uri i, f.clone.dataType w uri i = f.dataType w uri i) ∧
    (∀ uri, f.clone.documentSymbols uri = f.documentSymbols uri) ∧
    (∀ uri pos, f.clone.codeAction env uri pos = f.codeAction env uri pos) ∧
    (∀ a, f.clone.processCodeActions env w a = f.processCodeActions env w a) ∧
    (∀ uri, f.clone.readObjects env uri = f.readObjects env uri) ∧
    (∀ uri, f.clone.readPythonIds env w uri = f.readPythonIds env w uri) ∧
    (∀ uri pos st u, f.clone.readVariables w uri pos st u = f.readVariables w uri pos st u) ∧
    (∀ p r, f.clone.readTemplates w p r = f.readTemplates w p r) ∧
    (∀ p u x, f.clone.getVariable p u x = f.getVariable p u x) ∧
    (∀ uri, f.clone.readTree env w uri = f.readTree env w uri) ∧
    f.clone.readTrees env w = f.readTrees env w := by
  refine ⟨fun _ _ => rfl, fun _ _ => rfl, fun _ => rfl, fun _ _ => rfl, fun _ => rfl, fun _ => rfl, fun _ => rfl,
    fun _ _ _ _ => rfl, fun _ _ => ?_, fun _ _ _ => rfl, fun _ => rfl, ?_⟩
  · unfold LspFiles.readTemplates
    have : ∀ (ts : List Str) (p : Position) (r : Range), LspFiles.templateItems f.clone r p ts = LspFiles.templateItems f r p ts := by
      intro ts p r
      induction ts with
      | nil => rfl
      | cons t ts ih => unfold LspFiles.templateItems; rw [ih]; rfl
    simp only [this]
    rfl
  · unfold LspFiles.readTrees
    have : ∀ (ns : List Str) (m : HMap Str Diags), LspFiles.readTreesLoop env w f.clone ns m = LspFiles.readTreesLoop env w f ns m := by
      intro ns
      induction ns with
      | nil => intro m; rfl
      | cons n ns ih =>
        intro m
        unfold LspFiles.readTreesLoop
        rw [show f.clone.readTree env w n = f.readTree env w n from rfl]
        split <;> first | rfl | exact ih _
    exact this _ _

/-- **C63, completion and definitions** agree wherever the file is a template (or of no known kind), and everywhere in
workspaces whose backend language is Rust.
Missing: backend files of Python workspaces (`C63_python_refuted`). -/
theorem C63_navigation_partial (env : Env) (w : World) (f : LspFiles) (uri : Str) (pos : Position)
    (h : fileExt uri ≠ some .backend ∨ f.queriesBackend = .rust) :
    (∀ tr, f.clone.completion env uri pos tr = f.completion env uri pos tr) ∧
    f.clone.gotoDefinition env w uri pos = f.gotoDefinition env w uri pos := by
  rcases h with h | h
  · constructor
    · intro tr
      unfold LspFiles.completion
      split
      · rfl
      · dsimp only
        cases hx : fileExt uri with
        | none => rfl
        | some ext =>
          cases ext with
          | template => rfl
          | backend => exact (h hx).elim
    · unfold LspFiles.gotoDefinition
      cases hx : fileExt uri with
      | none => rfl
      | some ext =>
        cases ext with
        | template => rfl
        | backend => exact (h hx).elim
  · have hq : f.clone.queriesBackend = f.queriesBackend := by rw [h]; rfl
    constructor
    · intro tr
      unfold LspFiles.completion
      rw [hq]
      rfl
    · unfold LspFiles.gotoDefinition
      rw [hq]
      rfl

/-! ### Updates -/

/-- the workspace with another timer handle -/
def LspFiles.withTask (f : LspFiles) (t : Option Nat) : LspFiles := { f with diagnosticsTask := t }

namespace LspFiles

theorem deleteVariables_withTask (f : LspFiles) (t : Option Nat) (n : Str) :
    (f.withTask t).deleteVariables n = (f.deleteVariables n).withTask t := by
  unfold deleteVariables withTask
  cases f.variables.get? n <;> rfl

theorem addTree_withTask (env : Env) (f : LspFiles) (t : Option Nat) (n : Str) (l : LangType) (c : Str) :
    (f.withTask t).addTree env n l c = (f.addTree env n l c).withTask t := by
  unfold addTree
  rw [show (f.withTask t).parse env l c (((f.withTask t).trees l).get? n) = f.parse env l c ((f.trees l).get? n) from by
    cases l <;> rfl]
  cases f.parse env l c ((f.trees l).get? n) <;> rfl

theorem addVariables_withTask (env : Env) (f : LspFiles) (t : Option Nat) (n : Str) (l : LangType) (c : Str) :
    (f.withTask t).addVariables env n l c = (f.addVariables env n l c).map fun g => g.withTask t := by
  unfold addVariables
  rw [show ((f.withTask t).trees l).get? n = (f.trees l).get? n from rfl]
  cases (f.trees l).get? n with
  | none => rfl
  | some tree =>
    cases l with
    | backend => rfl
    | template =>
      dsimp only
      split
      · rfl
      · cases definitionQuery env tree Point.zero c true <;> rfl

theorem didOpen_withTask (env : Env) (w : World) (f : LspFiles) (t : Option Nat) (n c : Str) (ig : Bool) :
    (f.withTask t).didOpen env w n c ig = (f.didOpen env w n c ig).map fun r => (r.1.withTask t, r.2) := by
  unfold didOpen
  cases fileExt n with
  | none => rfl
  | some lang =>
    dsimp only
    rw [deleteVariables_withTask,
      show ({ (f.deleteVariables n).withTask t with documents := ((f.deleteVariables n).withTask t).documents.insert n c } : LspFiles) =
        ({ f.deleteVariables n with documents := (f.deleteVariables n).documents.insert n c } : LspFiles).withTask t from rfl,
      addTree_withTask, addVariables_withTask]
    cases (LspFiles.addTree env { f.deleteVariables n with documents := (f.deleteVariables n).documents.insert n c } n lang c).addVariables
        env n lang c with
    | error e => rfl
    | ok g =>
      simp only [Except.map]
      cases ig with
      | true => rfl
      | false =>
        simp only [Bool.false_eq_true, if_false]
        rw [show (g.withTask t).readTree env w n = g.readTree env w n from rfl]
        cases g.readTree env w n with
        | error e => rfl
        | ok r => cases r <;> rfl

theorem didSave_withTask (env : Env) (w : World) (f : LspFiles) (t : Option Nat) (n : Str) :
    (f.withTask t).didSave env w n = (f.didSave env w n).map fun r => (r.1.withTask t, r.2) := by
  unfold didSave
  cases fileExt n with
  | none => rfl
  | some lang =>
    dsimp only
    rw [show (f.withTask t).documents.get? n = f.documents.get? n from rfl]
    cases f.documents.get? n with
    | none => rfl
    | some content =>
      dsimp only
      rw [deleteVariables_withTask, addVariables_withTask]
      cases (f.deleteVariables n).addVariables env n lang content with
      | error e => rfl
      | ok g =>
        simp only [Except.map]
        rw [show (g.withTask t).readTree env w n = g.readTree env w n from rfl]
        cases g.readTree env w n with
        | error e => rfl
        | ok r => cases r <;> rfl

theorem clone_rust (f : LspFiles) (hp : f.parserBackend = .rust) (hq : f.queriesBackend = .rust) : f.clone = f.withTask none := by
  cases f
  simp only at hp hq
  subst hp hq
  rfl

theorem rust_after {env : Env} {w : World} {f g : LspFiles} {n c : Str} {ig : Bool} {m : Option (HMap Str Diags)}
    (hp : f.parserBackend = .rust) (hq : f.queriesBackend = .rust) (h : f.didOpen env w n c ig = .ok (g, m)) :
    g.parserBackend = .rust ∧ g.queriesBackend = .rust :=
  ⟨(Frame.didOpen h).conf.pb.trans hp, (Frame.didOpen h).conf.qb.trans hq⟩

theorem rust_after_save {env : Env} {w : World} {f g : LspFiles} {n : Str} {m : Option (HMap Str Diags)}
    (hp : f.parserBackend = .rust) (hq : f.queriesBackend = .rust) (h : f.didSave env w n = .ok (g, m)) :
    g.parserBackend = .rust ∧ g.queriesBackend = .rust :=
  ⟨(Frame.didSave h).conf.pb.trans hp, (Frame.didSave h).conf.qb.trans hq⟩

end LspFiles

/-- **C63, updates** In a Rust workspace, opening or saving a file has the same result (the diagnostics, or a panic) in the
clone, and the clone becomes the clone of what the original becomes: so the answers keep agreeing. -/
theorem C63_updates_partial (env : Env) (w : World) (f : LspFiles) (hp : f.parserBackend = .rust) (hq : f.queriesBackend = .rust)
    (uri text : Str) (ig : Bool) :
    f.clone.didOpen env w uri text ig = (f.didOpen env w uri text ig).map (fun r => (r.1.clone, r.2)) ∧
    f.clone.didSave env w uri = (f.didSave env w uri).map (fun r => (r.1.clone, r.2)) := by
  rw [LspFiles.clone_rust f hp hq, LspFiles.didOpen_withTask, LspFiles.didSave_withTask]
  constructor
  · cases h : f.didOpen env w uri text ig with
    | error e => rfl
    | ok r =>
      obtain ⟨g, m⟩ := r
      obtain ⟨h1, h2⟩ := LspFiles.rust_after hp hq h
      simp only [Except.map, LspFiles.clone_rust g h1 h2]
  · cases h : f.didSave env w uri with
    | error e => rfl
    | ok r =>
      obtain ⟨g, m⟩ := r
      obtain ⟨h1, h2⟩ := LspFiles.rust_after_save hp hq h
      simp only [Except.map, LspFiles.clone_rust g h1 h2]

/-- not vacuous: a Rust workspace with an open file and a pending timer -/
example : ∃ f : LspFiles, f.parserBackend = .rust ∧ f.queriesBackend = .rust ∧ f.diagnosticsTask = some 3 ∧
    (f.documents.get? Fix.uriA).isSome ∧ f.clone ≠ f :=
  ⟨{ Fix.files with diagnosticsTask := some 3 }, rfl, rfl, rfl, rfl, fun h => by
    have := congrArg LspFiles.diagnosticsTask h
    cases this⟩

namespace Fix

/-- `get_template("a")` in a Python file, recognised by the Python query only -/
def cloneEnv : Env :=
  { env with queryMatches := fun q _ _ =>
      if q = .backendTemplates .python then
        [[{ name := .methodName, id := 1, start := ⟨0, 0⟩, stop := ⟨0, 12⟩, text := some c!"get_template" },
          { name := .templateName, id := 2, start := ⟨0, 13⟩, stop := ⟨0, 16⟩, text := some c!"\"a\"" }]]
      else [] }

def cloneFiles : LspFiles := { pyFiles with queriesBackend := .python, parserBackend := .python }

end Fix

/-- the hypotheses hold -/
example : fileExt Fix.uriA ≠ some .backend ∧ LspFiles.default.queriesBackend = .rust := by decide

/-- **C63 is false for backend files of Python workspaces**: where the original finds the template called at the cursor and
completes its name or goes to it, the clone, whose queries are for Rust again and match nothing in a Python tree, answers
nothing. -/
theorem C63_python_refuted (env : Env) (w : World) (f : LspFiles) (uri : Str) (pos : Position) (tr : TriggerKind)
    (tree : Tree) (text : Str) (i : Identifier)
    (hx : fileExt uri = some .backend) (htr : tr = .triggerCharacter ∨ tr = .invoked)
    (ht : (f.trees .backend).get? uri = some tree) (hd : f.documents.get? uri = some text)
    (hpy : (backendTemplatesQuery env f.queriesBackend tree (toPoint pos) text false).inTemplate (toPoint pos) = some i)
    (hrust : env.queryMatches (.backendTemplates .rust) tree text = []) :
    f.clone.completion env uri pos tr = .ok none ∧ f.clone.gotoDefinition env w uri pos = .ok none ∧
    f.gotoDefinition env w uri pos = .ok (f.templateLocation env w i.name) ∧
    (∀ s, completionStart env.profile (toPoint pos) i = .ok (some s) →
      f.completion env uri pos tr = .ok (some (.includedTemplate s (toRange (i.start, i.stop)), false))) := by
  have htr' : (!(decide (tr = .triggerCharacter) || decide (tr = .invoked))) = false := by
    rcases htr with rfl | rfl <;> rfl
  have hnone : (backendTemplatesQuery env .rust tree (toPoint pos) text false).inTemplate (toPoint pos) = none := by
    unfold backendTemplatesQuery
    rw [hrust]
    rfl
  have hc : f.clone.documents.get? uri = some text := hd
  have hc' : (f.clone.trees .backend).get? uri = some tree := ht
  have hcq : f.clone.queriesBackend = .rust := rfl
  refine ⟨?_, ?_, ?_, ?_⟩
  · unfold LspFiles.completion
    simp only [htr', hx, hc, hc', hcq, hnone]
    rfl
  · unfold LspFiles.gotoDefinition
    simp only [hx, hc, hc', hcq, hnone]
  · unfold LspFiles.gotoDefinition
    simp only [hx, hd, ht, hpy]
  · intro s hs
    unfold LspFiles.completion
    simp only [htr', hx, hd, ht, hpy, hs]
    rfl

/-- the hypotheses hold: the template exists and its name is completed -/
example : fileExt Fix.uriPy = some .backend ∧
    (Fix.cloneFiles.trees .backend).get? Fix.uriPy = some (.parsed .python c!"a.b[c.d].e" none) ∧
    Fix.cloneFiles.documents.get? Fix.uriPy = some c!"a.b[c.d].e" ∧
    (∃ i, (backendTemplatesQuery Fix.cloneEnv Fix.cloneFiles.queriesBackend (.parsed .python c!"a.b[c.d].e" none)
        ⟨0, 15⟩ c!"a.b[c.d].e" false).inTemplate ⟨0, 15⟩ = some i ∧ i.name = c!"a" ∧
      (Fix.cloneFiles.templateLocation Fix.cloneEnv Fix.world i.name).isSome) ∧
    Fix.cloneEnv.queryMatches (.backendTemplates .rust) (.parsed .python c!"a.b[c.d].e" none) c!"a.b[c.d].e" = [] := by
  refine ⟨by decide, rfl, rfl, ⟨_, rfl, rfl, rfl⟩, rfl⟩

end JinjaLsp
