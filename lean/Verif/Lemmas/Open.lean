import Verif.Lemmas.Files
/- Inversion lemmas for opening and saving documents. -/

namespace JinjaLsp
namespace LspFiles

/-- the workspace in which the definitions of an opened document are computed -/
def openBase (env : Env) (f : LspFiles) (name : Str) (lang : LangType) (content : Str) : LspFiles :=
  ({ f.deleteVariables name with documents := (f.deleteVariables name).documents.insert name content }).addTree env name lang
    content

theorem didOpen_eq {env : Env} {w : World} {f : LspFiles} {n c : Str} {l : LangType} (he : fileExt n = some l) (ig : Bool) :
    f.didOpen env w n c ig =
      match (f.openBase env n l c).addVariables env n l c with
      | .error e => .error e
      | .ok g =>
        if ig then .ok (g, some HMap.empty)
        else match g.readTree env w n with
          | .error e => .error e
          | .ok none => .ok (g, none)
          | .ok (some v) => .ok (g, some (HMap.empty.insert n v)) := by
  unfold didOpen openBase
  rw [he]
  rfl

theorem didOpen_inv {env : Env} {w : World} {f g : LspFiles} {n c : Str} {l : LangType} {m : Option (HMap Str Diags)}
    (he : fileExt n = some l) (h : f.didOpen env w n c false = .ok (g, m)) :
    (f.openBase env n l c).addVariables env n l c = .ok g ∧
      ∃ v, g.readTree env w n = .ok v ∧ m = v.map (fun v => HMap.empty.insert n v) := by
  rw [didOpen_eq he] at h
  split at h
  · cases h
  · rename_i g' hg
    simp only [Bool.false_eq_true, if_false] at h
    split at h
    · cases h
    · rename_i hv; cases h; exact ⟨hg, none, hv, rfl⟩
    · rename_i v hv; cases h; exact ⟨hg, some v, hv, rfl⟩

theorem didOpen_inv_ignore {env : Env} {w : World} {f g : LspFiles} {n c : Str} {l : LangType} {m : Option (HMap Str Diags)}
    (he : fileExt n = some l) (h : f.didOpen env w n c true = .ok (g, m)) :
    (f.openBase env n l c).addVariables env n l c = .ok g ∧ m = some HMap.empty := by
  rw [didOpen_eq he] at h
  split at h
  · cases h
  · rename_i g' hg
    simp only [if_true] at h
    cases h; exact ⟨hg, rfl⟩

theorem didSave_inv {env : Env} {w : World} {f g : LspFiles} {n c : Str} {l : LangType} {m : Option (HMap Str Diags)}
    (he : fileExt n = some l) (hd : f.documents.get? n = some c) (h : f.didSave env w n = .ok (g, m)) :
    (f.deleteVariables n).addVariables env n l c = .ok g ∧
      ∃ v, g.readTree env w n = .ok v ∧ m = some (HMap.empty.insert n (v.getD [])) := by
  unfold didSave at h
  simp only [he, hd] at h
  split at h
  · cases h
  · rename_i g' hg
    split at h
    · cases h
    · rename_i hv; cases h; exact ⟨hg, none, hv, rfl⟩
    · rename_i v hv; cases h; exact ⟨hg, some v, hv, rfl⟩

@[simp] theorem trees_deleteVariables (f : LspFiles) (n : Str) : (f.deleteVariables n).trees = f.trees := by
  unfold deleteVariables; split <;> rfl

theorem setTree_get (f : LspFiles) (l : LangType) (n : Str) (t : Tree) : ((f.setTree l n t).trees l).get? n = some t := by
  simp [setTree]

theorem openBase_tree {env : Env} {f : LspFiles} {n c : Str} {l : LangType}
    (hp : env.parseFails (f.grammar l) c ((f.trees l).get? n) = false) :
    ((f.openBase env n l c).trees l).get? n = some (.parsed (f.grammar l) c ((f.trees l).get? n)) := by
  have hg : ({ f.deleteVariables n with documents := (f.deleteVariables n).documents.insert n c } : LspFiles).grammar l =
      f.grammar l := by
    cases l
    · rfl
    · simp only [grammar, deleteVariables]; split <;> rfl
  unfold openBase addTree parse
  rw [hg]
  simp only [trees_deleteVariables, hp]
  exact setTree_get ..

theorem openBase_document (env : Env) (f : LspFiles) (n c : Str) (l : LangType) :
    (f.openBase env n l c).documents.get? n = some c := by
  unfold openBase addTree
  split <;> simp [setTree]

theorem addVariables_template {env : Env} {f g : LspFiles} {n c : Str} {t : Tree}
    (ht : (f.trees .template).get? n = some t) (hs : (snippetsQuery env t Point.zero c true).isError = false)
    (h : f.addVariables env n .template c = .ok g) :
    ∃ defs, definitionQuery env t Point.zero c true = .ok defs ∧
      g = { f with variables := f.variables.insert n defs.identifiers, codeActions := f.codeActions.insert n [] } := by
  unfold addVariables at h
  simp only [ht, hs] at h
  simp only [Bool.false_eq_true, if_false] at h
  split at h
  · cases h
  · rename_i defs hd; cases h; exact ⟨defs, hd, rfl⟩

theorem addVariables_template_error {env : Env} {f : LspFiles} {n c : Str} {t : Tree}
    (ht : (f.trees .template).get? n = some t) (hs : (snippetsQuery env t Point.zero c true).isError = true) :
    f.addVariables env n .template c = .ok f := by
  unfold addVariables
  simp [ht, hs]

theorem addVariables_backend {env : Env} {f : LspFiles} {n c : Str} {t : Tree} (ht : (f.trees .backend).get? n = some t) :
    f.addVariables env n .backend c = .ok { f with
      variables := f.variables.insert n (f.backendVariables env t c), codeActions := f.codeActions.insert n [] } := by
  unfold addVariables
  simp [ht]

theorem addVariables_no_tree {env : Env} {f : LspFiles} {n c : Str} {l : LangType} (ht : (f.trees l).get? n = none) :
    f.addVariables env n l c = .ok f := by
  unfold addVariables
  simp [ht]

end LspFiles
end JinjaLsp
