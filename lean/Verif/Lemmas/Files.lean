import Verif.Lemmas.HMap
import Verif.Model.Server
/- How the operations of `LspFiles` and the worker change the state: frame lemmas. -/

namespace JinjaLsp

/-- `f` and `g` hold the same text, trees, variables and quick fixes for `u` -/
structure SameDoc (f g : LspFiles) (u : Str) : Prop where
  doc : g.documents.get? u = f.documents.get? u
  tree : ∀ l, (g.trees l).get? u = (f.trees l).get? u
  vars : g.variables.get? u = f.variables.get? u
  acts : g.codeActions.get? u = f.codeActions.get? u

/-- `f` and `g` have the same settings -/
structure SameConf (f g : LspFiles) : Prop where
  pb : g.parserBackend = f.parserBackend
  qb : g.queriesBackend = f.queriesBackend
  conf : g.config = f.config
  chan : g.mainChannel = f.mainChannel
  vsc : g.isVscode = f.isVscode
  ign : g.ignoreGlobals = f.ignoreGlobals

/-- only entries of `name` differ -/
structure Frame (name : Str) (f g : LspFiles) : Prop where
  same : ∀ u, u ≠ name → SameDoc f g u
  conf : SameConf f g

theorem SameDoc.refl (f : LspFiles) (u : Str) : SameDoc f f u := ⟨rfl, fun _ => rfl, rfl, rfl⟩
theorem SameDoc.trans {f g h : LspFiles} {u : Str} (a : SameDoc f g u) (b : SameDoc g h u) : SameDoc f h u :=
  ⟨b.doc.trans a.doc, fun l => (b.tree l).trans (a.tree l), b.vars.trans a.vars, b.acts.trans a.acts⟩
theorem SameConf.refl (f : LspFiles) : SameConf f f := ⟨rfl, rfl, rfl, rfl, rfl, rfl⟩
theorem SameConf.trans {f g h : LspFiles} (a : SameConf f g) (b : SameConf g h) : SameConf f h :=
  ⟨b.pb.trans a.pb, b.qb.trans a.qb, b.conf.trans a.conf, b.chan.trans a.chan, b.vsc.trans a.vsc,
   b.ign.trans a.ign⟩

namespace Frame

theorem refl (n : Str) (f : LspFiles) : Frame n f f := ⟨fun u _ => SameDoc.refl f u, SameConf.refl f⟩
theorem trans {n : Str} {f g h : LspFiles} (a : Frame n f g) (b : Frame n g h) : Frame n f h :=
  ⟨fun u hu => (a.same u hu).trans (b.same u hu), a.conf.trans b.conf⟩

theorem setTree (f : LspFiles) (l : LangType) (n : Str) (t : Tree) : Frame n f (f.setTree l n t) := by
  refine ⟨fun u hu => ⟨rfl, fun l' => ?_, rfl, rfl⟩, ⟨rfl, rfl, rfl, rfl, rfl, rfl⟩⟩
  unfold LspFiles.setTree
  by_cases h : l' = l
  · subst h; simp [HMap.get?_insert, hu]
  · simp [h]

theorem addTree (env : Env) (f : LspFiles) (n : Str) (l : LangType) (c : Str) :
    Frame n f (f.addTree env n l c) := by
  unfold LspFiles.addTree
  split
  · exact refl n f
  · exact setTree f l n _

theorem setDoc (f : LspFiles) (n : Str) (c : Str) :
    Frame n f { f with documents := f.documents.insert n c } :=
  ⟨fun u hu => ⟨by simp [HMap.get?_insert, hu], fun _ => rfl, rfl, rfl⟩, ⟨rfl, rfl, rfl, rfl, rfl, rfl⟩⟩

theorem setVars (f : LspFiles) (n : Str) (v : List Identifier) :
    Frame n f { f with variables := f.variables.insert n v } :=
  ⟨fun u hu => ⟨rfl, fun _ => rfl, by simp [HMap.get?_insert, hu], rfl⟩, ⟨rfl, rfl, rfl, rfl, rfl, rfl⟩⟩

theorem setVarsActs (f : LspFiles) (n : Str) (v a : List Identifier) :
    Frame n f { f with variables := f.variables.insert n v, codeActions := f.codeActions.insert n a } :=
  ⟨fun u hu => ⟨rfl, fun _ => rfl, by simp [HMap.get?_insert, hu], by simp [HMap.get?_insert, hu]⟩,
   ⟨rfl, rfl, rfl, rfl, rfl, rfl⟩⟩

theorem setTask (f : LspFiles) (n : Str) (h : Option Nat) : Frame n f { f with diagnosticsTask := h } :=
  ⟨fun _ _ => ⟨rfl, fun _ => rfl, rfl, rfl⟩, ⟨rfl, rfl, rfl, rfl, rfl, rfl⟩⟩

theorem deleteVariables (f : LspFiles) (n : Str) : Frame n f (f.deleteVariables n) := by
  unfold LspFiles.deleteVariables
  split
  · exact refl n f
  · exact setVars f n _

theorem addVariables {env : Env} {f g : LspFiles} {n : Str} {l : LangType} {c : Str}
    (h : f.addVariables env n l c = .ok g) : Frame n f g := by
  unfold LspFiles.addVariables at h
  split at h
  · cases h; exact refl n f
  · split at h
    · cases h; exact setVarsActs f n _ _
    · split at h
      · cases h; exact refl n f
      · split at h
        · cases h
        · cases h; exact setVarsActs f n _ _

theorem inputEdit (env : Env) (f : LspFiles) (n : Str) (c : Str) (e : InputEdit) (l : Option LangType) :
    Frame n f (f.inputEdit env n c e l) := by
  unfold LspFiles.inputEdit
  split
  · exact refl n f
  · split
    · exact refl n f
    · split
      · exact setTree f _ n _
      · exact setTree f _ n _

theorem inputEdits (env : Env) (n : Str) (l : Option LangType) (es : List (Str × InputEdit)) (f : LspFiles) :
    Frame n f (es.foldl (fun f (ch : Str × InputEdit) => f.inputEdit env n ch.1 ch.2 l) f) := by
  induction es generalizing f with
  | nil => exact refl n f
  | cons e es ih => exact (inputEdit env f n e.1 e.2 l).trans (ih _)

theorem didChange {env : Env} {f g : LspFiles} {n : Str} {cs : List TextChange} {h : Nat} {b : Bool}
    (hc : f.didChange env n cs h = .ok (g, b)) : Frame n f g := by
  unfold LspFiles.didChange at hc
  split at hc
  · cases hc; exact refl n f
  · simp only at hc
    split at hc
    · cases hc
    · split at hc
      · cases hc; exact setDoc f n _
      · cases hc
        exact ((setDoc f n _).trans (inputEdits env n _ _ _)).trans (setTask _ n _)

theorem didSave {env : Env} {w : World} {f g : LspFiles} {n : Str} {m : Option (HMap Str Diags)}
    (h : f.didSave env w n = .ok (g, m)) : Frame n f g := by
  unfold LspFiles.didSave at h
  split at h
  · cases h; exact refl n f
  · split at h
    · cases h; exact refl n f
    · split at h
      · cases h
      · rename_i f1 hf1
        have hf : Frame n f f1 := (deleteVariables f n).trans (addVariables hf1)
        split at h
        · cases h
        · cases h; exact hf
        · cases h; exact hf

theorem didOpen {env : Env} {w : World} {f g : LspFiles} {n c : Str} {ig : Bool}
    {m : Option (HMap Str Diags)} (h : f.didOpen env w n c ig = .ok (g, m)) : Frame n f g := by
  unfold LspFiles.didOpen at h
  split at h
  · cases h; exact refl n f
  · simp only at h
    split at h
    · cases h
    · rename_i f1 hf1
      have hf : Frame n f f1 := (((deleteVariables f n).trans (setDoc _ n c)).trans (addTree env _ n _ c)).trans
        (addVariables hf1)
      split at h
      · cases h; exact hf
      · split at h
        · cases h
        · cases h; exact hf
        · cases h; exact hf

theorem readFile {env : Env} {w : World} {f g : LspFiles} {path name : Str} {l : LangType}
    (h : f.readFile env w path l = .ok g) (hn : w.canonicalize path = .ok name) :
    Frame (c!"file://" ++ name) f g := by
  unfold LspFiles.readFile at h
  rw [hn] at h
  simp only at h
  split at h
  · cases h; exact refl _ f
  · exact ((setDoc f _ _).trans (addTree env _ _ _ _)).trans (addVariables h)

end Frame

/-! ### Documents after an operation -/

theorem documents_addVariables {env : Env} {f g : LspFiles} {n : Str} {l : LangType} {c : Str}
    (h : f.addVariables env n l c = .ok g) : g.documents = f.documents ∧ g.trees = f.trees := by
  unfold LspFiles.addVariables at h
  split at h
  · cases h; exact ⟨rfl, rfl⟩
  · split at h
    · cases h; exact ⟨rfl, rfl⟩
    · split at h
      · cases h; exact ⟨rfl, rfl⟩
      · split at h
        · cases h
        · cases h; exact ⟨rfl, rfl⟩

theorem documents_deleteVariables (f : LspFiles) (n : Str) :
    (f.deleteVariables n).documents = f.documents ∧ (f.deleteVariables n).trees = f.trees := by
  unfold LspFiles.deleteVariables; split <;> exact ⟨rfl, rfl⟩

theorem documents_addTree (env : Env) (f : LspFiles) (n : Str) (l : LangType) (c : Str) :
    (f.addTree env n l c).documents = f.documents := by
  unfold LspFiles.addTree; split <;> rfl

theorem documents_inputEdit (env : Env) (f : LspFiles) (n : Str) (c : Str) (e : InputEdit)
    (l : Option LangType) : (f.inputEdit env n c e l).documents = f.documents := by
  unfold LspFiles.inputEdit
  split
  · rfl
  · split
    · rfl
    · split <;> rfl

theorem documents_inputEdits (env : Env) (n : Str) (l : Option LangType) (es : List (Str × InputEdit))
    (f : LspFiles) :
    (es.foldl (fun f (ch : Str × InputEdit) => f.inputEdit env n ch.1 ch.2 l) f).documents = f.documents := by
  induction es generalizing f with
  | nil => rfl
  | cons e es ih => rw [List.foldl_cons, ih, documents_inputEdit]

theorem documents_didSave {env : Env} {w : World} {f g : LspFiles} {n : Str} {m : Option (HMap Str Diags)}
    (h : f.didSave env w n = .ok (g, m)) : g.documents = f.documents ∧ g.trees = f.trees := by
  unfold LspFiles.didSave at h
  split at h
  · cases h; exact ⟨rfl, rfl⟩
  · split at h
    · cases h; exact ⟨rfl, rfl⟩
    · split at h
      · cases h
      · rename_i f1 hf1
        have h1 := documents_addVariables hf1
        have h2 := documents_deleteVariables f n
        have : f1.documents = f.documents ∧ f1.trees = f.trees := ⟨h1.1.trans h2.1, h1.2.trans h2.2⟩
        split at h
        · cases h
        · cases h; exact this
        · cases h; exact this

/-- the text of the document after a successful change notification -/
theorem didChange_ok {env : Env} {f g : LspFiles} {n : Str} {cs : List TextChange} {h : Nat} {b : Bool}
    {t : Rope} (ht : f.documents.get? n = some t) (hc : f.didChange env n cs h = .ok (g, b)) :
    ∃ t' es, LspFiles.applyChanges env.profile t cs = .ok (t', es, b) ∧
      g.documents = f.documents.insert n t' := by
  unfold LspFiles.didChange at hc
  rw [ht] at hc
  simp only at hc
  split at hc
  · cases hc
  · rename_i t' es fin hap
    refine ⟨t', es, ?_⟩
    split at hc
    · rename_i hfin
      cases hc
      simp only [Bool.not_eq_true'] at hfin
      subst hfin
      exact ⟨hap, rfl⟩
    · rename_i hfin
      cases hc
      have : fin = true := by simpa using hfin
      subst this
      refine ⟨hap, ?_⟩
      simp only [documents_inputEdits]

theorem didChange_none {env : Env} {f : LspFiles} {n : Str} {cs : List TextChange} {h : Nat}
    (ht : f.documents.get? n = none) : f.didChange env n cs h = .ok (f, false) := by
  unfold LspFiles.didChange; rw [ht]

theorem didChange_error_iff {env : Env} {f : LspFiles} {n : Str} {cs : List TextChange} {h : Nat} :
    (∃ e, f.didChange env n cs h = .error e) ↔
      ∃ t, f.documents.get? n = some t ∧ ∃ e, LspFiles.applyChanges env.profile t cs = .error e := by
  unfold LspFiles.didChange
  cases f.documents.get? n with
  | none => simp
  | some t =>
    simp only [Option.some.injEq, exists_eq_left']
    cases hap : LspFiles.applyChanges env.profile t cs with
    | error e => simp
    | ok r =>
      obtain ⟨t', es, fin⟩ := r
      simp only [reduceCtorEq, exists_false, iff_false]
      rintro ⟨e, he⟩
      split at he <;> cases he

theorem addCodeActions_frame (o : HashOrder) (f : LspFiles) (m : HMap Str (List Identifier)) :
    let g := f.addCodeActions o m
    g.documents = f.documents ∧ g.trees = f.trees ∧ g.variables = f.variables ∧ SameConf f g ∧
      g.diagnosticsTask = f.diagnosticsTask := by
  unfold LspFiles.addCodeActions
  generalize o.shuffle 3 m.entries = l
  induction l generalizing f with
  | nil => exact ⟨rfl, rfl, rfl, SameConf.refl f, rfl⟩
  | cons a l ih =>
    simp only [List.foldl_cons]
    obtain ⟨h1, h2, h3, h4, h5⟩ := ih { f with codeActions := f.codeActions.insert a.1 a.2 }
    exact ⟨h1, h2, h3, ⟨h4.pb, h4.qb, h4.conf, h4.chan, h4.vsc, h4.ign⟩, h5⟩

end JinjaLsp
