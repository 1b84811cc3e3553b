import Verif.Props.Agreement
/-
  C98: saving again changes nothing.
-/

namespace JinjaLsp
open Spec

namespace Spec

/-- the message neither opens nor edits the document, nor does it rebuild the workspace -/
def Leaves (uri : Str) : Msg → Prop
  | .didOpen u _ | .didChange u _ => u ≠ uri
  | .initialized => False
  | _ => True

end Spec

/-- the same text, trees and definitions of a document, and the same settings for its analysis -/
structure Core (uri : Str) (f g : LspFiles) : Prop where
  doc : g.documents.get? uri = f.documents.get? uri
  tree : ∀ l, (g.trees l).get? uri = (f.trees l).get? uri
  vars : g.variables.get? uri = f.variables.get? uri
  qb : g.queriesBackend = f.queriesBackend
  conf : g.config = f.config
  ign : g.ignoreGlobals = f.ignoreGlobals

namespace Core
variable {env : Env} {uri : Str} {f g h : LspFiles}

theorem refl (uri : Str) (f : LspFiles) : Core uri f f := ⟨rfl, fun _ => rfl, rfl, rfl, rfl, rfl⟩

theorem trans (a : Core uri f g) (b : Core uri g h) : Core uri f h :=
  ⟨b.doc.trans a.doc, fun l => (b.tree l).trans (a.tree l), b.vars.trans a.vars, b.qb.trans a.qb, b.conf.trans a.conf, b.ign.trans a.ign⟩

theorem of_asOne (a : AsOne uri f g) : Core uri f g :=
  ⟨a.doc.doc, a.doc.tree, a.doc.vars, a.conf.qb, a.conf.conf, a.conf.ign⟩

theorem readTree (a : Core uri f g) {w w' : World} (hw : SameDisk w w') :
    Agree (AsOne.OptReports ((f.variables.get? uri).getD [])) (f.readTree env w uri) (g.readTree env w' uri) := by
  have b : AsOne uri f { g with codeActions := f.codeActions, mainChannel := f.mainChannel, isVscode := f.isVscode, parserBackend := f.parserBackend } :=
    ⟨⟨a.doc, a.tree, a.vars, rfl⟩, ⟨rfl, a.qb, a.conf, rfl, rfl, a.ign⟩⟩
  exact b.readTree hw

theorem verdict_known {bs : List Binding} {ns ns' : List Str} (h : ∀ n, n ∈ ns ↔ n ∈ ns') (u : UseInfo) : verdict bs ns u = verdict bs ns' u := by
  unfold verdict
  simp only [h u.name]

theorem objectDiag_known {o : HashOrder} {vs vs' : Variables} (h : ∀ n, n ∈ knownNames vs ↔ n ∈ knownNames vs') (own : List Identifier) (ig : Bool) :
    objectDiag o vs own ig = objectDiag o vs' own ig := by
  funext obj
  cases ig with
  | true => rw [objectDiag_ignore, objectDiag_ignore]
  | false => rw [objectDiag_eq, objectDiag_eq, verdict_known h]

/-- if the same names are known, the reports are the same -/
theorem readTree_known (a : Core uri f g) (hk : ∀ n, n ∈ knownNames f.variables ↔ n ∈ knownNames g.variables) {w w' : World} (hw : SameDisk w w') :
    Agree OptPerm (f.readTree env w uri) (g.readTree env w' uri) := by
  obtain ⟨o, rfl⟩ := hw.eq
  have e : f.readTree env w uri = g.readTree env w uri := by
    unfold LspFiles.readTree
    simp only [a.doc, a.tree, searchErrors, a.vars, a.conf, a.ign, objectDiag_known hk]
  rw [e]
  exact readTree_order env w o g uri

end Core

/-- the definitions of the document after it was analysed again -/
def reanalysed (env : Env) (f : LspFiles) (uri : Str) (l : LangType) (c : Str) : Res (Option (List Identifier)) :=
  match (f.trees l).get? uri with
  | none => .ok ((f.variables.get? uri).map fun _ => [])
  | some T =>
    match l with
    | .backend => .ok (some (f.backendVariables env T c))
    | .template =>
      if (snippetsQuery env T Point.zero c true).isError then .ok ((f.variables.get? uri).map fun _ => [])
      else match definitionQuery env T Point.zero c true with
        | .error e => .error e
        | .ok defs => .ok (some defs.identifiers)

theorem deleteVariables_get (f : LspFiles) (uri : Str) :
    (f.deleteVariables uri).variables.get? uri = (f.variables.get? uri).map fun _ => [] := by
  unfold LspFiles.deleteVariables
  split
  · rename_i h; rw [h]; rfl
  · rename_i h; simp [h]

theorem deleteVariables_rest (f : LspFiles) (uri : Str) : (f.deleteVariables uri).trees = f.trees ∧
    (f.deleteVariables uri).documents = f.documents ∧ (f.deleteVariables uri).queriesBackend = f.queriesBackend := by
  unfold LspFiles.deleteVariables
  split <;> exact ⟨rfl, rfl, rfl⟩

/-- the definitions of the document after `addVariables` -/
theorem addVariables_get (env : Env) (f : LspFiles) (uri : Str) (l : LangType) (c : Str) :
    (f.addVariables env uri l c).map (fun g => g.variables.get? uri) =
      match (f.trees l).get? uri with
      | none => .ok (f.variables.get? uri)
      | some T =>
        match l with
        | .backend => .ok (some (f.backendVariables env T c))
        | .template =>
          if (snippetsQuery env T Point.zero c true).isError then .ok (f.variables.get? uri)
          else match definitionQuery env T Point.zero c true with
            | .error e => .error e
            | .ok defs => .ok (some defs.identifiers) := by
  unfold LspFiles.addVariables
  cases hT : (f.trees l).get? uri with
  | none => rfl
  | some T =>
    cases l with
    | backend => simp only [Except.map, HMap.get?_insert_self]
    | template =>
      simp only
      cases hs : (snippetsQuery env T Point.zero c true).isError with
      | true => rfl
      | false =>
        simp only [Bool.false_eq_true, if_false]
        cases definitionQuery env T Point.zero c true with
        | error e => rfl
        | ok defs => simp only [Except.map, HMap.get?_insert_self]

theorem reanalysed_eq (env : Env) (f : LspFiles) (uri : Str) (l : LangType) (c : Str) :
    ((f.deleteVariables uri).addVariables env uri l c).map (fun g => g.variables.get? uri) = reanalysed env f uri l c := by
  rw [addVariables_get]
  obtain ⟨d1, d2, d3⟩ := deleteVariables_rest f uri
  simp only [reanalysed, d1, d3, deleteVariables_get, LspFiles.backendVariables]

/-- what is recorded for the document is what analysing it again would record -/
def Rests (env : Env) (f : LspFiles) (uri : Str) : Prop :=
  ∀ l c, fileExt uri = some l → f.documents.get? uri = some c → reanalysed env f uri l c = .ok (f.variables.get? uri)

theorem Core.rests {env : Env} {uri : Str} {f g : LspFiles} (a : Core uri f g) (h : Rests env f uri) : Rests env g uri := by
  intro l c hl hc
  rw [a.doc] at hc
  rw [a.vars, ← h l c hl hc]
  simp only [reanalysed, a.tree, a.vars, LspFiles.backendVariables, a.qb]

/-- the result of an analysis rests -/
theorem rests_of_addVariables {env : Env} {f g : LspFiles} {uri c : Str} {l : LangType} (hl : fileExt uri = some l)
    (hv : f.variables.get? uri = none ∨ f.variables.get? uri = some []) (hd : f.documents.get? uri = some c)
    (h : f.addVariables env uri l c = .ok g) : Rests env g uri := by
  intro l' c' hl' hc'
  rw [hl] at hl'; cases hl'
  obtain ⟨e1, e2⟩ := documents_addVariables h
  have e3 := (Frame.addVariables h).conf.qb
  rw [e1, hd] at hc'; cases hc'
  have hg := addVariables_get env f uri l c
  rw [h] at hg
  have hv' : (f.variables.get? uri).map (fun _ => []) = f.variables.get? uri := by rcases hv with hv | hv <;> rw [hv] <;> rfl
  simp only [Except.map] at hg
  simp only [reanalysed, e2, LspFiles.backendVariables, e3]
  simp only [LspFiles.backendVariables] at hg
  split at hg
  · injection hg with hg
    rw [hg, hv']
  · cases l with
    | backend => exact hg.symm
    | template =>
      simp only at hg ⊢
      split at hg
      · rename_i hs
        injection hg with hg
        rw [if_pos hs, hg, hv']
      · rename_i hs
        rw [if_neg hs]
        exact hg.symm

/-- analysing a resting document again changes only its quick fixes -/
theorem Rests.again {env : Env} {f : LspFiles} {uri c : Str} {l : LangType} (h : Rests env f uri) (hl : fileExt uri = some l)
    (hd : f.documents.get? uri = some c) : ∃ g, (f.deleteVariables uri).addVariables env uri l c = .ok g ∧ Core uri f g ∧ Frame uri f g := by
  have e := reanalysed_eq env f uri l c
  rw [h l c hl hd] at e
  cases hg : (f.deleteVariables uri).addVariables env uri l c with
  | error x => rw [hg] at e; cases e
  | ok g =>
    rw [hg] at e
    injection e with e
    obtain ⟨d1, d2, d3⟩ := deleteVariables_rest f uri
    obtain ⟨e1, e2⟩ := documents_addVariables hg
    have hf := (Frame.deleteVariables f uri).trans (Frame.addVariables hg)
    exact ⟨g, rfl, ⟨by rw [e1, d2], fun l => by rw [e2, d1], e, hf.conf.qb, hf.conf.conf, hf.conf.ign⟩, hf⟩

/-- after opening or saving the document rests -/
theorem analyses_rests {env : Env} {w : World} {s s' : Server} {uri : Str} {m : Msg} {out : List Send} {r : Reply} (hm : m.Analyses uri)
    (h : s.handle env w m = .ok (s', out, r)) : Rests env s'.files uri := by
  have hdel : ∀ f : LspFiles, (f.deleteVariables uri).variables.get? uri = none ∨ (f.deleteVariables uri).variables.get? uri = some [] := by
    intro f
    rw [deleteVariables_get]
    cases f.variables.get? uri
    · exact Or.inl rfl
    · exact Or.inr rfl
  cases hm with
  | opened text =>
    simp only [Server.handle] at h
    split at h
    · cases h
    · rename_i f msg hf
      cases h
      cases hl : fileExt uri with
      | none => intro l c hl'; rw [hl] at hl'; cases hl'
      | some l =>
        obtain ⟨h1, _⟩ := LspFiles.didOpen_inv hl hf
        refine rests_of_addVariables (f := s.files.openBase env uri l text) hl ?_ ?_ h1
        · have : (s.files.openBase env uri l text).variables = (s.files.deleteVariables uri).variables := by
            unfold LspFiles.openBase LspFiles.addTree LspFiles.setTree
            split <;> rfl
          rw [this]; exact hdel _
        · unfold LspFiles.openBase LspFiles.addTree LspFiles.setTree
          split <;> simp
  | saved =>
    simp only [Server.handle] at h
    split at h
    · cases h
    · rename_i f msg hf
      cases h
      cases hl : fileExt uri with
      | none => intro l c hl'; rw [hl] at hl'; cases hl'
      | some l =>
        cases hd : s.files.documents.get? uri with
        | none =>
          have : f = s.files := by
            unfold LspFiles.didSave at hf
            simp only [hl, hd] at hf
            cases hf; rfl
          subst this
          intro l c _ hc
          simp only at hc
          rw [hd] at hc; cases hc
        | some c =>
          obtain ⟨h1, _⟩ := LspFiles.didSave_inv hl hd hf
          exact rests_of_addVariables hl (hdel _) (by rw [(deleteVariables_rest _ _).2.1]; exact hd) h1

/-- saving a resting document -/
theorem didSave_core {env : Env} {w : World} {f g : LspFiles} {uri : Str} {m : Option (HMap Str Diags)} (h : Rests env f uri)
    (hs : f.didSave env w uri = .ok (g, m)) : Core uri f g := by
  unfold LspFiles.didSave at hs
  cases hl : fileExt uri with
  | none => rw [hl] at hs; cases hs; exact .refl _ _
  | some l =>
    cases hd : f.documents.get? uri with
    | none => simp only [hl, hd] at hs; cases hs; exact .refl _ _
    | some c =>
      obtain ⟨g', h1, h2, h3⟩ := h.again hl hd
      simp only [hl, hd, h1] at hs
      split at hs <;> cases hs <;> exact h2

/-- messages that leave the document keep what is recorded -/
theorem Core.step {env : Env} {w : World} {s s' : Server} {uri : Str} {m : Msg} {out : List Send} {r : Reply} (hm : Leaves uri m)
    (hr : Rests env s.files uri) (h : s.handle env w m = .ok (s', out, r)) : Core uri s.files s'.files := by
  have hs := handle_files h
  clear h
  cases hs with
  | query _ h => rw [h]; exact .refl _ _
  | command _ h => rw [h]; exact .refl _ _
  | config _ h => rw [h]; exact .refl _ _
  | «initialize» _ _ h => rcases h with h | h <;> rw [h] <;> exact ⟨rfl, fun _ => rfl, rfl, rfl, rfl, rfl⟩
  | codeActions m h =>
    rw [h]
    obtain ⟨h1, h2, h3, h4, _⟩ := addCodeActions_frame w.order s.files m
    exact ⟨by rw [h1], fun _ => by rw [h2], by rw [h3], h4.qb, h4.conf, h4.ign⟩
  | didOpen u _ _ h => exact .of_asOne (.of_frame (Frame.didOpen h) hm)
  | didSave u _ h =>
    by_cases hu : u = uri
    · subst hu; exact didSave_core hr h
    · exact .of_asOne (.of_frame (Frame.didSave h) hu)
  | didChange u _ _ h => exact .of_asOne (.of_frame (Frame.didChange h) hm)
  | notInitialized => cases hm
  | initialized => cases hm

theorem Core.run {env : Env} {uri : Str} : ∀ {h : List (World × Msg)} {s s' : Server}, (∀ e ∈ h, Leaves uri e.2) →
    Rests env s.files uri → s.run env h = .ok s' → Core uri s.files s'.files
  | [], s, s', _, _, hr => by cases hr; exact .refl _ _
  | e :: h, s, s', hl, hre, hr => by
    simp only [Server.run] at hr
    split at hr
    · cases hr
    · rename_i s₀ _ _ h0
      have a := Core.step (hl e List.mem_cons_self) hre h0
      exact a.trans (Core.run (fun x hx => hl x (List.mem_cons_of_mem _ hx)) (a.rests hre) hr)

/-! ## C98 -/

/-- saving again: the state afterwards, and what is published in terms of the two analyses -/
theorem save_again {env : Env} {w w' : World} {uri : Str} {s s₁ s₂ : Server} {m : Msg} {o₁ : List Send} {r₁ : Reply} {h : List (World × Msg)}
    (hm : m.Analyses uri) (h₁ : s.handle env w m = .ok (s₁, o₁, r₁)) (hl : ∀ e ∈ h, Leaves uri e.2) (h₂ : s₁.run env h = .ok s₂) :
    ∃ s₃ o₃, s₂.handle env w' (.didSave uri) = .ok (s₃, o₃, .none) ∧ s₃.config = s₂.config ∧ Core uri s₁.files s₂.files ∧
      Core uri s₂.files s₃.files ∧ Frame uri s₂.files s₃.files ∧
      (o₁ = [] ∧ o₃ = [] ∨ ∃ v v', s₁.files.readTree env w uri = .ok v ∧ s₃.files.readTree env w' uri = .ok v' ∧
        (o₁ = [.diag (HMap.empty.insert uri (v.getD []))] ∨ o₁ = [] ∧ v = none) ∧ o₃ = [.diag (HMap.empty.insert uri (v'.getD []))]) := by
  have hr := analyses_rests hm h₁
  have hc := Core.run hl hr h₂
  have hr2 := hc.rests hr
  -- nothing is held for the document, or it was analysed
  have key : (o₁ = [] ∧ (fileExt uri = none ∨ s₁.files.documents.get? uri = none)) ∨ ∃ l c v, fileExt uri = some l ∧
      s₁.files.documents.get? uri = some c ∧ s₁.files.readTree env w uri = .ok v ∧
      (o₁ = [.diag (HMap.empty.insert uri (v.getD []))] ∨ o₁ = [] ∧ v = none) := by
    cases hm with
    | opened text =>
      simp only [Server.handle] at h₁
      split at h₁
      · cases h₁
      · rename_i f msg hf
        cases h₁
        cases hx : fileExt uri with
        | none =>
          unfold LspFiles.didOpen at hf
          rw [hx] at hf; cases hf
          exact Or.inl ⟨rfl, Or.inl rfl⟩
        | some l =>
          obtain ⟨a1, v, a2, rfl⟩ := LspFiles.didOpen_inv hx hf
          refine Or.inr ⟨l, text, v, rfl, ?_, a2, ?_⟩
          · simp only
            rw [(documents_addVariables a1).1]
            unfold LspFiles.openBase LspFiles.addTree LspFiles.setTree
            split <;> simp
          · cases v with
            | none => exact Or.inr ⟨rfl, rfl⟩
            | some ds => exact Or.inl rfl
    | saved =>
      simp only [Server.handle] at h₁
      split at h₁
      · cases h₁
      · rename_i f msg hf
        cases h₁
        cases hx : fileExt uri with
        | none =>
          unfold LspFiles.didSave at hf
          rw [hx] at hf; cases hf
          exact Or.inl ⟨rfl, Or.inl rfl⟩
        | some l =>
          cases hd : s.files.documents.get? uri with
          | none =>
            unfold LspFiles.didSave at hf
            simp only [hx, hd] at hf
            cases hf
            exact Or.inl ⟨rfl, Or.inr hd⟩
          | some c =>
            obtain ⟨a1, v, a2, rfl⟩ := LspFiles.didSave_inv hx hd hf
            refine Or.inr ⟨l, c, v, rfl, ?_, a2, Or.inl rfl⟩
            simp only
            rw [(documents_addVariables a1).1, (deleteVariables_rest _ _).2.1, hd]
  rcases key with ⟨k1, k2⟩ | ⟨l, c, v, k1, k2, k3, k4⟩
  · have e : s₂.files.didSave env w' uri = .ok (s₂.files, none) := by
      unfold LspFiles.didSave
      rcases k2 with k2 | k2
      · rw [k2]
      · rw [hc.doc, k2]
        split <;> rfl
    refine ⟨s₂, [], ?_, rfl, hc, .refl _ _, .refl _ _, Or.inl ⟨k1, rfl⟩⟩
    simp only [Server.handle, e]
    rfl
  · obtain ⟨g, g1, g2, g3⟩ := hr2.again k1 (by rw [hc.doc]; exact k2)
    obtain ⟨v', hg⟩ := readTree_ok env w' g uri
    have e : s₂.files.didSave env w' uri = .ok (g, some (HMap.empty.insert uri (v'.getD []))) := by
      unfold LspFiles.didSave
      rw [hc.doc]
      simp only [k1, k2, g1, hg]
      cases v' <;> rfl
    exact ⟨{ s₂ with files := g }, [.diag (HMap.empty.insert uri (v'.getD []))], by simp only [Server.handle, e]; rfl, rfl, hc, g2, g3,
      Or.inr ⟨v, v', k3, hg, k4, rfl⟩⟩

/-- **C98** After a document was opened or saved — and after any further messages that neither open nor edit it, nor rebuild the workspace —
saving it succeeds and changes nothing: no text, syntax tree or definition of any document, and no setting; what is published for the document
are the same reports as the first time, up to names that other files began or ceased to define. -/
theorem C98_again (env : Env) (w w' : World) (uri : Str) (s s₁ s₂ : Server) (m : Msg) (o₁ : List Send) (r₁ : Reply) (h : List (World × Msg))
    (hm : m.Analyses uri) (h₁ : s.handle env w m = .ok (s₁, o₁, r₁)) (hl : ∀ e ∈ h, Leaves uri e.2) (h₂ : s₁.run env h = .ok s₂)
    (hw : SameDisk w w') :
    ∃ s₃ o₃, s₂.handle env w' (.didSave uri) = .ok (s₃, o₃, .none) ∧ s₃.config = s₂.config ∧
      (∀ u, s₃.files.documents.get? u = s₂.files.documents.get? u ∧ (∀ l, (s₃.files.trees l).get? u = (s₂.files.trees l).get? u) ∧
        s₃.files.variables.get? u = s₂.files.variables.get? u) ∧
      s₃.files.variables.get? uri = s₁.files.variables.get? uri ∧
      (o₁ = [] ∧ o₃ = [] ∨ ∃ ds ds', (o₁ = [.diag (HMap.empty.insert uri ds)] ∨ o₁ = [] ∧ ds = []) ∧
        o₃ = [.diag (HMap.empty.insert uri ds')] ∧ SameReports ((s₁.files.variables.get? uri).getD []) ds ds') := by
  obtain ⟨s₃, o₃, a1, a2, a3, a4, a5, a6⟩ := save_again (w' := w') hm h₁ hl h₂
  refine ⟨s₃, o₃, a1, a2, ?_, (a3.trans a4).vars, ?_⟩
  · intro u
    by_cases hu : u = uri
    · subst hu; exact ⟨a4.doc, a4.tree, a4.vars⟩
    · exact ⟨(a5.same u hu).doc, (a5.same u hu).tree, (a5.same u hu).vars⟩
  · rcases a6 with a6 | ⟨v, v', b1, b2, b3, b4⟩
    · exact Or.inl a6
    · have b5 := (a3.trans a4).readTree (env := env) hw
      rw [b1, b2] at b5
      refine Or.inr ⟨v.getD [], v'.getD [], b3.imp id fun ⟨x, y⟩ => ⟨x, by rw [y]; rfl⟩, b4, ?_⟩
      simp only [Agree] at b5
      cases v <;> cases v' <;> simp only [AsOne.OptReports] at b5
      · exact AsOne.same_nil _
      · exact b5

/-- **C98** If the other files still define the same names, the reports are the same outright, up to the hash order. -/
theorem C98_same_reports (env : Env) (w w' : World) (uri : Str) (s s₁ s₂ : Server) (m : Msg) (o₁ : List Send) (r₁ : Reply) (h : List (World × Msg))
    (hm : m.Analyses uri) (h₁ : s.handle env w m = .ok (s₁, o₁, r₁)) (hl : ∀ e ∈ h, Leaves uri e.2) (h₂ : s₁.run env h = .ok s₂)
    (hw : SameDisk w w') (hk : ∀ n, (∃ u vs v, u ≠ uri ∧ s₁.files.variables.get? u = some vs ∧ v ∈ vs ∧ v.name = n) ↔
      ∃ u vs v, u ≠ uri ∧ s₂.files.variables.get? u = some vs ∧ v ∈ vs ∧ v.name = n) :
    ∃ s₃ o₃, s₂.handle env w' (.didSave uri) = .ok (s₃, o₃, .none) ∧
      (o₁ = [] ∧ o₃ = [] ∨ ∃ ds ds', (o₁ = [.diag (HMap.empty.insert uri ds)] ∨ o₁ = [] ∧ ds = []) ∧
        o₃ = [.diag (HMap.empty.insert uri ds')] ∧ ds.Perm ds') := by
  obtain ⟨s₃, o₃, a1, _, a3, a4, a5, a6⟩ := save_again (w' := w') hm h₁ hl h₂
  refine ⟨s₃, o₃, a1, ?_⟩
  rcases a6 with a6 | ⟨v, v', b1, b2, b3, b4⟩
  · exact Or.inl a6
  · have hkn : ∀ n, n ∈ knownNames s₁.files.variables ↔ n ∈ knownNames s₃.files.variables := by
      intro n
      rw [mem_knownNames, mem_knownNames]
      have own := (a3.trans a4).vars
      constructor
      · rintro ⟨u, vs, c1, v, c2, c3⟩
        by_cases hu : u = uri
        · subst hu; exact ⟨u, vs, by rw [own]; exact c1, v, c2, c3⟩
        · obtain ⟨u', vs', v', d1, d2, d3, d4⟩ := (hk n).mp ⟨u, vs, v, hu, c1, c2, c3⟩
          exact ⟨u', vs', by rw [(a5.same u' d1).vars]; exact d2, v', d3, d4⟩
      · rintro ⟨u, vs, c1, v, c2, c3⟩
        by_cases hu : u = uri
        · subst hu; exact ⟨u, vs, by rw [← own]; exact c1, v, c2, c3⟩
        · obtain ⟨u', vs', v', d1, d2, d3, d4⟩ := (hk n).mpr ⟨u, vs, v, hu, by rw [← (a5.same u hu).vars]; exact c1, c2, c3⟩
          exact ⟨u', vs', d2, v', d3, d4⟩
    have b5 := (a3.trans a4).readTree_known (env := env) hkn hw
    rw [b1, b2] at b5
    refine Or.inr ⟨v.getD [], v'.getD [], b3.imp id fun ⟨x, y⟩ => ⟨x, by rw [y]; rfl⟩, b4, ?_⟩
    simp only [Agree] at b5
    cases v <;> cases v' <;> simp only [OptPerm] at b5
    · exact .nil
    · exact b5

namespace Fix

/-- between the two analyses another document is opened and changed, this one is asked about and saved -/
def between : List (World × Msg) := [(rootWorld, .hover uriT ⟨0, 1⟩), (rootWorld, .didOpen uriU c!"bb"), (rootWorld, .didSave uriT),
  (rootWorld, .didChange uriU [⟨some ⟨⟨0, 2⟩, ⟨0, 2⟩⟩, c!"b"⟩]), (rootWorld, .didSave uriU), (rootWorld, .codeAction uriT ⟨0, 1⟩)]

/-- between the two analyses the document is asked about only -/
def asked : List (World × Msg) := [(rootWorld, .hover uriT ⟨0, 1⟩), (rootWorld, .goto uriT ⟨3, 7⟩)]

end Fix

/-- the conditions of `C98_again` hold for a session in which the reports of the two analyses differ -/
example : ∃ s₁ s₂ s₃ ds ds', (Msg.didOpen Fix.uriT c!"aaa").Analyses Fix.uriT ∧
    Server.init.handle Fix.apartEnv Fix.rootWorld (.didOpen Fix.uriT c!"aaa") = .ok (s₁, [.diag (HMap.empty.insert Fix.uriT ds)], .none) ∧
    (∀ e ∈ Fix.between, Leaves Fix.uriT e.2) ∧ s₁.run Fix.apartEnv Fix.between = .ok s₂ ∧ SameDisk Fix.rootWorld Fix.rootWorld ∧
    s₂.handle Fix.apartEnv Fix.rootWorld (.didSave Fix.uriT) = .ok (s₃, [.diag (HMap.empty.insert Fix.uriT ds')], .none) ∧ ds ≠ [] ∧ ds ≠ ds' :=
  ⟨_, _, _, _, _, .opened _, rfl, by simp [Fix.between, Leaves, Fix.uriT, Fix.uriU], rfl, ⟨rfl, rfl, rfl⟩, rfl, by decide, by decide⟩

/-- the conditions of `C98_same_reports` hold for a session with reports -/
example : ∃ s₁ s₂ ds, (Msg.didOpen Fix.uriT c!"aaa").Analyses Fix.uriT ∧
    Server.init.handle Fix.apartEnv Fix.rootWorld (.didOpen Fix.uriT c!"aaa") = .ok (s₁, [.diag (HMap.empty.insert Fix.uriT ds)], .none) ∧
    (∀ e ∈ Fix.asked, Leaves Fix.uriT e.2) ∧ s₁.run Fix.apartEnv Fix.asked = .ok s₂ ∧
    (∀ n, (∃ u vs v, u ≠ Fix.uriT ∧ s₁.files.variables.get? u = some vs ∧ v ∈ vs ∧ v.name = n) ↔
      ∃ u vs v, u ≠ Fix.uriT ∧ s₂.files.variables.get? u = some vs ∧ v ∈ vs ∧ v.name = n) ∧ ds ≠ [] :=
  ⟨_, _, _, .opened _, rfl, by simp [Fix.asked, Leaves], rfl, fun _ => Iff.rfl, by decide⟩

end JinjaLsp
