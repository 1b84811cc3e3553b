import Verif.Props.History
import Verif.Lemmas.Total
/-
  C96: what is done to other documents changes nothing about a document, apart from the names it takes from them.
-/

namespace JinjaLsp
open Spec

namespace Spec

/-- the message is about the document, or about everything -/
def concerns (uri : Str) : Msg → Bool
  | .didOpen u _ | .didChange u _ | .didSave u => decide (u = uri)
  | .initialize .. | .initialized | .didChangeConfiguration _ => true
  | .codeActions m => (m.get? uri).isSome
  | .completion .. | .hover .. | .goto .. | .codeAction .. | .documentSymbol _ | .executeCommand _ => false

/-- Two reports at the same place about the same name: the same report, or the name is known elsewhere on one side only. The latter only
when nothing of that name (other than a block) is defined in the document itself. -/
def SameReport (own : List Identifier) (d d' : JinjaDiagnostic × Identifier) : Prop :=
  d'.2 = d.2 ∧ (d'.1 = d.1 ∨ (d.1 = .undefined ∧ d'.1 = .definedSomewhere ∨ d.1 = .definedSomewhere ∧ d'.1 = .undefined) ∧
    ∀ v ∈ own, v.name = d.2.name → v.idType = .templateBlock)

/-- the same reports one by one, possibly in another order -/
def SameReports (own : List Identifier) (ds ds' : Diags) : Prop := ∃ es, Each (SameReport own) ds es ∧ es.Perm ds'

/-- the text shown for a name that another file has -/
def elsewhereText : Str := IdType.backendVariable.completionDetail

/-- The same answer, apart from what other documents contribute: variables of the backend and names of templates that are offered, whether a
name is known elsewhere, and where. -/
inductive SameOwn : Reply → Reply → Prop where
  | refl (r) : SameOwn r r
  | completion {own rest rest' : List CompletionItem} {a b : Option (List CompletionItem)} (ha : a.getD [] = own ++ rest)
      (hb : b.getD [] = own ++ rest')
      (h : ∀ i ∈ rest ++ rest', i.detail = some elsewhereText ∨ i.detail = some c!"Jinja template") : SameOwn (.completion a) (.completion b)
  | hover {a b : Option Str} (ha : a = none ∨ a = some elsewhereText) (hb : b = none ∨ b = some elsewhereText) : SameOwn (.hover a) (.hover b)
  | goto {a b : List Location} : SameOwn (.goto (some (.array a))) (.goto (some (.array b)))

/-- a request about the document -/
def Asks (uri : Str) : Msg → Prop
  | .completion u .. | .hover u _ | .goto u _ | .codeAction u _ | .documentSymbol u => u = uri
  | _ => False

end Spec

/-- the same for one document, and the same settings -/
structure AsOne (uri : Str) (f g : LspFiles) : Prop where
  doc : SameDoc f g uri
  conf : SameConf f g

namespace AsOne

theorem refl (uri : Str) (f : LspFiles) : AsOne uri f f := ⟨SameDoc.refl f uri, SameConf.refl f⟩

theorem trans {uri : Str} {f g h : LspFiles} (a : AsOne uri f g) (b : AsOne uri g h) : AsOne uri f h := ⟨a.doc.trans b.doc, a.conf.trans b.conf⟩

theorem symm {uri : Str} {f g : LspFiles} (a : AsOne uri f g) : AsOne uri g f :=
  ⟨⟨a.doc.doc.symm, fun l => (a.doc.tree l).symm, a.doc.vars.symm, a.doc.acts.symm⟩,
   ⟨a.conf.pb.symm, a.conf.qb.symm, a.conf.conf.symm, a.conf.chan.symm, a.conf.vsc.symm, a.conf.ign.symm⟩⟩

theorem of_frame {uri n : Str} {f g : LspFiles} (h : Frame n f g) (hn : n ≠ uri) : AsOne uri f g := ⟨h.same uri (Ne.symm hn), h.conf⟩

variable {env : Env} {uri : Str} {f g : LspFiles}

theorem setTree (h : AsOne uri f g) (l : LangType) (t : Tree) : AsOne uri (f.setTree l uri t) (g.setTree l uri t) := by
  refine ⟨⟨h.doc.doc, fun l' => ?_, h.doc.vars, h.doc.acts⟩, ⟨h.conf.pb, h.conf.qb, h.conf.conf, h.conf.chan, h.conf.vsc, h.conf.ign⟩⟩
  unfold LspFiles.setTree
  by_cases hl : l' = l
  · subst hl; simp
  · simp [hl, h.doc.tree]

theorem setDoc (h : AsOne uri f g) (c : Str) :
    AsOne uri { f with documents := f.documents.insert uri c } { g with documents := g.documents.insert uri c } :=
  ⟨⟨by simp, h.doc.tree, h.doc.vars, h.doc.acts⟩, ⟨h.conf.pb, h.conf.qb, h.conf.conf, h.conf.chan, h.conf.vsc, h.conf.ign⟩⟩

theorem setVars (h : AsOne uri f g) (v : List Identifier) :
    AsOne uri { f with variables := f.variables.insert uri v } { g with variables := g.variables.insert uri v } :=
  ⟨⟨h.doc.doc, h.doc.tree, by simp, h.doc.acts⟩, ⟨h.conf.pb, h.conf.qb, h.conf.conf, h.conf.chan, h.conf.vsc, h.conf.ign⟩⟩

theorem setVarsActs (h : AsOne uri f g) (v a : List Identifier) :
    AsOne uri { f with variables := f.variables.insert uri v, codeActions := f.codeActions.insert uri a }
      { g with variables := g.variables.insert uri v, codeActions := g.codeActions.insert uri a } :=
  ⟨⟨h.doc.doc, h.doc.tree, by simp, by simp⟩, ⟨h.conf.pb, h.conf.qb, h.conf.conf, h.conf.chan, h.conf.vsc, h.conf.ign⟩⟩

theorem setTask (h : AsOne uri f g) (a b : Option Nat) : AsOne uri { f with diagnosticsTask := a } { g with diagnosticsTask := b } :=
  ⟨⟨h.doc.doc, h.doc.tree, h.doc.vars, h.doc.acts⟩, ⟨h.conf.pb, h.conf.qb, h.conf.conf, h.conf.chan, h.conf.vsc, h.conf.ign⟩⟩

theorem parse (h : AsOne uri f g) (l : LangType) (c : Str) (o : Option Tree) : g.parse env l c o = f.parse env l c o := by
  unfold LspFiles.parse LspFiles.grammar
  cases l <;> simp [h.conf.pb]

theorem addTree (h : AsOne uri f g) (l : LangType) (c : Str) : AsOne uri (f.addTree env uri l c) (g.addTree env uri l c) := by
  unfold LspFiles.addTree
  rw [h.parse, h.doc.tree]
  split
  · exact h
  · exact h.setTree _ _

theorem deleteVariables (h : AsOne uri f g) : AsOne uri (f.deleteVariables uri) (g.deleteVariables uri) := by
  unfold LspFiles.deleteVariables
  rw [h.doc.vars]
  split
  · exact h
  · exact h.setVars _

theorem addVariables (h : AsOne uri f g) (l : LangType) (c : Str) : Agree (AsOne uri) (f.addVariables env uri l c) (g.addVariables env uri l c) := by
  unfold LspFiles.addVariables
  rw [h.doc.tree]
  split
  · exact h
  · cases l with
    | backend =>
      have e : ∀ t, g.backendVariables env t c = f.backendVariables env t c := fun t => by simp only [LspFiles.backendVariables, h.conf.qb]
      simp only [e]
      exact h.setVarsActs _ _
    | template =>
      simp only
      split
      · exact h
      · split
        · rfl
        · exact h.setVarsActs _ _

theorem inputEdit (h : AsOne uri f g) (c : Str) (e : InputEdit) (l : Option LangType) :
    AsOne uri (f.inputEdit env uri c e l) (g.inputEdit env uri c e l) := by
  unfold LspFiles.inputEdit
  split
  · exact h
  · rw [h.doc.tree]
    split
    · exact h
    · rw [h.parse]
      split
      · exact h.setTree _ _
      · exact h.setTree _ _

theorem inputEdits (l : Option LangType) : ∀ (es : List (Str × InputEdit)) {f g : LspFiles}, AsOne uri f g →
    AsOne uri (es.foldl (fun f (ch : Str × InputEdit) => f.inputEdit env uri ch.1 ch.2 l) f)
      (es.foldl (fun f (ch : Str × InputEdit) => f.inputEdit env uri ch.1 ch.2 l) g)
  | [], _, _, h => h
  | _ :: es, _, _, h => inputEdits l es (h.inputEdit _ _ _)

theorem didChange (h : AsOne uri f g) (cs : List TextChange) (n n' : Nat) :
    Agree (fun a b => AsOne uri a.1 b.1 ∧ b.2 = a.2) (f.didChange env uri cs n) (g.didChange env uri cs n') := by
  unfold LspFiles.didChange
  rw [h.doc.doc]
  split
  · exact ⟨h, rfl⟩
  · simp only
    split
    · rfl
    · split
      · exact ⟨h.setDoc _, rfl⟩
      · exact ⟨(inputEdits _ _ (h.setDoc _)).setTask _ _, rfl⟩

/-! ### Reports -/

theorem objectDiag_same (o o' : HashOrder) (vs vs' : Variables) (own : List Identifier) (ig : Bool) (obj : JinjaObject) :
    match objectDiag o vs own ig obj, objectDiag o' vs' own ig obj with
    | none, none => True
    | some d, some d' => SameReport own d d'
    | _, _ => False := by
  by_cases hf : (obj.isFilter || obj.isTest) = true
  · simp [objectDiag, hf]
  · by_cases hc : ((own.filter (sameName obj.name)).filter (locatedAt obj)).length = 0
    · by_cases he : (!(own.filter (sameName obj.name)).isEmpty) = true
      · cases ig <;> simp only [objectDiag, hf, hc, he, SameReport, Bool.false_eq_true, if_false, if_true, and_self, true_or]
      · have hown : ∀ v ∈ own, v.name = obj.name → v.idType = .templateBlock := by
          intro v hv hn
          apply Decidable.byContradiction
          intro hb
          simp only [Bool.not_eq_true', Bool.not_eq_false, List.isEmpty_iff, List.filter_eq_nil_iff] at he
          exact he v hv (by simp [sameName, hn, hb])
        cases ig with
        | true => simp only [objectDiag, hf, hc, he, Bool.false_eq_true, if_false, if_true, and_false]
        | false =>
          simp only [objectDiag, hf, hc, he, SameReport, Bool.false_eq_true, if_false, if_true, and_false, true_and]
          by_cases a : ((o.shuffle 1 vs.entries).any fun f => f.2.any fun v => v.name = obj.name) = true <;>
            by_cases b : ((o'.shuffle 1 vs'.entries).any fun f => f.2.any fun v => v.name = obj.name) = true <;>
            simp only [a, b, if_true, if_false, Bool.false_eq_true, reduceCtorEq, and_self, and_true, true_and, false_and, or_true,
              or_false, false_or]
          · exact hown
          · exact hown
    · simp only [objectDiag, hf, hc, Bool.false_eq_true, if_false, false_and]

theorem each_refl {own : List Identifier} : ∀ (ds : Diags), Each (SameReport own) ds ds
  | [] => .nil
  | _ :: ds => .cons ⟨rfl, Or.inl rfl⟩ (each_refl ds)

theorem each_append {α β : Type} {R : α → β → Prop} {a c : List α} {b d : List β} (h : Each R a b) (h' : Each R c d) :
    Each R (a ++ c) (b ++ d) := by
  induction h with
  | nil => exact h'
  | cons x _ ih => exact .cons x ih

theorem objects_same (o o' : HashOrder) (vs vs' : Variables) (own : List Identifier) (ig : Bool) : ∀ (objs : List JinjaObject),
    Each (SameReport own) (objs.filterMap (objectDiag o vs own ig)) (objs.filterMap (objectDiag o' vs' own ig))
  | [] => .nil
  | obj :: objs => by
    have h := objectDiag_same o o' vs vs' own ig obj
    have ih := objects_same o o' vs vs' own ig objs
    rw [List.filterMap_cons, List.filterMap_cons]
    split at h <;> rename_i h1 h2
    · rw [h1, h2]; exact ih
    · rw [h1, h2]; exact .cons h ih
    · exact h.elim

/-- no result on both sides, or the same reports -/
def OptReports (own : List Identifier) : Option Diags → Option Diags → Prop
  | none, none => True
  | some a, some b => SameReports own a b
  | _, _ => False

theorem readTree (h : AsOne uri f g) {w w' : World} (hw : SameDisk w w') :
    Agree (OptReports ((f.variables.get? uri).getD [])) (f.readTree env w uri) (g.readTree env w' uri) := by
  obtain ⟨o, rfl⟩ := hw.eq
  have h1 : Agree OptPerm (g.readTree env w uri) (g.readTree env { w with order := o } uri) := readTree_order env w o g uri
  have h2 : Agree (fun a b => match a, b with
      | none, none => True
      | some a, some b => Each (SameReport ((f.variables.get? uri).getD [])) a b
      | _, _ => False) (f.readTree env w uri) (g.readTree env w uri) := by
    unfold LspFiles.readTree
    rw [h.doc.doc]
    split
    · trivial
    · split
      · trivial
      · rw [h.doc.tree]
        split
        · trivial
        · rename_i l _ _ tree _
          cases l with
          | template =>
            simp only [searchErrors, h.doc.vars, h.conf.conf, h.conf.ign]
            split
            · rfl
            · cases hv : f.variables.get? uri with
              | none => trivial
              | some own =>
                simp only [Option.getD_some]
                exact each_append (objects_same ..) (each_refl _)
          | backend =>
            simp only [searchErrors, h.doc.vars, h.conf.conf]
            cases hv : f.variables.get? uri with
            | none => trivial
            | some own => exact each_refl _
  revert h1 h2
  generalize f.readTree env w uri = a
  generalize g.readTree env w uri = b
  generalize g.readTree env { w with order := o } uri = c
  intro h1 h2
  cases a <;> cases b <;> cases c <;> simp only [Agree] at h1 h2 ⊢
  · rw [h2, h1]
  · rename_i a b c
    cases a <;> cases b <;> cases c <;> simp only [OptPerm, OptReports] at h1 h2 ⊢
    exact ⟨_, h2, h1⟩

/-- the results of opening and saving: none on both sides, or one list for the document -/
def OptSingle (own : List Identifier) (uri : Str) (a b : Option (HMap Str Diags)) : Prop :=
  a = none ∧ b = none ∨ ∃ ds ds', a = some (HMap.empty.insert uri ds) ∧ b = some (HMap.empty.insert uri ds') ∧ SameReports own ds ds'

theorem same_nil (own : List Identifier) : SameReports own [] [] := ⟨[], .nil, .nil⟩

theorem didSave (h : AsOne uri f g) {w w' : World} (hw : SameDisk w w') :
    Agree (fun a b => AsOne uri a.1 b.1 ∧ OptSingle ((a.1.variables.get? uri).getD []) uri a.2 b.2) (f.didSave env w uri) (g.didSave env w' uri) := by
  unfold LspFiles.didSave
  split
  · exact ⟨h, Or.inl ⟨rfl, rfl⟩⟩
  · rename_i l _
    rw [h.doc.doc]
    split
    · exact ⟨h, Or.inl ⟨rfl, rfl⟩⟩
    · rename_i t _
      have h1 := h.deleteVariables.addVariables (env := env) l t
      revert h1
      cases (f.deleteVariables uri).addVariables env uri l t <;> cases (g.deleteVariables uri).addVariables env uri l t <;>
        intro h1 <;> simp only [Agree] at h1 ⊢
      · exact h1
      · rename_i a b
        have h2 := h1.readTree (env := env) hw
        revert h2
        cases a.readTree env w uri <;> cases b.readTree env w' uri <;> intro h2 <;> simp only [Agree] at h2 ⊢
        · exact h2
        · rename_i c d
          cases c <;> cases d <;> simp only [OptReports] at h2
          · exact ⟨h1, Or.inr ⟨_, _, rfl, rfl, same_nil _⟩⟩
          · exact ⟨h1, Or.inr ⟨_, _, rfl, rfl, h2⟩⟩

theorem didOpen (h : AsOne uri f g) {w w' : World} (hw : SameDisk w w') (text : Str) :
    Agree (fun a b => AsOne uri a.1 b.1 ∧ OptSingle ((a.1.variables.get? uri).getD []) uri a.2 b.2) (f.didOpen env w uri text false)
      (g.didOpen env w' uri text false) := by
  unfold LspFiles.didOpen
  split
  · exact ⟨h, Or.inl ⟨rfl, rfl⟩⟩
  · rename_i l _
    have h1 := ((h.deleteVariables.setDoc text).addTree (env := env) l text).addVariables (env := env) l text
    simp only
    revert h1
    generalize LspFiles.addVariables env (LspFiles.addTree env { f.deleteVariables uri with documents := _ } uri l text) uri l text = a
    generalize LspFiles.addVariables env (LspFiles.addTree env { g.deleteVariables uri with documents := _ } uri l text) uri l text = b
    cases a <;> cases b <;> intro h1 <;> simp only [Agree, Bool.false_eq_true, if_false] at h1 ⊢
    · exact h1
    · rename_i a b
      have h2 := h1.readTree (env := env) hw
      revert h2
      cases a.readTree env w uri <;> cases b.readTree env w' uri <;> intro h2 <;> simp only [Agree] at h2 ⊢
      · exact h2
      · rename_i c d
        cases c <;> cases d <;> simp only [OptReports] at h2
        · exact ⟨h1, Or.inl ⟨rfl, rfl⟩⟩
        · exact ⟨h1, Or.inr ⟨_, _, rfl, rfl, h2⟩⟩

/-! ### Answers -/

theorem completion (h : AsOne uri f g) (p : Position) (tr : TriggerKind) : g.completion env uri p tr = f.completion env uri p tr := by
  unfold LspFiles.completion
  simp only [h.doc.tree, h.doc.doc, h.conf.qb]

theorem hover (h : AsOne uri f g) (p : Position) : g.hover env uri p = f.hover env uri p := by
  unfold LspFiles.hover
  simp only [h.doc.tree, h.doc.doc]

theorem codeAction (h : AsOne uri f g) (p : Position) : g.codeAction env uri p = f.codeAction env uri p := by
  unfold LspFiles.codeAction
  simp only [h.doc.tree, h.doc.doc, h.doc.acts]

theorem documentSymbols (h : AsOne uri f g) : g.documentSymbols uri = f.documentSymbols uri := by
  unfold LspFiles.documentSymbols
  rw [h.doc.vars]

theorem templateItem_detail {f : LspFiles} {r : Range} {p : Position} {t : Str} {i : CompletionItem} (h : f.templateItem r p t = some i) :
    i.detail = some c!"Jinja template" := by
  unfold LspFiles.templateItem at h
  simp only at h
  split at h
  · cases h
  · cases h
    split <;> rfl

theorem templateItems_detail {f : LspFiles} {r : Range} {p : Position} : ∀ {ts : List Str} {is : List CompletionItem},
    f.templateItems r p ts = some is → ∀ i ∈ is, i.detail = some c!"Jinja template"
  | [], is, h, i, hi => by
    simp only [LspFiles.templateItems] at h
    cases h
    cases hi
  | t :: ts, is, h, i, hi => by
    simp only [LspFiles.templateItems] at h
    split at h
    · cases h
    · rename_i j hj
      split at h
      · cases h
      · rename_i js hjs
        cases h
        rcases List.mem_cons.mp hi with rfl | hi
        · exact templateItem_detail hj
        · exact templateItems_detail hjs i hi

theorem readTemplates_detail {f : LspFiles} {w : World} {n : Str} {r : Range} {p : Position} :
    ∀ i ∈ (f.readTemplates w n r p).getD [], i.detail = some c!"Jinja template" := by
  cases h : f.readTemplates w n r p with
  | none => simp
  | some is => exact templateItems_detail h

theorem readVariables (h : AsOne uri f g) (w w' : World) (p : Position) (st : Option (Str × Range)) :
    SameOwn (.completion (f.readVariables w uri p st none)) (.completion (g.readVariables w' uri p st none)) := by
  have key : ∀ (es : List (Str × List Identifier)), ∀ i ∈ es.flatMap fun file =>
      (file.2.filter fun v => v.idType = .backendVariable).map LspFiles.backendItem, i.detail = some elsewhereText := by
    intro es i hi
    obtain ⟨e, _, hi⟩ := List.mem_flatMap.mp hi
    obtain ⟨v, hv, rfl⟩ := List.mem_map.mp hi
    have := (List.mem_filter.mp hv).2
    simp only [decide_eq_true_eq] at this
    simp only [LspFiles.backendItem, this, elsewhereText]
  unfold LspFiles.readVariables
  rw [h.doc.vars]
  cases f.variables.get? uri with
  | none => exact .refl _
  | some own =>
    simp only [h.conf.vsc]
    refine .completion (own := _) (rest := _) (rest' := _) rfl rfl ?_
    intro i hi
    rcases List.mem_append.mp hi with hi | hi
    · exact Or.inl (key _ i hi)
    · exact Or.inl (key _ i hi)

theorem completionItems (h : AsOne uri f g) (w w' : World) (p : Position) (t : CompletionType) :
    SameOwn (.completion (completionItems w f uri p t)) (.completion (JinjaLsp.completionItems w' g uri p t)) := by
  cases t with
  | filter => exact .refl _
  | test => exact .refl _
  | identifier => exact h.readVariables w w' p none
  | includedTemplate n r =>
    refine .completion (own := []) rfl rfl ?_
    intro i hi
    rcases List.mem_append.mp hi with hi | hi
    · exact Or.inr (readTemplates_detail i hi)
    · exact Or.inr (readTemplates_detail i hi)
  | snippets r =>
    simp only [JinjaLsp.completionItems, h.conf.vsc]
    exact .refl _
  | incompleteIdentifier n r => exact h.readVariables w w' p _
  | incompleteFilter => exact .refl _

theorem hoverText (h : AsOne uri f g) (w w' : World) (x : Identifier × CompletionType) :
    SameOwn (.hover (hoverText w f uri x)) (.hover (JinjaLsp.hoverText w' g uri x)) := by
  unfold JinjaLsp.hoverText
  split
  · exact .refl _
  · split
    · exact .refl _
    · unfold LspFiles.dataType
      rw [h.doc.vars]
      cases f.variables.get? uri with
      | none => exact .refl _
      | some own =>
        simp only
        split
        · exact .refl _
        · refine .hover ?_ ?_
          · split
            · exact Or.inr rfl
            · exact Or.inl rfl
          · split
            · exact Or.inr rfl
            · exact Or.inl rfl

theorem goto (h : AsOne uri f g) {w w' : World} (hw : SameDisk w w') (p : Position) {r r' : Option GotoResponse}
    (hf : f.gotoDefinition env w uri p = .ok r) (hg : g.gotoDefinition env w' uri p = .ok r') : SameOwn (.goto r) (.goto r') := by
  have e1 : ∀ i q, g.localDefinition uri i q = f.localDefinition uri i q := fun i q => by
    unfold LspFiles.localDefinition; rw [h.doc.vars]
  have e2 : ∀ n, g.templateLocation env w' n = f.templateLocation env w n := fun n => by
    unfold LspFiles.templateLocation; rw [h.conf.conf, hw.canonicalize]
  unfold LspFiles.gotoDefinition at hf hg
  simp only [h.doc.tree, h.doc.doc, h.conf.qb, e1, e2] at hf hg
  cases hl : fileExt uri with
  | none =>
    simp only [hl] at hf hg
    cases hf; cases hg; exact .refl _
  | some l =>
    simp only [hl] at hf hg
    split at hf
    · rename_i tree text ht hd
      simp only [ht, hd] at hg
      cases l with
      | template =>
        simp only at hf hg
        split at hf
        · cases hf
        · rename_i ho
          simp only [ho] at hg
          split at hf
          · rename_i hl
            simp only [hl] at hg
            cases hf; cases hg; exact .refl _
          · rename_i hl
            simp only [hl] at hg
            split at hf
            · rename_i ht
              simp only [ht] at hg
              cases hf; cases hg; exact .refl _
            · rename_i ht
              simp only [ht] at hg
              split at hf
              · cases hf
              · split at hg
                · cases hg
                · cases hf; cases hg; exact .goto
      | backend =>
        simp only at hf hg
        split at hf
        · rename_i hb
          simp only [hb] at hg
          cases hf; cases hg; exact .refl _
        · rename_i hb
          simp only [hb] at hg
          cases hf; cases hg; exact .refl _
    · rename_i hne
      split at hg
      · rename_i h1 h2
        exact absurd h2 (hne _ _ h1)
      · cases hf; cases hg; exact .refl _

end AsOne

/-- servers that are the same as far as one document is concerned -/
structure AsOneServers (uri : Str) (s t : Server) : Prop where
  config : t.config = s.config
  files : AsOne uri s.files t.files

namespace AsOneServers
variable {env : Env} {uri : Str}

theorem refl (uri : Str) (s : Server) : AsOneServers uri s s := ⟨rfl, AsOne.refl uri _⟩

theorem trans {s t u : Server} (a : AsOneServers uri s t) (b : AsOneServers uri t u) : AsOneServers uri s u :=
  ⟨b.config.trans a.config, a.files.trans b.files⟩

theorem symm {s t : Server} (a : AsOneServers uri s t) : AsOneServers uri t s := ⟨a.config.symm, a.files.symm⟩

theorem insert_acts_ne {o : HashOrder} {f : LspFiles} {m : HMap Str (List Identifier)} (h : m.get? uri = none) :
    (f.addCodeActions o m).codeActions.get? uri = f.codeActions.get? uri := by
  have hne : ∀ e ∈ o.shuffle 3 m.entries, e.1 ≠ uri := by
    intro e he hu
    have := (HMap.get?_eq_some_iff m e.1 e.2).mpr ((HMap.mem_shuffle o 3 m.entries e).mp he)
    rw [hu, h] at this
    cases this
  unfold LspFiles.addCodeActions
  revert hne
  generalize o.shuffle 3 m.entries = l
  intro hne
  induction l generalizing f with
  | nil => rfl
  | cons a l ih =>
    rw [List.foldl_cons, ih (fun e he => hne e (by simp [he]))]
    simp only [HMap.get?_insert]
    rw [if_neg (Ne.symm (hne a (by simp)))]

/-- a message that does not concern the document -/
theorem skip {w : World} {s s' : Server} {m : Msg} {out : List Send} {r : Reply} (hm : concerns uri m = false)
    (h : s.handle env w m = .ok (s', out, r)) : AsOneServers uri s s' := by
  have hc : s'.config = s.config := by
    cases m <;> simp only [concerns, Bool.true_eq_false, decide_eq_false_iff_not] at hm <;> simp only [Server.handle] at h
    case didOpen => split at h <;> cases h; rfl
    case didSave => split at h <;> cases h; rfl
    case didChange =>
      split at h
      · cases h
      · rename_i h1
        cases h
        obtain ⟨_, _, _, _, e, _⟩ := onDidChange_cases h1
        exact e
    case completion => split at h <;> cases h; rfl
    case hover => split at h <;> cases h; rfl
    case goto => split at h <;> cases h; rfl
    case codeAction =>
      split at h
      · cases h
      · rename_i h1
        cases h
        exact (onCodeAction_frame h1).2.1
    case executeCommand => cases h; rfl
    case documentSymbol => cases h; rfl
    case codeActions => cases h; rfl
  refine ⟨hc, ?_⟩
  have hs := handle_files h
  clear h
  cases hs with
  | query _ h => rw [h]; exact .refl _ _
  | command _ h => rw [h]; exact .refl _ _
  | config _ h => rw [h]; exact .refl _ _
  | «initialize» => cases hm
  | codeActions m h =>
    rw [h]
    simp only [concerns, Option.isSome_eq_false_iff, Option.isNone_iff_eq_none] at hm
    obtain ⟨h1, h2, h3, h4, _⟩ := addCodeActions_frame w.order s.files m
    exact ⟨⟨by rw [h1], fun _ => by rw [h2], by rw [h3], insert_acts_ne hm⟩, h4⟩
  | didOpen u _ _ h =>
    simp only [concerns, decide_eq_false_iff_not] at hm
    exact .of_frame (Frame.didOpen h) hm
  | didSave u _ h =>
    simp only [concerns, decide_eq_false_iff_not] at hm
    exact .of_frame (Frame.didSave h) hm
  | didChange u _ _ h =>
    simp only [concerns, decide_eq_false_iff_not] at hm
    exact .of_frame (Frame.didChange h) hm
  | notInitialized => cases hm
  | initialized => cases hm

theorem acts_same {o : HashOrder} {m : HMap Str (List Identifier)} {f g : LspFiles} (h : AsOne uri f g) :
    AsOne uri (f.addCodeActions o m) (g.addCodeActions o m) := by
  unfold LspFiles.addCodeActions
  generalize o.shuffle 3 m.entries = l
  induction l generalizing f g with
  | nil => exact h
  | cons a l ih =>
    rw [List.foldl_cons, List.foldl_cons]
    refine ih ⟨⟨h.doc.doc, h.doc.tree, h.doc.vars, ?_⟩, ⟨h.conf.pb, h.conf.qb, h.conf.conf, h.conf.chan, h.conf.vsc, h.conf.ign⟩⟩
    simp only [HMap.get?_insert, h.doc.acts]

/-- the same message that concerns the document -/
theorem step {w : World} {s t s' t' : Server} {m : Msg} {out out' : List Send} {r r' : Reply} (hst : AsOneServers uri s t)
    (hm : concerns uri m = true) (h : s.handle env w m = .ok (s', out, r)) (h' : t.handle env w m = .ok (t', out', r')) :
    AsOneServers uri s' t' := by
  have hw : SameDisk w w := ⟨rfl, rfl, rfl⟩
  cases m <;> simp only [concerns, Bool.false_eq_true, decide_eq_true_eq] at hm <;> simp only [Server.handle] at h h'
  case «initialize» c o =>
    cases h; cases h'
    have hf := hst.files
    refine ⟨?_, ?_⟩
    · simp only [Server.onInitialize, hst.config]
    · simp only [Server.onInitialize]
      split
      · exact ⟨⟨hf.doc.doc, hf.doc.tree, hf.doc.vars, hf.doc.acts⟩, ⟨hf.conf.pb, hf.conf.qb, hf.conf.conf, hf.conf.chan, rfl, hf.conf.ign⟩⟩
      · exact hf
  case initialized =>
    split at h
    · cases h
    · rename_i h1
      split at h'
      · cases h'
      · rename_i h2
        cases h; cases h'
        unfold Server.onInitialized at h1 h2
        rw [hst.config] at h2
        split at h1
        · rename_i hl
          rw [if_pos hl] at h2
          split at h1
          · cases h1
          · rename_i hk
            rw [hk] at h2
            cases h1; cases h2
            exact hst
          · rename_i hk
            rw [hk] at h2
            cases h1; cases h2
            exact ⟨rfl, ⟨⟨rfl, fun _ => rfl, rfl, rfl⟩, ⟨rfl, rfl, rfl, rfl, hst.files.conf.vsc, rfl⟩⟩⟩
        · rename_i hl
          rw [if_neg hl] at h2
          cases h1; cases h2
          exact hst
  case didOpen u text =>
    subst hm
    have := hst.files.didOpen (env := env) hw text
    split at h
    · cases h
    · rename_i h1
      split at h'
      · cases h'
      · rename_i h2
        cases h; cases h'
        rw [h1, h2] at this
        exact ⟨hst.config, this.1⟩
  case didSave u =>
    subst hm
    have := hst.files.didSave (env := env) hw
    split at h
    · cases h
    · rename_i h1
      split at h'
      · cases h'
      · rename_i h2
        cases h; cases h'
        rw [h1, h2] at this
        exact ⟨hst.config, this.1⟩
  case didChange u cs =>
    subst hm
    split at h
    · cases h
    · rename_i h1
      split at h'
      · cases h'
      · rename_i h2
        cases h; cases h'
        obtain ⟨f1, b1, e1, f1', c1, _⟩ := onDidChange_cases h1
        obtain ⟨f2, b2, e2, f2', c2, _⟩ := onDidChange_cases h2
        have := hst.files.didChange (env := env) cs s.nextHandle t.nextHandle
        rw [e1, e2] at this
        refine ⟨by rw [c1, c2, hst.config], ?_⟩
        rw [f1', f2']
        exact this.1
  case didChangeConfiguration c =>
    cases h; cases h'
    refine ⟨?_, hst.files⟩
    simp only [hst.config]
  case codeActions m =>
    cases h; cases h'
    exact ⟨hst.config, acts_same hst.files⟩

/-- up to the next message that concerns the document -/
theorem seek {e : World × Msg} {l : List (World × Msg)} : ∀ {h : List (World × Msg)} {t t' : Server}, t.run env h = .ok t' →
    h.filter (fun e => concerns uri e.2) = e :: l →
    ∃ t₁ post, AsOneServers uri t t₁ ∧ t₁.run env (e :: post) = .ok t' ∧ post.filter (fun e => concerns uri e.2) = l
  | [], _, _, _, hf => by cases hf
  | a :: h, t, t', hr, hf => by
    cases hc : concerns uri a.2 with
    | true =>
      rw [List.filter_cons_of_pos (by simpa using hc)] at hf
      cases hf
      exact ⟨t, h, refl uri t, hr, rfl⟩
    | false =>
      rw [List.filter_cons_of_neg (by simp [hc])] at hf
      simp only [Server.run] at hr
      split at hr
      · cases hr
      · rename_i t₀ _ _ h0
        obtain ⟨t₁, post, h1, h2, h3⟩ := seek hr hf
        exact ⟨t₁, post, (skip hc h0).trans h1, h2, h3⟩

theorem run : ∀ {h h' : List (World × Msg)} {s t s' t' : Server}, AsOneServers uri s t →
    h.filter (fun e => concerns uri e.2) = h'.filter (fun e => concerns uri e.2) → s.run env h = .ok s' → t.run env h' = .ok t' →
    AsOneServers uri s' t'
  | [], h', s, t, s', t', hst, hf, hr, hr' => by
    simp only [Server.run] at hr
    cases hr
    induction h' generalizing t with
    | nil => simp only [Server.run] at hr'; cases hr'; exact hst
    | cons a h' ih =>
      cases hc : concerns uri a.2 with
      | true => rw [List.filter_cons_of_pos (by simpa using hc)] at hf; cases hf
      | false =>
        rw [List.filter_cons_of_neg (by simp [hc])] at hf
        simp only [Server.run] at hr'
        split at hr'
        · cases hr'
        · rename_i t₀ _ _ h0
          exact ih _ (hst.trans (skip hc h0)) hf hr'
  | a :: h, h', s, t, s', t', hst, hf, hr, hr' => by
    simp only [Server.run] at hr
    split at hr
    · cases hr
    · rename_i s₀ _ _ h0
      cases hc : concerns uri a.2 with
      | false =>
        rw [List.filter_cons_of_neg (by simp [hc])] at hf
        exact run ((skip hc h0).symm.trans hst) hf hr hr'
      | true =>
        rw [List.filter_cons_of_pos (by simpa using hc)] at hf
        obtain ⟨t₁, post, h1, h2, h3⟩ := seek hr' hf.symm
        simp only [Server.run] at h2
        split at h2
        · cases h2
        · rename_i t₂ _ _ h4
          exact run (step (hst.trans h1) hc h0 h4) h3.symm hr h2

end AsOneServers

/-! ## C96 -/

/-- **C96** Two sessions that agree in the messages about a document and about the whole workspace, whatever else is sent about other documents
and however it is interleaved, hold the same text, trees, definitions and quick fixes for it. -/
theorem C96_state (env : Env) (uri : Str) (s s₁ s₂ : Server) (h₁ h₂ : List (World × Msg))
    (he : h₁.filter (fun e => concerns uri e.2) = h₂.filter (fun e => concerns uri e.2)) (r₁ : s.run env h₁ = .ok s₁) (r₂ : s.run env h₂ = .ok s₂) :
    s₂.files.documents.get? uri = s₁.files.documents.get? uri ∧ (∀ l, (s₂.files.trees l).get? uri = (s₁.files.trees l).get? uri) ∧
      s₂.files.variables.get? uri = s₁.files.variables.get? uri ∧ s₂.files.codeActions.get? uri = s₁.files.codeActions.get? uri ∧
      s₂.config = s₁.config := by
  have h := AsOneServers.run (AsOneServers.refl uri s) he r₁ r₂
  exact ⟨h.files.doc.doc, h.files.doc.tree, h.files.doc.vars, h.files.doc.acts, h.config⟩

/-- **C96** After two such sessions every request about the document is answered in the same way, apart from backend variables and template
names that are offered and from what is said about names that the document itself does not define. -/
theorem C96_answers (env : Env) (uri : Str) (s s₁ s₂ : Server) (h₁ h₂ : List (World × Msg))
    (he : h₁.filter (fun e => concerns uri e.2) = h₂.filter (fun e => concerns uri e.2)) (r₁ : s.run env h₁ = .ok s₁) (r₂ : s.run env h₂ = .ok s₂)
    (w w' : World) (hw : SameDisk w w') (m : Msg) (hm : Asks uri m) (t₁ t₂ : Server) (o₁ o₂ : List Send) (a₁ a₂ : Reply)
    (e₁ : s₁.handle env w m = .ok (t₁, o₁, a₁)) (e₂ : s₂.handle env w' m = .ok (t₂, o₂, a₂)) : SameOwn a₁ a₂ := by
  have h := (AsOneServers.run (AsOneServers.refl uri s) he r₁ r₂).files
  cases m <;> simp only [Asks] at hm <;> subst hm <;> simp only [Server.handle] at e₁ e₂
  case completion p tr =>
    split at e₁
    · cases e₁
    · rename_i h1
      split at e₂
      · cases e₂
      · rename_i h2
        cases e₁; cases e₂
        unfold Server.onCompletion at h1 h2
        rw [h.completion] at h2
        split at h1
        · cases h1
        · rename_i hk
          rw [hk] at h2
          cases h1; cases h2; exact .refl _
        · rename_i hk
          rw [hk] at h2
          cases h1; cases h2
          exact h.completionItems w w' _ _
  case hover p =>
    split at e₁
    · cases e₁
    · rename_i h1
      split at e₂
      · cases e₂
      · rename_i h2
        cases e₁; cases e₂
        unfold Server.onHover at h1 h2
        rw [h.hover] at h2
        split at h1
        · cases h1
        · rename_i hk
          rw [hk] at h2
          cases h1; cases h2; exact .refl _
        · rename_i hk
          rw [hk] at h2
          cases h1; cases h2
          exact h.hoverText w w' _
  case goto p =>
    split at e₁
    · cases e₁
    · rename_i h1
      split at e₂
      · cases e₂
      · rename_i h2
        cases e₁; cases e₂
        exact h.goto hw p h1 h2
  case codeAction p =>
    split at e₁
    · cases e₁
    · rename_i h1
      split at e₂
      · cases e₂
      · rename_i h2
        cases e₁; cases e₂
        have e : ∀ a, s₂.files.processCodeActions env w' a = s₁.files.processCodeActions env w a := fun a => by
          unfold LspFiles.processCodeActions
          rw [h.conf.conf, hw.canonicalize]
        unfold Server.onCodeAction at h1 h2
        rw [h.codeAction] at h2
        simp only [e] at h2
        split at h1
        · cases h1
        · rename_i hk
          rw [hk] at h2
          cases h1; cases h2; exact .refl _
        · rename_i hk
          rw [hk] at h2
          simp only at h2
          split at h1
          · cases h1
          · rename_i hp
            rw [hp] at h2
            cases h1; cases h2; exact .refl _
          · rename_i hp
            rw [hp] at h2
            cases h1; cases h2; exact .refl _
  case documentSymbol =>
    cases e₁; cases e₂
    rw [h.documentSymbols]
    exact .refl _

/-- **C96** After two such sessions opening or saving the document has the same outcome, and the same places are reported: only whether an
undefined name is known elsewhere may differ, and only if nothing of that name (other than a block) is defined in the document. -/
theorem C96_reports (env : Env) (uri : Str) (s s₁ s₂ : Server) (h₁ h₂ : List (World × Msg))
    (he : h₁.filter (fun e => concerns uri e.2) = h₂.filter (fun e => concerns uri e.2)) (r₁ : s.run env h₁ = .ok s₁) (r₂ : s.run env h₂ = .ok s₂)
    (w w' : World) (hw : SameDisk w w') (m : Msg) (hm : m.Analyses uri) (t₁ : Server) (o₁ : List Send) (a₁ : Reply)
    (e₁ : s₁.handle env w m = .ok (t₁, o₁, a₁)) : ∃ t₂ o₂, s₂.handle env w' m = .ok (t₂, o₂, a₁) ∧
      t₂.files.variables.get? uri = t₁.files.variables.get? uri ∧
      (o₁ = [] ∧ o₂ = [] ∨ ∃ ds ds', o₁ = [.diag (HMap.empty.insert uri ds)] ∧ o₂ = [.diag (HMap.empty.insert uri ds')] ∧
        SameReports ((t₁.files.variables.get? uri).getD []) ds ds') := by
  have h := (AsOneServers.run (AsOneServers.refl uri s) he r₁ r₂).files
  have key : ∀ {a : Res (LspFiles × Option (HMap Str Diags))} {b : Res (LspFiles × Option (HMap Str Diags))},
      Agree (fun a b => AsOne uri a.1 b.1 ∧ AsOne.OptSingle ((a.1.variables.get? uri).getD []) uri a.2 b.2) a b →
      ∀ x, a = .ok x → ∃ y, b = .ok y ∧ AsOne uri x.1 y.1 ∧ AsOne.OptSingle ((x.1.variables.get? uri).getD []) uri x.2 y.2 := by
    intro a b hab x hx
    subst hx
    cases b with
    | error => exact hab.elim
    | ok y => exact ⟨y, rfl, hab⟩
  have fin : ∀ {x y : LspFiles × Option (HMap Str Diags)}, AsOne.OptSingle ((x.1.variables.get? uri).getD []) uri x.2 y.2 →
      (Server.sends x.2 = [] ∧ Server.sends y.2 = [] ∨ ∃ ds ds', Server.sends x.2 = [.diag (HMap.empty.insert uri ds)] ∧
        Server.sends y.2 = [.diag (HMap.empty.insert uri ds')] ∧ SameReports ((x.1.variables.get? uri).getD []) ds ds') := by
    intro x y hxy
    rcases hxy with ⟨h1, h2⟩ | ⟨ds, ds', h1, h2, h3⟩
    · exact Or.inl ⟨by rw [h1]; rfl, by rw [h2]; rfl⟩
    · exact Or.inr ⟨ds, ds', by rw [h1]; rfl, by rw [h2]; rfl, h3⟩
  cases hm with
  | opened text =>
    simp only [Server.handle] at e₁ ⊢
    split at e₁
    · cases e₁
    · rename_i h1
      cases e₁
      obtain ⟨y, h2, h3, h4⟩ := key (h.didOpen (env := env) hw text) _ h1
      rw [h2]
      exact ⟨_, _, rfl, h3.doc.vars, fin h4⟩
  | saved =>
    simp only [Server.handle] at e₁ ⊢
    split at e₁
    · cases e₁
    · rename_i h1
      cases e₁
      obtain ⟨y, h2, h3, h4⟩ := key (h.didSave (env := env) hw) _ h1
      rw [h2]
      exact ⟨_, _, rfl, h3.doc.vars, fin h4⟩

namespace Fix

/-- a document is opened and saved -/
def alone : List (World × Msg) := [(rootWorld, .didOpen uriT c!"aaa"), (rootWorld, .didSave uriT)]

/-- the same, while another one that defines names is opened, changed and asked about -/
def withOther : List (World × Msg) := [(rootWorld, .didOpen uriU c!"bb"), (rootWorld, .didOpen uriT c!"aaa"),
  (rootWorld, .didChange uriU [⟨some ⟨⟨0, 2⟩, ⟨0, 2⟩⟩, c!"b"⟩]), (rootWorld, .hover uriT ⟨0, 1⟩), (rootWorld, .didSave uriT),
  (rootWorld, .didSave uriU)]

end Fix

/-- the two sessions meet the conditions of `C96_state`, and the other document is held in one of them only -/
example : ∃ s₁ s₂, Fix.alone.filter (fun e => concerns Fix.uriT e.2) = Fix.withOther.filter (fun e => concerns Fix.uriT e.2) ∧
    Server.init.run Fix.apartEnv Fix.alone = .ok s₁ ∧ Server.init.run Fix.apartEnv Fix.withOther = .ok s₂ ∧
    s₁.files.documents.get? Fix.uriT = some c!"aaa" ∧ s₁.files.documents.get? Fix.uriU = none ∧ s₂.files.documents.get? Fix.uriU = some c!"bbb" :=
  ⟨_, _, rfl, rfl, rfl, by decide, by decide, by decide⟩

/-- saving the document after them reports the same names at the same places, but not in the same way -/
example : ∃ s₁ s₂ t₁ t₂ ds ds', Server.init.run Fix.apartEnv Fix.alone = .ok s₁ ∧ Server.init.run Fix.apartEnv Fix.withOther = .ok s₂ ∧
    s₁.handle Fix.apartEnv Fix.rootWorld (.didSave Fix.uriT) = .ok (t₁, [.diag (HMap.empty.insert Fix.uriT ds)], .none) ∧
    s₂.handle Fix.apartEnv Fix.rootWorld (.didSave Fix.uriT) = .ok (t₂, [.diag (HMap.empty.insert Fix.uriT ds')], .none) ∧
    (Msg.didSave Fix.uriT).Analyses Fix.uriT ∧ ds ≠ [] ∧ ds ≠ ds' :=
  ⟨_, _, _, _, _, _, rfl, rfl, rfl, rfl, .saved, by decide, by decide⟩

/-- a question about the document after them, whose answers are not equal -/
example : ∃ s₁ s₂ t₁ t₂ a b, Server.init.run Fix.apartEnv Fix.alone = .ok s₁ ∧ Server.init.run Fix.apartEnv Fix.withOther = .ok s₂ ∧
    Asks Fix.uriT (.goto Fix.uriT ⟨3, 7⟩) ∧ s₁.handle Fix.apartEnv Fix.rootWorld (.goto Fix.uriT ⟨3, 7⟩) = .ok (t₁, [], .goto (some (.array a))) ∧
    s₂.handle Fix.apartEnv Fix.rootWorld (.goto Fix.uriT ⟨3, 7⟩) = .ok (t₂, [], .goto (some (.array b))) ∧ a ≠ b :=
  ⟨_, _, _, _, _, _, rfl, rfl, rfl, rfl, rfl, by decide⟩

/-! ## C35, C43: the order of the definitions -/

/-- **C35** Which of several visible definitions goto-definition leads to depends on the definitions only, not on the order they were recorded in. -/
theorem C35_any_order (env : Env) (w w' : World) (f g : LspFiles) (uri : Str) (tree : Tree) (text : Str) (pos : Position)
    (hext : fileExt uri = some .template) (hd : f.documents.get? uri = some text) (ht : (f.trees .template).get? uri = some tree)
    (hd' : g.documents.get? uri = some text) (ht' : (g.trees .template).get? uri = some tree)
    (es : List Elem) (u : Use) (rest : List Capture)
    (h : OnUse (env.queryMatches .jinjaObjects tree text).flatten es u rest (toPoint pos))
    (vars vars' : List Identifier) (hv : f.variables.get? uri = some vars) (hv' : g.variables.get? uri = some vars')
    (hsame : ∀ d, d ∈ vars ↔ d ∈ vars') (hex : ∃ d ∈ vars, Binds u.root.text (toPoint pos) d) :
    f.gotoDefinition env w uri pos = g.gotoDefinition env w' uri pos := by
  obtain ⟨r, hq, hid⟩ := ident_of_use h
  obtain ⟨d, _, _, _, h4⟩ := localDefinition_some hv hex
  have e : g.localDefinition uri u.root.text (toPoint pos) = f.localDefinition uri u.root.text (toPoint pos) := by
    unfold LspFiles.localDefinition
    rw [hv, hv']
    simp only
    rw [iterMax_congr (l := vars.filter _) (l' := vars'.filter fun item => decide (item.name = u.root.text) &&
      decide (item.start ≤ toPoint pos) && decide (toPoint pos ≤ item.scopeEnd)) (fun x => by rw [List.mem_filter, List.mem_filter, hsame])]
  simp only [LspFiles.gotoDefinition, hext, ht, hd, ht', hd', hq, hid, Option.bind_some, e, h4]

/-- **C43** The kind that hover shows for a name with visible definitions depends on the definitions only, not on the order they were recorded in. -/
theorem C43_any_order (env : Env) (w w' : World) (s t : Server) (uri : Str) (tree : Tree) (text : Str) (pos : Position)
    (hext : fileExt uri = some .template) (hd : s.files.documents.get? uri = some text) (ht : (s.files.trees .template).get? uri = some tree)
    (hd' : t.files.documents.get? uri = some text) (ht' : (t.files.trees .template).get? uri = some tree)
    (es : List Elem) (u : Use) (rest : List Capture)
    (h : OnUse (env.queryMatches .jinjaObjects tree text).flatten es u rest (toPoint pos))
    (vars vars' : List Identifier) (hv : s.files.variables.get? uri = some vars) (hv' : t.files.variables.get? uri = some vars')
    (hsame : ∀ d, d ∈ vars ↔ d ∈ vars') (hex : ∃ d ∈ vars, DefinesAt u.root.text u.root.start d) :
    ∃ a, s.handle env w (.hover uri pos) = .ok (s, [], a) ∧ t.handle env w' (.hover uri pos) = .ok (t, [], a) := by
  obtain ⟨i, hi, hn, hst⟩ := hover_use hext hd ht h
  obtain ⟨i', hi', _⟩ := hover_use hext hd' ht' h
  have hii : s.files.hover env uri pos = t.files.hover env uri pos := by
    simp only [LspFiles.hover, hext, ht, hd, ht', hd']
  rw [hi, hi'] at hii
  cases hii
  rw [← hn, ← hst] at hex
  obtain ⟨d, _, _, _, h4⟩ := dataType_some (w := w) hv hex
  have e : t.files.dataType w' uri i = s.files.dataType w uri i := by
    rw [h4]
    unfold LspFiles.dataType at h4 ⊢
    rw [hv] at h4
    rw [hv']
    simp only at h4 ⊢
    rw [iterMax_congr (l := (vars.filter _).filter _) (l' := (vars'.filter fun v => decide (v.idType ≠ .templateBlock)).filter fun v =>
      decide (v.stop ≤ i.start) && decide (i.start ≤ v.scopeEnd) && decide (i.name = v.name))
      (fun x => by rw [List.mem_filter, List.mem_filter, List.mem_filter, List.mem_filter, hsame])] at h4
    split at h4
    · exact h4
    · rename_i hn
      obtain ⟨d, hd, hb⟩ := hex
      have := iterMax_none hn
      have hm : d ∈ (vars'.filter fun v => decide (v.idType ≠ .templateBlock)).filter fun v =>
          decide (v.stop ≤ i.start) && decide (i.start ≤ v.scopeEnd) && decide (i.name = v.name) := by
        simp only [List.mem_filter, Bool.and_eq_true, decide_eq_true_eq]
        exact ⟨⟨(hsame d).mp hd, hb.1⟩, ⟨hb.2.2.1, hb.2.2.2⟩, hb.2.1.symm⟩
      rw [this] at hm
      cases hm
  refine ⟨.hover (hoverText w s.files uri (i, if u.info.filter then .filter else if u.info.test then .test else .identifier)), ?_, ?_⟩
  · simp only [Server.handle, Server.onHover, hi]
  · simp only [Server.handle, Server.onHover, hi']
    simp only [hoverText, e]

namespace Fix

/-- the workspace `Fix.files` with definitions for the first document, whose text uses the name `i` -/
def defining (vs : List Identifier) : LspFiles := { files with variables := (HMap.empty.insert uriA vs).insert uriB [] }

/-- two definitions that start together -/
def twoOfThem : List Identifier :=
  [{ Identifier.new c!"i" ⟨1, 0⟩ ⟨1, 1⟩ with scopeEnd := ⟨9, 9⟩, idType := .setVariable },
   { Identifier.new c!"i" ⟨1, 0⟩ ⟨1, 4⟩ with scopeEnd := ⟨9, 9⟩, idType := .forLoopKey }]

end Fix

/-- the hypotheses of the two theorems hold for two lists in different order, and the answer is a location -/
example : ∃ (f g : LspFiles) (tree : Tree) (text : Str) (es : List Elem) (u : Use) (rest : List Capture) (vars vars' : List Identifier),
    f.documents.get? Fix.uriA = some text ∧ (f.trees .template).get? Fix.uriA = some tree ∧ g.documents.get? Fix.uriA = some text ∧
    (g.trees .template).get? Fix.uriA = some tree ∧
    OnUse ((Fix.envOf Fix.tplCaps).queryMatches .jinjaObjects tree text).flatten es u rest (toPoint ⟨3, 7⟩) ∧
    f.variables.get? Fix.uriA = some vars ∧ g.variables.get? Fix.uriA = some vars' ∧ (∀ d, d ∈ vars ↔ d ∈ vars') ∧ vars ≠ vars' ∧
    (∃ d ∈ vars, Binds u.root.text (toPoint ⟨3, 7⟩) d) ∧ (∃ d ∈ vars, DefinesAt u.root.text u.root.start d) ∧
    f.gotoDefinition (Fix.envOf Fix.tplCaps) Fix.world Fix.uriA ⟨3, 7⟩ = .ok (some (.scalar ⟨Fix.uriA, ⟨⟨1, 0⟩, ⟨1, 4⟩⟩⟩)) := by
  refine ⟨Fix.defining Fix.twoOfThem, Fix.defining Fix.twoOfThem.reverse, _, _, _, _, _, _, _, rfl, rfl, rfl, rfl, Fix.tpl_use _ _, rfl, rfl,
    fun d => List.mem_reverse.symm, by decide, ⟨⟨⟨1, 0⟩, ⟨1, 1⟩, c!"i", 0, ⟨9, 9⟩, .setVariable, []⟩, by decide, rfl, by decide, by decide⟩,
    ⟨⟨⟨1, 0⟩, ⟨1, 1⟩, c!"i", 0, ⟨9, 9⟩, .setVariable, []⟩, by decide, by decide, rfl, by decide, by decide⟩, rfl⟩

end JinjaLsp
