import Verif.Props.Sync
import Verif.Props.Definitions
import Verif.Props.Honest
import Verif.Props.Survival
import Verif.Props.NodeHints
/-
  C104: trees are read with the text they were made from.
-/

namespace JinjaLsp
open Spec Rope

namespace Spec

/-- The two behave alike wherever a tree is read with the text it was made from; what happens when a tree is read with another
text (where its nodes may lie outside the text) may differ. -/
structure AlikeOnOwnText (env env' : Env) : Prop where
  profile : env'.profile = env.profile
  parses : env'.parseFails = env.parseFails
  ends : env'.rootEnd = env.rootEnd
  urls : env'.urlParse = env.urlParse
  toml : env'.tomlConfig = env.tomlConfig
  reads : ∀ q g t o, env'.queryMatches q (.parsed g t o) t = env.queryMatches q (.parsed g t o) t

end Spec

/-! ### Trees are filed under the class of their document -/

/-- every tree that is held is filed under the class of its document -/
def Classed (f : LspFiles) : Prop := ∀ u l T, (f.trees l).get? u = some T → fileExt u = some l

section
variable {env : Env} {w : World}

theorem Classed.congr {f g : LspFiles} (hf : Classed f) (ht : g.trees = f.trees) : Classed g := by
  intro u l T hT
  rw [ht] at hT
  exact hf u l T hT

theorem Classed.docs {f : LspFiles} (hf : Classed f) (d : HMap Str Str) : Classed { f with documents := d } := hf.congr rfl

theorem classed_setTree {f : LspFiles} {n : Str} {l : LangType} {T : Tree} (hf : Classed f) (hl : fileExt n = some l) :
    Classed (f.setTree l n T) := by
  intro u l' T' hT
  simp only [LspFiles.setTree] at hT
  split at hT
  · rename_i h
    subst h
    rw [HMap.get?_insert] at hT
    split at hT
    · rename_i h; rw [h]; exact hl
    · exact hf u l' T' hT
  · exact hf u l' T' hT

theorem classed_addTree {f : LspFiles} {n t : Str} {l : LangType} (hf : Classed f) (hl : fileExt n = some l) :
    Classed (f.addTree env n l t) := by
  unfold LspFiles.addTree
  split
  · exact hf
  · exact classed_setTree hf hl

theorem classed_addVariables {f g : LspFiles} {n t : Str} {l : LangType} (hf : Classed f)
    (h : f.addVariables env n l t = .ok g) : Classed g := hf.congr (documents_addVariables h).2

theorem classed_didOpen {f g : LspFiles} {n t : Str} {ig : Bool} {m : Option (HMap Str Diags)}
    (hf : Classed f) (h : f.didOpen env w n t ig = .ok (g, m)) : Classed g := by
  unfold LspFiles.didOpen at h
  split at h
  · cases h; exact hf
  · rename_i l hl
    simp only at h
    split at h
    · cases h
    · rename_i f1 hf1
      have hk := classed_addVariables (classed_addTree (l := l) ((hf.congr (documents_deleteVariables f n).2).congr
        (g := { f.deleteVariables n with documents := (f.deleteVariables n).documents.insert n t }) rfl) hl) hf1
      split at h
      · cases h; exact hk
      · split at h
        · cases h
        · cases h; exact hk
        · cases h; exact hk

theorem classed_inputEdits (n : Str) : ∀ (es : List (Str × InputEdit)) (f : LspFiles), Classed f →
    Classed (es.foldl (fun f (ch : Str × InputEdit) => f.inputEdit env n ch.1 ch.2 (fileExt n)) f)
  | [], f, hf => hf
  | e :: es, f, hf => by
    rw [List.foldl_cons]
    refine classed_inputEdits n es _ ?_
    unfold LspFiles.inputEdit
    cases hl : fileExt n with
    | none => exact hf
    | some l =>
      simp only
      split
      · exact hf
      · split <;> exact classed_setTree hf hl

theorem classed_didChange {f g : LspFiles} {n : Str} {cs : List TextChange} {k : Nat} {b : Bool} (hf : Classed f)
    (h : f.didChange env n cs k = .ok (g, b)) : Classed g := by
  unfold LspFiles.didChange at h
  split at h
  · cases h; exact hf
  · simp only at h
    split at h
    · cases h
    · split at h
      · cases h; exact hf.congr rfl
      · cases h; exact (classed_inputEdits n _ _ (hf.docs _)).congr rfl

theorem classed_readFile {f g : LspFiles} {path : Str} {l : LangType} (hw : KeepsClass w) (hf : Classed f)
    (hl : fileExt path = some l) (h : f.readFile env w path l = .ok g) : Classed g := by
  cases hc : w.canonicalize path with
  | error e => simp only [LspFiles.readFile, hc] at h; cases h; exact hf
  | ok name =>
    simp only [LspFiles.readFile, hc] at h
    split at h
    · cases h; exact hf
    · exact classed_addVariables (classed_addTree (hf.docs _) (hw path name l hc hl)) h

theorem classed_walkStart (c : JinjaConfig) : Classed (walkStart c) := by
  intro u l T hT
  unfold walkStart at hT
  simp only at hT
  split at hT <;> simp [LspFiles.default] at hT

theorem classed_handle {s s' : Server} {m : Msg} {out : List Send} {r : Reply} (hw : KeepsClass w) (hf : Classed s.files)
    (h : s.handle env w m = .ok (s', out, r)) : Classed s'.files := by
  have hs := handle_files h
  clear h
  cases hs with
  | query _ h | command _ h | config _ h | notInitialized h => rw [h]; exact hf
  | «initialize» _ _ h =>
    rcases h with h | h
    · rw [h]; exact hf
    · rw [h]; exact hf.congr rfl
  | codeActions m h =>
    have hfr := addCodeActions_frame w.order s.files m
    rw [h]
    exact hf.congr hfr.2.1
  | didOpen u t m h => exact classed_didOpen hf h
  | didSave u m h => exact hf.congr (documents_didSave h).2
  | didChange u cs b h => exact classed_didChange hf h
  | initialized f d h e =>
    rw [e]
    exact (walkdir_induct Classed (classed_walkStart _) (fun _ _ _ _ hf hl hg => classed_readFile hw hf hl hg) h).congr rfl

end

/-! ### Nothing depends on the reading of a tree with another text -/

/-- both give the same matches -/
def SameReading (env env' : Env) (T : Tree) (x : Str) : Prop := ∀ q, env'.queryMatches q T x = env.queryMatches q T x

/-- every tree that is held is read alike with the text that is held -/
def SameReadings (env env' : Env) (f : LspFiles) : Prop :=
  ∀ u l T t, (f.trees l).get? u = some T → f.documents.get? u = some t → SameReading env env' T t

section
variable {env env' : Env} {w : World}

theorem sameReadings_of (he : AlikeOnOwnText env env') {f : LspFiles} (ho : Classed f) (hf : Fresh f) : SameReadings env env' f := by
  intro u l T t hT ht q
  have hl := ho u l T hT
  obtain ⟨o, h⟩ := hf u l t hl ht
  rw [h] at hT
  cases hT
  exact he.reads q _ t o

theorem snippetsQuery_alike {T : Tree} {x : Str} (h : SameReading env env' T x) (p : Point) (a : Bool) :
    snippetsQuery env' T p x a = snippetsQuery env T p x a := by
  simp only [snippetsQuery, h _]

theorem templatesQuery_alike {T : Tree} {x : Str} (h : SameReading env env' T x) (p : Point) (a : Bool) :
    templatesQuery env' T p x a = templatesQuery env T p x a := by
  simp only [templatesQuery, h _]

theorem backendDefinitionQuery_alike {T : Tree} {x : Str} (h : SameReading env env' T x) (g : Grammar) (p : Point) (a : Bool) :
    backendDefinitionQuery env' g T p x a = backendDefinitionQuery env g T p x a := by
  simp only [backendDefinitionQuery, h _]

theorem backendTemplatesQuery_alike {T : Tree} {x : Str} (h : SameReading env env' T x) (g : Grammar) (p : Point) (a : Bool) :
    backendTemplatesQuery env' g T p x a = backendTemplatesQuery env g T p x a := by
  simp only [backendTemplatesQuery, h _]

variable (he : AlikeOnOwnText env env')
include he

theorem objectsQuery_alike {T : Tree} {x : Str} (h : SameReading env env' T x) (p : Point) (a : Bool) :
    objectsQuery env' T p x a = objectsQuery env T p x a := by
  simp only [objectsQuery, h _, he.profile]

theorem definitionQuery_alike {T : Tree} {x : Str} (h : SameReading env env' T x) (p : Point) (a : Bool) :
    definitionQuery env' T p x a = definitionQuery env T p x a := by
  simp only [definitionQuery, h _, he.ends]

theorem addTree_alike (f : LspFiles) (n : Str) (l : LangType) (t : Str) : f.addTree env' n l t = f.addTree env n l t := by
  simp only [LspFiles.addTree, LspFiles.parse, he.parses]

theorem addVariables_alike {f : LspFiles} (n : Str) (l : LangType) (t : Str)
    (h : ∀ T, (f.trees l).get? n = some T → SameReading env env' T t) :
    f.addVariables env' n l t = f.addVariables env n l t := by
  unfold LspFiles.addVariables
  cases hT : (f.trees l).get? n with
  | none => rfl
  | some T =>
    have hs := h T hT
    cases l <;> simp only [LspFiles.backendVariables, backendDefinitionQuery_alike hs, backendTemplatesQuery_alike hs,
      snippetsQuery_alike hs, definitionQuery_alike he hs]

theorem searchErrors_alike {T : Tree} {x : Str} (h : SameReading env env' T x) (v : Variables) (n : Str) (d : Str) (l : LangType)
    (b : Bool) : searchErrors env' w T x v n d l b = searchErrors env w T x v n d l b := by
  unfold searchErrors
  simp only [objectsQuery_alike he h, templatesQuery_alike h]

theorem readTree_alike {f : LspFiles} (h : SameReadings env env' f) (n : Str) :
    f.readTree env' w n = f.readTree env w n := by
  unfold LspFiles.readTree
  split
  · rfl
  · split
    · rfl
    · rename_i t ht l hl
      cases hT : (f.trees l).get? n with
      | none => rfl
      | some T => simp only [searchErrors_alike he (h n l T _ hT ‹_›)]

theorem readTrees_alike {f : LspFiles} (h : SameReadings env env' f) : f.readTrees env' w = f.readTrees env w := by
  unfold LspFiles.readTrees
  have : ∀ (ns : List Str) (m : HMap Str Diags), f.readTreesLoop env' w ns m = f.readTreesLoop env w ns m := by
    intro ns
    induction ns with
    | nil => intro m; rfl
    | cons n ns ih => intro m; simp only [LspFiles.readTreesLoop, readTree_alike he h, ih]
  rw [this]

/-- what was just parsed is read alike -/
theorem parsed_alike (hp : ∀ g t o, env.parseFails g t o = false) (f : LspFiles) (n : Str) (l : LangType) (t : Str) (T : Tree)
    (hT : ((f.addTree env n l t).trees l).get? n = some T) : SameReading env env' T t := by
  obtain ⟨o, h⟩ := treeOf_addTree hp f n l t
  rw [h] at hT
  cases hT
  exact fun q => he.reads q _ t o

theorem readFile_alike (hp : ∀ g t o, env.parseFails g t o = false) (f : LspFiles) (path : Str) (l : LangType) :
    f.readFile env' w path l = f.readFile env w path l := by
  unfold LspFiles.readFile
  cases hc : w.canonicalize path with
  | error e => rfl
  | ok name =>
    simp only
    cases hr : w.readFile name with
    | none => rfl
    | some content =>
      simp only [addTree_alike he]
      exact addVariables_alike he _ _ _ (parsed_alike he hp _ _ _ _)

theorem walkItems_alike (hp : ∀ g t o, env.parseFails g t o = false) : ∀ (is : List WalkItem) (f : LspFiles),
    walkItems env' w f is = walkItems env w f is
  | [], f => rfl
  | .err :: is, f => rfl
  | .nonFile _ :: is, f => by simp only [walkItems]; exact walkItems_alike hp is f
  | .file path :: is, f => by
    simp only [walkItems]
    cases hl : fileExt path with
    | none => exact walkItems_alike hp is f
    | some l =>
      simp only [readFile_alike he hp]
      cases hr : f.readFile env w path l with
      | error e => rfl
      | ok g => exact walkItems_alike hp is g

theorem walkDirs_alike (hp : ∀ g t o, env.parseFails g t o = false) : ∀ (ds : List Str) (f : LspFiles),
    walkDirs env' w f ds = walkDirs env w f ds
  | [], f => rfl
  | d :: ds, f => by
    simp only [walkDirs, walkItems_alike he hp]
    cases hi : walkItems env w f (w.walk d) with
    | error e => rfl
    | ok o =>
      cases o with
      | none => rfl
      | some g => exact walkDirs_alike hp ds g

theorem walkdir_alike (hp : ∀ g t o, env.parseFails g t o = false) (hw : KeepsClass w) (c : JinjaConfig) :
    walkdir env' w c = walkdir env w c := by
  unfold walkdir
  rw [walkDirs_alike he hp]
  cases hd : walkDirs env w (walkStart c) (c.templates :: c.backend) with
  | error e => rfl
  | ok o =>
    cases o with
    | none => rfl
    | some g =>
      have h1 := walkDirs_induct Classed (fun _ _ _ _ hf hl hg => classed_readFile hw hf hl hg) _ _ g (classed_walkStart c) hd
      have h2 := walkDirs_induct Fresh (fun _ _ _ _ hf hl hg => fresh_readFile hp hw hf hl hg) _ _ g (by
        intro u l t _ ht
        unfold walkStart at ht
        simp only at ht
        split at ht <;> simp [LspFiles.default] at ht) hd
      simp only [readTrees_alike he (sameReadings_of he h1 h2)]

theorem didSave_alike {f : LspFiles} (h : SameReadings env env' f) (n : Str) :
    f.didSave env' w n = f.didSave env w n := by
  unfold LspFiles.didSave
  split
  · rfl
  · rename_i l hl
    split
    · rfl
    · rename_i t ht
      have hd := documents_deleteVariables f n
      have h1 : ∀ T, ((f.deleteVariables n).trees l).get? n = some T → SameReading env env' T t := by
        intro T hT
        rw [hd.2] at hT
        exact h n l T t hT ht
      simp only [addVariables_alike he n l t h1]
      cases ha : (f.deleteVariables n).addVariables env n l t with
      | error e => rfl
      | ok g =>
        have h2 : SameReadings env env' g := by
          intro u l' T t' hT ht'
          rw [(documents_addVariables ha).2, hd.2] at hT
          rw [(documents_addVariables ha).1, hd.1] at ht'
          exact h u l' T t' hT ht'
        simp only [readTree_alike he h2]

theorem didOpen_alike (hp : ∀ g t o, env.parseFails g t o = false) {f : LspFiles} (ho : Classed f) (hf : Fresh f)
    (n t : Str) (ig : Bool) : f.didOpen env' w n t ig = f.didOpen env w n t ig := by
  unfold LspFiles.didOpen
  split
  · rfl
  · rename_i l hl
    simp only [addTree_alike he, addVariables_alike he n l t (parsed_alike he hp _ _ _ _)]
    cases ha : LspFiles.addVariables env (LspFiles.addTree env
        { f.deleteVariables n with documents := (f.deleteVariables n).documents.insert n t } n l t) n l t with
    | error e => rfl
    | ok g =>
      have hk : f.didOpen env w n t true = .ok (g, some HMap.empty) := by
        unfold LspFiles.didOpen
        simp only [hl, ha, if_true]
      simp only [readTree_alike he (sameReadings_of he (classed_didOpen ho hk) (fresh_didOpen hp hf hk))]

theorem inputEdits_alike (n : Str) (l : Option LangType) : ∀ (es : List (Str × InputEdit)) (f : LspFiles),
    es.foldl (fun f (ch : Str × InputEdit) => f.inputEdit env' n ch.1 ch.2 l) f =
      es.foldl (fun f (ch : Str × InputEdit) => f.inputEdit env n ch.1 ch.2 l) f
  | [], f => rfl
  | e :: es, f => by
    have : f.inputEdit env' n e.1 e.2 l = f.inputEdit env n e.1 e.2 l := by
      simp only [LspFiles.inputEdit, LspFiles.parse, he.parses]
    simp only [List.foldl_cons, this, inputEdits_alike n l es]

theorem didChange_alike (f : LspFiles) (n : Str) (cs : List TextChange) (k : Nat) :
    f.didChange env' n cs k = f.didChange env n cs k := by
  unfold LspFiles.didChange
  simp only [he.profile, inputEdits_alike he]

theorem completion_alike {f : LspFiles} (h : SameReadings env env' f) (u : Str) (p : Position) (tr : TriggerKind) :
    f.completion env' u p tr = f.completion env u p tr := by
  unfold LspFiles.completion
  split
  · rfl
  · simp only
    split
    · rfl
    · rename_i l hl
      split
      · rename_i T x hT hx
        have hs := h _ _ _ _ hT hx
        simp only [snippetsQuery_alike hs, objectsQuery_alike he hs, templatesQuery_alike hs, backendTemplatesQuery_alike hs,
          he.profile]
      · rfl

theorem hover_alike {f : LspFiles} (h : SameReadings env env' f) (u : Str) (p : Position) :
    f.hover env' u p = f.hover env u p := by
  unfold LspFiles.hover
  split
  · rfl
  · simp only
    split
    · rename_i T x hT hx
      simp only [objectsQuery_alike he (h _ _ _ _ hT hx)]
    · rfl

theorem collectLocations_alike (file : Str) : ∀ (vs : List Identifier),
    LspFiles.collectLocations env' file vs = LspFiles.collectLocations env file vs
  | [] => rfl
  | v :: vs => by
    have hv : LspFiles.variableLocation env' file v = LspFiles.variableLocation env file v := by
      simp only [LspFiles.variableLocation, he.urls]
    simp only [LspFiles.collectLocations, hv, collectLocations_alike file vs]

theorem collectFiles_alike (u i : Str) : ∀ (fs : List (Str × List Identifier)),
    LspFiles.collectFiles env' u i fs = LspFiles.collectFiles env u i fs
  | [] => rfl
  | f :: fs => by simp only [LspFiles.collectFiles, collectLocations_alike he, collectFiles_alike u i fs]

theorem gotoDefinition_alike {f : LspFiles} (h : SameReadings env env' f) (u : Str) (p : Position) :
    f.gotoDefinition env' w u p = f.gotoDefinition env w u p := by
  have ht : ∀ n, f.templateLocation env' w n = f.templateLocation env w n := by
    intro n; simp only [LspFiles.templateLocation, he.urls]
  unfold LspFiles.gotoDefinition
  split
  · rfl
  · simp only
    split
    · rename_i T x hT hx
      have hs := h _ _ _ _ hT hx
      simp only [objectsQuery_alike he hs, templatesQuery_alike hs, backendTemplatesQuery_alike hs, collectFiles_alike he, ht]
    · rfl

theorem codeAction_alike {f : LspFiles} (h : SameReadings env env' f) (u : Str) (p : Position) :
    f.codeAction env' u p = f.codeAction env u p := by
  unfold LspFiles.codeAction
  split
  · rfl
  · rename_i l hl
    simp only
    split
    · rename_i T x hT hx
      cases l with
      | backend => rfl
      | template =>
        simp only
        cases ht : f.documents.get? u with
        | none => rfl
        | some t => simp only [objectsQuery_alike he (h _ _ _ _ hT ht)]
    · rfl

theorem processCodeActions_alike (f : LspFiles) (a : JinjaCodeAction) :
    f.processCodeActions env' w a = f.processCodeActions env w a := by
  cases a <;> simp only [LspFiles.processCodeActions, he.urls]

theorem searchConfigIn_alike : ∀ (fs : List Str), searchConfigIn env' w fs = searchConfigIn env w fs
  | [] => rfl
  | f :: fs => by simp only [searchConfigIn, he.toml, searchConfigIn_alike fs]

theorem handle_alike (hp : ∀ g t o, env.parseFails g t o = false) (hw : KeepsClass w) {s : Server} (ho : Classed s.files)
    (hf : Fresh s.files) (m : Msg) : s.handle env' w m = s.handle env w m := by
  have ha := sameReadings_of he ho hf
  cases m with
  | «initialize» c o => simp only [Server.handle, Server.onInitialize, searchConfig, searchConfigIn_alike he]
  | initialized => simp only [Server.handle, Server.onInitialized, walkdir_alike he hp hw]
  | didOpen u t => simp only [Server.handle, didOpen_alike he hp ho hf]
  | didSave u => simp only [Server.handle, didSave_alike he ha]
  | didChange u cs => simp only [Server.handle, Server.onDidChange, didChange_alike he]
  | completion u p t => simp only [Server.handle, Server.onCompletion, completion_alike he ha]
  | hover u p => simp only [Server.handle, Server.onHover, hover_alike he ha]
  | goto u p => simp only [Server.handle, gotoDefinition_alike he ha]
  | codeAction u p => simp only [Server.handle, Server.onCodeAction, codeAction_alike he ha, processCodeActions_alike he]
  | executeCommand c => rfl
  | documentSymbol u => rfl
  | didChangeConfiguration c => rfl
  | codeActions m => rfl

end

/-! ## C104 -/

theorem classed_run {env : Env} : ∀ (ms : List (World × Msg)) (s s' : Server), Classed s.files → (∀ m ∈ ms, KeepsClass m.1) →
    s.run env ms = .ok s' → Classed s'.files
  | [], s, s', hf, _, h => by simp only [Server.run] at h; cases h; exact hf
  | (w, m) :: ms, s, s', hf, hw, h => by
    simp only [Server.run] at h
    split at h
    · cases h
    · rename_i s1 out r h1
      exact classed_run ms s1 s' (classed_handle (hw (w, m) (by simp)) hf h1) (fun m hm => hw m (by simp [hm])) h

theorem classed_init : Classed Server.init.files := by
  intro u l T hT
  simp [Server.init, LspFiles.default] at hT

/-- **C104** In every history without range-less changes, a syntax tree is read only with the text it was made from: two
servers whose libraries differ only in what happens when a tree is read with another text go through the same states and give
the same answers; and each next message is processed alike. Missing for the full statement: range-less changes
(`C104_stale_refuted`), parser failures, links to files of another class. -/
theorem C104_own_text_partial (env env' : Env) (he : AlikeOnOwnText env env') (hp : ∀ g t o, env.parseFails g t o = false)
    (ms : List (World × Msg)) (hw : ∀ m ∈ ms, KeepsClass m.1)
    (hc : ∀ m ∈ ms, ∀ u cs, m.2 = .didChange u cs → ∀ c ∈ cs, c.range.isSome) :
    workerRun env' (some Server.init) ms = workerRun env (some Server.init) ms ∧
    ∀ s w m, Server.init.run env ms = .ok s → KeepsClass w → s.handle env' w m = s.handle env w m := by
  constructor
  · have key : ∀ (ms : List (World × Msg)) (s : Server), Classed s.files → Fresh s.files → (∀ m ∈ ms, KeepsClass m.1) →
        (∀ m ∈ ms, ∀ u cs, m.2 = .didChange u cs → ∀ c ∈ cs, c.range.isSome) →
        workerRun env' (some s) ms = workerRun env (some s) ms := by
      intro ms
      induction ms with
      | nil => intros; rfl
      | cons m ms ih =>
        intro s h1 h2 h3 h4
        simp only [workerRun, workerStep, handle_alike he hp (h3 m (by simp)) h1 h2]
        cases hh : s.handle env m.1 m.2 with
        | error e => simp only [workerRun_none env' env ms]
        | ok p =>
          obtain ⟨s1, out, r⟩ := p
          simp only
          rw [ih s1 (classed_handle (h3 m (by simp)) h1 hh)
            (C03_fresh_partial env hp [m] s s1 h2 (fun x hx => h3 x (by simp at hx; simp [hx]))
              (fun x hx => h4 x (by simp at hx; simp [hx])) (by simp only [Server.run, hh]))
            (fun x hx => h3 x (by simp [hx])) (fun x hx => h4 x (by simp [hx]))]
    exact key ms _ classed_init C03_start hw hc
  · intro s w m hr hk
    exact handle_alike he hp hk (classed_run ms _ s classed_init hw hr) (C03_fresh_partial env hp ms _ s C03_start hw hc hr) m

/-- **C104** The same for the whole process: whatever the interleaving of the tasks, what can happen with one kind of library
can happen with the other. Missing for the full statement: as above. -/
theorem C104_process_partial (W : World → Prop) (env env' : Env) (he : AlikeOnOwnText env env')
    (hp : ∀ g t o, env.parseFails g t o = false) (hW : ∀ w, W w → KeepsClass w) (cs : List Msg) (as : List (HMap Str Diags))
    (σ : Sys) (hc : ∀ u chs, .didChange u chs ∈ cs → ∀ c ∈ chs, c.range.isSome) (h : Execution W env cs as σ) :
    Execution W env' cs as σ := by
  have hd : ∀ o m, diagProcess env' o m = diagProcess env o m := by
    intro o m
    have : ∀ es ca, diagLoop env' es ca = diagLoop env es ca := by
      intro es
      induction es with
      | nil => intro ca; rfl
      | cons e es ih => intro ca; simp only [diagLoop, he.urls, ih]
    simp only [diagProcess, this]
  have hb : ∀ es, diagBefore env' es = diagBefore env es := by
    intro es
    induction es with
    | nil => rfl
    | cons e es ih => simp only [diagBefore, he.urls, ih]
  have state : ∀ {cs as} {σ : Sys} {s : Server}, (∀ u chs, .didChange u chs ∈ cs → ∀ c ∈ chs, c.range.isSome) →
      Execution W env cs as σ → σ.worker = some s → Classed s.files ∧ Fresh s.files := by
    intro cs as σ s hc h hw
    obtain ⟨ms, s₀, is, hr, hs, hm, hi, hWs⟩ := C66_sequential W env cs as σ s h hw
    have hk : ∀ m ∈ ms, KeepsClass m.1 := fun m hm => hW _ (hWs m hm)
    rw [hs.files]
    refine ⟨classed_run ms _ s₀ classed_init hk hr, C03_fresh_partial env hp ms _ s₀ C03_start hk ?_ hr⟩
    intro m hm' u chs e
    have : Msg.didChange u chs ∈ ms.map Prod.snd ++ σ.lspQ := by
      rw [← e]; exact List.mem_append.mpr (Or.inl (List.mem_map.mpr ⟨m, hm', rfl⟩))
    rcases hm.mem _ this with hx | hx
    · exact hc u chs hx
    · rcases hi _ hx with hx | ⟨v, hx⟩ | ⟨ca, hx⟩ <;> cases hx
  induction h with
  | start => exact .start
  | client h m hm hw hl ih => exact .client (ih (fun u chs hx => hc u chs (by simp [hx]))) m hm hw hl
  | delayed h hs hw ht hτ ih => exact .delayed (ih hc) hs hw ht hτ
  | task h hs ih =>
    refine .task (ih hc) ?_
    cases hs with
    | workerRecv w hw ho hq hh hW' =>
      obtain ⟨h1, h2⟩ := state hc h hw
      exact .workerRecv w hw ho hq (by rw [handle_alike he hp (hW w hW') h1 h2]; exact hh) hW'
    | workerPanic w hw ho hq hh hW' =>
      obtain ⟨h1, h2⟩ := state hc h hw
      exact .workerPanic w hw ho hq (by rw [handle_alike he hp (hW w hW') h1 h2]; exact hh) hW'
    | workerSendDiag hw ho ha hc => exact .workerSendDiag hw ho ha hc
    | workerSendDiagDead hw ho ha => exact .workerSendDiagDead hw ho ha
    | workerSendSelf hw ho hc => exact .workerSendSelf hw ho hc
    | diagRecv o ha hd' hq hp' => exact .diagRecv o ha hd' hq (by rw [hd]; exact hp')
    | diagPanic o ha hd' hq hp' => rw [← hb]; exact .diagPanic o ha hd' hq (by rw [hd]; exact hp')
    | diagSend ha hd' hw hc => exact .diagSend ha hd' hw hc
    | diagSendDead ha hd' hw => exact .diagSendDead ha hd' hw
    | diagStop ha hd' hq hw => exact .diagStop ha hd' hq hw

/-- the same libraries, except that reading a tree with another text than its own finds a keyword outside the text -/
def Spec.unreadable (env : Env) : Env :=
  { env with queryMatches := fun q T x =>
      match T with
      | .parsed _ t _ =>
        if x = t then env.queryMatches q T x
        else if q = .jinjaDefinitions then [[⟨.definition, 1, ⟨0, 0⟩, ⟨0, 1⟩, none, (⟨0, 0⟩, ⟨0, 0⟩), (⟨0, 0⟩, ⟨0, 0⟩), none⟩]]
        else []
      | .edited _ _ => env.queryMatches q T x }

theorem unreadable_alike (env : Env) : AlikeOnOwnText env (unreadable env) :=
  ⟨rfl, rfl, rfl, rfl, rfl, fun q g t o => by simp [unreadable]⟩

/-- **C104** With a range-less change after another change the statement is false: the next save reads the tree of the old text
with the new one, and if a node of the old tree is then not readable, the worker ends. -/
theorem C104_stale_refuted (env : Env) (w : World) (s : Server) (uri t t1 text : Str) (es rest : List TextChange)
    (ies : List (Str × InputEdit)) (hl : fileExt uri = some .template) (ht : s.files.documents.get? uri = some t)
    (happ : LspFiles.applyChanges env.profile t es = .ok (t1, ies, true)) (hne : t1 ≠ t)
    (htree : TreeOf s.files uri .template t) :
    AlikeOnOwnText env (unreadable env) ∧
    ∃ s', s.handle (unreadable env) w (.didChange uri (es ++ ⟨none, text⟩ :: rest)) = .ok (s', [], .none) ∧
      ∀ w', s'.handle (unreadable env) w' (.didSave uri) = .error .unwrap := by
  refine ⟨unreadable_alike env, { s with files := { s.files with documents := s.files.documents.insert uri t1 } }, ?_, ?_⟩
  · have hprof : (unreadable env).profile = env.profile := rfl
    simp [Server.handle, Server.onDidChange, LspFiles.didChange, ht, hprof, applyChanges_stop env.profile es t t1 ies text rest happ]
  · intro w'
    obtain ⟨o, ho⟩ := htree
    have hdel := documents_deleteVariables { s.files with documents := s.files.documents.insert uri t1 } uri
    have hv : LspFiles.addVariables (unreadable env)
        (LspFiles.deleteVariables { s.files with documents := s.files.documents.insert uri t1 } uri) uri .template t1 =
        .error .unwrap := by
      unfold LspFiles.addVariables
      rw [hdel.2]
      simp only [ho]
      simp [snippetsQuery, definitionQuery, unreadable, hne, selectCaptures, Snippets.run, Snippets.default, JinjaDefinitions.run,
        JinjaDefinitions.check, JinjaDefinitions.default]
    simp only [Server.handle, LspFiles.didSave, hl, HMap.get?_insert_self, hv]

/-- two kinds of library that are alike on own texts but not on others, and a session as in `C104_own_text_partial` -/
example : AlikeOnOwnText Fix.env (unreadable Fix.env) ∧
    (unreadable Fix.env).queryMatches .jinjaDefinitions (.parsed .jinja c!"a" none) c!"" ≠
      Fix.env.queryMatches .jinjaDefinitions (.parsed .jinja c!"a" none) c!"" ∧
    ∃ s, Server.init.run Fix.env [(Fix.diskWorld, .didOpen Fix.uriA c!"aaa"),
      (Fix.diskWorld, .didChange Fix.uriA [⟨some ⟨⟨0, 0⟩, ⟨0, 1⟩⟩, c!"x"⟩]), (Fix.diskWorld, .didSave Fix.uriA)] = .ok s ∧
      s.files.documents.get? Fix.uriA = some c!"xaa" := by
  refine ⟨unreadable_alike _, ?_, _, rfl, by decide⟩
  decide

/-- a document is changed and, in the same notification, replaced without a range: the next save ends the worker -/
example : fileExt Fix.uriA = some .template ∧ Fix.server.files.documents.get? Fix.uriA = some c!"aaa" ∧
    (∃ ies, LspFiles.applyChanges Fix.env.profile c!"aaa" [⟨some ⟨⟨0, 0⟩, ⟨0, 3⟩⟩, c!""⟩] = .ok (c!"", ies, true)) ∧
    TreeOf Fix.server.files Fix.uriA .template c!"aaa" :=
  ⟨by decide, rfl, ⟨_, rfl⟩, ⟨none, rfl⟩⟩

end JinjaLsp

namespace JinjaLsp.Node
open JinjaLsp Spec NodeFiles

section
variable {env env' : Env} {w : World}

theorem classed_step {n n' : NodeFiles} {c : Call} (hc : Classed n.files) (h : c.step env w n = .ok n') : Classed n'.files := by
  cases c with
  | addLinkHints u as => cases h; cases as <;> exact hc
  | saveLinkHint as hint =>
    cases h
    cases as
    · exact hc
    · exact hc.congr rfl
  | removeTempLinkHint hint => cases h; exact hc.congr rfl
  | deleteAll f =>
    cases h
    intro u l T hT
    obtain ⟨_, h2, _, h4, h5, _⟩ := C60_delete_partial w.order n f u
    cases l with
    | backend => rw [h5] at hT; exact hc u _ T hT
    | template =>
      by_cases hu : ∃ a b, u = a ++ f ++ b
      · by_cases hd : n.files.documents.get? u = none
        · rw [(h4 (Or.inr hd)).1] at hT; exact hc u _ T hT
        · rw [(h2 hu hd).1] at hT; cases hT
      · rw [(h4 (Or.inl hu)).1] at hT; exact hc u _ T hT
  | addOne id f ct l e col =>
    simp only [Call.step, Except.map] at h
    split at h
    · cases h
    · rename_i r hr
      cases h
      obtain ⟨u, m, hu, ho, _⟩ := addOne_files (n1 := r.1) (links := r.2) hr
      exact classed_didOpen hc ho

theorem fresh_step (hp : ∀ g t o, env.parseFails g t o = false) {n n' : NodeFiles} {c : Call} (hf : Fresh n.files)
    (h : c.step env w n = .ok n') : Fresh n'.files := by
  cases c with
  | addLinkHints u as => cases h; cases as <;> exact hf
  | saveLinkHint as hint =>
    cases h
    cases as
    · exact hf
    · exact hf
  | removeTempLinkHint hint => cases h; exact hf
  | deleteAll f =>
    cases h
    intro u l t hl ht
    obtain ⟨h1, _, h3, h4, h5, _⟩ := C60_delete_partial w.order n f u
    have hu : ¬ ∃ a b, u = a ++ f ++ b := by
      intro hu
      rw [h1 hu] at ht; cases ht
    rw [h3 hu] at ht
    obtain ⟨o, ho⟩ := hf u l t hl ht
    refine ⟨o, ?_⟩
    cases l with
    | backend =>
      rw [h5, ho]
      have : ∀ (ks : List Str) (g : LspFiles), (ks.foldl LspFiles.removeDocument g).parserBackend = g.parserBackend := by
        intro ks
        induction ks with
        | nil => intro g; rfl
        | cons k ks ih => intro g; rw [List.foldl_cons, ih]; rfl
      simp only [LspFiles.grammar, deleteAll, LspFiles.deleteDocumentsWithId, this]
    | template => rw [(h4 (Or.inl hu)).1, ho]; rfl
  | addOne id f ct l e col =>
    simp only [Call.step, Except.map] at h
    split at h
    · cases h
    · rename_i r hr
      cases h
      obtain ⟨u, m, hu, ho, _⟩ := addOne_files (n1 := r.1) (links := r.2) hr
      exact fresh_didOpen hp hf ho

variable (he : AlikeOnOwnText env env')
include he

theorem docUri_alike (f : Str) (id : Nat) (e : Str) : docUri env' f id e = docUri env f id e := by
  simp only [docUri, he.urls]

theorem addOne_alike (hp : ∀ g t o, env.parseFails g t o = false) {n : NodeFiles} (hc : Classed n.files) (hf : Fresh n.files)
    (id : Nat) (f ct : Str) (l : Nat) (e : Str) (col : Option Nat) :
    n.addOne env' w id f ct l e col = n.addOne env w id f ct l e col := by
  unfold addOne
  simp only [docUri_alike he]
  cases hu : docUri env f id e with
  | error e => rfl
  | ok uri =>
    simp only [didOpen_alike he hp hc hf]
    cases ho : n.files.didOpen env w uri (List.replicate (col.getD 0) ' ' ++ ct) true with
    | error e => rfl
    | ok p =>
      obtain ⟨g, m⟩ := p
      have hs := sameReadings_of he (classed_didOpen hc ho) (fresh_didOpen hp hf ho)
      have h1 : g.readObjects env' uri = g.readObjects env uri := by
        unfold LspFiles.readObjects
        split
        · rename_i t l ht hl
          split
          · rfl
          · rename_i T hT
            simp only [objectsQuery_alike he (hs _ _ _ _ hT ht)]
        · rfl
      have h2 : g.readPythonIds env' w uri = g.readPythonIds env w uri := by
        unfold LspFiles.readPythonIds
        split
        · rename_i t l ht hl
          split
          · rfl
          · rename_i T hT
            simp only [pythonIdentifiers, hs _ _ _ _ hT ht _]
        · rfl
      simp only [h1, h2, he.profile]

theorem step_alike (hp : ∀ g t o, env.parseFails g t o = false) {n : NodeFiles} (hc : Classed n.files) (hf : Fresh n.files)
    (c : Call) : c.step env' w n = c.step env w n := by
  cases c with
  | addOne id f ct l e col => simp only [Call.step, addOne_alike he hp hc hf]
  | _ => rfl

theorem hover_alike {n : NodeFiles} (hs : SameReadings env env' n.files) (id : Nat) (f : Str) (l : Nat) (p : Position) :
    n.hover env' w id f l p = n.hover env w id f l p := by
  unfold NodeFiles.hover
  simp only [docUri_alike he, he.profile, JinjaLsp.hover_alike he hs]

theorem complete_alike {n : NodeFiles} (hs : SameReadings env env' n.files) (id : Nat) (f : Str) (l : Nat) (p : Position) :
    n.complete env' w id f l p = n.complete env w id f l p := by
  unfold NodeFiles.complete
  simp only [docUri_alike he, he.profile, completion_alike he hs]

theorem shiftLocations_alike (l : Nat) : ∀ (ls : List Location), shiftLocations env' l ls = shiftLocations env l ls
  | [] => rfl
  | x :: ls => by simp only [shiftLocations, he.urls, he.profile, shiftLocations_alike l ls]

theorem goto_alike {n : NodeFiles} (hs : SameReadings env env' n.files) (id : Nat) (f : Str) (l : Nat) (p : Position) :
    n.gotoDefinition env' w id f l p = n.gotoDefinition env w id f l p := by
  unfold NodeFiles.gotoDefinition
  simp only [docUri_alike he, he.profile, he.urls, gotoDefinition_alike he hs, shiftLocations_alike he]

end

theorem run_state {env : Env} {w : World} (hp : ∀ g t o, env.parseFails g t o = false) : ∀ (cs : List Call) {n n' : NodeFiles},
    Classed n.files → Fresh n.files → Call.run env w n cs = .ok n' → Classed n'.files ∧ Fresh n'.files
  | [], n, n', h1, h2, h => by cases h; exact ⟨h1, h2⟩
  | c :: cs, n, n', h1, h2, h => by
    unfold Call.run at h
    split at h
    · cases h
    · rename_i n1 hs
      exact run_state hp cs (classed_step h1 hs) (fresh_step hp h2 hs) h

/-- **C104** For the Node API the statement holds for every sequence of calls: nothing it does or answers depends on what
happens when a tree is read with another text than its own. -/
theorem C104_node (env env' : Env) (he : AlikeOnOwnText env env') (hp : ∀ g t o, env.parseFails g t o = false) (w : World)
    (cs : List Call) :
    Call.run env' w NodeFiles.new cs = Call.run env w NodeFiles.new cs ∧
    ∀ n, Call.run env w NodeFiles.new cs = .ok n →
      (∀ id f ct l e col, n.addOne env' w id f ct l e col = n.addOne env w id f ct l e col) ∧
      (∀ id f l p, n.hover env' w id f l p = n.hover env w id f l p) ∧
      (∀ id f l p, n.complete env' w id f l p = n.complete env w id f l p) ∧
      (∀ id f l p, n.gotoDefinition env' w id f l p = n.gotoDefinition env w id f l p) ∧
      (∀ id l, n.getVariables env' id l = n.getVariables env id l) := by
  have c0 : Classed NodeFiles.new.files := by
    intro u l T hT
    simp [NodeFiles.new, LspFiles.default] at hT
  have f0 : Fresh NodeFiles.new.files := by
    intro u l t _ ht
    simp [NodeFiles.new, LspFiles.default] at ht
  constructor
  · have key : ∀ (cs : List Call) (n : NodeFiles), Classed n.files → Fresh n.files → Call.run env' w n cs = Call.run env w n cs := by
      intro cs
      induction cs with
      | nil => intros; rfl
      | cons c cs ih =>
        intro n h1 h2
        simp only [Call.run, step_alike he hp h1 h2]
        cases hs : c.step env w n with
        | error e => rfl
        | ok n1 => exact ih n1 (classed_step h1 hs) (fresh_step hp h2 hs)
    exact key cs _ c0 f0
  · intro n hn
    obtain ⟨h1, h2⟩ := run_state hp cs c0 f0 hn
    have hs := sameReadings_of he h1 h2
    exact ⟨addOne_alike he hp h1 h2, hover_alike he hs, complete_alike he hs, goto_alike he hs,
      fun id l => by simp only [getVariables, he.profile]⟩

/-- calls of which one adds a template and one deletes it -/
example : ∃ n, Call.run Fix.env Fix.world NodeFiles.new [.addOne 1 c!"x.html" c!"{{ x }}" 0 c!"jinja" none,
    .addOne 2 c!"y.html" c!"{{ y }}" 0 c!"jinja" none, .deleteAll c!"x.html"] = .ok n ∧ n.files.documents.get? c!"file:///home/y.html.2.jinja" = some c!"{{ y }}" := ⟨_, rfl, by decide⟩

end JinjaLsp.Node
