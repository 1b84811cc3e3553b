import Verif.Props.Stale
import Verif.Props.Honest
import Verif.Props.Order
/-
  C89: what is answered and reported follows from the texts, not from the history that led to them.
-/

namespace JinjaLsp
open Spec

namespace Spec

/-- Incremental parsing keeps its promise: whatever tree is handed over, the tree that is made cannot be told from the one made without. -/
def Stateless (env : Env) : Prop :=
  ∀ g t o, env.rootEnd (.parsed g t o) = env.rootEnd (.parsed g t none) ∧
    ∀ q x, env.queryMatches q (.parsed g t o) x = env.queryMatches q (.parsed g t none) x

/-- every change of the document is followed by a save or an opening of it -/
def Saved (u : Str) (ms : List Msg) : Prop :=
  ∀ a b cs, ms = a ++ .didChange u cs :: b → .didSave u ∈ b ∨ ∃ t, .didOpen u t ∈ b

/-- changes come with ranges, as the client was told -/
def Ranged (m : Msg) : Prop := ∀ u cs, m = .didChange u cs → ∀ c ∈ cs, c.range.isSome

end Spec

section
variable {env : Env} {w : World}

/-! ### What is recorded for a document -/

/-- the definitions recorded for a document are those of the tree -/
def Records (env : Env) (f : LspFiles) (u : Str) (T : Tree) (t : Str) : LangType → Prop
  | .backend => f.variables.get? u = some (f.backendVariables env T t)
  | .template => (snippetsQuery env T Point.zero t true).isError = true ∨
      ∃ d, definitionQuery env T Point.zero t true = .ok d ∧ f.variables.get? u = some d.identifiers

structure Kept (env : Env) (f : LspFiles) (u : Str) (a : Prop) : Prop where
  tree : ∀ l T, (f.trees l).get? u = some T → fileExt u = some l ∧ f.documents.get? u ≠ none
  fresh : ∀ l t, fileExt u = some l → f.documents.get? u = some t → TreeOf f u l t
  vars : f.variables.get? u ≠ none → fileExt u ≠ none ∧ f.documents.get? u ≠ none
  analysed : a → ∀ l t T, fileExt u = some l → f.documents.get? u = some t → (f.trees l).get? u = some T → Records env f u T t l

theorem Records.congr {f g : LspFiles} {u : Str} {T : Tree} {t : Str} {l : LangType} (h : Records env f u T t l)
    (hv : g.variables.get? u = f.variables.get? u) (hq : g.queriesBackend = f.queriesBackend) : Records env g u T t l := by
  cases l with
  | backend =>
    simp only [Records, LspFiles.backendVariables] at h ⊢
    rw [hv, hq]; exact h
  | template =>
    simp only [Records] at h ⊢
    rw [hv]; exact h

theorem Kept.congr {f g : LspFiles} {u : Str} {a : Prop} (h : Kept env f u a) (hs : SameDoc f g u) (hc : SameConf f g) : Kept env g u a where
  tree l T hT := by
    rw [hs.tree] at hT
    rw [hs.doc]
    exact h.tree l T hT
  fresh l t hl ht := by
    rw [hs.doc] at ht
    obtain ⟨o, ho⟩ := h.fresh l t hl ht
    exact ⟨o, by rw [hs.tree, ho, grammar_conf hc]⟩
  vars hv := by
    rw [hs.vars] at hv
    rw [hs.doc]
    exact h.vars hv
  analysed ha l t T hl ht hT := by
    rw [hs.doc] at ht
    rw [hs.tree] at hT
    exact (h.analysed ha l t T hl ht hT).congr hs.vars hc.qb

theorem Kept.weaken {f : LspFiles} {u : Str} {a b : Prop} (h : Kept env f u a) (hb : b → a) : Kept env f u b :=
  ⟨h.tree, h.fresh, h.vars, fun x => h.analysed (hb x)⟩

theorem addVariables_records {f g : LspFiles} {n t : Str} {l : LangType} {T : Tree} (h : f.addVariables env n l t = .ok g)
    (hT : (f.trees l).get? n = some T) : Records env g n T t l := by
  unfold LspFiles.addVariables at h
  rw [hT] at h
  simp only at h
  cases l with
  | backend =>
    cases h
    exact HMap.get?_insert_self ..
  | template =>
    simp only at h
    split at h
    · rename_i he
      exact Or.inl he
    · split at h
      · cases h
      · rename_i d hd
        cases h
        exact Or.inr ⟨d, hd, HMap.get?_insert_self ..⟩

theorem Kept.addVariables {f g : LspFiles} {n t : Str} {l : LangType} {a : Prop} (hk : Kept env f n a) (hl : fileExt n = some l)
    (ht : f.documents.get? n = some t) (h : f.addVariables env n l t = .ok g) : Kept env g n True := by
  have hd := documents_addVariables h
  have hc := (Frame.addVariables h).conf
  refine ⟨?_, ?_, ?_, ?_⟩
  · intro l T hT
    rw [hd.2] at hT
    rw [hd.1]
    exact hk.tree l T hT
  · intro l t hl ht
    rw [hd.1] at ht
    exact treeOf_congr (hk.fresh l t hl ht) hd.2 hc
  · intro _
    rw [hl, hd.1, ht]
    exact ⟨by simp, by simp⟩
  · intro _ l' t' T hl' ht' hT
    rw [hl] at hl'
    cases hl'
    rw [hd.1, ht] at ht'
    cases ht'
    rw [hd.2] at hT
    exact addVariables_records h hT

theorem Kept.deleteVariables {f : LspFiles} {n : Str} {a : Prop} (hk : Kept env f n a) : Kept env (f.deleteVariables n) n False := by
  have hd := documents_deleteVariables f n
  have hc := (Frame.deleteVariables f n).conf
  refine ⟨?_, ?_, ?_, fun h => h.elim⟩
  · intro l T hT
    rw [hd.2] at hT
    rw [hd.1]
    exact hk.tree l T hT
  · intro l t hl ht
    rw [hd.1] at ht
    exact treeOf_congr (hk.fresh l t hl ht) hd.2 hc
  · intro hv
    rw [hd.1]
    apply hk.vars
    intro hn
    apply hv
    unfold LspFiles.deleteVariables
    rw [hn]
    exact hn

/-- a text and its tree are replaced -/
theorem Kept.replace {f : LspFiles} {n t : Str} {l : LangType} {a : Prop} (hp : ∀ g t o, env.parseFails g t o = false) (hk : Kept env f n a)
    (hl : fileExt n = some l) : Kept env (LspFiles.addTree env { f with documents := f.documents.insert n t } n l t) n False := by
  have hd : (LspFiles.addTree env { f with documents := f.documents.insert n t } n l t).documents = f.documents.insert n t :=
    documents_addTree ..
  have htr := treeOf_addTree hp { f with documents := f.documents.insert n t } n l t
  refine ⟨?_, ?_, ?_, fun h => h.elim⟩
  · intro l' T hT
    rw [hd, HMap.get?_insert_self]
    refine ⟨?_, by simp⟩
    by_cases hll : l' = l
    · rw [hll]; exact hl
    · refine (hk.tree l' T ?_).1
      unfold LspFiles.addTree at hT
      split at hT
      · exact hT
      · simpa [LspFiles.setTree, hll] using hT
  · intro l' t' hl' ht'
    rw [hl] at hl'
    cases hl'
    rw [hd, HMap.get?_insert_self] at ht'
    cases ht'
    exact htr
  · intro _
    rw [hl, hd, HMap.get?_insert_self]
    exact ⟨by simp, by simp⟩

theorem kept_didSave {f g : LspFiles} {n : Str} {m : Option (HMap Str Diags)} (h : f.didSave env w n = .ok (g, m)) {a : Prop}
    (hk : Kept env f n a) : Kept env g n True := by
  unfold LspFiles.didSave at h
  split at h
  · rename_i hl
    cases h
    exact ⟨hk.tree, hk.fresh, hk.vars, fun _ l t T hl' => by rw [hl] at hl'; cases hl'⟩
  · rename_i l hl
    split at h
    · rename_i hd
      cases h
      exact ⟨hk.tree, hk.fresh, hk.vars, fun _ l t T _ ht => by rw [hd] at ht; cases ht⟩
    · rename_i t ht
      split at h
      · cases h
      · rename_i f1 h1
        have := hk.deleteVariables.addVariables hl (by rw [(documents_deleteVariables f n).1]; exact ht) h1
        split at h
        · cases h
        · cases h; exact this
        · cases h; exact this

theorem kept_didOpen (hp : ∀ g t o, env.parseFails g t o = false) {f g : LspFiles} {n t : Str} {ig : Bool} {m : Option (HMap Str Diags)}
    (h : f.didOpen env w n t ig = .ok (g, m)) {a : Prop} (hk : Kept env f n a) : Kept env g n True := by
  unfold LspFiles.didOpen at h
  split at h
  · rename_i hl
    cases h
    exact ⟨hk.tree, hk.fresh, hk.vars, fun _ l t T hl' => by rw [hl] at hl'; cases hl'⟩
  · rename_i l hl
    simp only at h
    split at h
    · cases h
    · rename_i f1 h1
      have := (hk.deleteVariables.replace (t := t) hp hl).addVariables hl (by rw [documents_addTree]; exact HMap.get?_insert_self ..) h1
      split at h
      · cases h; exact this
      · split at h
        · cases h
        · cases h; exact this
        · cases h; exact this

theorem kept_readFile (hp : ∀ g t o, env.parseFails g t o = false) {f g : LspFiles} {path name : Str} {l : LangType}
    (hc : w.canonicalize path = .ok name) (hl : fileExt (c!"file://" ++ name) = some l) (h : f.readFile env w path l = .ok g)
    (hk : Kept env f (c!"file://" ++ name) True) : Kept env g (c!"file://" ++ name) True := by
  simp only [LspFiles.readFile, hc] at h
  split at h
  · cases h; exact hk
  · rename_i t _
    exact (hk.replace (t := t) hp hl).addVariables hl (by rw [documents_addTree]; exact HMap.get?_insert_self ..) h

theorem kept_didChange (hp : ∀ g t o, env.parseFails g t o = false) {f g : LspFiles} {n : Str} {cs : List TextChange} {k : Nat} {b : Bool}
    (h : f.didChange env n cs k = .ok (g, b)) (hr : ∀ c ∈ cs, c.range.isSome) {a : Prop} (hk : Kept env f n a) : Kept env g n False := by
  unfold LspFiles.didChange at h
  split at h
  · cases h
    exact hk.weaken False.elim
  · rename_i rope hrope
    simp only at h
    split at h
    · cases h
    · rename_i t' es fin hap
      have hfin := applyChanges_ranged env.profile cs rope t' es fin hr hap
      subst hfin
      rw [if_neg (by simp)] at h
      cases h
      refine ⟨?_, ?_, ?_, fun h => h.elim⟩
      · intro l T hT
        simp only [documents_inputEdits, HMap.get?_insert_self]
        refine ⟨?_, by simp⟩
        cases hl : fileExt n with
        | none =>
          have hnone : ∀ (es : List (Str × InputEdit)) (f : LspFiles),
              es.foldl (fun f (ch : Str × InputEdit) => f.inputEdit env n ch.1 ch.2 none) f = f := by
            intro es
            induction es with
            | nil => intro f; rfl
            | cons e es ih => intro f; rw [List.foldl_cons, ih]; rfl
          simp only [hl, hnone] at hT
          rw [← hl]
          exact (hk.tree l T hT).1
        | some l0 =>
          by_cases hll : l = l0
          · rw [hll]
          · simp only [hl, trees_inputEdits_other n l0 l hll] at hT
            have := (hk.tree l T hT).1
            rw [hl] at this
            exact this
      · intro l t hl ht
        simp only [documents_inputEdits, HMap.get?_insert_self, Option.some.injEq] at ht
        subst ht
        rw [hl]
        have h0 : TreeOf { f with documents := f.documents.insert n t' } n l rope := hk.fresh l rope hl hrope
        have := treeOf_inputEdits hp n l es _ rope t' h0 (applyChanges_last env.profile cs rope t' es true hap)
        exact treeOf_congr this rfl (SameConf.mk rfl rfl rfl rfl rfl rfl)
      · intro hv
        simp only [variables_inputEdits] at hv
        simp only [documents_inputEdits, HMap.get?_insert_self]
        exact ⟨(hk.vars hv).1, by simp⟩

theorem kept_walkStart (c : JinjaConfig) (u : Str) : Kept env (walkStart c) u True := by
  have : (walkStart c).documents = HMap.empty ∧ (∀ l, (walkStart c).trees l = HMap.empty) ∧ (walkStart c).variables = HMap.empty := by
    unfold walkStart
    simp only
    split <;> exact ⟨rfl, fun _ => rfl, rfl⟩
  obtain ⟨h1, h2, h3⟩ := this
  refine ⟨?_, ?_, ?_, ?_⟩
  · intro l T hT
    rw [h2] at hT
    cases hT
  · intro l t _ ht
    rw [h1] at ht
    cases ht
  · intro hv
    rw [h3] at hv
    exact absurd rfl hv
  · intro _ l t T _ ht
    rw [h1] at ht
    cases ht

theorem kept_walkdir (hp : ∀ g t o, env.parseFails g t o = false) (hw : KeepsClass w) {c : JinjaConfig} {d : HMap Str Diags} {g : LspFiles}
    (h : walkdir env w c = .ok (some (d, g))) (u : Str) : Kept env g u True := by
  refine walkdir_induct (fun f => Kept env f u True) (kept_walkStart c u) ?_ h
  intro f path l g hf hl hg
  cases hc : w.canonicalize path with
  | error e => simp only [LspFiles.readFile, hc] at hg; cases hg; exact hf
  | ok name =>
    by_cases hu : u = c!"file://" ++ name
    · subst hu
      exact kept_readFile hp hc (hw path name l hc hl) hg hf
    · have hfr := Frame.readFile hg hc
      exact hf.congr (hfr.same u hu) hfr.conf

/-! ### Histories -/

/-- has the document been changed since it was last analysed? -/
def outdated (u : Str) : Prop → List Msg → Prop
  | p, [] => p
  | p, .didChange v _ :: ms => outdated u (p ∨ v = u) ms
  | p, .didSave v :: ms => outdated u (p ∧ v ≠ u) ms
  | p, .didOpen v _ :: ms => outdated u (p ∧ v ≠ u) ms
  | p, _ :: ms => outdated u p ms

theorem kept_run (hp : ∀ g t o, env.parseFails g t o = false) (u : Str) : ∀ (ms : List (World × Msg)) (s s' : Server) (p : Prop),
    Kept env s.files u (¬ p) → (∀ m ∈ ms, KeepsClass m.1 ∧ Ranged m.2) → s.run env ms = .ok s' →
    Kept env s'.files u (¬ outdated u p (ms.map Prod.snd))
  | [], s, s', p, hk, _, h => by
    cases h
    exact hk
  | (w, m) :: ms, s, s', p, hk, hm, h => by
    simp only [Server.run] at h
    split at h
    · cases h
    · rename_i s1 out r h1
      have rest := fun q (hq : Kept env s1.files u (¬ q)) => kept_run hp u ms s1 s' q hq (fun m hm' => hm m (by simp [hm'])) h
      obtain ⟨hw, hr⟩ := hm (w, m) (by simp)
      have hs := handle_files h1
      clear h1
      simp only [List.map_cons]
      cases hs with
      | query hq h =>
        have hk' : Kept env s1.files u (¬ p) := by rw [h]; exact hk
        cases m <;> first | exact hq.elim | exact rest p hk'
      | command _ h | config _ h | notInitialized h => exact rest p (by rw [h]; exact hk)
      | «initialize» _ _ h =>
        refine rest p ?_
        rcases h with h | h
        · rw [h]; exact hk
        · rw [h]; exact ⟨hk.tree, hk.fresh, hk.vars, hk.analysed⟩
      | codeActions m h =>
        refine rest p ?_
        rw [h]
        have hfr := addCodeActions_frame w.order s.files m
        refine ⟨?_, ?_, ?_, ?_⟩
        · intro l T hT
          rw [hfr.2.1] at hT
          rw [hfr.1]
          exact hk.tree l T hT
        · intro l t hl ht
          rw [hfr.1] at ht
          exact treeOf_congr (hk.fresh l t hl ht) hfr.2.1 hfr.2.2.2.1
        · intro hv
          rw [hfr.2.2.1] at hv
          rw [hfr.1]
          exact hk.vars hv
        · intro ha l t T hl ht hT
          rw [hfr.1] at ht
          rw [hfr.2.1] at hT
          exact (hk.analysed ha l t T hl ht hT).congr (by rw [hfr.2.2.1]) hfr.2.2.2.1.qb
      | didOpen v t m h =>
        refine rest (p ∧ v ≠ u) ?_
        by_cases hv : u = v
        · subst hv
          exact (kept_didOpen hp h hk).weaken fun _ => trivial
        · have hfr := Frame.didOpen h
          exact (hk.congr (hfr.same u hv) hfr.conf).weaken fun hn hp' => hn ⟨hp', fun e => hv e.symm⟩
      | didSave v m h =>
        refine rest (p ∧ v ≠ u) ?_
        by_cases hv : u = v
        · subst hv
          exact (kept_didSave h hk).weaken fun _ => trivial
        · have hfr := Frame.didSave h
          exact (hk.congr (hfr.same u hv) hfr.conf).weaken fun hn hp' => hn ⟨hp', fun e => hv e.symm⟩
      | didChange v cs b h =>
        refine rest (p ∨ v = u) ?_
        by_cases hv : u = v
        · subst hv
          exact (kept_didChange hp h (hr u cs rfl) hk).weaken fun hn => hn (Or.inr rfl)
        · have hfr := Frame.didChange h
          exact (hk.congr (hfr.same u hv) hfr.conf).weaken fun hn hp' => hn (Or.inl hp')
      | initialized f d h e =>
        refine rest p ?_
        rw [e]
        have := kept_walkdir hp hw h u
        exact ⟨this.tree, this.fresh, this.vars, fun _ => this.analysed trivial⟩

theorem outdated_saved (u : Str) : ∀ (ms : List Msg) (p : Prop), Saved u ms → (p → .didSave u ∈ ms ∨ ∃ t, .didOpen u t ∈ ms) → ¬ outdated u p ms
  | [], p, _, hp, ho => by
    rcases hp ho with h | ⟨_, h⟩ <;> cases h
  | m :: ms, p, hs, hp, ho => by
    have hs' : Saved u ms := fun a b cs e => hs (m :: a) b cs (by rw [e]; rfl)
    have tail : ∀ q : Prop, (q → p) → ((q → m ≠ .didSave u ∧ ∀ t, m ≠ .didOpen u t)) → (q → .didSave u ∈ ms ∨ ∃ t, .didOpen u t ∈ ms) := by
      intro q hq hm hq'
      rcases hp (hq hq') with h | ⟨t, h⟩
      · rcases List.mem_cons.mp h with e | h
        · exact absurd e.symm (hm hq').1
        · exact Or.inl h
      · rcases List.mem_cons.mp h with e | h
        · exact absurd e.symm ((hm hq').2 t)
        · exact Or.inr ⟨t, h⟩
    cases m with
    | didChange v cs =>
      refine outdated_saved u ms (p ∨ v = u) hs' ?_ ho
      rintro (h | h)
      · exact tail p id (fun _ => ⟨by simp, by simp⟩) h
      · subst h
        exact hs [] ms cs rfl
    | didSave v =>
      exact outdated_saved u ms (p ∧ v ≠ u) hs' (tail _ And.left fun h => ⟨fun e => h.2 (by injection e), by simp⟩) ho
    | didOpen v t =>
      exact outdated_saved u ms (p ∧ v ≠ u) hs' (tail _ And.left fun h => ⟨by simp, fun t e => h.2 (by injection e)⟩) ho
    | _ => exact outdated_saved u ms p hs' (tail p id fun _ => ⟨by simp, by simp⟩) ho

/-! ### States that hold the same -/

/-- trees that cannot be told apart -/
def Twins (env : Env) (T T' : Tree) : Prop := env.rootEnd T' = env.rootEnd T ∧ ∀ q x, env.queryMatches q T' x = env.queryMatches q T x

/-- workspaces that hold the same texts, trees and definitions and have the same settings -/
structure Alike (env : Env) (f g : LspFiles) : Prop where
  doc : ∀ u, g.documents.get? u = f.documents.get? u
  tree : ∀ l u, match (f.trees l).get? u, (g.trees l).get? u with
    | none, none => True
    | some T, some T' => Twins env T T'
    | _, _ => False
  vars : ∀ u, g.variables.get? u = f.variables.get? u
  conf : SameConf f g

theorem Twins.snippets {T T' : Tree} (h : Twins env T T') (p : Point) (x : Str) (a : Bool) :
    snippetsQuery env T' p x a = snippetsQuery env T p x a := by
  simp only [snippetsQuery, h.2]

theorem Twins.objects {T T' : Tree} (h : Twins env T T') (p : Point) (x : Str) (a : Bool) :
    objectsQuery env T' p x a = objectsQuery env T p x a := by
  simp only [objectsQuery, h.2]

theorem Twins.templates {T T' : Tree} (h : Twins env T T') (p : Point) (x : Str) (a : Bool) :
    templatesQuery env T' p x a = templatesQuery env T p x a := by
  simp only [templatesQuery, h.2]

theorem Twins.definitions {T T' : Tree} (h : Twins env T T') (p : Point) (x : Str) (a : Bool) :
    definitionQuery env T' p x a = definitionQuery env T p x a := by
  simp only [definitionQuery, h.2, h.1]

theorem Twins.backend {T T' : Tree} (h : Twins env T T') (g : Grammar) (p : Point) (x : Str) (a : Bool) :
    backendDefinitionQuery env g T' p x a = backendDefinitionQuery env g T p x a ∧
    backendTemplatesQuery env g T' p x a = backendTemplatesQuery env g T p x a := by
  simp only [backendDefinitionQuery, backendTemplatesQuery, h.2, and_self]

/-- maps with the same look-ups have the same entries -/
theorem entries_perm {K V : Type} [DecidableEq K] {m m' : HMap K V} (h : ∀ k, m'.get? k = m.get? k) : m.entries.Perm m'.entries := by
  have nd : ∀ m : HMap K V, m.entries.Nodup := fun m => List.Pairwise.of_map Prod.fst (fun a b hab e => hab (by rw [e])) m.nodup
  refine (List.perm_ext_iff_of_nodup (nd m) (nd m')).mpr fun e => ?_
  obtain ⟨k, v⟩ := e
  rw [← HMap.get?_eq_some_iff, ← HMap.get?_eq_some_iff, h]

theorem Alike.keys {f g : LspFiles} (h : Alike env f g) (l : LangType) :
    ((f.trees l).entries.map Prod.fst).Perm ((g.trees l).entries.map Prod.fst) := by
  refine (List.perm_ext_iff_of_nodup (f.trees l).nodup (g.trees l).nodup).mpr fun u => ?_
  have h1 := HMap.get?_isSome_iff (f.trees l) u
  have h2 := HMap.get?_isSome_iff (g.trees l) u
  simp only [HMap.keys] at h1 h2
  rw [← h1, ← h2]
  have := h.tree l u
  cases h3 : (f.trees l).get? u <;> cases h4 : (g.trees l).get? u <;> rw [h3, h4] at this <;> simp at this ⊢

theorem Alike.completion {f g : LspFiles} (h : Alike env f g) (u : Str) (p : Position) (tr : TriggerKind) :
    g.completion env u p tr = f.completion env u p tr := by
  unfold LspFiles.completion
  split
  · rfl
  · simp only
    cases fileExt u with
    | none => rfl
    | some l =>
      simp only [h.doc u]
      have ht := h.tree l u
      cases h1 : (f.trees l).get? u with
      | none =>
        cases h2 : (g.trees l).get? u with
        | none => rfl
        | some T' => rw [h1, h2] at ht; exact ht.elim
      | some T =>
        cases h2 : (g.trees l).get? u with
        | none => rw [h1, h2] at ht; exact ht.elim
        | some T' =>
          rw [h1, h2] at ht
          cases f.documents.get? u with
          | none => rfl
          | some t =>
            cases l with
            | template => simp only [ht.snippets, ht.objects, ht.templates]
            | backend => simp only [(ht.backend _ _ _ _).2, h.conf.qb]

theorem Alike.hover {f g : LspFiles} (h : Alike env f g) (u : Str) (p : Position) : g.hover env u p = f.hover env u p := by
  unfold LspFiles.hover
  split
  · rfl
  · simp only [h.doc u]
    have ht := h.tree .template u
    cases h1 : (f.trees .template).get? u with
    | none =>
      cases h2 : (g.trees .template).get? u with
      | none => rfl
      | some T' => rw [h1, h2] at ht; exact ht.elim
    | some T =>
      cases h2 : (g.trees .template).get? u with
      | none => rw [h1, h2] at ht; exact ht.elim
      | some T' =>
        rw [h1, h2] at ht
        cases f.documents.get? u with
        | none => rfl
        | some t => simp only [ht.objects]

theorem Alike.templateItem {f g : LspFiles} (h : Alike env f g) (r : Range) (p : Position) : ∀ l : List Str,
    g.templateItems r p l = f.templateItems r p l
  | [] => rfl
  | t :: l => by
    unfold LspFiles.templateItems
    rw [Alike.templateItem h r p l]
    unfold LspFiles.templateItem
    rw [h.conf.conf, h.conf.vsc]

theorem Alike.items {f g : LspFiles} (h : Alike env f g) (w : World) (o : HashOrder) (u : Str) (p : Position) (t : CompletionType) :
    OptPerm (completionItems w f u p t) (completionItems { w with order := o } g u p t) := by
  have hvars : ∀ st js, OptPerm (f.readVariables w u p st js) (g.readVariables { w with order := o } u p st js) := by
    intro st js
    unfold LspFiles.readVariables
    rw [h.vars]
    cases f.variables.get? u with
    | none => trivial
    | some this =>
      simp only [h.conf.vsc]
      refine List.Perm.append (List.Perm.refl _) ((List.Perm.filter _ ?_).flatMap_right _)
      exact ((w.order.perm 5 _).trans (entries_perm h.vars)).trans (o.perm 5 _).symm
  cases t with
  | filter => exact OptPerm.refl _
  | test => exact OptPerm.refl _
  | snippets r => simp only [completionItems, h.conf.vsc]; exact OptPerm.refl _
  | incompleteFilter => exact OptPerm.refl _
  | identifier => exact hvars none none
  | incompleteIdentifier n r => exact hvars (some (n, r)) none
  | includedTemplate n r =>
    simp only [completionItems, LspFiles.readTemplates, h.templateItem]
    refine templateItems_perm f r p (List.Perm.filter _ ?_)
    exact ((((w.order.perm 6 _).map _)).trans (h.keys .template)).trans ((o.perm 6 _).map _).symm

theorem Alike.hoverText {f g : LspFiles} (h : Alike env f g) (w : World) (o : HashOrder) (u : Str) (i : Identifier × CompletionType) :
    hoverText { w with order := o } g u i = JinjaLsp.hoverText w f u i := by
  have hd : g.dataType { w with order := o } u i.1 = f.dataType w u i.1 := by
    unfold LspFiles.dataType
    rw [h.vars]
    cases f.variables.get? u with
    | none => rfl
    | some this =>
      have hp : (o.shuffle 7 g.variables.entries).Perm (w.order.shuffle 7 f.variables.entries) :=
        ((o.perm 7 _).trans (entries_perm h.vars).symm).trans (w.order.perm 7 _).symm
      simp only [hp.any_eq]
  unfold JinjaLsp.hoverText
  rw [hd]

theorem Alike.goto {f g : LspFiles} (h : Alike env f g) (w : World) (o : HashOrder) (u : Str) (p : Position) :
    Agree (fun a b => SameReply (.goto a) (.goto b)) (f.gotoDefinition env w u p) (g.gotoDefinition env { w with order := o } u p) := by
  have hloc : ∀ i, g.localDefinition u i (toPoint p) = f.localDefinition u i (toPoint p) := by
    intro i
    unfold LspFiles.localDefinition
    rw [h.vars]
  have htl : ∀ n, g.templateLocation env { w with order := o } n = f.templateLocation env w n := by
    intro n
    unfold LspFiles.templateLocation
    rw [h.conf.conf]
  unfold LspFiles.gotoDefinition
  cases fileExt u with
  | none => exact .refl _
  | some l =>
    simp only [h.doc u]
    have ht := h.tree l u
    cases h1 : (f.trees l).get? u with
    | none =>
      cases h2 : (g.trees l).get? u with
      | none => exact .refl _
      | some T' => rw [h1, h2] at ht; exact ht.elim
    | some T =>
      cases h2 : (g.trees l).get? u with
      | none => rw [h1, h2] at ht; exact ht.elim
      | some T' =>
        rw [h1, h2] at ht
        cases f.documents.get? u with
        | none => exact .refl _
        | some t =>
          cases l with
          | template =>
            simp only [ht.objects, ht.templates, hloc, htl]
            cases objectsQuery env T (toPoint p) t false with
            | error e => rfl
            | ok objs =>
              simp only
              split
              · exact .refl _
              · split
                · exact .refl _
                · have hc := collectFiles_perm env u ((objs.isIdent (toPoint p)).getD [])
                    (((w.order.perm 2 _).trans (entries_perm h.vars)).trans (o.perm 2 _).symm)
                  cases ha : LspFiles.collectFiles env u ((objs.isIdent (toPoint p)).getD []) (w.order.shuffle 2 f.variables.entries) with
                  | error e => cases hb : LspFiles.collectFiles env u ((objs.isIdent (toPoint p)).getD []) (o.shuffle 2 g.variables.entries) with
                    | error e' => rw [ha, hb] at hc; exact hc
                    | ok b => rw [ha, hb] at hc; exact hc.elim
                  | ok a => cases hb : LspFiles.collectFiles env u ((objs.isIdent (toPoint p)).getD []) (o.shuffle 2 g.variables.entries) with
                    | error e' => rw [ha, hb] at hc; exact hc.elim
                    | ok b => rw [ha, hb] at hc; exact .goto hc
          | backend =>
            simp only [(ht.backend _ _ _ _).2, h.conf.qb, htl]
            split
            · exact .refl _
            · exact .refl _

theorem Alike.symbols {f g : LspFiles} (h : Alike env f g) (u : Str) : g.documentSymbols u = f.documentSymbols u := by
  unfold LspFiles.documentSymbols
  rw [h.vars]

/-- requests are answered alike -/
theorem Alike.request {s s' : Server} (h : Alike env s.files s'.files) {w w' : World} (hw : SameDisk w w') (m : Msg) (hm : PureRequest m) :
    Agree (fun a b => SameReply a.2.2 b.2.2) (s.handle env w m) (s'.handle env w' m) := by
  obtain ⟨o, rfl⟩ := hw.eq
  cases m <;> simp only [PureRequest] at hm
  case completion u p tr =>
    simp only [Server.handle, Server.onCompletion, h.completion]
    cases s.files.completion env u p tr with
    | error e => rfl
    | ok c => cases c with
      | none => exact .refl _
      | some c => exact completion_reply (h.items w o u p c.1)
  case hover u p =>
    simp only [Server.handle, Server.onHover, h.hover]
    cases s.files.hover env u p with
    | error e => rfl
    | ok c => cases c with
      | none => exact .refl _
      | some c => simp only [h.hoverText w o]; exact .refl _
  case goto u p =>
    have := h.goto w o u p
    simp only [Server.handle]
    cases h1 : s.files.gotoDefinition env w u p with
    | error e =>
      cases h2 : s'.files.gotoDefinition env { w with order := o } u p with
      | error e' => rw [h1, h2] at this; exact this
      | ok y => rw [h1, h2] at this; exact this.elim
    | ok x =>
      cases h2 : s'.files.gotoDefinition env { w with order := o } u p with
      | error e' => rw [h1, h2] at this; exact this.elim
      | ok y => rw [h1, h2] at this; exact this
  case documentSymbol u =>
    simp only [Server.handle, h.symbols]
    exact .refl _

/-! ### Further messages keep them alike -/

theorem Spec.Agree.either {α β : Type} {R : α → β → Prop} {a : Res α} {b : Res β} (h : Agree R a b) :
    (∃ e, a = .error e ∧ b = .error e) ∨ ∃ x y, a = .ok x ∧ b = .ok y ∧ R x y := by
  cases a with
  | error e => cases b with
    | error e' =>
      have h : e = e' := h
      exact Or.inl ⟨e, rfl, by rw [h]⟩
    | ok y => exact h.elim
  | ok x => cases b with
    | error e' => exact h.elim
    | ok y => exact Or.inr ⟨x, y, rfl, rfl, h⟩

theorem Alike.refl (f : LspFiles) : Alike env f f where
  doc _ := rfl
  tree l u := by
    cases (f.trees l).get? u with
    | none => trivial
    | some T => exact ⟨rfl, fun _ _ => rfl⟩
  vars _ := rfl
  conf := ⟨rfl, rfl, rfl, rfl, rfl, rfl⟩

theorem Alike.deleteVariables {f g : LspFiles} (h : Alike env f g) (n : Str) : Alike env (f.deleteVariables n) (g.deleteVariables n) := by
  unfold LspFiles.deleteVariables
  rw [h.vars]
  cases f.variables.get? n with
  | none => exact h
  | some v =>
    refine ⟨h.doc, h.tree, fun u => ?_, ⟨h.conf.pb, h.conf.qb, h.conf.conf, h.conf.chan, h.conf.vsc, h.conf.ign⟩⟩
    show (g.variables.insert n []).get? u = (f.variables.insert n []).get? u
    rw [HMap.get?_insert, HMap.get?_insert, h.vars]

theorem Alike.setDoc {f g : LspFiles} (h : Alike env f g) (n t : Str) :
    Alike env { f with documents := f.documents.insert n t } { g with documents := g.documents.insert n t } where
  doc u := by
    show (g.documents.insert n t).get? u = (f.documents.insert n t).get? u
    rw [HMap.get?_insert, HMap.get?_insert, h.doc]
  tree := h.tree
  vars := h.vars
  conf := ⟨h.conf.pb, h.conf.qb, h.conf.conf, h.conf.chan, h.conf.vsc, h.conf.ign⟩

theorem Alike.setTree {f g : LspFiles} (h : Alike env f g) (l : LangType) (n : Str) {T T' : Tree} (hT : Twins env T T') :
    Alike env (f.setTree l n T) (g.setTree l n T') where
  doc := h.doc
  vars := h.vars
  conf := ⟨h.conf.pb, h.conf.qb, h.conf.conf, h.conf.chan, h.conf.vsc, h.conf.ign⟩
  tree k u := by
    have := h.tree k u
    simp only [LspFiles.setTree]
    by_cases hk : k = l
    · subst hk
      simp only [if_true]
      rw [HMap.get?_insert, HMap.get?_insert]
      by_cases hu : u = n
      · subst hu
        simp only [if_true]
        exact hT
      · simp only [hu, if_false]
        exact this
    · simp only [hk, if_false]
      exact this

theorem Spec.Stateless.twins (hs : Stateless env) (g : Grammar) (t : Str) (o o' : Option Tree) : Twins env (.parsed g t o) (.parsed g t o') :=
  ⟨((hs g t o').1).trans (hs g t o).1.symm, fun q x => ((hs g t o').2 q x).trans ((hs g t o).2 q x).symm⟩

theorem Alike.grammar {f g : LspFiles} (h : Alike env f g) (l : LangType) : g.grammar l = f.grammar l := grammar_conf h.conf l

theorem Alike.addTree (hp : ∀ g t o, env.parseFails g t o = false) (hs : Stateless env) {f g : LspFiles} (h : Alike env f g) (n : Str)
    (l : LangType) (t : Str) : Alike env (f.addTree env n l t) (g.addTree env n l t) := by
  simp only [LspFiles.addTree, LspFiles.parse, hp, Bool.false_eq_true, if_false, h.grammar]
  exact h.setTree l n (hs.twins ..)

theorem Alike.inputEdit (hp : ∀ g t o, env.parseFails g t o = false) (hs : Stateless env) {f g : LspFiles} (h : Alike env f g) (n t : Str)
    (e : InputEdit) (l : Option LangType) : Alike env (f.inputEdit env n t e l) (g.inputEdit env n t e l) := by
  cases l with
  | none => exact h
  | some l =>
    unfold LspFiles.inputEdit
    have ht := h.tree l n
    cases h1 : (f.trees l).get? n with
    | none =>
      cases h2 : (g.trees l).get? n with
      | none => simp only [h1, h2]; exact h
      | some T' => rw [h1, h2] at ht; exact ht.elim
    | some T =>
      cases h2 : (g.trees l).get? n with
      | none => rw [h1, h2] at ht; exact ht.elim
      | some T' =>
        simp only [h1, h2, LspFiles.parse, hp, Bool.false_eq_true, if_false, h.grammar]
        exact h.setTree l n (hs.twins ..)

theorem Alike.inputEdits (hp : ∀ g t o, env.parseFails g t o = false) (hs : Stateless env) (n : Str) (l : Option LangType) :
    ∀ (es : List (Str × InputEdit)) {f g : LspFiles}, Alike env f g →
    Alike env (es.foldl (fun f (ch : Str × InputEdit) => f.inputEdit env n ch.1 ch.2 l) f)
      (es.foldl (fun f (ch : Str × InputEdit) => f.inputEdit env n ch.1 ch.2 l) g)
  | [], _, _, h => h
  | e :: es, _, _, h => Alike.inputEdits hp hs n l es (h.inputEdit hp hs n e.1 e.2 l)

theorem Alike.didChange (hp : ∀ g t o, env.parseFails g t o = false) (hs : Stateless env) {f g : LspFiles} (h : Alike env f g) (n : Str)
    (cs : List TextChange) (k k' : Nat) :
    Agree (fun a b => Alike env a.1 b.1 ∧ a.2 = b.2) (f.didChange env n cs k) (g.didChange env n cs k') := by
  unfold LspFiles.didChange
  rw [h.doc]
  cases f.documents.get? n with
  | none => exact ⟨h, rfl⟩
  | some rope =>
    simp only
    cases LspFiles.applyChanges env.profile rope cs with
    | error e => rfl
    | ok r =>
      obtain ⟨rope', es, fin⟩ := r
      have h1 := h.setDoc n rope'
      cases fin with
      | false => exact ⟨h1, rfl⟩
      | true =>
        have h2 := Alike.inputEdits hp hs n (fileExt n) es h1
        exact ⟨⟨h2.doc, h2.tree, h2.vars, ⟨h2.conf.pb, h2.conf.qb, h2.conf.conf, h2.conf.chan, h2.conf.vsc, h2.conf.ign⟩⟩, rfl⟩

theorem Alike.setVars {f g : LspFiles} (h : Alike env f g) (n : Str) (vs : List Identifier) :
    Alike env { f with variables := f.variables.insert n vs, codeActions := f.codeActions.insert n [] }
      { g with variables := g.variables.insert n vs, codeActions := g.codeActions.insert n [] } where
  doc := h.doc
  tree := h.tree
  vars u := by
    show (g.variables.insert n vs).get? u = (f.variables.insert n vs).get? u
    rw [HMap.get?_insert, HMap.get?_insert, h.vars]
  conf := ⟨h.conf.pb, h.conf.qb, h.conf.conf, h.conf.chan, h.conf.vsc, h.conf.ign⟩

theorem Alike.addVariables {f g : LspFiles} (h : Alike env f g) (n : Str) (l : LangType) (t : Str) :
    Agree (Alike env) (f.addVariables env n l t) (g.addVariables env n l t) := by
  unfold LspFiles.addVariables
  have ht := h.tree l n
  cases h1 : (f.trees l).get? n with
  | none =>
    cases h2 : (g.trees l).get? n with
    | none => exact h
    | some T' => rw [h1, h2] at ht; exact ht.elim
  | some T =>
    cases h2 : (g.trees l).get? n with
    | none => rw [h1, h2] at ht; exact ht.elim
    | some T' =>
      rw [h1, h2] at ht
      cases l with
      | backend =>
        have : g.backendVariables env T' t = f.backendVariables env T t := by
          simp only [LspFiles.backendVariables, h.conf.qb, (ht.backend _ _ _ _).1, (ht.backend _ _ _ _).2]
        simp only [this]
        exact h.setVars n _
      | template =>
        simp only [ht.snippets, ht.definitions]
        split
        · exact h
        · cases definitionQuery env T Point.zero t true with
          | error e => rfl
          | ok d => exact h.setVars n _

theorem Alike.readTree {f g : LspFiles} (h : Alike env f g) (w : World) (o : HashOrder) (n : Str) :
    Agree OptPerm (f.readTree env w n) (g.readTree env { w with order := o } n) := by
  unfold LspFiles.readTree
  rw [h.doc]
  cases f.documents.get? n with
  | none => trivial
  | some t =>
    simp only
    cases fileExt n with
    | none => trivial
    | some l =>
      have ht := h.tree l n
      cases h1 : (f.trees l).get? n with
      | none =>
        cases h2 : (g.trees l).get? n with
        | none => simp only [h1, h2]; trivial
        | some T' => rw [h1, h2] at ht; exact ht.elim
      | some T =>
        cases h2 : (g.trees l).get? n with
        | none => rw [h1, h2] at ht; exact ht.elim
        | some T' =>
          rw [h1, h2] at ht
          have key : searchErrors env { w with order := o } T' t g.variables n g.config.templates l g.ignoreGlobals =
              searchErrors env { w with order := o } T t f.variables n f.config.templates l f.ignoreGlobals := by
            have hd : ∀ this, objectDiag o g.variables this f.ignoreGlobals = objectDiag o f.variables this f.ignoreGlobals := by
              intro this
              funext obj
              have hp : (o.shuffle 1 g.variables.entries).Perm (o.shuffle 1 f.variables.entries) :=
                ((o.perm 1 _).trans (entries_perm h.vars).symm).trans (o.perm 1 _).symm
              unfold objectDiag
              rw [hp.any_eq]
            unfold searchErrors
            simp only [h.vars, h.conf.conf, h.conf.ign, ht.objects, ht.templates, hd]
          simp only [h1, h2, key]
          exact searchErrors_order env w o T t f.variables n f.config.templates l f.ignoreGlobals

theorem Alike.didSave {f g : LspFiles} (h : Alike env f g) (w : World) (o : HashOrder) (n : Str) :
    Agree (fun a b => Alike env a.1 b.1 ∧ SameResult a.2 b.2) (f.didSave env w n) (g.didSave env { w with order := o } n) := by
  unfold LspFiles.didSave
  cases fileExt n with
  | none => exact ⟨h, trivial⟩
  | some l =>
    simp only [h.doc]
    cases f.documents.get? n with
    | none => exact ⟨h, trivial⟩
    | some t =>
      rcases ((h.deleteVariables n).addVariables n l t).either with ⟨e, h1, h2⟩ | ⟨a, b, h1, h2, hab⟩
      · simp only [h1, h2]; rfl
      · simp only [h1, h2]
        rcases (hab.readTree w o n).either with ⟨e, h3, h4⟩ | ⟨x, y, h3, h4, hxy⟩
        · simp only [h3, h4]; rfl
        · simp only [h3, h4]
          cases x with
          | none => cases y with
            | none => exact ⟨hab, single_same (List.Perm.refl _) n⟩
            | some y => exact hxy.elim
          | some x => cases y with
            | none => exact hxy.elim
            | some y => exact ⟨hab, single_same hxy n⟩

theorem Alike.didOpen (hp : ∀ g t o, env.parseFails g t o = false) (hs : Stateless env) {f g : LspFiles} (h : Alike env f g) (w : World)
    (o : HashOrder) (n t : Str) :
    Agree (fun a b => Alike env a.1 b.1 ∧ SameResult a.2 b.2) (f.didOpen env w n t false) (g.didOpen env { w with order := o } n t false) := by
  unfold LspFiles.didOpen
  cases fileExt n with
  | none => exact ⟨h, trivial⟩
  | some l =>
    simp only
    rcases ((((h.deleteVariables n).setDoc n t).addTree hp hs n l t).addVariables n l t).either with ⟨e, h1, h2⟩ | ⟨a, b, h1, h2, hab⟩
    · simp only [h1, h2]; rfl
    · simp only [h1, h2, Bool.false_eq_true, if_false]
      rcases (hab.readTree w o n).either with ⟨e, h3, h4⟩ | ⟨x, y, h3, h4, hxy⟩
      · simp only [h3, h4]; rfl
      · simp only [h3, h4]
        cases x with
        | none => cases y with
          | none => exact ⟨hab, trivial⟩
          | some y => exact hxy.elim
        | some x => cases y with
          | none => exact hxy.elim
          | some y => exact ⟨hab, single_same hxy n⟩

theorem Alike.addCodeActions {f g : LspFiles} (h : Alike env f g) (o o' : HashOrder) (m m' : HMap Str (List Identifier)) :
    Alike env (f.addCodeActions o m) (g.addCodeActions o' m') := by
  have key : ∀ (l : List (Str × List Identifier)) (f : LspFiles), ∃ ca,
      l.foldl (fun f (e : Str × List Identifier) => { f with codeActions := f.codeActions.insert e.1 e.2 }) f = { f with codeActions := ca } := by
    intro l
    induction l with
    | nil => exact fun f => ⟨f.codeActions, rfl⟩
    | cons e l ih => exact fun f => ih _
  obtain ⟨ca, h1⟩ := key (o.shuffle 3 m.entries) f
  obtain ⟨cb, h2⟩ := key (o'.shuffle 3 m'.entries) g
  unfold LspFiles.addCodeActions
  rw [h1, h2]
  exact ⟨h.doc, h.tree, h.vars, ⟨h.conf.pb, h.conf.qb, h.conf.conf, h.conf.chan, h.conf.vsc, h.conf.ign⟩⟩

/-- servers that hold the same -/
structure AlikeServers (env : Env) (s s' : Server) : Prop where
  config : s'.config = s.config
  files : Alike env s.files s'.files

/-- **One message** finds them alike and leaves them alike -/
theorem AlikeServers.handle (hp : ∀ g t o, env.parseFails g t o = false) (hst : Stateless env) {s s' : Server} (h : AlikeServers env s s')
    {w w' : World} (hw : SameDisk w w') {m m' : Msg} (hm : SameMsg m m') (hq : ∀ u p, m ≠ .codeAction u p) :
    Agree (fun a b => AlikeServers env a.1 b.1 ∧ Each SameSend a.2.1 b.2.1 ∧ SameReply a.2.2 b.2.2) (s.handle env w m) (s'.handle env w' m') := by
  have pure : PureRequest m → m' = m →
      Agree (fun a b => AlikeServers env a.1 b.1 ∧ Each SameSend a.2.1 b.2.1 ∧ SameReply a.2.2 b.2.2) (s.handle env w m) (s'.handle env w' m') := by
    intro hpm he
    subst he
    rcases (h.files.request hw m' hpm).either with ⟨e, h1, h2⟩ | ⟨a, b, h1, h2, hr⟩
    · rw [h1, h2]; rfl
    · rw [h1, h2]
      obtain ⟨a, x, r⟩ := a
      obtain ⟨b, y, r'⟩ := b
      cases pure_state hpm h1
      cases pure_state hpm h2
      have hx : x = [] := (handle_query (by cases m' <;> simp_all [PureRequest, Msg.isQuery]) h1).2.2
      have hy : y = [] := (handle_query (by cases m' <;> simp_all [PureRequest, Msg.isQuery]) h2).2.2
      rw [hx, hy]
      exact ⟨h, .nil, hr⟩
  obtain ⟨o, rfl⟩ := hw.eq
  cases hm with
  | codeActions hm => exact ⟨⟨h.config, h.files.addCodeActions ..⟩, .nil, .refl _⟩
  | refl =>
    cases m with
    | completion u p t => exact pure trivial rfl
    | hover u p => exact pure trivial rfl
    | goto u p => exact pure trivial rfl
    | documentSymbol u => exact pure trivial rfl
    | codeAction u p => exact absurd rfl (hq u p)
    | «initialize» client options =>
      refine ⟨⟨?_, ?_⟩, .nil, .refl _⟩
      · unfold Server.onInitialize searchConfig
        dsimp only
        rw [searchConfigIn_order, h.config]
      · unfold Server.onInitialize
        dsimp only
        split
        · exact ⟨h.files.doc, h.files.tree, h.files.vars,
            ⟨h.files.conf.pb, h.files.conf.qb, h.files.conf.conf, h.files.conf.chan, rfl, h.files.conf.ign⟩⟩
        · exact h.files
    | initialized =>
      unfold Server.handle Server.onInitialized
      dsimp only
      rw [h.config]
      by_cases hl : s.config.lang = c!"rust" ∨ s.config.lang = c!"python"
      · simp only [if_pos hl]
        rcases (walkdir_same env w o s.config).either with ⟨e, h1, h2⟩ | ⟨x, y, h1, h2, hxy⟩
        · simp only [h1, h2]; rfl
        · cases x with
          | none => cases y with
            | none => simp only [h1, h2]; exact ⟨h, .nil, .refl _⟩
            | some y => exact hxy.elim
          | some x => cases y with
            | none => exact hxy.elim
            | some y =>
              obtain ⟨d, f⟩ := x
              obtain ⟨d', f'⟩ := y
              obtain ⟨hd, rfl⟩ := hxy
              simp only [h1, h2]
              refine ⟨⟨rfl, ?_⟩, .cons (.diag hd) .nil, .refl _⟩
              have hr := Alike.refl (env := env) f
              exact ⟨hr.doc, hr.tree, hr.vars, ⟨rfl, rfl, rfl, rfl, h.files.conf.vsc, rfl⟩⟩
      · simp only [if_neg hl]
        exact ⟨h, .nil, .refl _⟩
    | didChange u cs =>
      unfold Server.handle Server.onDidChange
      rcases (h.files.didChange hp hst u cs s.nextHandle s'.nextHandle).either with ⟨e, h1, h2⟩ | ⟨x, y, h1, h2, hxy, hb⟩
      · simp only [h1, h2]; rfl
      · obtain ⟨f, b⟩ := x
        obtain ⟨g, b'⟩ := y
        have hb : b = b' := hb
        subst hb
        simp only [h1, h2]
        cases b with
        | false => exact ⟨⟨h.config, hxy⟩, .nil, .refl _⟩
        | true => exact ⟨⟨h.config, hxy⟩, .nil, .refl _⟩
    | didSave u =>
      unfold Server.handle
      rcases (h.files.didSave w o u).either with ⟨e, h1, h2⟩ | ⟨x, y, h1, h2, hxy, hb⟩
      · simp only [h1, h2]; rfl
      · simp only [h1, h2]
        exact ⟨⟨h.config, hxy⟩, sends_same hb, .refl _⟩
    | didOpen u t =>
      unfold Server.handle
      rcases (h.files.didOpen hp hst w o u t).either with ⟨e, h1, h2⟩ | ⟨x, y, h1, h2, hxy, hb⟩
      · simp only [h1, h2]; rfl
      · simp only [h1, h2]
        exact ⟨⟨h.config, hxy⟩, sends_same hb, .refl _⟩
    | executeCommand c =>
      refine ⟨h, ?_, .refl _⟩
      dsimp only
      split
      · exact .cons .initialized .nil
      · exact .nil
    | didChangeConfiguration c =>
      unfold Server.handle
      dsimp only
      rw [h.config]
      refine ⟨⟨rfl, h.files⟩, ?_, .refl _⟩
      generalize (match c with | some c => ({ c with userDefined := true } : JinjaConfig) | none => s.config).userDefined = b
      cases b with
      | true => exact .cons .initialized .nil
      | false => exact .nil
    | codeActions m => exact ⟨⟨h.config, h.files.addCodeActions ..⟩, .nil, .refl _⟩

/-! ### The texts determine the rest -/

theorem Alike.of_kept (hs : Stateless env) {f g : LspFiles} (hf : ∀ u, Kept env f u True) (hg : ∀ u, Kept env g u True)
    (hd : ∀ u, g.documents.get? u = f.documents.get? u) (hc : SameConf f g)
    (hno : ∀ u t, fileExt u = some .template → f.documents.get? u = some t → ¬ SyntaxError env (.parsed .jinja t none) t) : Alike env f g := by
  have htree : ∀ l u, match (f.trees l).get? u, (g.trees l).get? u with
    | none, none => True
    | some T, some T' => Twins env T T'
    | _, _ => False := by
    intro l u
    cases h1 : (f.trees l).get? u with
    | none =>
      cases h2 : (g.trees l).get? u with
      | none => trivial
      | some T' =>
        obtain ⟨hl, hn⟩ := (hg u).tree l T' h2
        rw [hd] at hn
        obtain ⟨t, ht⟩ := Option.ne_none_iff_exists'.mp hn
        obtain ⟨o, ho⟩ := (hf u).fresh l t hl ht
        rw [h1] at ho; cases ho
    | some T =>
      obtain ⟨hl, hn⟩ := (hf u).tree l T h1
      obtain ⟨t, ht⟩ := Option.ne_none_iff_exists'.mp hn
      obtain ⟨o, ho⟩ := (hf u).fresh l t hl ht
      obtain ⟨o', ho'⟩ := (hg u).fresh l t hl (by rw [hd, ht])
      rw [h1] at ho
      rw [ho']
      cases ho
      rw [grammar_conf hc]
      exact hs.twins ..
  refine ⟨hd, htree, ?_, hc⟩
  intro u
  by_cases hu : fileExt u = none ∨ f.documents.get? u = none
  · have h1 : f.variables.get? u = none := by
      apply Classical.byContradiction
      intro h
      obtain ⟨a, b⟩ := (hf u).vars h
      rcases hu with hu | hu
      · exact a hu
      · exact b hu
    have h2 : g.variables.get? u = none := by
      apply Classical.byContradiction
      intro h
      obtain ⟨a, b⟩ := (hg u).vars h
      rcases hu with hu | hu
      · exact a hu
      · exact b ((hd u).trans hu)
    rw [h1, h2]
  · have hu1 : fileExt u ≠ none := fun h => hu (Or.inl h)
    have hu2 : f.documents.get? u ≠ none := fun h => hu (Or.inr h)
    obtain ⟨l, hl⟩ := Option.ne_none_iff_exists'.mp hu1
    obtain ⟨t, ht⟩ := Option.ne_none_iff_exists'.mp hu2
    have ht' : g.documents.get? u = some t := by rw [hd, ht]
    obtain ⟨o, ho⟩ := (hf u).fresh l t hl ht
    obtain ⟨o', ho'⟩ := (hg u).fresh l t hl ht'
    have htw := htree l u
    rw [ho, ho'] at htw
    have r1 := (hf u).analysed trivial l t _ hl ht ho
    have r2 := (hg u).analysed trivial l t _ hl ht' ho'
    cases l with
    | backend =>
      simp only [Records] at r1 r2
      rw [r1, r2]
      simp only [LspFiles.backendVariables, hc.qb, (htw.backend _ _ _ _).1, (htw.backend _ _ _ _).2]
    | template =>
      simp only [Records, htw.snippets, htw.definitions] at r1 r2
      have hne : (snippetsQuery env (.parsed (f.grammar .template) t o) Point.zero t true).isError = false := by
        refine isError_false (fun h => hno u t hl ht ?_) _
        obtain ⟨c, hc, hn⟩ := h
        have := (hs .jinja t o).2 .jinjaSnippets t
        exact ⟨c, by rw [← this]; exact hc, hn⟩
      rw [hne] at r1 r2
      rcases r1 with r1 | ⟨d, hd1, hv1⟩
      · cases r1
      · rcases r2 with r2 | ⟨d', hd2, hv2⟩
        · cases r2
        · rw [hd1] at hd2
          cases hd2
          rw [hv1, hv2]

theorem kept_init (u : Str) : Kept env Server.init.files u True := by
  refine ⟨?_, ?_, ?_, ?_⟩
  · intro l T h; cases h
  · intro l t _ h; cases h
  · intro h; exact absurd rfl h
  · intro _ l t T _ h; cases h

/-- what a run keeps for all documents that were saved -/
theorem kept_saved (hp : ∀ g t o, env.parseFails g t o = false) {ms : List (World × Msg)} {s : Server} (h : Server.init.run env ms = .ok s)
    (hm : ∀ m ∈ ms, KeepsClass m.1 ∧ Ranged m.2) (hs : ∀ u, Saved u (ms.map Prod.snd)) (u : Str) : Kept env s.files u True := by
  have := kept_run hp u ms Server.init s False ((kept_init u).weaken fun _ => trivial) hm h
  exact this.weaken fun _ => outdated_saved u _ False (hs u) False.elim

end

/-! ### C89 -/

/-- what the client and the diagnostics task are told while the worker goes through a list of messages -/
def Spec.told (env : Env) : Server → List (World × Msg) → Res (List (List Send × Reply))
  | _, [] => .ok []
  | s, m :: ms =>
    match s.handle env m.1 m.2 with
    | .error e => .error e
    | .ok (s', out, r) =>
      match Spec.told env s' ms with
      | .error e => .error e
      | .ok rest => .ok ((out, r) :: rest)

/-- servers with the same settings -/
structure Spec.SameSettings (s s' : Server) : Prop where
  config : s'.config = s.config
  files : SameConf s.files s'.files

/-- the same results and the same answer, up to ordering -/
def Spec.SameTold (a b : List Send × Reply) : Prop := Each SameSend a.1 b.1 ∧ SameReply a.2 b.2

theorem AlikeServers.told {env : Env} (hp : ∀ g t o, env.parseFails g t o = false) (hst : Stateless env) :
    ∀ (h h' : List (World × Msg)) (s s' : Server), AlikeServers env s s' → Each SameInput h h' → (∀ m ∈ h, ∀ u p, m.2 ≠ .codeAction u p) →
    Agree (Each SameTold) (told env s h) (told env s' h')
  | _, _, s, s', _, .nil, _ => .nil
  | _, _, s, s', hss, .cons (a := a) (b := b) (as := as) (bs := bs) hab habs, hq => by
    unfold Spec.told
    rcases (hss.handle hp hst hab.1 hab.2 (hq a (by simp))).either with ⟨e, h1, h2⟩ | ⟨x, y, h1, h2, hxy⟩
    · simp only [h1, h2]; rfl
    · obtain ⟨t, out, r⟩ := x
      obtain ⟨t', out', r'⟩ := y
      simp only [h1, h2]
      rcases (AlikeServers.told hp hst as bs t t' hxy.1 habs fun m hm => hq m (by simp [hm])).either with ⟨e, h3, h4⟩ | ⟨x, y, h3, h4, hxy'⟩
      · simp only [h3, h4]; rfl
      · simp only [h3, h4]
        exact .cons hxy.2 hxy'

/-- **C89** Two servers that were led by whatever messages to the same texts, under the same settings, with every change saved and no syntax
error in any template: from then on every message — request, change, save, opening, command, new configuration — is answered alike and yields
the same diagnostics, up to ordering, for ever. -/
theorem C89_future (env : Env) (hp : ∀ g t o, env.parseFails g t o = false) (hst : Stateless env) (ms ms' : List (World × Msg)) (s s' : Server)
    (h : Server.init.run env ms = .ok s) (h' : Server.init.run env ms' = .ok s')
    (hm : ∀ m ∈ ms, KeepsClass m.1 ∧ Ranged m.2) (hm' : ∀ m ∈ ms', KeepsClass m.1 ∧ Ranged m.2)
    (hs : ∀ u, Saved u (ms.map Prod.snd)) (hs' : ∀ u, Saved u (ms'.map Prod.snd)) (hset : SameSettings s s')
    (htexts : ∀ u, s'.files.documents.get? u = s.files.documents.get? u)
    (hno : ∀ u t, fileExt u = some .template → s.files.documents.get? u = some t → ¬ SyntaxError env (.parsed .jinja t none) t)
    (later later' : List (World × Msg)) (hl : Each SameInput later later') (hq : ∀ m ∈ later, ∀ u p, m.2 ≠ .codeAction u p) :
    Agree (Each SameTold) (told env s later) (told env s' later') :=
  AlikeServers.told hp hst later later' s s'
    ⟨hset.config, Alike.of_kept hst (kept_saved hp h hm hs) (kept_saved hp h' hm' hs') htexts hset.files hno⟩ hl hq

theorem settings_run {env : Env} : ∀ (ms : List (World × Msg)) (s s' : Server), s.run env ms = .ok s' →
    (∀ m ∈ ms, m.2 ≠ .initialized ∧ (∀ c o, m.2 ≠ .initialize c o) ∧ ∀ c, m.2 ≠ .didChangeConfiguration c) → SameSettings s s'
  | [], s, s', h, _ => by cases h; exact ⟨rfl, SameConf.refl _⟩
  | (w, m) :: ms, s, s', h, hm => by
    simp only [Server.run] at h
    split at h
    · cases h
    · rename_i s1 out r h1
      have rest := settings_run ms s1 s' h fun x hx => hm x (by simp [hx])
      obtain ⟨n1, n2, n3⟩ := hm (w, m) (by simp)
      have hc : s1.config = s.config := by
        cases m <;> simp only [Server.handle] at h1
        case «initialize» c o => exact absurd rfl (n2 c o)
        case initialized => exact absurd rfl n1
        case didChangeConfiguration c => exact absurd rfl (n3 c)
        case didChange u cs =>
          split at h1
          · cases h1
          · rename_i hh
            cases h1
            unfold Server.onDidChange at hh
            split at hh <;> cases hh <;> rfl
        case codeAction u p =>
          split at h1
          · cases h1
          · rename_i hh
            cases h1
            unfold Server.onCodeAction at hh
            split at hh
            · cases hh
            · cases hh; rfl
            · split at hh <;> cases hh <;> rfl
        all_goals first | (cases h1; rfl) | (split at h1 <;> cases h1; rfl)
      have hf : SameConf s.files s1.files := by
        have hs := handle_files h1
        clear h1
        cases hs with
        | query hq h => rw [h]; exact SameConf.refl _
        | command _ h => rw [h]; exact SameConf.refl _
        | notInitialized h => exact absurd rfl n1
        | config c h => exact absurd rfl (n3 c)
        | «initialize» c o h => exact absurd rfl (n2 c o)
        | codeActions m h => rw [h]; exact (addCodeActions_frame w.order s.files m).2.2.2.1
        | didOpen v t m h => exact (Frame.didOpen h).conf
        | didSave v m h => exact (Frame.didSave h).conf
        | didChange v cs b h => exact (Frame.didChange h).conf
        | initialized f d h e => exact absurd rfl n1
      exact ⟨rest.config.trans hc, hf.trans rest.files⟩

theorem run_split {env : Env} : ∀ (a b : List (World × Msg)) (s s' : Server), s.run env (a ++ b) = .ok s' →
    ∃ t, s.run env a = .ok t ∧ t.run env b = .ok s'
  | [], b, s, s', h => ⟨s, rfl, h⟩
  | m :: a, b, s, s', h => by
    simp only [List.cons_append, Server.run] at h ⊢
    split at h
    · cases h
    · exact run_split a b _ s' h

/-- **C89** In particular a server that has been through a long day of editing is as good as one that was started in the same way and then told
of the present texts only: whatever `ms` and `ms'` are. -/
theorem C89_as_new (env : Env) (hp : ∀ g t o, env.parseFails g t o = false) (hst : Stateless env) (start ms ms' : List (World × Msg)) (s s' : Server)
    (h : Server.init.run env (start ++ ms) = .ok s) (h' : Server.init.run env (start ++ ms') = .ok s')
    (hm : ∀ m ∈ start ++ ms, KeepsClass m.1 ∧ Ranged m.2) (hm' : ∀ m ∈ start ++ ms', KeepsClass m.1 ∧ Ranged m.2)
    (hset : ∀ m ∈ ms ++ ms', m.2 ≠ .initialized ∧ (∀ c o, m.2 ≠ .initialize c o) ∧ ∀ c, m.2 ≠ .didChangeConfiguration c)
    (hs : ∀ u, Saved u ((start ++ ms).map Prod.snd)) (hs' : ∀ u, Saved u ((start ++ ms').map Prod.snd))
    (htexts : ∀ u, s'.files.documents.get? u = s.files.documents.get? u)
    (hno : ∀ u t, fileExt u = some .template → s.files.documents.get? u = some t → ¬ SyntaxError env (.parsed .jinja t none) t)
    (later later' : List (World × Msg)) (hl : Each SameInput later later') (hq : ∀ m ∈ later, ∀ u p, m.2 ≠ .codeAction u p) :
    Agree (Each SameTold) (told env s later) (told env s' later') := by
  obtain ⟨t, h1, h2⟩ := run_split start ms _ _ h
  obtain ⟨t', h1', h2'⟩ := run_split start ms' _ _ h'
  rw [h1] at h1'
  cases h1'
  have a := settings_run ms t s h2 fun m hm => hset m (by simp [hm])
  have b := settings_run ms' t s' h2' fun m hm => hset m (by simp [hm])
  refine C89_future env hp hst _ _ s s' h h' hm hm' hs hs' ⟨b.config.trans a.config.symm, ?_⟩ htexts hno later later' hl hq
  exact ⟨b.files.pb.trans a.files.pb.symm, b.files.qb.trans a.files.qb.symm, b.files.conf.trans a.files.conf.symm,
    b.files.chan.trans a.files.chan.symm, b.files.vsc.trans a.files.vsc.symm, b.files.ign.trans a.files.ign.symm⟩

theorem merge_change {u : Str} {cs : List TextChange} {a b l : List Msg} (h : Merge a b l) : (∀ i ∈ b, internal i) → ∀ p q,
    l = p ++ .didChange u cs :: q → ∃ p' q', a = p' ++ .didChange u cs :: q' ∧ ∀ x ∈ q', x ∈ q := by
  induction h with
  | nil => intro _ p q e; simp at e
  | left x _ ih =>
    intro hi p q e
    rcases List.eq_nil_or_concat q with rfl | ⟨q1, y, rfl⟩
    · have e' := List.append_inj' e rfl
      obtain ⟨rfl, e2⟩ := e'
      cases e2
      exact ⟨_, [], rfl, by simp⟩
    · rw [List.concat_eq_append, ← List.cons_append, ← List.append_assoc] at e
      obtain ⟨e1, e2⟩ := List.append_inj' e rfl
      cases e2
      obtain ⟨p', q', rfl, hq⟩ := ih hi p q1 e1
      refine ⟨p', q' ++ [x], by simp, ?_⟩
      intro z hz
      rw [List.concat_eq_append]
      rcases List.mem_append.mp hz with hz | hz
      · exact List.mem_append_left _ (hq z hz)
      · exact List.mem_append_right _ hz
  | right x _ ih =>
    intro hi p q e
    rcases List.eq_nil_or_concat q with rfl | ⟨q1, y, rfl⟩
    · obtain ⟨_, e2⟩ := List.append_inj' e rfl
      cases e2
      rcases hi (.didChange u cs) (by simp) with h | ⟨_, h⟩ | ⟨_, h⟩ <;> cases h
    · rw [List.concat_eq_append, ← List.cons_append, ← List.append_assoc] at e
      obtain ⟨e1, e2⟩ := List.append_inj' e rfl
      cases e2
      obtain ⟨p', q', rfl, hq⟩ := ih (fun i hi' => hi i (by simp [hi'])) p q1 e1
      refine ⟨p', q', rfl, fun z hz => ?_⟩
      rw [List.concat_eq_append]
      exact List.mem_append_left _ (hq z hz)

theorem Merge.mem {α : Type} {a b l : List α} (h : Merge a b l) : ∀ x ∈ l, x ∈ a ∨ x ∈ b := by
  induction h with
  | nil => simp
  | left y _ ih =>
    intro x hx
    rcases List.mem_append.mp hx with hx | hx
    · rcases ih x hx with h | h
      · exact Or.inl (List.mem_append_left _ h)
      · exact Or.inr h
    · exact Or.inl (List.mem_append_right _ hx)
  | right y _ ih =>
    intro x hx
    rcases List.mem_append.mp hx with hx | hx
    · rcases ih x hx with h | h
      · exact Or.inl h
      · exact Or.inr (List.mem_append_left _ h)
    · exact Or.inr (List.mem_append_right _ hx)

/-- **C89** The same for whole executions, with the diagnostics task, delays and the server's own messages interleaved in any way: once the
queues for the worker are empty, what the client sent matters only through the texts — provided that it saved what it changed. -/
theorem C89_executions (env : Env) (hp : ∀ g t o, env.parseFails g t o = false) (hst : Stateless env) (cs cs' : List Msg)
    (as as' : List (HMap Str Diags)) (σ σ' : Sys) (s s' : Server) (h : Execution KeepsClass env cs as σ) (h' : Execution KeepsClass env cs' as' σ')
    (hw : σ.worker = some s) (hw' : σ'.worker = some s') (he : σ.lspQ = []) (he' : σ'.lspQ = [])
    (hr : ∀ m ∈ cs, Ranged m) (hr' : ∀ m ∈ cs', Ranged m) (hs : ∀ u, Saved u cs) (hs' : ∀ u, Saved u cs') (hset : SameSettings s s')
    (htexts : ∀ u, s'.files.documents.get? u = s.files.documents.get? u)
    (hno : ∀ u t, fileExt u = some .template → s.files.documents.get? u = some t → ¬ SyntaxError env (.parsed .jinja t none) t)
    (later later' : List (World × Msg)) (hl : Each SameInput later later') (hq : ∀ m ∈ later, ∀ u p, m.2 ≠ .codeAction u p) :
    Agree (Each SameTold) (told env s later) (told env s' later') := by
  have key : ∀ {cs : List Msg} {as : List (HMap Str Diags)} {σ : Sys} {s : Server}, Execution KeepsClass env cs as σ → σ.worker = some s →
      σ.lspQ = [] → (∀ m ∈ cs, Ranged m) → (∀ u, Saved u cs) → ∀ u, Kept env s.files u True := by
    intro cs as σ s h hw he hr hs
    obtain ⟨ms, s₀, is, h1, h2, h3, h4, h5⟩ := C66_sequential KeepsClass env cs as σ s h hw
    rw [he, List.append_nil] at h3
    rw [h2.files]
    refine kept_saved hp h1 ?_ ?_
    · intro m hm
      refine ⟨h5 m hm, ?_⟩
      rcases h3.mem m.2 (List.mem_map_of_mem hm) with h | h
      · exact hr _ h
      · intro u cs e
        rw [e] at h
        rcases h4 _ h with h | ⟨_, h⟩ | ⟨_, h⟩ <;> cases h
    · intro u a b chs e
      obtain ⟨p', q', e', hsub⟩ := merge_change h3 h4 a b e
      rcases hs u p' q' chs e' with h | ⟨t, h⟩
      · exact Or.inl (hsub _ h)
      · exact Or.inr ⟨t, hsub _ h⟩
  exact AlikeServers.told hp hst later later' s s'
    ⟨hset.config, Alike.of_kept hst (key h hw he hr hs) (key h' hw' he' hr' hs') htexts hset.files hno⟩ hl hq

namespace Fix

theorem apartEnv_stateless : Stateless apartEnv := fun _ _ _ => ⟨rfl, fun _ _ => rfl⟩

/-- a document is opened, changed and saved, and another one is opened -/
def longDay : List (World × Msg) := [(rootWorld, .didOpen uriT c!"aaab"), (rootWorld, .didChange uriT [⟨some ⟨⟨0, 3⟩, ⟨0, 4⟩⟩, []⟩]),
  (rootWorld, .didSave uriT), (rootWorld, .didOpen uriU c!"bbb")]

/-- both are opened -/
def shortDay : List (World × Msg) := [(rootWorld, .didOpen uriU c!"bbb"), (rootWorld, .didOpen uriT c!"aaa")]

end Fix

/-- the conditions of `C89_as_new` are met by two histories, one with a change and one without; what is held are two documents, one of which
defines names, the other one uses them -/
example : ∃ s s' : Server, Server.init.run Fix.apartEnv ([] ++ Fix.longDay) = .ok s ∧ Server.init.run Fix.apartEnv ([] ++ Fix.shortDay) = .ok s' ∧
    (∀ m ∈ [] ++ Fix.longDay, KeepsClass m.1 ∧ Ranged m.2) ∧ (∀ m ∈ [] ++ Fix.shortDay, KeepsClass m.1 ∧ Ranged m.2) ∧
    (∀ m ∈ Fix.longDay ++ Fix.shortDay, m.2 ≠ .initialized ∧ (∀ c o, m.2 ≠ .initialize c o) ∧ ∀ c, m.2 ≠ .didChangeConfiguration c) ∧
    (∀ u, Saved u (([] ++ Fix.longDay).map Prod.snd)) ∧ (∀ u, Saved u (([] ++ Fix.shortDay).map Prod.snd)) ∧
    (∀ u, s'.files.documents.get? u = s.files.documents.get? u) ∧ s.files.documents.get? Fix.uriT = some c!"aaa" ∧
    s.files.documents.get? Fix.uriU = some c!"bbb" ∧
    (∀ u t, fileExt u = some .template → s.files.documents.get? u = some t → ¬ SyntaxError Fix.apartEnv (.parsed .jinja t none) t) := by
  refine ⟨_, _, rfl, rfl, ?_, ?_, ?_, ?_, ?_, ?_, by decide, by decide, ?_⟩
  · intro m hm
    simp only [Fix.longDay, List.nil_append, List.mem_cons, List.not_mem_nil, or_false] at hm
    rcases hm with rfl | rfl | rfl | rfl
    · exact ⟨Fix.rootWorld_orderly.1, fun u cs e => by cases e⟩
    · exact ⟨Fix.rootWorld_orderly.1, fun u cs e => by cases e; simp⟩
    · exact ⟨Fix.rootWorld_orderly.1, fun u cs e => by cases e⟩
    · exact ⟨Fix.rootWorld_orderly.1, fun u cs e => by cases e⟩
  · intro m hm
    simp only [Fix.shortDay, List.nil_append, List.mem_cons, List.not_mem_nil, or_false] at hm
    rcases hm with rfl | rfl <;> exact ⟨Fix.rootWorld_orderly.1, fun u cs e => by cases e⟩
  · intro m hm
    simp only [Fix.longDay, Fix.shortDay, List.cons_append, List.nil_append, List.mem_cons, List.not_mem_nil, or_false] at hm
    rcases hm with rfl | rfl | rfl | rfl | rfl | rfl <;> exact ⟨by simp, by simp, by simp⟩
  · intro u a b cs e
    match a with
    | [] => cases e
    | [_] =>
      simp only [Fix.longDay, List.nil_append, List.map_cons, List.map_nil, List.cons_append, List.cons.injEq] at e
      obtain ⟨_, e2, e3⟩ := e
      cases e2
      rw [← e3]
      exact Or.inl (by simp)
    | [_, _] => cases e
    | [_, _, _] => cases e
    | [_, _, _, _] => cases e
    | _ :: _ :: _ :: _ :: _ :: _ => cases e
  · intro u a b cs e
    match a with
    | [] => cases e
    | [_] => cases e
    | [_, _] => cases e
    | _ :: _ :: _ :: _ => cases e
  · intro u
    show ((HMap.empty.insert Fix.uriU c!"bbb").insert Fix.uriT c!"aaa").get? u =
      (((HMap.empty.insert Fix.uriT c!"aaab").insert Fix.uriT c!"aaa").insert Fix.uriU c!"bbb").get? u
    simp only [HMap.get?_insert]
    have : Fix.uriT ≠ Fix.uriU := by decide
    by_cases h1 : u = Fix.uriT
    · subst h1; simp [this]
    · by_cases h2 : u = Fix.uriU <;> simp [h1, h2, this.symm]
  · rintro u t _ _ ⟨c, hc, _⟩
    cases hc

/-- the documents are answered differently -/
def Spec.Differ (env : Env) (s s' : Server) : Prop :=
  ∃ (w : World) (m : Msg), PureRequest m ∧ ¬ Agree (Each SameTold) (told env s [(w, m)]) (told env s' [(w, m)])

/-- `bad` is broken -/
def Fix.breakEnv : Env :=
  { env with queryMatches := fun q _ text => if q = .jinjaSnippets ∧ text = c!"bad" then [[(tok 9 0 3 c!"bad" 60).cap .errorBlock]] else [] }

/-- **C89 is false with a syntax error**: a document that is opened with a broken text has no symbols at all, one that was sound before has an
empty list of them (and completion in it lists the names of other documents). -/
theorem C89_error_refuted : ∃ (env : Env) (ms ms' : List (World × Msg)) (s s' : Server), (∀ g t o, env.parseFails g t o = false) ∧ Stateless env ∧
    Server.init.run env ms = .ok s ∧ Server.init.run env ms' = .ok s' ∧ (∀ m ∈ ms, KeepsClass m.1 ∧ Ranged m.2) ∧
    (∀ m ∈ ms', KeepsClass m.1 ∧ Ranged m.2) ∧ (∀ u, Saved u (ms.map Prod.snd)) ∧ (∀ u, Saved u (ms'.map Prod.snd)) ∧ SameSettings s s' ∧
    (∀ u, s'.files.documents.get? u = s.files.documents.get? u) ∧ Differ env s s' := by
  refine ⟨Fix.breakEnv, [(Fix.rootWorld, .didOpen Fix.uriT c!"good"), (Fix.rootWorld, .didOpen Fix.uriT c!"bad")],
    [(Fix.rootWorld, .didOpen Fix.uriT c!"bad")], _, _, fun _ _ _ => rfl, fun _ _ _ => ⟨rfl, fun _ _ => rfl⟩, rfl, rfl, ?_, ?_, ?_, ?_,
    ⟨rfl, ⟨rfl, rfl, rfl, rfl, rfl, rfl⟩⟩, ?_, Fix.rootWorld, .documentSymbol Fix.uriT, trivial, ?_⟩
  · intro m hm
    simp only [List.mem_cons, List.not_mem_nil, or_false] at hm
    rcases hm with rfl | rfl <;> exact ⟨Fix.rootWorld_orderly.1, fun u cs e => by cases e⟩
  · intro m hm
    simp only [List.mem_cons, List.not_mem_nil, or_false] at hm
    rw [hm]; exact ⟨Fix.rootWorld_orderly.1, fun u cs e => by cases e⟩
  · intro u a b cs e
    match a with
    | [] => cases e
    | [_] => cases e
    | [_, _] => cases e
    | _ :: _ :: _ :: _ => cases e
  · intro u a b cs e
    match a with
    | [] => cases e
    | [_] => cases e
    | _ :: _ :: _ => cases e
  · intro u
    show (HMap.empty.insert Fix.uriT c!"bad").get? u = ((HMap.empty.insert Fix.uriT c!"good").insert Fix.uriT c!"bad").get? u
    simp only [HMap.get?_insert]
    by_cases h1 : u = Fix.uriT <;> simp [h1]
  · intro h
    have h : Each SameTold [([], Reply.symbols (some []))] [([], Reply.symbols none)] := h
    cases h with
    | cons a _ => cases a.2

/-- **C89 is false for changes that were not saved**: names defined by a change are not known before the save. -/
theorem C89_unsaved_refuted : ∃ (env : Env) (ms ms' : List (World × Msg)) (s s' : Server), (∀ g t o, env.parseFails g t o = false) ∧ Stateless env ∧
    Server.init.run env ms = .ok s ∧ Server.init.run env ms' = .ok s' ∧ (∀ m ∈ ms, KeepsClass m.1 ∧ Ranged m.2) ∧
    (∀ m ∈ ms', KeepsClass m.1 ∧ Ranged m.2) ∧ SameSettings s s' ∧
    (∀ u, s'.files.documents.get? u = s.files.documents.get? u) ∧
    (∀ u t, fileExt u = some .template → s.files.documents.get? u = some t → ¬ SyntaxError env (.parsed .jinja t none) t) ∧ Differ env s s' := by
  refine ⟨Fix.apartEnv, [(Fix.rootWorld, .didOpen Fix.uriT c!"bb"), (Fix.rootWorld, .didChange Fix.uriT [⟨some ⟨⟨0, 2⟩, ⟨0, 2⟩⟩, c!"b"⟩])],
    [(Fix.rootWorld, .didOpen Fix.uriT c!"bbb")], _, _, fun _ _ _ => rfl, Fix.apartEnv_stateless, rfl, rfl, ?_, ?_,
    ⟨rfl, ⟨rfl, rfl, rfl, rfl, rfl, rfl⟩⟩, ?_, ?_, Fix.rootWorld, .documentSymbol Fix.uriT, trivial, ?_⟩
  · intro m hm
    simp only [List.mem_cons, List.not_mem_nil, or_false] at hm
    rcases hm with rfl | rfl
    · exact ⟨Fix.rootWorld_orderly.1, fun u cs e => by cases e⟩
    · exact ⟨Fix.rootWorld_orderly.1, fun u cs e => by cases e; simp⟩
  · intro m hm
    simp only [List.mem_cons, List.not_mem_nil, or_false] at hm
    rw [hm]; exact ⟨Fix.rootWorld_orderly.1, fun u cs e => by cases e⟩
  · intro u
    show (HMap.empty.insert Fix.uriT c!"bbb").get? u = ((HMap.empty.insert Fix.uriT c!"bb").insert Fix.uriT c!"bbb").get? u
    simp only [HMap.get?_insert]
    by_cases h1 : u = Fix.uriT <;> simp [h1]
  · rintro u t _ _ ⟨c, hc, _⟩
    cases hc
  · intro h
    have key : ∀ l : List DocSymbol, l ≠ [] → ¬ Each SameTold [([], Reply.symbols (some []))] [([], Reply.symbols (some l))] := by
      intro l hl h
      cases h with
      | cons a _ =>
        have a2 := a.2
        simp only at a2
        generalize hx : Reply.symbols (some l) = x at a2
        cases a2 with
        | refl => cases hx; exact hl rfl
    exact key _ (by decide) h

end JinjaLsp
