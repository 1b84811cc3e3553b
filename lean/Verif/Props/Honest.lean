import Verif.Props.Sync
import Verif.Props.Definitions
/-
  C81: the trees that are given to the parser for re-use.
-/

namespace JinjaLsp
open Spec Rope

namespace Spec

/-- The edit `e` describes the replacement of one region that turns `t` into `u`, except for the row and column of its new
end. -/
def TrueRegion (e : InputEdit) (t u : Str) : Prop :=
  ∃ a b b' c, t = a ++ b ++ c ∧ u = a ++ b' ++ c ∧
    e.startByte = utf8Len a ∧ e.oldEndByte = utf8Len (a ++ b) ∧ e.newEndByte = utf8Len (a ++ b') ∧
    e.startPosition = advance ⟨0, 0⟩ a ∧ e.oldEndPosition = advance ⟨0, 0⟩ (a ++ b)

/-- The edit `e` describes the replacement of one region that turns `t` into `u`. -/
def TrueEdit (e : InputEdit) (t u : Str) : Prop :=
  ∃ a b b' c, t = a ++ b ++ c ∧ u = a ++ b' ++ c ∧
    e.startByte = utf8Len a ∧ e.oldEndByte = utf8Len (a ++ b) ∧ e.newEndByte = utf8Len (a ++ b') ∧
    e.startPosition = advance ⟨0, 0⟩ a ∧ e.oldEndPosition = advance ⟨0, 0⟩ (a ++ b) ∧
    e.newEndPosition = advance ⟨0, 0⟩ (a ++ b')

/-- What tree-sitter asks of a tree that stands for the text `t`: it is a parse of `t` by the grammar, made without an old
tree or with an old tree that stands for `t`, or it is a tree that stands for an earlier text and was told, by an edit that
is true in the sense of `R`, what happened to it. -/
inductive Honest (R : InputEdit → Str → Str → Prop) (g : Grammar) : Tree → Str → Prop where
  | first (t : Str) : Honest R g (.parsed g t none) t
  | again {o : Tree} {t : Str} (h : Honest R g o t) : Honest R g (.parsed g t (some o)) t
  | told {o : Tree} {t u : Str} {e : InputEdit} (h : Honest R g o t) (he : R e t u) : Honest R g (.edited o e) u

/-- every tree that is held stands for the text that is held -/
def Told (R : InputEdit → Str → Str → Prop) (f : LspFiles) : Prop :=
  ∀ u l T, (f.trees l).get? u = some T → fileExt u = some l ∧
    ∃ t o, f.documents.get? u = some t ∧ T = .parsed (f.grammar l) t o ∧ Honest R (f.grammar l) T t

/-- a document is opened with the text that is held, if any is, and the changes are of the class `C` -/
def Gentle (C : Str → List TextChange → Prop) (s : Server) : Msg → Prop
  | .didOpen u t => ∀ t0, s.files.documents.get? u = some t0 → t0 = t
  | .didChange u cs => ∀ t0, s.files.documents.get? u = some t0 → C t0 cs
  | _ => True

/-- each message is gentle when it is processed -/
def GentleRun (C : Str → List TextChange → Prop) (env : Env) (s : Server) (ms : List (World × Msg)) : Prop :=
  ∀ a m b, ms = a ++ m :: b → KeepsClass m.1 ∧ ∀ s1, s.run env a = .ok s1 → Gentle C s1 m.2

/-- every change of the list replaces a region between plain positions, by plain text without line breaks, of a line that
already has the columns at which the inserted text will end -/
inductive RoomyChanges : Str → List TextChange → Prop
  | done (t : Str) : RoomyChanges t []
  | change {t : Str} {r : Range} {text : Str} {cs : List TextChange} (a b : Nat) (ha : PlainPos t r.start a)
      (hb : PlainPos t r.stop b) (hab : a ≤ b) (hlen : utf8Len t < 4294967296) (hcr : NoLoneCR t)
      (hp : ∀ c ∈ t.take b, PlainChar c) (htext : ∀ c ∈ text, PlainChar c ∧ c ≠ '\n')
      (hroom : PlainPos t ⟨r.start.line, r.start.character + text.length⟩ (a + text.length))
      (hpr : ∀ c ∈ t.take (a + text.length), PlainChar c)
      (rest : RoomyChanges (t.take a ++ text ++ t.drop b) cs) : RoomyChanges t (⟨some r, text⟩ :: cs)

end Spec

/-- the changes are applied and described truly -/
inductive ChangedBy (prof : Profile) (R : InputEdit → Str → Str → Prop) : Str → List TextChange → Prop
  | done (t : Str) : ChangedBy prof R t []
  | change {t u : Str} {r : Range} {text : Str} {e : InputEdit} {cs : List TextChange}
      (h : Rope.applyChange prof t r text = .ok (u, e)) (he : R e t u) (rest : ChangedBy prof R u cs) :
      ChangedBy prof R t (⟨some r, text⟩ :: cs)

theorem regions (t : Str) {a b : Nat} (hab : a ≤ b) :
    t = t.take a ++ (t.take b).drop a ++ t.drop b ∧ t.take a ++ (t.take b).drop a = t.take b := by
  have h : t.take a ++ (t.take b).drop a = t.take b := by
    have : t.take a = (t.take b).take a := by rw [List.take_take, Nat.min_eq_left hab]
    rw [this, List.take_append_drop]
  exact ⟨by rw [h, List.take_append_drop], h⟩

theorem changedBy_plain (prof : Profile) : ∀ {t : Str} {cs : List TextChange}, PlainChanges t cs →
    ChangedBy prof TrueRegion t cs
  | _, _, .done t => .done t
  | t, _, .change (r := r) (text := text) a b ha hb hab hc hcr rest => by
    obtain ⟨ie, he, h1, h2, h3, h4, h5⟩ := C04_regions_partial prof t r text a b ha hb hab hc hcr
    obtain ⟨e1, e2⟩ := regions t hab
    exact .change he ⟨_, _, text, _, e1, rfl, h1, by rw [e2, h2], h3, h4, by rw [e2, h5]⟩ (changedBy_plain prof rest)

theorem changedBy_roomy (prof : Profile) : ∀ {t : Str} {cs : List TextChange}, RoomyChanges t cs →
    ChangedBy prof TrueEdit t cs
  | _, _, .done t => .done t
  | t, _, .change (r := r) (text := text) a b ha hb hab hlen hcr hp htext hroom hpr rest => by
    obtain ⟨ie, he, h1, h2, h3, h4, h5⟩ := C04_regions_partial prof t r text a b ha hb hab hp hcr
    obtain ⟨t', ie', he', h6⟩ := C04_new_end_partial prof t r text a b hlen ha hb hab hcr htext hroom hpr
    rw [he] at he'
    cases he'
    obtain ⟨e1, e2⟩ := regions t hab
    exact .change he ⟨_, _, text, _, e1, rfl, h1, by rw [e2, h2], h3, h4, by rw [e2, h5], h6⟩ (changedBy_roomy prof rest)

/-! ### The invariant -/

section
variable {R : InputEdit → Str → Str → Prop} {env : Env} {w : World}

theorem told_of_frame {n : Str} {f g : LspFiles} (hf : Told R f) (fr : Frame n f g)
    (hn : ∀ l T, (g.trees l).get? n = some T → fileExt n = some l ∧
      ∃ t o, g.documents.get? n = some t ∧ T = .parsed (g.grammar l) t o ∧ Honest R (g.grammar l) T t) : Told R g := by
  intro u l T hT
  by_cases h : u = n
  · subst h; exact hn l T hT
  · have hs := fr.same u h
    rw [hs.tree] at hT
    rw [hs.doc, grammar_conf fr.conf]
    exact hf u l T hT

theorem Spec.Told.congr {f g : LspFiles} (hf : Told R f) (ht : g.trees = f.trees) (hd : g.documents = f.documents)
    (hc : g.parserBackend = f.parserBackend) : Told R g := by
  intro u l T hT
  rw [ht] at hT
  have : g.grammar l = f.grammar l := by cases l <;> simp [LspFiles.grammar, hc]
  rw [hd, this]
  exact hf u l T hT

/-- a document is replaced together with its tree -/
theorem told_replace {f g : LspFiles} {n t : Str} {l : LangType} {T : Tree} (hf : Told R f) (hl : fileExt n = some l)
    (hd : g.documents = f.documents.insert n t)
    (ht : g.trees = fun l' => if l' = l then (f.trees l).insert n T else f.trees l')
    (hc : g.parserBackend = f.parserBackend) (hT : ∃ o, T = .parsed (f.grammar l) t o)
    (hh : Honest R (f.grammar l) T t) : Told R g := by
  intro u l' T' hT'
  have : g.grammar l' = f.grammar l' := by cases l' <;> simp [LspFiles.grammar, hc]
  rw [ht] at hT'
  rw [this, hd]
  by_cases hu : u = n
  · subst hu
    by_cases hll : l' = l
    · subst hll
      simp only [if_pos, HMap.get?_insert_self, Option.some.injEq] at hT'
      subst hT'
      obtain ⟨o, ho⟩ := hT
      exact ⟨hl, t, o, HMap.get?_insert_self .., ho, hh⟩
    · simp only [if_neg hll] at hT'
      obtain ⟨h1, _⟩ := hf u l' T' hT'
      rw [hl] at h1; cases h1; exact absurd rfl hll
  · have hT2 : (f.trees l').get? u = some T' := by
      by_cases hll : l' = l
      · subst hll; simpa only [if_pos, HMap.get?_insert_ne _ _ hu] using hT'
      · simpa only [if_neg hll] using hT'
    obtain ⟨h1, t0, o, hd, e, hh⟩ := hf u l' T' hT2
    exact ⟨h1, t0, o, by rw [HMap.get?_insert_ne _ _ hu]; exact hd, e, hh⟩

/-- parsing a text anew, when no text or the same text is held -/
theorem told_addTree {f f' : LspFiles} {n t : Str} {l : LangType} (hp : ∀ g t o, env.parseFails g t o = false)
    (hf : Told R f) (hl : fileExt n = some l) (ht : ∀ t0, f.documents.get? n = some t0 → t0 = t)
    (hd : f'.documents = f.documents.insert n t) (htr : f'.trees = f.trees) (hc : f'.parserBackend = f.parserBackend) :
    Told R (f'.addTree env n l t) := by
  have hg : f'.grammar l = f.grammar l := by cases l <;> simp [LspFiles.grammar, hc]
  have hadd : f'.addTree env n l t = f'.setTree l n (.parsed (f.grammar l) t ((f.trees l).get? n)) := by
    unfold LspFiles.addTree LspFiles.parse
    simp only [hp, hg, htr]
    rfl
  rw [hadd]
  refine told_replace hf hl (by simp [LspFiles.setTree, hd]) ?_ (by simp [LspFiles.setTree, hc])
    (T := .parsed (f.grammar l) t ((f.trees l).get? n)) ⟨_, rfl⟩ ?_
  · simp only [LspFiles.setTree, htr]
  · cases ho : (f.trees l).get? n with
    | none => exact .first t
    | some o =>
      obtain ⟨_, t0, _, hd, _, hh⟩ := hf n l o ho
      cases ht t0 hd
      exact .again hh

theorem told_addVariables {f g : LspFiles} {n t : Str} {l : LangType} (hf : Told R f)
    (h : f.addVariables env n l t = .ok g) : Told R g :=
  hf.congr (documents_addVariables h).2 (documents_addVariables h).1 (Frame.addVariables h).conf.pb

theorem told_deleteVariables {f : LspFiles} {n : Str} (hf : Told R f) : Told R (f.deleteVariables n) := by
  unfold LspFiles.deleteVariables
  split
  · exact hf
  · exact hf.congr rfl rfl rfl

theorem told_didOpen {f g : LspFiles} {n t : Str} {ig : Bool} {m : Option (HMap Str Diags)}
    (hp : ∀ g t o, env.parseFails g t o = false) (hf : Told R f) (ht : ∀ t0, f.documents.get? n = some t0 → t0 = t)
    (h : f.didOpen env w n t ig = .ok (g, m)) : Told R g := by
  unfold LspFiles.didOpen at h
  split at h
  · cases h; exact hf
  · rename_i l hl
    simp only at h
    split at h
    · cases h
    · rename_i f1 hf1
      have hdel := documents_deleteVariables f n
      have hk := told_addVariables (told_addTree (f := f) (l := l) hp hf hl ht
        (f' := { f.deleteVariables n with documents := (f.deleteVariables n).documents.insert n t })
        (by simp only [hdel.1]) hdel.2 (Frame.deleteVariables f n).conf.pb) hf1
      split at h
      · cases h; exact hk
      · split at h
        · cases h
        · cases h; exact hk
        · cases h; exact hk

theorem told_didSave {f g : LspFiles} {n : Str} {m : Option (HMap Str Diags)} (hf : Told R f)
    (h : f.didSave env w n = .ok (g, m)) : Told R g :=
  hf.congr (documents_didSave h).2 (documents_didSave h).1 (Frame.didSave h).conf.pb

/-- the edits of a notification: the tree ends up standing for the last text -/
theorem honest_inputEdits (hp : ∀ g t o, env.parseFails g t o = false) (n : Str) (l : LangType) :
    ∀ {t : Str} {cs : List TextChange}, ChangedBy env.profile R t cs →
      ∃ t' es, LspFiles.applyChanges env.profile t cs = .ok (t', es, true) ∧
        ∀ (T : Tree) (f : LspFiles), (f.trees l).get? n = some T → Honest R (f.grammar l) T t →
          (∃ o, T = .parsed (f.grammar l) t o) →
          ∃ T', Honest R (f.grammar l) T' t' ∧ (∃ o, T' = .parsed (f.grammar l) t' o) ∧
            ((es.foldl (fun f (ch : Str × InputEdit) => f.inputEdit env n ch.1 ch.2 (some l)) f).trees l).get? n =
              some T'
  | _, _, .done t => ⟨t, [], rfl, fun T f hT hh ho => ⟨T, hh, ho, hT⟩⟩
  | t, _, .change (u := u) (r := r) (text := text) (e := ie) (cs := cs) he hR rest => by
    obtain ⟨t', es, hap, hes⟩ := honest_inputEdits hp n l rest
    refine ⟨t', (u, ie) :: es, by simp only [LspFiles.applyChanges, he, hap], ?_⟩
    intro T f hT hh ho
    have hstep : f.inputEdit env n u ie (some l) =
        f.setTree l n (.parsed (f.grammar l) u (some (.edited T ie))) := by
      unfold LspFiles.inputEdit LspFiles.parse
      simp only [hT, hp]
      rfl
    have hg : (f.inputEdit env n u ie (some l)).grammar l = f.grammar l := by rw [hstep]; cases l <;> rfl
    obtain ⟨T', h1, h2, h3⟩ := hes (.parsed (f.grammar l) u (some (.edited T ie))) (f.inputEdit env n u ie (some l))
      (by rw [hstep]; simp [LspFiles.setTree, HMap.get?_insert_self]) (by rw [hg]; exact .again (.told hh hR))
      ⟨_, by rw [hg]⟩
    rw [hg] at h1 h2
    exact ⟨T', h1, h2, h3⟩

theorem trees_inputEdits_other (n : Str) (l l' : LangType) (h : l' ≠ l) : ∀ (es : List (Str × InputEdit)) (f : LspFiles),
    (es.foldl (fun f (ch : Str × InputEdit) => f.inputEdit env n ch.1 ch.2 (some l)) f).trees l' = f.trees l'
  | [], f => rfl
  | e :: es, f => by
    rw [List.foldl_cons, trees_inputEdits_other n l l' h es]
    unfold LspFiles.inputEdit
    simp only
    split
    · rfl
    · split <;> simp [LspFiles.setTree, h]

theorem told_didChange {f g : LspFiles} {n : Str} {cs : List TextChange} {k : Nat} {b : Bool}
    (hp : ∀ g t o, env.parseFails g t o = false) (hf : Told R f)
    (hc : ∀ t0, f.documents.get? n = some t0 → ChangedBy env.profile R t0 cs)
    (h : f.didChange env n cs k = .ok (g, b)) : Told R g := by
  refine told_of_frame hf (Frame.didChange h) ?_
  intro l T hT
  unfold LspFiles.didChange at h
  split at h
  · cases h; exact hf n l T hT
  · rename_i t0 ht0
    cases hl : fileExt n with
    | none =>
      exfalso
      simp only at h
      split at h
      · cases h
      · split at h
        · cases h
          obtain ⟨h1, _⟩ := hf n l T hT
          rw [hl] at h1; cases h1
        · cases h
          have hnone : ∀ (es : List (Str × InputEdit)) (f : LspFiles),
              es.foldl (fun f (ch : Str × InputEdit) => f.inputEdit env n ch.1 ch.2 none) f = f := by
            intro es
            induction es with
            | nil => intro f; rfl
            | cons e es ih => intro f; rw [List.foldl_cons, ih]; rfl
          simp only [hl, hnone] at hT
          obtain ⟨h1, _⟩ := hf n l T hT
          rw [hl] at h1; cases h1
    | some l0 =>
      obtain ⟨t', es, hap, hes⟩ := honest_inputEdits hp n l0 (hc t0 ht0)
      simp only [hap, Bool.not_true, Bool.false_eq_true, if_false, hl] at h
      cases h
      by_cases hll : l = l0
      · subst hll
        simp only at hT
        cases hT0 : (f.trees l).get? n with
        | none =>
          exfalso
          have hkeep : ∀ (es : List (Str × InputEdit)) (f : LspFiles), (f.trees l).get? n = none →
              es.foldl (fun f (ch : Str × InputEdit) => f.inputEdit env n ch.1 ch.2 (some l)) f = f := by
            intro es
            induction es with
            | nil => intro f _; rfl
            | cons e es ih =>
              intro f hn
              have : f.inputEdit env n e.1 e.2 (some l) = f := by unfold LspFiles.inputEdit; simp only [hn]
              rw [List.foldl_cons, this, ih f hn]
          rw [hkeep es { f with documents := f.documents.insert n t' } hT0] at hT
          simp only [hT0] at hT
          cases hT
        | some T0 =>
          obtain ⟨_, t1, o, hd, e, hh⟩ := hf n l T0 hT0
          rw [ht0] at hd
          cases hd
          obtain ⟨T', h1, ⟨o', h2⟩, h3⟩ := hes T0 { f with documents := f.documents.insert n t' } hT0
            (by cases l <;> exact hh) ⟨o, by cases l <;> exact e⟩
          rw [h3] at hT
          cases hT
          have hgr : ∀ (g : LspFiles), g.parserBackend = f.parserBackend → g.grammar l = f.grammar l := by
            intro g hg; cases l <;> simp [LspFiles.grammar, hg]
          have hg1 := hgr { f with documents := f.documents.insert n t' } rfl
          have hpb := (Frame.inputEdits env n (some l) es { f with documents := f.documents.insert n t' }).conf.pb
          rw [hg1] at h1 h2
          refine ⟨rfl, t', o', ?_, h2.trans (congrArg (Tree.parsed · t' o') (hgr _ ?_).symm), (hgr _ ?_).symm.subst
            (motive := fun G => Honest R G T t') h1⟩
          · simp only [documents_inputEdits, HMap.get?_insert_self]
          · exact hpb
          · exact hpb
      · simp only [trees_inputEdits_other n l0 l hll] at hT
        obtain ⟨h1, _⟩ := hf n l T hT
        rw [hl] at h1; cases h1; exact absurd rfl hll

/-- what initialisation has read so far -/
def FromDisk (w : World) (f : LspFiles) : Prop :=
  ∀ u t, f.documents.get? u = some t → ∃ p, u = c!"file://" ++ p ∧ w.readFile p = some t

theorem told_readFile {f g : LspFiles} {path : Str} {l : LangType} (hp : ∀ g t o, env.parseFails g t o = false)
    (hw : KeepsClass w) (hf : Told R f ∧ FromDisk w f) (hl : fileExt path = some l)
    (h : f.readFile env w path l = .ok g) : Told R g ∧ FromDisk w g := by
  cases hc : w.canonicalize path with
  | error e => simp only [LspFiles.readFile, hc] at h; cases h; exact hf
  | ok name =>
    simp only [LspFiles.readFile, hc] at h
    split at h
    · cases h; exact hf
    · rename_i content hr
      have hd := documents_addVariables h
      refine ⟨told_addVariables (told_addTree (f := f) (t := content)
        (f' := { f with documents := f.documents.insert (c!"file://" ++ name) content })
        hp hf.1 (hw path name l hc hl) ?_ rfl rfl rfl) h, ?_⟩
      · intro t0 ht0
        obtain ⟨p, e, hr'⟩ := hf.2 _ _ ht0
        have : p = name := (List.append_cancel_left e).symm
        subst this
        rw [hr] at hr'; cases hr'; rfl
      · intro u t ht
        rw [hd.1, documents_addTree] at ht
        simp only at ht
        by_cases hu : u = c!"file://" ++ name
        · subst hu
          rw [HMap.get?_insert_self] at ht
          cases ht
          exact ⟨name, rfl, hr⟩
        · rw [HMap.get?_insert_ne _ _ hu] at ht
          exact hf.2 u t ht

theorem told_walkStart (c : JinjaConfig) : Told R (walkStart c) ∧ FromDisk w (walkStart c) := by
  refine ⟨fun u l T hT => ?_, fun u t ht => ?_⟩
  · unfold walkStart at hT
    simp only at hT
    split at hT <;> simp [LspFiles.default] at hT
  · unfold walkStart at ht
    simp only at ht
    split at ht <;> simp [LspFiles.default] at ht

theorem told_walkdir {c : JinjaConfig} {d : HMap Str Diags} {g : LspFiles} (hp : ∀ g t o, env.parseFails g t o = false)
    (hw : KeepsClass w) (h : walkdir env w c = .ok (some (d, g))) : Told R g :=
  (walkdir_induct (fun f => Told R f ∧ FromDisk w f) (told_walkStart c)
    (fun _ _ _ _ hf hl hg => told_readFile hp hw hf hl hg) h).1

theorem told_handle {s s' : Server} {m : Msg} {out : List Send} {r : Reply} {C : Str → List TextChange → Prop}
    (hp : ∀ g t o, env.parseFails g t o = false) (hC : ∀ t cs, C t cs → ChangedBy env.profile R t cs)
    (hw : KeepsClass w) (hf : Told R s.files) (hg : Gentle C s m) (h : s.handle env w m = .ok (s', out, r)) :
    Told R s'.files := by
  have hs := handle_files h
  clear h
  cases hs with
  | query _ h | command _ h | config _ h | notInitialized h => rw [h]; exact hf
  | «initialize» _ _ h =>
    rcases h with h | h
    · rw [h]; exact hf
    · rw [h]; exact hf.congr rfl rfl rfl
  | codeActions m h =>
    have hfr := addCodeActions_frame w.order s.files m
    rw [h]
    exact hf.congr hfr.2.1 hfr.1 hfr.2.2.2.1.pb
  | didOpen u t m h => exact told_didOpen hp hf hg h
  | didSave u m h => exact told_didSave hf h
  | didChange u cs b h => exact told_didChange hp hf (fun t0 ht => hC _ _ (hg t0 ht)) h
  | initialized f d h e =>
    rw [e]
    exact (told_walkdir hp hw h).congr rfl rfl rfl

theorem told_run {C : Str → List TextChange → Prop} (hp : ∀ g t o, env.parseFails g t o = false)
    (hC : ∀ t cs, C t cs → ChangedBy env.profile R t cs) : ∀ (ms : List (World × Msg)) (s s' : Server),
    Told R s.files → GentleRun C env s ms → s.run env ms = .ok s' → Told R s'.files
  | [], s, s', hf, _, h => by simp only [Server.run] at h; cases h; exact hf
  | m :: ms, s, s', hf, hg, h => by
    simp only [Server.run] at h
    split at h
    · cases h
    · rename_i s1 out r h1
      obtain ⟨hw, hm⟩ := hg [] m ms rfl
      refine told_run hp hC ms s1 s' (told_handle hp hC hw hf (hm s rfl) h1) ?_ h
      intro a m' b e
      obtain ⟨h2, h3⟩ := hg (m :: a) m' b (by rw [e]; rfl)
      refine ⟨h2, fun s2 hs2 => h3 s2 ?_⟩
      simp only [Server.run, h1]
      exact hs2

theorem told_init : Told R Server.init.files := by
  intro u l T hT
  simp [Server.init, LspFiles.default] at hT

end

/-! ### Parsing from scratch -/

/-- the tree that parsing the same text without an old tree gives -/
def Spec.scratch : Tree → Tree
  | .parsed g t _ => .parsed g t none
  | .edited T e => .edited T e

/-- the same libraries with a parser that does not look at the old tree -/
def Spec.fromScratch (env : Env) : Env :=
  { env with rootEnd := fun T => env.rootEnd (scratch T), queryMatches := fun q T => env.queryMatches q (scratch T) }

/-- The promise of incremental parsing: a parse that re-uses a tree which stands for the text (edits being true in the sense
of `R`) cannot be told from a parse without an old tree. -/
def Spec.Faithful (R : InputEdit → Str → Str → Prop) (env : Env) : Prop :=
  ∀ g t o, Honest R g (.parsed g t o) t →
    env.rootEnd (.parsed g t o) = env.rootEnd (.parsed g t none) ∧
    ∀ q x, env.queryMatches q (.parsed g t o) x = env.queryMatches q (.parsed g t none) x

/-- nothing that is asked about the tree depends on the old tree -/
def Settled (env : Env) (T : Tree) : Prop :=
  env.rootEnd T = env.rootEnd (scratch T) ∧ ∀ q x, env.queryMatches q T x = env.queryMatches q (scratch T) x

section
variable {env : Env} {w : World}

theorem settled_parsed {R : InputEdit → Str → Str → Prop} (he : Faithful R env) {g : Grammar} {T : Tree} {t : Str}
    (hT : ∃ o, T = .parsed g t o) (h : Honest R g T t) : Settled env T := by
  obtain ⟨o, rfl⟩ := hT
  exact he g t o h

theorem settled_of_told {R : InputEdit → Str → Str → Prop} (he : Faithful R env) {f : LspFiles} (hf : Told R f) (u : Str)
    (l : LangType) (T : Tree) (hT : (f.trees l).get? u = some T) : Settled env T := by
  obtain ⟨_, t, o, _, e, hh⟩ := hf u l T hT
  exact settled_parsed he ⟨o, e⟩ hh

theorem snippetsQuery_scratch {T : Tree} (h : Settled env T) (p : Point) (x : Str) (a : Bool) :
    snippetsQuery (fromScratch env) T p x a = snippetsQuery env T p x a := by
  simp only [snippetsQuery, fromScratch, h.2]

theorem objectsQuery_scratch {T : Tree} (h : Settled env T) (p : Point) (x : Str) (a : Bool) :
    objectsQuery (fromScratch env) T p x a = objectsQuery env T p x a := by
  simp only [objectsQuery, fromScratch, h.2]

theorem templatesQuery_scratch {T : Tree} (h : Settled env T) (p : Point) (x : Str) (a : Bool) :
    templatesQuery (fromScratch env) T p x a = templatesQuery env T p x a := by
  simp only [templatesQuery, fromScratch, h.2]

theorem definitionQuery_scratch {T : Tree} (h : Settled env T) (p : Point) (x : Str) (a : Bool) :
    definitionQuery (fromScratch env) T p x a = definitionQuery env T p x a := by
  simp only [definitionQuery, fromScratch, h.2, h.1]

theorem backendDefinitionQuery_scratch {T : Tree} (h : Settled env T) (g : Grammar) (p : Point) (x : Str) (a : Bool) :
    backendDefinitionQuery (fromScratch env) g T p x a = backendDefinitionQuery env g T p x a := by
  simp only [backendDefinitionQuery, fromScratch, h.2]

theorem backendTemplatesQuery_scratch {T : Tree} (h : Settled env T) (g : Grammar) (p : Point) (x : Str) (a : Bool) :
    backendTemplatesQuery (fromScratch env) g T p x a = backendTemplatesQuery env g T p x a := by
  simp only [backendTemplatesQuery, fromScratch, h.2]

/-- all trees are settled -/
abbrev AllSettled (env : Env) (f : LspFiles) : Prop := ∀ u l T, (f.trees l).get? u = some T → Settled env T

theorem addTree_scratch (f : LspFiles) (n : Str) (l : LangType) (t : Str) :
    f.addTree (fromScratch env) n l t = f.addTree env n l t := rfl

theorem addVariables_scratch {f : LspFiles} (h : AllSettled env f) (n : Str) (l : LangType) (t : Str) :
    f.addVariables (fromScratch env) n l t = f.addVariables env n l t := by
  unfold LspFiles.addVariables
  cases hT : (f.trees l).get? n with
  | none => rfl
  | some T =>
    have hs := h n l T hT
    cases l <;> simp only [LspFiles.backendVariables, backendDefinitionQuery_scratch hs, backendTemplatesQuery_scratch hs,
      snippetsQuery_scratch hs, definitionQuery_scratch hs]

theorem searchErrors_scratch {T : Tree} (h : Settled env T) (x : Str) (v : Variables) (n : Str) (d : Str) (l : LangType)
    (b : Bool) : searchErrors (fromScratch env) w T x v n d l b = searchErrors env w T x v n d l b := by
  unfold searchErrors
  simp only [objectsQuery_scratch h, templatesQuery_scratch h]

theorem readTree_scratch {f : LspFiles} (h : AllSettled env f) (n : Str) :
    f.readTree (fromScratch env) w n = f.readTree env w n := by
  unfold LspFiles.readTree
  split
  · rfl
  · split
    · rfl
    · rename_i l hl
      cases hT : (f.trees l).get? n with
      | none => rfl
      | some T => simp only [searchErrors_scratch (h n l T hT)]

theorem readTrees_scratch {f : LspFiles} (h : AllSettled env f) :
    f.readTrees (fromScratch env) w = f.readTrees env w := by
  unfold LspFiles.readTrees
  have : ∀ (ns : List Str) (m : HMap Str Diags), f.readTreesLoop (fromScratch env) w ns m = f.readTreesLoop env w ns m := by
    intro ns
    induction ns with
    | nil => intro m; rfl
    | cons n ns ih => intro m; simp only [LspFiles.readTreesLoop, readTree_scratch h, ih]
  rw [this]

variable {R : InputEdit → Str → Str → Prop}

theorem readFile_scratch {f : LspFiles} (he : Faithful R env) (hp : ∀ g t o, env.parseFails g t o = false)
    (hw : KeepsClass w) (hf : Told R f ∧ FromDisk w f) {path : Str} {l : LangType} (hl : fileExt path = some l) :
    f.readFile (fromScratch env) w path l = f.readFile env w path l := by
  unfold LspFiles.readFile
  cases hc : w.canonicalize path with
  | error e => rfl
  | ok name =>
    simp only
    cases hr : w.readFile name with
    | none => rfl
    | some content =>
      simp only [addTree_scratch]
      refine addVariables_scratch (settled_of_told he (told_addTree (f := f) (t := content)
        (f' := { f with documents := f.documents.insert (c!"file://" ++ name) content })
        hp hf.1 (hw path name l hc hl) ?_ rfl rfl rfl)) _ _ _
      intro t0 ht0
      obtain ⟨p, e, hr'⟩ := hf.2 _ _ ht0
      have : p = name := (List.append_cancel_left e).symm
      subst this
      rw [hr] at hr'; cases hr'; rfl

theorem walkItems_scratch (he : Faithful R env) (hp : ∀ g t o, env.parseFails g t o = false) (hw : KeepsClass w) :
    ∀ (is : List WalkItem) (f : LspFiles), Told R f ∧ FromDisk w f →
      walkItems (fromScratch env) w f is = walkItems env w f is
  | [], f, _ => rfl
  | .err :: is, f, _ => rfl
  | .nonFile _ :: is, f, hf => by simp only [walkItems]; exact walkItems_scratch he hp hw is f hf
  | .file path :: is, f, hf => by
    simp only [walkItems]
    cases hl : fileExt path with
    | none => exact walkItems_scratch he hp hw is f hf
    | some l =>
      simp only [readFile_scratch he hp hw hf hl]
      cases hr : f.readFile env w path l with
      | error e => rfl
      | ok g => exact walkItems_scratch he hp hw is g (told_readFile hp hw hf hl hr)

theorem walkDirs_scratch (he : Faithful R env) (hp : ∀ g t o, env.parseFails g t o = false) (hw : KeepsClass w) :
    ∀ (ds : List Str) (f : LspFiles), Told R f ∧ FromDisk w f →
      walkDirs (fromScratch env) w f ds = walkDirs env w f ds
  | [], f, _ => rfl
  | d :: ds, f, hf => by
    simp only [walkDirs, walkItems_scratch he hp hw _ f hf]
    cases hi : walkItems env w f (w.walk d) with
    | error e => rfl
    | ok o =>
      cases o with
      | none => rfl
      | some g =>
        exact walkDirs_scratch he hp hw ds g (walkItems_induct (fun f => Told R f ∧ FromDisk w f) (fun _ _ _ _ hf hl hg => told_readFile hp hw hf hl hg) _ f g hf hi)

theorem walkdir_scratch (he : Faithful R env) (hp : ∀ g t o, env.parseFails g t o = false) (hw : KeepsClass w)
    (c : JinjaConfig) : walkdir (fromScratch env) w c = walkdir env w c := by
  unfold walkdir
  rw [walkDirs_scratch he hp hw _ _ (told_walkStart c)]
  cases hd : walkDirs env w (walkStart c) (c.templates :: c.backend) with
  | error e => rfl
  | ok o =>
    cases o with
    | none => rfl
    | some g =>
      have := walkDirs_induct (fun f => Told R f ∧ FromDisk w f) (fun _ _ _ _ hf hl hg => told_readFile hp hw hf hl hg) _ _ g
        (told_walkStart c) hd
      simp only [readTrees_scratch (settled_of_told he this.1)]

theorem didSave_scratch {f : LspFiles} (he : Faithful R env) (hf : Told R f) (n : Str) :
    f.didSave (fromScratch env) w n = f.didSave env w n := by
  unfold LspFiles.didSave
  split
  · rfl
  · rename_i l hl
    split
    · rfl
    · rename_i t ht
      have hd : Told R (f.deleteVariables n) := told_deleteVariables hf
      simp only [addVariables_scratch (settled_of_told he hd)]
      cases ha : (f.deleteVariables n).addVariables env n l t with
      | error e => rfl
      | ok g => simp only [readTree_scratch (settled_of_told he (told_addVariables hd ha))]

theorem didOpen_scratch {f : LspFiles} (he : Faithful R env) (hp : ∀ g t o, env.parseFails g t o = false) (hf : Told R f)
    (n t : Str) (ig : Bool) (ht : ∀ t0, f.documents.get? n = some t0 → t0 = t) :
    f.didOpen (fromScratch env) w n t ig = f.didOpen env w n t ig := by
  unfold LspFiles.didOpen
  split
  · rfl
  · rename_i l hl
    have hdel := documents_deleteVariables f n
    have hk := told_addTree (f := f) (l := l) hp hf hl ht
        (f' := { f.deleteVariables n with documents := (f.deleteVariables n).documents.insert n t })
        (by simp only [hdel.1]) hdel.2 (Frame.deleteVariables f n).conf.pb
    simp only [addTree_scratch, addVariables_scratch (settled_of_told he hk)]
    cases ha : LspFiles.addVariables env (LspFiles.addTree env
        { f.deleteVariables n with documents := (f.deleteVariables n).documents.insert n t } n l t) n l t with
    | error e => rfl
    | ok g => simp only [readTree_scratch (settled_of_told he (told_addVariables hk ha))]

theorem completion_scratch {f : LspFiles} (h : AllSettled env f) (u : Str) (p : Position) (tr : TriggerKind) :
    f.completion (fromScratch env) u p tr = f.completion env u p tr := by
  unfold LspFiles.completion
  split
  · rfl
  · simp only
    split
    · rfl
    · rename_i l hl
      split
      · rename_i T x hT hx
        have hs := h _ _ _ hT
        simp only [snippetsQuery_scratch hs, objectsQuery_scratch hs, templatesQuery_scratch hs, backendTemplatesQuery_scratch hs]
        rfl
      · rfl

theorem hover_scratch {f : LspFiles} (h : AllSettled env f) (u : Str) (p : Position) :
    f.hover (fromScratch env) u p = f.hover env u p := by
  unfold LspFiles.hover
  split
  · rfl
  · simp only
    split
    · rename_i T x hT hx
      simp only [objectsQuery_scratch (h _ _ _ hT)]
    · rfl

theorem collectLocations_scratch (file : Str) : ∀ (vs : List Identifier),
    LspFiles.collectLocations (fromScratch env) file vs = LspFiles.collectLocations env file vs
  | [] => rfl
  | v :: vs => by
    have hv : LspFiles.variableLocation (fromScratch env) file v = LspFiles.variableLocation env file v := rfl
    simp only [LspFiles.collectLocations, hv, collectLocations_scratch file vs]

theorem collectFiles_scratch (u i : Str) : ∀ (fs : List (Str × List Identifier)),
    LspFiles.collectFiles (fromScratch env) u i fs = LspFiles.collectFiles env u i fs
  | [] => rfl
  | f :: fs => by simp only [LspFiles.collectFiles, collectLocations_scratch, collectFiles_scratch u i fs]

theorem templateLocation_scratch (f : LspFiles) (n : Str) :
    f.templateLocation (fromScratch env) w n = f.templateLocation env w n := rfl

theorem gotoDefinition_scratch {f : LspFiles} (h : AllSettled env f) (u : Str) (p : Position) :
    f.gotoDefinition (fromScratch env) w u p = f.gotoDefinition env w u p := by
  unfold LspFiles.gotoDefinition
  split
  · rfl
  · simp only
    split
    · rename_i T x hT hx
      have hs := h _ _ _ hT
      simp only [objectsQuery_scratch hs, templatesQuery_scratch hs, backendTemplatesQuery_scratch hs, collectFiles_scratch,
        templateLocation_scratch]
    · rfl

theorem codeAction_scratch {f : LspFiles} (h : AllSettled env f) (u : Str) (p : Position) :
    f.codeAction (fromScratch env) u p = f.codeAction env u p := by
  unfold LspFiles.codeAction
  split
  · rfl
  · simp only
    split
    · rename_i T x hT hx
      have hs := h _ _ _ hT
      simp only [objectsQuery_scratch hs]
    · rfl

theorem handle_scratch {s : Server} {C : Str → List TextChange → Prop} (he : Faithful R env)
    (hp : ∀ g t o, env.parseFails g t o = false) (hw : KeepsClass w) (hf : Told R s.files) (m : Msg) (hg : Gentle C s m) :
    s.handle (fromScratch env) w m = s.handle env w m := by
  have ha : AllSettled env s.files := settled_of_told he hf
  cases m with
  | «initialize» c o => rfl
  | initialized => simp only [Server.handle, Server.onInitialized, walkdir_scratch he hp hw]
  | didOpen u t => simp only [Server.handle, didOpen_scratch he hp hf u t false hg]
  | didSave u => simp only [Server.handle, didSave_scratch he hf]
  | didChange u cs => rfl
  | completion u p t => simp only [Server.handle, Server.onCompletion, completion_scratch ha]
  | hover u p => simp only [Server.handle, Server.onHover, hover_scratch ha]
  | goto u p => simp only [Server.handle, gotoDefinition_scratch ha]
  | codeAction u p =>
    simp only [Server.handle, Server.onCodeAction, codeAction_scratch ha]
    rfl
  | executeCommand c => rfl
  | documentSymbol u => rfl
  | didChangeConfiguration c => rfl
  | codeActions m => rfl

end

/-! ## C81 -/

theorem gentleRun_cons {C : Str → List TextChange → Prop} {env : Env} {s s1 : Server} {m : World × Msg}
    {ms : List (World × Msg)} {out : List Send} {r : Reply} (hg : GentleRun C env s (m :: ms))
    (h1 : s.handle env m.1 m.2 = .ok (s1, out, r)) : GentleRun C env s1 ms := by
  intro a m' b e
  obtain ⟨h2, h3⟩ := hg (m :: a) m' b (by rw [e]; rfl)
  refine ⟨h2, fun s2 hs2 => h3 s2 ?_⟩
  simp only [Server.run, h1]
  exact hs2

theorem workerRun_none (env env' : Env) : ∀ (ms : List (World × Msg)), workerRun env none ms = workerRun env' none ms
  | [] => rfl
  | _ :: ms => by simp only [workerRun, workerStep, workerRun_none env env' ms]

theorem workerRun_scratch {env : Env} {R : InputEdit → Str → Str → Prop} {C : Str → List TextChange → Prop}
    (he : Faithful R env) (hp : ∀ g t o, env.parseFails g t o = false)
    (hC : ∀ t cs, C t cs → ChangedBy env.profile R t cs) : ∀ (ms : List (World × Msg)) (s : Server), Told R s.files →
    GentleRun C env s ms → workerRun (fromScratch env) (some s) ms = workerRun env (some s) ms
  | [], s, _, _ => rfl
  | m :: ms, s, hf, hg => by
    obtain ⟨hw, hm⟩ := hg [] m ms rfl
    have hh := handle_scratch he hp hw hf m.2 (hm s rfl)
    simp only [workerRun, workerStep, hh]
    cases h1 : s.handle env m.1 m.2 with
    | error e => simp only [workerRun_none (fromScratch env) env ms]
    | ok p =>
      obtain ⟨s1, out, r⟩ := p
      simp only [workerRun_scratch he hp hC ms s1 (told_handle hp hC hw hf (hm s rfl) h1) (gentleRun_cons hg h1)]

/-- **C81** In every history in which documents are opened with the text that is held, if any, and changes are between plain
positions, every tree that is held stands for the text that is held: it was made by parsing that text, and the tree that was
given to the parser for re-use, if any, was made from the same text or was told the region in which that text was changed.
Missing for the full statement: other positions, re-opening with another text (`C81_reopened_refuted`), the row and column
of the new end (`C81_append_refuted`, `C81_points_partial`), parser failures, links to files of another class. -/
theorem C81_regions_partial (env : Env) (hp : ∀ g t o, env.parseFails g t o = false) (ms : List (World × Msg)) (s : Server)
    (hg : GentleRun PlainChanges env Server.init ms) (h : Server.init.run env ms = .ok s) (u : Str) (l : LangType) (T : Tree)
    (hT : (s.files.trees l).get? u = some T) :
    ∃ t, s.files.documents.get? u = some t ∧ Honest TrueRegion (s.files.grammar l) T t := by
  obtain ⟨_, t, _, hd, _, hh⟩ := told_run (R := TrueRegion) hp (fun _ _ => changedBy_plain env.profile) ms _ s told_init hg h u l T hT
  exact ⟨t, hd, hh⟩

/-- **C81** If moreover each change inserts text without a line break at columns its line already has, then the edits were
true in every respect. Missing for the full statement: as above. -/
theorem C81_points_partial (env : Env) (hp : ∀ g t o, env.parseFails g t o = false) (ms : List (World × Msg)) (s : Server)
    (hg : GentleRun RoomyChanges env Server.init ms) (h : Server.init.run env ms = .ok s) (u : Str) (l : LangType) (T : Tree)
    (hT : (s.files.trees l).get? u = some T) :
    ∃ t, s.files.documents.get? u = some t ∧ Honest TrueEdit (s.files.grammar l) T t := by
  obtain ⟨_, t, _, hd, _, hh⟩ := told_run (R := TrueEdit) hp (fun _ _ => changedBy_roomy env.profile) ms _ s told_init hg h u l T hT
  exact ⟨t, hd, hh⟩

/-- **C81** Hence, if the parser keeps the promise of incremental parsing, nobody can tell from the answers, the messages or
the state, at any point of such a history, that trees are re-used: a server whose parser ignores the old trees does the same
thing with every message. Missing for the full statement: as above. -/
theorem C81_unobservable_partial (env : Env) (he : Faithful TrueEdit env) (hp : ∀ g t o, env.parseFails g t o = false)
    (ms : List (World × Msg)) (hg : GentleRun RoomyChanges env Server.init ms) :
    workerRun (fromScratch env) (some Server.init) ms = workerRun env (some Server.init) ms ∧
    ∀ a m b s, ms = a ++ m :: b → Server.init.run env a = .ok s →
      s.handle (fromScratch env) m.1 m.2 = s.handle env m.1 m.2 := by
  refine ⟨workerRun_scratch he hp (fun _ _ => changedBy_roomy env.profile) ms _ told_init hg, ?_⟩
  intro a m b s e hs
  obtain ⟨hw, hm⟩ := hg a m b e
  refine handle_scratch he hp hw (told_run (R := TrueEdit) (C := RoomyChanges) hp (fun _ _ => changedBy_roomy env.profile) a _ s told_init ?_ hs)
    m.2 (hm s hs)
  intro a' m' b' e'
  exact hg a' m' (b' ++ m :: b) (by rw [e, e']; simp)

/-- **C81** is false in general: when a document that is held is opened with another text (after it was closed without
saving, or after it changed on disk), the parser is given the tree of the old text as if it were one of the new text. -/
theorem C81_reopened_refuted (env : Env) (hp : ∀ g t o, env.parseFails g t o = false) (w : World) (s s' : Server) (u t t' : Str)
    (l : LangType) (o : Option Tree) (out : List Send) (r : Reply) (hl : fileExt u = some l)
    (hT : (s.files.trees l).get? u = some (.parsed (s.files.grammar l) t o)) (hne : t ≠ t')
    (h : s.handle env w (.didOpen u t') = .ok (s', out, r)) :
    ∃ T, (s'.files.trees l).get? u = some T ∧ ∀ R g x, ¬ Honest R g T x := by
  cases handle_files h with
  | query hm => cases hm
  | didOpen _ _ m h =>
    unfold LspFiles.didOpen at h
    simp only [hl] at h
    split at h
    · cases h
    · rename_i f1 hf1
      have hdel := documents_deleteVariables s.files u
      have key : (f1.trees l).get? u = some (.parsed (s.files.grammar l) t' (some (.parsed (s.files.grammar l) t o))) := by
        rw [(documents_addVariables hf1).2]
        have hg : (s.files.deleteVariables u).parserBackend = s.files.parserBackend := (Frame.deleteVariables s.files u).conf.pb
        unfold LspFiles.addTree LspFiles.parse
        simp only [hp, hdel.2, hT, LspFiles.setTree]
        cases l <;> simp [LspFiles.grammar, hg]
      have hno : ∀ R g x, ¬ Honest R g (.parsed (s.files.grammar l) t' (some (.parsed (s.files.grammar l) t o))) x := by
        intro R g x hh
        cases hh with
        | again h2 => cases h2 <;> exact hne rfl
      split at h
      · cases h; exact ⟨_, key, hno⟩
      · split at h
        · cases h
        · cases h; exact ⟨_, key, hno⟩
        · cases h; exact ⟨_, key, hno⟩

/-- **C81** … and so is every tree after text was appended to a document: the parser was told that the inserted text ends
where it begins. -/
theorem C81_append_refuted (env : Env) (hp : ∀ g t o, env.parseFails g t o = false) (w : World) (s : Server) (u t text : Str)
    (l : LangType) (o : Option Tree) (p : Position) (hl : fileExt u = some l) (ht : s.files.documents.get? u = some t)
    (hT : (s.files.trees l).get? u = some (.parsed (s.files.grammar l) t o)) (hlen : utf8Len t < 4294967296)
    (hend : PlainPos t p t.length) (hcr : NoLoneCR t) (hpl : ∀ c ∈ t, PlainChar c) (htext : text ≠ []) :
    ∃ s' T, s.handle env w (.didChange u [⟨some ⟨p, p⟩, text⟩]) = .ok (s', [], .none) ∧
      s'.files.documents.get? u = some (t ++ text) ∧ (s'.files.trees l).get? u = some T ∧
      ∀ g x, ¬ Honest TrueEdit g T x := by
  have hk : t.take t.length = t := List.take_length
  have hpl' : ∀ c ∈ t.take t.length, PlainChar c := by rw [hk]; exact hpl
  obtain ⟨ie, he, h1, h2, h3, h4, h5⟩ := C04_regions_partial env.profile t ⟨p, p⟩ text t.length t.length hend hend
    (Nat.le_refl _) hpl' hcr
  rw [hk, List.drop_length, List.append_nil] at he
  rw [hk] at h1 h4
  have hb : Rope.toByte t p = .ok (utf8Len t) := by rw [utf8Len_plain t hpl]; exact toByte_plain hend
  have hl' : terminatorsIn t (utf8Len t) = p.line := by rw [utf8Len_plain t hpl]; exact terminatorsIn_plain hend hpl'
  obtain ⟨e1, e2⟩ := C04_append_wrong env.profile t p text _ ie hlen hb hl' htext he
  have hap : LspFiles.applyChanges env.profile t [⟨some ⟨p, p⟩, text⟩] = .ok (t ++ text, [(t ++ text, ie)], true) := by
    simp only [LspFiles.applyChanges, he]
  have hgr : LspFiles.grammar { s.files with documents := s.files.documents.insert u (t ++ text) } l = s.files.grammar l := by
    cases l <;> rfl
  simp only [Server.handle, Server.onDidChange, LspFiles.didChange, ht, hap, hl, Bool.not_true, Bool.false_eq_true, if_false,
    List.foldl_cons, List.foldl_nil, LspFiles.inputEdit, hT, LspFiles.parse, hp]
  refine ⟨_, .parsed (s.files.grammar l) (t ++ text) (some (.edited (.parsed (s.files.grammar l) t o) ie)), rfl, ?_, ?_, ?_⟩
  · simp only [LspFiles.setTree, HMap.get?_insert_self]
  · simp only [LspFiles.setTree, if_pos, HMap.get?_insert_self, hgr]
  · intro g x hh
    cases hh with
    | again h =>
      cases h with
      | told h he =>
        have hx : ∀ {G T y}, Honest TrueEdit G T y → ∀ g' t' o', T = .parsed g' t' o' → y = t' := by
          intro G T y hy g' t' o' e
          cases hy with
          | first => cases e; rfl
          | again _ => cases e; rfl
          | told _ _ => cases e
        cases hx h _ _ _ rfl
        obtain ⟨a, b, b', c, d1, d2, d3, d4, d5, d6, d7, d8⟩ := he
        have hz : ∀ y : Str, utf8Len y = 0 → y = [] := by
          intro y hy
          have := length_le_utf8Len y
          exact List.length_eq_zero_iff.mp (by omega)
        have hbc : utf8Len (b ++ c) = 0 := by
          have : utf8Len t = utf8Len a + utf8Len (b ++ c) := by rw [← utf8Len_append, ← List.append_assoc, ← d1]
          omega
        have hbc' := hz _ hbc
        obtain ⟨rfl, rfl⟩ := List.append_eq_nil_iff.mp hbc'
        simp only [List.append_nil] at d1 d2
        subst d1
        cases List.append_cancel_left d2
        rw [d8, advance_append, ← d6] at e2
        exact e2 rfl

theorem gentleRun_nil {C : Str → List TextChange → Prop} {env : Env} {s : Server} : GentleRun C env s [] := by
  intro a m b e
  cases a <;> cases e

theorem gentleRun_of_cons {C : Str → List TextChange → Prop} {env : Env} {s s1 : Server} {m : World × Msg}
    {ms : List (World × Msg)} {out : List Send} {r : Reply} (hw : KeepsClass m.1) (hm : Gentle C s m.2)
    (h1 : s.handle env m.1 m.2 = .ok (s1, out, r)) (hg : GentleRun C env s1 ms) : GentleRun C env s (m :: ms) := by
  intro a m' b e
  cases a with
  | nil =>
    cases e
    refine ⟨hw, fun s2 h2 => ?_⟩
    simp only [Server.run] at h2
    cases h2
    exact hm
  | cons x a =>
    cases e
    obtain ⟨h2, h3⟩ := hg a m' b rfl
    refine ⟨h2, fun s2 hs2 => h3 s2 ?_⟩
    simp only [Server.run, h1] at hs2
    exact hs2

namespace Fix

/-- a parser that is faithful but, when the old tree is of another text, finds no definitions -/
def reusingEnv : Env :=
  { env with
    queryMatches := fun q T x => match q, T with
      | .jinjaDefinitions, .parsed _ t (some (.parsed _ t' _)) => if t = t' then tpl.caps.map fun c => [c] else []
      | .jinjaDefinitions, _ => tpl.caps.map fun c => [c]
      | _, _ => [] }

theorem reusingEnv_faithful (R : InputEdit → Str → Str → Prop) : Faithful R reusingEnv := by
  intro g t o h
  refine ⟨rfl, fun q x => ?_⟩
  cases h with
  | first => rfl
  | again h =>
    cases h with
    | first => cases q <;> simp [reusingEnv]
    | again h => cases q <;> simp [reusingEnv]
    | told h he => cases q <;> rfl

/-- the directory is read, the file in it is opened, and a character is replaced twice -/
def replacing : List (World × Msg) :=
  [(diskWorld, .initialize none (some (some { JinjaConfig.default with lang := c!"rust", templates := c!"/t" }))),
   (diskWorld, .initialized),
   (diskWorld, .didOpen c!"file:///t/a.html" c!"aaa"),
   (diskWorld, .didChange c!"file:///t/a.html" [⟨some ⟨⟨0, 0⟩, ⟨0, 1⟩⟩, c!"x"⟩, ⟨some ⟨⟨0, 1⟩, ⟨0, 3⟩⟩, c!"y"⟩]),
   (diskWorld, .didSave c!"file:///t/a.html")]

theorem replacing_gentle : GentleRun RoomyChanges reusingEnv Server.init replacing := by
  refine gentleRun_of_cons diskWorld_keeps trivial rfl ?_
  refine gentleRun_of_cons diskWorld_keeps trivial rfl ?_
  refine gentleRun_of_cons diskWorld_keeps (fun t0 h => ?_) rfl ?_
  · have e : some c!"aaa" = some t0 := h
    exact (Option.some.inj e).symm
  refine gentleRun_of_cons diskWorld_keeps (fun t0 h => ?_) rfl ?_
  · have e : some c!"aaa" = some t0 := h
    cases e
    refine .change 0 1 ?_ ?_ (by decide) (by decide) ?_ ?_ ?_ ?_ ?_ (.change 1 3 ?_ ?_ (by decide) (by decide) ?_ ?_ ?_ ?_ ?_ (.done _))
    all_goals first
      | exact ⟨0, by decide, by simp, by decide, by decide⟩
      | (unfold PlainChar; decide)
      | simp [NoLoneCR]
  exact gentleRun_of_cons diskWorld_keeps trivial rfl gentleRun_nil

end Fix

example : Faithful TrueEdit Fix.reusingEnv ∧ GentleRun RoomyChanges Fix.reusingEnv Server.init Fix.replacing ∧
    (∃ s T, Server.init.run Fix.reusingEnv Fix.replacing = .ok s ∧
      (s.files.trees .template).get? c!"file:///t/a.html" = some T ∧
      s.files.documents.get? c!"file:///t/a.html" = some c!"xy") :=
  ⟨Fix.reusingEnv_faithful _, Fix.replacing_gentle, _, _, rfl, rfl, rfl⟩

/-- **C81** The difference can be seen: with a parser that keeps the promise of incremental parsing, a document that is closed
and opened again with another text has other symbols than one opened with that text by a parser that starts from scratch. -/
theorem C81_observable_refuted : ∃ (env : Env) (w : World) (ms : List (World × Msg)), Faithful TrueEdit env ∧
    (∀ g t o, env.parseFails g t o = false) ∧ KeepsClass w ∧
    ms = [(w, .didOpen Fix.uriA c!"aaa"), (w, .didOpen Fix.uriA c!"bbb"), (w, .documentSymbol Fix.uriA)] ∧
    (workerRun env (some Server.init) ms).2.getLast? ≠ (workerRun (fromScratch env) (some Server.init) ms).2.getLast? := by
  refine ⟨Fix.reusingEnv, Fix.diskWorld, _, Fix.reusingEnv_faithful _, fun _ _ _ => rfl, Fix.diskWorld_keeps, rfl, ?_⟩
  intro h
  have h1 : (workerRun Fix.reusingEnv (some Server.init) [(Fix.diskWorld, .didOpen Fix.uriA c!"aaa"),
      (Fix.diskWorld, .didOpen Fix.uriA c!"bbb"), (Fix.diskWorld, .documentSymbol Fix.uriA)]).2.getLast? =
      some (.symbols (some [])) := rfl
  have h2 : ∃ y ys, (workerRun (fromScratch Fix.reusingEnv) (some Server.init) [(Fix.diskWorld, .didOpen Fix.uriA c!"aaa"),
      (Fix.diskWorld, .didOpen Fix.uriA c!"bbb"), (Fix.diskWorld, .documentSymbol Fix.uriA)]).2.getLast? =
      some (.symbols (some (y :: ys))) := ⟨_, _, rfl⟩
  obtain ⟨y, ys, h2⟩ := h2
  rw [h1, h2] at h
  cases h

/-- a held document is opened with another text -/
example : fileExt Fix.uriA = some .template ∧
    (Fix.server.files.trees .template).get? Fix.uriA = some (.parsed (Fix.server.files.grammar .template) c!"aaa" none) ∧
    ∃ s' out r, Fix.server.handle Fix.env Fix.world (.didOpen Fix.uriA c!"bbb") = .ok (s', out, r) :=
  ⟨by decide, rfl, _, _, _, rfl⟩

/-- text is appended to a held document -/
example : Fix.server.files.documents.get? Fix.uriA = some c!"aaa" ∧ PlainPos c!"aaa" ⟨0, 3⟩ c!"aaa".length ∧
    NoLoneCR c!"aaa" ∧ (∀ c ∈ c!"aaa", PlainChar c) := by
  refine ⟨rfl, ⟨0, by decide, by simp, by decide, by decide⟩, by simp [NoLoneCR], ?_⟩
  unfold PlainChar; decide

end JinjaLsp
