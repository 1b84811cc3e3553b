import Verif.Props.Text
import Verif.Props.Fixtures
import Verif.Lemmas.Path
import Verif.Model.Protocol
/-
  Document synchronisation at the level of the worker: C01 (histories), C02, C03, C06 (server), C07–C10.
-/

namespace JinjaLsp
open Spec

/-! ## C08, C09, C10 -/

/-- **C08** a change of a document that is not held has no effect at all (and no panic, no message) -/
theorem C08_unknown_document (env : Env) (w : World) (s : Server) (uri : Str) (cs : List TextChange)
    (h : s.files.documents.get? uri = none) :
    s.handle env w (.didChange uri cs) = .ok (s, [], .none) := by
  simp [Server.handle, Server.onDidChange, didChange_none h]

example : Fix.server.files.documents.get? c!"file:///c.html" = none := by decide

/-- **C09** open, change and save touch only entries of the document they are about -/
theorem C09_independent (env : Env) (w : World) (s s' : Server) (m : Msg) (out : List Send) (r : Reply)
    (uri : Str) (hm : (∃ text, m = .didOpen uri text) ∨ (∃ cs, m = .didChange uri cs) ∨ m = .didSave uri)
    (h : s.handle env w m = .ok (s', out, r)) (other : Str) (hne : other ≠ uri) :
    s'.files.documents.get? other = s.files.documents.get? other ∧
    (∀ l, (s'.files.trees l).get? other = (s.files.trees l).get? other) ∧
    s'.files.variables.get? other = s.files.variables.get? other ∧
    s'.files.codeActions.get? other = s.files.codeActions.get? other := by
  have key : SameDoc s.files s'.files other := by
    have hs := handle_files h
    rcases hm with ⟨t, rfl⟩ | ⟨cs, rfl⟩ | rfl
    · cases hs with
      | query hq => simp [Msg.isQuery] at hq
      | didOpen _ _ m hf => exact (Frame.didOpen hf).same other hne
    · cases hs with
      | query hq => simp [Msg.isQuery] at hq
      | didChange _ _ b hf => exact (Frame.didChange hf).same other hne
    · cases hs with
      | query hq => simp [Msg.isQuery] at hq
      | didSave _ m hf => exact (Frame.didSave hf).same other hne
  exact ⟨key.doc, key.tree, key.vars, key.acts⟩

/-- a change of one of two held documents that really happens -/
example : ∃ s', Fix.server.handle Fix.env Fix.world (.didChange Fix.uriA [⟨some ⟨⟨0, 0⟩, ⟨0, 1⟩⟩, c!"x"⟩]) =
      .ok (s', [], .none) ∧ s'.files.documents.get? Fix.uriA = some c!"xaa" ∧
      s'.files.documents.get? Fix.uriB = some c!"bbb" := ⟨_, rfl, by decide, by decide⟩

/-- **C10** opening, saving or querying a document with an unsupported extension has no effect and no answer -/
theorem C10_unsupported (env : Env) (w : World) (s : Server) (uri : Str) (h : fileExt uri = none) :
    (∀ text, s.handle env w (.didOpen uri text) = .ok (s, [], .none)) ∧
    s.handle env w (.didSave uri) = .ok (s, [], .none) ∧
    (∀ p t, s.handle env w (.completion uri p t) = .ok (s, [], .completion none)) ∧
    (∀ p, s.handle env w (.hover uri p) = .ok (s, [], .hover none)) ∧
    (∀ p, s.handle env w (.goto uri p) = .ok (s, [], .goto none)) ∧
    (∀ p, s.handle env w (.codeAction uri p) = .ok (s, [], .codeAction none)) := by
  refine ⟨fun text => ?_, ?_, fun p t => ?_, fun p => ?_, fun p => ?_, fun p => ?_⟩
  · simp [Server.handle, LspFiles.didOpen, h, Server.sends]
  · simp [Server.handle, LspFiles.didSave, h, Server.sends]
  · simp only [Server.handle, Server.onCompletion, LspFiles.completion, h]
    by_cases ht : (!(decide (t = .triggerCharacter) || decide (t = .invoked))) = true
    · simp [ht]
    · simp [ht]
  · simp [Server.handle, Server.onHover, LspFiles.hover, h]
  · simp [Server.handle, LspFiles.gotoDefinition, h]
  · simp [Server.handle, Server.onCodeAction, LspFiles.codeAction, h]

example : fileExt c!"file:///a/b.txt" = none ∧ fileExt c!"file:///a.html/README" = none := by decide

/-- the language of an extension -/
def Spec.languageOf (ext : Str) : Option LangType :=
  if ext ∈ [c!"html", c!"jinja", c!"j2"] then some .template
  else if ext ∈ [c!"rs", c!"py"] then some .backend
  else none

/-- **C10** the class of a file depends on its last extension only (any directory, any non-empty stem, dots allowed) -/
theorem C10_last_extension (dir stem ext : Str) (h1 : '/' ∉ stem) (h2 : stem ≠ []) (h3 : '/' ∉ ext)
    (h4 : '.' ∉ ext) : fileExt (dir ++ '/' :: (stem ++ '.' :: ext)) = languageOf ext := by
  by_cases h5 : ext = []
  · subst h5
    have : ∀ e, pathExtension (dir ++ '/' :: (stem ++ ['.'])) = some e → e = [] := by
      intro e he
      unfold pathExtension at he
      split at he
      · cases he
      · rename_i f hf
        by_cases hd : stem ++ ['.'] = c!"." ∨ stem ++ ['.'] = c!".."
        · rcases hd with hd | hd
          · cases stem with
            | nil => exact absurd rfl h2
            | cons c r => simp at hd
          · have hs : stem = ['.'] := by
              cases stem with
              | nil => simp at hd
              | cons c r =>
                cases r with
                | nil => simp at hd; simp [hd]
                | cons d r => simp at hd
            subst hs
            unfold pathFileName at hf
            rw [splitChar_append] at hf
            simp [splitChar] at hf
        · have := pathFileName_append dir (stem ++ ['.']) (by simp [h1]) (by simp)
            (fun e => hd (Or.inl e)) (fun e => hd (Or.inr e))
          rw [hf] at this
          cases this
          rw [rsplitDot_append stem [] (by simp)] at he
          simp only at he
          split at he <;> cases he
          rfl
    unfold fileExt
    cases hx : pathExtension (dir ++ '/' :: (stem ++ ['.'])) with
    | none => simp [languageOf]
    | some e => rw [this e hx]; simp [languageOf]
  · unfold fileExt
    rw [pathExtension_append dir stem ext h1 h2 h3 h4 h5]
    simp [languageOf]

example : fileExt c!"file:///x/page.html.py" = some .backend ∧ fileExt c!"file:///x/a.py.j2" = some .template := by
  decide

/-! ## C01 over histories of messages -/

/-- the ranged edits of `uri` in a history -/
def Spec.editsOf (uri : Str) : List (World × Msg) → List (Range × Str)
  | [] => []
  | (_, .didChange u cs) :: ms =>
    if u = uri then cs.filterMap (fun c => c.range.map fun r => (r, c.text)) ++ editsOf uri ms
    else editsOf uri ms
  | _ :: ms => editsOf uri ms

/-- the message neither re-opens `uri` nor re-initialises the workspace, and changes of `uri` carry ranges -/
def Spec.Typing (uri : Str) : Msg → Prop
  | .initialized => False
  | .didOpen u _ => u ≠ uri
  | .didChange u cs => u = uri → ∀ c ∈ cs, c.range.isSome
  | _ => True

theorem plainEdits_append : ∀ (a b : List (Range × Str)) (t : Str), PlainEdits t (a ++ b) →
    PlainEdits t a ∧ ∀ t', applyEdits t a = some t' → PlainEdits t' b
  | [], b, t, h => ⟨trivial, fun t' ht => by simp [applyEdits] at ht; subst ht; exact h⟩
  | e :: a, b, t, h => by
    refine ⟨⟨h.1, fun t' ht => (plainEdits_append a b t' (h.2 t' ht)).1⟩, fun t' ht => ?_⟩
    simp only [applyEdits] at ht
    cases h1 : applyEdit t e.1 e.2 with
    | none => simp [h1] at ht
    | some t1 =>
      rw [h1] at ht
      exact (plainEdits_append a b t1 (h.2 t1 h1)).2 t' ht

theorem applyEdits_append (a b : List (Range × Str)) (t : Str) :
    applyEdits t (a ++ b) = (applyEdits t a).bind fun t' => applyEdits t' b := by
  induction a generalizing t with
  | nil => rfl
  | cons e a ih =>
    simp only [List.cons_append, applyEdits]
    cases applyEdit t e.1 e.2 with
    | none => rfl
    | some t1 => simp [ih]

theorem ranged_changes : ∀ (cs : List TextChange), (∀ c ∈ cs, c.range.isSome) →
    cs = (cs.filterMap (fun c => c.range.map fun r => (r, c.text))).map fun e => ⟨some e.1, e.2⟩
  | [], _ => rfl
  | c :: cs, h => by
    have hc := h c (by simp)
    obtain ⟨range, text⟩ := c
    cases range with
    | none => simp at hc
    | some r =>
      have := ranged_changes cs (fun c hc => h c (by simp [hc]))
      show _ = (_ :: List.map _ _)
      rw [← this]

/-- documents are not changed by other messages -/
theorem handle_documents {env : Env} {w : World} {s s' : Server} {m : Msg} {out : List Send} {r : Reply}
    (h : s.handle env w m = .ok (s', out, r)) (uri : Str) (h1 : m ≠ .initialized)
    (h2 : ∀ t, m ≠ .didOpen uri t) (h3 : ∀ cs, m ≠ .didChange uri cs) :
    s'.files.documents.get? uri = s.files.documents.get? uri := by
  have hs := handle_files h
  clear h
  cases hs with
  | query _ h | command _ h | config _ h => rw [h]
  | «initialize» _ _ h => rcases h with h | h <;> rw [h]
  | codeActions m h => rw [h, (addCodeActions_frame w.order s.files m).1]
  | didOpen u t m hf =>
    exact ((Frame.didOpen hf).same uri (fun e => h2 t (by rw [e]))).doc
  | didSave u m hf => rw [(documents_didSave hf).1]
  | didChange u cs b hf => exact ((Frame.didChange hf).same uri (fun e => h3 cs (by rw [e]))).doc
  | notInitialized h => exact absurd rfl h1
  | initialized => exact absurd rfl h1

/-- **C01** Over any history of messages (edits of this and other documents, saves, opens of other documents, requests, …)
the text held for an open document is the one LSP prescribes, provided its edits are plain.
Missing for the full statement: edits that are not plain (`Spec.PlainEdit`), where the code is wrong (`Props/Text.lean`). -/
theorem C01_history_partial (env : Env) (uri : Str) : ∀ (ms : List (World × Msg)) (s s' : Server) (t : Str),
    s.files.documents.get? uri = some t → (∀ m ∈ ms, Typing uri m.2) → PlainEdits t (editsOf uri ms) →
    s.run env ms = .ok s' →
    ∃ t', applyEdits t (editsOf uri ms) = some t' ∧ s'.files.documents.get? uri = some t'
  | [], s, s', t, ht, _, _, hr => by
    simp only [Server.run] at hr; cases hr
    exact ⟨t, rfl, ht⟩
  | (w, m) :: ms, s, s', t, ht, hq, hp, hr => by
    simp only [Server.run] at hr
    split at hr
    · cases hr
    · rename_i s1 out r h1
      have hm := hq (w, m) (by simp)
      have hq' : ∀ m ∈ ms, Typing uri m.2 := fun m hm => hq m (by simp [hm])
      by_cases hd : ∃ cs, m = .didChange uri cs
      · obtain ⟨cs, rfl⟩ := hd
        have hrange : ∀ c ∈ cs, c.range.isSome := hm rfl
        simp only [editsOf, if_pos] at hp ⊢
        obtain ⟨hp1, hp2⟩ := plainEdits_append _ _ _ hp
        obtain ⟨t1, ies, e1, e2⟩ := C01_batch_partial env.profile _ t hp1
        rw [← ranged_changes cs hrange] at e2
        have hs := handle_files h1
        cases hs with
        | query hq => simp [Msg.isQuery] at hq
        | didChange _ _ b hf =>
          obtain ⟨t2, es, e3, e4⟩ := didChange_ok ht hf
          rw [e2] at e3
          cases e3
          have ht1 : s1.files.documents.get? uri = some t1 := by rw [e4]; simp
          obtain ⟨t', e5, e6⟩ := C01_history_partial env uri ms s1 s' t1 ht1 hq' (hp2 t1 e1) hr
          exact ⟨t', by rw [applyEdits_append, e1]; exact e5, e6⟩
      · have he : editsOf uri ((w, m) :: ms) = editsOf uri ms := by
          cases m with
          | didChange u cs =>
            have : u ≠ uri := fun e => hd ⟨cs, by rw [e]⟩
            simp [editsOf, this]
          | _ => rfl
        rw [he] at hp ⊢
        have hdoc := handle_documents h1 uri
          (fun e => by subst e; exact hm) (fun t e => by subst e; exact hm rfl) (fun cs e => hd ⟨cs, e⟩)
        exact C01_history_partial env uri ms s1 s' t (by rw [hdoc]; exact ht) hq' hp hr

/-- a history with two edits of A, an edit of B and a save meets the hypotheses -/
example :
    let ms : List (World × Msg) :=
      [(Fix.world, .didChange Fix.uriA [⟨some ⟨⟨0, 0⟩, ⟨0, 1⟩⟩, c!"x"⟩]),
       (Fix.world, .didChange Fix.uriB [⟨some ⟨⟨0, 0⟩, ⟨0, 3⟩⟩, c!"y\n"⟩]),
       (Fix.world, .didSave Fix.uriA),
       (Fix.world, .didChange Fix.uriA [⟨some ⟨⟨0, 3⟩, ⟨0, 3⟩⟩, c!"z"⟩])]
    (∀ m ∈ ms, Typing Fix.uriA m.2) ∧ applyEdits c!"aaa" (editsOf Fix.uriA ms) = some c!"xaaz" ∧
      ∃ s', Fix.server.run Fix.env ms = .ok s' ∧ s'.files.documents.get? Fix.uriA = some c!"xaaz" := by
  refine ⟨?_, by decide, _, rfl, by decide⟩
  intro m hm
  simp only [List.mem_cons, List.not_mem_nil, or_false] at hm
  rcases hm with rfl | rfl | rfl | rfl <;> simp [Typing]

/-! ## C02 -/

/-- the tree stored for a document of that language was made by parsing exactly `t` -/
def TreeOf (f : LspFiles) (uri : Str) (l : LangType) (t : Str) : Prop :=
  ∃ old, (f.trees l).get? uri = some (.parsed (f.grammar l) t old)

/-- **C02** is false: a whole-document change of a held document never changes its text, whatever the new text is. -/
theorem C02_full_change_ignored (env : Env) (w : World) (s : Server) (uri text t : Str)
    (ht : s.files.documents.get? uri = some t) :
    ∃ s', s.handle env w (.didChange uri [⟨none, text⟩]) = .ok (s', [], .none) ∧
      (∀ u, s'.files.documents.get? u = s.files.documents.get? u) ∧ s'.files.trees = s.files.trees ∧
      s'.timers = s.timers := by
  refine ⟨{ s with files := { s.files with documents := s.files.documents.insert uri t } }, ?_, ?_, rfl, rfl⟩
  · simp [Server.handle, Server.onDidChange, LspFiles.didChange, ht, LspFiles.applyChanges]
  · intro u
    simp only [HMap.get?_insert]
    split
    · next h => subst h; exact ht.symm
    · rfl

theorem applyChanges_stop (prof : Profile) : ∀ (es : List TextChange) (t t1 : Str) (ies : List (Str × InputEdit))
    (text : Str) (rest : List TextChange), LspFiles.applyChanges prof t es = .ok (t1, ies, true) →
    LspFiles.applyChanges prof t (es ++ ⟨none, text⟩ :: rest) = .ok (t1, ies, false)
  | [], t, t1, ies, text, rest, h => by
    simp only [LspFiles.applyChanges] at h; cases h; simp [LspFiles.applyChanges]
  | c :: es, t, t1, ies, text, rest, h => by
    simp only [LspFiles.applyChanges, List.cons_append] at h ⊢
    split at h
    · cases h
    · split at h
      · cases h
      · rename_i t2 ie h2
        split at h
        · cases h
        · rename_i t3 r3 f3 h3
          cases h
          simp [*, applyChanges_stop prof es t2 _ r3 text rest h3]

/-- **C02** is false: when a range-less change follows ranged ones, the text is updated by the latter but the tree is not,
so a tree that described the old text goes stale. -/
theorem C02_stale_tree (env : Env) (w : World) (s : Server) (uri t t1 text : Str) (es rest : List TextChange)
    (ies : List (Str × InputEdit)) (l : LangType)
    (ht : s.files.documents.get? uri = some t)
    (happ : LspFiles.applyChanges env.profile t es = .ok (t1, ies, true)) (hne : t1 ≠ t)
    (htree : TreeOf s.files uri l t) :
    ∃ s', s.handle env w (.didChange uri (es ++ ⟨none, text⟩ :: rest)) = .ok (s', [], .none) ∧
      s'.files.documents.get? uri = some t1 ∧ ¬ TreeOf s'.files uri l t1 := by
  refine ⟨{ s with files := { s.files with documents := s.files.documents.insert uri t1 } }, ?_, by simp, ?_⟩
  · simp [Server.handle, Server.onDidChange, LspFiles.didChange, ht,
      applyChanges_stop env.profile es t t1 ies text rest happ]
  · obtain ⟨old, ho⟩ := htree
    rintro ⟨old', ho'⟩
    simp only [ho, Option.some.injEq, Tree.parsed.injEq] at ho'
    exact hne ho'.2.1.symm

example : Fix.files.documents.get? Fix.uriA = some c!"aaa" ∧ TreeOf Fix.files Fix.uriA .template c!"aaa" ∧
    ∃ ies, LspFiles.applyChanges .debug c!"aaa" [⟨some ⟨⟨0, 0⟩, ⟨0, 1⟩⟩, c!"x"⟩] = .ok (c!"xaa", ies, true) :=
  ⟨by decide, ⟨none, by rfl⟩, _, rfl⟩

/-! ## C03 -/

/-- Every supported document held has a tree that was made by parsing exactly its text with the grammar of its kind. -/
def Spec.Fresh (f : LspFiles) : Prop :=
  ∀ u l t, fileExt u = some l → f.documents.get? u = some t →
    ∃ old, (f.trees l).get? u = some (.parsed (f.grammar l) t old)

theorem grammar_conf {f g : LspFiles} (h : SameConf f g) (l : LangType) : g.grammar l = f.grammar l := by
  cases l <;> simp [LspFiles.grammar, h.pb]

/-- freshness after an operation on `n` follows from freshness before for the others -/
theorem fresh_of_frame {n : Str} {f g : LspFiles} (hf : Fresh f) (fr : Frame n f g)
    (hn : ∀ l t, fileExt n = some l → g.documents.get? n = some t → TreeOf g n l t) : Fresh g := by
  intro u l t hu ht
  by_cases h : u = n
  · subst h; exact hn l t hu ht
  · have hs := fr.same u h
    rw [hs.doc] at ht
    obtain ⟨old, ho⟩ := hf u l t hu ht
    exact ⟨old, by rw [hs.tree, ho, grammar_conf fr.conf]⟩

theorem treeOf_setTree (f : LspFiles) (n : Str) (l : LangType) (t : Str) (old : Option Tree) :
    TreeOf (f.setTree l n (.parsed (f.grammar l) t old)) n l t :=
  ⟨old, by simp [LspFiles.setTree]; rfl⟩

theorem treeOf_addTree {env : Env} (hp : ∀ g t o, env.parseFails g t o = false) (f : LspFiles) (n : Str)
    (l : LangType) (t : Str) : TreeOf (f.addTree env n l t) n l t := by
  unfold LspFiles.addTree LspFiles.parse
  simp only [hp]
  exact treeOf_setTree f n l t _

theorem treeOf_congr {f g : LspFiles} {n : Str} {l : LangType} {t : Str} (h : TreeOf f n l t)
    (ht : g.trees = f.trees) (hc : SameConf f g) : TreeOf g n l t := by
  obtain ⟨old, ho⟩ := h
  exact ⟨old, by rw [ht, ho, grammar_conf hc]⟩

theorem fresh_didSave {env : Env} {w : World} {f g : LspFiles} {n : Str} {m : Option (HMap Str Diags)}
    (hf : Fresh f) (h : f.didSave env w n = .ok (g, m)) : Fresh g := by
  have hd := documents_didSave h
  intro u l t hu ht
  rw [hd.1] at ht
  obtain ⟨old, ho⟩ := hf u l t hu ht
  exact ⟨old, by rw [hd.2, ho, grammar_conf (Frame.didSave h).conf]⟩

theorem fresh_didOpen {env : Env} {w : World} (hp : ∀ g t o, env.parseFails g t o = false)
    {f g : LspFiles} {n c : Str} {ig : Bool} {m : Option (HMap Str Diags)}
    (hf : Fresh f) (h : f.didOpen env w n c ig = .ok (g, m)) : Fresh g := by
  refine fresh_of_frame hf (Frame.didOpen h) ?_
  intro l t hl ht
  unfold LspFiles.didOpen at h
  rw [hl] at h
  simp only at h
  split at h
  · cases h
  · rename_i f1 hf1
    have key : f1.documents.get? n = some t → TreeOf f1 n l t := by
      intro ht
      have hd := documents_addVariables hf1
      rw [hd.1, documents_addTree] at ht
      simp only [HMap.get?_insert_self, Option.some.injEq] at ht
      subst ht
      exact treeOf_congr (treeOf_addTree hp _ n l c) hd.2 (Frame.addVariables hf1).conf
    split at h
    · cases h; exact key ht
    · split at h
      · cases h
      · cases h; exact key ht
      · cases h; exact key ht

theorem treeOf_inputEdits {env : Env} (hp : ∀ g t o, env.parseFails g t o = false) (n : Str) (l : LangType) :
    ∀ (es : List (Str × InputEdit)) (f : LspFiles) (t t' : Str), TreeOf f n l t →
      (t' = (es.getLast?.map Prod.fst).getD t) →
      TreeOf (es.foldl (fun f (ch : Str × InputEdit) => f.inputEdit env n ch.1 ch.2 (some l)) f) n l t'
  | [], f, t, t', h, e => by simp at e; subst e; exact h
  | ch :: es, f, t, t', h, e => by
    rw [List.foldl_cons]
    refine treeOf_inputEdits hp n l es _ ch.1 t' ?_ ?_
    · obtain ⟨old, ho⟩ := h
      unfold LspFiles.inputEdit LspFiles.parse
      simp only [ho, hp]
      exact treeOf_setTree f n l ch.1 _
    · cases es with
      | nil => simpa using e
      | cons a es =>
        rw [List.getLast?_cons_cons] at e
        cases hl : (a :: es).getLast? with
        | none => simp at hl
        | some x => rw [hl] at e; simpa using e

theorem applyChanges_last (prof : Profile) : ∀ (cs : List TextChange) (t t' : Str)
    (es : List (Str × InputEdit)) (b : Bool), LspFiles.applyChanges prof t cs = .ok (t', es, b) →
    t' = (es.getLast?.map Prod.fst).getD t
  | [], t, t', es, b, h => by simp only [LspFiles.applyChanges] at h; cases h; rfl
  | c :: cs, t, t', es, b, h => by
    simp only [LspFiles.applyChanges] at h
    split at h
    · cases h; rfl
    · split at h
      · cases h
      · rename_i t1 ie h1
        split at h
        · cases h
        · rename_i t2 rest fin h2
          cases h
          have := applyChanges_last prof cs t1 t' rest b h2
          cases rest with
          | nil => simpa using this
          | cons a rest =>
            rw [List.getLast?_cons_cons]
            cases hl : (a :: rest).getLast? with
            | none => simp at hl
            | some x => rw [hl] at this; simpa using this

theorem applyChanges_ranged (prof : Profile) : ∀ (cs : List TextChange) (t t' : Str)
    (es : List (Str × InputEdit)) (b : Bool), (∀ c ∈ cs, c.range.isSome) →
    LspFiles.applyChanges prof t cs = .ok (t', es, b) → b = true
  | [], t, t', es, b, _, h => by simp only [LspFiles.applyChanges] at h; cases h; rfl
  | c :: cs, t, t', es, b, hr, h => by
    simp only [LspFiles.applyChanges] at h
    split at h
    · rename_i hc
      have := hr c (by simp)
      rw [hc] at this; simp at this
    · split at h
      · cases h
      · split at h
        · cases h
        · rename_i t2 rest fin h2
          cases h
          exact applyChanges_ranged prof cs _ _ _ _ (fun c hc => hr c (by simp [hc])) h2

theorem fresh_didChange {env : Env} (hp : ∀ g t o, env.parseFails g t o = false)
    {f g : LspFiles} {n : Str} {cs : List TextChange} {k : Nat} {b : Bool}
    (hf : Fresh f) (hr : ∀ c ∈ cs, c.range.isSome) (h : f.didChange env n cs k = .ok (g, b)) : Fresh g := by
  refine fresh_of_frame hf (Frame.didChange h) ?_
  intro l t hl ht
  unfold LspFiles.didChange at h
  split at h
  · rename_i hn
    cases h
    rw [hn] at ht; cases ht
  · rename_i rope hrope
    simp only at h
    split at h
    · cases h
    · rename_i t' es fin hap
      have hfin := applyChanges_ranged env.profile cs rope t' es fin hr hap
      subst hfin
      simp only [Bool.not_true] at h
      rw [if_neg (by simp)] at h
      cases h
      rw [hl]
      simp only [documents_inputEdits, HMap.get?_insert_self, Option.some.injEq] at ht
      subst ht
      have h0 : TreeOf { f with documents := f.documents.insert n t' } n l rope := hf n l rope hl hrope
      have := treeOf_inputEdits hp n l es _ rope t' h0 (applyChanges_last env.profile cs rope t' es true hap)
      exact treeOf_congr this rfl (SameConf.mk rfl rfl rfl rfl rfl rfl)

/-- canonicalisation keeps the class of a file (violated only by links whose target has another extension) -/
def Spec.KeepsClass (w : World) : Prop :=
  ∀ p n l, w.canonicalize p = .ok n → fileExt p = some l → fileExt (c!"file://" ++ n) = some l

theorem fresh_readFile {env : Env} {w : World} (hp : ∀ g t o, env.parseFails g t o = false) (hw : KeepsClass w)
    {f g : LspFiles} {path : Str} {l : LangType} (hf : Fresh f) (hl : fileExt path = some l)
    (h : f.readFile env w path l = .ok g) : Fresh g := by
  cases hc : w.canonicalize path with
  | error e => simp only [LspFiles.readFile, hc] at h; cases h; exact hf
  | ok name =>
    refine fresh_of_frame hf (Frame.readFile h hc) ?_
    intro l' t hl' ht
    have : l' = l := by rw [hw path name l hc hl] at hl'; cases hl'; rfl
    subst this
    simp only [LspFiles.readFile, hc] at h
    split at h
    · cases h; exact hf _ _ _ hl' ht
    · rename_i content hr
      have hd := documents_addVariables h
      rw [hd.1, documents_addTree] at ht
      simp only [HMap.get?_insert_self, Option.some.injEq] at ht
      subst ht
      exact treeOf_congr (treeOf_addTree hp _ _ l' content) hd.2 (Frame.addVariables h).conf

theorem fresh_walkdir {env : Env} {w : World} (hp : ∀ g t o, env.parseFails g t o = false) (hw : KeepsClass w)
    {c : JinjaConfig} {d : HMap Str Diags} {g : LspFiles} (h : walkdir env w c = .ok (some (d, g))) :
    Fresh g := by
  refine walkdir_induct Fresh ?_ (fun f path l g hf hl hg => fresh_readFile hp hw hf hl hg) h
  intro u l t _ ht
  unfold walkStart at ht
  simp only at ht
  split at ht <;> simp [LspFiles.default] at ht

/-- **C03** At every point of every history from server start, every supported document that is held has a tree that was
made by parsing exactly the text that is held, with the right grammar.
Missing for the full statement: range-less changes (`C02_stale_tree`), parser failures, and links to files of another class. -/
theorem C03_fresh_partial (env : Env) (hp : ∀ g t o, env.parseFails g t o = false) :
    ∀ (ms : List (World × Msg)) (s s' : Server), Fresh s.files → (∀ m ∈ ms, KeepsClass m.1) →
    (∀ m ∈ ms, ∀ u cs, m.2 = .didChange u cs → ∀ c ∈ cs, c.range.isSome) →
    s.run env ms = .ok s' → Fresh s'.files
  | [], s, s', hf, _, _, hr => by simp only [Server.run] at hr; cases hr; exact hf
  | (w, m) :: ms, s, s', hf, hw, hc, hr => by
    simp only [Server.run] at hr
    split at hr
    · cases hr
    · rename_i s1 out r h1
      refine C03_fresh_partial env hp ms s1 s' ?_ (fun m hm => hw m (by simp [hm]))
        (fun m hm => hc m (by simp [hm])) hr
      cases handle_files h1 with
      | query _ h | command _ h | config _ h | notInitialized h => rw [h]; exact hf
      | «initialize» _ _ h =>
        rcases h with h | h
        · rw [h]; exact hf
        · rw [h]; exact hf
      | codeActions m h =>
        have hfr := addCodeActions_frame w.order s.files m
        intro u l t hu ht
        rw [h] at ht ⊢
        rw [hfr.1] at ht
        obtain ⟨old, ho⟩ := hf u l t hu ht
        exact ⟨old, by rw [hfr.2.1, ho, grammar_conf hfr.2.2.2.1]⟩
      | didOpen u t m h => exact fresh_didOpen hp hf h
      | didSave u m h => exact fresh_didSave hf h
      | didChange u cs b h => exact fresh_didChange hp hf (hc (w, _) (by simp) u cs rfl) h
      | initialized f d h e =>
        rw [e]
        have := fresh_walkdir hp (hw (w, .initialized) (by simp)) h
        exact this

/-- the server starts fresh -/
theorem C03_start : Fresh Server.init.files := by
  intro u l t _ ht
  simp [Server.init, LspFiles.default] at ht

/-- a world that meets the hypothesis and in which initialisation reads a file; then the file is edited -/
def Fix.diskWorld : World where
  canonicalize := .ok
  readFile := fun p => if p = c!"/t/a.html" then some c!"aaa" else none
  walk := fun d => if d = c!"/t" then [.file c!"/t/a.html"] else []
  order := HashOrder.id

theorem Fix.diskWorld_keeps : KeepsClass Fix.diskWorld := by
  intro p n l h hl
  cases h
  exact fileExt_fileUri p l hl

example :
    let ms : List (World × Msg) :=
      [(Fix.diskWorld, .initialize none (some (some { JinjaConfig.default with lang := c!"rust", templates := c!"/t" }))),
       (Fix.diskWorld, .initialized),
       (Fix.diskWorld, .didChange c!"file:///t/a.html" [⟨some ⟨⟨0, 0⟩, ⟨0, 1⟩⟩, c!"x"⟩])]
    (∀ m ∈ ms, KeepsClass m.1) ∧ ∃ s, Server.init.run Fix.env ms = .ok s ∧
      s.files.documents.get? c!"file:///t/a.html" = some c!"xaa" := by
  refine ⟨?_, _, rfl, by decide⟩
  intro m hm
  simp only [List.mem_cons, List.not_mem_nil, or_false] at hm
  rcases hm with rfl | rfl | rfl <;> exact Fix.diskWorld_keeps

/-! ## C04: what the parser is handed -/

/-- every change of the list replaces a region between plain positions of the text it applies to -/
inductive Spec.PlainChanges : Str → List TextChange → Prop
  | done (t : Str) : PlainChanges t []
  | change {t : Str} {r : Range} {text : Str} {cs : List TextChange} (a b : Nat) (ha : PlainPos t r.start a)
      (hb : PlainPos t r.stop b) (hab : a ≤ b) (hp : ∀ c ∈ t.take b, PlainChar c) (hcr : NoLoneCR t)
      (rest : PlainChanges (t.take a ++ text ++ t.drop b) cs) : PlainChanges t (⟨some r, text⟩ :: cs)

/-- `Handed g t T cs t' T'`: starting from the text `t` with tree `T`, each change in turn moves the region it replaces in
the previous tree and the parser is given the text after the change together with that tree; this ends with `t'`, `T'` -/
inductive Spec.Handed (g : Grammar) : Str → Tree → List TextChange → Str → Tree → Prop
  | done (t : Str) (T : Tree) : Handed g t T [] t T
  | change {t t' : Str} {T T' : Tree} {r : Range} {text : Str} {cs : List TextChange} (a b : Nat) (ie : InputEdit)
      (ha : PlainPos t r.start a) (hb : PlainPos t r.stop b)
      (startByte : ie.startByte = utf8Len (t.take a)) (oldEndByte : ie.oldEndByte = utf8Len (t.take b))
      (newEndByte : ie.newEndByte = utf8Len (t.take a ++ text))
      (startPosition : ie.startPosition = advance ⟨0, 0⟩ (t.take a))
      (oldEndPosition : ie.oldEndPosition = advance ⟨0, 0⟩ (t.take b))
      (rest : Handed g (t.take a ++ text ++ t.drop b)
        (.parsed g (t.take a ++ text ++ t.drop b) (some (.edited T ie))) cs t' T') :
      Handed g t T (⟨some r, text⟩ :: cs) t' T'

theorem handed_inputEdits {env : Env} (hp : ∀ g t o, env.parseFails g t o = false) (n : Str) (l : LangType) :
    ∀ (cs : List TextChange) (t : Str), PlainChanges t cs →
      ∃ t' es, LspFiles.applyChanges env.profile t cs = .ok (t', es, true) ∧
        ∀ (T : Tree) (f : LspFiles), (f.trees l).get? n = some T →
          ∃ T', Handed (f.grammar l) t T cs t' T' ∧
            ((es.foldl (fun f (ch : Str × InputEdit) => f.inputEdit env n ch.1 ch.2 (some l)) f).trees l).get? n =
              some T'
  | [], t, _ => ⟨t, [], rfl, fun T _ hT => ⟨T, .done t T, hT⟩⟩
  | _ :: cs, t, .change (r := r) (text := text) a b ha hb hab hc hcr rest => by
    obtain ⟨ie, he, h1, h2, h3, h4, h5⟩ := C04_regions_partial env.profile t r text a b ha hb hab hc hcr
    obtain ⟨t', es, hap, hes⟩ := handed_inputEdits hp n l cs _ rest
    refine ⟨t', (t.take a ++ text ++ t.drop b, ie) :: es, ?_, ?_⟩
    · simp only [LspFiles.applyChanges, he, hap]
    intro T f hT
    have hstep : f.inputEdit env n (t.take a ++ text ++ t.drop b) ie (some l) =
        f.setTree l n (.parsed (f.grammar l) (t.take a ++ text ++ t.drop b) (some (.edited T ie))) := by
      unfold LspFiles.inputEdit LspFiles.parse
      simp only [hT, hp]
      rfl
    obtain ⟨T', hh, hk⟩ := hes (.parsed (f.grammar l) (t.take a ++ text ++ t.drop b) (some (.edited T ie)))
      (f.inputEdit env n (t.take a ++ text ++ t.drop b) ie (some l))
      (by rw [hstep]; simp [LspFiles.setTree, HMap.get?_insert_self])
    have hg : (f.inputEdit env n (t.take a ++ text ++ t.drop b) ie (some l)).grammar l = f.grammar l := by
      rw [hstep]; cases l <;> rfl
    rw [hg] at hh
    exact ⟨T', .change a b ie ha hb h1 h2 h3 h4 h5 hh, by rw [List.foldl_cons]; exact hk⟩

/-- **C04** A notification with any number of changes between plain positions hands the parser, change by change, the text
after that change and the previous tree moved by exactly the replaced region of that change, so the tree that is held
afterwards descends from the tree that was held before through all of these edits.
Missing for the full statement: other positions, and the row and column of the new end (`C04_append_wrong`). -/
theorem C04_handed_partial (env : Env) (hp : ∀ g t o, env.parseFails g t o = false) (w : World) (s : Server)
    (uri t : Str) (l : LangType) (T : Tree) (cs : List TextChange) (hl : fileExt uri = some l)
    (ht : s.files.documents.get? uri = some t) (hT : (s.files.trees l).get? uri = some T) (hcs : PlainChanges t cs) :
    ∃ s' out t' T', s.handle env w (.didChange uri cs) = .ok (s', out, .none) ∧
      s'.files.documents.get? uri = some t' ∧ (s'.files.trees l).get? uri = some T' ∧
      Handed (s.files.grammar l) t T cs t' T' := by
  obtain ⟨t', es, hap, hes⟩ := handed_inputEdits hp uri l cs t hcs
  obtain ⟨T', hh, hk⟩ := hes T { s.files with documents := s.files.documents.insert uri t' } hT
  simp only [Server.handle, Server.onDidChange, LspFiles.didChange, ht, hap, hl, Bool.not_true, Bool.false_eq_true,
    if_false]
  refine ⟨_, _, t', T', rfl, ?_, hk, ?_⟩
  · simp only [documents_inputEdits, HMap.get?_insert_self]
  · cases l <;> exact hh

/-- two changes in one notification -/
example : PlainChanges c!"aaa" [⟨some ⟨⟨0, 1⟩, ⟨0, 2⟩⟩, c!"xy"⟩, ⟨some ⟨⟨0, 0⟩, ⟨0, 3⟩⟩, c!""⟩] ∧
    (Fix.server.files.trees .template).get? Fix.uriA = some (.parsed .jinja c!"aaa" none) := by
  refine ⟨.change 1 2 ?_ ?_ (by decide) ?_ ?_ (.change 0 3 ?_ ?_ (by decide) ?_ ?_ (.done _)), rfl⟩
  all_goals first
    | exact ⟨0, by decide, by simp, by decide, by decide⟩
    | (unfold PlainChar; decide)
    | simp [NoLoneCR]

end JinjaLsp
