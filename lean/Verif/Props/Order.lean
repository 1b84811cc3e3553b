import Verif.Lemmas.Order
/- Independence of the iteration order of hash maps (C48); requests do not change anything (C49). -/

namespace JinjaLsp
open Spec

/-! ## What may differ between two servers that iterate in different orders -/

/-- the same workspace: everything is equal, except that the missing templates recorded for the quick fixes of a file may be listed in a
different order -/
def Spec.SameFiles (f g : LspFiles) : Prop :=
  ∃ ca, g = { f with codeActions := ca } ∧ ∀ k, OptPerm (f.codeActions.get? k) (ca.get? k)

structure Spec.SameServer (s s' : Server) : Prop where
  config : s'.config = s.config
  timers : s'.timers = s.timers
  nextHandle : s'.nextHandle = s.nextHandle
  files : SameFiles s.files s'.files

/-- the same message; the list of missing templates coming from the diagnostics task may be permuted -/
inductive Spec.SameMsg : Msg → Msg → Prop where
  | refl (m) : SameMsg m m
  | codeActions {m m'} : (∀ k, OptPerm (m.get? k) (m'.get? k)) → SameMsg (.codeActions m) (.codeActions m')

/-- the same analysis results, up to the order of the reports of a file -/
inductive Spec.SameSend : Send → Send → Prop where
  | initialized : SameSend .initialized .initialized
  | diag {m m'} : (∀ k, OptPerm (m.get? k) (m'.get? k)) → SameSend (.diag m) (.diag m')

/-- the same answer, up to the order of completion items and of the locations of a multiple answer; an offer to create a missing template
may name another of the missing templates whose ranges contain the position -/
inductive Spec.SameReply : Reply → Reply → Prop where
  | refl (r) : SameReply r r
  | completion {a b : List CompletionItem} : a.Perm b → SameReply (.completion (some a)) (.completion (some b))
  | goto {a b : List Location} : a.Perm b → SameReply (.goto (some (.array a))) (.goto (some (.array b)))
  | create {t u t' u' : Str} : SameReply (.codeAction (some [.createFile t u false true])) (.codeAction (some [.createFile t' u' false true]))

theorem Spec.SameFiles.refl (f : LspFiles) : SameFiles f f := ⟨f.codeActions, rfl, fun _ => OptPerm.refl _⟩

theorem Spec.SameServer.refl (s : Server) : SameServer s s := ⟨rfl, rfl, rfl, SameFiles.refl _⟩

namespace Spec.SameFiles

theorem deleteVariables {f g : LspFiles} (h : SameFiles f g) (u : Str) : SameFiles (f.deleteVariables u) (g.deleteVariables u) := by
  obtain ⟨ca, rfl, h⟩ := h
  unfold LspFiles.deleteVariables
  simp only
  cases f.variables.get? u with
  | none => exact ⟨ca, rfl, h⟩
  | some v => exact ⟨ca, rfl, h⟩

theorem setDoc {f g : LspFiles} (h : SameFiles f g) (u c : Str) :
    SameFiles { f with documents := f.documents.insert u c } { g with documents := g.documents.insert u c } := by
  obtain ⟨ca, rfl, h⟩ := h
  exact ⟨ca, rfl, h⟩

theorem addTree {f g : LspFiles} (h : SameFiles f g) (env : Env) (u : Str) (l : LangType) (c : Str) :
    SameFiles (f.addTree env u l c) (g.addTree env u l c) := by
  obtain ⟨ca, rfl, h⟩ := h
  have hp : LspFiles.parse env { f with codeActions := ca } l c ((f.trees l).get? u) = f.parse env l c ((f.trees l).get? u) := by
    cases l <;> rfl
  unfold LspFiles.addTree
  simp only
  rw [hp]
  cases f.parse env l c ((f.trees l).get? u) with
  | none => exact ⟨ca, rfl, h⟩
  | some t => exact ⟨ca, rfl, h⟩

theorem insertActs {a b : HMap Str (List Identifier)} (h : ∀ k, OptPerm (a.get? k) (b.get? k)) (u : Str) (l : List Identifier) :
    ∀ k, OptPerm ((a.insert u l).get? k) ((b.insert u l).get? k) := by
  intro k
  rw [HMap.get?_insert, HMap.get?_insert]
  split
  · exact List.Perm.refl _
  · exact h k

theorem addVariables {f g : LspFiles} (h : SameFiles f g) (env : Env) (u : Str) (l : LangType) (c : Str) :
    Agree SameFiles (f.addVariables env u l c) (g.addVariables env u l c) := by
  obtain ⟨ca, rfl, h⟩ := h
  unfold LspFiles.addVariables
  simp only
  cases (f.trees l).get? u with
  | none => exact ⟨ca, rfl, h⟩
  | some t =>
    cases l with
    | backend => exact ⟨_, rfl, insertActs h u []⟩
    | template =>
      simp only
      split
      · exact ⟨ca, rfl, h⟩
      · cases definitionQuery env t Point.zero c true with
        | error e => rfl
        | ok d => exact ⟨_, rfl, insertActs h u []⟩

theorem inputEdit {f g : LspFiles} (h : SameFiles f g) (env : Env) (u c : Str) (e : InputEdit) (l : Option LangType) :
    SameFiles (f.inputEdit env u c e l) (g.inputEdit env u c e l) := by
  obtain ⟨ca, rfl, h⟩ := h
  cases l with
  | none => exact ⟨ca, rfl, h⟩
  | some l =>
    unfold LspFiles.inputEdit
    simp only
    cases (f.trees l).get? u with
    | none => exact ⟨ca, rfl, h⟩
    | some old =>
      have hp : LspFiles.parse env { f with codeActions := ca } l c (some (.edited old e)) = f.parse env l c (some (.edited old e)) := by
        cases l <;> rfl
      simp only [hp]
      cases f.parse env l c (some (.edited old e)) with
      | none => exact ⟨ca, rfl, h⟩
      | some t => exact ⟨ca, rfl, h⟩

theorem inputEdits (env : Env) (u : Str) (l : Option LangType) : ∀ (es : List (Str × InputEdit)) {f g : LspFiles}, SameFiles f g →
    SameFiles (es.foldl (fun f (ch : Str × InputEdit) => f.inputEdit env u ch.1 ch.2 l) f)
      (es.foldl (fun f (ch : Str × InputEdit) => f.inputEdit env u ch.1 ch.2 l) g)
  | [], _, _, h => h
  | e :: es, _, _, h => inputEdits env u l es (h.inputEdit env u e.1 e.2 l)

theorem didChange {f g : LspFiles} (h : SameFiles f g) (env : Env) (u : Str) (cs : List TextChange) (n : Nat) :
    Agree (fun a b => SameFiles a.1 b.1 ∧ a.2 = b.2) (f.didChange env u cs n) (g.didChange env u cs n) := by
  unfold LspFiles.didChange
  have hd : g.documents = f.documents := by obtain ⟨ca, rfl, h⟩ := h; rfl
  rw [hd]
  cases hx : f.documents.get? u with
  | none => exact ⟨h, rfl⟩
  | some rope =>
    simp only
    cases LspFiles.applyChanges env.profile rope cs with
    | error e => rfl
    | ok r =>
      obtain ⟨rope', es, fin⟩ := r
      have h1 := h.setDoc u rope'
      rw [hd] at h1
      cases fin with
      | false => exact ⟨h1, rfl⟩
      | true =>
        have h2 := inputEdits env u (fileExt u) es h1
        obtain ⟨ca, h3, h4⟩ := h2
        refine ⟨⟨ca, ?_, h4⟩, rfl⟩
        show { (es.foldl _ _ : LspFiles) with diagnosticsTask := some n } = _
        rw [h3]

theorem readTree {f g : LspFiles} (h : SameFiles f g) (env : Env) (w : World) (o : HashOrder) (n : Str) :
    Agree OptPerm (f.readTree env w n) (g.readTree env { w with order := o } n) := by
  obtain ⟨ca, rfl, h⟩ := h
  exact readTree_order env w o f n

end Spec.SameFiles

/-- the optional result map of opening and saving -/
def Spec.SameResult : Option (HMap Str Diags) → Option (HMap Str Diags) → Prop
  | none, none => True
  | some m, some m' => ∀ k, OptPerm (m.get? k) (m'.get? k)
  | _, _ => False

theorem single_same {a b : Diags} (h : a.Perm b) (u : Str) :
    ∀ k, OptPerm ((HMap.empty.insert u a : HMap Str Diags).get? k) ((HMap.empty.insert u b : HMap Str Diags).get? k) := by
  intro k
  rw [HMap.get?_insert, HMap.get?_insert]
  split
  · exact h
  · trivial

theorem Spec.SameFiles.didSave {f g : LspFiles} (h : SameFiles f g) (env : Env) (w : World) (o : HashOrder) (u : Str) :
    Agree (fun a b => SameFiles a.1 b.1 ∧ SameResult a.2 b.2) (f.didSave env w u) (g.didSave env { w with order := o } u) := by
  unfold LspFiles.didSave
  cases fileExt u with
  | none => exact ⟨h, trivial⟩
  | some l =>
    have hd : g.documents = f.documents := by obtain ⟨ca, rfl, h⟩ := h; rfl
    simp only [hd]
    cases f.documents.get? u with
    | none => exact ⟨h, trivial⟩
    | some c =>
      have h1 := (h.deleteVariables u).addVariables env u l c
      simp only
      cases hf : (f.deleteVariables u).addVariables env u l c with
      | error e =>
        cases hg : (g.deleteVariables u).addVariables env u l c with
        | error e' => rw [hf, hg] at h1; exact h1
        | ok b => rw [hf, hg] at h1; exact h1.elim
      | ok a =>
        cases hg : (g.deleteVariables u).addVariables env u l c with
        | error e' => rw [hf, hg] at h1; exact h1.elim
        | ok b =>
          rw [hf, hg] at h1
          have h1 : SameFiles a b := h1
          have h2 := h1.readTree env w o u
          simp only
          cases hra : a.readTree env w u with
          | error e =>
            obtain ⟨v, hv⟩ := readTree_ok env w a u
            rw [hra] at hv; cases hv
          | ok va =>
            cases hrb : b.readTree env { w with order := o } u with
            | error e =>
              obtain ⟨v, hv⟩ := readTree_ok env { w with order := o } b u
              rw [hrb] at hv; cases hv
            | ok vb =>
              rw [hra, hrb] at h2
              cases va with
              | none => cases vb with
                | none => exact ⟨h1, single_same (List.Perm.refl _) u⟩
                | some y => exact h2.elim
              | some x => cases vb with
                | none => exact h2.elim
                | some y => exact ⟨h1, single_same h2 u⟩

theorem Spec.SameFiles.didOpen {f g : LspFiles} (h : SameFiles f g) (env : Env) (w : World) (o : HashOrder) (u c : Str) :
    Agree (fun a b => SameFiles a.1 b.1 ∧ SameResult a.2 b.2) (f.didOpen env w u c false) (g.didOpen env { w with order := o } u c false) := by
  unfold LspFiles.didOpen
  cases fileExt u with
  | none => exact ⟨h, trivial⟩
  | some l =>
    simp only
    have h1 := (((h.deleteVariables u).setDoc u c).addTree env u l c).addVariables env u l c
    cases hf : (LspFiles.addTree env { f.deleteVariables u with documents := (f.deleteVariables u).documents.insert u c } u l c).addVariables
        env u l c with
    | error e =>
      cases hg : (LspFiles.addTree env { g.deleteVariables u with documents := (g.deleteVariables u).documents.insert u c } u l c).addVariables
          env u l c with
      | error e' => rw [hf, hg] at h1; exact h1
      | ok b => rw [hf, hg] at h1; exact h1.elim
    | ok a =>
      cases hg : (LspFiles.addTree env { g.deleteVariables u with documents := (g.deleteVariables u).documents.insert u c } u l c).addVariables
          env u l c with
      | error e' => rw [hf, hg] at h1; exact h1.elim
      | ok b =>
        rw [hf, hg] at h1
        have h1 : SameFiles a b := h1
        have h2 := h1.readTree env w o u
        simp only [Bool.false_eq_true, if_false]
        cases hra : a.readTree env w u with
        | error e =>
          obtain ⟨v, hv⟩ := readTree_ok env w a u
          rw [hra] at hv; cases hv
        | ok va =>
          cases hrb : b.readTree env { w with order := o } u with
          | error e =>
            obtain ⟨v, hv⟩ := readTree_ok env { w with order := o } b u
            rw [hrb] at hv; cases hv
          | ok vb =>
            rw [hra, hrb] at h2
            cases va with
            | none => cases vb with
              | none => exact ⟨h1, trivial⟩
              | some y => exact h2.elim
            | some x => cases vb with
              | none => exact h2.elim
              | some y => exact ⟨h1, single_same h2 u⟩

/-- what one message has in common on both servers -/
def Spec.SameOutcome (a b : Server × List Send × Reply) : Prop :=
  SameServer a.1 b.1 ∧ Each SameSend a.2.1 b.2.1 ∧ SameReply a.2.2 b.2.2

/-- every path is accepted in a `file:` URL (no quick fix panics) -/
def Spec.FileUrls (env : Env) : Prop := ∀ path, env.urlParse (c!"file:///" ++ path) ≠ none

theorem sends_same {a b : Option (HMap Str Diags)} (h : SameResult a b) : Each SameSend (Server.sends a) (Server.sends b) := by
  cases a with
  | none => cases b with
    | none => exact .nil
    | some y => exact h.elim
  | some x => cases b with
    | none => exact h.elim
    | some y => exact .cons (.diag h) .nil

theorem walkdir_same (env : Env) (w : World) (o : HashOrder) (c : JinjaConfig) :
    Agree (fun a b => match a, b with
      | none, none => True
      | some x, some y => (∀ k, OptPerm (x.1.get? k) (y.1.get? k)) ∧ x.2 = y.2
      | _, _ => False) (walkdir env w c) (walkdir env { w with order := o } c) := by
  have hwd := walkDirs_order env w o (c.templates :: c.backend) (walkStart c)
  unfold walkdir
  rw [hwd]
  cases walkDirs env w (walkStart c) (c.templates :: c.backend) with
  | error e => rfl
  | ok r => cases r with
    | none => trivial
    | some f =>
      have hr := readTrees_order env w o f
      dsimp only
      cases ha : f.readTrees env w with
      | error e => cases hb : f.readTrees env { w with order := o } with
        | error e' => rw [ha, hb] at hr; exact hr
        | ok b => rw [ha, hb] at hr; exact hr.elim
      | ok a => cases hb : f.readTrees env { w with order := o } with
        | error e' => rw [ha, hb] at hr; exact hr.elim
        | ok b =>
          rw [ha, hb] at hr
          exact ⟨hr, rfl⟩

theorem onInitialized_same (env : Env) (w : World) (o : HashOrder) {s s' : Server} (h : SameServer s s') :
    Agree (fun a b => SameServer a.1 b.1 ∧ Each SameSend a.2 b.2) (s.onInitialized env w) (s'.onInitialized env { w with order := o }) := by
  unfold Server.onInitialized
  rw [h.config]
  split
  · have hr := walkdir_same env w o s.config
    cases ha : walkdir env w s.config with
    | error e => cases hb : walkdir env { w with order := o } s.config with
      | error e' => rw [ha, hb] at hr; exact hr
      | ok b => rw [ha, hb] at hr; exact hr.elim
    | ok a => cases hb : walkdir env { w with order := o } s.config with
      | error e' => rw [ha, hb] at hr; exact hr.elim
      | ok b =>
        rw [ha, hb] at hr
        cases a with
        | none => cases b with
          | none => exact ⟨h, .nil⟩
          | some y => exact hr.elim
        | some x => cases b with
          | none => exact hr.elim
          | some y =>
            obtain ⟨d, f⟩ := x
            obtain ⟨d', f'⟩ := y
            obtain ⟨h1, h2⟩ := hr
            cases h2
            refine ⟨⟨rfl, h.timers, h.nextHandle, ?_⟩, .cons (.diag h1) .nil⟩
            have hv : s'.files.isVscode = s.files.isVscode := by obtain ⟨ca, h1, _⟩ := h.files; rw [h1]
            dsimp only
            rw [hv]
            exact SameFiles.refl _
  · exact ⟨h, .nil⟩

theorem onDidChange_same (env : Env) {s s' : Server} (h : SameServer s s') (u : Str) (cs : List TextChange) :
    Agree SameServer (s.onDidChange env u cs) (s'.onDidChange env u cs) := by
  unfold Server.onDidChange
  rw [h.nextHandle, h.timers]
  have h1 := h.files.didChange env u cs s.nextHandle
  have hm : s'.files.mainChannel = s.files.mainChannel := by obtain ⟨ca, h1, _⟩ := h.files; rw [h1]
  have ht : s'.files.diagnosticsTask = s.files.diagnosticsTask := by obtain ⟨ca, h1, _⟩ := h.files; rw [h1]
  rw [hm, ht]
  cases ha : s.files.didChange env u cs s.nextHandle with
  | error e => cases hb : s'.files.didChange env u cs s.nextHandle with
    | error e' => rw [ha, hb] at h1; exact h1
    | ok b => rw [ha, hb] at h1; exact h1.elim
  | ok a => cases hb : s'.files.didChange env u cs s.nextHandle with
    | error e' => rw [ha, hb] at h1; exact h1.elim
    | ok b =>
      rw [ha, hb] at h1
      obtain ⟨fa, ba⟩ := a
      obtain ⟨fb, bb⟩ := b
      obtain ⟨h2, h3⟩ := h1
      cases h3
      cases ba with
      | false => exact ⟨h.config, rfl, rfl, h2⟩
      | true => exact ⟨h.config, rfl, rfl, h2⟩

theorem find_perm {α : Type} {p : α → Bool} {l l' : List α} (h : l.Perm l') : l.find? p = none ↔ l'.find? p = none := by
  rw [List.find?_eq_none, List.find?_eq_none]
  exact ⟨fun g x hx => g x (h.mem_iff.mpr hx), fun g x hx => g x (h.mem_iff.mp hx)⟩

/-- the two answers to "which quick fix": the same, or two missing templates -/
theorem codeAction_same {f g : LspFiles} (h : SameFiles f g) (env : Env) (u : Str) (p : Position) :
    Agree (fun a b => a = b ∨ ∃ n n', a = some (.createTemplate n) ∧ b = some (.createTemplate n')) (f.codeAction env u p)
      (g.codeAction env u p) := by
  obtain ⟨ca, rfl, h⟩ := h
  unfold LspFiles.codeAction
  cases fileExt u with
  | none => exact Or.inl rfl
  | some l =>
    dsimp only
    cases (f.trees l).get? u with
    | none => exact Or.inl rfl
    | some t =>
      have hk := h u
      cases ha : f.codeActions.get? u with
      | none => cases hb : ca.get? u with
        | none => exact Or.inl rfl
        | some y => rw [ha, hb] at hk; exact hk.elim
      | some x => cases hb : ca.get? u with
        | none => rw [ha, hb] at hk; exact hk.elim
        | some y =>
          rw [ha, hb] at hk
          have hk : x.Perm y := hk
          have hf := find_perm (p := fun item : Identifier => decide (item.start ≤ toPoint p) && decide (toPoint p ≤ item.stop)) hk
          dsimp only
          cases hx : x.find? (fun item : Identifier => decide (item.start ≤ toPoint p) && decide (toPoint p ≤ item.stop)) with
          | none =>
            rw [hf.mp hx]
            refine Agree.refl (R := fun a b => a = b ∨ _) (fun _ => Or.inl rfl) _
          | some i =>
            cases hy : y.find? (fun item : Identifier => decide (item.start ≤ toPoint p) && decide (toPoint p ≤ item.stop)) with
            | none => rw [hf.mpr hy] at hx; cases hx
            | some j =>
              cases l with
              | backend => exact Or.inr ⟨_, _, rfl, rfl⟩
              | template =>
                cases f.documents.get? u with
                | none => exact Or.inl rfl
                | some c => exact Or.inr ⟨_, _, rfl, rfl⟩

theorem onCodeAction_same {env : Env} (hu : FileUrls env) (w : World) (o : HashOrder) {s s' : Server} (h : SameServer s s') (u : Str)
    (p : Position) : Agree (fun a b => SameServer a.1 b.1 ∧ SameReply (.codeAction a.2) (.codeAction b.2)) (s.onCodeAction env w u p)
      (s'.onCodeAction env { w with order := o } u p) := by
  have h1 := codeAction_same h.files env u p
  have hm : s'.files.mainChannel = s.files.mainChannel := by obtain ⟨ca, h1, _⟩ := h.files; rw [h1]
  have hc : s'.files.config = s.files.config := by obtain ⟨ca, h1, _⟩ := h.files; rw [h1]
  unfold Server.onCodeAction
  cases ha : s.files.codeAction env u p with
  | error e => cases hb : s'.files.codeAction env u p with
    | error e' => rw [ha, hb] at h1; exact h1
    | ok b => rw [ha, hb] at h1; exact h1.elim
  | ok a => cases hb : s'.files.codeAction env u p with
    | error e' => rw [ha, hb] at h1; exact h1.elim
    | ok b =>
      rw [ha, hb] at h1
      rcases h1 with rfl | ⟨n, n', rfl, rfl⟩
      · cases a with
        | none => exact ⟨h, .refl _⟩
        | some a =>
          have he : LspFiles.processCodeActions env { w with order := o } s'.files a = s.files.processCodeActions env w a := by
            unfold LspFiles.processCodeActions
            rw [hc]
          dsimp only
          rw [he]
          cases s.files.processCodeActions env w a with
          | error e => rfl
          | ok r =>
            obtain ⟨items, b⟩ := r
            cases b with
            | false => exact ⟨h, .refl _⟩
            | true =>
              refine ⟨⟨h.config, ?_, ?_, h.files⟩, .refl _⟩
              · dsimp only; rw [h.timers, h.nextHandle, hm]
              · dsimp only; rw [h.nextHandle]
      · dsimp only [LspFiles.processCodeActions]
        rw [hc]
        cases w.canonicalize s.files.config.templates with
        | error e =>
          refine ⟨⟨h.config, ?_, ?_, h.files⟩, .refl _⟩
          · dsimp only; rw [h.timers, h.nextHandle, hm]
          · dsimp only; rw [h.nextHandle]
        | ok path =>
          obtain ⟨a, ha⟩ := Option.ne_none_iff_exists'.mp (hu (pathPush path (pathItems n)))
          obtain ⟨b, hb⟩ := Option.ne_none_iff_exists'.mp (hu (pathPush path (pathItems n')))
          dsimp only
          rw [ha, hb]
          refine ⟨⟨h.config, ?_, ?_, h.files⟩, .create⟩
          · dsimp only; rw [h.timers, h.nextHandle, hm]
          · dsimp only; rw [h.nextHandle]

theorem addCodeActions_same {f g : LspFiles} (h : SameFiles f g) (o o' : HashOrder) {m m' : HMap Str (List Identifier)}
    (hm : ∀ k, OptPerm (m.get? k) (m'.get? k)) : SameFiles (f.addCodeActions o m) (g.addCodeActions o' m') := by
  have key : ∀ (o : HashOrder) (m : HMap Str (List Identifier)) (f : LspFiles),
      f.addCodeActions o m = { f with codeActions := (f.addCodeActions o m).codeActions } := by
    intro o m f
    unfold LspFiles.addCodeActions
    generalize o.shuffle 3 m.entries = es
    induction es generalizing f with
    | nil => rfl
    | cons e es ih => rw [List.foldl_cons, ih]
  obtain ⟨ca, hg, hca⟩ := h
  refine ⟨(g.addCodeActions o' m').codeActions, ?_, fun k => ?_⟩
  · rw [key o' m' g, key o m f]
    dsimp only
    rw [hg]
  · rw [addCodeActions_get, addCodeActions_get]
    have h1 := hm k
    cases ha : m.get? k with
    | none => cases hb : m'.get? k with
      | none =>
        have h2 := hca k
        rw [hg]
        simpa using h2
      | some y => rw [ha, hb] at h1; exact h1.elim
    | some x => cases hb : m'.get? k with
      | none => rw [ha, hb] at h1; exact h1.elim
      | some y => rw [ha, hb] at h1; exact h1

theorem goto_same {f g : LspFiles} (h : SameFiles f g) (env : Env) (w : World) (o : HashOrder) (u : Str) (p : Position) :
    Agree (fun a b => SameReply (.goto a) (.goto b)) (f.gotoDefinition env w u p) (g.gotoDefinition env { w with order := o } u p) := by
  obtain ⟨ca, rfl, h⟩ := h
  have hl : ∀ i, LspFiles.localDefinition { f with codeActions := ca } u i (toPoint p) = f.localDefinition u i (toPoint p) := fun _ => rfl
  have ht : ∀ n, LspFiles.templateLocation env { w with order := o } { f with codeActions := ca } n = f.templateLocation env w n := fun _ => rfl
  unfold LspFiles.gotoDefinition
  cases fileExt u with
  | none => exact .refl _
  | some l =>
    dsimp only
    cases (f.trees l).get? u with
    | none => exact .refl _
    | some t =>
      cases f.documents.get? u with
      | none => exact .refl _
      | some c =>
        cases l with
        | backend =>
          dsimp only
          cases (backendTemplatesQuery env f.queriesBackend t (toPoint p) c false).inTemplate (toPoint p) with
          | none => exact .refl _
          | some x => exact .refl _
        | template =>
          dsimp only
          cases objectsQuery env t (toPoint p) c false with
          | error e => rfl
          | ok objs =>
            simp only [hl, ht]
            cases (objs.isIdent (toPoint p)).bind fun i => f.localDefinition u i (toPoint p) with
            | some r => exact .refl _
            | none =>
              dsimp only
              cases ((templatesQuery env t (toPoint p) c false).inTemplate.bind fun i => i.getIdentifier (toPoint p)).bind
                  fun i => f.templateLocation env w i.name with
              | some r => exact .refl _
              | none =>
                have hc := collectFiles_perm env u ((objs.isIdent (toPoint p)).getD []) (shuffle_perm w.order o 2 f.variables.entries)
                dsimp only
                cases ha : LspFiles.collectFiles env u ((objs.isIdent (toPoint p)).getD []) (w.order.shuffle 2 f.variables.entries) with
                | error e => cases hb : LspFiles.collectFiles env u ((objs.isIdent (toPoint p)).getD []) (o.shuffle 2 f.variables.entries) with
                  | error e' => rw [ha, hb] at hc; exact hc
                  | ok b => rw [ha, hb] at hc; exact hc.elim
                | ok a => cases hb : LspFiles.collectFiles env u ((objs.isIdent (toPoint p)).getD []) (o.shuffle 2 f.variables.entries) with
                  | error e' => rw [ha, hb] at hc; exact hc.elim
                  | ok b => rw [ha, hb] at hc; exact .goto hc

theorem templateItems_acts (f : LspFiles) (ca : HMap Str (List Identifier)) (r : Range) (p : Position) : ∀ (l : List Str),
    LspFiles.templateItems { f with codeActions := ca } r p l = f.templateItems r p l
  | [] => rfl
  | t :: l => by
    unfold LspFiles.templateItems
    rw [templateItems_acts f ca r p l]
    rfl

theorem completionItems_acts (w : World) (f : LspFiles) (ca : HMap Str (List Identifier)) (u : Str) (p : Position) (t : CompletionType) :
    completionItems w { f with codeActions := ca } u p t = completionItems w f u p t := by
  cases t with
  | includedTemplate n r => exact templateItems_acts f ca r p _
  | _ => rfl

theorem completion_reply {a b : Option (List CompletionItem)} (h : OptPerm a b) : SameReply (.completion a) (.completion b) := by
  cases a with
  | none => cases b with
    | none => exact .refl _
    | some y => exact h.elim
  | some x => cases b with
    | none => exact h.elim
    | some y => exact .completion h

/-! ## C48 -/

/-- **C48** One message: two servers in the same state that iterate over hash tables in different orders compute the same diagnostics, hover
text, definitions and completion items up to ordering, and are in the same state afterwards — or both panic. -/
theorem C48_message (env : Env) (hu : FileUrls env) (w w' : World) (hw : SameDisk w w') (s s' : Server) (hs : SameServer s s') (m m' : Msg)
    (hm : SameMsg m m') : Agree SameOutcome (s.handle env w m) (s'.handle env w' m') := by
  obtain ⟨o, rfl⟩ := hw.eq
  cases hm with
  | codeActions hm =>
    exact ⟨⟨hs.config, hs.timers, hs.nextHandle, addCodeActions_same hs.files _ _ hm⟩, .nil, .refl _⟩
  | refl =>
    cases m with
    | «initialize» client options =>
      refine ⟨⟨?_, hs.timers, hs.nextHandle, ?_⟩, .nil, .refl _⟩
      · unfold Server.onInitialize searchConfig
        dsimp only
        rw [searchConfigIn_order, hs.config]
      · unfold Server.onInitialize
        dsimp only
        obtain ⟨ca, h1, h2⟩ := hs.files
        rw [h1]
        split
        · exact ⟨ca, rfl, h2⟩
        · exact ⟨ca, rfl, h2⟩
    | initialized =>
      have h1 := onInitialized_same env w o hs
      unfold Server.handle
      dsimp only
      cases ha : s.onInitialized env w with
      | error e => cases hb : s'.onInitialized env { w with order := o } with
        | error e' => rw [ha, hb] at h1; exact h1
        | ok b => rw [ha, hb] at h1; exact h1.elim
      | ok a => cases hb : s'.onInitialized env { w with order := o } with
        | error e' => rw [ha, hb] at h1; exact h1.elim
        | ok b => rw [ha, hb] at h1; exact ⟨h1.1, h1.2, .refl _⟩
    | didChange u cs =>
      have h1 := onDidChange_same env hs u cs
      unfold Server.handle
      dsimp only
      cases ha : s.onDidChange env u cs with
      | error e => cases hb : s'.onDidChange env u cs with
        | error e' => rw [ha, hb] at h1; exact h1
        | ok b => rw [ha, hb] at h1; exact h1.elim
      | ok a => cases hb : s'.onDidChange env u cs with
        | error e' => rw [ha, hb] at h1; exact h1.elim
        | ok b => rw [ha, hb] at h1; exact ⟨h1, .nil, .refl _⟩
    | didSave u =>
      have h1 := hs.files.didSave env w o u
      unfold Server.handle
      dsimp only
      cases ha : s.files.didSave env w u with
      | error e => cases hb : s'.files.didSave env { w with order := o } u with
        | error e' => rw [ha, hb] at h1; exact h1
        | ok b => rw [ha, hb] at h1; exact h1.elim
      | ok a => cases hb : s'.files.didSave env { w with order := o } u with
        | error e' => rw [ha, hb] at h1; exact h1.elim
        | ok b =>
          rw [ha, hb] at h1
          exact ⟨⟨hs.config, hs.timers, hs.nextHandle, h1.1⟩, sends_same h1.2, .refl _⟩
    | didOpen u c =>
      have h1 := hs.files.didOpen env w o u c
      unfold Server.handle
      dsimp only
      cases ha : s.files.didOpen env w u c false with
      | error e => cases hb : s'.files.didOpen env { w with order := o } u c false with
        | error e' => rw [ha, hb] at h1; exact h1
        | ok b => rw [ha, hb] at h1; exact h1.elim
      | ok a => cases hb : s'.files.didOpen env { w with order := o } u c false with
        | error e' => rw [ha, hb] at h1; exact h1.elim
        | ok b =>
          rw [ha, hb] at h1
          exact ⟨⟨hs.config, hs.timers, hs.nextHandle, h1.1⟩, sends_same h1.2, .refl _⟩
    | completion u p t =>
      have hc : s'.files.completion env u p t = s.files.completion env u p t := by
        obtain ⟨ca, h1, _⟩ := hs.files; rw [h1]; rfl
      unfold Server.handle Server.onCompletion
      dsimp only
      rw [hc]
      cases s.files.completion env u p t with
      | error e => rfl
      | ok r => cases r with
        | none => exact ⟨hs, .nil, .refl _⟩
        | some c =>
          have hi : completionItems { w with order := o } s'.files u p c.1 = completionItems { w with order := o } s.files u p c.1 := by
            obtain ⟨ca, h1, _⟩ := hs.files; rw [h1]; exact completionItems_acts _ _ _ _ _ _
          refine ⟨hs, .nil, completion_reply ?_⟩
          rw [hi]
          exact completionItems_order w o s.files u p c.1
    | hover u p =>
      have hc : s'.files.hover env u p = s.files.hover env u p := by
        obtain ⟨ca, h1, _⟩ := hs.files; rw [h1]; rfl
      unfold Server.handle Server.onHover
      dsimp only
      rw [hc]
      cases s.files.hover env u p with
      | error e => rfl
      | ok r => cases r with
        | none => exact ⟨hs, .nil, .refl _⟩
        | some c =>
          have hi : hoverText { w with order := o } s'.files u c = hoverText { w with order := o } s.files u c := by
            obtain ⟨ca, h1, _⟩ := hs.files; rw [h1]; rfl
          refine ⟨hs, .nil, ?_⟩
          dsimp only
          rw [hi, hoverText_order w o]
          exact .refl _
    | goto u p =>
      have h1 := goto_same hs.files env w o u p
      unfold Server.handle
      dsimp only
      cases ha : s.files.gotoDefinition env w u p with
      | error e => cases hb : s'.files.gotoDefinition env { w with order := o } u p with
        | error e' => rw [ha, hb] at h1; exact h1
        | ok b => rw [ha, hb] at h1; exact h1.elim
      | ok a => cases hb : s'.files.gotoDefinition env { w with order := o } u p with
        | error e' => rw [ha, hb] at h1; exact h1.elim
        | ok b => rw [ha, hb] at h1; exact ⟨hs, .nil, h1⟩
    | codeAction u p =>
      have h1 := onCodeAction_same hu w o hs u p
      unfold Server.handle
      dsimp only
      cases ha : s.onCodeAction env w u p with
      | error e => cases hb : s'.onCodeAction env { w with order := o } u p with
        | error e' => rw [ha, hb] at h1; exact h1
        | ok b => rw [ha, hb] at h1; exact h1.elim
      | ok a => cases hb : s'.onCodeAction env { w with order := o } u p with
        | error e' => rw [ha, hb] at h1; exact h1.elim
        | ok b => rw [ha, hb] at h1; exact ⟨h1.1, .nil, h1.2⟩
    | executeCommand c =>
      refine ⟨hs, ?_, .refl _⟩
      dsimp only
      split
      · exact .cons .initialized .nil
      · exact .nil
    | documentSymbol u =>
      have hc : s'.files.documentSymbols u = s.files.documentSymbols u := by
        obtain ⟨ca, h1, _⟩ := hs.files; rw [h1]; rfl
      refine ⟨hs, .nil, ?_⟩
      dsimp only
      rw [hc]
      exact .refl _
    | didChangeConfiguration c =>
      unfold Server.handle
      dsimp only
      rw [hs.config]
      refine ⟨⟨rfl, hs.timers, hs.nextHandle, hs.files⟩, ?_, .refl _⟩
      generalize (match c with | some c => ({ c with userDefined := true } : JinjaConfig) | none => s.config).userDefined = b
      cases b with
      | true => exact .cons .initialized .nil
      | false => exact .nil
    | codeActions m =>
      exact ⟨⟨hs.config, hs.timers, hs.nextHandle, addCodeActions_same hs.files _ _ fun _ => OptPerm.refl _⟩, .nil, .refl _⟩

/-- one step of a history: the same disk and the same message -/
def Spec.SameInput (a b : World × Msg) : Prop := SameDisk a.1 b.1 ∧ SameMsg a.2 b.2

/-- the server is alive in the same state, or dead on both sides -/
def Spec.SameWorker : Option Server → Option Server → Prop
  | none, none => True
  | some s, some s' => SameServer s s'
  | _, _ => False

/-- **C48** A whole session: for every two sequences of iteration orders, every message gets the same answer up to ordering. -/
theorem C48_session (env : Env) (hu : FileUrls env) : ∀ (h h' : List (World × Msg)) (s s' : Option Server), Each SameInput h h' →
    SameWorker s s' → SameWorker (workerRun env s h).1 (workerRun env s' h').1 ∧
      Each SameReply (workerRun env s h).2 (workerRun env s' h').2
  | _, _, s, s', .nil, hs => ⟨hs, .nil⟩
  | _, _, s, s', .cons (a := a) (b := b) (as := as) (bs := bs) hab habs, hs => by
    have key : SameWorker (workerStep env a.1 s a.2).1 (workerStep env b.1 s' b.2).1 ∧
        SameReply (workerStep env a.1 s a.2).2 (workerStep env b.1 s' b.2).2 := by
      cases s with
      | none => cases s' with
        | none => exact ⟨trivial, .refl _⟩
        | some y => exact hs.elim
      | some x => cases s' with
        | none => exact hs.elim
        | some y =>
          have h1 := C48_message env hu a.1 b.1 hab.1 x y hs a.2 b.2 hab.2
          unfold workerStep
          dsimp only
          cases ha : x.handle env a.1 a.2 with
          | error e => cases hb : y.handle env b.1 b.2 with
            | error e' => exact ⟨trivial, .refl _⟩
            | ok b => rw [ha, hb] at h1; exact h1.elim
          | ok a => cases hb : y.handle env b.1 b.2 with
            | error e' => rw [ha, hb] at h1; exact h1.elim
            | ok b => rw [ha, hb] at h1; exact ⟨h1.1, h1.2.2⟩
    have ih := C48_session env hu as bs _ _ habs key.1
    exact ⟨ih.1, .cons key.2 ih.2⟩

theorem diagLoop_error {env : Env} : ∀ (es : List (Str × Diags)) (ca : HMap Str (List Identifier)),
    (∃ e ∈ es, env.urlParse e.1 = none) → diagLoop env es ca = .error .unwrap
  | e :: es, ca, h => by
    unfold diagLoop
    cases hu : env.urlParse e.1 with
    | none => rfl
    | some u =>
      have : ∃ e ∈ es, env.urlParse e.1 = none := by
        obtain ⟨x, hx, hn⟩ := h
        rcases List.mem_cons.mp hx with rfl | hx
        · rw [hu] at hn; cases hn
        · exact ⟨x, hx, hn⟩
      dsimp only
      rw [diagLoop_error es _ this]

/-- **C48** What is published: the same lists for the same files up to ordering, and the same missing templates are handed back. -/
theorem C48_published (env : Env) (o o' : HashOrder) (m m' : HMap Str Diags) (h : ∀ k, OptPerm (m.get? k) (m'.get? k)) :
    Agree (fun a b => SameLists a.1 b.1 ∧ ∀ k, OptPerm (a.2.get? k) (b.2.get? k)) (diagProcess env o m) (diagProcess env o' m') := by
  have h12 : ∀ k v, (k, v) ∈ m.entries → ∃ v', (k, v') ∈ m'.entries ∧ v.Perm v' := by
    intro k v hv
    have h1 := h k
    rw [(HMap.get?_eq_some_iff ..).mpr hv] at h1
    cases hb : m'.get? k with
    | none => rw [hb] at h1; exact h1.elim
    | some y => rw [hb] at h1; exact ⟨y, (HMap.get?_eq_some_iff ..).mp hb, h1⟩
  have h21 : ∀ k v', (k, v') ∈ m'.entries → ∃ v, (k, v) ∈ m.entries := by
    intro k v hv
    have h1 := h k
    rw [(HMap.get?_eq_some_iff ..).mpr hv] at h1
    cases hb : m.get? k with
    | none => rw [hb] at h1; exact h1.elim
    | some y => exact ⟨y, (HMap.get?_eq_some_iff ..).mp hb⟩
  by_cases hbad : ∃ e ∈ m.entries, env.urlParse e.1 = none
  · have hbad' : ∃ e ∈ m'.entries, env.urlParse e.1 = none := by
      obtain ⟨e, he, hn⟩ := hbad
      obtain ⟨v', hv', _⟩ := h12 e.1 e.2 he
      exact ⟨_, hv', hn⟩
    have hA : diagProcess env o m = .error .unwrap := by
      refine diagLoop_error _ _ ?_
      obtain ⟨e, he, hn⟩ := hbad
      exact ⟨e, (HMap.mem_shuffle ..).mpr he, hn⟩
    have hB : diagProcess env o' m' = .error .unwrap := by
      refine diagLoop_error _ _ ?_
      obtain ⟨e, he, hn⟩ := hbad'
      exact ⟨e, (HMap.mem_shuffle ..).mpr he, hn⟩
    rw [hA, hB]
    rfl
  · have hok : ∀ e ∈ o.shuffle 9 m.entries, env.urlParse e.1 ≠ none := fun e he hn => hbad ⟨e, (HMap.mem_shuffle ..).mp he, hn⟩
    have hok' : ∀ e ∈ o'.shuffle 9 m'.entries, env.urlParse e.1 ≠ none := fun e he hn => by
      obtain ⟨v, hv⟩ := h21 e.1 e.2 ((HMap.mem_shuffle ..).mp he)
      exact hbad ⟨_, hv, hn⟩
    obtain ⟨ca, hA⟩ := diagLoop_ok env _ HMap.empty hok
    obtain ⟨ca', hB⟩ := diagLoop_ok env _ HMap.empty hok'
    have hA' : diagProcess env o m = _ := hA
    have hB' : diagProcess env o' m' = _ := hB
    rw [hA', hB']
    refine ⟨?_, fun k => ?_⟩
    · have h1 : SameLists (o.shuffle 9 m.entries) (o'.shuffle 9 m'.entries) :=
        .trans (SameLists.of_perm (o.perm 9 _)) (.trans (SameLists.of_lookup _ _ m.nodup m'.nodup h12 h21)
          (SameLists.of_perm (o'.perm 9 _).symm))
      exact SameLists.map h1 (fun k => (env.urlParse k).getD []) toDiagnostics fun a b hp => hp.map _
    · rw [diagProcess_actions hA' k, diagProcess_actions hB' k]
      have h1 := h k
      cases ha : m.get? k with
      | none => cases hb : m'.get? k with
        | none => trivial
        | some y => rw [ha, hb] at h1; exact h1.elim
      | some x => cases hb : m'.get? k with
        | none => rw [ha, hb] at h1; exact h1.elim
        | some y =>
          rw [ha, hb] at h1
          exact (List.Perm.filter _ h1).map _

/-! ### Examples -/

/-- iteration in reverse -/
def Fix.reverse : HashOrder := ⟨fun _ l => l.reverse, fun _ l => List.reverse_perm l⟩

/-- the same disk, iterated in reverse -/
def Fix.backwards : World := { Fix.world with order := Fix.reverse }

def Fix.uriC : Str := c!"file:///c.html"

/-- two other files contain an entry with an empty name (a component without name) -/
def Fix.orderServer : Server :=
  { Fix.server with files := { Fix.files with
      variables := ((HMap.empty.insert Fix.uriA []).insert Fix.uriB [Identifier.new [] ⟨1, 0⟩ ⟨1, 0⟩]).insert Fix.uriC
        [Identifier.new [] ⟨2, 0⟩ ⟨2, 0⟩] } }

/-- a request whose answers really differ in the two orders, and are permutations of each other -/
example : FileUrls Fix.env ∧ SameDisk Fix.world Fix.backwards ∧ SameServer Fix.orderServer Fix.orderServer ∧
    ∃ a b, (Fix.orderServer.handle Fix.env Fix.world (.goto Fix.uriA ⟨0, 1⟩)).toOption.map (·.2.2) = some (.goto (some (.array [a, b]))) ∧
      (Fix.orderServer.handle Fix.env Fix.backwards (.goto Fix.uriA ⟨0, 1⟩)).toOption.map (·.2.2) = some (.goto (some (.array [b, a]))) ∧
      a ≠ b := by
  refine ⟨fun _ => by simp [Fix.env], ⟨rfl, rfl, rfl⟩, SameServer.refl _, ⟨Fix.uriC, ⟨⟨2, 0⟩, ⟨2, 0⟩⟩⟩, ⟨Fix.uriB, ⟨⟨1, 0⟩, ⟨1, 0⟩⟩⟩, ?_, ?_, ?_⟩
  · rfl
  · rfl
  · decide

/-- a session of four messages on both sides -/
example : ∃ h h' : List (World × Msg), Each SameInput h h' ∧ h.length = 4 ∧
    (workerRun Fix.env (some Fix.orderServer) h).1 ≠ none := by
  refine ⟨[(Fix.world, .didOpen Fix.uriA c!"x"), (Fix.world, .goto Fix.uriA ⟨0, 1⟩), (Fix.world, .initialized), (Fix.world, .hover Fix.uriA ⟨0, 1⟩)],
    [(Fix.backwards, .didOpen Fix.uriA c!"x"), (Fix.backwards, .goto Fix.uriA ⟨0, 1⟩), (Fix.backwards, .initialized),
      (Fix.backwards, .hover Fix.uriA ⟨0, 1⟩)], ?_, rfl, ?_⟩
  · exact .cons ⟨⟨rfl, rfl, rfl⟩, .refl _⟩ (.cons ⟨⟨rfl, rfl, rfl⟩, .refl _⟩ (.cons ⟨⟨rfl, rfl, rfl⟩, .refl _⟩
      (.cons ⟨⟨rfl, rfl, rfl⟩, .refl _⟩ .nil)))
  · exact Option.ne_none_iff_exists'.mpr ⟨_, rfl⟩

/-- two files, whose lists are published in different orders -/
example : ∃ m : HMap Str Diags, ∃ pubs pubs' ca ca', diagProcess Fix.env HashOrder.id m = .ok (pubs, ca) ∧
    diagProcess Fix.env Fix.reverse m = .ok (pubs', ca') ∧ pubs ≠ pubs' :=
  ⟨(HMap.empty.insert Fix.uriA [(.undefined, Identifier.new c!"x" ⟨0, 1⟩ ⟨0, 2⟩)]).insert Fix.uriB [], _, _, _, _, rfl, rfl, by decide⟩

/-! ## C49 -/

/-- **C49** Every answered request leaves texts, trees, variables, quick-fix lists and the configuration exactly as they were, and causes no
diagnostics to be computed. -/
theorem C49_request (env : Env) (w : World) (s s' : Server) (m : Msg) (hm : m.isQuery) (out : List Send) (r : Reply)
    (h : s.handle env w m = .ok (s', out, r)) : s'.files = s.files ∧ s'.config = s.config ∧ out = [] := handle_query hm h

/-- **C49** So does every sequence of requests. -/
theorem C49_requests (env : Env) : ∀ (h : List (World × Msg)) (s s' : Server), (∀ e ∈ h, e.2.isQuery) → s.run env h = .ok s' →
    s'.files = s.files ∧ s'.config = s.config
  | [], s, s', _, hr => by cases hr; exact ⟨rfl, rfl⟩
  | e :: h, s, s', hq, hr => by
    unfold Server.run at hr
    split at hr
    · cases hr
    · rename_i s1 out r h1
      obtain ⟨a, b, _⟩ := handle_query (hq e (by simp)) h1
      obtain ⟨c, d⟩ := C49_requests env h s1 s' (fun x hx => hq x (by simp [hx])) hr
      exact ⟨c.trans a, d.trans b⟩

/-- Requests that are not code actions. -/
def Spec.PureRequest : Msg → Prop
  | .completion .. | .hover .. | .goto .. | .documentSymbol .. => True
  | _ => False

theorem pure_state {env : Env} {w : World} {s s' : Server} {m : Msg} {out : List Send} {r : Reply} (hm : PureRequest m)
    (h : s.handle env w m = .ok (s', out, r)) : s' = s := by
  cases m <;> simp only [PureRequest] at hm <;> unfold Server.handle at h <;> simp only at h
  case completion => split at h <;> cases h; rfl
  case hover => split at h <;> cases h; rfl
  case goto => split at h <;> cases h; rfl
  case documentSymbol => cases h; rfl

/-- **C49** Completion, hover, goto-definition and symbol requests can be dropped from a session, wherever they occur, without any effect on
the final state (including pending re-analyses). -/
theorem C49_invisible (env : Env) : ∀ (h : List (World × Msg)) (s s' : Server), s.run env h = .ok s' →
    ∀ keep : (World × Msg) → Bool, (∀ e ∈ h, keep e = false → PureRequest e.2) → s.run env (h.filter keep) = .ok s'
  | [], s, s', hr, _, _ => hr
  | e :: h, s, s', hr, keep, hk => by
    unfold Server.run at hr
    split at hr
    · cases hr
    · rename_i s1 out r h1
      have ih := C49_invisible env h s1 s' hr keep (fun x hx => hk x (by simp [hx]))
      cases he : keep e with
      | true =>
        rw [List.filter_cons_of_pos he]
        unfold Server.run
        rw [h1]
        exact ih
      | false =>
        rw [List.filter_cons_of_neg (by simp [he])]
        rw [← pure_state (hk e (by simp) he) h1]
        exact ih

/-- a code-action request that is answered -/
example : ∃ s' out r, Fix.orderServer.handle Fix.env Fix.world (.codeAction Fix.uriA ⟨0, 1⟩) = .ok (s', out, r) ∧
    (Msg.codeAction Fix.uriA ⟨0, 1⟩).isQuery := ⟨_, _, _, rfl, trivial⟩

/-- a session with requests in between -/
example : ∃ s', Fix.orderServer.run Fix.env [(Fix.world, .hover Fix.uriA ⟨0, 1⟩), (Fix.world, .didOpen Fix.uriA c!"x"),
    (Fix.world, .goto Fix.uriA ⟨0, 1⟩)] = .ok s' ∧ PureRequest (.hover Fix.uriA ⟨0, 1⟩) ∧ PureRequest (.goto Fix.uriA ⟨0, 1⟩) :=
  ⟨_, rfl, trivial, trivial⟩

end JinjaLsp
