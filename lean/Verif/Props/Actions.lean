import Verif.Props.Hover
import Verif.Props.Publish
/-
  C46–C47: quick fixes for missing templates.
-/

namespace JinjaLsp
open Spec

/-! ## From analysis results to quick fixes -/

theorem diagLoop_actions {env : Env} : ∀ (es : List (Str × Diags)) (ca ca' : HMap Str (List Identifier)) (pubs : List (Str × List Diagnostic)),
    (es.map Prod.fst).Nodup → diagLoop env es ca = .ok (pubs, ca') →
    ∀ k, ca'.get? k = match es.find? (fun e => decide (e.1 = k)) with
      | some e => some (missingTemplates e.2)
      | none => ca.get? k
  | [], ca, ca', pubs, _, h, k => by simp only [diagLoop] at h; cases h; rfl
  | e :: es, ca, ca', pubs, hnd, h, k => by
    unfold diagLoop at h
    split at h
    · cases h
    · split at h
      · cases h
      · rename_i hr
        cases h
        simp only [List.map_cons, List.nodup_cons] at hnd
        rw [diagLoop_actions es _ _ _ hnd.2 hr k, List.find?_cons]
        by_cases hk : e.1 = k
        · subst hk
          have : es.find? (fun x => decide (x.1 = e.1)) = none := by
            rw [List.find?_eq_none]
            intro x hx hh
            simp only [decide_eq_true_eq] at hh
            exact hnd.1 (hh ▸ List.mem_map_of_mem hx)
          simp only [this, decide_true, HMap.get?_insert_self]
        · simp only [hk, decide_false]
          cases es.find? (fun x => decide (x.1 = k)) with
          | some x => rfl
          | none => exact HMap.get?_insert_ne _ _ (fun h => hk h.symm)

/-- the quick fixes of a file are those for its missing templates -/
theorem diagProcess_actions {env : Env} {o : HashOrder} {m : HMap Str Diags} {pubs : List (Str × List Diagnostic)}
    {ca : HMap Str (List Identifier)} (h : diagProcess env o m = .ok (pubs, ca)) (k : Str) :
    ca.get? k = (m.get? k).map missingTemplates := by
  have hnd : ((o.shuffle 9 m.entries).map Prod.fst).Nodup := ((o.perm 9 m.entries).map Prod.fst).nodup_iff.mpr m.nodup
  rw [diagLoop_actions _ _ _ _ hnd h k]
  cases hm : m.get? k with
  | none =>
    have : (o.shuffle 9 m.entries).find? (fun e => decide (e.1 = k)) = none := by
      rw [List.find?_eq_none]
      intro e he hh
      simp only [decide_eq_true_eq] at hh
      have : m.get? e.1 = some e.2 := (HMap.get?_eq_some_iff ..).mpr ((HMap.mem_shuffle ..).mp he)
      rw [hh, hm] at this
      cases this
    rw [this]; rfl
  | some ds =>
    cases hf : (o.shuffle 9 m.entries).find? (fun e => decide (e.1 = k)) with
    | none =>
      rw [List.find?_eq_none] at hf
      have := hf (k, ds) ((HMap.mem_shuffle ..).mpr ((HMap.get?_eq_some_iff ..).mp hm))
      simp at this
    | some e =>
      have h1 := List.find?_some hf
      have h2 := List.mem_of_find?_eq_some hf
      simp only [decide_eq_true_eq] at h1
      have : m.get? e.1 = some e.2 := (HMap.get?_eq_some_iff ..).mpr ((HMap.mem_shuffle ..).mp h2)
      rw [h1, hm] at this
      cases this
      rfl

theorem foldl_insert_get {V : Type} : ∀ (es : List (Str × V)) (f : HMap Str V), (es.map Prod.fst).Nodup → ∀ k,
    (es.foldl (fun f e => f.insert e.1 e.2) f).get? k = match es.find? (fun e => decide (e.1 = k)) with
      | some e => some e.2
      | none => f.get? k
  | [], f, _, k => rfl
  | e :: es, f, hnd, k => by
    simp only [List.map_cons, List.nodup_cons] at hnd
    rw [List.foldl_cons, foldl_insert_get es _ hnd.2 k, List.find?_cons]
    by_cases hk : e.1 = k
    · subst hk
      have : es.find? (fun x => decide (x.1 = e.1)) = none := by
        rw [List.find?_eq_none]
        intro x hx hh
        simp only [decide_eq_true_eq] at hh
        exact hnd.1 (hh ▸ List.mem_map_of_mem hx)
      simp only [this, decide_true, HMap.get?_insert_self]
    · simp only [hk, decide_false]
      cases es.find? (fun x => decide (x.1 = k)) with
      | some x => rfl
      | none => exact HMap.get?_insert_ne _ _ (fun h => hk h.symm)

theorem addCodeActions_get (o : HashOrder) (f : LspFiles) (m : HMap Str (List Identifier)) (k : Str) :
    (f.addCodeActions o m).codeActions.get? k = ((m.get? k).or (f.codeActions.get? k)) := by
  have hfold : ∀ (es : List (Str × List Identifier)) (f : LspFiles),
      (es.foldl (fun f (e : Str × List Identifier) => { f with codeActions := f.codeActions.insert e.1 e.2 }) f).codeActions =
        es.foldl (fun c e => c.insert e.1 e.2) f.codeActions := by
    intro es
    induction es with
    | nil => intro f; rfl
    | cons e es ih => intro f; rw [List.foldl_cons, List.foldl_cons, ih]
  have hnd : ((o.shuffle 3 m.entries).map Prod.fst).Nodup := ((o.perm 3 m.entries).map Prod.fst).nodup_iff.mpr m.nodup
  unfold LspFiles.addCodeActions
  rw [hfold, foldl_insert_get _ _ hnd k]
  cases hm : m.get? k with
  | none =>
    have : (o.shuffle 3 m.entries).find? (fun e => decide (e.1 = k)) = none := by
      rw [List.find?_eq_none]
      intro e he hh
      simp only [decide_eq_true_eq] at hh
      have : m.get? e.1 = some e.2 := (HMap.get?_eq_some_iff ..).mpr ((HMap.mem_shuffle ..).mp he)
      rw [hh, hm] at this
      cases this
    rw [this]; rfl
  | some ds =>
    cases hf : (o.shuffle 3 m.entries).find? (fun e => decide (e.1 = k)) with
    | none =>
      rw [List.find?_eq_none] at hf
      have := hf (k, ds) ((HMap.mem_shuffle ..).mpr ((HMap.get?_eq_some_iff ..).mp hm))
      simp at this
    | some e =>
      have h1 := List.find?_some hf
      have h2 := List.mem_of_find?_eq_some hf
      simp only [decide_eq_true_eq] at h1
      have : m.get? e.1 = some e.2 := (HMap.get?_eq_some_iff ..).mpr ((HMap.mem_shuffle ..).mp h2)
      rw [h1, hm] at this
      cases this
      rfl

/-! ## What stays between analysis and request -/

/-- messages that neither analyse the document again, nor install other quick fixes for it, nor reload the workspace -/
def Msg.Quiet (uri : Str) : Msg → Prop
  | .initialized => False
  | .didOpen u _ => u ≠ uri
  | .didSave u => u ≠ uri
  | .codeActions m => m.get? uri = none
  | _ => True

/-- `g` keeps what quick fixes of `uri` need -/
structure KeepsActions (uri : Str) (f g : LspFiles) : Prop where
  acts : g.codeActions.get? uri = f.codeActions.get? uri
  tree : ∀ l, (f.trees l).get? uri ≠ none → (g.trees l).get? uri ≠ none
  doc : f.documents.get? uri ≠ none → g.documents.get? uri ≠ none
  conf : g.config = f.config
  chan : g.mainChannel = f.mainChannel

theorem KeepsActions.refl (uri : Str) (f : LspFiles) : KeepsActions uri f f := ⟨rfl, fun _ h => h, fun h => h, rfl, rfl⟩
theorem KeepsActions.trans {uri : Str} {f g h : LspFiles} (a : KeepsActions uri f g) (b : KeepsActions uri g h) : KeepsActions uri f h :=
  ⟨b.acts.trans a.acts, fun l x => b.tree l (a.tree l x), fun x => b.doc (a.doc x), b.conf.trans a.conf, b.chan.trans a.chan⟩
theorem KeepsActions.of_frame {uri n : Str} {f g : LspFiles} (h : Frame n f g) (hn : n ≠ uri) : KeepsActions uri f g := by
  have := h.same uri (fun e => hn e.symm)
  exact ⟨this.acts, fun l x => by rw [this.tree l]; exact x, fun x => by rw [this.doc]; exact x, h.conf.conf, h.conf.chan⟩

theorem KeepsActions.setTree (uri : Str) (f : LspFiles) (l : LangType) (n : Str) (t : Tree) : KeepsActions uri f (f.setTree l n t) := by
  refine ⟨rfl, fun l' x => ?_, fun x => x, rfl, rfl⟩
  unfold LspFiles.setTree
  by_cases h : l' = l
  · subst h
    simp only [if_true, HMap.get?_insert]
    split
    · simp
    · exact x
  · simp only [h, if_false]; exact x

theorem KeepsActions.inputEdit (uri : Str) (env : Env) (f : LspFiles) (n : Str) (c : Str) (e : InputEdit) (l : Option LangType) :
    KeepsActions uri f (f.inputEdit env n c e l) := by
  unfold LspFiles.inputEdit
  split
  · exact refl uri f
  · split
    · exact refl uri f
    · split
      · exact setTree uri f _ n _
      · exact setTree uri f _ n _

theorem KeepsActions.inputEdits (uri : Str) (env : Env) (n : Str) (l : Option LangType) (es : List (Str × InputEdit)) (f : LspFiles) :
    KeepsActions uri f (es.foldl (fun f (ch : Str × InputEdit) => f.inputEdit env n ch.1 ch.2 l) f) := by
  induction es generalizing f with
  | nil => exact refl uri f
  | cons e es ih => exact (inputEdit uri env f n e.1 e.2 l).trans (ih _)

theorem KeepsActions.didChange {env : Env} {f g : LspFiles} {n : Str} {cs : List TextChange} {h : Nat} {b : Bool} (uri : Str)
    (hc : f.didChange env n cs h = .ok (g, b)) : KeepsActions uri f g := by
  have hdoc : ∀ c, KeepsActions uri f { f with documents := f.documents.insert n c } := by
    intro c
    refine ⟨rfl, fun _ x => x, fun x => ?_, rfl, rfl⟩
    simp only [HMap.get?_insert]
    split
    · simp
    · exact x
  unfold LspFiles.didChange at hc
  split at hc
  · cases hc; exact refl uri f
  · simp only at hc
    split at hc
    · cases hc
    · split at hc
      · cases hc; exact hdoc _
      · cases hc
        rename_i rope' edits _ _ _
        have := (hdoc rope').trans (inputEdits uri env n (fileExt n) edits _)
        exact this.trans ⟨rfl, fun _ x => x, fun x => x, rfl, rfl⟩

theorem addCodeActions_keeps {uri : Str} {o : HashOrder} {f : LspFiles} {m : HMap Str (List Identifier)} (hm : m.get? uri = none) :
    KeepsActions uri f (f.addCodeActions o m) := by
  have h := addCodeActions_frame o f m
  simp only at h
  exact ⟨by rw [addCodeActions_get, hm]; rfl, fun l x => by rw [h.2.1]; exact x, fun x => by rw [h.1]; exact x, h.2.2.2.1.conf, h.2.2.2.1.chan⟩

theorem handle_keeps {env : Env} {w : World} {s s' : Server} {m : Msg} {out : List Send} {r : Reply} {uri : Str} (hq : m.Quiet uri)
    (h : s.handle env w m = .ok (s', out, r)) : KeepsActions uri s.files s'.files := by
  cases handle_files h with
  | query _ g => rw [g]; exact .refl ..
  | command _ g => rw [g]; exact .refl ..
  | config _ g => rw [g]; exact .refl ..
  | «initialize» _ _ g =>
    rcases g with g | g <;> rw [g]
    · exact .refl ..
    · exact ⟨rfl, fun _ x => x, fun x => x, rfl, rfl⟩
  | codeActions m g => rw [g]; exact addCodeActions_keeps hq
  | didOpen u t m g => exact .of_frame (Frame.didOpen g) hq
  | didSave u m g => exact .of_frame (Frame.didSave g) hq
  | didChange u cs b g => exact KeepsActions.didChange uri g
  | notInitialized => exact hq.elim
  | initialized => exact hq.elim

theorem run_keeps {env : Env} {uri : Str} : ∀ (ms : List (World × Msg)) (s s' : Server), (∀ m ∈ ms, m.2.Quiet uri) →
    s.run env ms = .ok s' → KeepsActions uri s.files s'.files
  | [], s, s', _, h => by simp only [Server.run] at h; cases h; exact .refl ..
  | m :: ms, s, s', hq, h => by
    unfold Server.run at h
    split at h
    · cases h
    · rename_i hh
      exact (handle_keeps (hq m (by simp)) hh).trans (run_keeps ms _ _ (fun x hx => hq x (by simp [hx])) h)

/-! ## C46 -/

/-- a missing template reported at a position -/
def Spec.MissingAt (rs : List Report) (p : Point) (r : Report) : Prop := r ∈ rs ∧ r.kind = .templateNotFound ∧ r.start ≤ p ∧ p ≤ r.stop

/-- the quick fix that creates a template -/
def CodeActionItem.Creates : CodeActionItem → Prop
  | .createFile .. => True
  | _ => False

theorem mem_missing {ds : Diags} {i : Identifier} : i ∈ missingTemplates ds ↔ (.templateNotFound, i) ∈ ds := by
  unfold missingTemplates
  simp only [List.mem_map, List.mem_filter, decide_eq_true_eq]
  constructor
  · rintro ⟨⟨k, i'⟩, ⟨h1, h2⟩, h3⟩; simp only at h2 h3; subst h2; subst h3; exact h1
  · intro h; exact ⟨_, ⟨h, rfl⟩, rfl⟩

theorem codeAction_found {env : Env} {f : LspFiles} {uri : Str} {pos : Position} {l : LangType} {acts : List Identifier}
    (he : fileExt uri = some l) (ht : (f.trees l).get? uri ≠ none) (hd : f.documents.get? uri ≠ none)
    (ha : f.codeActions.get? uri = some acts) (hex : ∃ i ∈ acts, i.start ≤ toPoint pos ∧ toPoint pos ≤ i.stop) :
    ∃ i ∈ acts, i.start ≤ toPoint pos ∧ toPoint pos ≤ i.stop ∧ f.codeAction env uri pos = .ok (some (.createTemplate i.name)) := by
  obtain ⟨tree, ht⟩ := Option.ne_none_iff_exists'.mp ht
  obtain ⟨text, hd⟩ := Option.ne_none_iff_exists'.mp hd
  cases hf : acts.find? (fun item => decide (item.start ≤ toPoint pos) && decide (toPoint pos ≤ item.stop)) with
  | none =>
    rw [List.find?_eq_none] at hf
    obtain ⟨i, hi, h1, h2⟩ := hex
    exact absurd (by simp [h1, h2]) (hf i hi)
  | some i =>
    have h1 := List.find?_some hf
    simp only [Bool.and_eq_true, decide_eq_true_eq] at h1
    refine ⟨i, List.mem_of_find?_eq_some hf, h1.1, h1.2, ?_⟩
    unfold LspFiles.codeAction
    simp only [he, ht, ha, hf, hd]
    cases l <;> rfl

/-- what was recorded for the document: its analysis result was processed, then nothing happened that concerns it -/
structure Spec.Processed (env : Env) (w : World) (s s' : Server) (uri : Str) (ds : Diags) : Prop where
  ran : ∃ (o : HashOrder) (m : HMap Str Diags) (pubs : List (Str × List Diagnostic)) (ca : HMap Str (List Identifier))
    (s1 : Server) (out : List Send) (r : Reply) (ms : List (World × Msg)),
    m.get? uri = some ds ∧ diagProcess env o m = .ok (pubs, ca) ∧ s.handle env w (.codeActions ca) = .ok (s1, out, r) ∧
    (∀ m ∈ ms, m.2.Quiet uri) ∧ s1.run env ms = .ok s'

theorem Spec.Processed.keeps {env : Env} {w : World} {s s' : Server} {uri : Str} {ds : Diags} (h : Processed env w s s' uri ds) :
    s'.files.codeActions.get? uri = some (missingTemplates ds) ∧
      (∀ l, (s.files.trees l).get? uri ≠ none → (s'.files.trees l).get? uri ≠ none) ∧
      (s.files.documents.get? uri ≠ none → s'.files.documents.get? uri ≠ none) ∧
      s'.files.config = s.files.config ∧ s'.files.mainChannel = s.files.mainChannel := by
  obtain ⟨o, m, pubs, ca, s1, out, r, ms, hm, hp, hh, hq, hr⟩ := h
  have hk := run_keeps ms s1 s' hq hr
  have hs1 : s1.files = s.files.addCodeActions w.order ca := by
    simp only [Server.handle] at hh; cases hh; rfl
  have hf := addCodeActions_frame w.order s.files ca
  simp only at hf
  refine ⟨?_, ?_, ?_, ?_, ?_⟩
  · rw [hk.acts, hs1, addCodeActions_get, diagProcess_actions hp, hm]; rfl
  · intro l hl; exact hk.tree l (by rw [hs1, hf.2.1]; exact hl)
  · intro hd; exact hk.doc (by rw [hs1, hf.1]; exact hd)
  · rw [hk.conf, hs1, hf.2.2.2.1.conf]
  · rw [hk.chan, hs1, hf.2.2.2.1.chan]

/-- a quick fix that is recorded is offered -/
theorem codeAction_inside {env : Env} {w' : World} {s' : Server} {uri : Str} {ds : Diags} {l : LangType} {dir : Str} {pos : Position}
    (k1 : s'.files.codeActions.get? uri = some (missingTemplates ds)) (he : fileExt uri = some l) (ht : (s'.files.trees l).get? uri ≠ none)
    (hd : s'.files.documents.get? uri ≠ none) (hdir : w'.canonicalize s'.files.config.templates = .ok dir)
    (hurl : ∀ name, env.urlParse (c!"file:///" ++ lookupPath dir name) ≠ none) (hin : ∃ r, MissingAt (ds.map report) (toPoint pos) r) :
    ∃ r, MissingAt (ds.map report) (toPoint pos) r ∧ ∃ s'' title u, env.urlParse (c!"file:///" ++ lookupPath dir r.name) = some u ∧
      s'.handle env w' (.codeAction uri pos) = .ok (s'', [], .codeAction (some [.createFile title u false true])) := by
  have hex : ∃ i ∈ missingTemplates ds, i.start ≤ toPoint pos ∧ toPoint pos ≤ i.stop := by
    obtain ⟨r, h1, h2, h3, h4⟩ := hin
    obtain ⟨⟨k, i⟩, hmem, rfl⟩ := List.mem_map.mp h1
    simp only [report] at h2 h3 h4
    subst h2
    exact ⟨i, mem_missing.mpr hmem, h3, h4⟩
  obtain ⟨i, hi, h1, h2, hc⟩ := codeAction_found (env := env) he ht hd k1 hex
  obtain ⟨u, hu⟩ := Option.ne_none_iff_exists'.mp (hurl i.name)
  refine ⟨report (.templateNotFound, i), ⟨List.mem_map_of_mem (mem_missing.mp hi), rfl, h1, h2⟩, ?_⟩
  have hpath : pathPush dir (pathItems i.name) = lookupPath dir i.name := checkedPath_eq dir i.name
  refine ⟨{ s' with timers := s'.timers ++ [⟨s'.nextHandle, uri, s'.files.mainChannel, false⟩], nextHandle := s'.nextHandle + 1 },
    c!"Generate new template", u, hu, ?_⟩
  simp only [Server.handle, Server.onCodeAction, hc, LspFiles.processCodeActions, hdir, hpath, hu]

/-- **C46** (part: inside) When the diagnostics of a document have been published and processed, then, until the document is analysed
again, a code-action request inside the name of a missing template that was reported offers to create a missing template reported
there, provided the templates directory exists and paths below it are URLs.  Missing: `C46_no_directory_refuted`,
`C46_window_refuted`. -/
theorem C46_inside_partial (env : Env) (w w' : World) (s s' : Server) (uri : Str) (ds : Diags) (l : LangType) (dir : Str) (pos : Position)
    (h : Processed env w s s' uri ds) (he : fileExt uri = some l) (ht : (s.files.trees l).get? uri ≠ none)
    (hd : s.files.documents.get? uri ≠ none) (hdir : w'.canonicalize s'.files.config.templates = .ok dir)
    (hurl : ∀ name, env.urlParse (c!"file:///" ++ lookupPath dir name) ≠ none) (hin : ∃ r, MissingAt (ds.map report) (toPoint pos) r) :
    ∃ r, MissingAt (ds.map report) (toPoint pos) r ∧ ∃ s'' title u, env.urlParse (c!"file:///" ++ lookupPath dir r.name) = some u ∧
      s'.handle env w' (.codeAction uri pos) = .ok (s'', [], .codeAction (some [.createFile title u false true])) := by
  obtain ⟨k1, k2, k3, k4, k5⟩ := h.keeps
  exact codeAction_inside k1 he (k2 l ht) (k3 hd) hdir hurl hin

theorem codeAction_outside {env : Env} {w : World} {s s' : Server} {uri : Str} {pos : Position} {out : List Send} {items : List CodeActionItem}
    {acts : List Identifier} (ha : s.files.codeActions.get? uri = some acts)
    (hno : ∀ i ∈ acts, ¬ (i.start ≤ toPoint pos ∧ toPoint pos ≤ i.stop))
    (hreq : s.handle env w (.codeAction uri pos) = .ok (s', out, .codeAction (some items))) : ∀ i ∈ items, ¬ i.Creates := by
  have hnone : acts.find? (fun item => decide (item.start ≤ toPoint pos) && decide (toPoint pos ≤ item.stop)) = none := by
    rw [List.find?_eq_none]
    intro i hi hh
    simp only [Bool.and_eq_true, decide_eq_true_eq] at hh
    exact hno i hi hh
  have hca : s.files.codeAction env uri pos = .ok none ∨ s.files.codeAction env uri pos = .ok (some .reset) ∨
      ∃ e, s.files.codeAction env uri pos = .error e := by
    unfold LspFiles.codeAction
    split
    · exact Or.inl rfl
    · rename_i l _
      cases ht : (s.files.trees l).get? uri with
      | none => exact Or.inl rfl
      | some tree =>
        simp only [ha, hnone]
        cases l with
        | template =>
          simp only
          cases s.files.documents.get? uri with
          | none => exact Or.inl rfl
          | some text =>
            simp only
            split
            · exact Or.inr (Or.inr ⟨_, rfl⟩)
            · split
              · exact Or.inr (Or.inl rfl)
              · exact Or.inl rfl
        | backend => exact Or.inl rfl
  rcases hca with hca | hca | ⟨e, hca⟩
  · simp [Server.handle, Server.onCodeAction, hca] at hreq
  · simp only [Server.handle, Server.onCodeAction, hca, LspFiles.processCodeActions] at hreq
    cases hreq
    simp [CodeActionItem.Creates]
  · simp [Server.handle, Server.onCodeAction, hca] at hreq

/-- **C46** (outside) Outside all missing template names that were reported, no request ever offers to create a template. -/
theorem C46_outside (env : Env) (w w' : World) (s s' s'' : Server) (uri : Str) (ds : Diags) (pos : Position) (out : List Send)
    (items : List CodeActionItem) (h : Processed env w s s' uri ds) (hno : ∀ r, ¬ MissingAt (ds.map report) (toPoint pos) r)
    (hreq : s'.handle env w' (.codeAction uri pos) = .ok (s'', out, .codeAction (some items))) : ∀ i ∈ items, ¬ i.Creates :=
  codeAction_outside h.keeps.1 (fun i hi hh =>
    hno (report (.templateNotFound, i)) ⟨List.mem_map_of_mem (mem_missing.mp hi), rfl, hh.1, hh.2⟩) hreq

/-- **C46** from opening or saving a document to the request: what is published are the reports, and when the resulting quick fixes are
processed, with arbitrary messages before and after that do not concern the document, the situation of the theorems above is reached. -/
theorem C46_analysed (env : Env) (w : World) (s s1 : Server) (m : Msg) (uri u text : Str) (l : LangType) (out : List Send) (r : Reply)
    (ds : Diags) (hm : m.Analyses uri) (he : fileExt uri = some l) (h : s.handle env w m = .ok (s1, out, r))
    (hd : s1.files.documents.get? uri = some text) (hds : s1.files.readTree env w uri = .ok (some ds)) (hsmall : Small ds)
    (hurl : env.urlParse uri = some u) (o : HashOrder) :
    ∃ x ca, out = [.diag x] ∧ diagProcess env o x = .ok ([(u, (ds.map report).map shown)], ca) ∧
      ∀ (before after : List (World × Msg)) (w2 : World) (s2 s3 s4 : Server) (out2 : List Send) (r2 : Reply),
        (∀ m ∈ before, m.2.Quiet uri) → (∀ m ∈ after, m.2.Quiet uri) → s1.run env before = .ok s2 →
        s2.handle env w2 (.codeActions ca) = .ok (s3, out2, r2) → s3.run env after = .ok s4 →
        Processed env w2 s2 s4 uri ds ∧ (s2.files.trees l).get? uri ≠ none ∧ s2.files.documents.get? uri ≠ none := by
  obtain ⟨v, h1, h2, _⟩ := analyses_out hm he h hd
  rw [hds] at h1
  cases h1
  have hp := diagProcess_single o ds hurl
  refine ⟨_, HMap.empty.insert uri (missingTemplates ds), h2 ds rfl, ?_, ?_⟩
  · rw [hp, toDiagnostics_eq hsmall]
  · intro before after w2 s2 s3 s4 out2 r2 hb ha hr hc hr2
    have hk := run_keeps before s1 s2 hb hr
    refine ⟨⟨o, _, _, _, s3, out2, r2, after, HMap.get?_insert_self _ _ _, hp, hc, ha, hr2⟩, hk.tree l ?_, hk.doc (by rw [hd]; simp)⟩
    intro hn
    simp [LspFiles.readTree, hd, he, hn] at hds

/-- **C46 is false when the templates directory does not exist**: every template is reported as missing, and the request answers with an
empty list of quick fixes. -/
theorem C46_no_directory_refuted (env : Env) (w w' : World) (s s' : Server) (uri : Str) (ds : Diags) (l : LangType) (e : IoErr) (pos : Position)
    (h : Processed env w s s' uri ds) (he : fileExt uri = some l) (ht : (s.files.trees l).get? uri ≠ none)
    (hd : s.files.documents.get? uri ≠ none) (hdir : w'.canonicalize s'.files.config.templates = .error e)
    (hin : ∃ r, MissingAt (ds.map report) (toPoint pos) r) :
    ∃ s'', s'.handle env w' (.codeAction uri pos) = .ok (s'', [], .codeAction (some [])) := by
  obtain ⟨k1, k2, k3, k4, k5⟩ := h.keeps
  have hex : ∃ i ∈ missingTemplates ds, i.start ≤ toPoint pos ∧ toPoint pos ≤ i.stop := by
    obtain ⟨r, h1, h2, h3, h4⟩ := hin
    obtain ⟨⟨k, i⟩, hmem, rfl⟩ := List.mem_map.mp h1
    simp only [report] at h2 h3 h4
    subst h2
    exact ⟨i, mem_missing.mpr hmem, h3, h4⟩
  obtain ⟨i, hi, h1, h2, hc⟩ := codeAction_found (env := env) he (k2 l ht) (k3 hd) k1 hex
  refine ⟨{ s' with timers := s'.timers ++ [⟨s'.nextHandle, uri, s'.files.mainChannel, false⟩], nextHandle := s'.nextHandle + 1 }, ?_⟩
  simp only [Server.handle, Server.onCodeAction, hc, LspFiles.processCodeActions, hdir]

/-- **C46 is false between a save and its publication**.  Saving a template forgets its quick fixes at once, though the diagnostics
published before are still shown: until the new ones have been processed, a request inside a reported missing name offers nothing. -/
theorem C46_window_refuted (env : Env) (w : World) (s s1 : Server) (uri text : Str) (tree : Tree)
    (out : List Send) (r : Reply) (he : fileExt uri = some .template) (hd : s.files.documents.get? uri = some text)
    (ht : (s.files.trees .template).get? uri = some tree) (hok : ¬ SyntaxError env tree text)
    (h : s.handle env w (.didSave uri) = .ok (s1, out, r)) :
    ∀ w' pos s2 out2 items, s1.handle env w' (.codeAction uri pos) = .ok (s2, out2, .codeAction (some items)) → ∀ i ∈ items, ¬ i.Creates := by
  have ha : s1.files.codeActions.get? uri = some [] := by
    simp only [Server.handle] at h
    split at h
    · cases h
    · rename_i f m hf
      cases h
      obtain ⟨h1, _⟩ := LspFiles.didSave_inv he hd hf
      obtain ⟨defs, _, hg⟩ := LspFiles.addVariables_template (by simpa using ht) (isError_false hok _) h1
      rw [hg]
      exact HMap.get?_insert_self _ _ _
  intro w' pos s2 out2 items hreq
  exact codeAction_outside ha (by intro i hi; cases hi) hreq

/-! ## C47 -/

/-- the delayed analyses of a document that are pending -/
def Server.scheduled (s : Server) (uri : Str) : List Timer := s.timers.filter fun t => decide (t.uri = uri) && t.live

/-- **C47** (created file) Whatever the state: when the answer to a request offers to create a file, it is the only item, it is not to
overwrite anything, and the file is the one whose path is the canonical templates directory followed by the components of a template
name recorded as missing at that position – the same components that were looked up below the templates directory
(`C29_checked_path`). -/
theorem C47_created (env : Env) (w : World) (s s' : Server) (uri : Str) (pos : Position) (out : List Send) (items : List CodeActionItem)
    (title u : Str) (overwrite ignoreIfExists : Bool) (h : s.handle env w (.codeAction uri pos) = .ok (s', out, .codeAction (some items)))
    (hi : .createFile title u overwrite ignoreIfExists ∈ items) :
    items = [.createFile title u false true] ∧ overwrite = false ∧ ignoreIfExists = true ∧
    ∃ acts i dir path, s.files.codeActions.get? uri = some acts ∧ i ∈ acts ∧ (i.start ≤ toPoint pos ∧ toPoint pos ≤ i.stop) ∧
      w.canonicalize s.files.config.templates = .ok dir ∧ env.urlParse (c!"file:///" ++ path) = some u ∧
      path = lookupPath dir i.name ∧ segments path = segments dir ++ segments i.name := by
  simp only [Server.handle] at h
  split at h
  · cases h
  · rename_i s1 items1 hc
    cases h
    unfold Server.onCodeAction at hc
    split at hc
    · cases hc
    · cases hc
    · rename_i a ha
      cases a with
      | reset =>
        simp only [LspFiles.processCodeActions] at hc
        cases hc
        simp at hi
      | createTemplate n =>
        have hsrc : ∃ acts i, s.files.codeActions.get? uri = some acts ∧ i ∈ acts ∧ (i.start ≤ toPoint pos ∧ toPoint pos ≤ i.stop) ∧ i.name = n := by
          unfold LspFiles.codeAction at ha
          split at ha
          · cases ha
          · simp only at ha
            split at ha
            · rename_i tree acts _ hacts
              refine ⟨acts, ?_⟩
              have hfind : ∀ i, acts.find? (fun item => decide (item.start ≤ toPoint pos) && decide (toPoint pos ≤ item.stop)) = some i →
                  i ∈ acts ∧ (i.start ≤ toPoint pos ∧ toPoint pos ≤ i.stop) := by
                intro i hf
                have h1 := List.find?_some hf
                simp only [Bool.and_eq_true, decide_eq_true_eq] at h1
                exact ⟨List.mem_of_find?_eq_some hf, h1⟩
              split at ha
              · split at ha
                · cases ha
                · split at ha
                  · rename_i i hf
                    cases ha
                    exact ⟨i, hacts, (hfind i hf).1, (hfind i hf).2, rfl⟩
                  · split at ha
                    · cases ha
                    · split at ha <;> cases ha
              · split at ha
                · rename_i i hf
                  cases ha
                  exact ⟨i, hacts, (hfind i hf).1, (hfind i hf).2, rfl⟩
                · cases ha
            · cases ha
        obtain ⟨acts, i, h1, h2, h3, h4⟩ := hsrc
        simp only [LspFiles.processCodeActions] at hc
        cases hdir : w.canonicalize s.files.config.templates with
        | error e =>
          simp only [hdir] at hc
          cases hc
          cases hi
        | ok dir =>
          simp only [hdir] at hc
          have hpath : pathPush dir (pathItems n) = lookupPath dir n := checkedPath_eq dir n
          rw [hpath] at hc
          cases hu : env.urlParse (c!"file:///" ++ lookupPath dir n) with
          | none => simp only [hu] at hc; cases hc
          | some u' =>
            simp only [hu] at hc
            cases hc
            have := List.mem_singleton.mp hi
            cases this
            exact ⟨rfl, rfl, rfl, acts, i, dir, lookupPath dir n, h1, h2, h3, rfl, hu, by rw [h4], by rw [segments_lookupPath, h4]⟩

/-- **C47** (part: re-analysis) Every request that is answered with the quick fix schedules exactly one analysis of the document, provided
the workspace was loaded.  Missing: before the workspace was loaded nothing is analysed (`C47_not_loaded_refuted`). -/
theorem C47_scheduled_partial (env : Env) (w : World) (s s' : Server) (uri : Str) (pos : Position) (out : List Send)
    (items : List CodeActionItem) (h : s.handle env w (.codeAction uri pos) = .ok (s', out, .codeAction (some items)))
    (hc : ∃ i ∈ items, i.Creates) (hload : s.files.mainChannel = true) :
    ∃ t, t.uri = uri ∧ t.live = true ∧ s'.timers = s.timers ++ [t] ∧ s'.scheduled uri = s.scheduled uri ++ [t] := by
  have key : s'.timers = s.timers ++ [⟨s.nextHandle, uri, s.files.mainChannel, false⟩] := by
    obtain ⟨i, hi, hcr⟩ := hc
    simp only [Server.handle] at h
    split at h
    · cases h
    · rename_i s1 items1 ho
      cases h
      unfold Server.onCodeAction at ho
      split at ho
      · cases ho
      · cases ho
      · rename_i a ha
        cases a with
        | reset =>
          simp only [LspFiles.processCodeActions] at ho
          cases ho
          simp only [List.mem_cons, List.not_mem_nil, or_false] at hi
          rcases hi with rfl | rfl <;> exact hcr.elim
        | createTemplate n =>
          simp only [LspFiles.processCodeActions] at ho
          cases hdir : w.canonicalize s.files.config.templates with
          | error e => simp only [hdir] at ho; cases ho; rfl
          | ok dir =>
            simp only [hdir] at ho
            cases hu : env.urlParse (c!"file:///" ++ pathPush dir (pathItems n)) with
            | none => simp only [hu] at ho; cases ho
            | some u' => simp only [hu] at ho; cases ho; rfl
  refine ⟨⟨s.nextHandle, uri, true, false⟩, rfl, rfl, by rw [key, hload], ?_⟩
  simp only [Server.scheduled, key, hload, List.filter_append, List.filter_cons, List.filter_nil, decide_true, Bool.and_self, if_true]

/-- **C47** when such an analysis is due, the document is saved again: the message is queued, if there is room -/
theorem C47_expires (σ : Sys) (s : Server) (t : Timer) (hw : σ.worker = some s) (ht : t ∈ s.scheduled uri)
    (hc : σ.lspQ.length < lspCap) :
    ∃ σ', EnvStep σ σ' ∧ σ'.lspQ = σ.lspQ ++ [.didSave uri] := by
  unfold Server.scheduled at ht
  simp only [List.mem_filter, Bool.and_eq_true, decide_eq_true_eq] at ht
  refine ⟨_, EnvStep.timer hw ht.1 ht.2.2 hc, ?_⟩
  rw [ht.2.1]

/-- **C47 is false until the workspace has been loaded** – forever if the configured language is not supported.  The quick fix is
offered, but nothing is going to be analysed again. -/
theorem C47_not_loaded_refuted (env : Env) (w : World) (s s' : Server) (uri : Str) (pos : Position) (out : List Send) (r : Reply)
    (h : s.handle env w (.codeAction uri pos) = .ok (s', out, r)) (hload : s.files.mainChannel = false) :
    s'.scheduled uri = s.scheduled uri ∧ out = [] := by
  simp only [Server.handle] at h
  split at h
  · cases h
  · rename_i s1 items1 ho
    cases h
    refine ⟨?_, rfl⟩
    rcases (onCodeAction_frame ho).2.2 with ⟨hk, _⟩ | ⟨hk, _⟩
    · simp [Server.scheduled, hk]
    · simp [Server.scheduled, hk, hload, List.filter_append]

/-- **C47 is false about uses**: the analysis is scheduled when the quick fix is offered, not when it is used.  Asking `n` times
schedules `n` analyses. -/
theorem C47_asked_refuted (env : Env) (w : World) (uri name dir u : Str) (pos : Position) (hu : env.urlParse (c!"file:///" ++ lookupPath dir name) = some u) :
    ∀ (n : Nat) (s : Server), s.files.codeAction env uri pos = .ok (some (.createTemplate name)) →
      w.canonicalize s.files.config.templates = .ok dir → s.files.mainChannel = true →
      ∃ s', s.run env (List.replicate n (w, .codeAction uri pos)) = .ok s' ∧ (s'.scheduled uri).length = (s.scheduled uri).length + n
  | 0, s, _, _, _ => ⟨s, rfl, rfl⟩
  | n + 1, s, hc, hd, hl => by
    have hpath : pathPush dir (pathItems name) = lookupPath dir name := checkedPath_eq dir name
    have hstep : s.handle env w (.codeAction uri pos) = .ok ({ s with
        timers := s.timers ++ [⟨s.nextHandle, uri, s.files.mainChannel, false⟩], nextHandle := s.nextHandle + 1 }, [],
        .codeAction (some [.createFile c!"Generate new template" u false true])) := by
      simp only [Server.handle, Server.onCodeAction, hc, LspFiles.processCodeActions, hd, hpath, hu]
    obtain ⟨s', h1, h2⟩ := C47_asked_refuted env w uri name dir u pos hu n { s with
        timers := s.timers ++ [⟨s.nextHandle, uri, s.files.mainChannel, false⟩], nextHandle := s.nextHandle + 1 } hc hd hl
    refine ⟨s', ?_, ?_⟩
    · rw [List.replicate_succ]
      unfold Server.run
      simp only [hstep]
      exact h1
    · rw [h2]
      simp only [Server.scheduled, hl, List.filter_append, List.filter_cons, List.filter_nil, decide_true, Bool.and_self, if_true,
        List.length_append, List.length_cons, List.length_nil]
      omega

/-- **C47 is false for empty names** (`{% include "" %}`), which are reported as missing: the file offered is the templates directory. -/
theorem C47_empty_refuted (env : Env) (w w' : World) (s s' : Server) (uri : Str) (ds : Diags) (l : LangType) (dir : Str) (pos : Position)
    (h : Processed env w s s' uri ds) (he : fileExt uri = some l) (ht : (s.files.trees l).get? uri ≠ none)
    (hd : s.files.documents.get? uri ≠ none) (hdir : w'.canonicalize s'.files.config.templates = .ok dir)
    (hurl : ∀ name, env.urlParse (c!"file:///" ++ lookupPath dir name) ≠ none) (hin : ∃ r, MissingAt (ds.map report) (toPoint pos) r)
    (hall : ∀ r, MissingAt (ds.map report) (toPoint pos) r → r.name = []) :
    ∃ s'' title u path, segments path = segments dir ∧ env.urlParse (c!"file:///" ++ path) = some u ∧
      s'.handle env w' (.codeAction uri pos) = .ok (s'', [], .codeAction (some [.createFile title u false true])) := by
  obtain ⟨r, h1, s'', title, u, h2, h3⟩ := C46_inside_partial env w w' s s' uri ds l dir pos h he ht hd hdir hurl hin
  refine ⟨s'', title, u, lookupPath dir r.name, ?_, h2, h3⟩
  rw [segments_lookupPath, hall r h1]
  simp [segments, splitChar]

/-! ## Examples -/

namespace Fix

/-- `missing.html` is reported in line 0, columns 3–15, and an undefined variable in line 1 -/
def missingDiags : Diags :=
  [(.undefined, Identifier.new c!"x" ⟨1, 0⟩ ⟨1, 1⟩), (.templateNotFound, Identifier.new c!"missing.html" ⟨0, 3⟩ ⟨0, 15⟩)]

/-- the server after the quick fixes have been processed, and something else was asked -/
def fixServer : Server :=
  { server with files := { files with codeActions := files.codeActions.insert uriA [Identifier.new c!"missing.html" ⟨0, 3⟩ ⟨0, 15⟩] } }

theorem processed : Processed env world server fixServer uriA missingDiags :=
  ⟨HashOrder.id, HMap.empty.insert uriA missingDiags, _, _, fixServer, [], .none, [(world, .documentSymbol uriB)], rfl,
    diagProcess_single HashOrder.id missingDiags rfl, rfl, by intro m hm; cases List.mem_singleton.mp hm; trivial, rfl⟩

theorem missing_at : MissingAt (missingDiags.map report) (toPoint ⟨0, 5⟩) ⟨.templateNotFound, c!"missing.html", ⟨0, 3⟩, ⟨0, 15⟩⟩ := by
  refine ⟨?_, rfl, ?_, ?_⟩ <;> decide

end Fix

/-- inside: the template is offered, … -/
example : ∃ s'' title u, Fix.fixServer.handle Fix.env Fix.world (.codeAction Fix.uriA ⟨0, 5⟩) =
    .ok (s'', [], .codeAction (some [.createFile title u false true])) := by
  obtain ⟨r, _, s'', title, u, _, h⟩ := C46_inside_partial Fix.env Fix.world Fix.world Fix.server Fix.fixServer Fix.uriA Fix.missingDiags
    .template Fix.fixServer.files.config.templates ⟨0, 5⟩ Fix.processed (by decide) (Option.ne_none_iff_exists'.mpr ⟨_, rfl⟩)
    (by decide) rfl (by intro n; simp [Fix.env]) ⟨_, Fix.missing_at⟩
  exact ⟨s'', title, u, h⟩

/-- … outside nothing is to be offered, … -/
example : ∀ r, ¬ MissingAt (Fix.missingDiags.map report) (toPoint ⟨1, 0⟩) r := by
  rintro r ⟨h1, h2, h3, h4⟩
  simp only [Fix.missingDiags, List.map_cons, List.map_nil, report, List.mem_cons, List.not_mem_nil, or_false] at h1
  rcases h1 with rfl | rfl
  · cases h2
  · exact absurd h4 (by decide)

/-- … and neither without the templates directory. -/
example : ∃ s'', Fix.fixServer.handle Fix.env Fix.emptyWorld (.codeAction Fix.uriA ⟨0, 5⟩) = .ok (s'', [], .codeAction (some [])) :=
  C46_no_directory_refuted Fix.env Fix.world Fix.emptyWorld Fix.server Fix.fixServer Fix.uriA Fix.missingDiags
    .template .notFound ⟨0, 5⟩ Fix.processed (by decide) (Option.ne_none_iff_exists'.mpr ⟨_, rfl⟩)
    (by decide) rfl ⟨_, Fix.missing_at⟩

/-- the window after a save -/
example : ∃ s1 out r, Fix.fixServer.handle Fix.env Fix.world (.didSave Fix.uriA) = .ok (s1, out, r) ∧
    ¬ SyntaxError Fix.env (.parsed .jinja c!"aaa" none) c!"aaa" :=
  ⟨_, _, _, rfl, by rintro ⟨c, hc, _⟩; simp [Fix.env] at hc⟩

/-- saving a document that refers to a missing template reports it -/
example : ∃ s1 out r ds, Fix.server.handle (Fix.envWith .jinjaImports (Fix.imports.flatMap ImpStmt.caps)) Fix.emptyWorld (.didSave Fix.uriA) =
      .ok (s1, out, r) ∧ s1.files.documents.get? Fix.uriA = some c!"aaa" ∧
    s1.files.readTree (Fix.envWith .jinjaImports (Fix.imports.flatMap ImpStmt.caps)) Fix.emptyWorld Fix.uriA = .ok (some ds) ∧ ds ≠ [] ∧ Small ds := by
  refine ⟨_, _, _, _, rfl, rfl, rfl, ?_, ?_⟩
  · decide
  · intro d hd
    revert d
    decide

/-- the request of the first example schedules one analysis; asking five times schedules five -/
example : ∃ s', Fix.fixServer.run Fix.env (List.replicate 5 (Fix.world, .codeAction Fix.uriA ⟨0, 5⟩)) = .ok s' ∧
    (s'.scheduled Fix.uriA).length = 5 := by
  obtain ⟨s', h1, h2⟩ := C47_asked_refuted Fix.env Fix.world Fix.uriA c!"missing.html" Fix.fixServer.files.config.templates _ ⟨0, 5⟩ rfl 5
    Fix.fixServer rfl rfl rfl
  exact ⟨s', h1, h2⟩

example : ∃ s' out t, Fix.fixServer.handle Fix.env Fix.world (.codeAction Fix.uriA ⟨0, 5⟩) =
      .ok (s', out, .codeAction (some [.createFile c!"Generate new template" t false true])) ∧ Fix.fixServer.files.mainChannel = true ∧
    s'.scheduled Fix.uriA ≠ [] := ⟨_, _, _, rfl, rfl, by decide⟩

/-- before the workspace was loaded -/
example : ∃ s' out t, ({ Fix.fixServer with files := { Fix.fixServer.files with mainChannel := false } } : Server).handle Fix.env Fix.world
      (.codeAction Fix.uriA ⟨0, 5⟩) = .ok (s', out, .codeAction (some [.createFile c!"Generate new template" t false true])) :=
  ⟨_, _, _, rfl⟩

/-- an empty name -/
example : ∃ s', Processed Fix.env Fix.world Fix.server s' Fix.uriA [(.templateNotFound, Identifier.new [] ⟨0, 3⟩ ⟨0, 5⟩)] ∧
    (∃ r, MissingAt ([(JinjaDiagnostic.templateNotFound, Identifier.new [] ⟨0, 3⟩ ⟨0, 5⟩)].map report) (toPoint ⟨0, 4⟩) r) ∧
    ∀ r, MissingAt ([(JinjaDiagnostic.templateNotFound, Identifier.new [] ⟨0, 3⟩ ⟨0, 5⟩)].map report) (toPoint ⟨0, 4⟩) r → r.name = [] := by
  refine ⟨_, ⟨HashOrder.id, HMap.empty.insert Fix.uriA _, _, _, _, [], .none, [], rfl, diagProcess_single HashOrder.id _ rfl, rfl,
    (by intro m hm; cases hm), rfl⟩, ⟨_, List.mem_singleton.mpr rfl, rfl, by decide, by decide⟩, ?_⟩
  rintro r ⟨h, _⟩
  cases List.mem_singleton.mp h
  rfl

end JinjaLsp
