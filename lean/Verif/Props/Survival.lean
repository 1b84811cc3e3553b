import Verif.Props.Trace
import Verif.Props.Startup
import Verif.Props.Expressions
import Verif.Props.Goto
import Verif.Props.Worker
/-
  C67: what can kill the server.
-/

namespace JinjaLsp
open Spec

namespace Spec

/-- a document on disk, named as editors do -/
def FileUri (u : Str) : Prop := c!"file:///" <+: u

/-- a file system in which resolved paths are absolute and links lead to files of the same class -/
structure Orderly (w : World) : Prop where
  keeps : KeepsClass w
  absolute : ∀ p n, w.canonicalize p = .ok n → c!"/" <+: n

/-- What tree-sitter and the `url` crate guarantee: parsing never fails, the nodes of a tree lie in the text it was made from, a path is a
valid URL. In a debug build moreover: no operator starts a template, and names of variables and templates do not extend over several
lines. -/
structure Sound (env : Env) : Prop where
  parses : ∀ g t o, env.parseFails g t o = false
  readable : ∀ g t o, Readable env (.parsed g t o) t
  urls : ∀ p, env.urlParse (c!"file:///" ++ p) ≠ none
  debug : env.profile = .debug → NoOperatorAtOrigin env ∧ SingleLine env

/-- messages of a client that names documents by `file:///` URIs and sends changes with ranges, as it was told to -/
def Proper (env : Env) : Msg → Prop
  | .didOpen u _ | .didSave u | .codeAction u _ => FileUri u
  | .didChange u cs => FileUri u ∧ ∀ c ∈ cs, c.range.isSome
  | .completion _ p _ => env.profile = .debug → p.character + 1 < 4294967296
  | _ => True

/-- one of the changes, in the text the changes before it lead to, is one the server cannot apply -/
def OutOfBounds (env : Env) (s : Server) (uri : Str) (cs : List TextChange) : Prop :=
  ∃ t pre c post r t1 ies, s.files.documents.get? uri = some t ∧ cs = pre ++ c :: post ∧
    LspFiles.applyChanges env.profile t pre = .ok (t1, ies, true) ∧ c.range = some r ∧ EditCrash t1 r c.text

end Spec

/-! ### Requests -/

theorem release_or_debug (env : Env) : env.profile = .release ∨ env.profile = .debug := by
  cases env.profile
  · exact Or.inr rfl
  · exact Or.inl rfl

theorem usub_release (a b : Nat) : ∃ d, usub .release a b = .ok d := by
  unfold usub
  split
  · exact ⟨_, rfl⟩
  · exact ⟨_, rfl⟩

theorem usub_release_ne {a b : Nat} {e : Panic} : usub .release a b ≠ .error e := by
  obtain ⟨d, hd⟩ := usub_release a b
  rw [hd]
  exact fun h => by cases h

theorem uadd32_release (a b : Nat) : ∃ d, uadd32 .release a b = .ok d := by
  unfold uadd32
  split
  · exact ⟨_, rfl⟩
  · exact ⟨_, rfl⟩

theorem objectsLoop_release (p : Point) (all : Bool) : ∀ (cs : List Capture) (st : ObjLoop), ∃ s, objectsLoop .release p all st cs = .ok s
  | [], st => ⟨_, rfl⟩
  | c :: cs, st => by
    unfold objectsLoop
    split
    · split
      · exact ⟨_, rfl⟩
      · exact objectsLoop_release p all cs _
    · split
      · split
        · exact ⟨_, rfl⟩
        · split
          · split
            · obtain ⟨d, hd⟩ := usub_release st.objects.objects.length 1
              rw [hd]
              exact objectsLoop_release p all cs _
            · exact ⟨_, rfl⟩
          · split
            · exact ⟨_, rfl⟩
            · rename_i o act _
              have hf : ∃ s, objectsFinish .release o st.myId st.myExpr = .ok s := by
                unfold objectsFinish
                dsimp only
                split
                · rename_i e he
                  exact absurd he usub_release_ne
                · split
                  · exact ⟨_, rfl⟩
                  · exact ⟨_, rfl⟩
              split
              · exact hf
              · exact hf
              · exact hf
              · exact objectsLoop_release p all cs _
      · exact objectsLoop_release p all cs _

theorem Spec.Sound.query {env : Env} (h : Sound env) (tree : Tree) (p : Point) (text : Str) (all : Bool) :
    ∃ s, objectsQuery env tree p text all = .ok s := by
  rcases release_or_debug env with hr | hd
  · unfold objectsQuery
    rw [hr]
    exact objectsLoop_release ..
  · exact query_total (h.debug hd).1 tree p text all

theorem completionStart_release (p : Point) (i : Identifier) : ∃ r, completionStart .release p i = .ok r := by
  unfold completionStart
  dsimp only
  split
  · exact ⟨_, rfl⟩
  · obtain ⟨d, hd⟩ := usub_release i.stop.column (if p.column > 0 then p.column - 1 else p.column)
    rw [hd]
    dsimp only
    split
    · exact ⟨_, rfl⟩
    · split
      · exact ⟨_, rfl⟩
      · exact ⟨_, rfl⟩

theorem completion_release (env : Env) (hr : env.profile = .release) (f : LspFiles) (uri : Str) (pos : Position) (tr : TriggerKind) :
    ∃ r, f.completion env uri pos tr = .ok r := by
  unfold LspFiles.completion
  rw [hr]
  split
  · exact ⟨_, rfl⟩
  · simp only
    split
    · exact ⟨_, rfl⟩
    · rename_i ext _
      split
      · rename_i tree content _ _
        cases ext with
        | template =>
          simp only
          obtain ⟨d, hd⟩ := uadd32_release (toPosition2 (toPoint pos)).character 1
          have hsn : ∃ x, (snippetsQuery env tree (toPoint pos) content false).toComplete .release (toPoint pos) = .ok x := by
            unfold Snippets.toComplete
            split
            · exact ⟨_, rfl⟩
            · split
              · split
                · exact ⟨_, rfl⟩
                · rw [hd]; exact ⟨_, rfl⟩
              · exact ⟨_, rfl⟩
          obtain ⟨x, hx⟩ := hsn
          rw [hx]
          cases x with
          | some x => simp only [hd]; exact ⟨_, rfl⟩
          | none =>
            simp only
            obtain ⟨s, hs⟩ : ∃ s, objectsQuery env tree (toPoint pos) content false = .ok s := by
              unfold objectsQuery
              rw [hr]
              exact objectsLoop_release ..
            simp only [hs]
            have hcomp : ∃ c, s.completion .release (toPoint pos) = .ok c := by
              unfold JinjaObjects.completion
              simp only
              split
              · exact ⟨_, rfl⟩
              · split
                · split
                  · exact ⟨_, rfl⟩
                  · split
                    · exact ⟨_, rfl⟩
                    · split
                      · rename_i v hv
                        obtain ⟨r, hr⟩ := completionStart_release (toPoint pos) (Identifier.new v s.ident.1 s.ident.2)
                        rw [hr]
                        cases r <;> exact ⟨_, rfl⟩
                      · exact ⟨_, rfl⟩
                · split <;> exact ⟨_, rfl⟩
            obtain ⟨c, hc⟩ := hcomp
            rw [hc]
            cases c with
            | some c => exact ⟨_, rfl⟩
            | none =>
              simp only
              split
              · exact ⟨_, rfl⟩
              · rename_i i hi
                obtain ⟨r, hr⟩ := completionStart_release (toPoint pos) i
                rw [hr]
                cases r <;> exact ⟨_, rfl⟩
        | backend =>
          simp only
          split
          · exact ⟨_, rfl⟩
          · rename_i i hi
            obtain ⟨r, hr⟩ := completionStart_release (toPoint pos) i
            rw [hr]
            cases r <;> exact ⟨_, rfl⟩
      · exact ⟨_, rfl⟩

theorem Spec.Sound.completion {env : Env} (h : Sound env) (f : LspFiles) (uri : Str) (pos : Position) (tr : TriggerKind)
    (hp : Proper env (.completion uri pos tr)) : ∃ r, f.completion env uri pos tr = .ok r := by
  rcases release_or_debug env with hr | hd
  · exact completion_release env hr f uri pos tr
  · exact C18_completion_partial env (h.debug hd).1 (h.debug hd).2 f uri pos tr (hp hd)

theorem Spec.Sound.hover {env : Env} (h : Sound env) (f : LspFiles) (uri : Str) (pos : Position) : ∃ r, f.hover env uri pos = .ok r := by
  unfold LspFiles.hover
  split
  · exact ⟨_, rfl⟩
  · simp only
    split
    · rename_i tree content _ _
      obtain ⟨s, hs⟩ := h.query tree (toPoint pos) content false
      simp only [hs]
      split
      · split
        · exact ⟨_, rfl⟩
        · split
          · exact ⟨_, rfl⟩
          · split <;> exact ⟨_, rfl⟩
      · exact ⟨_, rfl⟩
    · exact ⟨_, rfl⟩

theorem Spec.Sound.codeAction {env : Env} (h : Sound env) (f : LspFiles) (uri : Str) (pos : Position) : ∃ r, f.codeAction env uri pos = .ok r := by
  unfold LspFiles.codeAction
  split
  · exact ⟨_, rfl⟩
  · rename_i lang _
    simp only
    split
    · rename_i tree actions _ _
      cases lang with
      | template =>
        simp only
        split
        · exact ⟨_, rfl⟩
        · split
          · exact ⟨_, rfl⟩
          · rename_i content _ _ _
            obtain ⟨s, hs⟩ := h.query tree (toPoint pos) content false
            simp only [hs]
            split <;> exact ⟨_, rfl⟩
      | backend =>
        simp only
        split <;> exact ⟨_, rfl⟩
    · exact ⟨_, rfl⟩

theorem Spec.FileUri.parse {env : Env} (h : Sound env) {u : Str} (hu : FileUri u) (p : Str) : env.urlParse (u ++ p) ≠ none := by
  obtain ⟨q, rfl⟩ := hu
  rw [List.append_assoc]
  exact h.urls _

/-- the names of the documents the server knows are URIs -/
structure Spec.Named (f : LspFiles) : Prop where
  vars : ∀ u, f.variables.get? u ≠ none → FileUri u
  trees : ∀ l u, (f.trees l).get? u ≠ none → FileUri u

theorem Spec.Sound.goto {env : Env} (h : Sound env) (w : World) (f : LspFiles) (hf : Named f) (uri : Str) (pos : Position) :
    ∃ r, f.gotoDefinition env w uri pos = .ok r := by
  unfold LspFiles.gotoDefinition
  cases fileExt uri with
  | none => exact ⟨_, rfl⟩
  | some lang =>
    simp only
    cases ht : (f.trees lang).get? uri with
    | none => exact ⟨_, rfl⟩
    | some tree =>
      cases hd : f.documents.get? uri with
      | none => exact ⟨_, rfl⟩
      | some text =>
        cases lang with
        | backend =>
          simp only
          split <;> exact ⟨_, rfl⟩
        | template =>
          obtain ⟨o, ho⟩ := h.query tree (toPoint pos) text false
          simp only [ho]
          split
          · exact ⟨_, rfl⟩
          · split
            · exact ⟨_, rfl⟩
            · obtain ⟨l, hl⟩ := collectFiles_total (env := env) (uri := uri) (n := (o.isIdent (toPoint pos)).getD [])
                (w.order.shuffle 2 f.variables.entries) (fun e he v hv => by
                  have hfile : FileUri e.1 := hf.vars e.1 (by rw [mem_entries.mp he]; simp)
                  unfold targetOf
                  split
                  · exact hfile.parse h _
                  · have := hfile.parse h []
                    rwa [List.append_nil] at this)
              rw [hl]; exact ⟨_, rfl⟩

/-! ### The state between messages -/

/-- what holds between messages -/
structure Spec.Healthy (s : Server) : Prop where
  fresh : Fresh s.files
  named : Named s.files
  timers : ∀ t ∈ s.timers, FileUri t.uri

theorem healthy_init : Healthy Server.init where
  fresh := C03_start
  named := ⟨fun u h => absurd rfl h, fun l u h => absurd rfl h⟩
  timers := by intro t ht; cases ht

theorem Spec.Named.frame {f g : LspFiles} {n : Str} (hf : Named f) (fr : Frame n f g) (hn : FileUri n) : Named g where
  vars := by
    intro u hu
    by_cases h : u = n
    · rw [h]; exact hn
    · exact hf.vars u (by rw [← (fr.same u h).vars]; exact hu)
  trees := by
    intro l u hu
    by_cases h : u = n
    · rw [h]; exact hn
    · exact hf.trees l u (by rw [← (fr.same u h).tree]; exact hu)

theorem fileUri_canonical {w : World} (hw : Orderly w) {p n : Str} (h : w.canonicalize p = .ok n) : FileUri (c!"file://" ++ n) := by
  obtain ⟨q, rfl⟩ := hw.absolute p n h
  exact ⟨q, rfl⟩

theorem Spec.Named.readFile {env : Env} {w : World} (hw : Orderly w) {f g : LspFiles} {path : Str} {l : LangType} (hf : Named f)
    (h : f.readFile env w path l = .ok g) : Named g := by
  cases hc : w.canonicalize path with
  | error e => simp only [LspFiles.readFile, hc] at h; cases h; exact hf
  | ok name => exact hf.frame (Frame.readFile h hc) (fileUri_canonical hw hc)

theorem named_walkdir {env : Env} {w : World} (hw : Orderly w) {c : JinjaConfig} {d : HMap Str Diags} {g : LspFiles}
    (h : walkdir env w c = .ok (some (d, g))) : Named g := by
  refine walkdir_induct Named ?_ (fun f path l g hf hl hg => hf.readFile hw hg) h
  unfold walkStart
  dsimp only
  split
  · exact ⟨fun u h => absurd rfl h, fun l u h => absurd rfl h⟩
  · exact ⟨fun u h => absurd rfl h, fun l u h => absurd rfl h⟩

/-- the results of an analysis are for named documents -/
def Spec.NamedResult (m : HMap Str Diags) : Prop := ∀ u, m.get? u ≠ none → FileUri u

theorem readTreesLoop_named {env : Env} {w : World} {f : LspFiles} : ∀ (ns : List Str) (m d : HMap Str Diags), (∀ n ∈ ns, FileUri n) →
    NamedResult m → f.readTreesLoop env w ns m = .ok d → NamedResult d
  | [], m, d, _, hm, h => by
    simp only [LspFiles.readTreesLoop] at h
    cases h
    exact hm
  | n :: ns, m, d, hn, hm, h => by
    simp only [LspFiles.readTreesLoop] at h
    split at h
    · cases h
    · exact readTreesLoop_named ns m d (fun x hx => hn x (by simp [hx])) hm h
    · refine readTreesLoop_named ns _ d (fun x hx => hn x (by simp [hx])) ?_ h
      intro u hu
      rw [HMap.get?_insert] at hu
      split at hu
      · rename_i e; rw [e]; exact hn n (by simp)
      · exact hm u hu

theorem named_empty : NamedResult HMap.empty := fun _ h => absurd rfl h

theorem named_single {u : Str} (hu : FileUri u) (ds : Diags) : NamedResult (HMap.empty.insert u ds) := by
  intro v hv
  rw [HMap.get?_insert] at hv
  split at hv
  · rename_i e; rw [e]; exact hu
  · exact absurd rfl hv

theorem walkdir_named {env : Env} {w : World} (hw : Orderly w) {c : JinjaConfig} {d : HMap Str Diags} {g : LspFiles}
    (h : walkdir env w c = .ok (some (d, g))) : NamedResult d := by
  have hg := named_walkdir hw h
  unfold walkdir at h
  split at h
  · cases h
  · cases h
  · split at h
    · cases h
    · rename_i hd
      cases h
      refine readTreesLoop_named _ _ _ ?_ named_empty hd
      intro n hn
      obtain ⟨e, he, rfl⟩ := List.mem_map.mp hn
      have := (HMap.get?_eq_some_iff _ e.1 e.2).mpr ((HMap.mem_shuffle ..).mp he)
      exact hg.trees .template e.1 (by rw [this]; simp)

theorem walkdir_ok {env : Env} (h : Sound env) (w : World) (c : JinjaConfig) : ∃ r, walkdir env w c = .ok r := by
  unfold walkdir
  obtain ⟨g, hg⟩ := walkDirs_ok h.parses h.readable w (c.templates :: c.backend) (walkStart c)
  rw [hg]
  cases g with
  | none => exact ⟨_, rfl⟩
  | some f =>
    dsimp only
    have key : ∀ (ns : List Str) (m : HMap Str Diags), ∃ d, f.readTreesLoop env w ns m = .ok d := by
      intro ns
      induction ns with
      | nil => intro m; exact ⟨m, rfl⟩
      | cons n ns ih =>
        intro m
        obtain ⟨v, hv⟩ := readTree_ok env w f n
        unfold LspFiles.readTreesLoop
        rw [hv]
        cases v with
        | none => exact ih m
        | some v => exact ih _
    obtain ⟨d, hd⟩ := key ((w.order.shuffle 4 (f.trees .template).entries).map Prod.fst) HMap.empty
    unfold LspFiles.readTrees
    rw [hd]
    exact ⟨_, rfl⟩

/-! ### One message -/

theorem sends_mem {r : Option (HMap Str Diags)} {m : HMap Str Diags} (h : m ∈ results (Server.sends r)) : r = some m := by
  cases r with
  | none => simp [Server.sends, results] at h
  | some x =>
    simp only [Server.sends, results, List.mem_singleton] at h
    rw [h]

theorem results_self {x : HMap Str Diags} (b : Prop) [Decidable b] : x ∉ results (if b then [.initialized] else []) := by
  split <;> simp [results]

/-- a healthy server processes every proper message, except a change it cannot apply -/
theorem Spec.Healthy.handle_ok {env : Env} (he : Sound env) {s : Server} (hs : Healthy s) (w : World) (m : Msg) (hm : Proper env m)
    (hc : ∀ u cs, m = .didChange u cs → ¬ OutOfBounds env s u cs) : ∃ s' o r, s.handle env w m = .ok (s', o, r) := by
  cases m with
  | «initialize» c o => exact ⟨_, _, _, rfl⟩
  | initialized =>
    simp only [Server.handle, Server.onInitialized]
    obtain ⟨r, hr⟩ := walkdir_ok he w s.config
    split
    · rename_i e heq
      split at heq
      · rw [hr] at heq
        cases r with
        | none => cases heq
        | some x => cases heq
      · cases heq
    · exact ⟨_, _, _, rfl⟩
  | didOpen u t =>
    simp only [Server.handle, LspFiles.didOpen]
    cases hx : fileExt u with
    | none => exact ⟨_, _, _, rfl⟩
    | some l =>
      dsimp only
      obtain ⟨g, hg⟩ := addVariables_ok (env := env) (n := u) (c := t) (l := l)
        (f := LspFiles.addTree env { s.files.deleteVariables u with documents := (s.files.deleteVariables u).documents.insert u t } u l t)
        (fun hl t' ht => by
          subst hl
          obtain ⟨old, ho⟩ := treeOf_addTree he.parses { s.files.deleteVariables u with documents := (s.files.deleteVariables u).documents.insert u t } u .template t
          rw [ho] at ht
          cases ht
          exact he.readable _ _ _)
      rw [hg]
      dsimp only
      obtain ⟨v, hv⟩ := readTree_ok env w g u
      rw [if_neg (by simp), hv]
      cases v <;> exact ⟨_, _, _, rfl⟩
  | didSave u =>
    simp only [Server.handle, LspFiles.didSave]
    cases hx : fileExt u with
    | none => exact ⟨_, _, _, rfl⟩
    | some l =>
      dsimp only
      cases hd : s.files.documents.get? u with
      | none => exact ⟨_, _, _, rfl⟩
      | some t =>
        dsimp only
        obtain ⟨g, hg⟩ := addVariables_ok (env := env) (f := s.files.deleteVariables u) (n := u) (c := t) (l := l) (fun hl t' ht => by
          subst hl
          rw [LspFiles.trees_deleteVariables] at ht
          obtain ⟨old, ho⟩ := hs.fresh u .template t hx hd
          rw [ho] at ht
          cases ht
          exact he.readable _ _ _)
        rw [hg]
        dsimp only
        obtain ⟨v, hv⟩ := readTree_ok env w g u
        rw [hv]
        cases v <;> exact ⟨_, _, _, rfl⟩
  | didChange u cs =>
    cases hh : s.handle env w (.didChange u cs) with
    | ok x => exact ⟨x.1, x.2.1, x.2.2, rfl⟩
    | error e => exact absurd ((C06_notification_crash_iff env w s u cs).mp ⟨e, hh⟩) (hc u cs rfl)
  | completion u p t =>
    obtain ⟨r, hr⟩ := he.completion s.files u p t hm
    simp only [Server.handle, Server.onCompletion, hr]
    cases r <;> exact ⟨_, _, _, rfl⟩
  | hover u p =>
    obtain ⟨r, hr⟩ := he.hover s.files u p
    simp only [Server.handle, Server.onHover, hr]
    cases r <;> exact ⟨_, _, _, rfl⟩
  | goto u p =>
    obtain ⟨r, hr⟩ := he.goto w s.files hs.named u p
    simp only [Server.handle, hr]
    exact ⟨_, _, _, rfl⟩
  | codeAction u p =>
    obtain ⟨r, hr⟩ := he.codeAction s.files u p
    simp only [Server.handle, Server.onCodeAction, hr]
    cases r with
    | none => exact ⟨_, _, _, rfl⟩
    | some a =>
      dsimp only
      cases a with
      | reset => exact ⟨_, _, _, rfl⟩
      | createTemplate n =>
        simp only [LspFiles.processCodeActions]
        cases hcan : w.canonicalize s.files.config.templates with
        | error e => exact ⟨_, _, _, rfl⟩
        | ok path =>
          dsimp only
          cases hu : env.urlParse (c!"file:///" ++ pathPush path (pathItems n)) with
          | none => exact absurd hu (he.urls _)
          | some u => exact ⟨_, _, _, rfl⟩
  | executeCommand c => exact ⟨_, _, _, rfl⟩
  | documentSymbol u => exact ⟨_, _, _, rfl⟩
  | didChangeConfiguration c => exact ⟨_, _, _, rfl⟩
  | codeActions m => exact ⟨_, _, _, rfl⟩

/-- and is healthy afterwards; the results it sends are for named documents -/
theorem Spec.Healthy.handle_healthy {env : Env} (he : Sound env) {s s' : Server} (hs : Healthy s) {w : World} (hw : Orderly w) {m : Msg}
    (hm : Proper env m) {o : List Send} {r : Reply} (h : s.handle env w m = .ok (s', o, r)) :
    Healthy s' ∧ ∀ x ∈ results o, NamedResult x := by
  have hfresh : Fresh s'.files := by
    refine C03_fresh_partial env he.parses [(w, m)] s s' hs.fresh (by simpa using hw.keeps) ?_ (by simp only [Server.run, h])
    intro x hx u cs hxm
    rw [List.mem_singleton.mp hx] at hxm
    dsimp only at hxm
    subst hxm
    exact hm.2
  cases m with
  | «initialize» c op =>
    simp only [Server.handle, Except.ok.injEq, Prod.mk.injEq] at h
    obtain ⟨rfl, rfl, _⟩ := h
    refine ⟨⟨hfresh, ?_, hs.timers⟩, by simp [results]⟩
    simp only [Server.onInitialize]
    split
    · exact ⟨hs.named.vars, hs.named.trees⟩
    · exact hs.named
  | initialized =>
    simp only [Server.handle, Server.onInitialized] at h
    split at h
    · cases h
    · rename_i s1 o1 heq
      cases h
      split at heq
      · split at heq
        · cases heq
        · cases heq
          exact ⟨⟨hfresh, hs.named, hs.timers⟩, by simp [results]⟩
        · rename_i d f hwd
          cases heq
          have hn := named_walkdir hw hwd
          refine ⟨⟨hfresh, ⟨hn.vars, hn.trees⟩, hs.timers⟩, ?_⟩
          intro x hx
          simp only [results, List.mem_singleton] at hx
          rw [hx]
          exact walkdir_named hw hwd
      · cases heq
        exact ⟨⟨hfresh, hs.named, hs.timers⟩, by simp [results]⟩
  | didOpen u t =>
    simp only [Server.handle] at h
    split at h
    · cases h
    · rename_i f m hf
      cases h
      refine ⟨⟨hfresh, hs.named.frame (Frame.didOpen hf) hm, hs.timers⟩, ?_⟩
      intro x hx
      have := sends_mem hx
      subst this
      simp only [LspFiles.didOpen] at hf
      split at hf
      · cases hf
      · split at hf
        · cases hf
        · rw [if_neg (by simp)] at hf
          split at hf
          · cases hf
          · cases hf
          · cases hf
            exact named_single hm _
  | didSave u =>
    simp only [Server.handle] at h
    split at h
    · cases h
    · rename_i f m hf
      cases h
      refine ⟨⟨hfresh, hs.named.frame (Frame.didSave hf) hm, hs.timers⟩, ?_⟩
      intro x hx
      have := sends_mem hx
      subst this
      simp only [LspFiles.didSave] at hf
      split at hf
      · cases hf
      · split at hf
        · cases hf
        · split at hf
          · cases hf
          · split at hf
            · cases hf
            · cases hf
              exact named_single hm _
            · cases hf
              exact named_single hm _
  | didChange u cs =>
    simp only [Server.handle] at h
    split at h
    · cases h
    · rename_i s1 h1
      cases h
      refine ⟨⟨hfresh, ?_, ?_⟩, by simp [results]⟩
      · obtain ⟨f, b, hf, e, _⟩ := onDidChange_cases h1
        rw [e]
        exact hs.named.frame (Frame.didChange hf) hm.1
      · unfold Server.onDidChange at h1
        split at h1
        · cases h1
        · cases h1; exact hs.timers
        · cases h1
          intro t ht
          rcases List.mem_append.mp ht with ht | ht
          · exact hs.timers t (List.mem_filter.mp ht).1
          · rw [List.mem_singleton.mp ht]; exact hm.1
  | completion u p t =>
    have := handle_query (by exact trivial) h
    simp only [Server.handle] at h
    split at h
    · cases h
    · cases h; exact ⟨⟨hfresh, hs.named, hs.timers⟩, by simp [results]⟩
  | hover u p =>
    simp only [Server.handle] at h
    split at h
    · cases h
    · cases h; exact ⟨⟨hfresh, hs.named, hs.timers⟩, by simp [results]⟩
  | goto u p =>
    simp only [Server.handle] at h
    split at h
    · cases h
    · cases h; exact ⟨⟨hfresh, hs.named, hs.timers⟩, by simp [results]⟩
  | codeAction u p =>
    simp only [Server.handle] at h
    split at h
    · cases h
    · rename_i s1 items h1
      cases h
      refine ⟨⟨hfresh, ?_, ?_⟩, by simp [results]⟩
      · rw [(onCodeAction_frame h1).1]
        exact hs.named
      · unfold Server.onCodeAction at h1
        split at h1
        · cases h1
        · cases h1; exact hs.timers
        · split at h1
          · cases h1
          · cases h1; exact hs.timers
          · cases h1
            intro t ht
            rcases List.mem_append.mp ht with ht | ht
            · exact hs.timers t ht
            · rw [List.mem_singleton.mp ht]; exact hm
  | executeCommand c =>
    simp only [Server.handle, Except.ok.injEq, Prod.mk.injEq] at h
    obtain ⟨rfl, rfl, _⟩ := h
    exact ⟨⟨hfresh, hs.named, hs.timers⟩, fun x hx => absurd hx (results_self _)⟩
  | documentSymbol u =>
    simp only [Server.handle, Except.ok.injEq, Prod.mk.injEq] at h
    obtain ⟨rfl, rfl, _⟩ := h
    exact ⟨⟨hfresh, hs.named, hs.timers⟩, by simp [results]⟩
  | didChangeConfiguration c =>
    simp only [Server.handle, Except.ok.injEq, Prod.mk.injEq] at h
    obtain ⟨rfl, rfl, _⟩ := h
    exact ⟨⟨hfresh, hs.named, hs.timers⟩, fun x hx => absurd hx (results_self _)⟩
  | codeActions m =>
    simp only [Server.handle, Except.ok.injEq, Prod.mk.injEq] at h
    obtain ⟨rfl, rfl, _⟩ := h
    have hfr := addCodeActions_frame w.order s.files m
    refine ⟨⟨hfresh, ⟨?_, ?_⟩, hs.timers⟩, by simp [results]⟩
    · intro u hu
      exact hs.named.vars u (by rw [← hfr.2.2.1]; exact hu)
    · intro l u hu
      exact hs.named.trees l u (by rw [← hfr.2.1]; exact hu)

/-! ### Instances -/

namespace Fix

/-- only absolute paths exist -/
def rootWorld : World := { diskWorld with canonicalize := fun p => if c!"/".isPrefixOf p then .ok p else .error .notFound }

theorem rootWorld_orderly : Orderly rootWorld := by
  constructor
  · intro p n l h hl
    simp only [rootWorld] at h
    split at h
    · cases h; exact fileExt_fileUri p l hl
    · cases h
  · intro p n h
    simp only [rootWorld] at h
    split at h
    · rename_i hp
      cases h; exact List.isPrefixOf_iff_prefix.mp hp
    · cases h

theorem env_sound : Sound env := by
  refine ⟨fun _ _ _ => rfl, ?_, fun p h => ?_, fun _ => ⟨?_, ?_⟩⟩
  · intro g t o c hc; simp [env] at hc
  · simp [env] at h
  · intro g t c hc; simp [env] at hc
  · constructor <;> (intros; simp_all [env])

end Fix

/-! ### All executions -/

theorem TaskStepIn.weaken {W W' : World → Prop} {env : Env} {σ τ : Sys} (h : TaskStepIn W env σ τ) (hW : ∀ w, W w → W' w) :
    TaskStepIn W' env σ τ := by
  cases h with
  | workerRecv w h1 h2 h3 h4 h5 => exact .workerRecv w h1 h2 h3 h4 (hW w h5)
  | workerPanic w h1 h2 h3 h4 h5 => exact .workerPanic w h1 h2 h3 h4 (hW w h5)
  | workerSendDiag h1 h2 h3 h4 => exact .workerSendDiag h1 h2 h3 h4
  | workerSendDiagDead h1 h2 h3 => exact .workerSendDiagDead h1 h2 h3
  | workerSendSelf h1 h2 h3 => exact .workerSendSelf h1 h2 h3
  | diagRecv o h1 h2 h3 h4 => exact .diagRecv o h1 h2 h3 h4
  | diagPanic o h1 h2 h3 h4 => exact .diagPanic o h1 h2 h3 h4
  | diagSend h1 h2 h3 h4 => exact .diagSend h1 h2 h3 h4
  | diagSendDead h1 h2 h3 => exact .diagSendDead h1 h2 h3
  | diagStop h1 h2 h3 h4 => exact .diagStop h1 h2 h3 h4

/-- what holds in the whole process at every moment -/
structure Spec.AllWell (env : Env) (σ : Sys) : Prop where
  worker : ∃ s, σ.worker = some s ∧ Healthy s
  diag : σ.diagAlive = true
  queue : ∀ m ∈ σ.lspQ, Proper env m
  out : ∀ x ∈ results σ.wOut, NamedResult x
  diagQ : ∀ x ∈ σ.diagQ, NamedResult x

theorem Spec.NamedResult.process {env : Env} (he : Sound env) {m : HMap Str Diags} (h : NamedResult m) (o : HashOrder) :
    ∃ r, diagProcess env o m = .ok r := by
  obtain ⟨ca, hca⟩ := diagLoop_ok env (o.shuffle 9 m.entries) HMap.empty (fun e hx => by
    have := (HMap.get?_eq_some_iff m e.1 e.2).mpr ((HMap.mem_shuffle ..).mp hx)
    have hfile := h e.1 (by rw [this]; simp)
    have hp := hfile.parse he []
    rwa [List.append_nil] at hp)
  exact ⟨_, hca⟩

/-- the worker is about to process a change it cannot apply -/
def Spec.Doomed (env : Env) (σ : Sys) : Prop :=
  ∃ s u cs q, σ.worker = some s ∧ σ.wOut = [] ∧ σ.lspQ = .didChange u cs :: q ∧ OutOfBounds env s u cs

theorem Spec.AllWell.step {env : Env} (he : Sound env) {σ τ : Sys} (h : AllWell env σ) (hs : TaskStepIn Orderly env σ τ) :
    AllWell env τ ∨ Doomed env σ := by
  obtain ⟨⟨s, hw, hh⟩, hd, hq, ho, hdq⟩ := h
  cases hs with
  | workerRecv w hw' ho' hq' hr hW =>
    rename_i s1 s2 m q outs r
    rw [hw] at hw'
    cases hw'
    obtain ⟨h1, h2⟩ := hh.handle_healthy he hW (hq m (by rw [hq']; simp)) hr
    exact Or.inl ⟨⟨_, rfl, h1⟩, hd, fun x hx => hq x (by rw [hq']; simp [hx]), h2, hdq⟩
  | workerPanic w hw' ho' hq' hr hW =>
    rename_i s1 m q e
    rw [hw] at hw'
    cases hw'
    right
    refine Classical.byContradiction fun hdoom => ?_
    obtain ⟨s', o, r, hok⟩ := hh.handle_ok he w m (hq m (by rw [hq']; simp)) (by
      rintro u cs rfl hb
      exact hdoom ⟨s, u, cs, q, hw, ho', hq', hb⟩)
    rw [hok] at hr
    cases hr
  | workerSendDiag hw' ho' ha hc =>
    rename_i s1 m r
    rw [ho'] at ho
    refine Or.inl ⟨⟨s, hw, hh⟩, hd, hq, fun x hx => ho x (by simp [results, hx]), ?_⟩
    intro x hx
    rcases List.mem_append.mp hx with hx | hx
    · exact hdq x hx
    · rw [List.mem_singleton.mp hx]
      exact ho m (by simp [results])
  | workerSendDiagDead hw' ho' ha => rw [hd] at ha; cases ha
  | workerSendSelf hw' ho' hc =>
    rw [ho'] at ho
    refine Or.inl ⟨⟨s, hw, hh⟩, hd, ?_, fun x hx => ho x (by simp [results, hx]), hdq⟩
    intro m hm
    rcases List.mem_append.mp hm with hm | hm
    · exact hq m hm
    · rw [List.mem_singleton.mp hm]; trivial
  | diagRecv o ha hdo hq' hp =>
    exact Or.inl ⟨⟨s, hw, hh⟩, hd, hq, ho, fun x hx => hdq x (by rw [hq']; simp [hx])⟩
  | diagPanic o ha hdo hq' hp =>
    rename_i m q e
    obtain ⟨r, hr⟩ := (hdq m (by rw [hq']; simp)).process he o
    rw [hr] at hp
    cases hp
  | diagSend ha hdo hw' hc =>
    refine Or.inl ⟨⟨s, hw, hh⟩, hd, ?_, ho, hdq⟩
    intro m hm
    rcases List.mem_append.mp hm with hm | hm
    · exact hq m hm
    · rw [List.mem_singleton.mp hm]; trivial
  | diagSendDead ha hdo hw' => rw [hw] at hw'; cases hw'
  | diagStop ha hdo hq' hw' => rw [hw] at hw'; cases hw'

/-- **C67** In every execution of the whole process, for every sequence of proper client messages and every interleaving: both tasks are
alive, unless at some earlier moment of this very execution the worker was about to process a change of a document that it cannot apply to
the text it held (exactly characterised in C06). No request, no other notification, no delay and no content of files ever ends a task. -/
theorem C67_survives (env : Env) (he : Sound env) (cs : List Msg) (as : List (HMap Str Diags)) (σ : Sys) (h : Execution Orderly env cs as σ)
    (hc : ∀ m ∈ cs, Proper env m) :
    (σ.worker ≠ none ∧ σ.diagAlive = true) ∨
      ∃ cs' as' τ, Execution Orderly env cs' as' τ ∧ cs' <+: cs ∧ as' <+: as ∧ Steps env τ σ ∧ Doomed env τ := by
  have key : AllWell env σ ∨ ∃ cs' as' τ, Execution Orderly env cs' as' τ ∧ cs' <+: cs ∧ as' <+: as ∧ Steps env τ σ ∧ Doomed env τ := by
    induction h with
    | start => exact Or.inl ⟨⟨_, rfl, healthy_init⟩, rfl, by simp [Sys.init], by simp [Sys.init, results], by simp [Sys.init]⟩
    | client h m hm hw hl ih =>
      rcases ih (fun x hx => hc x (by simp [hx])) with ih | ⟨cs', as', τ, h1, h2, h3, h4, h5⟩
      · refine Or.inl ⟨ih.worker, ih.diag, ?_, ih.out, ih.diagQ⟩
        intro x hx
        rcases List.mem_append.mp hx with hx | hx
        · exact ih.queue x hx
        · rw [List.mem_singleton.mp hx]; exact hc m (by simp)
      · exact Or.inr ⟨cs', as', τ, h1, h2.trans (List.prefix_append ..), h3, h4.tail (.env (.client m hm hw hl)), h5⟩
    | task h hs ih =>
      rename_i cs as σ τ
      have hst : TaskStep env σ τ := hs.weaken fun _ _ => trivial
      rcases ih hc with ih | ⟨cs', as', υ, h1, h2, h3, h4, h5⟩
      · rcases ih.step he hs with hw | hd
        · exact Or.inl hw
        · exact Or.inr ⟨cs, as, σ, h, List.prefix_refl _, List.prefix_append .., .tail (.refl _) (.task hst), hd⟩
      · exact Or.inr ⟨cs', as', υ, h1, h2, h3.trans (List.prefix_append ..), h4.tail (.task hst), h5⟩
    | delayed h hs hw ht hτ ih =>
      rename_i cs as σ τ s t
      rcases ih hc with ih | ⟨cs', as', υ, h1, h2, h3, h4, h5⟩
      · left
        obtain ⟨⟨s1, hw1, hh⟩, hd, hq, ho, hdq⟩ := ih
        have : Healthy { s with timers := s.timers.erase t } := by
          rw [hw] at hw1
          cases hw1
          exact ⟨hh.fresh, hh.named, fun x hx => hh.timers x (List.mem_of_mem_erase hx)⟩
        cases hs with
        | client m hm hw2 hc2 =>
          dsimp only at hτ
          rw [hw] at hτ
          injection hτ with hτ
          have hlen := congrArg (fun s => s.timers.length) hτ
          simp only [List.length_erase, ht, if_true] at hlen
          have : 0 < s.timers.length := List.length_pos_of_mem ht
          omega
        | clientDead hw2 => rw [hw] at hw2; cases hw2
        | timer hw2 ht2 hl hc2 =>
          refine ⟨⟨_, hτ, this⟩, hd, ?_, ho, hdq⟩
          intro x hx
          rcases List.mem_append.mp hx with hx | hx
          · exact hq x hx
          · rw [List.mem_singleton.mp hx]
            rw [hw2] at hw1
            cases hw1
            exact hh.timers _ ht2
        | timerMute hw2 ht2 hl => exact ⟨⟨_, hτ, this⟩, hd, hq, ho, hdq⟩
      · exact Or.inr ⟨cs', as', υ, h1, h2, h3, h4.tail (.env hs), h5⟩
  rcases key with h | h
  · obtain ⟨s, hs, _⟩ := h.worker
    exact Or.inl ⟨by rw [hs]; simp, h.diag⟩
  · exact Or.inr h

theorem Spec.Merge.mem {α : Type} {a b l : List α} (h : Merge a b l) (x : α) : x ∈ l → x ∈ a ∨ x ∈ b := by
  induction h with
  | nil => simp
  | left y h ih =>
    intro hx
    rcases List.mem_append.mp hx with hx | hx
    · rcases ih hx with h | h
      · exact Or.inl (by simp [h])
      · exact Or.inr h
    · exact Or.inl (by simp [List.mem_singleton.mp hx])
  | right y h ih =>
    intro hx
    rcases List.mem_append.mp hx with hx | hx
    · rcases ih hx with h | h
      · exact Or.inl h
      · exact Or.inr (by simp [h])
    · exact Or.inr (by simp [List.mem_singleton.mp hx])

/-- **C67** In particular a session without changes to documents never ends a task. -/
theorem C67_reading (env : Env) (he : Sound env) (cs : List Msg) (as : List (HMap Str Diags)) (σ : Sys) (h : Execution Orderly env cs as σ)
    (hc : ∀ m ∈ cs, Proper env m) (hn : ∀ u chs, .didChange u chs ∉ cs) : σ.worker ≠ none ∧ σ.diagAlive = true := by
  rcases C67_survives env he cs as σ h hc with hh | ⟨cs', as', τ, h1, h2, _, _, s, u, chs, q, hw, _, hq, _⟩
  · exact hh
  · obtain ⟨ms, s₀, is, _, _, hm, hi, _⟩ := C66_sequential Orderly env cs' as' τ s h1 hw
    rcases hm.mem (.didChange u chs) (by rw [hq]; simp) with hx | hx
    · exact absurd (h2.subset hx) (hn u chs)
    · rcases hi _ hx with hx | ⟨v, hx⟩ | ⟨ca, hx⟩ <;> cases hx

/-- the converse: a worker that is about to process such a change does not survive it -/
theorem C67_doomed (W : World → Prop) (env : Env) (σ τ : Sys) (h : Doomed env σ) (hs : TaskStepIn W env σ τ) (hq : τ.lspQ.length < σ.lspQ.length) :
    τ.worker = none := by
  obtain ⟨s, u, cs, q, hw, ho, hl, hb⟩ := h
  cases hs with
  | workerRecv w hw' ho' hq' hr hW =>
    obtain ⟨e, hx⟩ := (C06_notification_crash_iff env w s u cs).mpr hb
    rw [hw] at hw'
    cases hw'
    rw [hl] at hq'
    cases hq'
    rw [hx] at hr
    cases hr
  | workerPanic => rfl
  | workerSendDiag h1 h2 h3 h4 => simp at hq
  | workerSendDiagDead h1 h2 h3 => simp at hq
  | workerSendSelf h1 h2 h3 => rw [ho] at h2; cases h2
  | diagRecv o h1 h2 h3 h4 => simp at hq
  | diagPanic o h1 h2 h3 h4 => simp at hq
  | diagSend h1 h2 h3 h4 =>
    simp only [List.length_append, List.length_singleton] at hq
    omega
  | diagSendDead h1 h2 h3 => rw [hw] at h3; cases h3
  | diagStop h1 h2 h3 h4 => rw [hw] at h4; cases h4

/-- a document of one line is opened, a change of a third line is queued: the worker is about to die -/
example : ∃ (as : List (HMap Str Diags)) (σ : Sys),
    Execution Orderly Fix.env [.didOpen Fix.uriA c!"aaa", .didChange Fix.uriA [⟨some ⟨⟨2, 0⟩, ⟨2, 0⟩⟩, c!"x"⟩]] as σ ∧ Doomed Fix.env σ ∧
    (∀ m ∈ [Msg.didOpen Fix.uriA c!"aaa", .didChange Fix.uriA [⟨some ⟨⟨2, 0⟩, ⟨2, 0⟩⟩, c!"x"⟩]], Proper Fix.env m) := by
  obtain ⟨s', r', m, hr, hm⟩ : ∃ s' r' m, Server.init.handle Fix.env Fix.rootWorld (.didOpen Fix.uriA c!"aaa") = .ok (s', [.diag m], r') ∧
      s'.files.documents.get? Fix.uriA = some c!"aaa" := ⟨_, _, _, rfl, rfl⟩
  have e1 := Execution.start (W := Orderly) (env := Fix.env) |>.client (.didOpen Fix.uriA c!"aaa") trivial rfl (by decide)
  have e2 := e1.task (.workerRecv (q := []) Fix.rootWorld rfl rfl rfl hr Fix.rootWorld_orderly)
  have e3 := e2.task (.workerSendDiag rfl rfl rfl (show 0 < 20 by decide))
  have e4 := e3.client (.didChange Fix.uriA [⟨some ⟨⟨2, 0⟩, ⟨2, 0⟩⟩, c!"x"⟩]) trivial rfl (show 0 < 50 by decide)
  refine ⟨_, _, e4, ⟨s', _, _, [], rfl, rfl, rfl, c!"aaa", [], _, [], _, c!"aaa", [], hm, rfl, rfl, rfl, ?_⟩, ?_⟩
  · show True; trivial
  · intro m hm
    simp only [List.mem_cons, List.not_mem_nil, or_false] at hm
    rcases hm with rfl | rfl
    · exact ⟨_, rfl⟩
    · exact ⟨⟨_, rfl⟩, by simp⟩

/-- a session in which a document is opened and looked at meets the conditions of `C67_reading` -/
example : ∃ (as : List (HMap Str Diags)) (σ : Sys), Sound Fix.env ∧
    Execution Orderly Fix.env [.didOpen Fix.uriA c!"{{ a }}", .hover Fix.uriA ⟨0, 3⟩] as σ ∧ σ.worker ≠ none ∧ σ.diagAlive = true := by
  have e1 := Execution.start (W := Orderly) (env := Fix.env) |>.client (.didOpen Fix.uriA c!"{{ a }}") trivial rfl (by decide)
  have e2 := e1.client (.hover Fix.uriA ⟨0, 3⟩) trivial rfl (by decide)
  refine ⟨_, _, Fix.env_sound, e2, C67_reading Fix.env Fix.env_sound _ _ _ e2 ?_ (by simp)⟩
  intro m hm
  simp only [List.nil_append, List.cons_append, List.mem_cons, List.not_mem_nil, or_false] at hm
  rcases hm with rfl | rfl
  · exact ⟨_, rfl⟩
  · trivial

end JinjaLsp
