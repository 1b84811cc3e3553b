import Verif.Props.NodeGoto
import Verif.Props.Survival
/-
  C134: the calls of the Node API in a release build (as published: package.json "build") return, except goto-definition.
-/

namespace JinjaLsp
open Node Spec NodeFiles

/-- what the `url` crate guarantees about what it makes of a text -/
structure Spec.KeepsUrls (env : Env) : Prop where
  files : ∀ s u, FileUri s → env.urlParse s = some u → FileUri u
  again : ∀ s u, env.urlParse s = some u → env.urlParse u ≠ none

/-- one of the calls saves the hint `a` under the name `h` -/
def Spec.Saves (calls : List Call) (h : Str) (a : Action) : Prop :=
  ∃ as hint, Call.saveLinkHint (some as) hint ∈ calls ∧ hint.getD c!"temp" = h ∧ a ∈ as

/-! ### Arithmetic -/

theorem usub32_release (a b : Nat) : ∃ d, usub32 .release a b = .ok d := by
  unfold usub32
  split <;> exact ⟨_, rfl⟩

theorem shiftPos_release (p : Position) (line : Nat) : ∃ q, shiftPos .release p line = .ok q := by
  obtain ⟨d, hd⟩ := uadd32_release p.line line
  exact ⟨⟨d, p.character⟩, by unfold shiftPos; rw [hd]⟩

theorem shiftRange_release (r : Range) (line : Nat) : ∃ q, shiftRange .release r line = .ok q := by
  obtain ⟨a, ha⟩ := shiftPos_release r.start line
  obtain ⟨b, hb⟩ := shiftPos_release r.stop line
  exact ⟨⟨a, b⟩, by unfold shiftRange; rw [ha]; simp only [hb]⟩

theorem linksOf_release (line : Nat) (fields : List Str) (a b : Point) (name : Str) : ∀ gs,
    ∃ ls, linksOf .release line fields a b name gs = .ok ls
  | [] => ⟨_, rfl⟩
  | g :: gs => by
    obtain ⟨ls, hl⟩ := linksOf_release line fields a b name gs
    obtain ⟨s, hs⟩ := shiftPos_release (toPosition2 a) line
    obtain ⟨t, ht⟩ := shiftPos_release (toPosition2 b) line
    unfold linksOf link
    simp only [hs, ht, hl]
    split <;> exact ⟨_, rfl⟩

theorem allLinks_release (line : Nat) (hints : List (List Str)) : ∀ cs, ∃ ls, allLinks .release line hints cs = .ok ls
  | [] => ⟨_, rfl⟩
  | c :: cs => by
    obtain ⟨a, ha⟩ := linksOf_release line c.1 c.2.1 c.2.2.1 c.2.2.2 hints
    obtain ⟨b, hb⟩ := allLinks_release line hints cs
    exact ⟨a ++ b, by unfold allLinks; simp only [ha, hb]⟩

theorem shiftAll_release (line : Nat) : ∀ vs, ∃ r, shiftAll .release line vs = .ok r
  | [] => ⟨_, rfl⟩
  | v :: vs => by
    obtain ⟨r, hr⟩ := shiftAll_release line vs
    obtain ⟨s, hs⟩ := shiftPos_release (toPosition2 v.start) line
    obtain ⟨t, ht⟩ := shiftPos_release (toPosition2 v.stop) line
    unfold shiftAll
    simp only [hs, ht, hr]
    exact ⟨_, rfl⟩

theorem docUri_sound {env : Env} (he : Sound env) (fn : Str) (id : Nat) (ext : Str) :
    ∃ u, docUri env fn id ext = .ok u ∧ ∃ s, FileUri s ∧ env.urlParse s = some u := by
  unfold docUri
  have hs : FileUri (c!"file:///home/" ++ fn ++ '.' :: decimal id ++ '.' :: ext) :=
    ⟨c!"home/" ++ (fn ++ '.' :: decimal id ++ '.' :: ext), by simp⟩
  cases hu : env.urlParse (c!"file:///home/" ++ fn ++ '.' :: decimal id ++ '.' :: ext) with
  | none =>
    have := hs.parse he []
    rw [List.append_nil] at this
    exact absurd hu this
  | some u => exact ⟨u, rfl, _, hs, hu⟩

/-! ### Adding templates -/

theorem didOpen_sound {env : Env} (he : Sound env) (w : World) (f : LspFiles) (u t : Str) : ∃ r, f.didOpen env w u t true = .ok r := by
  unfold LspFiles.didOpen
  cases hx : fileExt u with
  | none => exact ⟨_, rfl⟩
  | some l =>
    dsimp only
    obtain ⟨g, hg⟩ := addVariables_ok (env := env) (n := u) (c := t) (l := l)
      (f := LspFiles.addTree env { f.deleteVariables u with documents := (f.deleteVariables u).documents.insert u t } u l t)
      (fun hl t' ht => by
        subst hl
        obtain ⟨old, ho⟩ := treeOf_addTree he.parses { f.deleteVariables u with documents := (f.deleteVariables u).documents.insert u t } u .template t
        rw [ho] at ht
        cases ht
        exact he.readable _ _ _)
    rw [hg]
    exact ⟨_, rfl⟩

theorem readObjects_sound {env : Env} (he : Sound env) (f : LspFiles) (u : Str) : ∃ r, f.readObjects env u = .ok r := by
  unfold LspFiles.readObjects
  split
  · split
    · exact ⟨_, rfl⟩
    · rename_i tree _
      obtain ⟨s, hs⟩ := he.query tree Point.zero _ true
      rw [hs]
      exact ⟨_, rfl⟩
  · exact ⟨_, rfl⟩

theorem addOne_sound {env : Env} (he : Sound env) (hr : env.profile = .release) (w : World) (n : NodeFiles) (id : Nat) (fn content : Str)
    (line : Nat) (ext : Str) (col : Option Nat) : ∃ r, n.addOne env w id fn content line ext col = .ok r := by
  unfold NodeFiles.addOne
  obtain ⟨u, hu, _⟩ := docUri_sound he fn id ext
  obtain ⟨⟨f, m⟩, hf⟩ := didOpen_sound he w n.files u (List.replicate (col.getD 0) ' ' ++ content)
  obtain ⟨o, ho⟩ := readObjects_sound he f u
  simp only [hu, hf]
  split
  · rw [ho]
    cases o with
    | none => exact ⟨_, rfl⟩
    | some objects =>
      simp only
      split
      · exact ⟨_, rfl⟩
      · rename_i hints _
        obtain ⟨ls, hl⟩ := allLinks_release line hints (objects.map fun o => (objectFields o, o.location.1, o.lastFieldEnd, o.name))
        rw [hr, hl]
        exact ⟨_, rfl⟩
  · split
    · split
      · exact ⟨_, rfl⟩
      · rename_i ids _
        split
        · exact ⟨_, rfl⟩
        · rename_i hints _
          obtain ⟨ls, hl⟩ := allLinks_release line hints (ids.map fun p => (pythonFields p, p.start, p.stop, p.field))
          rw [hr, hl]
          exact ⟨_, rfl⟩
    · exact ⟨_, rfl⟩

/-- **C134, calls that change the state** Any sequence of calls that add templates and hints and delete them, from any state and with any
arguments, returns. -/
theorem C134_calls (env : Env) (he : Sound env) (hr : env.profile = .release) (w : World) (calls : List Call) (n : NodeFiles) :
    ∃ n', Call.run env w n calls = .ok n' := by
  induction calls generalizing n with
  | nil => exact ⟨n, rfl⟩
  | cons c cs ih =>
    have hs : ∃ n1, c.step env w n = .ok n1 := by
      cases c with
      | addOne id fn ct l e col =>
        obtain ⟨r, h⟩ := addOne_sound he hr w n id fn ct l e col
        exact ⟨r.1, by simp only [Call.step, h, Except.map]⟩
      | _ => exact ⟨_, rfl⟩
    obtain ⟨n1, h1⟩ := hs
    obtain ⟨n', h'⟩ := ih n1
    exact ⟨n', by unfold Call.run; rw [h1]; exact h'⟩

/-- **C134, requests** `add_one`, `get_variables`, `hover` and `complete` return in every state, for every argument. -/
theorem C134_requests (env : Env) (he : Sound env) (hr : env.profile = .release) (w : World) (n : NodeFiles) (id : Nat) (fn name : Str) (line : Nat)
    (pos : Position) :
    (∀ content ext col, ∃ r, n.addOne env w id fn content line ext col = .ok r) ∧ (∃ r, n.getVariables env name line = .ok r) ∧
    (∃ r, n.hover env w id fn line pos = .ok r) ∧ ∃ r, n.complete env w id fn line pos = .ok r := by
  refine ⟨fun content ext col => addOne_sound he hr w n id fn content line ext col, ?_, ?_, ?_⟩
  · unfold getVariables
    split
    · exact ⟨_, rfl⟩
    · rename_i vs _
      obtain ⟨r, h⟩ := shiftAll_release line vs
      rw [hr, h]
      exact ⟨_, rfl⟩
  · unfold NodeFiles.hover
    obtain ⟨l, hl⟩ := usub32_release pos.line line
    obtain ⟨u, hu, _⟩ := docUri_sound he fn id c!"jinja"
    obtain ⟨h, hh⟩ := he.hover n.files u ⟨l, pos.character⟩
    rw [hr, hl]
    simp only [hu, hh]
    cases h with
    | none => exact ⟨_, rfl⟩
    | some h =>
      obtain ⟨q, hq⟩ := shiftRange_release ⟨toPosition2 h.1.start, toPosition2 h.1.stop⟩ line
      simp only [hq]
      split <;> exact ⟨_, rfl⟩
  · unfold NodeFiles.complete
    obtain ⟨l, hl⟩ := usub32_release pos.line line
    obtain ⟨u, hu, _⟩ := docUri_sound he fn id c!"jinja"
    obtain ⟨c, hc⟩ := completion_release env hr n.files u ⟨l, pos.character⟩ .triggerCharacter
    rw [hr, hl]
    simp only [hu, hc]
    cases c with
    | none => exact ⟨_, rfl⟩
    | some c =>
      obtain ⟨c, b⟩ := c
      cases c with
      | incompleteIdentifier name range =>
        obtain ⟨q, hq⟩ := shiftRange_release range line
        simp only [hq]
        split <;> exact ⟨_, rfl⟩
      | identifier =>
        simp only
        split <;> exact ⟨_, rfl⟩
      | _ => exact ⟨_, rfl⟩

/-! ### Goto-definition -/

/-- the names of the files the Node API knows -/
def Spec.Origins (calls : List Call) (f : LspFiles) : Prop :=
  ∀ u vs, f.variables.get? u = some vs → FileUri u ∨
    ∃ as hint, Call.saveLinkHint (some as) hint ∈ calls ∧ hint.getD c!"temp" = u ∧ vs = as.map actionVariable

theorem origins_step {env : Env} (he : Sound env) (hk : KeepsUrls env) {w : World} {calls : List Call} {n n' : NodeFiles} (ho : Origins calls n.files)
    {c : Call} (hc : c ∈ calls) (h : c.step env w n = .ok n') : Origins calls n'.files := by
  intro u vs hv
  cases c with
  | addLinkHints v as =>
    cases as <;> (cases h; exact ho u vs hv)
  | saveLinkHint as hint =>
    cases as with
    | none => cases h; exact ho u vs hv
    | some as =>
      cases h
      simp only [saveLinkHint, HMap.get?_insert] at hv
      split at hv
      · rename_i e
        cases hv
        exact Or.inr ⟨as, hint, hc, e.symm, rfl⟩
      · exact ho u vs hv
  | removeTempLinkHint hint =>
    cases h
    simp only [removeTempLinkHint, HMap.get?_erase] at hv
    split at hv
    · cases hv
    · exact ho u vs hv
  | deleteAll fn =>
    cases h
    simp only [deleteAll, LspFiles.deleteDocumentsWithId] at hv
    rw [(removeDocuments_get _ n.files u).2.1] at hv
    split at hv
    · cases hv
    · exact ho u vs hv
  | addOne id fn ct l e col =>
    simp only [Call.step, Except.map] at h
    split at h
    · cases h
    · rename_i r hr
      cases h
      obtain ⟨uri, hu, s, hs, hp⟩ := docUri_sound he fn id e
      obtain ⟨⟨f, m⟩, hf⟩ := didOpen_sound he w n.files uri (List.replicate (col.getD 0) ' ' ++ ct)
      have key : r.1.files = f := by
        unfold addOne at hr
        simp only [hu, hf] at hr
        repeat' (split at hr)
        all_goals first | (cases hr; rfl) | cases hr
      by_cases e : u = uri
      · exact Or.inl (e ▸ hk.files s uri hs hp)
      · rw [key, ((Frame.didOpen hf).same u e).vars] at hv
        exact ho u vs hv

theorem origins_run {env : Env} (he : Sound env) (hk : KeepsUrls env) {w : World} {calls : List Call} : ∀ (cs : List Call) {n n' : NodeFiles},
    Origins calls n.files → (∀ c ∈ cs, c ∈ calls) → Call.run env w n cs = .ok n' → Origins calls n'.files
  | [], _, _, ho, _, h => by cases h; exact ho
  | c :: cs, n, n', ho, hc, h => by
    unfold Call.run at h
    split at h
    · cases h
    · rename_i n1 h1
      exact origins_run he hk cs (origins_step he hk ho (hc c List.mem_cons_self) h1) (fun x hx => hc x (List.mem_cons_of_mem _ hx)) h

theorem collectLocations_urls {env : Env} {file : Str} : ∀ (vs : List Identifier) {ls : List Location},
    LspFiles.collectLocations env file vs = .ok ls → ∀ x ∈ ls, ∃ s, env.urlParse s = some x.uri
  | [], ls, h => by cases h; intro x hx; cases hx
  | v :: vs, ls, h => by
    unfold LspFiles.collectLocations at h
    split at h
    · cases h
    · rename_i l hl
      split at h
      · cases h
      · rename_i ls' hls
        cases h
        intro x hx
        rcases List.mem_cons.mp hx with rfl | hx
        · unfold LspFiles.variableLocation at hl
          simp only at hl
          split at hl
          · cases hl
          · rename_i u hu
            cases hl
            exact ⟨_, hu⟩
        · exact collectLocations_urls vs hls x hx

theorem collectFiles_urls {env : Env} {uri ident : Str} : ∀ (fs : List (Str × List Identifier)) {ls : List Location},
    LspFiles.collectFiles env uri ident fs = .ok ls → ∀ x ∈ ls, ∃ s, env.urlParse s = some x.uri
  | [], ls, h => by cases h; intro x hx; cases hx
  | f :: fs, ls, h => by
    unfold LspFiles.collectFiles at h
    split at h
    · exact collectFiles_urls fs h
    · split at h
      · cases h
      · rename_i a ha
        split at h
        · cases h
        · rename_i b hb
          cases h
          intro x hx
          rcases List.mem_append.mp hx with hx | hx
          · exact collectLocations_urls _ ha x hx
          · exact collectFiles_urls fs hb x hx

theorem shiftLocations_release {env : Env} (hr : env.profile = .release) (line : Nat) : ∀ (ls : List Location),
    (∀ x ∈ ls, env.urlParse x.uri ≠ none) → ∃ r, shiftLocations env line ls = .ok r
  | [], _ => ⟨_, rfl⟩
  | x :: ls, h => by
    obtain ⟨r, hl⟩ := shiftLocations_release hr line ls fun y hy => h y (List.mem_cons_of_mem _ hy)
    obtain ⟨q, hq⟩ := shiftRange_release x.range line
    unfold shiftLocations
    rw [hr]
    split
    · split
      · rename_i hu
        exact absurd hu (h x List.mem_cons_self)
      · simp only [hq, hl]
        exact ⟨_, rfl⟩
    · exact ⟨r, hl⟩

/-- array answers consist of URLs -/
theorem goto_array {env : Env} {w : World} {f : LspFiles} {uri : Str} {pos : Position} {ls : List Location}
    (h : f.gotoDefinition env w uri pos = .ok (some (.array ls))) : ∀ x ∈ ls, ∃ s, env.urlParse s = some x.uri := by
  have hloc : ∀ name p, f.localDefinition uri name p ≠ some (.array ls) := by
    intro name p e
    unfold LspFiles.localDefinition at e
    split at e
    · cases e
    · split at e <;> cases e
  have htpl : ∀ name, f.templateLocation env w name ≠ some (.array ls) := by
    intro name e
    unfold LspFiles.templateLocation at e
    split at e
    · cases e
    · split at e <;> cases e
  unfold LspFiles.gotoDefinition at h
  split at h
  · cases h
  · simp only at h
    split at h
    · split at h
      · split at h
        · cases h
        · split at h
          · rename_i hb
            cases h
            obtain ⟨name, _, hn⟩ := Option.bind_eq_some_iff.mp hb
            exact absurd hn (hloc _ _)
          · split at h
            · rename_i hb
              cases h
              obtain ⟨i, _, hn⟩ := Option.bind_eq_some_iff.mp hb
              exact absurd hn (htpl _)
            · split at h
              · cases h
              · rename_i all hall
                cases h
                exact collectFiles_urls _ hall
      · split at h
        · cases h
        · injection h with h
          exact absurd h (htpl _)
    · cases h

/-- a failing search comes from an entry that leads to no URL -/
theorem goto_err {env : Env} (he : Sound env) {w : World} {f : LspFiles} {uri : Str} {pos : Position} {e : Panic}
    (h : f.gotoDefinition env w uri pos = .error e) :
    ∃ file vs v, f.variables.get? file = some vs ∧ v ∈ vs ∧ env.urlParse (targetOf file v) = none := by
  apply Classical.byContradiction
  intro hno
  have hall : ∀ ident, ∃ l, LspFiles.collectFiles env uri ident (w.order.shuffle 2 f.variables.entries) = .ok l := fun ident =>
    collectFiles_total _ fun x hx v hv hn => hno ⟨x.1, x.2, v, mem_entries.mp hx, hv, hn⟩
  unfold LspFiles.gotoDefinition at h
  split at h
  · cases h
  · simp only at h
    split at h
    · split at h
      · rename_i tree content _ _ _ _
        obtain ⟨o, ho⟩ := he.query tree (toPoint pos) content false
        rw [ho] at h
        simp only at h
        split at h
        · cases h
        · split at h
          · cases h
          · obtain ⟨l, hl⟩ := hall ((o.isIdent (toPoint pos)).getD [])
            rw [hl] at h
            cases h
      · split at h <;> cases h
    · cases h

/-- **C134, goto-definition** (part: when it fails) Goto-definition returns, unless the name of the file is no URL, or a hint was saved whose
name, or the name it was saved under, is none. -/
theorem C134_goto_partial (env : Env) (he : Sound env) (hk : KeepsUrls env) (hr : env.profile = .release) (w : World) (calls : List Call) (n : NodeFiles)
    (hn : Call.run env w NodeFiles.new calls = .ok n) (id : Nat) (fn : Str) (line : Nat) (pos : Position) :
    (∃ r, n.gotoDefinition env w id fn line pos = .ok r) ∨ env.urlParse fn = none ∨
      ∃ h a, Saves calls h a ∧ env.urlParse (h ++ '-' :: a.name) = none := by
  unfold NodeFiles.gotoDefinition
  obtain ⟨l, hl⟩ := usub32_release pos.line line
  obtain ⟨u, hu, _⟩ := docUri_sound he fn id c!"jinja"
  rw [hr, hl]
  simp only [hu]
  cases hg : n.files.gotoDefinition env w u ⟨l, pos.character⟩ with
  | error e =>
    refine Or.inr (Or.inr ?_)
    obtain ⟨file, vs, v, h1, h2, h3⟩ := goto_err he hg
    have ho : Origins calls n.files := origins_run he hk calls (by intro u vs h; simp [NodeFiles.new, LspFiles.default, HMap.get?_empty] at h) (fun _ h => h) hn
    rcases ho file vs h1 with hf | ⟨as, hint, hm, rfl, rfl⟩
    · have : env.urlParse (targetOf file v) ≠ none := by
        unfold targetOf
        split
        · exact hf.parse he _
        · have := hf.parse he []
          rwa [List.append_nil] at this
      exact absurd h3 this
    · obtain ⟨a, ha, rfl⟩ := List.mem_map.mp h2
      exact ⟨_, a, ⟨as, hint, hm, rfl, ha⟩, h3⟩
  | ok r =>
    cases r with
    | none => exact Or.inl ⟨_, rfl⟩
    | some r =>
      cases r with
      | scalar loc =>
        simp only
        split
        · cases hp : env.urlParse fn with
          | none => exact Or.inr (Or.inl rfl)
          | some v =>
            obtain ⟨q, hq⟩ := shiftRange_release loc.range line
            simp only [hq]
            exact Or.inl ⟨_, rfl⟩
        · exact Or.inl ⟨_, rfl⟩
      | array ls =>
        obtain ⟨r, h⟩ := shiftLocations_release hr line ls fun x hx => by
          obtain ⟨s, hs⟩ := goto_array hg x hx
          exact hk.again s x.uri hs
        simp only [h]
        exact Or.inl ⟨_, rfl⟩

/-- **C134, goto-definition in files named by URLs** (part: no hints) It returns then. -/
theorem C134_safe_partial (env : Env) (he : Sound env) (hk : KeepsUrls env) (hr : env.profile = .release) (w : World) (calls : List Call) (n : NodeFiles)
    (hn : Call.run env w NodeFiles.new calls = .ok n) (id : Nat) (fn : Str) (line : Nat) (pos : Position)
    (hfn : env.urlParse fn ≠ none) (hh : ∀ as hint, .saveLinkHint (some as) hint ∉ calls) : ∃ r, n.gotoDefinition env w id fn line pos = .ok r := by
  rcases C134_goto_partial env he hk hr w calls n hn id fn line pos with h | h | ⟨x, a, ⟨as, hint, h, _⟩, _⟩
  · exact h
  · exact absurd h hfn
  · exact absurd h (hh as hint)

namespace Fix

theorem onlyFiles_keeps {env : Env} (h : env.urlParse = onlyFiles) : KeepsUrls env where
  files := by
    intro s u hs hu
    rw [h] at hu
    unfold onlyFiles at hu
    split at hu
    · cases hu; exact hs
    · cases hu
  again := by
    intro s u hu
    rw [h] at *
    rw [onlyFiles_norm s u hu]
    simp

theorem onlyFiles_urls (p : Str) : onlyFiles (c!"file:///" ++ p) ≠ none := by
  have h : (c!"file:").isPrefixOf (c!"file:///" ++ p) = true := List.isPrefixOf_iff_prefix.mpr ⟨c!"///" ++ p, rfl⟩
  unfold onlyFiles
  rw [if_pos h]
  simp

/-- the macro template, in a release build -/
def shippedMacro : Env := { macroEnv onlyFiles with profile := .release }

/-- the templates that set and use `user`, in a release build -/
def shippedHost : Env := { hostEnv with profile := .release }

theorem shippedMacro_sound : Sound shippedMacro where
  parses := fun _ _ _ => rfl
  readable := by
    intro g t o c hc hn
    have : c ∈ tpl.caps := by
      rw [show (shippedMacro.queryMatches .jinjaDefinitions (.parsed g t o) t).flatten = tpl.caps from flatten_singletons _] at hc
      exact hc
    revert hn
    exact (show ∀ c ∈ tpl.caps, c.name = .definition → c.text ≠ none by decide) c this
  urls := onlyFiles_urls
  debug := fun h => by cases h

theorem shippedHost_sound : Sound shippedHost where
  parses := fun _ _ _ => rfl
  readable := by
    intro g t o c hc hn
    have : c ∈ setUser.caps := by
      simp only [shippedHost, hostEnv, envWith] at hc
      split at hc
      · rw [flatten_singletons] at hc
        exact hc
      · simp at hc
    revert hn
    exact (show ∀ c ∈ setUser.caps, c.name = .definition → c.text ≠ none by decide) c this
  urls := onlyFiles_urls
  debug := fun h => by cases h

end Fix

/-- **C134 is false for goto-definition in files whose names are no URLs** -/
theorem C134_file_refuted : ∃ (env : Env) (w : World) (calls : List Call) (n : NodeFiles) (fn : Str) (pos : Position), Sound env ∧ KeepsUrls env ∧
    env.profile = .release ∧ (∀ as hint, .saveLinkHint (some as) hint ∉ calls) ∧ Call.run env w NodeFiles.new calls = .ok n ∧
    n.gotoDefinition env w 7 fn 20 pos = .error .unwrap := by
  refine ⟨Fix.shippedMacro, Fix.world, Fix.macroCalls c!"x.py", _, c!"x.py", ⟨23, 7⟩, Fix.shippedMacro_sound, Fix.onlyFiles_keeps rfl, rfl, ?_, rfl, rfl⟩
  intro as hint h
  cases List.mem_singleton.mp h

/-- **C134 is false for goto-definition with hints under the default name** -/
theorem C134_hint_refuted : ∃ (env : Env) (w : World) (calls : List Call) (n : NodeFiles) (fn : Str) (pos : Position), Sound env ∧ KeepsUrls env ∧
    env.profile = .release ∧ env.urlParse fn ≠ none ∧ Call.run env w NodeFiles.new calls = .ok n ∧ n.gotoDefinition env w 7 fn 10 pos = .error .unwrap :=
  ⟨Fix.shippedHost, Fix.world, .saveLinkHint (some [⟨c!"user.name", c!"the name"⟩]) none :: Fix.hostCalls c!"file:///f", _, c!"file:///f", ⟨10, 5⟩,
    Fix.shippedHost_sound, Fix.onlyFiles_keeps rfl, rfl, by decide, rfl, rfl⟩

/-- templates added, hovered over and completed, beyond the lines there are, too -/
example : ∃ n r, Call.run Fix.shippedHost Fix.world NodeFiles.new (Fix.hostCalls c!"f") = .ok n ∧
    n.hover Fix.shippedHost Fix.world 7 c!"f" 10 ⟨3, 5⟩ = .ok r := by
  obtain ⟨n, hn⟩ := C134_calls Fix.shippedHost Fix.shippedHost_sound rfl Fix.world (Fix.hostCalls c!"f") NodeFiles.new
  obtain ⟨r, hr⟩ := (C134_requests Fix.shippedHost Fix.shippedHost_sound rfl Fix.world n 7 c!"f" c!"f" 10 ⟨3, 5⟩).2.2.1
  exact ⟨n, r, hn, hr⟩

/-- goto-definition on `i` of the macro template -/
example : ∃ n r, Call.run Fix.shippedMacro Fix.world NodeFiles.new (Fix.macroCalls c!"file:///x.py") = .ok n ∧
    n.gotoDefinition Fix.shippedMacro Fix.world 7 c!"file:///x.py" 20 ⟨23, 7⟩ = .ok r := by
  obtain ⟨n, hn⟩ := C134_calls Fix.shippedMacro Fix.shippedMacro_sound rfl Fix.world (Fix.macroCalls c!"file:///x.py") NodeFiles.new
  obtain ⟨r, hr⟩ := C134_safe_partial Fix.shippedMacro Fix.shippedMacro_sound (Fix.onlyFiles_keeps rfl) rfl Fix.world _ n hn 7 c!"file:///x.py" 20 ⟨23, 7⟩
    (by decide) (by intro as hint h; cases List.mem_singleton.mp h)
  exact ⟨n, r, hn, hr⟩

/-- with hints under a name that is a URL, goto-definition returns -/
example : ∃ n r, Call.run Fix.shippedHost Fix.world NodeFiles.new
      (.saveLinkHint (some [⟨c!"user.name", c!"the name"⟩]) (some c!"file:///temp") :: Fix.hostCalls c!"file:///f") = .ok n ∧
    n.gotoDefinition Fix.shippedHost Fix.world 7 c!"file:///f" 10 ⟨10, 5⟩ = .ok r := by
  obtain ⟨n, hn⟩ := C134_calls Fix.shippedHost Fix.shippedHost_sound rfl Fix.world
    (.saveLinkHint (some [⟨c!"user.name", c!"the name"⟩]) (some c!"file:///temp") :: Fix.hostCalls c!"file:///f") NodeFiles.new
  rcases C134_goto_partial Fix.shippedHost Fix.shippedHost_sound (Fix.onlyFiles_keeps rfl) rfl Fix.world _ n hn 7 c!"file:///f" 10 ⟨10, 5⟩ with
    ⟨r, hr⟩ | h | ⟨h, a, ⟨as, hint, hm, rfl, ha⟩, hbad⟩
  · exact ⟨n, r, hn, hr⟩
  · exact absurd h (by decide)
  · rcases List.mem_cons.mp hm with e | e
    · cases e
      cases List.mem_singleton.mp ha
      exact absurd hbad (by decide)
    · simp [Fix.hostCalls] at e

end JinjaLsp
