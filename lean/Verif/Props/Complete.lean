import Verif.Lemmas.Vars
import Verif.Lemmas.At
import Verif.Lemmas.Path
import Verif.Props.Definitions
import Verif.Props.Sync
import Verif.Props.Goto
/-
  C38–C42: what completion offers and what accepting it does.
-/

namespace JinjaLsp
open Spec

/-! ## The examples: `{% set username = 1 %}{{ us }}`, and the same with `us if data.ok` -/

namespace Fix

def enterText : Str := c!"{% set username = 1 %}{{ us }}"
def enterText2 : Str := c!"{% set username = 1 %}{{ us if data.ok }}"
def enterText3 : Str := c!"{% set username = 1 %}{{ us.ok }}"

/-- the captures before the cursor -/
def enterElems (stop : Nat) : List Elem :=
  [.use ⟨.variable, tok 0 7 15 c!"username" 1, []⟩, .op (tok 0 16 17 c!"=" 2),
   .expr 9 ⟨0, 22⟩ ⟨0, stop⟩ (⟨0, 22⟩, ⟨0, 24⟩) (⟨0, stop - 2⟩, ⟨0, stop⟩)]
def enterUse : Use := ⟨.variable, tok 0 25 27 c!"us" 3, []⟩
/-- the captures after the cursor -/
def enterRest : List Capture :=
  [(tok 0 31 35 c!"data" 4).cap .justId, (tok 0 35 36 c!"." 5).cap .pipe, (tok 0 35 36 c!"." 5).cap .dot, (tok 0 36 38 c!"ok" 6).cap .justId]
def enterAttr : List Capture :=
  [(tok 0 27 28 c!"." 4).cap .pipe, (tok 0 27 28 c!"." 4).cap .dot, (tok 0 28 30 c!"ok" 5).cap .justId]

def enterEnv (stop : Nat) (rest : List Capture) : Env :=
  envWith .jinjaObjects ((enterElems stop).flatMap Elem.caps ++ (([] ++ [enterUse.root.cap .justId]) ++ rest))

def enterVar : Identifier :=
  { Identifier.new c!"username" ⟨0, 7⟩ ⟨0, 15⟩ with idType := .setVariable, scopeEnd := ⟨9, 9⟩ }
def uriM : Str := c!"file:///m.rs"
def enterBackend : List Identifier :=
  [{ Identifier.new c!"request" ⟨1, 1⟩ ⟨1, 8⟩ with idType := .backendVariable },
   { Identifier.new c!"username" ⟨2, 1⟩ ⟨2, 8⟩ with idType := .backendVariable }]

def enterServer (text : Str) (vscode : Bool) : Server :=
  { Server.init with files := { LspFiles.default with
      documents := HMap.empty.insert uriA text
      trees := fun l => match l with
        | .template => HMap.empty.insert uriA (.parsed .jinja text none)
        | .backend => HMap.empty
      variables := (HMap.empty.insert uriM enterBackend).insert uriA [enterVar]
      isVscode := vscode } }

end Fix

/-! ## C38, C39 -/

/-- a variable that can be used at `p`: not a block or a template name, defined before `p`, with a scope that includes `p` -/
def Spec.Visible (p : Point) (v : Identifier) : Prop :=
  v.idType ≠ .templateBlock ∧ v.idType ≠ .jinjaTemplate ∧ v.stop ≤ p ∧ p ≤ v.scopeEnd

/-- a file of the workspace has a backend variable of that name -/
def Spec.BackendName (f : LspFiles) (n : Str) : Prop :=
  ∃ file vs v, f.variables.get? file = some vs ∧ v ∈ vs ∧ v.idType = .backendVariable ∧ v.name = n

/-- the completion is one of names; `typed` is what was typed of it -/
def Spec.OfNames (typed : Str) (ct : CompletionType) : Prop :=
  (ct = .identifier ∧ typed = []) ∨ ∃ r, ct = .incompleteIdentifier typed r

theorem visibleAt_iff {p : Point} {v : Identifier} : LspFiles.visibleAt p v = true ↔ Visible p v := by
  simp [LspFiles.visibleAt, Visible, and_assoc]

/-- the answer to a completion of names -/
theorem names_reply {env : Env} {w : World} {s : Server} {uri : Str} {pos : Position} {tr : TriggerKind} {ct : CompletionType}
    {b : Bool} {typed : Str} {vs : List Identifier} (hk : s.files.completion env uri pos tr = .ok (some (ct, b)))
    (hct : OfNames typed ct) (hv : s.files.variables.get? uri = some vs) :
    ∃ r rest, (ct = .identifier ∧ r = Range.zero ∨ ct = .incompleteIdentifier typed r) ∧
      s.handle env w (.completion uri pos tr) = .ok (s, [], .completion (some
        (LspFiles.variableItems s.files.isVscode typed r [] (vs.filter (LspFiles.visibleAt (toPoint pos))) ++ rest))) ∧
      (∀ i, i ∈ rest ↔ ∃ file vs' v, s.files.variables.get? file = some vs' ∧ v ∈ vs' ∧ v.idType = .backendVariable ∧
        LspFiles.backendItem v = i) := by
  have hrest : ∀ i, i ∈ ((w.order.shuffle 5 s.files.variables.entries).flatMap fun file =>
      (file.2.filter fun v => v.idType = .backendVariable).map LspFiles.backendItem) ↔
      ∃ file vs' v, s.files.variables.get? file = some vs' ∧ v ∈ vs' ∧ v.idType = .backendVariable ∧
        LspFiles.backendItem v = i := by
    intro i
    simp only [List.mem_flatMap, List.mem_map, List.mem_filter, decide_eq_true_eq]
    constructor
    · rintro ⟨e, he, v, ⟨hv1, hv2⟩, h⟩
      exact ⟨e.1, e.2, v, mem_entries.mp he, hv1, hv2, h⟩
    · rintro ⟨file, vs', v, h1, h2, h3, h⟩
      exact ⟨(file, vs'), mem_entries.mpr h1, v, ⟨h2, h3⟩, h⟩
  have hfil : ∀ l : List (Str × List Identifier), (l.filter fun _ => true) = l := fun l => by simp
  rcases hct with ⟨rfl, rfl⟩ | ⟨r, rfl⟩
  · refine ⟨Range.zero, _, Or.inl ⟨rfl, rfl⟩, ?_, hrest⟩
    simp only [Server.handle, Server.onCompletion, hk, completionItems, LspFiles.readVariables, hv, Option.getD_none, hfil]
  · refine ⟨r, _, Or.inr rfl, ?_, hrest⟩
    simp only [Server.handle, Server.onCompletion, hk, completionItems, LspFiles.readVariables, hv, Option.getD_some, hfil]

/-- **C38** A completion of names answers with one item per name of a variable of the file that can be used at the cursor and
starts with what was typed, each name once, followed by items of the backend variables, all of them and nothing else. -/
theorem C38_offered (env : Env) (w : World) (s : Server) (uri : Str) (pos : Position) (tr : TriggerKind) (ct : CompletionType)
    (b : Bool) (typed : Str) (vs : List Identifier) (hk : s.files.completion env uri pos tr = .ok (some (ct, b)))
    (hct : OfNames typed ct) (hv : s.files.variables.get? uri = some vs) :
    ∃ own rest, s.handle env w (.completion uri pos tr) = .ok (s, [], .completion (some (own ++ rest))) ∧
      (own.map (·.label)).Nodup ∧
      (∀ n, n ∈ own.map (·.label) ↔ (∃ v ∈ vs, Visible (toPoint pos) v ∧ v.name = n) ∧ typed <+: n) ∧
      ∀ n, n ∈ rest.map (·.label) ↔ BackendName s.files n := by
  obtain ⟨r, rest, _, h, hrest⟩ := names_reply (w := w) hk hct hv
  refine ⟨_, rest, h, LspFiles.variableItems_nodup _ _, ?_, ?_⟩
  · intro n
    rw [List.mem_map]
    constructor
    · rintro ⟨i, hi, rfl⟩
      obtain ⟨v, hv, _, hvi⟩ := LspFiles.variableItems_from _ _ _ hi
      obtain ⟨h1, h2⟩ := LspFiles.variableItem_label hvi
      rw [List.mem_filter, visibleAt_iff] at hv
      rw [h1]
      exact ⟨⟨v, hv.1, hv.2, rfl⟩, h2⟩
    · rintro ⟨⟨v, hv, hvis, rfl⟩, hp⟩
      exact LspFiles.variableItems_mem _ [] v (List.mem_filter.mpr ⟨hv, visibleAt_iff.mpr hvis⟩) (by simp) hp
  · intro n
    rw [List.mem_map]
    constructor
    · rintro ⟨i, hi, rfl⟩
      obtain ⟨file, vs', v, h1, h2, h3, rfl⟩ := (hrest i).mp hi
      exact ⟨file, vs', v, h1, h2, h3, rfl⟩
    · rintro ⟨file, vs', v, h1, h2, h3, rfl⟩
      exact ⟨_, (hrest _).mpr ⟨file, vs', v, h1, h2, h3, rfl⟩, rfl⟩

/-- **C38** A variable of the file that cannot be used at the cursor is not offered, unless its name is also the name of a
usable one or of a backend variable of another file (that the recorded variables of templates are never backend variables is
`C38_kinds_partial`). -/
theorem C38_no_other (env : Env) (w : World) (s : Server) (uri : Str) (pos : Position) (tr : TriggerKind) (ct : CompletionType)
    (b : Bool) (typed : Str) (vs : List Identifier) (hk : s.files.completion env uri pos tr = .ok (some (ct, b)))
    (hct : OfNames typed ct) (hv : s.files.variables.get? uri = some vs) (hkind : ∀ v ∈ vs, v.idType ≠ .backendVariable) :
    ∃ items, s.handle env w (.completion uri pos tr) = .ok (s, [], .completion (some items)) ∧
      ∀ i ∈ items, (∃ v ∈ vs, Visible (toPoint pos) v ∧ v.name = i.label) ∨
        ∃ file vs' v, file ≠ uri ∧ s.files.variables.get? file = some vs' ∧ v ∈ vs' ∧ v.idType = .backendVariable ∧ v.name = i.label := by
  obtain ⟨own, rest, h, _, h2, h3⟩ := C38_offered env w s uri pos tr ct b typed vs hk hct hv
  refine ⟨_, h, ?_⟩
  intro i hi
  rcases List.mem_append.mp hi with hi | hi
  · exact Or.inl ((h2 i.label).mp (List.mem_map.mpr ⟨i, hi, rfl⟩)).1
  · obtain ⟨file, vs', v, h1, h2, h3, h4⟩ := (h3 i.label).mp (List.mem_map_of_mem hi)
    refine Or.inr ⟨file, vs', v, ?_, h1, h2, h3, h4⟩
    rintro rfl
    rw [hv] at h1
    cases h1
    exact hkind v h2 h3

/-! ### Which kinds a template records -/

theorem definition_kinds {env : Env} {tree : Tree} {p : Point} {text : Str} {all : Bool} {s : JinjaDefinitions}
    (h : definitionQuery env tree p text all = .ok s) : ∀ i ∈ s.identifiers, i.idType ≠ .backendVariable := by
  unfold definitionQuery at h
  split at h
  · cases h
  · rename_i s1 hr
    cases h
    intro i hi hv
    simp only [JinjaDefinitions.identifiers, JinjaDefinitions.fixEnd, List.mem_flatMap, List.mem_map] at hi
    obtain ⟨_, ⟨d, hd, rfl⟩, hi⟩ := hi
    generalize JinjaDefinitions.fixEndDef _ _ d = d' at hi
    cases d' with
    | forLoop k v =>
      cases v with
      | none => simp [Definition.collect] at hi; subst hi; cases hv
      | some v => simp [Definition.collect] at hi; rcases hi with rfl | rfl <;> cases hv
    | set k e => simp [Definition.collect] at hi; subst hi; cases hv
    | with_ ks =>
      simp only [Definition.collect, List.mem_map] at hi
      obtain ⟨_, _, rfl⟩ := hi; cases hv
    | macro_ ks m =>
      cases ks with
      | nil => simp [Definition.collect, macroKeys] at hi
      | cons k ks =>
        simp only [Definition.collect, macroKeys, List.mem_cons, List.mem_map] at hi
        rcases hi with rfl | ⟨_, _, rfl⟩ <;> cases hv
    | block k => simp [Definition.collect] at hi; subst hi; cases hv

/-- no template has recorded a backend variable -/
def Spec.Kinds (f : LspFiles) : Prop :=
  ∀ uri vs, fileExt uri = some .template → f.variables.get? uri = some vs → ∀ v ∈ vs, v.idType ≠ .backendVariable

theorem kinds_congr {f g : LspFiles} (hf : Kinds f) (h : g.variables = f.variables) : Kinds g := by
  intro uri vs hl hv; rw [h] at hv; exact hf uri vs hl hv

theorem kinds_insert {f g : LspFiles} {n : Str} {vs : List Identifier} (hf : Kinds f) (h : g.variables = f.variables.insert n vs)
    (hvs : fileExt n = some .template → ∀ v ∈ vs, v.idType ≠ .backendVariable) : Kinds g := by
  intro uri vs' hl hv
  rw [h] at hv
  by_cases he : uri = n
  · subst he
    rw [HMap.get?_insert_self] at hv
    cases hv
    exact hvs hl
  · rw [HMap.get?_insert_ne _ _ he] at hv
    exact hf uri vs' hl hv

theorem kinds_addVariables {env : Env} {f g : LspFiles} {n c : Str} {l : LangType} (hf : Kinds f)
    (hl : ∀ l', fileExt n = some l' → l' = l) (h : f.addVariables env n l c = .ok g) : Kinds g := by
  unfold LspFiles.addVariables at h
  split at h
  · cases h; exact hf
  · split at h
    · cases h
      exact kinds_insert hf rfl (fun ht => absurd (hl _ ht) (by simp))
    · split at h
      · cases h; exact hf
      · split at h
        · cases h
        · rename_i defs hd
          cases h
          exact kinds_insert hf rfl (fun _ => definition_kinds hd)

theorem kinds_deleteVariables {f : LspFiles} (n : Str) (hf : Kinds f) : Kinds (f.deleteVariables n) := by
  unfold LspFiles.deleteVariables
  split
  · exact hf
  · exact kinds_insert hf rfl (fun _ v hv => by cases hv)

theorem variables_addTree (env : Env) (f : LspFiles) (n : Str) (l : LangType) (c : Str) :
    (f.addTree env n l c).variables = f.variables := by
  unfold LspFiles.addTree
  split <;> rfl

theorem kinds_didOpen {env : Env} {w : World} {f g : LspFiles} {n c : Str} {ig : Bool} {m : Option (HMap Str Diags)}
    (hf : Kinds f) (h : f.didOpen env w n c ig = .ok (g, m)) : Kinds g := by
  cases he : fileExt n with
  | none => unfold LspFiles.didOpen at h; rw [he] at h; cases h; exact hf
  | some l =>
    have key : (f.openBase env n l c).addVariables env n l c = .ok g := by
      cases ig with
      | true => exact (LspFiles.didOpen_inv_ignore he h).1
      | false => exact (LspFiles.didOpen_inv he h).1
    refine kinds_addVariables ?_ (fun l' hl' => by rw [he] at hl'; cases hl'; rfl) key
    exact kinds_congr (kinds_deleteVariables n hf) (variables_addTree ..)

theorem kinds_didSave {env : Env} {w : World} {f g : LspFiles} {n : Str} {m : Option (HMap Str Diags)}
    (hf : Kinds f) (h : f.didSave env w n = .ok (g, m)) : Kinds g := by
  cases he : fileExt n with
  | none => unfold LspFiles.didSave at h; rw [he] at h; cases h; exact hf
  | some l =>
    cases hd : f.documents.get? n with
    | none => unfold LspFiles.didSave at h; rw [he] at h; simp only [hd] at h; cases h; exact hf
    | some c =>
      exact kinds_addVariables (kinds_deleteVariables n hf) (fun l' hl' => by rw [he] at hl'; cases hl'; rfl)
        (LspFiles.didSave_inv he hd h).1

theorem variables_inputEdits (env : Env) (n : Str) (l : Option LangType) : ∀ (es : List (Str × InputEdit)) (f : LspFiles),
    (es.foldl (fun f (ch : Str × InputEdit) => f.inputEdit env n ch.1 ch.2 l) f).variables = f.variables
  | [], f => rfl
  | e :: es, f => by
    rw [List.foldl_cons, variables_inputEdits env n l es]
    unfold LspFiles.inputEdit
    split
    · rfl
    · split
      · rfl
      · split <;> rfl

theorem variables_didChange {env : Env} {f g : LspFiles} {n : Str} {cs : List TextChange} {k : Nat} {b : Bool}
    (h : f.didChange env n cs k = .ok (g, b)) : g.variables = f.variables := by
  unfold LspFiles.didChange at h
  split at h
  · cases h; rfl
  · simp only at h
    split at h
    · cases h
    · split at h
      · cases h; rfl
      · cases h; exact variables_inputEdits ..

theorem kinds_readFile {env : Env} {w : World} (hw : KeepsClass w) {f g : LspFiles} {path : Str} {l : LangType} (hf : Kinds f)
    (hl : fileExt path = some l) (h : f.readFile env w path l = .ok g) : Kinds g := by
  unfold LspFiles.readFile at h
  split at h
  · cases h; exact hf
  · rename_i name hc
    split at h
    · cases h; exact hf
    · refine kinds_addVariables ?_ ?_ h
      · exact kinds_congr hf ((variables_addTree ..).trans rfl)
      intro l' hl'
      rw [hw path name l hc hl] at hl'
      cases hl'; rfl

/-- **C38** (part: recorded kinds) At every point of every history from server start no template has recorded a backend variable.
Missing: links to files of another class (`KeepsClass`). -/
theorem C38_kinds_partial (env : Env) : ∀ (ms : List (World × Msg)) (s s' : Server), Kinds s.files → (∀ m ∈ ms, KeepsClass m.1) →
    s.run env ms = .ok s' → Kinds s'.files
  | [], s, s', hf, _, hr => by simp only [Server.run] at hr; cases hr; exact hf
  | (w, m) :: ms, s, s', hf, hw, hr => by
    simp only [Server.run] at hr
    split at hr
    · cases hr
    · rename_i s1 out r h1
      refine C38_kinds_partial env ms s1 s' ?_ (fun m hm => hw m (by simp [hm])) hr
      cases handle_files h1 with
      | query _ h | command _ h | config _ h | notInitialized h => rw [h]; exact hf
      | «initialize» _ _ h => rcases h with h | h <;> (rw [h]; exact hf)
      | codeActions m h => rw [h]; exact kinds_congr hf (addCodeActions_frame w.order s.files m).2.2.1
      | didOpen u t m h => exact kinds_didOpen hf h
      | didSave u m h => exact kinds_didSave hf h
      | didChange u cs b h => exact kinds_congr hf (variables_didChange h)
      | initialized f d h e =>
        rw [e]
        have : Kinds f := by
          refine walkdir_induct Kinds ?_ (fun f path l g hf hl hg => kinds_readFile (hw (w, .initialized) (by simp)) hf hl hg) h
          intro u vs _ hv
          unfold walkStart at hv
          simp only at hv
          split at hv <;> simp [LspFiles.default] at hv
        exact this

/-- the server starts that way -/
theorem C38_start : Kinds Server.init.files := by
  intro u vs _ hv
  simp [Server.init, LspFiles.default] at hv

/-- **C39** (part) Every backend variable of the workspace is offered, and every item that is not the name of a variable of the file
is one.  Missing: no duplicates (`C39_duplicates_refuted`), typed prefix (`C39_prefix_refuted`). -/
theorem C39_all_partial (env : Env) (w : World) (s : Server) (uri : Str) (pos : Position) (tr : TriggerKind) (ct : CompletionType)
    (b : Bool) (typed : Str) (vs : List Identifier) (hk : s.files.completion env uri pos tr = .ok (some (ct, b)))
    (hct : OfNames typed ct) (hv : s.files.variables.get? uri = some vs) :
    ∃ items, s.handle env w (.completion uri pos tr) = .ok (s, [], .completion (some items)) ∧
      (∀ n, BackendName s.files n → n ∈ items.map (·.label)) ∧
      ∀ i ∈ items, (∃ v ∈ vs, v.name = i.label) ∨ BackendName s.files i.label := by
  obtain ⟨r, rest, _, h, hrest⟩ := names_reply (w := w) hk hct hv
  refine ⟨_, h, ?_, ?_⟩
  · rintro n ⟨file, vs', v, h1, h2, h3, rfl⟩
    rw [List.map_append, List.mem_append]
    exact Or.inr (List.mem_map.mpr ⟨_, (hrest _).mpr ⟨file, vs', v, h1, h2, h3, rfl⟩, rfl⟩)
  · intro i hi
    rcases List.mem_append.mp hi with hi | hi
    · obtain ⟨v, hv, _, hvi⟩ := LspFiles.variableItems_from _ _ _ hi
      exact Or.inl ⟨v, (List.mem_filter.mp hv).1, (LspFiles.variableItem_label hvi).1.symm⟩
    · obtain ⟨file, vs', v, h1, h2, h3, rfl⟩ := (hrest i).mp hi
      exact Or.inr ⟨file, vs', v, h1, h2, h3, rfl⟩

/-- **C39 is false: duplicates**.  A name that is both a usable variable of the file and a backend variable of the workspace is
offered twice. -/
theorem C39_duplicates_refuted (env : Env) (w : World) (s : Server) (uri : Str) (pos : Position) (tr : TriggerKind) (ct : CompletionType)
    (b : Bool) (typed : Str) (vs : List Identifier) (hk : s.files.completion env uri pos tr = .ok (some (ct, b)))
    (hct : OfNames typed ct) (hv : s.files.variables.get? uri = some vs) (v : Identifier) (hm : v ∈ vs)
    (hvis : Visible (toPoint pos) v) (hp : typed <+: v.name) (hb : BackendName s.files v.name) :
    ∃ items, s.handle env w (.completion uri pos tr) = .ok (s, [], .completion (some items)) ∧ ¬ (items.map (·.label)).Nodup := by
  obtain ⟨r, rest, _, h, hrest⟩ := names_reply (w := w) hk hct hv
  refine ⟨_, h, ?_⟩
  intro hnd
  rw [List.map_append, List.nodup_append] at hnd
  obtain ⟨i, hi, hl⟩ := LspFiles.variableItems_mem (vs := s.files.isVscode) (st := typed) (r := r)
    (vs.filter (LspFiles.visibleAt (toPoint pos))) [] v (List.mem_filter.mpr ⟨hm, visibleAt_iff.mpr hvis⟩) (by simp) hp
  obtain ⟨file, vs', v', h1, h2, h3, h4⟩ := hb
  exact hnd.2.2 v.name (List.mem_map.mpr ⟨i, hi, hl⟩) v.name
    (List.mem_map.mpr ⟨_, (hrest _).mpr ⟨file, vs', v', h1, h2, h3, rfl⟩, h4⟩) rfl

/-- **C39 is false: typed prefix**.  Backend variables are offered whatever was typed. -/
theorem C39_prefix_refuted (env : Env) (w : World) (s : Server) (uri : Str) (pos : Position) (tr : TriggerKind) (ct : CompletionType)
    (b : Bool) (typed : Str) (vs : List Identifier) (hk : s.files.completion env uri pos tr = .ok (some (ct, b)))
    (hct : OfNames typed ct) (hv : s.files.variables.get? uri = some vs) (n : Str) (hb : BackendName s.files n)
    (hp : ¬ typed <+: n) :
    ∃ items, s.handle env w (.completion uri pos tr) = .ok (s, [], .completion (some items)) ∧
      ∃ i ∈ items, ¬ typed <+: i.label := by
  obtain ⟨items, h, h1, _⟩ := C39_all_partial env w s uri pos tr ct b typed vs hk hct hv
  obtain ⟨i, hi, hl⟩ := List.mem_map.mp (h1 n hb)
  exact ⟨items, h, i, hi, by rw [hl]; exact hp⟩

/-! ## C40 -/

/-- Somebody typed `typed` of the name `typed ++ untyped` in an expression of the text `pre ++ typed ++ untyped ++ post` and asks
for completion there. -/
structure Spec.Entering (env : Env) (tree : Tree) (text pre typed untyped post : Str) (pos : Position) (es : List Elem) (u : Use)
    (rest : List Capture) : Prop where
  text_eq : text = pre ++ (typed ++ untyped) ++ post
  typed_ne : typed ≠ []
  plain : ∀ c ∈ pre ++ (typed ++ untyped), PlainChar c
  line : ∀ c ∈ typed ++ untyped, c ≠ '\n' ∧ c ≠ '\r'
  breaks : NoLoneCR pre
  short : utf8Len text < 4294967296
  cursor : toPoint pos = advance ⟨0, 0⟩ (pre ++ typed)
  root : u.root.text = typed ++ untyped
  start : u.root.start = advance ⟨0, 0⟩ pre
  stop : u.root.stop = advance ⟨0, 0⟩ (pre ++ (typed ++ untyped))
  use : OnUse (env.queryMatches .jinjaObjects tree text).flatten es u rest (toPoint pos)
  inside : (lastExpr ((Point.zero, Point.zero), ExprRange.default) es).1.1 ≤ toPoint pos ∧
    toPoint pos < (lastExpr ((Point.zero, Point.zero), ExprRange.default) es).1.2
  begun : (lastExpr ((Point.zero, Point.zero), ExprRange.default) es).2.beginR.2 ≤ u.root.start
  intact : ¬ Spec.Broken (env.queryMatches .jinjaSnippets tree text).flatten (toPoint pos)

/-- two edits of the same text, the first one before the second one -/
def Spec.applyInOrder (t : Str) (a b : TextEdit) : Option Str :=
  match offset t a.range.start, offset t a.range.stop, offset t b.range.start, offset t b.range.stop with
  | some a0, some a1, some b0, some b1 =>
    if a0 ≤ a1 ∧ a1 ≤ b0 ∧ b0 ≤ b1 then
      some (t.take a0 ++ a.newText ++ (t.drop a1).take (b0 - a1) ++ b.newText ++ t.drop b1)
    else none
  | _, _, _, _ => none

/-- two edits of the same text, which must not overlap -/
def Spec.applyTwo (t : Str) (a b : TextEdit) : Option Str :=
  match applyInOrder t a b with
  | some t' => some t'
  | none => applyInOrder t b a

/-- the text after accepting an item that says how to edit it.  For an item with two ranges the editor decides whether the text behind
the cursor is replaced too (`replacing`) or kept. -/
def Spec.accepted (replacing : Bool) (t : Str) (i : CompletionItem) : Option Str :=
  match i.textEdit, i.additional with
  | some (.insertReplace n a r), none => applyEdit t (if replacing then r else a) n
  | some (.edit e), none => applyEdit t e.range e.newText
  | some (.edit e), some [a] => applyTwo t e a
  | _, _ => none

theorem noLoneCR_append : ∀ {a b : Str}, NoLoneCR a → NoLoneCR b → NoLoneCR (a ++ b)
  | [], _, _, hb => hb
  | c :: a, b, ha, hb => by
    refine ⟨fun h => ?_, noLoneCR_append ha.2 hb⟩
    have := ha.1 h
    cases a with
    | nil => simp at this
    | cons x a => exact this

theorem noLoneCR_line : ∀ {a : Str}, (∀ c ∈ a, c ≠ '\n' ∧ c ≠ '\r') → NoLoneCR a
  | [], _ => trivial
  | c :: a, h => ⟨fun e => absurd e (h c (by simp)).2, noLoneCR_line (fun x hx => h x (by simp [hx]))⟩

/-- the protocol offset of a point of a short plain text -/
theorem offset_at (pre post : Str) (hp : ∀ c ∈ pre, PlainChar c) (hcr : NoLoneCR pre) (hs : utf8Len (pre ++ post) < 4294967296) :
    offset (pre ++ post) ⟨toU32 (advance ⟨0, 0⟩ pre).row, toU32 (advance ⟨0, 0⟩ pre).column⟩ = some pre.length := by
  have hb := advance_bound pre ⟨0, 0⟩
  simp only [Rope.utf8Len_append] at hs
  simp only [Nat.zero_add] at hb
  have h1 : (advance ⟨0, 0⟩ pre).row < 4294967296 := by omega
  have h2 : (advance ⟨0, 0⟩ pre).column < 4294967296 := by omega
  rw [toU32, toU32, Nat.mod_eq_of_lt h1, Nat.mod_eq_of_lt h2]
  exact Rope.offset_plain (plain_at pre post hp hcr)

namespace Spec.Entering
variable {env : Env} {tree : Tree} {text pre typed untyped post : Str} {pos : Position} {es : List Elem} {u : Use} {rest : List Capture}

theorem offset_start (h : Entering env tree text pre typed untyped post pos es u rest) :
    offset text (toRange (u.root.start, u.root.stop)).start = some pre.length := by
  have := offset_at pre ((typed ++ untyped) ++ post) (fun c hc => h.plain c (by simp [hc])) h.breaks
    (by rw [← List.append_assoc, ← h.text_eq]; exact h.short)
  rw [h.text_eq, List.append_assoc]
  simp only [toRange, h.start]
  exact this

theorem offset_stop (h : Entering env tree text pre typed untyped post pos es u rest) :
    offset text (toRange (u.root.start, u.root.stop)).stop = some (pre ++ (typed ++ untyped)).length := by
  have := offset_at (pre ++ (typed ++ untyped)) post h.plain (noLoneCR_append h.breaks (noLoneCR_line h.line))
    (by rw [← h.text_eq]; exact h.short)
  rw [h.text_eq]
  simp only [toRange, h.stop]
  exact this

/-- replacing the range of the name -/
theorem applied (h : Entering env tree text pre typed untyped post pos es u rest) (n : Str) :
    applyEdit text (toRange (u.root.start, u.root.stop)) n = some (pre ++ n ++ post) := by
  unfold applyEdit
  rw [h.offset_start, h.offset_stop]
  have hl : pre.length ≤ (pre ++ (typed ++ untyped)).length := by simp
  simp only [hl, if_true]
  rw [h.text_eq, List.drop_left, List.append_assoc pre, List.take_left]

/-- replacing it by a pair of edits at its start and of the name -/
theorem applied_two (h : Entering env tree text pre typed untyped post pos es u rest) (n : Str) :
    applyTwo text ⟨⟨(toRange (u.root.start, u.root.stop)).start, (toRange (u.root.start, u.root.stop)).start⟩, []⟩
      ⟨toRange (u.root.start, u.root.stop), n⟩ = some (pre ++ n ++ post) := by
  unfold applyTwo applyInOrder
  simp only
  rw [h.offset_start, h.offset_stop]
  have hl : pre.length ≤ (pre ++ (typed ++ untyped)).length := by simp
  simp only [Nat.le_refl, hl, and_self, if_true, Nat.sub_self, List.take_zero, List.append_nil]
  rw [h.text_eq, List.drop_left, List.append_assoc pre, List.take_left]

/-- `{% set username = 1 %}{{ us }}` with the cursor after `us` -/
theorem _root_.JinjaLsp.Fix.entering : Entering (Fix.enterEnv 30 []) (.parsed .jinja Fix.enterText none) Fix.enterText
    c!"{% set username = 1 %}{{ " c!"us" [] c!" }}" ⟨0, 27⟩ (Fix.enterElems 30) Fix.enterUse [] where
  text_eq := by decide
  typed_ne := by decide
  plain := by unfold PlainChar; decide
  line := by decide
  breaks := noLoneCR_line (by decide)
  short := by decide
  cursor := by decide
  root := by decide
  start := by decide
  stop := by decide
  use := by
    refine ⟨by decide, ?_, trivial, by decide, ⟨⟨0, 7⟩, by decide, by simp [Fix.enterElems, Fix.enterUse, Fix.tok, Elem.toks, Use.toks, Mark.toks, Ordered, Point.lt_def, Point.le_def]⟩, ?_, by decide, by decide, by decide⟩
    · intro e he
      simp only [Fix.enterElems, List.mem_cons, List.not_mem_nil, or_false] at he
      rcases he with rfl | rfl | rfl
      · exact ⟨trivial, by decide, by intro f hf; cases hf⟩
      · show _ ≠ _; decide
      · trivial
    · intro n a b f l he
      simp only [Fix.enterElems, List.mem_cons, List.not_mem_nil, or_false, reduceCtorEq, false_or, Elem.expr.injEq] at he
      rw [he.2.1]; decide
  inside := by decide
  begun := by decide
  intact := by rintro ⟨pre, e, post, h, _⟩; simp [Fix.enterEnv, Fix.envWith] at h

/-- `{% set username = 1 %}{{ us if data.ok }}` with the cursor after `us` -/
theorem _root_.JinjaLsp.Fix.entering2 : Entering (Fix.enterEnv 41 Fix.enterRest) (.parsed .jinja Fix.enterText2 none) Fix.enterText2
    c!"{% set username = 1 %}{{ " c!"us" [] (c!" if data.ok" ++ c!" }}") ⟨0, 27⟩ (Fix.enterElems 41) Fix.enterUse Fix.enterRest where
  text_eq := by decide
  typed_ne := by decide
  plain := by unfold PlainChar; decide
  line := by decide
  breaks := noLoneCR_line (by decide)
  short := by decide
  cursor := by decide
  root := by decide
  start := by decide
  stop := by decide
  use := by
    refine ⟨by decide, ?_, trivial, by decide, ⟨⟨0, 7⟩, by decide, by simp [Fix.enterElems, Fix.enterUse, Fix.tok, Elem.toks, Use.toks, Mark.toks, Ordered, Point.lt_def, Point.le_def]⟩, ?_, by decide, by decide, by decide⟩
    · intro e he
      simp only [Fix.enterElems, List.mem_cons, List.not_mem_nil, or_false] at he
      rcases he with rfl | rfl | rfl
      · exact ⟨trivial, by decide, by intro f hf; cases hf⟩
      · show _ ≠ _; decide
      · trivial
    · intro n a b f l he
      simp only [Fix.enterElems, List.mem_cons, List.not_mem_nil, or_false, reduceCtorEq, false_or, Elem.expr.injEq] at he
      rw [he.2.1]; decide
  inside := by decide
  begun := by decide
  intact := by rintro ⟨pre, e, post, h, _⟩; simp [Fix.enterEnv, Fix.envWith] at h

/-- `{% set username = 1 %}{{ us.ok }}` with the cursor after `u` -/
theorem _root_.JinjaLsp.Fix.entering3 : Entering (Fix.enterEnv 33 Fix.enterAttr) (.parsed .jinja Fix.enterText3 none) Fix.enterText3
    c!"{% set username = 1 %}{{ " c!"u" c!"s" (c!".ok" ++ c!" }}") ⟨0, 26⟩ (Fix.enterElems 33) Fix.enterUse Fix.enterAttr where
  text_eq := by decide
  typed_ne := by decide
  plain := by unfold PlainChar; decide
  line := by decide
  breaks := noLoneCR_line (by decide)
  short := by decide
  cursor := by decide
  root := by decide
  start := by decide
  stop := by decide
  use := by
    refine ⟨by decide, ?_, trivial, by decide, ⟨⟨0, 7⟩, by decide, by simp [Fix.enterElems, Fix.enterUse, Fix.tok, Elem.toks, Use.toks, Mark.toks, Ordered, Point.lt_def, Point.le_def]⟩, ?_, by decide, by decide, by decide⟩
    · intro e he
      simp only [Fix.enterElems, List.mem_cons, List.not_mem_nil, or_false] at he
      rcases he with rfl | rfl | rfl
      · exact ⟨trivial, by decide, by intro f hf; cases hf⟩
      · show _ ≠ _; decide
      · trivial
    · intro n a b f l he
      simp only [Fix.enterElems, List.mem_cons, List.not_mem_nil, or_false, reduceCtorEq, false_or, Elem.expr.injEq] at he
      rw [he.2.1]; decide
  inside := by decide
  begun := by decide
  intact := by rintro ⟨pre, e, post, h, _⟩; simp [Fix.enterEnv, Fix.envWith] at h

/-- the kind of completion -/
theorem kind (h : Entering env tree text pre typed untyped post pos es u rest) {f : LspFiles} {uri : Str}
    (hext : fileExt uri = some .template) (hd : f.documents.get? uri = some text) (ht : (f.trees .template).get? uri = some tree) :
    ∃ r b, objectsQuery env tree (toPoint pos) text false = .ok r ∧
      f.completion env uri pos .invoked = .ok (some (.incompleteIdentifier typed r.fullRange, b)) := by
  have hpl : ∀ c ∈ typed ++ untyped, PlainChar c := fun c hc => h.plain c (List.mem_append_right _ hc)
  have hline : ∀ c ∈ typed ++ untyped, PlainChar c ∧ c ≠ '\n' := fun c hc => ⟨hpl c hc, (h.line c hc).1⟩
  have h1 : u.root.stop = ⟨u.root.start.row, u.root.start.column + (typed ++ untyped).length⟩ := by
    rw [h.stop, Rope.advance_append, h.start, Rope.advance_line _ _ hline]
  have h2 : toPoint pos = ⟨u.root.start.row, u.root.start.column + typed.length⟩ := by
    rw [h.cursor, Rope.advance_append, h.start, Rope.advance_line _ _ (fun c hc => hline c (List.mem_append_left _ hc))]
  have l1 : utf8Len (typed ++ untyped) = (typed ++ untyped).length := Rope.utf8Len_plain _ hpl
  have l2 : utf8Len typed = typed.length := Rope.utf8Len_plain _ (fun c hc => hpl c (List.mem_append_left _ hc))
  exact typed_kind env f uri tree text pos hext hd ht h.intact es u rest h.use typed untyped h.root h.typed_ne
    (by rw [h1, h.root, l1]) (by rw [l2]; exact congrArg Point.column h2) (congrArg Point.row h2) h.inside h.begun

/-- replacing more than the range of the name -/
theorem applied_far (h : Entering env tree text pre typed untyped post pos es u rest) {gone left : Str} (hpost : post = gone ++ left)
    (hg : ∀ c ∈ gone, PlainChar c) (hcr : NoLoneCR gone) {q : Point} (hq : q = advance ⟨0, 0⟩ (pre ++ (typed ++ untyped) ++ gone))
    (n : Str) : applyEdit text (toRange (u.root.start, q)) n = some (pre ++ n ++ left) := by
  have h1 : offset text (toRange (u.root.start, q)).start = some pre.length := h.offset_start
  have h2 : offset text (toRange (u.root.start, q)).stop = some (pre ++ (typed ++ untyped) ++ gone).length := by
    have ht : text = pre ++ (typed ++ untyped) ++ gone ++ left := by rw [h.text_eq, hpost, List.append_assoc _ gone left]
    have := offset_at (pre ++ (typed ++ untyped) ++ gone) left
      (fun c hc => by rcases List.mem_append.mp hc with hc | hc; exact h.plain c hc; exact hg c hc)
      (noLoneCR_append (noLoneCR_append h.breaks (noLoneCR_line h.line)) hcr) (by rw [← ht]; exact h.short)
    rw [ht]
    simp only [toRange, hq]
    exact this
  unfold applyEdit
  rw [h1, h2]
  have hl : pre.length ≤ (pre ++ (typed ++ untyped) ++ gone).length := by simp
  simp only [hl, if_true]
  have ht : text = pre ++ (typed ++ untyped) ++ gone ++ left := by rw [h.text_eq, hpost, List.append_assoc _ gone left]
  rw [ht, List.drop_left]
  simp

end Spec.Entering

/-- the reply to somebody entering a name, item by item -/
theorem entering_reply {env : Env} {w : World} {s : Server} {uri : Str} {tree : Tree} {text pre typed untyped post : Str} {pos : Position}
    {es : List Elem} {u : Use} {rest : List Capture} {vs : List Identifier}
    (h : Entering env tree text pre typed untyped post pos es u rest) (hext : fileExt uri = some .template)
    (hd : s.files.documents.get? uri = some text) (ht : (s.files.trees .template).get? uri = some tree)
    (hv : s.files.variables.get? uri = some vs) :
    ∃ r items, objectsQuery env tree (toPoint pos) text false = .ok r ∧
      s.handle env w (.completion uri pos .invoked) = .ok (s, [], .completion (some items)) ∧
      (∀ i ∈ items, i.textEdit ≠ none → ∃ v ∈ vs, Visible (toPoint pos) v ∧ v.name = i.label ∧
        LspFiles.variableItem s.files.isVscode typed r.fullRange v = some i) ∧
      (∀ v ∈ vs, Visible (toPoint pos) v → typed <+: v.name → ∃ i ∈ items, i.label = v.name ∧ i.textEdit ≠ none) := by
  obtain ⟨r, b, hr, hk⟩ := h.kind hext hd ht
  obtain ⟨r', more, hr', hh, hrest⟩ := names_reply (w := w) hk (Or.inr ⟨_, rfl⟩) hv
  have hrr : r' = r.fullRange := by
    rcases hr' with ⟨h1, _⟩ | h1
    · cases h1
    · injection h1 with _ h1; exact h1.symm
  subst hrr
  refine ⟨r, _, hr, hh, ?_, ?_⟩
  · intro i hi hte
    rcases List.mem_append.mp hi with hi | hi
    · obtain ⟨v, hv, _, hvi⟩ := LspFiles.variableItems_from _ _ _ hi
      rw [List.mem_filter, visibleAt_iff] at hv
      exact ⟨v, hv.1, hv.2, (LspFiles.variableItem_label hvi).1.symm, hvi⟩
    · obtain ⟨file, vs', v, h1, h2, h3, rfl⟩ := (hrest i).mp hi
      exact absurd rfl hte
  · intro v hv hvis hp
    obtain ⟨i, hi, hl⟩ := LspFiles.variableItems_mem (vs := s.files.isVscode) (st := typed) (r := r.fullRange)
      (vs.filter (LspFiles.visibleAt (toPoint pos))) [] v (List.mem_filter.mpr ⟨hv, visibleAt_iff.mpr hvis⟩) (by simp) hp
    refine ⟨i, List.mem_append_left _ hi, hl, ?_⟩
    obtain ⟨v', _, _, hvi⟩ := LspFiles.variableItems_from _ _ _ hi
    have hne : typed.isEmpty = false := by
      cases ht : typed with
      | nil => exact absurd ht h.typed_ne
      | cons => rfl
    simp only [LspFiles.variableItem, hne, Bool.false_eq_true, if_false] at hvi
    split at hvi
    · split at hvi <;> (cases hvi; simp)
    · cases hvi

theorem plain_item {typed : Str} {r : Range} {v : Identifier} {i : CompletionItem} (hne : typed ≠ [])
    (h : LspFiles.variableItem false typed r v = some i) : ∀ m t, accepted m t i = applyEdit t r i.label := by
  have hne : typed.isEmpty = false := by
    cases ht : typed with
    | nil => exact absurd ht hne
    | cons => rfl
  simp only [LspFiles.variableItem, hne, Bool.false_eq_true, if_false] at h
  split at h
  · cases h; intro m t; cases m <;> rfl
  · cases h

theorem vscode_item {typed : Str} {r : Range} {v : Identifier} {i : CompletionItem} (hne : typed ≠ [])
    (h : LspFiles.variableItem true typed r v = some i) : ∀ m t, accepted m t i = applyTwo t ⟨⟨r.start, r.start⟩, []⟩ ⟨r, typed⟩ := by
  have hne : typed.isEmpty = false := by
    cases ht : typed with
    | nil => exact absurd ht hne
    | cons => rfl
  simp only [LspFiles.variableItem, hne, Bool.false_eq_true, if_false, if_true] at h
  split at h
  · cases h; intro m t; rfl
  · cases h

/-- the completion of the example is one of names; `username` is usable there and also a backend variable -/
theorem Fix.enter_names (v : Bool) : ∃ ct b, (Fix.enterServer Fix.enterText v).files.completion (Fix.enterEnv 30 []) Fix.uriA ⟨0, 27⟩ .invoked =
      .ok (some (ct, b)) ∧ OfNames c!"us" ct ∧ (Fix.enterServer Fix.enterText v).files.variables.get? Fix.uriA = some [Fix.enterVar] := by
  obtain ⟨r, b, _, h⟩ := Fix.entering.kind (f := (Fix.enterServer Fix.enterText v).files) (uri := Fix.uriA) (by decide) rfl rfl
  exact ⟨_, b, h, Or.inr ⟨_, rfl⟩, rfl⟩

theorem Fix.enter_visible : Visible (toPoint ⟨0, 27⟩) Fix.enterVar := by unfold Visible; decide

/-- the hypotheses of C38 and C39 hold: in `{% set username = 1 %}{{ us }}` the variable `username` is offered, … -/
example : ∃ own rest, (Fix.enterServer Fix.enterText false).handle (Fix.enterEnv 30 []) Fix.world (.completion Fix.uriA ⟨0, 27⟩ .invoked) =
      .ok (Fix.enterServer Fix.enterText false, [], .completion (some (own ++ rest))) ∧ c!"username" ∈ own.map (·.label) := by
  obtain ⟨ct, b, h1, h2, h3⟩ := Fix.enter_names false
  obtain ⟨own, rest, h, _, h4, _⟩ := C38_offered _ Fix.world _ _ _ _ _ _ _ _ h1 h2 h3
  exact ⟨own, rest, h, (h4 _).mpr ⟨⟨_, List.mem_singleton.mpr rfl, Fix.enter_visible, rfl⟩, by decide⟩⟩

/-- … every item is a usable variable of the file or a backend variable of another one, … -/
example : ∃ ct b, (Fix.enterServer Fix.enterText false).files.completion (Fix.enterEnv 30 []) Fix.uriA ⟨0, 27⟩ .invoked = .ok (some (ct, b)) ∧
    OfNames c!"us" ct ∧ (Fix.enterServer Fix.enterText false).files.variables.get? Fix.uriA = some [Fix.enterVar] ∧
    ∀ v ∈ [Fix.enterVar], v.idType ≠ .backendVariable := by
  obtain ⟨ct, b, h1, h2, h3⟩ := Fix.enter_names false
  exact ⟨ct, b, h1, h2, h3, by decide⟩

/-- … the backend variable `request` is offered though `us` was typed, and `username` is offered twice. -/
example : BackendName (Fix.enterServer Fix.enterText false).files c!"request" ∧ ¬ c!"us" <+: c!"request" ∧
    BackendName (Fix.enterServer Fix.enterText false).files Fix.enterVar.name ∧ c!"us" <+: Fix.enterVar.name :=
  ⟨⟨Fix.uriM, Fix.enterBackend, _, rfl, List.mem_cons_self, rfl, rfl⟩, by decide,
    ⟨Fix.uriM, Fix.enterBackend, _, rfl, List.mem_cons_of_mem _ List.mem_cons_self, rfl, rfl⟩, by decide⟩

/-- recorded kinds: a history that opens a template -/
example : Kinds (Fix.enterServer Fix.enterText false).files ∧ ∀ m ∈ [(Fix.diskWorld, Msg.didOpen Fix.uriA Fix.enterText)], KeepsClass m.1 := by
  refine ⟨?_, ?_⟩
  · intro u vs hl hv
    by_cases h : u = Fix.uriA
    · subst h; cases hv; decide
    · have : (Fix.enterServer Fix.enterText false).files.variables.get? u = (HMap.empty.insert Fix.uriM Fix.enterBackend).get? u :=
        HMap.get?_insert_ne _ _ h
      rw [this] at hv
      by_cases h2 : u = Fix.uriM
      · subst h2; exact absurd hl (by decide)
      · rw [HMap.get?_insert_ne _ _ h2] at hv; cases hv
  · intro m hm
    rw [List.mem_singleton.mp hm]
    exact Fix.diskWorld_keeps

/-- **C40** (part: editors other than VS Code, names that no attribute follows before the next name) Every usable variable that
starts with what was typed is offered with an edit, and accepting any item that carries an edit replaces the name at the cursor by
the label of the item and nothing else. -/
theorem C40_replaced_partial (env : Env) (w : World) (s : Server) (uri : Str) (tree : Tree) (text pre typed untyped post : Str)
    (pos : Position) (es : List Elem) (u : Use) (rest : List Capture) (vs : List Identifier)
    (h : Entering env tree text pre typed untyped post pos es u rest) (hext : fileExt uri = some .template)
    (hd : s.files.documents.get? uri = some text) (ht : (s.files.trees .template).get? uri = some tree)
    (hv : s.files.variables.get? uri = some vs) (hvs : s.files.isVscode = false) (hn : NoDotBeforeName rest.tail) :
    ∃ items, s.handle env w (.completion uri pos .invoked) = .ok (s, [], .completion (some items)) ∧
      (∀ i ∈ items, i.textEdit ≠ none → ∀ m, accepted m text i = some (pre ++ i.label ++ post)) ∧
      (∀ v ∈ vs, Visible (toPoint pos) v → typed <+: v.name → ∃ i ∈ items, i.label = v.name ∧ i.textEdit ≠ none) := by
  obtain ⟨r, items, hr, hh, h1, h2⟩ := entering_reply (w := w) h hext hd ht hv
  refine ⟨items, hh, ?_, h2⟩
  intro i hi hte m
  obtain ⟨v, _, _, _, hvi⟩ := h1 i hi hte
  rw [hvs] at hvi
  rw [plain_item h.typed_ne hvi, JinjaObjects.cursor_range h.use hn hr]
  exact h.applied _

/-- the hypotheses hold, and accepting `username` gives `{% set username = 1 %}{{ username }}` -/
example : ∃ items, (Fix.enterServer Fix.enterText false).handle (Fix.enterEnv 30 []) Fix.world (.completion Fix.uriA ⟨0, 27⟩ .invoked) =
      .ok (Fix.enterServer Fix.enterText false, [], .completion (some items)) ∧
    ∃ i ∈ items, ∀ m, accepted m Fix.enterText i = some c!"{% set username = 1 %}{{ username }}" := by
  obtain ⟨items, h, h1, h2⟩ := C40_replaced_partial _ Fix.world (Fix.enterServer Fix.enterText false) Fix.uriA _ _ _ _ _ _ _ _ _ _
    [Fix.enterVar] Fix.entering (by decide) rfl rfl rfl rfl trivial
  obtain ⟨i, hi, hl, hte⟩ := h2 Fix.enterVar (by simp) Fix.enter_visible (by decide)
  refine ⟨items, h, i, hi, ?_⟩
  intro m
  rw [h1 i hi hte, hl]; decide

/-- **C40 is false in VS Code**.  There, accepting an item puts back what was typed instead of the name, so the text is the wanted one
only for the name that was already complete. -/
theorem C40_vscode_refuted (env : Env) (w : World) (s : Server) (uri : Str) (tree : Tree) (text pre typed untyped post : Str)
    (pos : Position) (es : List Elem) (u : Use) (rest : List Capture) (vs : List Identifier)
    (h : Entering env tree text pre typed untyped post pos es u rest) (hext : fileExt uri = some .template)
    (hd : s.files.documents.get? uri = some text) (ht : (s.files.trees .template).get? uri = some tree)
    (hv : s.files.variables.get? uri = some vs) (hvs : s.files.isVscode = true) (hn : NoDotBeforeName rest.tail)
    (v : Identifier) (hm : v ∈ vs) (hvis : Visible (toPoint pos) v) (hp : typed <+: v.name) (hmore : v.name ≠ typed) :
    ∃ items, s.handle env w (.completion uri pos .invoked) = .ok (s, [], .completion (some items)) ∧
      (∀ i ∈ items, i.textEdit ≠ none → ∀ m, accepted m text i = some (pre ++ typed ++ post)) ∧
      ∃ i ∈ items, i.label = v.name ∧ ∀ m, accepted m text i ≠ some (pre ++ v.name ++ post) := by
  obtain ⟨r, items, hr, hh, h1, h2⟩ := entering_reply (w := w) h hext hd ht hv
  have key : ∀ i ∈ items, i.textEdit ≠ none → ∀ m, accepted m text i = some (pre ++ typed ++ post) := by
    intro i hi hte m
    obtain ⟨v, _, _, _, hvi⟩ := h1 i hi hte
    rw [hvs] at hvi
    rw [vscode_item h.typed_ne hvi, JinjaObjects.cursor_range h.use hn hr]
    exact h.applied_two _
  refine ⟨items, hh, key, ?_⟩
  obtain ⟨i, hi, hl, hte⟩ := h2 v hm hvis hp
  refine ⟨i, hi, hl, ?_⟩
  intro m
  rw [key i hi hte]
  intro he
  injection he with he
  exact hmore (List.append_cancel_left (List.append_cancel_right he)).symm

/-- the hypotheses hold: in VS Code accepting `username` leaves the text as it was -/
example : ∃ items, (Fix.enterServer Fix.enterText true).handle (Fix.enterEnv 30 []) Fix.world (.completion Fix.uriA ⟨0, 27⟩ .invoked) =
      .ok (Fix.enterServer Fix.enterText true, [], .completion (some items)) ∧
    ∃ i ∈ items, i.label = c!"username" ∧ ∀ m, accepted m Fix.enterText i ≠ some c!"{% set username = 1 %}{{ username }}" := by
  obtain ⟨items, h, _, h2⟩ := C40_vscode_refuted _ Fix.world (Fix.enterServer Fix.enterText true) Fix.uriA _ _ _ _ _ _ _ _ _ _
    [Fix.enterVar] Fix.entering (by decide) rfl rfl rfl rfl trivial Fix.enterVar (by simp) Fix.enter_visible (by decide) (by decide)
  exact ⟨items, h, h2⟩

/-- **C40 is false before attributes of other names**.  When the next name after the cursor has an attribute, accepting an item also
deletes everything up to the end of that attribute. -/
theorem C40_range_refuted (env : Env) (w : World) (s : Server) (uri : Str) (tree : Tree) (text pre typed untyped gone left : Str)
    (pos : Position) (es : List Elem) (u : Use) (x d pp a : Capture) (more : List Capture) (vs : List Identifier) (attr : Str)
    (h : Entering env tree text pre typed untyped (gone ++ left) pos es u (x :: pp :: d :: a :: more))
    (hext : fileExt uri = some .template)
    (hd : s.files.documents.get? uri = some text) (ht : (s.files.trees .template).get? uri = some tree)
    (hv : s.files.variables.get? uri = some vs) (hvs : s.files.isVscode = false)
    (hm : u.info.filter = false) (hx : x.name = .justId) (hdn : d.name = .dot) (hpn : pp.name = .pipe) (hpt : pp.text = some c!".")
    (ha : a.name = .justId) (had : a.start = d.stop) (hat : a.text = some attr)
    (hstop : a.stop = advance ⟨0, 0⟩ (pre ++ (typed ++ untyped) ++ gone)) (hg : ∀ c ∈ gone, PlainChar c) (hcr : NoLoneCR gone)
    (hgone : gone ≠ []) (v : Identifier) (hmem : v ∈ vs) (hvis : Visible (toPoint pos) v) (hp : typed <+: v.name) :
    ∃ items, s.handle env w (.completion uri pos .invoked) = .ok (s, [], .completion (some items)) ∧
      (∀ i ∈ items, i.textEdit ≠ none → ∀ m, accepted m text i = some (pre ++ i.label ++ left)) ∧
      ∃ i ∈ items, i.label = v.name ∧ ∀ m, accepted m text i ≠ some (pre ++ v.name ++ (gone ++ left)) := by
  obtain ⟨r, items, hr, hh, h1, h2⟩ := entering_reply (w := w) h hext hd ht hv
  have key : ∀ i ∈ items, i.textEdit ≠ none → ∀ m, accepted m text i = some (pre ++ i.label ++ left) := by
    intro i hi hte m
    obtain ⟨v, _, _, _, hvi⟩ := h1 i hi hte
    rw [hvs] at hvi
    rw [plain_item h.typed_ne hvi, JinjaObjects.cursor_range_far h.use hm hx hdn hpn hpt ha had hat hr]
    exact h.applied_far rfl hg hcr hstop _
  refine ⟨items, hh, key, ?_⟩
  obtain ⟨i, hi, hl, hte⟩ := h2 v hmem hvis hp
  refine ⟨i, hi, hl, ?_⟩
  intro m
  rw [key i hi hte, hl]
  intro he
  injection he with he
  have := congrArg List.length he
  simp only [List.length_append] at this
  apply hgone
  cases gone with
  | nil => rfl
  | cons => simp at this

/-- the hypotheses hold: accepting `username` in `{{ us if data.ok }}` gives `{{ username }}` -/
example : ∃ items, (Fix.enterServer Fix.enterText2 false).handle (Fix.enterEnv 41 Fix.enterRest) Fix.world
      (.completion Fix.uriA ⟨0, 27⟩ .invoked) = .ok (Fix.enterServer Fix.enterText2 false, [], .completion (some items)) ∧
    ∃ i ∈ items, i.label = c!"username" ∧ ∀ m, accepted m Fix.enterText2 i ≠ some c!"{% set username = 1 %}{{ username if data.ok }}" := by
  obtain ⟨items, h, _, h2⟩ := C40_range_refuted _ Fix.world (Fix.enterServer Fix.enterText2 false) Fix.uriA _ _ _ _ _ c!" if data.ok" c!" }}"
    _ _ _ _ _ _ _ _ [Fix.enterVar] c!"ok" Fix.entering2 (by decide) rfl rfl rfl rfl rfl rfl rfl rfl rfl rfl rfl rfl (by decide)
    (by unfold PlainChar; decide) (noLoneCR_line (by decide)) (by decide) Fix.enterVar (by simp) Fix.enter_visible (by decide)
  exact ⟨items, h, h2⟩

/-- **C40 is false for names with attributes**.  When the name at the cursor has an attribute, accepting an item also deletes that
attribute. -/
theorem C40_attribute_refuted (env : Env) (w : World) (s : Server) (uri : Str) (tree : Tree) (text pre typed untyped gone left : Str)
    (pos : Position) (es : List Elem) (u : Use) (d pp a : Capture) (more : List Capture) (vs : List Identifier) (attr : Str)
    (h : Entering env tree text pre typed untyped (gone ++ left) pos es u (pp :: d :: a :: more))
    (hext : fileExt uri = some .template)
    (hd : s.files.documents.get? uri = some text) (ht : (s.files.trees .template).get? uri = some tree)
    (hv : s.files.variables.get? uri = some vs) (hvs : s.files.isVscode = false)
    (hm : u.info.filter = false) (hdn : d.name = .dot) (hpn : pp.name = .pipe)
    (ha : a.name = .justId) (had : a.start = d.stop) (hat : a.text = some attr)
    (hstop : a.stop = advance ⟨0, 0⟩ (pre ++ (typed ++ untyped) ++ gone)) (hg : ∀ c ∈ gone, PlainChar c) (hcr : NoLoneCR gone)
    (hgone : gone ≠ []) (v : Identifier) (hmem : v ∈ vs) (hvis : Visible (toPoint pos) v) (hp : typed <+: v.name) :
    ∃ items, s.handle env w (.completion uri pos .invoked) = .ok (s, [], .completion (some items)) ∧
      (∀ i ∈ items, i.textEdit ≠ none → ∀ m, accepted m text i = some (pre ++ i.label ++ left)) ∧
      ∃ i ∈ items, i.label = v.name ∧ ∀ m, accepted m text i ≠ some (pre ++ v.name ++ (gone ++ left)) := by
  obtain ⟨r, items, hr, hh, h1, h2⟩ := entering_reply (w := w) h hext hd ht hv
  have key : ∀ i ∈ items, i.textEdit ≠ none → ∀ m, accepted m text i = some (pre ++ i.label ++ left) := by
    intro i hi hte m
    obtain ⟨v, _, _, _, hvi⟩ := h1 i hi hte
    rw [hvs] at hvi
    rw [plain_item h.typed_ne hvi, JinjaObjects.cursor_range_own h.use hm hdn hpn ha had hat hr]
    exact h.applied_far rfl hg hcr hstop _
  refine ⟨items, hh, key, ?_⟩
  obtain ⟨i, hi, hl, hte⟩ := h2 v hmem hvis hp
  refine ⟨i, hi, hl, ?_⟩
  intro m
  rw [key i hi hte, hl]
  intro he
  injection he with he
  have := congrArg List.length he
  simp only [List.length_append] at this
  apply hgone
  cases gone with
  | nil => rfl
  | cons => simp at this

/-- the hypotheses hold: accepting `username` in `{{ us.ok }}` gives `{{ username }}` -/
example : ∃ items, (Fix.enterServer Fix.enterText3 false).handle (Fix.enterEnv 33 Fix.enterAttr) Fix.world
      (.completion Fix.uriA ⟨0, 26⟩ .invoked) = .ok (Fix.enterServer Fix.enterText3 false, [], .completion (some items)) ∧
    ∃ i ∈ items, i.label = c!"username" ∧ ∀ m, accepted m Fix.enterText3 i ≠ some c!"{% set username = 1 %}{{ username.ok }}" := by
  obtain ⟨items, h, _, h2⟩ := C40_attribute_refuted _ Fix.world (Fix.enterServer Fix.enterText3 false) Fix.uriA _ _ _ _ _ c!".ok" c!" }}"
    _ _ _ _ _ _ _ [Fix.enterVar] c!"ok" Fix.entering3 (by decide) rfl rfl rfl rfl rfl rfl rfl rfl rfl rfl (by decide)
    (by unfold PlainChar; decide) (noLoneCR_line (by decide)) (by decide) Fix.enterVar (by simp) (by unfold Visible; decide) (by decide)
  exact ⟨items, h, h2⟩

end JinjaLsp
