import Verif.Lemmas.Refs
import Verif.Lemmas.PathItems
import Verif.Lemmas.Expr
import Verif.Lemmas.Snippets
import Verif.Lemmas.Open
import Verif.Lemmas.Server
/- What is analysed when a document is opened or saved. -/

namespace JinjaLsp
open Spec

/-! ### Syntax errors -/

/-- the document has a broken statement -/
def Spec.SyntaxError (env : Env) (tree : Tree) (text : Str) : Prop :=
  ∃ c ∈ (env.queryMatches .jinjaSnippets tree text).flatten, c.name = .errorBlock

theorem isError_true {env : Env} {tree : Tree} {text : Str} (h : SyntaxError env tree text) (p : Point) :
    (snippetsQuery env tree p text true).isError = true := by
  have split : ∀ (l : List Capture), (∃ c ∈ l, c.name = .errorBlock) →
      ∃ pre e post, l = pre ++ e :: post ∧ e.name = .errorBlock ∧ ∀ c ∈ pre, c.name ≠ .errorBlock := by
    intro l
    induction l with
    | nil => rintro ⟨_, h, _⟩; cases h
    | cons c l ih =>
      rintro ⟨x, hx, hn⟩
      by_cases hc : c.name = .errorBlock
      · exact ⟨[], c, l, rfl, hc, fun _ h => by cases h⟩
      · have hx' : x ∈ l := by
          rcases List.mem_cons.mp hx with rfl | hx
          · exact absurd hn hc
          · exact hx
        obtain ⟨pre, e, post, rfl, h1, h2⟩ := ih ⟨x, hx', hn⟩
        refine ⟨c :: pre, e, post, rfl, h1, ?_⟩
        intro y hy
        rcases List.mem_cons.mp hy with rfl | hy
        · exact hc
        · exact h2 y hy
  obtain ⟨pre, e, post, hl, he, hpre⟩ := split _ h
  unfold snippetsQuery
  rw [selectCaptures_all, hl]
  exact (Snippets.run_first _ _ _ _ hpre he).1

theorem isError_false {env : Env} {tree : Tree} {text : Str} (h : ¬ SyntaxError env tree text) (p : Point) :
    (snippetsQuery env tree p text true).isError = false := by
  unfold snippetsQuery
  rw [selectCaptures_all, Snippets.run_none _ _ (fun c hc hn => h ⟨c, hc, hn⟩)]
  rfl

theorem isError_iff (env : Env) (tree : Tree) (text : Str) (p : Point) :
    (snippetsQuery env tree p text true).isError = true ↔ SyntaxError env tree text := by
  constructor
  · intro h
    apply Classical.byContradiction
    intro hh
    rw [isError_false hh] at h; cases h
  · exact fun h => isError_true h p

/-! ### The analysis -/

/-- the uses of names found in a template -/
def usesIn (env : Env) (tree : Tree) (text : Str) : List JinjaObject :=
  (JinjaObjects.feed JinjaObjects.default (env.queryMatches .jinjaObjects tree text).flatten).objects

theorem objectsQuery_all (env : Env) (tree : Tree) (text : Str) (p : Point) :
    objectsQuery env tree p text true = .ok (JinjaObjects.feed JinjaObjects.default (env.queryMatches .jinjaObjects tree text).flatten) := by
  unfold objectsQuery; rw [JinjaObjects.objectsLoop_all]; rfl

/-- the template references found in a template -/
def refsIn (env : Env) (o : HashOrder) (tree : Tree) (text : Str) : List Identifier :=
  ((templatesQuery env tree Point.zero text true).collect o).filter fun i => i.idType = .jinjaTemplate

/-- the diagnostics of a template -/
def templateDiags (env : Env) (w : World) (f : LspFiles) (tree : Tree) (text : Str) (vars : List Identifier) : Diags :=
  (usesIn env tree text).filterMap (objectDiag w.order f.variables vars f.ignoreGlobals) ++
    (refsIn env w.order tree text).filterMap (importDiag w f.config.templates)

theorem readTree_template {env : Env} {w : World} {f : LspFiles} {uri text : Str} {tree : Tree} {vars : List Identifier}
    (he : fileExt uri = some .template) (hd : f.documents.get? uri = some text) (ht : (f.trees .template).get? uri = some tree)
    (hv : f.variables.get? uri = some vars) : f.readTree env w uri = .ok (some (templateDiags env w f tree text vars)) := by
  unfold LspFiles.readTree searchErrors
  simp only [hd, he, ht, objectsQuery_all, hv]
  rfl

theorem readTree_template_none {env : Env} {w : World} {f : LspFiles} {uri : Str}
    (he : fileExt uri = some .template) (hv : f.variables.get? uri = none) : f.readTree env w uri = .ok none := by
  unfold LspFiles.readTree searchErrors
  split
  · rfl
  · simp only [he, objectsQuery_all, hv]
    split <;> rfl

theorem readTree_backend {env : Env} {w : World} {f : LspFiles} {uri text : Str} {tree : Tree} {vars : List Identifier}
    (he : fileExt uri = some .backend) (hd : f.documents.get? uri = some text) (ht : (f.trees .backend).get? uri = some tree)
    (hv : f.variables.get? uri = some vars) :
    f.readTree env w uri = .ok (some ((vars.filter fun i => i.idType = .jinjaTemplate).filterMap (backendDiag w f.config.templates))) := by
  unfold LspFiles.readTree searchErrors
  simp only [hd, he, ht, hv]

/-- analysis never panics -/
theorem readTree_ok (env : Env) (w : World) (f : LspFiles) (uri : Str) : ∃ v, f.readTree env w uri = .ok v := by
  unfold LspFiles.readTree searchErrors
  split
  · exact ⟨_, rfl⟩
  · split
    · exact ⟨_, rfl⟩
    · split
      · exact ⟨_, rfl⟩
      · split
        · rw [objectsQuery_all]
          simp only
          split <;> exact ⟨_, rfl⟩
        · split <;> exact ⟨_, rfl⟩

/-! ### Opening and saving, as messages -/

/-- the message opens or saves the document -/
inductive Msg.Analyses (uri : Str) : Msg → Prop where
  | opened (text : Str) : Msg.Analyses uri (.didOpen uri text)
  | saved : Msg.Analyses uri (.didSave uri)

/-- what is sent after opening or saving a supported document is the analysis of the new workspace -/
theorem analyses_out {env : Env} {w : World} {s s' : Server} {uri : Str} {m : Msg} {out : List Send} {r : Reply} {text : Str}
    {l : LangType} (hm : m.Analyses uri) (he : fileExt uri = some l) (h : s.handle env w m = .ok (s', out, r))
    (hd : s'.files.documents.get? uri = some text) :
    ∃ v, s'.files.readTree env w uri = .ok v ∧ (∀ ds, v = some ds → out = [.diag (HMap.empty.insert uri ds)]) ∧
      Frame uri s.files s'.files := by
  cases hm with
  | opened t =>
    simp only [Server.handle] at h
    split at h
    · cases h
    · rename_i f msg hf
      cases h
      obtain ⟨_, v, h2, h3⟩ := LspFiles.didOpen_inv he hf
      refine ⟨v, h2, ?_, Frame.didOpen hf⟩
      rintro ds rfl
      rw [h3]; rfl
  | saved =>
    simp only [Server.handle] at h
    split at h
    · cases h
    · rename_i f msg hf
      cases h
      have hdoc : s.files.documents.get? uri = some text := by
        rw [← hd]; exact congrArg (·.get? uri) (documents_didSave hf).1.symm
      obtain ⟨_, v, h2, h3⟩ := LspFiles.didSave_inv he hdoc hf
      refine ⟨v, h2, ?_, Frame.didSave hf⟩
      rintro ds rfl
      rw [h3]; rfl

theorem analyses_template {env : Env} {w : World} {s s' : Server} {uri : Str} {m : Msg} {out : List Send} {r : Reply} {text : Str}
    {tree : Tree} {vars : List Identifier} (hm : m.Analyses uri) (he : fileExt uri = some .template)
    (h : s.handle env w m = .ok (s', out, r)) (hd : s'.files.documents.get? uri = some text)
    (ht : (s'.files.trees .template).get? uri = some tree) (hv : s'.files.variables.get? uri = some vars) :
    out = [.diag (HMap.empty.insert uri (templateDiags env w s'.files tree text vars))] ∧ Frame uri s.files s'.files := by
  obtain ⟨v, h1, h2, h3⟩ := analyses_out hm he h hd
  rw [readTree_template he hd ht hv] at h1
  cases h1
  exact ⟨h2 _ rfl, h3⟩

/-! ### Single diagnostics -/

theorem objectDiag_eq (o : HashOrder) (variables : Variables) (vars : List Identifier) (obj : JinjaObject) :
    objectDiag o variables vars false obj =
      (verdict (vars.map Identifier.binding) (knownNames variables) obj.info).map fun k => (k, Identifier.ofObject obj) := by
  unfold objectDiag verdict
  by_cases h1 : obj.isFilter = true ∨ obj.isTest = true
  · have h1' : (obj.isFilter || obj.isTest) = true := by simpa using h1
    have h1'' : obj.info.filter = true ∨ obj.info.test = true := h1
    rw [if_pos h1', if_pos h1'']; rfl
  · have h1' : ¬ (obj.isFilter || obj.isTest) = true := by simpa using h1
    have h1'' : ¬ (obj.info.filter = true ∨ obj.info.test = true) := h1
    rw [if_neg h1', if_neg h1'']
    have hvis : (∃ b ∈ vars.map Identifier.binding, b.VisibleAt obj.info) ↔
        ((vars.filter (sameName obj.name)).filter (locatedAt obj)).length ≠ 0 := by
      rw [← Nat.pos_iff_ne_zero, List.length_pos_iff_exists_mem]
      constructor
      · rintro ⟨b, hb, hv⟩
        obtain ⟨v, hv', rfl⟩ := List.mem_map.mp hb
        refine ⟨v, List.mem_filter.mpr ⟨List.mem_filter.mpr ⟨hv', ?_⟩, ?_⟩⟩
        · simpa [sameName] using ⟨hv.1, hv.2.1⟩
        · obtain ⟨_, _, h3, h4⟩ := hv
          have h3' : v.start ≤ obj.location.2 := h3
          have h4' : obj.location.1 < v.scopeEnd ∨ v.scopeEnd = Point.zero := h4
          simp only [locatedAt, h3', decide_true, Bool.true_and]
          rcases h4' with h4' | h4'
          · simp [h4']
          · simp [h4']
      · rintro ⟨v, hv⟩
        obtain ⟨hv1, hv2⟩ := List.mem_filter.mp hv
        obtain ⟨hv3, hv4⟩ := List.mem_filter.mp hv1
        refine ⟨v.binding, List.mem_map.mpr ⟨v, hv3, rfl⟩, ?_⟩
        have e : v.name = obj.name ∧ v.idType ≠ .templateBlock := by simpa [sameName] using hv4
        refine ⟨e.1, e.2, ?_⟩
        show v.start ≤ obj.location.2 ∧ (obj.location.1 < v.scopeEnd ∨ v.scopeEnd = Point.zero)
        simp only [locatedAt] at hv2
        split at hv2
        · rename_i hh
          simp only [Bool.and_eq_true, decide_eq_true_eq] at hh
          exact ⟨hh.1, Or.inr hh.2⟩
        · simp only [Bool.and_eq_true, decide_eq_true_eq] at hv2
          exact ⟨hv2.1, Or.inl hv2.2⟩
    have hex : (∃ b ∈ vars.map Identifier.binding, b.name = obj.info.name ∧ b.kind ≠ .templateBlock) ↔
        (!(vars.filter (sameName obj.name)).isEmpty) = true := by
      simp only [Bool.not_eq_true', List.isEmpty_eq_false_iff_exists_mem]
      constructor
      · rintro ⟨b, hb, h⟩
        obtain ⟨v, hv', rfl⟩ := List.mem_map.mp hb
        exact ⟨v, List.mem_filter.mpr ⟨hv', by simpa [sameName] using (show v.name = obj.name ∧ v.idType ≠ .templateBlock from h)⟩⟩
      · rintro ⟨v, hv⟩
        obtain ⟨hv1, hv2⟩ := List.mem_filter.mp hv
        exact ⟨v.binding, List.mem_map.mpr ⟨v, hv1, rfl⟩, show v.name = obj.name ∧ v.idType ≠ .templateBlock by simpa [sameName] using hv2⟩
    have hkn : (obj.info.name ∈ knownNames variables) ↔
        ((o.shuffle 1 variables.entries).any fun f => f.2.any fun v => v.name = obj.name) = true := by
      simp only [knownNames, List.mem_flatMap, List.mem_map, List.any_eq_true, HMap.mem_shuffle, decide_eq_true_eq]
      rfl
    by_cases h2 : ∃ b ∈ vars.map Identifier.binding, b.VisibleAt obj.info
    · rw [if_pos h2]
      have := hvis.mp h2
      simp only [this, false_and, if_false]
      rfl
    · rw [if_neg h2]
      have e2 : ((vars.filter (sameName obj.name)).filter (locatedAt obj)).length = 0 :=
        Decidable.byContradiction fun hh => h2 (hvis.mpr hh)
      by_cases h3 : ∃ b ∈ vars.map Identifier.binding, b.name = obj.info.name ∧ b.kind ≠ .templateBlock
      · rw [if_pos h3]
        have e3 := hex.mp h3
        simp only [e2, e3, and_self, if_true]
        rfl
      · rw [if_neg h3]
        have e3 : ¬ (!(vars.filter (sameName obj.name)).isEmpty) = true := fun hh => h3 (hex.mpr hh)
        simp only [e2, e3, if_true]
        by_cases h4 : obj.info.name ∈ knownNames variables
        · rw [if_pos h4]
          simp [hkn.mp h4]
        · rw [if_neg h4]
          have : ((o.shuffle 1 variables.entries).any fun f => f.2.any fun v => v.name = obj.name) = false := by
            rw [← Bool.not_eq_true]; exact fun hh => h4 (hkn.mpr hh)
          simp [this]

theorem objectDiag_ignore (o : HashOrder) (variables : Variables) (vars : List Identifier) (obj : JinjaObject) :
    objectDiag o variables vars true obj = none := by
  unfold objectDiag
  split
  · rfl
  · simp only [if_true]
    split
    · rfl
    · split <;> rfl

theorem objectDiag_kind {o : HashOrder} {variables : Variables} {vars : List Identifier} {ig : Bool} {obj : JinjaObject}
    {d : JinjaDiagnostic × Identifier} (h : objectDiag o variables vars ig obj = some d) : d.1 ≠ .templateNotFound := by
  cases ig with
  | true => rw [objectDiag_ignore] at h; cases h
  | false =>
    rw [objectDiag_eq] at h
    unfold verdict at h
    split at h
    · cases h
    · split at h
      · cases h
      · split at h
        · cases h; simp
        · split at h <;> cases h <;> simp

theorem importDiag_eq (w : World) (dir : Str) (i : Identifier) :
    importDiag w dir i = if i.name = [] ∨ Absent w dir i.name then some (.templateNotFound, i) else none := by
  have hn : notFound w (checkedPath dir i.name) = true ↔ Absent w dir i.name := by
    unfold notFound Absent
    rw [checkedPath_eq]
    cases w.canonicalize (lookupPath dir i.name) with
    | ok _ => simp
    | error e => cases e <;> simp
  unfold importDiag
  by_cases h1 : i.name = []
  · simp [h1]
  · have h1' : i.name.isEmpty = false := by simpa using h1
    simp only [h1', h1, false_or, Bool.false_eq_true, if_false]
    by_cases h2 : Absent w dir i.name
    · simp [h2, hn.mpr h2]
    · have : ¬ notFound w (checkedPath dir i.name) = true := fun hh => h2 (hn.mp hh)
      simp [h2, this]

theorem backendDiag_eq (w : World) (dir : Str) (i : Identifier) :
    backendDiag w dir i = if Absent w dir i.name then some (.templateNotFound, i) else none := by
  have hn : notFound w (checkedPath dir i.name) = true ↔ Absent w dir i.name := by
    unfold notFound Absent
    rw [checkedPath_eq]
    cases w.canonicalize (lookupPath dir i.name) with
    | ok _ => simp
    | error e => cases e <;> simp
  unfold backendDiag
  by_cases h2 : Absent w dir i.name
  · simp [h2, hn.mpr h2]
  · have : ¬ notFound w (checkedPath dir i.name) = true := fun hh => h2 (hn.mp hh)
    simp [h2, this]

theorem importDiag_kind {w : World} {dir : Str} {i : Identifier} {d : JinjaDiagnostic × Identifier} (h : importDiag w dir i = some d) :
    d.1 = .templateNotFound := by
  rw [importDiag_eq] at h
  split at h <;> cases h; rfl

theorem backendDiag_kind {w : World} {dir : Str} {i : Identifier} {d : JinjaDiagnostic × Identifier} (h : backendDiag w dir i = some d) :
    d.1 = .templateNotFound := by
  rw [backendDiag_eq] at h
  split at h <;> cases h; rfl

/-! ### Lists of reports -/

theorem filterMap_kind {α : Type} (g : α → Option (JinjaDiagnostic × Identifier)) (l : List α)
    (P : JinjaDiagnostic × Identifier → Bool) (b : Bool) (h : ∀ a d, g a = some d → P d = b) :
    (l.filterMap g).filter P = if b then l.filterMap g else [] := by
  cases b with
  | true =>
    simp only [if_true]
    rw [List.filter_eq_self]
    intro d hd
    obtain ⟨a, _, ha⟩ := List.mem_filterMap.mp hd
    exact h a d ha
  | false =>
    simp only [Bool.false_eq_true, if_false]
    rw [List.filter_eq_nil_iff]
    intro d hd
    obtain ⟨a, _, ha⟩ := List.mem_filterMap.mp hd
    simp [h a d ha]

/-- the diagnostics about uses are those about uses of names -/
theorem templateDiags_uses (env : Env) (w : World) (f : LspFiles) (tree : Tree) (text : Str) (vars : List Identifier) :
    (templateDiags env w f tree text vars).filter (fun d => d.1 ≠ .templateNotFound) =
      (usesIn env tree text).filterMap (objectDiag w.order f.variables vars f.ignoreGlobals) := by
  unfold templateDiags
  rw [List.filter_append, filterMap_kind _ _ _ true (fun a d h => by simpa using objectDiag_kind h),
    filterMap_kind _ _ _ false (fun a d h => by simpa using importDiag_kind h)]
  simp

theorem templateDiags_refs (env : Env) (w : World) (f : LspFiles) (tree : Tree) (text : Str) (vars : List Identifier) :
    (templateDiags env w f tree text vars).filter (fun d => d.1 = .templateNotFound) =
      (refsIn env w.order tree text).filterMap (importDiag w f.config.templates) := by
  unfold templateDiags
  rw [List.filter_append, filterMap_kind _ _ _ false (fun a d h => by simpa using objectDiag_kind h),
    filterMap_kind _ _ _ true (fun a d h => by simpa using importDiag_kind h)]
  simp

theorem useReports_eq (env : Env) (o : HashOrder) (variables : Variables) (tree : Tree) (text : Str) (vars : List Identifier) :
    ((usesIn env tree text).filterMap (objectDiag o variables vars false)).map report =
      useReports (vars.map Identifier.binding) (knownNames variables) ((usesIn env tree text).map JinjaObject.info) := by
  unfold useReports
  rw [List.map_filterMap, List.filterMap_map]
  congr 1
  funext obj
  rw [objectDiag_eq]
  simp only [Option.map_map, Function.comp_def]
  rfl

theorem refReports_import (w : World) (dir : Str) (is : List Identifier) :
    (is.filterMap (importDiag w dir)).map report = refReports w dir true (is.map Identifier.ref) := by
  unfold refReports
  induction is with
  | nil => rfl
  | cons i is ih =>
    simp only [List.map_cons, List.filterMap_cons, List.filter_cons, importDiag_eq]
    by_cases h : i.name = [] ∨ Absent w dir i.name
    · have h' : ((true && decide (i.ref.name = [])) || decide (Absent w dir i.ref.name)) = true := by
        simp only [Bool.true_and, Bool.or_eq_true, decide_eq_true_eq]; exact h
      rw [if_pos h, if_pos h']
      simp only [List.map_cons, ih]
      rfl
    · have h' : ¬ ((true && decide (i.ref.name = [])) || decide (Absent w dir i.ref.name)) = true := by
        simp only [Bool.true_and, Bool.or_eq_true, decide_eq_true_eq]; exact h
      rw [if_neg h, if_neg h']
      exact ih

theorem refReports_backend (w : World) (dir : Str) (is : List Identifier) :
    (is.filterMap (backendDiag w dir)).map report = refReports w dir false (is.map Identifier.ref) := by
  unfold refReports
  induction is with
  | nil => rfl
  | cons i is ih =>
    simp only [List.map_cons, List.filterMap_cons, List.filter_cons, backendDiag_eq]
    by_cases h : Absent w dir i.name
    · have h' : ((false && decide (i.ref.name = [])) || decide (Absent w dir i.ref.name)) = true := by
        simp only [Bool.false_and, Bool.false_or, decide_eq_true_eq]; exact h
      rw [if_pos h, if_pos h']
      simp only [List.map_cons, ih]
      rfl
    · have h' : ¬ ((false && decide (i.ref.name = [])) || decide (Absent w dir i.ref.name)) = true := by
        simp only [Bool.false_and, Bool.false_or, decide_eq_true_eq]; exact h
      rw [if_neg h, if_neg h']
      exact ih

theorem refReports_perm (w : World) (dir : Str) (b : Bool) {l l' : List Ref} (h : l.Perm l') :
    (refReports w dir b l).Perm (refReports w dir b l') := (h.filter _).map _

theorem verdict_congr (bs : List Binding) {k k' : List Str} (u : UseInfo) (h : u.name ∈ k ↔ u.name ∈ k') :
    verdict bs k u = verdict bs k' u := by
  unfold verdict; simp only [h]

theorem useReports_congr (bs : List Binding) {k k' : List Str} (us : List UseInfo) (h : ∀ n, n ∈ k ↔ n ∈ k') :
    useReports bs k us = useReports bs k' us := by
  unfold useReports
  congr 1
  funext u
  rw [verdict_congr bs u (h u.name)]

/-- names of a table -/
theorem mem_knownNames (vars : Variables) (n : Str) :
    n ∈ knownNames vars ↔ ∃ u vs, vars.get? u = some vs ∧ ∃ v ∈ vs, v.name = n := by
  unfold knownNames
  simp only [List.mem_flatMap, List.mem_map]
  constructor
  · rintro ⟨e, he, v, hv, rfl⟩
    exact ⟨e.1, e.2, (HMap.get?_eq_some_iff ..).mpr he, v, hv, rfl⟩
  · rintro ⟨u, vs, h, v, hv, rfl⟩
    exact ⟨(u, vs), (HMap.get?_eq_some_iff ..).mp h, v, hv, rfl⟩

/-- names known in other files -/
def Spec.knownElsewhere (vars : Variables) (uri : Str) : List Str :=
  (vars.entries.filter fun e => e.1 ≠ uri).flatMap fun e => e.2.map (·.name)

theorem mem_knownElsewhere (vars : Variables) (uri n : Str) :
    n ∈ knownElsewhere vars uri ↔ ∃ u vs, u ≠ uri ∧ vars.get? u = some vs ∧ ∃ v ∈ vs, v.name = n := by
  unfold knownElsewhere
  simp only [List.mem_flatMap, List.mem_map, List.mem_filter, decide_eq_true_eq]
  constructor
  · rintro ⟨e, ⟨he, hne⟩, v, hv, rfl⟩
    exact ⟨e.1, e.2, hne, (HMap.get?_eq_some_iff ..).mpr he, v, hv, rfl⟩
  · rintro ⟨u, vs, hne, h, v, hv, rfl⟩
    exact ⟨(u, vs), ⟨(HMap.get?_eq_some_iff ..).mp h, hne⟩, v, hv, rfl⟩

/-- the names known after an analysis: those of the file and those of the other files before -/
theorem known_after {f g : LspFiles} {uri : Str} {vars : List Identifier} (hf : Frame uri f g) (hv : g.variables.get? uri = some vars)
    (n : Str) : n ∈ knownNames g.variables ↔ n ∈ (vars.map Identifier.binding).map (·.name) ++ knownElsewhere f.variables uri := by
  rw [mem_knownNames, List.mem_append, mem_knownElsewhere]
  constructor
  · rintro ⟨u, vs, h, v, hvv, rfl⟩
    by_cases hu : u = uri
    · subst hu
      rw [hv] at h; cases h
      exact Or.inl (List.mem_map.mpr ⟨v.binding, List.mem_map.mpr ⟨v, hvv, rfl⟩, rfl⟩)
    · exact Or.inr ⟨u, vs, hu, by rw [← (hf.same u hu).vars]; exact h, v, hvv, rfl⟩
  · rintro (h | ⟨u, vs, hu, h, v, hvv, rfl⟩)
    · obtain ⟨b, hb, rfl⟩ := List.mem_map.mp h
      obtain ⟨v, hvv, rfl⟩ := List.mem_map.mp hb
      exact ⟨uri, vars, hv, v, hvv, rfl⟩
    · exact ⟨u, vs, by rw [(hf.same u hu).vars]; exact h, v, hvv, rfl⟩

end JinjaLsp
