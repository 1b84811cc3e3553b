import Verif.Lemmas.Latest
import Verif.Props.Expressions
import Verif.Props.Imports
/-
  C35–C37: goto-definition on variables.
-/

namespace JinjaLsp
open Spec

/-! ## C35 -/

/-- a definition of `n` that starts at or before `p` and whose scope includes `p` -/
def Spec.Binds (n : Str) (p : Point) (d : Identifier) : Prop := d.name = n ∧ d.start ≤ p ∧ p ≤ d.scopeEnd

/-- positions of tree-sitter are 32-bit numbers -/
def Spec.Fits (d : Identifier) : Prop :=
  (d.start.row < 4294967296 ∧ d.start.column < 4294967296) ∧ d.stop.row < 4294967296 ∧ d.stop.column < 4294967296

/-- the range of a definition in the protocol -/
def Spec.rangeOf (d : Identifier) : Range := ⟨⟨d.start.row, d.start.column⟩, ⟨d.stop.row, d.stop.column⟩⟩

theorem rangeOf_eq {d : Identifier} (h : Fits d) : (⟨toPosition2 d.start, toPosition2 d.stop⟩ : Range) = rangeOf d := by
  obtain ⟨⟨h1, h2⟩, h3, h4⟩ := h
  simp only [toPosition2, toU32, rangeOf, Nat.mod_eq_of_lt h1, Nat.mod_eq_of_lt h2, Nat.mod_eq_of_lt h3, Nat.mod_eq_of_lt h4]

/-- on the name of a use, its name is what is looked up -/
theorem ident_of_use {env : Env} {tree : Tree} {text : Str} {es : List Elem} {u : Use} {rest : List Capture} {p : Point}
    (h : OnUse (env.queryMatches .jinjaObjects tree text).flatten es u rest p) :
    ∃ r, objectsQuery env tree p text false = .ok r ∧ r.isIdent p = some u.root.text := by
  obtain ⟨r, o, os, hq, ho, h1, h2, h3, h4, h5, h6, h7⟩ := JinjaObjects.cursor_root h
  refine ⟨r, hq, ?_⟩
  unfold JinjaObjects.isIdent
  simp [h5, h.start, h.stop, ho, h1]

theorem localDefinition_some {f : LspFiles} {uri n : Str} {p : Point} {vars : List Identifier} (hv : f.variables.get? uri = some vars)
    (hex : ∃ d ∈ vars, Binds n p d) :
    ∃ d ∈ vars, Binds n p d ∧ (∀ d' ∈ vars, Binds n p d' → d'.start ≤ d.start) ∧
      f.localDefinition uri n p = some (.scalar ⟨uri, ⟨toPosition2 d.start, toPosition2 d.stop⟩⟩) := by
  have hmem : ∀ d, d ∈ (vars.filter fun item => decide (item.name = n) && decide (item.start ≤ p) && decide (p ≤ item.scopeEnd)) ↔
      d ∈ vars ∧ Binds n p d := by
    intro d
    rw [List.mem_filter]
    simp [Binds, and_assoc]
  unfold LspFiles.localDefinition
  rw [hv]
  simp only
  cases hm : iterMax (vars.filter fun item => decide (item.name = n) && decide (item.start ≤ p) && decide (p ≤ item.scopeEnd)) with
  | none =>
    obtain ⟨d, hd, hb⟩ := hex
    have := (hmem d).mpr ⟨hd, hb⟩
    rw [iterMax_none hm] at this
    cases this
  | some m =>
    obtain ⟨h1, h2⟩ := iterMax_some hm
    obtain ⟨h3, h4⟩ := (hmem m).mp h1
    exact ⟨m, h3, h4, fun d' hd' hb' => h2 d' ((hmem d').mpr ⟨hd', hb'⟩), rfl⟩

theorem localDefinition_none {f : LspFiles} {uri n : Str} {p : Point} (hno : ∀ vars, f.variables.get? uri = some vars → ∀ d ∈ vars, ¬ Binds n p d) :
    f.localDefinition uri n p = none := by
  unfold LspFiles.localDefinition
  split
  · rfl
  · rename_i vars hv
    have : (vars.filter fun item => decide (item.name = n) && decide (item.start ≤ p) && decide (p ≤ item.scopeEnd)) = [] := by
      rw [List.filter_eq_nil_iff]
      intro d hd hh
      simp only [Bool.and_eq_true, decide_eq_true_eq] at hh
      exact hno vars hv d hd ⟨hh.1.1, hh.1.2, hh.2⟩
    rw [this]
    rfl

/-- **C35** With the cursor on a name used in an expression that has definitions in the same file starting at or before the
cursor and whose scope includes it, goto-definition returns one location in this file: that of such a definition with the
greatest start position. -/
theorem C35_latest (env : Env) (w : World) (f : LspFiles) (uri : Str) (tree : Tree) (text : Str) (pos : Position)
    (hext : fileExt uri = some .template) (hd : f.documents.get? uri = some text) (ht : (f.trees .template).get? uri = some tree)
    (es : List Elem) (u : Use) (rest : List Capture)
    (h : OnUse (env.queryMatches .jinjaObjects tree text).flatten es u rest (toPoint pos))
    (vars : List Identifier) (hv : f.variables.get? uri = some vars) (hfit : ∀ d ∈ vars, Fits d)
    (hex : ∃ d ∈ vars, Binds u.root.text (toPoint pos) d) :
    ∃ d ∈ vars, Binds u.root.text (toPoint pos) d ∧
      (∀ d' ∈ vars, Binds u.root.text (toPoint pos) d' → d'.start ≤ d.start) ∧
      f.gotoDefinition env w uri pos = .ok (some (.scalar ⟨uri, rangeOf d⟩)) := by
  obtain ⟨r, hq, hid⟩ := ident_of_use h
  obtain ⟨d, h1, h2, h3, h4⟩ := localDefinition_some hv hex
  refine ⟨d, h1, h2, h3, ?_⟩
  simp only [LspFiles.gotoDefinition, hext, ht, hd, hq, hid, Option.bind_some, h4, rangeOf_eq (hfit d h1)]

/-- after opening a template the server holds the text and its tree -/
theorem didOpen_holds {env : Env} {w : World} {s s' : Server} {uri text : Str} {out : List Send} {r : Reply}
    (he : fileExt uri = some .template) (hp : env.parseFails .jinja text ((s.files.trees .template).get? uri) = false)
    (h : s.handle env w (.didOpen uri text) = .ok (s', out, r)) :
    s'.files.documents.get? uri = some text ∧
      (s'.files.trees .template).get? uri = some (.parsed .jinja text ((s.files.trees .template).get? uri)) := by
  simp only [Server.handle] at h
  split at h
  · cases h
  · rename_i f m hf
    cases h
    obtain ⟨h1, _⟩ := LspFiles.didOpen_inv he hf
    have hdt := documents_addVariables h1
    constructor
    · show f.documents.get? uri = _
      rw [hdt.1]; exact LspFiles.openBase_document ..
    · show (f.trees .template).get? uri = _
      rw [hdt.2]; exact LspFiles.openBase_tree hp

/-- **C35** at the interface: after opening a well-nested template, goto-definition on a use in its text leads to the latest
binding of that name that is visible at the cursor. -/
theorem C35_opened (env : Env) (w w' : World) (s s' : Server) (uri text : Str) (out : List Send) (r : Reply) (t : Tpl) (pos : Position)
    (hw : t.Wf) (he : fileExt uri = some .template)
    (hp : env.parseFails .jinja text ((s.files.trees .template).get? uri) = false)
    (hsn : (snippetsQuery env (.parsed .jinja text ((s.files.trees .template).get? uri)) Point.zero text true).isError = false)
    (hc : (env.queryMatches .jinjaDefinitions (.parsed .jinja text ((s.files.trees .template).get? uri)) text).flatten = t.caps)
    (h : s.handle env w (.didOpen uri text) = .ok (s', out, r))
    (es : List Elem) (u : Use) (rest : List Capture)
    (hu : OnUse (env.queryMatches .jinjaObjects (.parsed .jinja text ((s.files.trees .template).get? uri)) text).flatten es u rest (toPoint pos))
    (hfit : ∀ b ∈ t.bindings (env.rootEnd (.parsed .jinja text ((s.files.trees .template).get? uri))),
      (b.start.row < 4294967296 ∧ b.start.column < 4294967296) ∧ b.stop.row < 4294967296 ∧ b.stop.column < 4294967296)
    (hex : ∃ b ∈ t.bindings (env.rootEnd (.parsed .jinja text ((s.files.trees .template).get? uri))),
      b.name = u.root.text ∧ b.start ≤ toPoint pos ∧ toPoint pos ≤ b.visibleTo) :
    ∃ b ∈ t.bindings (env.rootEnd (.parsed .jinja text ((s.files.trees .template).get? uri))),
      (b.name = u.root.text ∧ b.start ≤ toPoint pos ∧ toPoint pos ≤ b.visibleTo) ∧
      (∀ b' ∈ t.bindings (env.rootEnd (.parsed .jinja text ((s.files.trees .template).get? uri))),
        (b'.name = u.root.text ∧ b'.start ≤ toPoint pos ∧ toPoint pos ≤ b'.visibleTo) → b'.start ≤ b.start) ∧
      s'.handle env w' (.goto uri pos) = .ok (s', [], .goto (some (.scalar
        ⟨uri, ⟨⟨b.start.row, b.start.column⟩, ⟨b.stop.row, b.stop.column⟩⟩⟩))) := by
  obtain ⟨defs, hdq, hv⟩ := didOpen_records env w s s' uri text out r he hp hsn h
  obtain ⟨d', hd', hb⟩ := C11_scopes env _ Point.zero text t hw hc
  rw [hdq] at hd'; cases hd'
  have hdoc := didOpen_holds he hp h
  rw [← hb] at hex hfit ⊢
  have hm : ∀ d ∈ defs.identifiers, d.binding ∈ defs.identifiers.map Identifier.binding := fun d hd => List.mem_map_of_mem hd
  obtain ⟨d, h1, h2, h3, h4⟩ := C35_latest env w' s'.files uri _ text pos he hdoc.1 hdoc.2 es u rest hu defs.identifiers hv
    (fun d hd => hfit _ (hm d hd)) (by
      obtain ⟨b, hb1, hb2⟩ := hex
      obtain ⟨d, hd, rfl⟩ := List.mem_map.mp hb1
      exact ⟨d, hd, hb2⟩)
  refine ⟨d.binding, hm d h1, h2, ?_, ?_⟩
  · intro b' hb' hc'
    obtain ⟨e, he', rfl⟩ := List.mem_map.mp hb'
    exact h3 e he' hc'
  · simp only [Server.handle, h4]
    rfl

namespace Fix

/-- captures given per query -/
def envOf (cs : QueryId → List Capture) : Env := { env with queryMatches := fun q _ _ => (cs q).map fun c => [c] }

theorem envOf_caps (cs : QueryId → List Capture) (q : QueryId) (tree : Tree) (text : Str) :
    ((envOf cs).queryMatches q tree text).flatten = cs q := flatten_singletons _

/-- the macro template `Fix.tpl` with its expression `{{ i }}` -/
def tplCaps : QueryId → List Capture
  | .jinjaDefinitions => tpl.caps
  | .jinjaObjects => (Elem.expr 21 ⟨3, 4⟩ ⟨3, 11⟩ (⟨3, 4⟩, ⟨3, 6⟩) (⟨3, 9⟩, ⟨3, 11⟩)).caps ++ [(tok 3 7 8 c!"i" 11).cap .justId]
  | _ => []

theorem tpl_use (tree : Tree) (text : Str) : OnUse ((envOf tplCaps).queryMatches .jinjaObjects tree text).flatten
    [.expr 21 ⟨3, 4⟩ ⟨3, 11⟩ (⟨3, 4⟩, ⟨3, 6⟩) (⟨3, 9⟩, ⟨3, 11⟩)] ⟨.variable, tok 3 7 8 c!"i" 11, []⟩ [] (toPoint ⟨3, 7⟩) where
  caps := by rw [envOf_caps]; rfl
  ok := by intro e he; cases List.mem_singleton.mp he; exact trivial
  mark := trivial
  name := by decide
  ordered := ⟨⟨0, 1⟩, by decide, by
    simp only [List.flatMap_cons, List.flatMap_nil, Elem.toks, Mark.toks, tok, List.append_nil, List.nil_append, Ordered]
    decide⟩
  exprs := by intro n a b f l h; cases List.mem_singleton.mp h; decide
  start := by decide
  stop := by decide
  after := by intro c hc; cases hc

end Fix

/-- after opening `Fix.tpl`, goto-definition on the `i` of `{{ i }}` leads to the loop variable in line 2 -/
example (s' : Server) (out : List Send) (r : Reply)
    (h : Fix.server.handle (Fix.envOf Fix.tplCaps) Fix.world (.didOpen c!"file:///n.html" []) = .ok (s', out, r)) :
    ∃ l, s'.handle (Fix.envOf Fix.tplCaps) Fix.world (.goto c!"file:///n.html" ⟨3, 7⟩) = .ok (s', [], .goto (some (.scalar l))) ∧
      l.uri = c!"file:///n.html" := by
  obtain ⟨b, _, _, _, h⟩ := C35_opened (Fix.envOf Fix.tplCaps) Fix.world Fix.world Fix.server s' c!"file:///n.html" [] out r Fix.tpl ⟨3, 7⟩
    Fix.tpl_wf (by decide) (by decide) (by decide) (Fix.envOf_caps ..) h _ _ _ (Fix.tpl_use _ _)
    (by show ∀ b ∈ Fix.tpl.bindings ⟨9, 9⟩, _
        rw [Fix.tpl_bindings]; simp)
    (by show ∃ b ∈ Fix.tpl.bindings ⟨9, 9⟩, _
        rw [Fix.tpl_bindings]; decide)
  exact ⟨_, h, rfl⟩

/-! ## C36 -/

/-- `n` is the part of `name` before its first dot -/
def Spec.FirstSegment (n name : Str) : Prop := '.' ∉ n ∧ (name = n ∨ ∃ r, name = n ++ '.' :: r)

instance (n name : Str) : Decidable (FirstSegment n name) := decidable_of_iff _ (LspFiles.firstSegment_iff name n)

/-- where the entry `v` of `file` leads: entries without a position (link hints) have a URL of their own -/
def Spec.targetOf (file : Str) (v : Identifier) : Str :=
  if v.start = ⟨0, 0⟩ ∧ v.stop = ⟨0, 0⟩ then file ++ '-' :: v.name else file

def Spec.placeOf (env : Env) (file : Str) (v : Identifier) : Location := ⟨(env.urlParse (targetOf file v)).getD [], rangeOf v⟩

/-- the entries of other files that belong to `n` -/
def Spec.Elsewhere (f : LspFiles) (uri n file : Str) (v : Identifier) : Prop :=
  file ≠ uri ∧ ∃ vs, f.variables.get? file = some vs ∧ v ∈ vs ∧ FirstSegment n v.name

/-- no template name of the document covers the cursor -/
def Spec.NoTemplate (cs : List Capture) (p : Point) : Prop := ∀ c ∈ cs, c.name = .templateName → ¬ (c.start ≤ p ∧ p ≤ c.stop)

theorem variableLocation_ok {env : Env} {file : Str} {v : Identifier} (h : env.urlParse (targetOf file v) ≠ none) (hf : Fits v) :
    LspFiles.variableLocation env file v = .ok (placeOf env file v) := by
  unfold LspFiles.variableLocation placeOf
  have ht : (if v.start = Point.zero ∧ v.stop = Point.zero then file ++ '-' :: v.name else file) = targetOf file v := rfl
  rw [ht]
  cases hu : env.urlParse (targetOf file v) with
  | none => exact absurd hu h
  | some u => simp only [hu, rangeOf_eq hf, Option.getD_some]

theorem variableLocation_err {env : Env} {file : Str} {v : Identifier} (h : env.urlParse (targetOf file v) = none) :
    LspFiles.variableLocation env file v = .error .unwrap := by
  unfold LspFiles.variableLocation
  have ht : (if v.start = Point.zero ∧ v.stop = Point.zero then file ++ '-' :: v.name else file) = targetOf file v := rfl
  simp only [ht, h]

theorem variableLocation_cases (env : Env) (file : Str) (v : Identifier) :
    (∃ l, LspFiles.variableLocation env file v = .ok l) ∨ LspFiles.variableLocation env file v = .error .unwrap := by
  unfold LspFiles.variableLocation
  simp only
  split
  · exact Or.inr rfl
  · exact Or.inl ⟨_, rfl⟩

theorem collectLocations_ok {env : Env} {file : Str} : ∀ (vs : List Identifier),
    (∀ v ∈ vs, env.urlParse (targetOf file v) ≠ none ∧ Fits v) →
    LspFiles.collectLocations env file vs = .ok (vs.map (placeOf env file))
  | [], _ => rfl
  | v :: vs, h => by
    have hv := h v List.mem_cons_self
    simp only [LspFiles.collectLocations, variableLocation_ok hv.1 hv.2,
      collectLocations_ok vs fun x hx => h x (List.mem_cons_of_mem _ hx), List.map_cons]

theorem collectLocations_cases (env : Env) (file : Str) : ∀ (vs : List Identifier),
    (∃ l, LspFiles.collectLocations env file vs = .ok l) ∨ LspFiles.collectLocations env file vs = .error .unwrap
  | [] => Or.inl ⟨_, rfl⟩
  | v :: vs => by
    simp only [LspFiles.collectLocations]
    rcases variableLocation_cases env file v with ⟨l, h⟩ | h
    · rcases collectLocations_cases env file vs with ⟨l', h'⟩ | h'
      · simp only [h, h']; exact Or.inl ⟨_, rfl⟩
      · simp only [h, h']; exact Or.inr trivial
    · simp only [h]; exact Or.inr trivial

theorem collectLocations_err {env : Env} {file : Str} : ∀ (vs : List Identifier) (v : Identifier), v ∈ vs →
    env.urlParse (targetOf file v) = none → LspFiles.collectLocations env file vs = .error .unwrap
  | x :: vs, v, hv, hu => by
    simp only [LspFiles.collectLocations]
    rcases List.mem_cons.mp hv with rfl | hv
    · rw [variableLocation_err hu]
    · rw [collectLocations_err vs v hv hu]
      rcases variableLocation_cases env file x with ⟨l, h⟩ | h <;> rw [h]

theorem segmentMatches_eq (n : Str) (vs : List Identifier) :
    LspFiles.segmentMatches n vs = vs.filter fun v => decide (FirstSegment n v.name) := by
  unfold LspFiles.segmentMatches
  congr 1
  funext v
  simp only [decide_eq_decide]
  exact LspFiles.firstSegment_iff v.name n

/-- the expected locations -/
def Spec.places (env : Env) (uri n : Str) (fs : List (Str × List Identifier)) : List Location :=
  (fs.filter fun e => e.1 ≠ uri).flatMap fun e => (e.2.filter fun v => FirstSegment n v.name).map (placeOf env e.1)

theorem collectFiles_ok {env : Env} {uri n : Str} : ∀ (fs : List (Str × List Identifier)),
    (∀ e ∈ fs, e.1 ≠ uri → ∀ v ∈ e.2, FirstSegment n v.name → env.urlParse (targetOf e.1 v) ≠ none ∧ Fits v) →
    LspFiles.collectFiles env uri n fs = .ok (places env uri n fs)
  | [], _ => rfl
  | e :: fs, h => by
    have ih := collectFiles_ok fs fun x hx => h x (List.mem_cons_of_mem _ hx)
    simp only [LspFiles.collectFiles]
    unfold places at ih ⊢
    by_cases he : e.1 = uri
    · rw [if_pos he]
      rw [List.filter_cons_of_neg (by simpa using he)]
      exact ih
    · have hl := collectLocations_ok (env := env) (file := e.1) (LspFiles.segmentMatches n e.2) (by
        intro v hv
        rw [segmentMatches_eq, List.mem_filter] at hv
        exact h e List.mem_cons_self he v hv.1 (by simpa using hv.2))
      rw [if_neg he, hl]
      rw [List.filter_cons_of_pos (by simpa using he), List.flatMap_cons, ← segmentMatches_eq]
      simp only [ih]

theorem collectFiles_cases (env : Env) (uri n : Str) : ∀ (fs : List (Str × List Identifier)),
    (∃ l, LspFiles.collectFiles env uri n fs = .ok l) ∨ LspFiles.collectFiles env uri n fs = .error .unwrap
  | [] => Or.inl ⟨_, rfl⟩
  | e :: fs => by
    unfold LspFiles.collectFiles
    split
    · exact collectFiles_cases env uri n fs
    · rcases collectLocations_cases env e.1 (LspFiles.segmentMatches n e.2) with ⟨l, h⟩ | h
      · rcases collectFiles_cases env uri n fs with ⟨l', h'⟩ | h'
        · simp only [h, h']; exact Or.inl ⟨_, rfl⟩
        · simp only [h, h']; exact Or.inr trivial
      · simp only [h]; exact Or.inr trivial

theorem collectFiles_err {env : Env} {uri n : Str} : ∀ (fs : List (Str × List Identifier)) (e : Str × List Identifier) (v : Identifier),
    e ∈ fs → e.1 ≠ uri → v ∈ e.2 → FirstSegment n v.name → env.urlParse (targetOf e.1 v) = none →
    LspFiles.collectFiles env uri n fs = .error .unwrap
  | x :: fs, e, v, he, hne, hv, hs, hu => by
    unfold LspFiles.collectFiles
    rcases List.mem_cons.mp he with rfl | he
    · have := collectLocations_err (env := env) (file := e.1) (LspFiles.segmentMatches n e.2) v
        (by rw [segmentMatches_eq, List.mem_filter]; exact ⟨hv, by simpa using hs⟩) hu
      rw [if_neg hne, this]
    · have ih := collectFiles_err fs e v he hne hv hs hu
      split
      · exact ih
      · rcases collectLocations_cases env x.1 (LspFiles.segmentMatches n x.2) with ⟨l, h⟩ | h
        · simp only [h, ih]
        · simp only [h]

theorem collectLocations_total {env : Env} {file : Str} : ∀ (vs : List Identifier), (∀ v ∈ vs, env.urlParse (targetOf file v) ≠ none) →
    ∃ l, LspFiles.collectLocations env file vs = .ok l
  | [], _ => ⟨_, rfl⟩
  | v :: vs, h => by
    obtain ⟨l, hl⟩ := collectLocations_total vs fun x hx => h x (List.mem_cons_of_mem _ hx)
    cases hu : env.urlParse (targetOf file v) with
    | none => exact absurd hu (h v List.mem_cons_self)
    | some u =>
      have ht : (if v.start = Point.zero ∧ v.stop = Point.zero then file ++ '-' :: v.name else file) = targetOf file v := rfl
      simp only [LspFiles.collectLocations, LspFiles.variableLocation, ht, hu, hl]
      exact ⟨_, rfl⟩

theorem collectFiles_total {env : Env} {uri n : Str} : ∀ (fs : List (Str × List Identifier)),
    (∀ e ∈ fs, ∀ v ∈ e.2, env.urlParse (targetOf e.1 v) ≠ none) → ∃ l, LspFiles.collectFiles env uri n fs = .ok l
  | [], _ => ⟨_, rfl⟩
  | e :: fs, h => by
    obtain ⟨l, hl⟩ := collectFiles_total (uri := uri) (n := n) fs fun x hx => h x (List.mem_cons_of_mem _ hx)
    obtain ⟨l', hl'⟩ := collectLocations_total (LspFiles.segmentMatches n e.2)
      fun v hv => h e List.mem_cons_self v (List.mem_filter.mp hv).1
    simp only [LspFiles.collectFiles, hl, hl']
    split <;> exact ⟨_, rfl⟩

theorem no_template {env : Env} {tree : Tree} {text : Str} {p : Point} (hp : p ≠ Point.zero)
    (h : NoTemplate (env.queryMatches .jinjaImports tree text).flatten p) :
    ((templatesQuery env tree p text false).inTemplate.bind fun i => i.getIdentifier p) = none := by
  cases hi : ((templatesQuery env tree p text false).inTemplate.bind fun i => i.getIdentifier p) with
  | none => rfl
  | some i =>
    obtain ⟨h1, h2, h3⟩ := template_under_cursor hi
    rcases h1 with ⟨_, e1, e2⟩ | ⟨c, hc, hn, _, e1, e2⟩
    · rw [e2] at h3
      exact absurd (Point.le_antisymm h3 (Point.zero_le _)) hp
    · exact absurd ⟨e1 ▸ h2, e2 ▸ h3⟩ (h c hc hn)

theorem onUse_origin {cs : List Capture} {es : List Elem} {u : Use} {rest : List Capture} {p : Point} (h : OnUse cs es u rest p) :
    p ≠ Point.zero := by
  intro e
  obtain ⟨q, hq, ho⟩ := h.ordered
  have := (JinjaObjects.tok_le _ _ u.root ho (by simp)).2.2
  have h2 := Point.lt_of_lt_of_le hq (Point.le_trans this h.start)
  rw [e] at h2
  exact Point.lt_irrefl _ h2

/-- without a local definition goto-definition collects from the other files -/
theorem goto_elsewhere {env : Env} {w : World} {f : LspFiles} {uri : Str} {tree : Tree} {text : Str} {pos : Position}
    (hext : fileExt uri = some .template) (hd : f.documents.get? uri = some text) (ht : (f.trees .template).get? uri = some tree)
    {es : List Elem} {u : Use} {rest : List Capture}
    (h : OnUse (env.queryMatches .jinjaObjects tree text).flatten es u rest (toPoint pos))
    (hno : ∀ vars, f.variables.get? uri = some vars → ∀ d ∈ vars, ¬ Binds u.root.text (toPoint pos) d)
    (htp : NoTemplate (env.queryMatches .jinjaImports tree text).flatten (toPoint pos)) :
    f.gotoDefinition env w uri pos =
      match LspFiles.collectFiles env uri u.root.text (w.order.shuffle 2 f.variables.entries) with
      | .error e => .error e
      | .ok all => .ok (some (.array all)) := by
  obtain ⟨r, hq, hid⟩ := ident_of_use h
  simp only [LspFiles.gotoDefinition, hext, ht, hd, hq, hid, Option.bind_some, localDefinition_none hno,
    no_template (onUse_origin h) htp, Option.bind_none, Option.getD_some]
  cases LspFiles.collectFiles env uri u.root.text (w.order.shuffle 2 f.variables.entries) <;> rfl

theorem mem_entries {f : LspFiles} {o : HashOrder} {k : Nat} {e : Str × List Identifier} :
    e ∈ o.shuffle k f.variables.entries ↔ f.variables.get? e.1 = some e.2 := by
  rw [HMap.mem_shuffle, HMap.get?_eq_some_iff]

/-- **C36** (part: recorded entries) Without a local definition and template under the cursor, goto-definition on a name used in an
expression returns, irrespective of the hash order, exactly the locations of the entries of all other files whose name's first dotted
segment is the identifier, each once.  Missing: entries that are not variables are returned, too (`C36_template_name_refuted`), and
an entry whose file name is not a URL crashes the server (`C37_not_url_refuted`). -/
theorem C36_cross_file_partial (env : Env) (w : World) (f : LspFiles) (uri : Str) (tree : Tree) (text : Str) (pos : Position)
    (hext : fileExt uri = some .template) (hd : f.documents.get? uri = some text) (ht : (f.trees .template).get? uri = some tree)
    (es : List Elem) (u : Use) (rest : List Capture)
    (h : OnUse (env.queryMatches .jinjaObjects tree text).flatten es u rest (toPoint pos))
    (hno : ∀ vars, f.variables.get? uri = some vars → ∀ d ∈ vars, ¬ Binds u.root.text (toPoint pos) d)
    (htp : NoTemplate (env.queryMatches .jinjaImports tree text).flatten (toPoint pos))
    (hurl : ∀ file v, Elsewhere f uri u.root.text file v → env.urlParse (targetOf file v) ≠ none ∧ Fits v) :
    ∃ ls, f.gotoDefinition env w uri pos = .ok (some (.array ls)) ∧ ls.Perm (places env uri u.root.text f.variables.entries) ∧
      ∀ l, l ∈ ls ↔ ∃ file v, Elsewhere f uri u.root.text file v ∧ l = placeOf env file v := by
  have hok := collectFiles_ok (env := env) (uri := uri) (n := u.root.text) (w.order.shuffle 2 f.variables.entries)
    (fun e he hne v hv hs => hurl e.1 v ⟨hne, e.2, mem_entries.mp he, hv, hs⟩)
  refine ⟨_, by rw [goto_elsewhere hext hd ht h hno htp, hok], ?_, ?_⟩
  · unfold places
    exact ((w.order.perm 2 f.variables.entries).filter _).flatMap_right _
  · intro l
    unfold places
    simp only [List.mem_flatMap, List.mem_filter, List.mem_map, decide_eq_true_eq, decide_not, Bool.not_eq_true', decide_eq_false_iff_not]
    constructor
    · rintro ⟨e, ⟨he, hne⟩, v, ⟨hv, hs⟩, rfl⟩
      exact ⟨e.1, v, ⟨hne, e.2, mem_entries.mp he, hv, hs⟩, rfl⟩
    · rintro ⟨file, v, ⟨hne, vs, hg, hv, hs⟩, rfl⟩
      exact ⟨(file, vs), ⟨mem_entries.mpr hg, hne⟩, v, ⟨hv, hs⟩, rfl⟩

/-- **C36 is false for template references**: a backend file that refers to the template `user.html` makes goto-definition on the
variable `user` lead to that string. -/
theorem C36_template_name_refuted (env : Env) (w : World) (f : LspFiles) (uri : Str) (tree : Tree) (text : Str) (pos : Position)
    (hext : fileExt uri = some .template) (hd : f.documents.get? uri = some text) (ht : (f.trees .template).get? uri = some tree)
    (es : List Elem) (u : Use) (rest : List Capture)
    (h : OnUse (env.queryMatches .jinjaObjects tree text).flatten es u rest (toPoint pos))
    (hno : ∀ vars, f.variables.get? uri = some vars → ∀ d ∈ vars, ¬ Binds u.root.text (toPoint pos) d)
    (htp : NoTemplate (env.queryMatches .jinjaImports tree text).flatten (toPoint pos))
    (hurl : ∀ file v, Elsewhere f uri u.root.text file v → env.urlParse (targetOf file v) ≠ none ∧ Fits v)
    (file : Str) (vs : List Identifier) (v : Identifier) (hf : file ≠ uri) (hg : f.variables.get? file = some vs) (hv : v ∈ vs)
    (_hty : v.idType = .jinjaTemplate) (ext : Str) (hn : v.name = u.root.text ++ '.' :: ext) (hdot : '.' ∉ u.root.text) :
    ∃ ls, f.gotoDefinition env w uri pos = .ok (some (.array ls)) ∧ placeOf env file v ∈ ls := by
  obtain ⟨ls, h1, _, h3⟩ := C36_cross_file_partial env w f uri tree text pos hext hd ht es u rest h hno htp hurl
  exact ⟨ls, h1, (h3 _).mpr ⟨file, v, ⟨hf, vs, hg, hv, hdot, Or.inr ⟨ext, hn⟩⟩, rfl⟩⟩

/-! ## C37 -/

/-- **C37 is false**: one entry of another file with the name under the cursor whose file name is not a URL (such as the link hint name
`temp` of the Node API) makes goto-definition crash. -/
theorem C37_not_url_refuted (env : Env) (w : World) (f : LspFiles) (uri : Str) (tree : Tree) (text : Str) (pos : Position)
    (hext : fileExt uri = some .template) (hd : f.documents.get? uri = some text) (ht : (f.trees .template).get? uri = some tree)
    (es : List Elem) (u : Use) (rest : List Capture)
    (h : OnUse (env.queryMatches .jinjaObjects tree text).flatten es u rest (toPoint pos))
    (hno : ∀ vars, f.variables.get? uri = some vars → ∀ d ∈ vars, ¬ Binds u.root.text (toPoint pos) d)
    (htp : NoTemplate (env.queryMatches .jinjaImports tree text).flatten (toPoint pos))
    (file : Str) (v : Identifier) (hv : Elsewhere f uri u.root.text file v) (hbad : env.urlParse (targetOf file v) = none) :
    f.gotoDefinition env w uri pos = .error .unwrap := by
  obtain ⟨hne, vs, hg, hm, hs⟩ := hv
  rw [goto_elsewhere hext hd ht h hno htp,
    collectFiles_err (env := env) (w.order.shuffle 2 f.variables.entries) (file, vs) v (mem_entries.mpr hg) hne hm hs hbad]

/-- **C37** (part: entries with URLs) Goto-definition terminates normally at every position of every document, broken or not, when all
entries belong to names that are URLs and no pipe operator starts at the very beginning of the document. -/
theorem C37_urls_partial (env : Env) (w : World) (f : LspFiles) (uri : Str) (pos : Position)
    (hpipe : ∀ tree text, (f.trees .template).get? uri = some tree → f.documents.get? uri = some text →
      ∀ c ∈ (env.queryMatches .jinjaObjects tree text).flatten, c.name = .pipe → c.start ≠ Point.zero)
    (hurl : ∀ file vs v, f.variables.get? file = some vs → v ∈ vs → env.urlParse (targetOf file v) ≠ none) :
    ∃ r, f.gotoDefinition env w uri pos = .ok r := by
  unfold LspFiles.gotoDefinition
  cases fileExt uri with
  | none => exact ⟨_, rfl⟩
  | some lang =>
    simp only
    cases ht : (f.trees lang).get? uri with
    | none => exact ⟨_, rfl⟩
    | some tree =>
      cases hd : f.documents.get? uri with
      | none => exact ⟨_, rfl⟩
      | some text =>
        cases lang with
        | backend =>
          simp only
          split <;> exact ⟨_, rfl⟩
        | template =>
          obtain ⟨o, ho⟩ := JinjaObjects.query_ok env tree (toPoint pos) text false
            (fun ⟨c, hc, hn, _, hz⟩ => hpipe tree text ht hd c hc hn hz)
          simp only [ho]
          split
          · exact ⟨_, rfl⟩
          · split
            · exact ⟨_, rfl⟩
            · obtain ⟨l, hl⟩ := collectFiles_total (env := env) (uri := uri) (n := (o.isIdent (toPoint pos)).getD [])
                (w.order.shuffle 2 f.variables.entries) (fun e he v hv => hurl e.1 e.2 v (mem_entries.mp he) hv)
              rw [hl]; exact ⟨_, rfl⟩

namespace Fix

/-- the workspace of two templates with the entries of a backend file added -/
def gotoFiles (key : Str) (v : Identifier) : LspFiles :=
  { files with variables := files.variables.insert key [v, { Identifier.new c!"other" ⟨4, 1⟩ ⟨4, 6⟩ with idType := .backendVariable }] }

/-- a use of `user` in line 0 -/
def userCaps : List Capture := (opened.flatMap Elem.caps) ++ [(tok 0 3 7 c!"user" 2).cap .justId]

theorem user_on (tree : Tree) (text : Str) : OnUse ((envWith .jinjaObjects userCaps).queryMatches .jinjaObjects tree text).flatten
    opened ⟨.variable, tok 0 3 7 c!"user" 2, []⟩ [] (toPoint ⟨0, 5⟩) where
  caps := by rw [envWith_caps]; rfl
  ok := by intro e he; cases List.mem_singleton.mp he; exact trivial
  mark := trivial
  name := by decide
  ordered := ⟨⟨0, 1⟩, by decide, by
    simp only [opened, List.flatMap_cons, List.flatMap_nil, Elem.toks, Mark.toks, tok, List.append_nil, List.nil_append, Ordered]
    decide⟩
  exprs := by intro n a b f l h; cases List.mem_singleton.mp h; decide
  start := by decide
  stop := by decide
  after := by intro c hc; cases hc

theorem user_no_template (tree : Tree) (text : Str) (p : Point) :
    NoTemplate ((envWith .jinjaObjects userCaps).queryMatches .jinjaImports tree text).flatten p := by
  intro c hc
  simp [envWith] at hc

end Fix

/-- `{{ user }}` with a backend file that declares `user.name` -/
example : ∃ ls, (Fix.gotoFiles c!"file:///m.py" { Identifier.new c!"user.name" ⟨3, 1⟩ ⟨3, 10⟩ with idType := .backendVariable }).gotoDefinition
      (Fix.envWith .jinjaObjects Fix.userCaps) Fix.world Fix.uriA ⟨0, 5⟩ = .ok (some (.array ls)) ∧
    ls.Perm [⟨c!"file:///m.py", ⟨⟨3, 1⟩, ⟨3, 10⟩⟩⟩] := by
  obtain ⟨ls, h1, h2, _⟩ := C36_cross_file_partial (Fix.envWith .jinjaObjects Fix.userCaps) Fix.world
    (Fix.gotoFiles c!"file:///m.py" { Identifier.new c!"user.name" ⟨3, 1⟩ ⟨3, 10⟩ with idType := .backendVariable }) Fix.uriA
    (.parsed .jinja c!"aaa" none) c!"aaa" ⟨0, 5⟩ (by decide) (by decide) rfl _ _ _ (Fix.user_on _ _)
    (by intro vars hv; cases hv; intro d hd; cases hd) (Fix.user_no_template _ _ _) (by
      rintro file v ⟨hne, vs, hg, hv, _⟩
      refine ⟨by simp [Fix.envWith, Fix.env], ?_⟩
      have key : ∀ e ∈ (Fix.gotoFiles c!"file:///m.py" { Identifier.new c!"user.name" ⟨3, 1⟩ ⟨3, 10⟩ with idType := .backendVariable }).variables.entries,
        ∀ v ∈ e.2, v.start.row < 5 ∧ v.start.column < 11 ∧ v.stop.row < 5 ∧ v.stop.column < 11 := by decide
      have := key (file, vs) ((HMap.get?_eq_some_iff ..).mp hg) v hv
      simp only [Fits]
      omega)
  exact ⟨ls, h1, h2⟩

/-- the same with a link hint whose name is not a URL -/
example : (Fix.gotoFiles c!"temp" { Identifier.new c!"user" Point.zero Point.zero with idType := .backendVariable }).gotoDefinition
      { Fix.envWith .jinjaObjects Fix.userCaps with urlParse := fun s => if (c!"file:").isPrefixOf s then some s else none }
      Fix.world Fix.uriA ⟨0, 5⟩ = .error .unwrap :=
  C37_not_url_refuted _ Fix.world _ Fix.uriA (.parsed .jinja c!"aaa" none) c!"aaa" ⟨0, 5⟩ (by decide) (by decide) rfl _ _ _
    (Fix.user_on (.parsed .jinja c!"aaa" none) c!"aaa") (by intro vars hv; cases hv; intro d hd; cases hd)
    (Fix.user_no_template (.parsed .jinja c!"aaa" none) c!"aaa" _) c!"temp"
    { Identifier.new c!"user" Point.zero Point.zero with idType := .backendVariable }
    ⟨by decide, _, rfl, by decide, by decide, Or.inl rfl⟩ (by decide)

end JinjaLsp
