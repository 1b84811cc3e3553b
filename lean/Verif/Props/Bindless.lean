import Verif.Props.Outside
import Verif.Props.Scoping
/-
  C128: tags that bind nothing have no influence on other tags.
-/

namespace JinjaLsp
open Spec

namespace Spec

/-- `{{ … }}` without inline `if`, or a statement that neither binds nor opens nor closes a block (include, import, …) -/
def Item.Inert : Item → Prop
  | .leaf (.expr _) | .leaf (.stmt _ _) => True
  | _ => False

/-- a node below the root that can be read -/
def TagRead (digit : Char → Bool) (n : Syn) : Prop := ∃ is, Tags digit [n] is

/-- a node below the root that binds nothing and opens and closes no block: text, a comment, or an inert tag -/
def Bindless (digit : Char → Bool) (n : Syn) : Prop := ∃ is, Tags digit [n] is ∧ ∀ i ∈ is, i.Inert

/-- Tags that bind nothing are removed, added or replaced; the others are kept, renamed and moved. -/
inductive Recast.Touched (φ : Recast) (digit : Char → Bool) : List Syn → List Syn → Prop where
  | nil : φ.Touched digit [] []
  | kept {n n' : Syn} {ns ns' : List Syn} : φ.Tree n n' → TagRead digit n → TagRead digit n' → φ.Touched digit ns ns' →
      φ.Touched digit (n :: ns) (n' :: ns')
  | removed {n : Syn} {ns ns' : List Syn} : Bindless digit n → φ.Touched digit ns ns' → φ.Touched digit (n :: ns) ns'
  | added {n' : Syn} {ns ns' : List Syn} : Bindless digit n' → φ.Touched digit ns ns' → φ.Touched digit ns (n' :: ns')

end Spec

/-- inert items are left out -/
inductive Drops : List Item → List Item → Prop where
  | nil : Drops [] []
  | keep (i : Item) {is js : List Item} : Drops is js → Drops (i :: is) (i :: js)
  | drop {i : Item} {is js : List Item} : i.Inert → Drops is js → Drops (i :: is) js

namespace Drops

theorem keeps {is js : List Item} (h : Drops is js) : ∀ l : List Item, Drops (l ++ is) (l ++ js)
  | [] => h
  | i :: l => .keep i (keeps h l)

theorem drops {is js : List Item} (h : Drops is js) : ∀ l : List Item, (∀ i ∈ l, i.Inert) → Drops (l ++ is) js
  | [], _ => h
  | i :: l, hl => .drop (hl i List.mem_cons_self) (drops h l fun j hj => hl j (List.mem_cons_of_mem _ hj))

theorem matchEnd {is js : List Item} (h : Drops is js) : ∀ k, Spec.matchEnd k js = Spec.matchEnd k is := by
  induction h with
  | nil => intro k; rfl
  | keep i h ih =>
    intro k
    cases i with
    | leaf l => simp only [Spec.matchEnd]; exact ih k
    | opening d h => simp only [Spec.matchEnd]; exact ih (k + 1)
    | inline kw ts => simp only [Spec.matchEnd]; exact ih (k + 1)
    | closing e => cases k with
      | zero => rfl
      | succ k => simp only [Spec.matchEnd]; exact ih k
  | @drop i is js hi h ih =>
    intro k
    match i, hi with
    | .leaf l, _ => rw [Spec.matchEnd]; exact ih k

theorem bindings {is js : List Item} (h : Drops is js) (last : Point) : ∀ d, Items.bindings last d js = Items.bindings last d is := by
  induction h with
  | nil => intro d; rfl
  | keep i h ih =>
    intro d
    cases i with
    | leaf l => cases l <;> simp only [Items.bindings, ih, h.matchEnd]
    | opening _ _ => simp only [Items.bindings, ih, h.matchEnd]
    | inline _ _ => simp only [Items.bindings, ih]
    | closing _ => simp only [Items.bindings, ih]
  | @drop i is js hi h ih =>
    intro d
    match i, hi with
    | .leaf (.expr _), _ => simp only [Items.bindings, ih]
    | .leaf (.stmt _ _), _ => simp only [Items.bindings, ih]

theorem nodes {is js : List Item} (h : Drops is js) : js.flatMap Item.nodes = is.flatMap Item.nodes := by
  induction h with
  | nil => rfl
  | keep i h ih => rw [List.flatMap_cons, List.flatMap_cons, ih]
  | @drop i is js hi h ih =>
    match i, hi with
    | .leaf (.expr _), _ => rw [List.flatMap_cons, ih]; rfl
    | .leaf (.stmt _ _), _ => rw [List.flatMap_cons, ih]; rfl

theorem subset {is js : List Item} (h : Drops is js) : ∀ i ∈ js, i ∈ is := by
  induction h with
  | nil => exact fun _ h => h
  | keep i h ih =>
    intro j hj
    rcases List.mem_cons.mp hj with rfl | hj
    · exact List.mem_cons_self
    · exact List.mem_cons_of_mem _ (ih j hj)
  | drop hi h ih => exact fun j hj => List.mem_cons_of_mem _ (ih j hj)

theorem wf {is js : List Item} (h : Drops is js) (hw : Items.Wf is) : Items.Wf js :=
  ⟨fun i hi => hw.ok i (h.subset i hi), h.nodes ▸ hw.nodup, h.nodes ▸ hw.nonzero⟩

end Drops

theorem tags_cons {digit : Char → Bool} {n : Syn} {ns : List Syn} {is js : List Item} (h : Tags digit [n] is) (h' : Tags digit ns js) :
    Tags digit (n :: ns) (is ++ js) := by
  cases h with
  | text h1 h2 h3 => cases h3; exact .text h1 h2 h'
  | expr h1 h2 h3 =>
    cases h3
    have := Tags.expr h1 h2 h'
    simpa using this
  | stmt h1 h2 h3 h4 h5 h6 h7 h8 => cases h8; exact .stmt h1 h2 h3 h4 h5 h6 h7 h'

/-- what is kept, read on its own -/
theorem Spec.Recast.Touched.split {φ : Recast} {digit : Char → Bool} {cs cs' : List Syn} (h : φ.Touched digit cs cs') :
    ∃ ds ds' is js is' js', Tags digit cs is ∧ Tags digit ds js ∧ Tags digit cs' is' ∧ Tags digit ds' js' ∧ Zip φ.Tree ds ds' ∧
      Drops is js ∧ Drops is' js' := by
  induction h with
  | nil => exact ⟨[], [], [], [], [], [], .nil, .nil, .nil, .nil, .nil, .nil, .nil⟩
  | kept ht hr hr' _ ih =>
    obtain ⟨ds, ds', is, js, is', js', h1, h2, h3, h4, h5, h6, h7⟩ := ih
    obtain ⟨l, hl⟩ := hr
    obtain ⟨l', hl'⟩ := hr'
    exact ⟨_, _, _, _, _, _, tags_cons hl h1, tags_cons hl h2, tags_cons hl' h3, tags_cons hl' h4, .cons ht h5, h6.keeps l, h7.keeps l'⟩
  | removed hb _ ih =>
    obtain ⟨ds, ds', is, js, is', js', h1, h2, h3, h4, h5, h6, h7⟩ := ih
    obtain ⟨l, hl, hi⟩ := hb
    exact ⟨_, _, _, _, _, _, tags_cons hl h1, h2, h3, h4, h5, h6.drops l hi, h7⟩
  | added hb _ ih =>
    obtain ⟨ds, ds', is, js, is', js', h1, h2, h3, h4, h5, h6, h7⟩ := ih
    obtain ⟨l, hl, hi⟩ := hb
    exact ⟨_, _, _, _, _, _, h1, h2, tags_cons hl h3, h4, h5, h6, h7.drops l hi⟩

/-- the bindings of two templates that differ only in tags that bind nothing -/
theorem touched_bindings {φ : Recast} {digit : Char → Bool} {r r' : Syn} (ok : φ.Ok digit) (hs : WellFormed r) (hs' : WellFormed r')
    (ht : φ.Touched digit r.children r'.children) :
    ∃ is is', Tags digit r.children is ∧ Tags digit r'.children is' ∧
      ∀ last, Items.bindings (φ.place last) 0 is' = (Items.bindings last 0 is).map φ.binding := by
  obtain ⟨ds, ds', is, js, is', js', h1, h2, h3, h4, h5, h6, h7⟩ := ht.split
  refine ⟨is, is', h1, h3, fun last => ?_⟩
  rw [← h6.bindings, ← h7.bindings]
  -- both remainders as documents of their own
  let sx : Syntax := ⟨fun _ text => if text = [] then .node .other none 0 ⟨0, 0⟩ ⟨0, 0⟩ none ds
    else .node .other none (φ.node 0) (φ.place ⟨0, 0⟩) (φ.place ⟨0, 0⟩) none ds', digit, fun _ _ => [], fun _ => false⟩
  let e : Env := ⟨.debug, fun _ _ _ => false, fun t => match t with | .parsed _ [] _ => last | _ => φ.place last, fun _ _ _ => [], fun _ => none, fun _ => none⟩
  let t : Tree := .parsed .jinja [] none
  let t' : Tree := .parsed .jinja c!"n" none
  obtain ⟨d, k1, k2⟩ := C64_bracket_matching (e.over sx) t Point.zero [] js (h6.wf (tags_wf hs h1)) (over_definitions (sx := sx) rfl h2)
  obtain ⟨d', k1', k2'⟩ := C64_bracket_matching (e.over sx) t' Point.zero c!"n" js' (h7.wf (tags_wf hs' h3)) (over_definitions (sx := sx) rfl h4)
  have hd := definitions_recast (env := e) (sx := sx) (tree := t) (tree' := t') (text := []) (text' := c!"n") ok
    (.node trivial (by intro e; cases e) h5) rfl k1 k1'
  have k2 : d.identifiers.map Identifier.binding = Items.bindings last 0 js := k2
  have k2' : d'.identifiers.map Identifier.binding = Items.bindings (φ.place last) 0 js' := k2'
  rw [← k2, ← k2', hd, List.map_map, List.map_map]
  exact List.map_congr_left fun i _ => Recast.final_binding φ i

section
variable {env : Env} {sx : Syntax} {φ : Recast} {tree tree' : Tree} {text text' : Str}

/-- what is recorded for both -/
theorem touched_recorded {w w' : World} {s s' t t' : Server} {uri uri' : Str} {out out' : List Send} (ok : φ.Ok sx.digit)
    (hk : (sx.root tree text).kind = .other) (hk' : (sx.root tree' text').kind = .other)
    (hs : WellFormed (sx.root tree text)) (hs' : WellFormed (sx.root tree' text'))
    (ht : φ.Touched sx.digit (sx.root tree text).children (sx.root tree' text').children)
    (he : env.rootEnd tree' = φ.place (env.rootEnd tree))
    (h : Analysed (env.over sx) w s uri text tree s' out) (h' : Analysed (env.over sx) w' t uri' text' tree' t' out') :
    ∃ vs vs', s'.files.variables.get? uri = some vs ∧ t'.files.variables.get? uri' = some vs' ∧
      vs'.map Identifier.binding = (vs.map Identifier.binding).map φ.binding := by
  obtain ⟨is, is', h1, h2, h3⟩ := touched_bindings ok hs hs' ht
  obtain ⟨m, r, hm, hh⟩ := h.handled
  obtain ⟨m', r', hm', hh'⟩ := h'.handled
  obtain ⟨_, _, vs, k1, k2⟩ := C83_analysed env sx w s s' m uri text tree out r is hm h.template hh h.document h.parsed hs hk h1
  obtain ⟨_, _, vs', k1', k2'⟩ := C83_analysed env sx w' t t' m' uri' text' tree' out' r' is' hm' h'.template hh' h'.document h'.parsed hs' hk' h2
  exact ⟨vs, vs', k1, k1', by rw [k2, k2', he, h3]⟩

end

/-- **C128** (outline) Adding, removing or changing text, comments, expressions and statements that bind nothing leaves the outline as it is, up to
the way the other tags are moved and renamed.  Missing: expressions with an inline `if`, see below. -/
theorem C128_symbols_partial (env : Env) (sx : Syntax) (φ : Recast) (w w' w1 w2 : World) (s s' t t' : Server) (uri uri' text text' : Str)
    (tree tree' : Tree) (out out' : List Send) (ok : φ.Ok sx.digit)
    (hk : (sx.root tree text).kind = .other) (hk' : (sx.root tree' text').kind = .other)
    (hs : WellFormed (sx.root tree text)) (hs' : WellFormed (sx.root tree' text'))
    (ht : φ.Touched sx.digit (sx.root tree text).children (sx.root tree' text').children)
    (he : env.rootEnd tree' = φ.place (env.rootEnd tree))
    (h : Analysed (env.over sx) w s uri text tree s' out) (h' : Analysed (env.over sx) w' t uri' text' tree' t' out') :
    ∃ bs : List Binding,
      s'.handle (env.over sx) w1 (.documentSymbol uri) = .ok (s', [], .symbols (some
        (bs.map fun b => ⟨b.name, b.kind.symbolKind, toRange (b.start, b.stop), toRange (b.start, b.stop)⟩))) ∧
      t'.handle (env.over sx) w2 (.documentSymbol uri') = .ok (t', [], .symbols (some
        ((bs.map φ.binding).map fun b => ⟨b.name, b.kind.symbolKind, toRange (b.start, b.stop), toRange (b.start, b.stop)⟩))) := by
  obtain ⟨vs, vs', h1, h2, h3⟩ := touched_recorded ok hk hk' hs hs' ht he h h'
  refine ⟨vs.map Identifier.binding, ?_, ?_⟩
  · simp only [Server.handle, LspFiles.documentSymbols, h1, List.map_map, Function.comp_def, Identifier.binding]
  · rw [← h3]
    simp only [Server.handle, LspFiles.documentSymbols, h2, List.map_map, Function.comp_def, Identifier.binding]

/-- a use is reported exactly if the bindings say so -/
theorem reported_iff_verdict {bs : List Binding} {known : List Str} {es : List Elem} (hw : Elems.Wf es) {u : Use} (hu : .use u ∈ es) (k : JinjaDiagnostic) :
    (⟨k, u.root.text, u.root.start, u.root.stop⟩ : Report) ∈ useReports bs known (Elems.uses es) ↔ verdict bs known u.info = some k := by
  constructor
  · intro h
    obtain ⟨i, hi, hrep⟩ := List.mem_filterMap.mp h
    obtain ⟨e, hem, hei⟩ := List.mem_filterMap.mp hi
    cases e with
    | use v =>
      cases hei
      obtain ⟨k', hk, he⟩ := Option.map_eq_some_iff.mp hrep
      obtain ⟨_, _, ho⟩ := hw.ordered
      have : v = u := use_unique (ordered_starts ho).2 hem hu (congrArg Report.start he)
      subst this
      rw [hk]
      exact congrArg some (congrArg Report.kind he)
    | op => cases hei
    | word => cases hei
    | expr => cases hei
  · intro h
    exact List.mem_filterMap.mpr ⟨u.info, List.mem_filterMap.mpr ⟨_, hu, rfl⟩, by rw [h]; rfl⟩

/-- **C128** (reports) A use of a name that is in both templates is reported in one exactly if it is in the other, in the same way, whatever
expressions and statements that bind nothing have been added, removed or changed elsewhere.  Missing: expressions with an inline `if`. -/
theorem C128_reports_partial (env : Env) (sx : Syntax) (φ : Recast) (w w' : World) (s s' t t' : Server) (uri uri' text text' : Str)
    (tree tree' : Tree) (out out' : List Send) (es es' : List Elem) (ok : φ.Ok sx.digit)
    (hk : (sx.root tree text).kind = .other) (hk' : (sx.root tree' text').kind = .other)
    (hs : WellFormed (sx.root tree text)) (hs' : WellFormed (sx.root tree' text'))
    (ht : φ.Touched sx.digit (sx.root tree text).children (sx.root tree' text').children)
    (he : env.rootEnd tree' = φ.place (env.rootEnd tree))
    (hr : ReadsTree sx.digit (sx.root tree text) es) (hw : Elems.Wf es)
    (hr' : ReadsTree sx.digit (sx.root tree' text') es') (hw' : Elems.Wf es')
    (h : Analysed (env.over sx) w s uri text tree s' out) (h' : Analysed (env.over sx) w' t uri' text' tree' t' out')
    (hi : s.files.ignoreGlobals = false) (hi' : t.files.ignoreGlobals = false)
    (hkn : ∀ n, φ.name n ∈ knownElsewhere t.files.variables uri' ↔ n ∈ knownElsewhere s.files.variables uri)
    (hv : φ.place ⟨0, 0⟩ = ⟨0, 0⟩ ∨ ∀ vs, s'.files.variables.get? uri = some vs → ∀ v ∈ vs, v.scopeEnd ≠ ⟨0, 0⟩) :
    ∃ ds ds', out = [.diag (HMap.empty.insert uri ds)] ∧ out' = [.diag (HMap.empty.insert uri' ds')] ∧
      ∀ u u' : Use, .use u ∈ es → .use u' ∈ es' → u'.info = φ.use u.info → u.root.text ≠ [] → ∀ k : JinjaDiagnostic,
        (⟨k, u'.root.text, u'.root.start, u'.root.stop⟩ : Report) ∈ useDiags ds' ↔
        (⟨k, u.root.text, u.root.start, u.root.stop⟩ : Report) ∈ useDiags ds := by
  obtain ⟨vs, vs', h1, h2, h3⟩ := touched_recorded ok hk hk' hs hs' ht he h h'
  obtain ⟨m, r, hm, hh⟩ := h.handled
  obtain ⟨m', r', hm', hh'⟩ := h'.handled
  obtain ⟨ds, k1, k2⟩ := C25_reports_partial _ w s s' m uri out r _ _ hm h.template hi hh (readObjects_eq h.template h.document h.parsed) h1
  obtain ⟨ds', k1', k2'⟩ := C25_reports_partial _ w' t t' m' uri' out' r' _ _ hm' h'.template hi' hh'
    (readObjects_eq h'.template h'.document h'.parsed) h2
  refine ⟨ds, ds', k1, k1', fun u u' hu hu' hi hn k => ?_⟩
  rw [k2, k2', usesIn_elems hw (over_objects hr), usesIn_elems hw' (over_objects hr'), reported_iff_verdict hw hu, reported_iff_verdict hw' hu', hi, h3]
  have hname : ∀ b : Binding, (φ.binding b).name = φ.name b.name := by
    intro b; unfold Recast.binding
    split
    · rename_i e; show b.name = _; rw [e, ok.empty]
    · rfl
  rw [ok.verdict (known := (vs.map Identifier.binding).map (·.name) ++ knownElsewhere s.files.variables uri) hn]
  · refine hv.imp id fun hv => ?_
    intro b hb
    obtain ⟨v, hv', rfl⟩ := List.mem_map.mp hb
    exact hv vs h1 v hv'
  · rw [List.mem_append, List.mem_append, hkn]
    refine or_congr ?_ Iff.rfl
    simp only [List.mem_map, List.map_map, Function.comp_def]
    constructor
    · rintro ⟨v, hv, e⟩
      rw [hname] at e
      exact ⟨v, hv, ok.names _ _ e⟩
    · rintro ⟨v, hv, e⟩
      exact ⟨v, hv, by rw [hname, e]⟩

/-- **C128** is false for expressions with an inline `if`: once the expression in a loop `{{ a }}` is changed into `{{ a if b }}`, the report about
the loop variable used after the loop is gone. -/
theorem C128_inline_refuted (env : Env) (sx sx' : Syntax) (w w' : World) (s s' t t' : Server) (m m' : Msg) (uri text text' : Str) (tree tree' : Tree)
    (out out' : List Send) (r r' : Reply) (es es' : List Elem) (ss ss' : List ImpStmt) (d : Delims) (kw kw1 x y : Tok) (ts as bs : List HTok) (e : EndTag)
    (h : Shown env sx w s s' m uri text tree out r (.loop d kw x [] ts (.out as [] .done) e (.out [.name y] [] .done)) es ss)
    (h' : Shown env sx' w' t t' m' uri text' tree' out' r' (.loop d kw x [] ts (.out as [(kw1, bs)] .done) e (.out [.name y] [] .done)) es' ss')
    (hu : .use ⟨.variable, y, []⟩ ∈ es) (hu' : .use ⟨.variable, y, []⟩ ∈ es') (hn : x.text = y.text) :
    Reported uri out y ∧ Unreported uri out' y := by
  refine ⟨(h.reports hu rfl).2 ?_, (C120_inline_refuted env sx' w' t t' m' uri text' tree' out' r' es' ss' d kw kw1 x y ts as bs e h' hu' hn).2⟩
  rintro ⟨b, hb, _, _, _, hv⟩
  have hb : b ∈ [x.bind .forLoopKey e.d.opening.start] := hb
  cases List.mem_singleton.mp hb
  exact h.laid.gone (k := d.opening) List.mem_cons_self List.mem_cons_self hv

/-! ### Examples -/

local macro "drawn" : term =>
  `(Fix.shown ⟨by decide +kernel, by decide +kernel, by decide +kernel⟩ rfl rfl (by decide +kernel) rfl ⟨by decide +kernel, by decide +kernel, by decide +kernel⟩
    ⟨by decide +kernel, by decide +kernel, by decide +kernel⟩ ⟨_, _, _, rfl, rfl, rfl⟩)

example : Fix.Opens (.loop (Fix.tagOn 0) (Fix.tk 0 1 c!"for") (Fix.tk 0 2 c!"x") [] [.name (Fix.tk 0 5 c!"y")] (.out [.name (Fix.tk 1 1 c!"a")] [] .done)
      (Fix.endOn 2 c!"endfor") (Fix.outOn 3 c!"x" .done)) [] (Fix.tk 3 1 c!"x") ∧
    Fix.Opens (.loop (Fix.tagOn 0) (Fix.tk 0 1 c!"for") (Fix.tk 0 2 c!"x") [] [.name (Fix.tk 0 5 c!"y")]
      (.out [.name (Fix.tk 1 1 c!"a")] [(Fix.tk 1 2 c!"if", [.name (Fix.tk 1 3 c!"b")])] .done)
      (Fix.endOn 2 c!"endfor") (Fix.outOn 3 c!"x" .done)) [] (Fix.tk 3 1 c!"x") :=
  ⟨⟨drawn, Fix.uses_mem (by decide +kernel)⟩, ⟨drawn, Fix.uses_mem (by decide +kernel)⟩⟩

namespace Fix

/-- ```
{% set b = 1 %}
{% for x in b %}
{{ x }} {{ y }}
{% endfor %}
{{ b }} {{ c }}
``` -/
def leanP : Program :=
  .set (tagOn 0) (tk 0 1 c!"set") (tk 0 2 c!"b") [.eq (tk 0 3 c!"=")]
    (.loop (tagOn 1) (tk 1 1 c!"for") (tk 1 2 c!"x") [] [.name (tk 1 4 c!"b")]
      (.out [.name (tk 2 1 c!"x"), .name (tk 2 2 c!"y")] [] .done) (endOn 3 c!"endfor")
      (.out [.name (tk 4 1 c!"b"), .name (tk 4 2 c!"c")] [] .done))

/-- an expression that is added: `{{ q }}` -/
def addedOut : Syn := exprOf [leafOf .identifier ⟨⟨1, 11⟩, ⟨1, 19⟩, c!"q", 7001⟩]

/-- ```

{{ q }}

{% set bb = 1 %}
{% for x in bb %}

{% endfor %}
{{ bb }} {{ c }}
``` -/
def changedRoot : Syn := .node .other none 900 ⟨0, 0⟩ ⟨12, 9⟩ (some [])
  (addedOut :: ((draw leanP).eraseIdx 2).map (recast rewriting))

def synChanged : Syntax := { drawSyn leanP with root := fun _ text => if text = c!"n" then changedRoot else drawRoot leanP }

theorem readable {n : Syn} (h : (readTags [n]).isSome = true) : TagRead digit n := by
  obtain ⟨is, h⟩ := Option.isSome_iff_exists.mp h
  exact ⟨is, readTags_sound h⟩

theorem bindless {n : Syn} {i : Item} (h : readTags [n] = some [i]) (hi : i.Inert) : Bindless digit n :=
  ⟨_, readTags_sound h, fun j hj => by cases List.mem_singleton.mp hj; exact hi⟩

theorem kept_recast {n : Syn} {ns ns' : List Syn} (h1 : (readTags [n]).isSome = true) (h2 : (readTags [recast rewriting n]).isSome = true)
    (h3 : ∀ m ∈ n.flat, Named m) (h : rewriting.Touched digit ns ns') : rewriting.Touched digit (n :: ns) (recast rewriting n :: ns') :=
  .kept (recast_tree rewriting n h3) (readable h1) (readable h2) h

theorem touched : rewriting.Touched digit (synChanged.root treeOne []).children (synChanged.root treeTwo c!"n").children :=
  .added (bindless (n := addedOut) rfl trivial) (kept_recast rfl rfl (by decide +kernel) (kept_recast rfl rfl (by decide +kernel)
    (.removed (bindless rfl trivial) (kept_recast rfl rfl (by decide +kernel) (kept_recast rfl rfl (by decide +kernel) .nil)))))

end Fix

/-- the hypotheses of `C128_symbols_partial` and `C128_reports_partial` hold; `b` and `c` after the loop are `bb` and `c` in the other template -/
example : Fix.rewriting.Ok Fix.synChanged.digit ∧ WellFormed (Fix.synChanged.root Fix.treeOne []) ∧ WellFormed (Fix.synChanged.root Fix.treeTwo c!"n") ∧
    Fix.rewriting.Touched Fix.synChanged.digit (Fix.synChanged.root Fix.treeOne []).children (Fix.synChanged.root Fix.treeTwo c!"n").children ∧
    Fix.envTwo.rootEnd Fix.treeTwo = Fix.rewriting.place (Fix.envTwo.rootEnd Fix.treeOne) ∧
    ReadsTree Fix.synChanged.digit (Fix.synChanged.root Fix.treeOne []) (Fix.plainElems (Fix.drawRoot Fix.leanP)) ∧
    Elems.Wf (Fix.plainElems (Fix.drawRoot Fix.leanP)) ∧
    ReadsTree Fix.synChanged.digit (Fix.synChanged.root Fix.treeTwo c!"n") (Fix.plainElems Fix.changedRoot) ∧
    Elems.Wf (Fix.plainElems Fix.changedRoot) ∧
    (∃ u u' : Use, .use u ∈ Fix.plainElems (Fix.drawRoot Fix.leanP) ∧ .use u' ∈ Fix.plainElems Fix.changedRoot ∧ u'.info = Fix.rewriting.use u.info ∧
      u.root.text = c!"b" ∧ u'.root.text = c!"bb" ∧ u'.root.start = ⟨7, 11⟩) ∧
    ∃ s' out t' out', Analysed (Fix.envTwo.over Fix.synChanged) Fix.world Fix.server Fix.uriA [] Fix.treeOne s' out ∧
      Analysed (Fix.envTwo.over Fix.synChanged) Fix.world Fix.server Fix.uriA c!"n" Fix.treeTwo t' out' ∧
      (∀ n, Fix.rewriting.name n ∈ knownElsewhere Fix.server.files.variables Fix.uriA ↔ n ∈ knownElsewhere Fix.server.files.variables Fix.uriA) ∧
      ∀ vs, s'.files.variables.get? Fix.uriA = some vs → ∀ v ∈ vs, v.scopeEnd ≠ ⟨0, 0⟩ := by
  refine ⟨Fix.rewriting_ok, ⟨by decide +kernel, by decide +kernel, by decide +kernel⟩, ⟨by decide +kernel, by decide +kernel, by decide +kernel⟩, Fix.touched, rfl,
    Fix.plainElems_read rfl, Fix.elems_wf_of (by decide +kernel), Fix.plainElems_read rfl, Fix.elems_wf_of (by decide +kernel),
    ⟨⟨.variable, Fix.tk 4 1 c!"b", []⟩, ⟨.variable, ⟨⟨7, 11⟩, ⟨7, 19⟩, c!"bb", 804⟩, []⟩, Fix.uses_mem (by decide +kernel), Fix.uses_mem (by decide +kernel),
      by decide, rfl, rfl, rfl⟩, _, _, _, _,
    ⟨⟨.didOpen Fix.uriA [], _, .opened _, rfl⟩, by decide, rfl, rfl⟩, ⟨⟨.didOpen Fix.uriA c!"n", _, .opened _, rfl⟩, by decide, rfl, rfl⟩, ?_, ?_⟩
  · intro n
    have : knownElsewhere Fix.server.files.variables Fix.uriA = [] := by decide
    rw [this]; simp
  · intro vs h v hv
    cases h
    revert v; decide

end JinjaLsp
