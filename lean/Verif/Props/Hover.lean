import Verif.Props.Complete
/-
  C43–C45: hover and document symbols.
-/

namespace JinjaLsp
open Spec JinjaObjects

/-! ## What hover finds under the cursor -/

/-- hover on the name of a use -/
theorem hover_use {env : Env} {f : LspFiles} {uri : Str} {tree : Tree} {text : Str} {pos : Position}
    (hext : fileExt uri = some .template) (hd : f.documents.get? uri = some text) (ht : (f.trees .template).get? uri = some tree)
    {es : List Elem} {u : Use} {rest : List Capture}
    (h : OnUse (env.queryMatches .jinjaObjects tree text).flatten es u rest (toPoint pos)) :
    ∃ i, f.hover env uri pos = .ok (some (i, if u.info.filter then .filter else if u.info.test then .test else .identifier)) ∧
      i.name = u.root.text ∧ i.start = u.root.start := by
  obtain ⟨r, o, os, hq, ho, h1, h2, h3, h4, h5, _⟩ := JinjaObjects.cursor_root h
  have hh : r.isHover (toPoint pos) = true := by simp [JinjaObjects.isHover, h5, h.start, h.stop]
  have hl : r.getLastId = some o := by simp [JinjaObjects.getLastId, ho]
  refine ⟨Identifier.ofObject o, ?_, by simp [Identifier.ofObject, Identifier.new, h1], by simp [Identifier.ofObject, Identifier.new, h2]⟩
  simp only [LspFiles.hover, hext, ne_eq, not_true, if_false, ht, hd, hq, hh, if_true, hl, h3, h4]
  cases u.info.filter <;> cases u.info.test <;> rfl

/-- the definitions hover chooses from: the name, not a block, ended before the use, with a scope that includes it -/
def Spec.DefinesAt (n : Str) (p : Point) (d : Identifier) : Prop :=
  d.idType ≠ .templateBlock ∧ d.name = n ∧ d.stop ≤ p ∧ p ≤ d.scopeEnd

theorem dataType_some {w : World} {f : LspFiles} {uri : Str} {i : Identifier} {vars : List Identifier}
    (hv : f.variables.get? uri = some vars) (hex : ∃ d ∈ vars, DefinesAt i.name i.start d) :
    ∃ d ∈ vars, DefinesAt i.name i.start d ∧ (∀ d' ∈ vars, DefinesAt i.name i.start d' → d'.start ≤ d.start) ∧
      f.dataType w uri i = some d.idType := by
  have hmem : ∀ d, d ∈ ((vars.filter fun v => decide (v.idType ≠ .templateBlock)).filter fun v =>
      decide (v.stop ≤ i.start) && decide (i.start ≤ v.scopeEnd) && decide (i.name = v.name)) ↔ d ∈ vars ∧ DefinesAt i.name i.start d := by
    intro d
    simp only [List.mem_filter, Bool.and_eq_true, decide_eq_true_eq, DefinesAt]
    constructor
    · rintro ⟨⟨h1, h2⟩, ⟨h3, h4⟩, h5⟩; exact ⟨h1, h2, h5.symm, h3, h4⟩
    · rintro ⟨h1, h2, h3, h4, h5⟩; exact ⟨⟨h1, h2⟩, ⟨h4, h5⟩, h3.symm⟩
  unfold LspFiles.dataType
  rw [hv]
  simp only
  cases hm : iterMax ((vars.filter fun v => decide (v.idType ≠ .templateBlock)).filter fun v =>
      decide (v.stop ≤ i.start) && decide (i.start ≤ v.scopeEnd) && decide (i.name = v.name)) with
  | none =>
    obtain ⟨d, hd, hb⟩ := hex
    have := (hmem d).mpr ⟨hd, hb⟩
    rw [iterMax_none hm] at this
    cases this
  | some m =>
    obtain ⟨h1, h2⟩ := iterMax_some hm
    obtain ⟨h3, h4⟩ := (hmem m).mp h1
    exact ⟨m, h3, h4, fun d' hd' hb' => h2 d' ((hmem d').mpr ⟨hd', hb'⟩), rfl⟩

open Classical in
theorem dataType_none {w : World} {f : LspFiles} {uri : Str} {i : Identifier} {vars : List Identifier}
    (hv : f.variables.get? uri = some vars) (hno : ∀ d ∈ vars, ¬ DefinesAt i.name i.start d) :
    f.dataType w uri i = if ∃ file v, Elsewhere f uri i.name file v then some .backendVariable else none := by
  have hnil : ((vars.filter fun v => decide (v.idType ≠ .templateBlock)).filter fun v =>
      decide (v.stop ≤ i.start) && decide (i.start ≤ v.scopeEnd) && decide (i.name = v.name)) = [] := by
    rw [List.filter_eq_nil_iff]
    intro d hd hh
    simp only [List.mem_filter, Bool.and_eq_true, decide_eq_true_eq] at hd hh
    exact hno d hd.1 ⟨hd.2, hh.2.symm, hh.1.1, hh.1.2⟩
  unfold LspFiles.dataType
  rw [hv]
  simp only [hnil]
  have hiff : ((w.order.shuffle 7 f.variables.entries).any fun file =>
        decide (file.1 ≠ uri) && decide (0 < (LspFiles.segmentMatches i.name file.2).length)) = true ↔
      ∃ file v, Elsewhere f uri i.name file v := by
    rw [List.any_eq_true]
    simp only [Bool.and_eq_true, decide_eq_true_eq, segmentMatches_eq, List.length_pos_iff_exists_mem, List.mem_filter]
    constructor
    · rintro ⟨e, he, hne, v, hv, hs⟩; exact ⟨e.1, v, hne, e.2, mem_entries.mp he, hv, hs⟩
    · rintro ⟨file, v, hne, vs, hg, hv, hs⟩; exact ⟨(file, vs), mem_entries.mpr hg, hne, v, hv, hs⟩
  simp only [iterMax, hiff]

/-! ## C43 -/

/-- how the kinds of definitions are called -/
def Spec.kindText (t : IdType) : Str :=
  if t = .setVariable then c!"Set variable" else if t = .withVariable then c!"With variable"
  else if t = .macroName then c!"Macro" else if t = .macroParameter then c!"Macro parameter"
  else if t = .forLoopKey then c!"For loop key" else if t = .forLoopValue then c!"For loop value"
  else if t = .forLoopCount then c!"For loop count" else if t = .templateBlock then c!"Template block"
  else if t = .jinjaTemplate then c!"Jinja template" else if t = .undefinedVariable then c!"Undefined variable"
  else c!"Backend variable"

/-- no two kinds are called the same -/
theorem kindText_injective (s t : IdType) (h : kindText s = kindText t) : s = t := by
  cases s <;> cases t <;> first | rfl | exact absurd h (by decide)

theorem completionDetail_eq (t : IdType) : t.completionDetail = kindText t := by cases t <;> rfl

/-- the symbol kinds of definitions -/
def Spec.symbolOf (t : IdType) : SymKind :=
  if t = .macroName then .function else if t = .templateBlock then .module
  else if t = .macroParameter ∨ t = .forLoopCount then .field else if t = .jinjaTemplate then .file
  else if t = .undefinedVariable then .constant else .variable

theorem symbolKind_eq (t : IdType) : t.symbolKind = symbolOf t := by cases t <;> rfl

/-- **C43** (part: local definitions) Hovering a variable shows the kind of the definition of that name with the greatest start among
those that ended before it and whose scope includes it. -/
theorem C43_local_partial (env : Env) (w : World) (s : Server) (uri : Str) (tree : Tree) (text : Str) (pos : Position)
    (hext : fileExt uri = some .template) (hd : s.files.documents.get? uri = some text)
    (ht : (s.files.trees .template).get? uri = some tree) (es : List Elem) (u : Use) (rest : List Capture)
    (h : OnUse (env.queryMatches .jinjaObjects tree text).flatten es u rest (toPoint pos))
    (hvar : u.info.filter = false ∧ u.info.test = false) (vars : List Identifier) (hv : s.files.variables.get? uri = some vars)
    (hex : ∃ d ∈ vars, DefinesAt u.root.text u.root.start d) :
    ∃ d ∈ vars, DefinesAt u.root.text u.root.start d ∧
      (∀ d' ∈ vars, DefinesAt u.root.text u.root.start d' → d'.start ≤ d.start) ∧
      s.handle env w (.hover uri pos) = .ok (s, [], .hover (some (kindText d.idType))) := by
  obtain ⟨i, hi, hn, hst⟩ := hover_use hext hd ht h
  rw [← hn, ← hst] at hex ⊢
  obtain ⟨d, h1, h2, h3, h4⟩ := dataType_some (w := w) hv hex
  refine ⟨d, h1, h2, h3, ?_⟩
  simp only [hvar, Bool.false_eq_true, if_false] at hi
  simp [Server.handle, Server.onHover, hi, hoverText, h4, completionDetail_eq]

open Classical in
/-- **C43** (part: other files) Without such a definition, hover shows `Backend variable` exactly when another file has an entry whose
first dotted segment is the name, irrespective of the hash order, and nothing otherwise.  Missing: entries that are template names
count, too (`C43_template_name_refuted`), and a file nothing was recorded for shows nothing (`C43_unrecorded_refuted`). -/
theorem C43_elsewhere_partial (env : Env) (w : World) (s : Server) (uri : Str) (tree : Tree) (text : Str) (pos : Position)
    (hext : fileExt uri = some .template) (hd : s.files.documents.get? uri = some text)
    (ht : (s.files.trees .template).get? uri = some tree) (es : List Elem) (u : Use) (rest : List Capture)
    (h : OnUse (env.queryMatches .jinjaObjects tree text).flatten es u rest (toPoint pos))
    (hvar : u.info.filter = false ∧ u.info.test = false) (vars : List Identifier) (hv : s.files.variables.get? uri = some vars)
    (hno : ∀ d ∈ vars, ¬ DefinesAt u.root.text u.root.start d) :
    s.handle env w (.hover uri pos) = .ok (s, [], .hover
      (if ∃ file v, Elsewhere s.files uri u.root.text file v then some c!"Backend variable" else none)) := by
  obtain ⟨i, hi, hn, hst⟩ := hover_use hext hd ht h
  rw [← hn, ← hst] at hno
  have h4 := dataType_none (w := w) hv hno
  rw [hn] at h4
  simp only [hvar, Bool.false_eq_true, if_false] at hi
  simp only [Server.handle, Server.onHover, hi, hoverText, reduceCtorEq, if_false, h4]
  by_cases hx : ∃ file v, Elsewhere s.files uri u.root.text file v
  · simp only [hx, if_true]; rfl
  · simp only [hx, if_false]; rfl

/-- **C43 is false: template names**.  `render_jinja("data.html")` in the backend makes hover call an unknown `data` a backend
variable. -/
theorem C43_template_name_refuted (env : Env) (w : World) (s : Server) (uri : Str) (tree : Tree) (text : Str) (pos : Position)
    (hext : fileExt uri = some .template) (hd : s.files.documents.get? uri = some text)
    (ht : (s.files.trees .template).get? uri = some tree) (es : List Elem) (u : Use) (rest : List Capture)
    (h : OnUse (env.queryMatches .jinjaObjects tree text).flatten es u rest (toPoint pos))
    (hvar : u.info.filter = false ∧ u.info.test = false) (vars : List Identifier) (hv : s.files.variables.get? uri = some vars)
    (hno : ∀ d ∈ vars, ¬ DefinesAt u.root.text u.root.start d)
    (file : Str) (vs : List Identifier) (v : Identifier) (hf : file ≠ uri) (hg : s.files.variables.get? file = some vs) (hmem : v ∈ vs)
    (_hty : v.idType = .jinjaTemplate) (ext : Str) (hn : v.name = u.root.text ++ '.' :: ext) (hdot : '.' ∉ u.root.text) :
    s.handle env w (.hover uri pos) = .ok (s, [], .hover (some c!"Backend variable")) := by
  have hx : ∃ file v, Elsewhere s.files uri u.root.text file v := ⟨file, v, hf, vs, hg, hmem, hdot, Or.inr ⟨ext, hn⟩⟩
  rw [C43_elsewhere_partial env w s uri tree text pos hext hd ht es u rest h hvar vars hv hno, if_pos hx]

/-- **C43 is false: files nothing was recorded for** (a template that had a syntax error when it was opened first).  There hover shows
nothing for any variable, wherever it is defined. -/
theorem C43_unrecorded_refuted (env : Env) (w : World) (s : Server) (uri : Str) (tree : Tree) (text : Str) (pos : Position)
    (hext : fileExt uri = some .template) (hd : s.files.documents.get? uri = some text)
    (ht : (s.files.trees .template).get? uri = some tree) (es : List Elem) (u : Use) (rest : List Capture)
    (h : OnUse (env.queryMatches .jinjaObjects tree text).flatten es u rest (toPoint pos))
    (hvar : u.info.filter = false ∧ u.info.test = false) (hv : s.files.variables.get? uri = none) :
    s.handle env w (.hover uri pos) = .ok (s, [], .hover none) := by
  obtain ⟨i, hi, _, _⟩ := hover_use hext hd ht h
  simp only [hvar, Bool.false_eq_true, if_false] at hi
  simp [Server.handle, Server.onHover, hi, hoverText, LspFiles.dataType, hv]

/-! ## C44 -/

/-- a table without repeated names gives each name its entry -/
theorem lookupDoc_iff {table : List (Str × Str)} (hnd : (table.map Prod.fst).Nodup) (n d : Str) :
    lookupDoc table n = some d ↔ (n, d) ∈ table := by
  unfold lookupDoc
  induction table with
  | nil => simp
  | cons e t ih =>
    obtain ⟨en, ed⟩ := e
    simp only [List.map_cons, List.nodup_cons] at hnd
    rw [List.find?_cons]
    by_cases he : en = n
    · subst he
      simp only [decide_true, Option.map_some, Option.some.injEq, List.mem_cons, Prod.mk.injEq, true_and]
      constructor
      · intro h; exact Or.inl h.symm
      · rintro (h | h)
        · exact h.symm
        · exact absurd (List.mem_map.mpr ⟨_, h, rfl⟩) hnd.1
    · simp only [he, decide_false, List.mem_cons, Prod.mk.injEq]
      rw [ih hnd.2]
      constructor
      · exact Or.inr
      · rintro (⟨h, _⟩ | h)
        · exact absurd h.symm he
        · exact h

theorem lookupDoc_none {table : List (Str × Str)} {n : Str} (h : ∀ d, (n, d) ∉ table) : lookupDoc table n = none := by
  unfold lookupDoc
  rw [List.find?_eq_none.mpr]
  · rfl
  · intro e he hh
    simp only [decide_eq_true_eq] at hh
    obtain ⟨a, b⟩ := e
    subst hh
    exact h b he

/-- **C44** (part: the tables) Every documented filter and test has exactly one entry, and the documentation is the file of that name. -/
theorem C44_one_entry :
    (filterTable.map Prod.fst).Nodup ∧ (testTable.map Prod.fst).Nodup ∧
      (∀ e ∈ filterTable, e.2 = c!"md/filters/" ++ e.1 ++ c!".md") ∧ (∀ e ∈ testTable, e.2 = c!"md/is_" ++ e.1 ++ c!".md") := by
  refine ⟨by decide, by decide, by decide, by decide⟩

/-- **C44** (filters) Hovering a filter shows the entry of that very name, and nothing when there is none. -/
theorem C44_filter (env : Env) (w : World) (s : Server) (uri : Str) (tree : Tree) (text : Str) (pos : Position)
    (hext : fileExt uri = some .template) (hd : s.files.documents.get? uri = some text)
    (ht : (s.files.trees .template).get? uri = some tree) (es : List Elem) (u : Use) (rest : List Capture)
    (h : OnUse (env.queryMatches .jinjaObjects tree text).flatten es u rest (toPoint pos)) (hf : u.info.filter = true) :
    (∀ d, (u.root.text, d) ∈ filterTable → s.handle env w (.hover uri pos) = .ok (s, [], .hover (some d))) ∧
    ((∀ d, (u.root.text, d) ∉ filterTable) → s.handle env w (.hover uri pos) = .ok (s, [], .hover none)) := by
  obtain ⟨i, hi, hn, _⟩ := hover_use hext hd ht h
  simp only [hf, if_true] at hi
  constructor
  · intro d hdm
    have := (lookupDoc_iff C44_one_entry.1 _ _).mpr hdm
    simp [Server.handle, Server.onHover, hi, hoverText, hn, this]
  · intro hno
    simp [Server.handle, Server.onHover, hi, hoverText, hn, lookupDoc_none hno]

/-- **C44** (part: tests other than reserved words) Hovering a test shows the entry of that very name, and nothing when there is none.
Missing: `true` and `false` (`C44_reserved_refuted`). -/
theorem C44_test_partial (env : Env) (w : World) (s : Server) (uri : Str) (tree : Tree) (text : Str) (pos : Position)
    (hext : fileExt uri = some .template) (hd : s.files.documents.get? uri = some text)
    (ht : (s.files.trees .template).get? uri = some tree) (es : List Elem) (u : Use) (rest : List Capture)
    (h : OnUse (env.queryMatches .jinjaObjects tree text).flatten es u rest (toPoint pos)) (hf : u.info.test = true) :
    (∀ d, (u.root.text, d) ∈ testTable → s.handle env w (.hover uri pos) = .ok (s, [], .hover (some d))) ∧
    ((∀ d, (u.root.text, d) ∉ testTable) → s.handle env w (.hover uri pos) = .ok (s, [], .hover none)) := by
  obtain ⟨i, hi, hn, _⟩ := hover_use hext hd ht h
  have hnf : u.info.filter = false := by
    unfold Use.info at hf ⊢
    cases hm : u.mark <;> simp_all
  simp only [hnf, hf, if_true, Bool.false_eq_true, if_false] at hi
  constructor
  · intro d hdm
    have := (lookupDoc_iff C44_one_entry.2.1 _ _).mpr hdm
    simp [Server.handle, Server.onHover, hi, hoverText, hn, this]
  · intro hno
    simp [Server.handle, Server.onHover, hi, hoverText, hn, lookupDoc_none hno]

/-- the `is` keyword -/
theorem JinjaObjects.check_is (s : JinjaObjects) (k : Tok) :
    s.check (k.cap .is) = some ({ s with test := (k.start, k.stop), testOn := true }, .newTest) := rfl

/-- a cursor on a reserved word after `is`, directly after the variable tested -/
structure Spec.OnReservedTest (cs : List Capture) (es : List Elem) (u : Use) (k t : Tok) (rest : List Capture) (p : Point) : Prop where
  caps : cs = es.flatMap Elem.caps ++ ((u.mark.caps ++ [u.root.cap .justId]) ++ ([k.cap .is, t.cap .justId] ++ rest))
  ok : ∀ e ∈ es, e.Ok
  mark : u.mark.Ok u.root
  name : u.root.text ∉ reserved
  word : t.text ∈ reserved
  ordered : ∃ q, Point.zero < q ∧ Ordered q (es.flatMap Elem.toks ++ (u.mark.toks ++ [u.root, k, t]))
  exprs : ∀ n a b f l, Elem.expr n a b f l ∈ es → a ≤ u.root.start
  fits : u.root.stop.row < 4294967296 ∧ u.root.stop.column < 4294967296
  start : t.start ≤ p
  after : ∀ c ∈ rest, p < c.start

theorem hover_reserved {env : Env} {tree : Tree} {text : Str} {es : List Elem} {u : Use} {k t : Tok} {rest : List Capture} {p : Point}
    (h : OnReservedTest (env.queryMatches .jinjaObjects tree text).flatten es u k t rest p) :
    ∃ r, objectsQuery env tree p text false = .ok r ∧ r.isHover p = false := by
  obtain ⟨q, hq, hord⟩ := h.ordered
  have hord0 := hord
  rw [ordered_append] at hord
  have hsplit : u.mark.toks ++ [u.root, k, t] = (u.mark.toks ++ [u.root]) ++ [k, t] := by simp
  rw [hsplit, ordered_append] at hord
  have hend : endOf (endOf q (es.flatMap Elem.toks)) (u.mark.toks ++ [u.root]) = u.root.stop := by
    rw [endOf_append]; rfl
  rw [hend] at hord
  obtain ⟨ho1, ho2, ho3, ho4, ho5, ho6, _⟩ := hord
  obtain ⟨s, f1, f2, f3, f4⟩ := JinjaObjects.feeds_doc hq h.ok ho1
  obtain ⟨s2, g1, g2, g3, g4, g5, _, _, g8, _⟩ := JinjaObjects.feeds_root u.mark u.root s _ h.mark h.name ho2 f3
  have hroot : u.root.start < u.root.stop := (JinjaObjects.tok_le _ _ u.root ho2 (by simp)).1
  have hrt : u.root.stop < t.start := Point.lt_of_le_of_lt ho3 (Point.lt_of_lt_of_le ho4 ho5)
  have hrp : u.root.stop < p := Point.lt_of_lt_of_le hrt h.start
  have hw : ({ s2 with test := (k.start, k.stop), testOn := true } : JinjaObjects).check (t.cap .justId) =
      some ({ s2 with test := (k.start, k.stop), testOn := true }, .invalid) :=
    JinjaObjects.check_word _ t (by
      intro e
      have : s2.dot.2 ≤ u.root.start := g8
      rw [show s2.dot.2 = t.start from e] at this
      exact Point.lt_irrefl _ (Point.lt_of_le_of_lt this (Point.lt_trans hroot hrt))) h.word
  have hfeed := JinjaObjects.Feeds.append (JinjaObjects.Feeds.append f1 g1)
    (JinjaObjects.Feeds.cons (JinjaObjects.check_is s2 k) (JinjaObjects.Feeds.cons hw (JinjaObjects.Feeds.nil _)))
  have hlast : ∀ x ∈ es.flatMap Elem.toks ++ (u.mark.toks ++ [u.root, k, t]), x.start ≤ p := by
    intro x hx
    have he : es.flatMap Elem.toks ++ (u.mark.toks ++ [u.root, k, t]) = (es.flatMap Elem.toks ++ (u.mark.toks ++ [u.root, k])) ++ [t] := by simp
    rw [he] at hx hord0
    rw [ordered_append] at hord0
    rcases List.mem_append.mp hx with hx | hx
    · have := JinjaObjects.tok_le _ _ x hord0.1 hx
      exact Point.le_trans (Point.le_trans (Point.le_of_lt this.1) (Point.le_trans this.2.1 hord0.2.1)) h.start
    · cases List.mem_singleton.mp hx; exact h.start
  have hbefore : ∀ c ∈ (es.flatMap Elem.caps ++ (u.mark.caps ++ [u.root.cap .justId])) ++ [k.cap .is, t.cap .justId], c.start ≤ p := by
    intro c hc
    rw [List.append_assoc, List.mem_append, List.mem_append] at hc
    rcases hc with hc | hc | hc
    · obtain ⟨e, he, hc⟩ := List.mem_flatMap.mp hc
      rcases JinjaObjects.elem_caps e c hc with ⟨x, hx, hs, _⟩ | ⟨n, a, b, f, l, rfl, hs, _⟩
      · rw [hs]; exact hlast x (List.mem_append.mpr (Or.inl (List.mem_flatMap.mpr ⟨e, he, hx⟩)))
      · rw [hs]
        exact Point.le_trans (h.exprs n a b f l he) (Point.le_of_lt (Point.lt_trans hroot hrp))
    · have hc' : c ∈ (Elem.use { u with fields := [] }).caps := by simpa [Elem.caps, Use.caps] using hc
      rcases JinjaObjects.elem_caps _ c hc' with ⟨x, hx, hs, _⟩ | ⟨n, a, b, f, l, hh, _⟩
      · rw [hs]
        refine hlast x (List.mem_append.mpr (Or.inr ?_))
        have : x ∈ u.mark.toks ++ [u.root] := by simpa [Elem.toks, Use.toks] using hx
        rw [hsplit]
        exact List.mem_append.mpr (Or.inl this)
      · cases hh
    · simp only [List.mem_cons, List.not_mem_nil, or_false] at hc
      rcases hc with rfl | rfl
      · exact hlast k (by simp)
      · exact h.start
  have hno : ({ s2 with test := (k.start, k.stop), testOn := true } : JinjaObjects).isHover p = false := by
    have h1 : ¬ (p ≤ u.root.stop) := fun hle => Point.lt_irrefl _ (Point.lt_of_lt_of_le hrp hle)
    simp only [JinjaObjects.isHover, g4, h1, decide_false, Bool.and_false, Bool.false_or, JinjaObjects.fullRange, g2,
      List.getLast?_append, List.getLast?_singleton, Option.some_or]
    simp only [JinjaObject.fullRange, useObj, Use.info, JinjaObject.lastFieldEnd, toRange, toRange2, List.getLast?_nil,
      toU32, Nat.mod_eq_of_lt h.fits.1, Nat.mod_eq_of_lt h.fits.2, List.map_nil]
    rw [Bool.and_eq_false_iff]
    right
    exact decide_eq_false h1
  refine ⟨_, ?_, hno⟩
  unfold objectsQuery
  rw [h.caps, ← List.append_assoc, ← List.append_assoc, JinjaObjects.loop_before env.profile p false rest _ ObjLoop.init _ hbefore hfeed]
  cases hr : rest with
  | nil => rfl
  | cons c cs =>
    have hc := h.after c (by simp [hr])
    have hnl : ¬ (c.start ≤ p) := fun hle => Point.lt_irrefl _ (Point.lt_of_lt_of_le hc hle)
    simp only [objectsLoop, hnl, decide_false, Bool.or_false, Bool.false_eq_true, if_false, Point.le_of_lt hc, decide_true, if_true,
      ObjLoop.init, Bool.not_false, hno]
    split <;> rfl

/-- **C44 is false for `is true` and `is false`**.  Though both tests are documented, hovering them shows nothing. -/
theorem C44_reserved_refuted (env : Env) (w : World) (s : Server) (uri : Str) (tree : Tree) (text : Str) (pos : Position)
    (hext : fileExt uri = some .template) (hd : s.files.documents.get? uri = some text)
    (ht : (s.files.trees .template).get? uri = some tree) (es : List Elem) (u : Use) (k t : Tok) (rest : List Capture)
    (h : OnReservedTest (env.queryMatches .jinjaObjects tree text).flatten es u k t rest (toPoint pos))
    (htf : t.text = c!"true" ∨ t.text = c!"false") :
    (∃ d, (t.text, d) ∈ testTable) ∧ s.handle env w (.hover uri pos) = .ok (s, [], .hover none) := by
  refine ⟨?_, ?_⟩
  · rcases htf with e | e <;> rw [e]
    · exact ⟨c!"md/is_true.md", by decide⟩
    · exact ⟨c!"md/is_false.md", by decide⟩
  · obtain ⟨r, hr, hno⟩ := hover_reserved h
    have : s.files.hover env uri pos = .ok none := by
      simp [LspFiles.hover, hext, ht, hd, hr, hno]
    simp [Server.handle, Server.onHover, this]

/-! ## C45 -/

/-- **C45** documentSymbol answers with one symbol per recorded definition, in the order of the records: its name, kind and range. -/
theorem C45_symbols (env : Env) (w : World) (s : Server) (uri : Str) (vars : List Identifier) (hv : s.files.variables.get? uri = some vars)
    (hfit : ∀ v ∈ vars, Fits v) :
    ∃ syms, s.handle env w (.documentSymbol uri) = .ok (s, [], .symbols (some syms)) ∧ syms.length = vars.length ∧
      ∀ n (h1 : n < syms.length) (h2 : n < vars.length), syms[n].name = vars[n].name ∧ syms[n].kind = symbolOf vars[n].idType ∧
        syms[n].range = rangeOf vars[n] ∧ syms[n].selectionRange = rangeOf vars[n] := by
  refine ⟨vars.map fun v => ⟨v.name, v.idType.symbolKind, toRange (v.start, v.stop), toRange (v.start, v.stop)⟩, ?_, by simp, ?_⟩
  · simp [Server.handle, LspFiles.documentSymbols, hv]
  · intro n h1 h2
    have := rangeOf_eq (hfit vars[n] (List.getElem_mem _))
    simp only [List.getElem_map]
    exact ⟨trivial, symbolKind_eq _, this, this⟩

/-- **C45** a file nothing was recorded for has no symbols -/
theorem C45_none (env : Env) (w : World) (s : Server) (uri : Str) (hv : s.files.variables.get? uri = none) :
    s.handle env w (.documentSymbol uri) = .ok (s, [], .symbols none) := by
  simp [Server.handle, LspFiles.documentSymbols, hv]

/-! ## Examples -/

namespace Fix

/-- `{{ user … }}` in a template with the given recorded definitions, and another file that has `other` -/
def hoverServer (vars : List Identifier) (other : Identifier) : Server :=
  { server with files := { files with variables := (files.variables.insert uriA vars).insert uriB [other] } }

/-- a `set user` in line 0 that ends before the use in column 3, and an earlier one -/
def hoverSet : Identifier := { Identifier.new c!"user" ⟨0, 1⟩ ⟨0, 2⟩ with idType := .macroParameter, scopeEnd := ⟨9, 9⟩ }
def hoverOld : Identifier := { Identifier.new c!"user" ⟨0, 0⟩ ⟨0, 1⟩ with idType := .setVariable, scopeEnd := ⟨9, 9⟩ }

/-- `x is true`, the cursor on `true` -/
def isTrueCaps : List Capture :=
  opened.flatMap Elem.caps ++ [(tok 0 3 4 c!"x" 2).cap .justId, (tok 0 5 7 c!"is" 3).cap .is, (tok 0 8 12 c!"true" 4).cap .justId]

theorem is_true (tree : Tree) (text : Str) : OnReservedTest ((envWith .jinjaObjects isTrueCaps).queryMatches .jinjaObjects tree text).flatten
    opened ⟨.variable, tok 0 3 4 c!"x" 2, []⟩ (tok 0 5 7 c!"is" 3) (tok 0 8 12 c!"true" 4) [] (toPoint ⟨0, 9⟩) where
  caps := by rw [envWith_caps]; rfl
  ok := by intro e he; cases List.mem_singleton.mp he; exact trivial
  mark := trivial
  name := by decide
  word := by decide
  ordered := ⟨⟨0, 1⟩, by decide, by
    simp only [opened, List.flatMap_cons, List.flatMap_nil, Elem.toks, Mark.toks, tok, List.append_nil, List.nil_append, Ordered]
    decide⟩
  exprs := by intro n a b f l h; cases List.mem_singleton.mp h; decide
  fits := by simp [tok]
  start := by decide
  after := by intro c hc; cases hc

/-- `y | upper`, the cursor on `upper` -/
def upperCaps (m : Mark) (n : Str) : List Capture := opened.flatMap Elem.caps ++ (m.caps ++ [(tok 0 6 11 n 5).cap .justId])

theorem upper_on (m : Mark) (n : Str) (hm : m.Ok (tok 0 6 11 n 5)) (hn : n ∉ reserved)
    (ho : Ordered ⟨0, 1⟩ (opened.flatMap Elem.toks ++ (m.toks ++ [tok 0 6 11 n 5]))) (tree : Tree) (text : Str) :
    OnUse ((envWith .jinjaObjects (upperCaps m n)).queryMatches .jinjaObjects tree text).flatten
      opened ⟨m, tok 0 6 11 n 5, []⟩ [] (toPoint ⟨0, 8⟩) where
  caps := by rw [envWith_caps]; simp [upperCaps]
  ok := by intro e he; cases List.mem_singleton.mp he; exact trivial
  mark := hm
  name := hn
  ordered := ⟨⟨0, 1⟩, by decide, ho⟩
  exprs := by intro n a b f l h; cases List.mem_singleton.mp h; show (⟨0, 0⟩ : Point) ≤ ⟨0, 6⟩; decide
  start := by show (⟨0, 6⟩ : Point) ≤ ⟨0, 8⟩; decide
  stop := by show (⟨0, 8⟩ : Point) ≤ ⟨0, 11⟩; decide
  after := by intro c hc; cases hc

end Fix

/-- the later of two definitions of `user` is shown -/
example : (Fix.hoverServer [Fix.hoverSet, Fix.hoverOld] Fix.hoverOld).handle (Fix.envWith .jinjaObjects Fix.userCaps) Fix.world
      (.hover Fix.uriA ⟨0, 5⟩) =
    .ok (Fix.hoverServer [Fix.hoverSet, Fix.hoverOld] Fix.hoverOld, [], .hover (some c!"Macro parameter")) := by
  obtain ⟨d, hd, _, hmax, h⟩ := C43_local_partial (Fix.envWith .jinjaObjects Fix.userCaps) Fix.world
    (Fix.hoverServer [Fix.hoverSet, Fix.hoverOld] Fix.hoverOld) Fix.uriA (.parsed .jinja c!"aaa" none) c!"aaa" ⟨0, 5⟩ (by decide)
    (by decide) rfl _ _ _ (Fix.user_on _ _) ⟨rfl, rfl⟩ [Fix.hoverSet, Fix.hoverOld] (by decide)
    ⟨Fix.hoverSet, by simp, by unfold DefinesAt; decide⟩
  rw [h]
  simp only [List.mem_cons, List.not_mem_nil, or_false] at hd
  rcases hd with rfl | rfl
  · rfl
  · exact absurd (hmax Fix.hoverSet (by simp) (by unfold DefinesAt; decide)) (by decide)

/-- without a local definition `user` is a backend variable if another file has `user.name`, and nothing is shown for it if not -/
example : (∃ file v, Elsewhere (Fix.hoverServer [] (Identifier.new c!"user.name" ⟨0, 0⟩ ⟨0, 1⟩)).files Fix.uriA c!"user" file v) ∧
    ¬ (∃ file v, Elsewhere (Fix.hoverServer [] (Identifier.new c!"users" ⟨0, 0⟩ ⟨0, 1⟩)).files Fix.uriA c!"user" file v) := by
  refine ⟨⟨Fix.uriB, _, by decide, _, rfl, List.mem_singleton.mpr rfl, by decide, Or.inr ⟨c!"name", rfl⟩⟩, ?_⟩
  rintro ⟨file, v, _, vs, hg, hv, _, hx⟩
  have key : ∀ e ∈ (Fix.hoverServer [] (Identifier.new c!"users" ⟨0, 0⟩ ⟨0, 1⟩)).files.variables.entries, ∀ v ∈ e.2,
    v.name = c!"users" := by decide
  have := key (file, vs) ((HMap.get?_eq_some_iff ..).mp hg) v hv
  rw [this] at hx
  rcases hx with hx | ⟨r, hx⟩
  · exact absurd hx (by decide)
  · simp at hx

example : (Fix.hoverServer [] { Identifier.new c!"user.html" ⟨0, 0⟩ ⟨0, 1⟩ with idType := .jinjaTemplate }).handle
      (Fix.envWith .jinjaObjects Fix.userCaps) Fix.world (.hover Fix.uriA ⟨0, 5⟩) =
    .ok (Fix.hoverServer [] { Identifier.new c!"user.html" ⟨0, 0⟩ ⟨0, 1⟩ with idType := .jinjaTemplate }, [],
      .hover (some c!"Backend variable")) :=
  C43_template_name_refuted (Fix.envWith .jinjaObjects Fix.userCaps) Fix.world _ Fix.uriA (.parsed .jinja c!"aaa" none) c!"aaa" ⟨0, 5⟩
    (by decide) (by decide) rfl _ _ _ (Fix.user_on _ _) ⟨rfl, rfl⟩ [] (by decide) (by intro d hd; cases hd)
    Fix.uriB _ _ (by decide) rfl (List.mem_singleton.mpr rfl) rfl c!"html" rfl (by decide)

/-- a template that could not be analysed -/
example : ({ Fix.server with files := { Fix.files with variables := HMap.empty.insert Fix.uriB [Fix.hoverOld] } } : Server).handle
      (Fix.envWith .jinjaObjects Fix.userCaps) Fix.world (.hover Fix.uriA ⟨0, 5⟩) =
    .ok ({ Fix.server with files := { Fix.files with variables := HMap.empty.insert Fix.uriB [Fix.hoverOld] } }, [], .hover none) :=
  C43_unrecorded_refuted (Fix.envWith .jinjaObjects Fix.userCaps) Fix.world _ Fix.uriA (.parsed .jinja c!"aaa" none) c!"aaa" ⟨0, 5⟩
    (by decide) (by decide) rfl _ _ _ (Fix.user_on _ _) ⟨rfl, rfl⟩ (by decide)

/-- `{{ … | upper }}`, `{{ … is defined }}` -/
example : Fix.server.handle (Fix.envWith .jinjaObjects (Fix.upperCaps (.filter (Fix.tok 0 5 6 c!"|" 4)) c!"upper")) Fix.world
      (.hover Fix.uriA ⟨0, 8⟩) = .ok (Fix.server, [], .hover (some c!"md/filters/upper.md")) :=
  (C44_filter _ Fix.world Fix.server Fix.uriA (.parsed .jinja c!"aaa" none) c!"aaa" ⟨0, 8⟩ (by decide) (by decide) rfl _ _ _
    (Fix.upper_on (.filter (Fix.tok 0 5 6 c!"|" 4)) c!"upper" (by simp [Mark.Ok, Fix.tok]) (by decide) (by
      simp only [Fix.opened, List.flatMap_cons, List.flatMap_nil, Elem.toks, Mark.toks, Fix.tok, List.append_nil, List.nil_append,
        List.cons_append, Ordered]
      decide) _ _) rfl).1 _ (by decide)

example : Fix.server.handle (Fix.envWith .jinjaObjects (Fix.upperCaps (.test (Fix.tok 0 3 5 c!"is" 4) []) c!"nosuchtest")) Fix.world
      (.hover Fix.uriA ⟨0, 8⟩) = .ok (Fix.server, [], .hover none) :=
  (C44_test_partial _ Fix.world Fix.server Fix.uriA (.parsed .jinja c!"aaa" none) c!"aaa" ⟨0, 8⟩ (by decide) (by decide) rfl _ _ _
    (Fix.upper_on (.test (Fix.tok 0 3 5 c!"is" 4) []) c!"nosuchtest" (by intro y hy; cases hy) (by decide) (by
      simp only [Fix.opened, List.flatMap_cons, List.flatMap_nil, Elem.toks, Mark.toks, Fix.tok, List.append_nil, List.nil_append,
        List.cons_append, Ordered]
      decide) _ _) rfl).2 (by
      intro d hd
      have key : ∀ e ∈ testTable, e.1 ≠ c!"nosuchtest" := by decide
      exact key _ hd rfl)

example : Fix.server.handle (Fix.envWith .jinjaObjects Fix.isTrueCaps) Fix.world (.hover Fix.uriA ⟨0, 9⟩) = .ok (Fix.server, [], .hover none) :=
  (C44_reserved_refuted (Fix.envWith .jinjaObjects Fix.isTrueCaps) Fix.world Fix.server Fix.uriA (.parsed .jinja c!"aaa" none) c!"aaa" ⟨0, 9⟩
    (by decide) (by decide) rfl _ _ _ _ _ (Fix.is_true _ _) (Or.inl rfl)).2

/-- two recorded definitions -/
example : ∃ a b, (Fix.hoverServer [Fix.hoverSet, Fix.hoverOld] Fix.hoverOld).handle Fix.env Fix.world (.documentSymbol Fix.uriA) =
      .ok (Fix.hoverServer [Fix.hoverSet, Fix.hoverOld] Fix.hoverOld, [], .symbols (some [a, b])) ∧
    a.kind = .field ∧ b.kind = .variable ∧ b.range = ⟨⟨0, 0⟩, ⟨0, 1⟩⟩ := by
  obtain ⟨syms, h, hl, hs⟩ := C45_symbols Fix.env Fix.world (Fix.hoverServer [Fix.hoverSet, Fix.hoverOld] Fix.hoverOld) Fix.uriA
    [Fix.hoverSet, Fix.hoverOld] (by decide) (by intro v hv; simp at hv; rcases hv with rfl | rfl <;> simp [Fits, Fix.hoverSet, Fix.hoverOld, Identifier.new])
  match syms, hl, hs, h with
  | [a, b], _, hs, h =>
    have h0 := hs 0 (by simp) (by simp)
    have h1 := hs 1 (by simp) (by simp)
    exact ⟨a, b, h, h0.2.1, h1.2.1, h1.2.2.1⟩

end JinjaLsp
