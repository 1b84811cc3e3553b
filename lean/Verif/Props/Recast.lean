import Verif.Lemmas.Recast
import Verif.Props.Syntax
/-
  C92: replacing names consistently, moving the text or new nodes change the analysis of a template only by the same replacement and
  move.
-/

namespace JinjaLsp
open Spec

/-- A template has been opened or saved and published its diagnostics. -/
structure Analysed (env : Env) (w : World) (s : Server) (uri text : Str) (tree : Tree) (s' : Server) (out : List Send) : Prop where
  handled : ∃ m r, Msg.Analyses uri m ∧ s.handle env w m = .ok (s', out, r)
  template : fileExt uri = some .template
  document : s'.files.documents.get? uri = some text
  parsed : (s'.files.trees .template).get? uri = some tree

namespace Spec.Recast
variable {φ : Recast} {digit : Char → Bool}

theorem exists_map {α β : Type} (f : α → β) (l : List α) (P : β → Prop) : (∃ b ∈ l.map f, P b) ↔ ∃ a ∈ l, P (f a) := by
  constructor
  · rintro ⟨b, hb, h⟩
    obtain ⟨a, ha, rfl⟩ := List.mem_map.mp hb
    exact ⟨a, ha, h⟩
  · rintro ⟨a, ha, h⟩; exact ⟨_, List.mem_map_of_mem ha, h⟩

theorem filterMap_same {α β : Type} {f g : α → Option β} {l : List α} (h : ∀ a ∈ l, f a = g a) : l.filterMap f = l.filterMap g := by
  induction l with
  | nil => rfl
  | cons a l ih =>
    rw [List.filterMap_cons, List.filterMap_cons, h a List.mem_cons_self, ih fun b hb => h b (List.mem_cons_of_mem _ hb)]

/-- what is said about a use does not change -/
theorem Ok.verdict (ok : φ.Ok digit) {bs : List Binding} {known known' : List Str} {u : UseInfo} (hu : u.name ≠ [])
    (hv : φ.place ⟨0, 0⟩ = ⟨0, 0⟩ ∨ ∀ b ∈ bs, b.visibleTo ≠ ⟨0, 0⟩) (hk : φ.name u.name ∈ known' ↔ u.name ∈ known) :
    Spec.verdict (bs.map φ.binding) known' (φ.use u) = Spec.verdict bs known u := by
  have hu' : φ.name u.name ≠ [] := mt (ok.name_nil _).mp hu
  have hname : ∀ b : Binding, (φ.binding b).name = φ.name u.name ↔ b.name = u.name := by
    intro b
    unfold Recast.binding
    split
    · rename_i h
      constructor
      · intro e; exact absurd (e.symm.trans h) hu'
      · intro e; exact absurd (e.symm.trans h) hu
    · exact ⟨fun e => ok.names _ _ e, fun e => congrArg _ e⟩
  have hkind : ∀ b : Binding, (φ.binding b).kind = b.kind := by intro b; unfold Recast.binding; split <;> rfl
  have hvis : ∀ b ∈ bs, (φ.binding b).VisibleAt (φ.use u) ↔ b.VisibleAt u := by
    intro b hb
    unfold Binding.VisibleAt
    rw [hkind]
    constructor
    · rintro ⟨h1, h2, h3, h4⟩
      have h1' := (hname b).mp h1
      have hb0 : b.name ≠ [] := h1' ▸ hu
      simp only [Recast.binding, if_neg hb0, Recast.use, ok.place_le, ok.place_lt] at h3 h4
      refine ⟨h1', h2, h3, h4.imp id fun e => ?_⟩
      rcases hv with hv | hv
      · exact ok.place_inj.mp (e.trans hv.symm)
      · exact absurd e (ok.place_zero (hv b hb))
    · rintro ⟨h1, h2, h3, h4⟩
      have hb0 : b.name ≠ [] := h1 ▸ hu
      refine ⟨(hname b).mpr h1, h2, ?_, ?_⟩
      · simp only [Recast.binding, if_neg hb0, Recast.use, ok.place_le]; exact h3
      · simp only [Recast.binding, if_neg hb0, Recast.use, ok.place_lt]
        refine h4.imp id fun e => ?_
        rcases hv with hv | hv
        · rw [e, hv]
        · exact absurd e (hv b hb)
  have e1 : (∃ b ∈ bs.map φ.binding, b.VisibleAt (φ.use u)) ↔ ∃ b ∈ bs, b.VisibleAt u := by
    rw [exists_map]
    exact ⟨fun ⟨b, hb, h⟩ => ⟨b, hb, (hvis b hb).mp h⟩, fun ⟨b, hb, h⟩ => ⟨b, hb, (hvis b hb).mpr h⟩⟩
  have e2 : (∃ b ∈ bs.map φ.binding, b.name = (φ.use u).name ∧ b.kind ≠ .templateBlock) ↔ ∃ b ∈ bs, b.name = u.name ∧ b.kind ≠ .templateBlock := by
    rw [exists_map]
    simp only [hkind]
    exact ⟨fun ⟨b, hb, h, h'⟩ => ⟨b, hb, (hname b).mp h, h'⟩, fun ⟨b, hb, h, h'⟩ => ⟨b, hb, (hname b).mpr h, h'⟩⟩
  have e3 : (φ.use u).name ∈ known' ↔ u.name ∈ known := hk
  unfold Spec.verdict
  simp only [e1, e2, e3]
  rfl

theorem Ok.useReports (ok : φ.Ok digit) {bs : List Binding} {known known' : List Str} {us : List UseInfo} (hu : ∀ u ∈ us, u.name ≠ [])
    (hv : φ.place ⟨0, 0⟩ = ⟨0, 0⟩ ∨ ∀ b ∈ bs, b.visibleTo ≠ ⟨0, 0⟩) (hk : ∀ t, φ.name t ∈ known' ↔ t ∈ known) :
    Spec.useReports (bs.map φ.binding) known' (us.map φ.use) = (Spec.useReports bs known us).map φ.report := by
  unfold Spec.useReports
  rw [List.filterMap_map, List.map_filterMap]
  apply filterMap_same
  intro u hmem
  simp only [Function.comp_def, ok.verdict (hu u hmem) hv (hk u.name)]
  cases Spec.verdict bs known u <;> rfl

theorem missing_refs (φ : Recast) (w w' : World) (dir : Str) (hw : ∀ p, w'.canonicalize p = w.canonicalize p) {is : List Identifier}
    (hi : ∀ i ∈ is, i.idType = .jinjaTemplate) :
    refReports w' dir true ((is.map φ.ref).map Identifier.ref) = (refReports w dir true (is.map Identifier.ref)).map φ.missing := by
  unfold refReports
  induction is with
  | nil => rfl
  | cons i is ih =>
    have ih := ih fun i h => hi i (List.mem_cons_of_mem _ h)
    have hr : (φ.ref i).ref = ⟨i.name, φ.place i.start, φ.place i.stop⟩ := by
      unfold Recast.ref; rw [if_pos (hi i List.mem_cons_self)]; rfl
    have ha : Absent w' dir i.name ↔ Absent w dir i.name := by unfold Absent; rw [hw]
    simp only [List.map_cons, hr]
    by_cases hc : i.name = [] ∨ Absent w dir i.name
    · rw [List.filter_cons_of_pos (by simpa [ha] using hc), List.filter_cons_of_pos (by simp only [Bool.true_and, Bool.or_eq_true, decide_eq_true_eq]; exact hc), List.map_cons, List.map_cons,
        List.map_cons, ih]
      rfl
    · rw [List.filter_cons_of_neg (by simpa [ha] using hc), List.filter_cons_of_neg (by simp only [Bool.true_and, Bool.or_eq_true, decide_eq_true_eq]; exact hc), ih]

end Spec.Recast

section
variable {env : Env} {sx : Syntax} {φ : Recast} {tree tree' : Tree} {text text' : Str}

/-- the definitions of a rewritten template -/
theorem definitions_recast (ok : φ.Ok sx.digit) (ht : φ.Tree (sx.root tree text) (sx.root tree' text'))
    (he : env.rootEnd tree' = φ.place (env.rootEnd tree)) {defs defs' : JinjaDefinitions} {p p' : Point}
    (h : definitionQuery (env.over sx) tree p text true = .ok defs) (h' : definitionQuery (env.over sx) tree' p' text' true = .ok defs') :
    defs'.identifiers = defs.identifiers.map φ.final := by
  have hz : Zip φ.Cap (selectCaptures ((env.over sx).queryMatches .jinjaDefinitions tree text) p true)
      (selectCaptures ((env.over sx).queryMatches .jinjaDefinitions tree' text') p' true) := by
    rw [selectCaptures_all, selectCaptures_all]
    exact ((Recast.same_definitions ok).walk .nil .nil _ _ ht).flatten
  unfold definitionQuery at h h'
  rcases Recast.Defs.run ok hz (Recast.Defs.default φ) with ⟨t, t', h1, h2, hd⟩ | ⟨e, h1, h2⟩
  · rw [h1] at h; rw [h2] at h'
    cases h; cases h'
    exact he ▸ hd.identifiers ok (env.rootEnd tree)
  · rw [h1] at h; cases h

/-- the uses of a rewritten template -/
theorem usesIn_recast (ok : φ.Ok sx.digit) (ht : φ.Tree (sx.root tree text) (sx.root tree' text')) :
    (usesIn (env.over sx) tree' text').map JinjaObject.info = ((usesIn (env.over sx) tree text).map JinjaObject.info).map φ.use ∧
      ∀ u ∈ (usesIn (env.over sx) tree text).map JinjaObject.info, u.name ≠ [] := by
  have hz := ((Recast.same_objects ok).walk .nil .nil _ _ ht).flatten
  constructor
  · have h := (Recast.Objs.feed ok hz (Recast.Objs.default φ)).objs
    have h' : usesIn (env.over sx) tree' text' = (usesIn (env.over sx) tree text).map φ.obj := h
    rw [h', List.map_map, List.map_map]
    rfl
  · intro u hu
    obtain ⟨o, ho, rfl⟩ := List.mem_map.mp hu
    refine Recast.feed_names ?_ (s := JinjaObjects.default) (fun o h => nomatch h) o ho
    intro c hc hn
    obtain ⟨c', _, hr⟩ := hz.mem_left hc
    exact (hr.sound (.inr hn)).2.2

/-- the references of a rewritten template -/
theorem refsIn_recast (ok : φ.Ok sx.digit) (ht : φ.Tree (sx.root tree text) (sx.root tree' text')) (ho : φ.Options sx.options)
    (o o' : HashOrder) : (refsIn (env.over sx) o' tree' text').Perm ((refsIn (env.over sx) o tree text).map φ.ref) := by
  have hz : Zip φ.Cap (selectCaptures ((env.over sx).queryMatches .jinjaImports tree text) Point.zero true)
      (selectCaptures ((env.over sx).queryMatches .jinjaImports tree' text') Point.zero true) := by
    rw [selectCaptures_all, selectCaptures_all]
    exact ((Recast.same_imports ho).walk .nil .nil _ _ ht).flatten
  exact (Recast.Imps.run ok hz (Recast.Imps.default φ)).collect o o'

/-- what is recorded for a template and for the rewritten one -/
theorem recorded_recast {w w' : World} {s s' t t' : Server} {uri uri' : Str} {out out' : List Send}
    (ok : φ.Ok sx.digit) (ht : φ.Tree (sx.root tree text) (sx.root tree' text'))
    (he : env.rootEnd tree' = φ.place (env.rootEnd tree)) (hno : ¬ HasError (sx.root tree text))
    (h : Analysed (env.over sx) w s uri text tree s' out) (h' : Analysed (env.over sx) w' t uri' text' tree' t' out') :
    ∃ vs, s'.files.variables.get? uri = some vs ∧ t'.files.variables.get? uri' = some (vs.map φ.final) := by
  obtain ⟨m, r, hm, hh⟩ := h.handled
  obtain ⟨m', r', hm', hh'⟩ := h'.handled
  obtain ⟨defs, hd, hv⟩ := (analyses_records hm h.template hh h.document h.parsed).1 (fun e => hno ((over_error ..).mp e))
  obtain ⟨defs', hd', hv'⟩ := (analyses_records hm' h'.template hh' h'.document h'.parsed).1
    (fun e => hno (ht.hasError.mp ((over_error ..).mp e)))
  exact ⟨_, hv, by rw [hv', definitions_recast ok ht he hd hd']⟩

end

/-- **C92** When a template is rewritten, the reports about uses of names are rewritten: the same uses are reported, with the same
severity, in the same order, if the same names are known in other files. -/
theorem C92_reports (env : Env) (sx : Syntax) (φ : Recast) (w w' : World) (s s' t t' : Server) (uri uri' text text' : Str)
    (tree tree' : Tree) (out out' : List Send) (ok : φ.Ok sx.digit) (ht : φ.Tree (sx.root tree text) (sx.root tree' text'))
    (he : env.rootEnd tree' = φ.place (env.rootEnd tree)) (hno : ¬ HasError (sx.root tree text))
    (h : Analysed (env.over sx) w s uri text tree s' out) (h' : Analysed (env.over sx) w' t uri' text' tree' t' out')
    (hi : s.files.ignoreGlobals = false) (hi' : t.files.ignoreGlobals = false)
    (hk : ∀ n, φ.name n ∈ knownElsewhere t.files.variables uri' ↔ n ∈ knownElsewhere s.files.variables uri)
    (hv : φ.place ⟨0, 0⟩ = ⟨0, 0⟩ ∨ ∀ vs, s'.files.variables.get? uri = some vs → ∀ v ∈ vs, v.scopeEnd ≠ ⟨0, 0⟩) :
    ∃ ds ds', out = [.diag (HMap.empty.insert uri ds)] ∧ out' = [.diag (HMap.empty.insert uri' ds')] ∧
      useDiags ds' = (useDiags ds).map φ.report := by
  obtain ⟨vs, hs, hs'⟩ := recorded_recast ok ht he hno h h'
  obtain ⟨m, r, hm, hh⟩ := h.handled
  obtain ⟨m', r', hm', hh'⟩ := h'.handled
  obtain ⟨ds, h1, h2⟩ := C25_reports_partial _ w s s' m uri out r _ _ hm h.template hi hh (readObjects_eq h.template h.document h.parsed) hs
  obtain ⟨ds', h1', h2'⟩ := C25_reports_partial _ w' t t' m' uri' out' r' _ _ hm' h'.template hi' hh'
    (readObjects_eq h'.template h'.document h'.parsed) hs'
  refine ⟨ds, ds', h1, h1', ?_⟩
  obtain ⟨hu, hun⟩ := usesIn_recast (env := env) ok ht
  have hb : (vs.map φ.final).map Identifier.binding = (vs.map Identifier.binding).map φ.binding := by
    rw [List.map_map, List.map_map]
    exact List.map_congr_left fun i _ => Recast.final_binding φ i
  rw [h2, h2', hb, hu]
  refine ok.useReports hun ?_ ?_
  · refine hv.imp id fun hv => ?_
    intro b hb
    obtain ⟨v, hv', rfl⟩ := List.mem_map.mp hb
    exact hv vs hs v hv'
  · intro n
    have hname : ∀ b : Binding, (φ.binding b).name = φ.name b.name := by
      intro b; unfold Recast.binding
      split
      · rename_i e; show b.name = _; rw [e, ok.empty]
      · rfl
    rw [List.mem_append, List.mem_append, hk n]
    refine or_congr ?_ Iff.rfl
    simp only [List.mem_map, List.map_map, Function.comp_def]
    constructor
    · rintro ⟨v, hv, e⟩
      rw [hname] at e
      exact ⟨v, hv, ok.names _ _ e⟩
    · rintro ⟨v, hv, e⟩
      exact ⟨v, hv, by rw [hname, e]⟩

/-- **C92** The reports about missing templates are moved with the text: the same references are reported, if the file system says the
same. -/
theorem C92_references (env : Env) (sx : Syntax) (φ : Recast) (w w' : World) (s s' t t' : Server) (uri uri' text text' : Str)
    (tree tree' : Tree) (out out' : List Send) (ok : φ.Ok sx.digit) (ht : φ.Tree (sx.root tree text) (sx.root tree' text'))
    (he : env.rootEnd tree' = φ.place (env.rootEnd tree)) (hno : ¬ HasError (sx.root tree text)) (ho : φ.Options sx.options)
    (h : Analysed (env.over sx) w s uri text tree s' out) (h' : Analysed (env.over sx) w' t uri' text' tree' t' out')
    (hdir : t.files.config.templates = s.files.config.templates) (hw : ∀ p, w'.canonicalize p = w.canonicalize p) :
    ∃ ds ds', out = [.diag (HMap.empty.insert uri ds)] ∧ out' = [.diag (HMap.empty.insert uri' ds')] ∧
      (missingDiags ds').Perm ((missingDiags ds).map φ.missing) := by
  obtain ⟨vs, hs, hs'⟩ := recorded_recast ok ht he hno h h'
  obtain ⟨m, r, hm, hh⟩ := h.handled
  obtain ⟨m', r', hm', hh'⟩ := h'.handled
  obtain ⟨h1, h2⟩ := analyses_template hm h.template hh h.document h.parsed hs
  obtain ⟨h1', h2'⟩ := analyses_template hm' h'.template hh' h'.document h'.parsed hs'
  refine ⟨_, _, h1, h1', ?_⟩
  unfold missingDiags
  rw [templateDiags_refs, templateDiags_refs, refReports_import, refReports_import, h2.conf.conf, h2'.conf.conf, hdir]
  refine (refReports_perm w' _ true ((refsIn_recast ok ht ho w.order w'.order).map Identifier.ref)).trans ?_
  rw [Recast.missing_refs φ w w' _ hw]
  intro i hi
  simpa using (List.mem_filter.mp hi).2

/-- **C92** The symbols are rewritten. -/
theorem C92_symbols (env : Env) (sx : Syntax) (φ : Recast) (w w' w1 w2 : World) (s s' t t' : Server) (uri uri' text text' : Str)
    (tree tree' : Tree) (out out' : List Send) (ok : φ.Ok sx.digit) (ht : φ.Tree (sx.root tree text) (sx.root tree' text'))
    (he : env.rootEnd tree' = φ.place (env.rootEnd tree)) (hno : ¬ HasError (sx.root tree text))
    (h : Analysed (env.over sx) w s uri text tree s' out) (h' : Analysed (env.over sx) w' t uri' text' tree' t' out') :
    ∃ bs : List Binding,
      s'.handle (env.over sx) w1 (.documentSymbol uri) = .ok (s', [], .symbols (some
        (bs.map fun b => ⟨b.name, b.kind.symbolKind, toRange (b.start, b.stop), toRange (b.start, b.stop)⟩))) ∧
      t'.handle (env.over sx) w2 (.documentSymbol uri') = .ok (t', [], .symbols (some
        ((bs.map φ.binding).map fun b => ⟨b.name, b.kind.symbolKind, toRange (b.start, b.stop), toRange (b.start, b.stop)⟩))) := by
  obtain ⟨vs, hs, hs'⟩ := recorded_recast ok ht he hno h h'
  have hb : (vs.map φ.final).map Identifier.binding = (vs.map Identifier.binding).map φ.binding := by
    rw [List.map_map, List.map_map]
    exact List.map_congr_left fun i _ => Recast.final_binding φ i
  refine ⟨vs.map Identifier.binding, ?_, ?_⟩
  · simp only [Server.handle, LspFiles.documentSymbols, hs, List.map_map, Function.comp_def, Identifier.binding]
  · rw [← hb]
    simp only [Server.handle, LspFiles.documentSymbols, hs', List.map_map, Function.comp_def, Identifier.binding]

/-! ## Two common rewritings -/

/-- two names are exchanged; if the template does not use the second, the first is renamed to it -/
def Spec.Recast.exchange (x y : Str) : Recast := ⟨fun t => if t = x then y else if t = y then x else t, id, id⟩

/-- `k` lines are inserted at the top -/
def Spec.Recast.below (k : Nat) : Recast := ⟨id, fun p => ⟨p.row + k, p.column⟩, id⟩

/-- a word that can be the name of a variable -/
structure Spec.VarName (digit : Char → Bool) (x : Str) : Prop where
  some : x ≠ []
  free : x ∉ reserved
  word : ¬ IsNumeral digit x

theorem exchange_ok {digit : Char → Bool} {x y : Str} (hx : VarName digit x) (hy : VarName digit y) : (Recast.exchange x y).Ok digit where
  names := by
    intro a b h
    simp only [Recast.exchange] at h
    grind
  empty := by simp [Recast.exchange, hx.some.symm, hy.some.symm]
  reserved := by
    intro t ht
    have h1 : t ≠ x := fun e => hx.free (e ▸ ht)
    have h2 : t ≠ y := fun e => hy.free (e ▸ ht)
    simp [Recast.exchange, h1, h2]
  numeral := by
    intro t ht
    have h1 : t ≠ x := fun e => hx.word (e ▸ ht)
    have h2 : t ≠ y := fun e => hy.word (e ▸ ht)
    simp [Recast.exchange, h1, h2]
  places := fun _ _ h => h
  nodes := fun _ _ h => h
  zero := rfl

theorem below_ok (digit : Char → Bool) (k : Nat) : (Recast.below k).Ok digit where
  names := fun _ _ h => h
  empty := rfl
  reserved := fun _ _ => rfl
  numeral := fun _ _ => rfl
  places := by
    intro p q h
    simp only [Recast.below, Point.lt_def] at h ⊢
    omega
  nodes := fun _ _ h => h
  zero := rfl

/-- **C92** Renaming `x` to `y` throughout a template that does not use `y`, when no other file knows either, changes nothing in the
reports about names but this name. -/
theorem C92_renamed (env : Env) (sx : Syntax) (x y : Str) (w w' : World) (s s' t t' : Server) (uri uri' text text' : Str)
    (tree tree' : Tree) (out out' : List Send) (hx : VarName sx.digit x) (hy : VarName sx.digit y)
    (ht : (Recast.exchange x y).Tree (sx.root tree text) (sx.root tree' text'))
    (he : env.rootEnd tree' = env.rootEnd tree) (hno : ¬ HasError (sx.root tree text))
    (h : Analysed (env.over sx) w s uri text tree s' out) (h' : Analysed (env.over sx) w' t uri' text' tree' t' out')
    (hi : s.files.ignoreGlobals = false) (hi' : t.files.ignoreGlobals = false)
    (hk : ∀ n, n ∈ knownElsewhere t.files.variables uri' ↔ n ∈ knownElsewhere s.files.variables uri)
    (hkx : x ∉ knownElsewhere s.files.variables uri) (hky : y ∉ knownElsewhere s.files.variables uri) :
    ∃ ds ds', out = [.diag (HMap.empty.insert uri ds)] ∧ out' = [.diag (HMap.empty.insert uri' ds')] ∧
      useDiags ds' = (useDiags ds).map fun r => { r with name := (Recast.exchange x y).name r.name } := by
  refine C92_reports env sx (.exchange x y) w w' s s' t t' uri uri' text text' tree tree' out out' (exchange_ok hx hy) ht he hno h h' hi hi' ?_ (.inl rfl)
  intro n
  rw [hk]
  simp only [Recast.exchange]
  by_cases h1 : n = x
  · subst h1; simp [hkx, hky]
  · by_cases h2 : n = y
    · subst h2; rw [if_neg h1, if_pos rfl]; simp [hkx, hky]
    · rw [if_neg h1, if_neg h2]

/-- **C92** Inserting `k` lines at the top of a template moves all reports `k` lines down and changes nothing else. -/
theorem C92_inserted (env : Env) (sx : Syntax) (k : Nat) (w w' : World) (s s' t t' : Server) (uri uri' text text' : Str)
    (tree tree' : Tree) (out out' : List Send) (ht : (Recast.below k).Tree (sx.root tree text) (sx.root tree' text'))
    (he : env.rootEnd tree' = ⟨(env.rootEnd tree).row + k, (env.rootEnd tree).column⟩) (hno : ¬ HasError (sx.root tree text))
    (h : Analysed (env.over sx) w s uri text tree s' out) (h' : Analysed (env.over sx) w' t uri' text' tree' t' out')
    (hi : s.files.ignoreGlobals = false) (hi' : t.files.ignoreGlobals = false)
    (hk : ∀ n, n ∈ knownElsewhere t.files.variables uri' ↔ n ∈ knownElsewhere s.files.variables uri)
    (hv : ∀ vs, s'.files.variables.get? uri = some vs → ∀ v ∈ vs, v.scopeEnd ≠ ⟨0, 0⟩) :
    ∃ ds ds', out = [.diag (HMap.empty.insert uri ds)] ∧ out' = [.diag (HMap.empty.insert uri' ds')] ∧
      useDiags ds' = (useDiags ds).map fun r => ⟨r.kind, r.name, ⟨r.start.row + k, r.start.column⟩, ⟨r.stop.row + k, r.stop.column⟩⟩ :=
  C92_reports env sx (.below k) w w' s s' t t' uri uri' text text' tree tree' out out' (below_ok _ k) ht he hno h h' hi hi' hk (.inr hv)

/-! ## Examples -/

namespace Fix

mutual
/-- a tree rewritten -/
def recast (φ : Recast) : Syn → Syn
  | .node k f i a b t cs => .node k f (φ.node i) (φ.place a) (φ.place b) (if k = .identifier then t.map φ.name else t) (recastAll φ cs)

def recastAll (φ : Recast) : List Syn → List Syn
  | [] => []
  | c :: cs => recast φ c :: recastAll φ cs
end

def Named (n : Syn) : Prop := n.kind = .identifier → n.start ≠ ⟨0, 0⟩ ∧ n.start ≤ n.stop ∧ n.text ≠ some []

instance (n : Syn) : Decidable (Named n) := inferInstanceAs (Decidable (_ → _))

mutual
theorem recast_tree (φ : Recast) : (n : Syn) → (∀ m ∈ n.flat, Named m) → φ.Tree n (recast φ n)
  | .node k f i a b t cs, h => by
    rw [recast]
    rw [Syn.flat] at h
    refine .node ?_ (h _ List.mem_cons_self) (recastAll_tree φ cs fun m hm => h m (List.mem_cons_of_mem _ hm))
    unfold Recast.Text
    cases k <;> simp

theorem recastAll_tree (φ : Recast) : (cs : List Syn) → (∀ m ∈ Syn.flatAll cs, Named m) → Zip φ.Tree cs (recastAll φ cs)
  | [], _ => by rw [recastAll]; exact .nil
  | c :: cs, h => by
    rw [recastAll]
    rw [Syn.flatAll] at h
    exact .cons (recast_tree φ c fun m hm => h m (List.mem_append_left _ hm)) (recastAll_tree φ cs fun m hm => h m (List.mem_append_right _ hm))
end

/-- `b` becomes `bb`, three lines are inserted, the nodes get new ids -/
def rewriting : Recast := ⟨(Recast.exchange c!"b" c!"bb").name, (Recast.below 3).place, fun i => 2 * i⟩

theorem rewriting_ok : rewriting.Ok digit :=
  have h := exchange_ok (digit := digit) (x := c!"b") (y := c!"bb") ⟨by decide, by decide, by decide⟩ ⟨by decide, by decide, by decide⟩
  ⟨h.names, h.empty, h.reserved, h.numeral, (below_ok digit 3).places, fun i j h => by simp only [rewriting] at h; omega, rfl⟩

/-- the tree of the text `n` is the rewritten one -/
def synTwo : Syntax := { syn with root := fun _ text => if text = c!"n" then recast rewriting root else root }

def treeOne : Tree := .parsed .jinja [] (some (.parsed .jinja c!"aaa" none))
def treeTwo : Tree := .parsed .jinja c!"n" (some (.parsed .jinja c!"aaa" none))

def envTwo : Env := { env with rootEnd := fun t => match t with
  | .parsed _ text _ => if text = c!"n" then ⟨12, 9⟩ else ⟨9, 9⟩
  | .edited _ _ => ⟨9, 9⟩ }

theorem named_root : ∀ m ∈ root.flat, Named m := by decide

theorem two_trees : rewriting.Tree (synTwo.root treeOne []) (synTwo.root treeTwo c!"n") :=
  recast_tree rewriting root named_root

theorem two_options : rewriting.Options synTwo.options := fun _ _ _ _ _ _ => .single .nil

end Fix

/-- the hypotheses of `C92_reports`, `C92_references` and `C92_symbols` hold -/
example : Fix.rewriting.Ok Fix.synTwo.digit ∧ Fix.rewriting.Tree (Fix.synTwo.root Fix.treeOne []) (Fix.synTwo.root Fix.treeTwo c!"n") ∧
    Fix.rewriting.Options Fix.synTwo.options ∧ ¬ HasError (Fix.synTwo.root Fix.treeOne []) ∧
    Fix.envTwo.rootEnd Fix.treeTwo = Fix.rewriting.place (Fix.envTwo.rootEnd Fix.treeOne) ∧
    ∃ s' out t' out', Analysed (Fix.envTwo.over Fix.synTwo) Fix.world Fix.server Fix.uriA [] Fix.treeOne s' out ∧
      Analysed (Fix.envTwo.over Fix.synTwo) Fix.world Fix.server Fix.uriA c!"n" Fix.treeTwo t' out' ∧
      (∀ n, Fix.rewriting.name n ∈ knownElsewhere Fix.server.files.variables Fix.uriA ↔ n ∈ knownElsewhere Fix.server.files.variables Fix.uriA) ∧
      ∀ vs, s'.files.variables.get? Fix.uriA = some vs → ∀ v ∈ vs, v.scopeEnd ≠ ⟨0, 0⟩ := by
  refine ⟨Fix.rewriting_ok, Fix.two_trees, Fix.two_options, ?_, rfl, _, _, _, _,
    ⟨⟨.didOpen Fix.uriA [], _, .opened _, rfl⟩, by decide, rfl, rfl⟩, ⟨⟨.didOpen Fix.uriA c!"n", _, .opened _, rfl⟩, by decide, rfl, rfl⟩, ?_, ?_⟩
  · rintro ⟨n, hn, hk⟩
    exact absurd hk (by revert n; decide)
  · intro n
    have : knownElsewhere Fix.server.files.variables Fix.uriA = [] := by decide
    rw [this]; simp
  · intro vs h v hv
    cases h
    revert v; decide

/-- what is reported: `b` is undefined in one, `bb` three lines below in the other -/
example :
    useReports [] [] [⟨c!"b", (⟨4, 10⟩, ⟨4, 11⟩), false, false, []⟩] = [⟨.undefined, c!"b", ⟨4, 10⟩, ⟨4, 11⟩⟩] ∧
    Fix.rewriting.report ⟨.undefined, c!"b", ⟨4, 10⟩, ⟨4, 11⟩⟩ = ⟨.undefined, c!"bb", ⟨7, 10⟩, ⟨7, 11⟩⟩ := by decide

/-- the hypotheses of `C92_renamed` and `C92_inserted` about rewritings hold -/
example : VarName Fix.digit c!"b" ∧ VarName Fix.digit c!"bb" ∧
    (Recast.exchange c!"b" c!"bb").Tree Fix.root (Fix.recast (.exchange c!"b" c!"bb") Fix.root) ∧
    (Recast.below 3).Tree Fix.root (Fix.recast (.below 3) Fix.root) :=
  ⟨⟨by decide, by decide, by decide⟩, ⟨by decide, by decide, by decide⟩, Fix.recast_tree _ _ Fix.named_root, Fix.recast_tree _ _ Fix.named_root⟩

end JinjaLsp
