import Verif.Props.Others
/-
  C97: diagnostics, goto-definition and hover agree about a name.
-/

namespace JinjaLsp
open Spec

namespace Spec

/-- The definition and the name at `t` do not touch: the definition is no block, it ends before the name or begins after it, and its scope
either includes the name or ended before it. -/
structure Apart (t : Tok) (d : Identifier) : Prop where
  kind : d.idType ≠ .templateBlock
  order : d.start ≤ d.stop
  place : d.stop ≤ t.start ∨ t.stop < d.start
  scope : (t.start < d.scopeEnd ∧ t.stop ≤ d.scopeEnd) ∨ (d.scopeEnd < t.start ∧ d.scopeEnd ≠ ⟨0, 0⟩)

/-- the report about the name at `t` -/
def about (k : JinjaDiagnostic) (t : Tok) : Report := ⟨k, t.text, t.start, t.stop⟩

end Spec

/-- a definition that does not touch the name is visible to all features or to none -/
theorem Spec.Apart.visible {u : Use} {d : Identifier} (h : Apart u.root d) (ho : u.root.start ≤ u.root.stop) :
    d.binding.VisibleAt u.info ↔ d.name = u.root.text ∧ d.stop ≤ u.root.start ∧ u.root.stop ≤ d.scopeEnd := by
  show (d.name = u.root.text ∧ d.idType ≠ .templateBlock ∧ d.start ≤ u.root.stop ∧ (u.root.start < d.scopeEnd ∨ d.scopeEnd = ⟨0, 0⟩)) ↔ _
  constructor
  · rintro ⟨h1, _, h3, h4⟩
    refine ⟨h1, ?_, ?_⟩
    · rcases h.place with hp | hp
      · exact hp
      · exact absurd (Point.lt_of_lt_of_le hp h3) (Point.lt_irrefl _)
    · rcases h.scope with hs | hs
      · exact hs.2
      · rcases h4 with h4 | h4
        · exact absurd (Point.lt_trans h4 hs.1) (Point.lt_irrefl _)
        · exact absurd h4 hs.2
  · rintro ⟨h1, h2, h3⟩
    refine ⟨h1, h.kind, Point.le_trans h.order (Point.le_trans h2 ho), ?_⟩
    rcases h.scope with hs | hs
    · exact Or.inl hs.1
    · exact absurd (Point.lt_of_lt_of_le hs.1 (Point.le_trans ho h3)) (Point.lt_irrefl _)

theorem Spec.Apart.binds {u : Use} {d : Identifier} (h : Apart u.root d) (ho : u.root.start ≤ u.root.stop) {p : Point}
    (h1 : u.root.start ≤ p) (h2 : p ≤ u.root.stop) :
    Binds u.root.text p d ↔ d.name = u.root.text ∧ d.stop ≤ u.root.start ∧ u.root.stop ≤ d.scopeEnd := by
  constructor
  · rintro ⟨a, b, c⟩
    refine ⟨a, ?_, ?_⟩
    · rcases h.place with hp | hp
      · exact hp
      · exact absurd (Point.lt_of_lt_of_le hp (Point.le_trans b h2)) (Point.lt_irrefl _)
    · rcases h.scope with hs | hs
      · exact hs.2
      · exact absurd (Point.lt_of_lt_of_le hs.1 (Point.le_trans h1 c)) (Point.lt_irrefl _)
  · rintro ⟨a, b, c⟩
    exact ⟨a, Point.le_trans h.order (Point.le_trans b h1), Point.le_trans h2 c⟩

theorem Spec.Apart.defines {u : Use} {d : Identifier} (h : Apart u.root d) (ho : u.root.start ≤ u.root.stop) :
    DefinesAt u.root.text u.root.start d ↔ d.name = u.root.text ∧ d.stop ≤ u.root.start ∧ u.root.stop ≤ d.scopeEnd := by
  constructor
  · rintro ⟨_, a, b, c⟩
    refine ⟨a, b, ?_⟩
    rcases h.scope with hs | hs
    · exact hs.2
    · exact absurd (Point.lt_of_lt_of_le hs.1 c) (Point.lt_irrefl _)
  · rintro ⟨a, b, c⟩
    exact ⟨h.kind, a, b, Point.le_trans ho c⟩

/-- a use is reported as `k` exactly when that is its verdict -/
theorem mem_useReports {bs : List Binding} {known : List Str} {us : List UseInfo} {i : UseInfo} (hi : i ∈ us)
    (hf : i.filter = false) (ht : i.test = false) (k : JinjaDiagnostic) :
    (⟨k, i.name, i.range.1, i.range.2⟩ : Report) ∈ useReports bs known us ↔ verdict bs known i = some k := by
  unfold useReports
  rw [List.mem_filterMap]
  constructor
  · rintro ⟨j, _, hj⟩
    cases hk : verdict bs known j with
    | none => rw [hk] at hj; cases hj
    | some k' =>
      rw [hk] at hj
      have hj := Option.some.inj hj
      have e0 := congrArg Report.kind hj
      have e1 := congrArg Report.name hj
      have e2 := congrArg Report.start hj
      have e3 := congrArg Report.stop hj
      simp only at e0 e1 e2 e3
      have hn : ¬ (j.filter = true ∨ j.test = true) := by
        intro hc
        unfold verdict at hk
        rw [if_pos hc] at hk
        cases hk
      have hni : ¬ (i.filter = true ∨ i.test = true) := by simp [hf, ht]
      have e : verdict bs known i = verdict bs known j := by
        obtain ⟨n, ⟨a, b⟩, f, t, as⟩ := i
        obtain ⟨n', ⟨a', b'⟩, f', t', as'⟩ := j
        simp only at e1 e2 e3
        subst e1 e2 e3
        unfold verdict
        rw [if_neg hn, if_neg hni]
        rfl
      rw [e, hk, e0]
  · intro h
    exact ⟨i, hi, by rw [h]; rfl⟩

/-- goto-definition and hover choose the same definition, if none touches the name -/
theorem same_choice {env : Env} {w w' : World} {s : Server} {uri : Str} {tree : Tree} {text : Str} {pos : Position}
    (hext : fileExt uri = some .template) (hd : s.files.documents.get? uri = some text)
    (ht : (s.files.trees .template).get? uri = some tree) {es : List Elem} {u : Use} {rest : List Capture}
    (h : OnUse (env.queryMatches .jinjaObjects tree text).flatten es u rest (toPoint pos)) (ho : u.root.start ≤ u.root.stop)
    (hvar : u.info.filter = false ∧ u.info.test = false) {vars : List Identifier} (hv : s.files.variables.get? uri = some vars)
    (hfit : ∀ d ∈ vars, Fits d) (hap : ∀ d ∈ vars, d.name = u.root.text → Apart u.root d)
    (hex : ∃ d ∈ vars, d.name = u.root.text ∧ d.stop ≤ u.root.start ∧ u.root.stop ≤ d.scopeEnd) :
    ∃ d ∈ vars, (d.name = u.root.text ∧ d.stop ≤ u.root.start ∧ u.root.stop ≤ d.scopeEnd) ∧
      s.handle env w (.goto uri pos) = .ok (s, [], .goto (some (.scalar ⟨uri, rangeOf d⟩))) ∧
      s.handle env w' (.hover uri pos) = .ok (s, [], .hover (some (kindText d.idType))) := by
  obtain ⟨d0, hd0, hn0⟩ := hex
  obtain ⟨r, hq, hid⟩ := ident_of_use h
  obtain ⟨i, hi, hn, hst⟩ := hover_use hext hd ht h
  simp only [hvar, Bool.false_eq_true, if_false] at hi
  have hmem1 : ∀ d, d ∈ (vars.filter fun item => decide (item.name = u.root.text) && decide (item.start ≤ toPoint pos) &&
      decide (toPoint pos ≤ item.scopeEnd)) ↔ d ∈ vars ∧ (d.name = u.root.text ∧ d.stop ≤ u.root.start ∧ u.root.stop ≤ d.scopeEnd) := by
    intro d
    rw [List.mem_filter]
    constructor
    · rintro ⟨a, b⟩
      simp only [Bool.and_eq_true, decide_eq_true_eq] at b
      exact ⟨a, ((hap d a b.1.1).binds ho h.start h.stop).mp ⟨b.1.1, b.1.2, b.2⟩⟩
    · rintro ⟨a, b⟩
      obtain ⟨c1, c2, c3⟩ := ((hap d a b.1).binds ho h.start h.stop).mpr b
      exact ⟨a, by simp only [Bool.and_eq_true, decide_eq_true_eq]; exact ⟨⟨c1, c2⟩, c3⟩⟩
  have hmem2 : ∀ d, d ∈ ((vars.filter fun v => decide (v.idType ≠ .templateBlock)).filter fun v =>
      decide (v.stop ≤ i.start) && decide (i.start ≤ v.scopeEnd) && decide (i.name = v.name)) ↔
      d ∈ vars ∧ (d.name = u.root.text ∧ d.stop ≤ u.root.start ∧ u.root.stop ≤ d.scopeEnd) := by
    intro d
    simp only [List.mem_filter, Bool.and_eq_true, decide_eq_true_eq, hn, hst]
    constructor
    · rintro ⟨⟨a, b⟩, ⟨c1, c2⟩, c3⟩
      exact ⟨a, ((hap d a c3.symm).defines ho).mp ⟨b, c3.symm, c1, c2⟩⟩
    · rintro ⟨a, b⟩
      obtain ⟨c1, c2, c3, c4⟩ := ((hap d a b.1).defines ho).mpr b
      exact ⟨⟨a, c1⟩, ⟨c3, c4⟩, c2.symm⟩
  have e := iterMax_congr (fun d => (hmem1 d).trans (hmem2 d).symm)
  cases hm : iterMax (vars.filter fun item => decide (item.name = u.root.text) && decide (item.start ≤ toPoint pos) &&
      decide (toPoint pos ≤ item.scopeEnd)) with
  | none =>
    have := (hmem1 d0).mpr ⟨hd0, hn0⟩
    rw [iterMax_none hm] at this
    cases this
  | some d =>
    obtain ⟨h3, h4⟩ := (hmem1 d).mp (iterMax_some hm).1
    refine ⟨d, h3, h4, ?_, ?_⟩
    · have hl : s.files.localDefinition uri u.root.text (toPoint pos) = some (.scalar ⟨uri, rangeOf d⟩) := by
        unfold LspFiles.localDefinition
        rw [hv]
        simp only [hm, rangeOf_eq (hfit d h3)]
      simp only [Server.handle, LspFiles.gotoDefinition, hext, ht, hd, hq, hid, Option.bind_some, hl]
    · have hl : s.files.dataType w' uri i = some d.idType := by
        unfold LspFiles.dataType
        rw [hv]
        simp only [← e, hm]
      simp only [Server.handle, Server.onHover, hi, hoverText, reduceCtorEq, if_false, hl, completionDetail_eq, Option.map_some]

/-- opening or saving a document leaves the tables of the other files as they are -/
theorem analyses_frame {env : Env} {w : World} {s s' : Server} {uri : Str} {m : Msg} {out : List Send} {r : Reply} (hm : m.Analyses uri)
    (h : s.handle env w m = .ok (s', out, r)) : Frame uri s.files s'.files := by
  have hs := handle_files h
  clear h
  cases hs with
  | query hq => cases hm <;> cases hq
  | didOpen u' t m' hh => cases hm; exact Frame.didOpen hh
  | didSave u' m' hh => cases hm; exact Frame.didSave hh
  | _ => cases hm

theorem FirstSegment.dotless {n : Str} (h : '.' ∉ n) : FirstSegment n n := ⟨h, Or.inl rfl⟩

/-- **C97** (part) After a template was opened or saved, for every name used in it, with the cursor anywhere on the name: exactly one of
three cases holds.  Nothing is reported about the name, goto-definition leads to a definition before it in the same file, and hover shows
the kind of this very definition.  Or the name is reported as defined elsewhere, goto-definition leads to at least one place, and hover
shows `Backend variable`.  Or it is reported as undefined, goto-definition leads nowhere, and hover shows nothing.
Missing: names of blocks (`C97_block_refuted`), the target of a definition itself (`C97_target_refuted`), names that this file defines
elsewhere and another file, too (`C97_both_refuted`), entries of other files with a dot (`C97_dotted_refuted`). -/
theorem C97_agreement_partial (env : Env) (w w₁ w₂ : World) (s s' : Server) (m : Msg) (uri text : Str) (tree : Tree) (out : List Send)
    (r : Reply) (vars : List Identifier) (es : List Elem) (before : List Elem) (u : Use) (rest : List Capture) (pos : Position)
    (hm : m.Analyses uri) (he : fileExt uri = some .template) (hig : s.files.ignoreGlobals = false)
    (h : s.handle env w m = .ok (s', out, r)) (hd : s'.files.documents.get? uri = some text)
    (ht : (s'.files.trees .template).get? uri = some tree) (hv : s'.files.variables.get? uri = some vars)
    (hes : Elems.Wf es) (hce : (env.queryMatches .jinjaObjects tree text).flatten = es.flatMap Elem.caps) (hu : Elem.use u ∈ es)
    (hon : OnUse (env.queryMatches .jinjaObjects tree text).flatten before u rest (toPoint pos))
    (htp : NoTemplate (env.queryMatches .jinjaImports tree text).flatten (toPoint pos))
    (hvar : u.info.filter = false ∧ u.info.test = false) (hdot : '.' ∉ u.root.text)
    (hfit : ∀ d ∈ vars, Fits d) (hap : ∀ d ∈ vars, d.name = u.root.text → Apart u.root d)
    (hurl : ∀ file v, Elsewhere s'.files uri u.root.text file v → env.urlParse (targetOf file v) ≠ none ∧ Fits v)
    (hone : ∀ file v, Elsewhere s'.files uri u.root.text file v → v.name = u.root.text ∧ ∀ d ∈ vars, d.name ≠ u.root.text) :
    ∃ ds, out = [.diag (HMap.empty.insert uri ds)] ∧
      ((about .undefined u.root ∉ useDiags ds ∧ about .definedSomewhere u.root ∉ useDiags ds ∧
          ∃ d ∈ vars, (d.name = u.root.text ∧ d.stop ≤ u.root.start ∧ u.root.stop ≤ d.scopeEnd) ∧
            s'.handle env w₁ (.goto uri pos) = .ok (s', [], .goto (some (.scalar ⟨uri, rangeOf d⟩))) ∧
            s'.handle env w₂ (.hover uri pos) = .ok (s', [], .hover (some (kindText d.idType)))) ∨
        (about .undefined u.root ∉ useDiags ds ∧ about .definedSomewhere u.root ∈ useDiags ds ∧
          ∃ ls, ls ≠ [] ∧ s'.handle env w₁ (.goto uri pos) = .ok (s', [], .goto (some (.array ls))) ∧
            s'.handle env w₂ (.hover uri pos) = .ok (s', [], .hover (some c!"Backend variable"))) ∨
        (about .undefined u.root ∈ useDiags ds ∧ about .definedSomewhere u.root ∉ useDiags ds ∧
          s'.handle env w₁ (.goto uri pos) = .ok (s', [], .goto (some (.array []))) ∧
          s'.handle env w₂ (.hover uri pos) = .ok (s', [], .hover none))) := by
  obtain ⟨ds, h1, h2⟩ := C25_reports_partial env w s s' m uri out r vars _ hm he hig h (readObjects_eq he hd ht) hv
  rw [usesIn_elems hes hce] at h2
  have hi : u.info ∈ Elems.uses es := List.mem_filterMap.mpr ⟨_, hu, rfl⟩
  have hmem : ∀ k, about k u.root ∈ useDiags ds ↔ verdict (vars.map Identifier.binding)
      ((vars.map Identifier.binding).map (·.name) ++ knownElsewhere s.files.variables uri) u.info = some k := by
    intro k
    rw [h2]
    exact mem_useReports hi hvar.1 hvar.2 k
  have ho : u.root.start ≤ u.root.stop := Point.le_trans hon.start hon.stop
  have hfr := analyses_frame hm h
  have hel : u.root.text ∈ knownElsewhere s.files.variables uri ↔ ∃ file v, Elsewhere s'.files uri u.root.text file v := by
    rw [mem_knownElsewhere]
    constructor
    · rintro ⟨f', vs, hne, g1, v, g2, g3⟩
      exact ⟨f', v, hne, vs, by rw [(hfr.same f' hne).vars]; exact g1, g2, by rw [g3]; exact FirstSegment.dotless hdot⟩
    · rintro ⟨f', v, hel⟩
      have hn := (hone f' v hel).1
      obtain ⟨hne, vs, g1, g2, _⟩ := hel
      exact ⟨f', vs, hne, by rw [← (hfr.same f' hne).vars]; exact g1, v, g2, hn⟩
  have a1 : ¬ (u.info.filter = true ∨ u.info.test = true) := by simp [hvar.1, hvar.2]
  refine ⟨ds, h1, ?_⟩
  simp only [hmem]
  by_cases hex : ∃ d ∈ vars, d.name = u.root.text ∧ d.stop ≤ u.root.start ∧ u.root.stop ≤ d.scopeEnd
  · refine Or.inl ?_
    have a2 : ∃ b ∈ vars.map Identifier.binding, b.VisibleAt u.info := by
      obtain ⟨d, g1, g2⟩ := hex
      exact ⟨d.binding, List.mem_map.mpr ⟨d, g1, rfl⟩, ((hap d g1 g2.1).visible ho).mpr g2⟩
    unfold verdict
    rw [if_neg a1, if_pos a2]
    refine ⟨by simp, by simp, ?_⟩
    exact same_choice he hd ht hon ho hvar hv hfit hap hex
  · have a2 : ¬ ∃ b ∈ vars.map Identifier.binding, b.VisibleAt u.info := by
      rintro ⟨b, hb, hvis⟩
      obtain ⟨d, g1, rfl⟩ := List.mem_map.mp hb
      exact hex ⟨d, g1, ((hap d g1 hvis.1).visible ho).mp hvis⟩
    have n1 : ∀ vs, s'.files.variables.get? uri = some vs → ∀ d ∈ vs, ¬ Binds u.root.text (toPoint pos) d := by
      intro vs hvs d g1 g2
      rw [hv] at hvs; cases hvs
      exact hex ⟨d, g1, ((hap d g1 g2.1).binds ho hon.start hon.stop).mp g2⟩
    have n2 : ∀ d ∈ vars, ¬ DefinesAt u.root.text u.root.start d := fun d g1 g2 =>
      hex ⟨d, g1, ((hap d g1 g2.2.1).defines ho).mp g2⟩
    obtain ⟨ls, g1, _, g3⟩ := C36_cross_file_partial env w₁ s'.files uri tree text pos he hd ht before u rest hon n1 htp hurl
    have g4 := C43_elsewhere_partial env w₂ s' uri tree text pos he hd ht before u rest hon hvar vars hv n2
    have hgoto : s'.handle env w₁ (.goto uri pos) = .ok (s', [], .goto (some (.array ls))) := by
      simp only [Server.handle, g1]
    rw [hgoto, g4]
    by_cases hx : ∃ file v, Elsewhere s'.files uri u.root.text file v
    · refine Or.inr (Or.inl ?_)
      obtain ⟨file, v, hfv⟩ := hx
      have a3 : ¬ ∃ b ∈ vars.map Identifier.binding, b.name = u.info.name ∧ b.kind ≠ .templateBlock := by
        rintro ⟨b, hb, hn, _⟩
        obtain ⟨d, k1, rfl⟩ := List.mem_map.mp hb
        exact (hone file v hfv).2 d k1 hn
      have a4 : u.info.name ∈ (vars.map Identifier.binding).map (·.name) ++ knownElsewhere s.files.variables uri :=
        List.mem_append.mpr (Or.inr (hel.mpr ⟨file, v, hfv⟩))
      unfold verdict
      rw [if_neg a1, if_neg a2, if_neg a3, if_pos a4, if_pos ⟨file, v, hfv⟩]
      refine ⟨by simp, rfl, ls, ?_, rfl, rfl⟩
      intro hnil
      have := (g3 (placeOf env file v)).mpr ⟨file, v, hfv, rfl⟩
      rw [hnil] at this
      cases this
    · refine Or.inr (Or.inr ?_)
      have hls : ls = [] := by
        rw [List.eq_nil_iff_forall_not_mem]
        intro l hl
        obtain ⟨file, v, hfv, _⟩ := (g3 l).mp hl
        exact hx ⟨file, v, hfv⟩
      rw [if_neg hx, hls]
      have hver : verdict (vars.map Identifier.binding)
          ((vars.map Identifier.binding).map (·.name) ++ knownElsewhere s.files.variables uri) u.info = some .undefined := by
        unfold verdict
        rw [if_neg a1, if_neg a2]
        split
        · rfl
        · rename_i a3
          rw [if_neg]
          intro a4
          rcases List.mem_append.mp a4 with a4 | a4
          · obtain ⟨b, hb, hn⟩ := List.mem_map.mp a4
            obtain ⟨d, k1, rfl⟩ := List.mem_map.mp hb
            exact a3 ⟨_, hb, hn, (hap d k1 hn).kind⟩
          · exact hx (hel.mp a4)
      rw [hver]
      exact ⟨rfl, by simp, rfl, rfl⟩

/-! ## Where they disagree -/

/-- what is reported about a use -/
theorem reported_iff {env : Env} {w : World} {s s' : Server} {m : Msg} {uri text : Str} {tree : Tree} {out : List Send}
    {r : Reply} {vars : List Identifier} {es : List Elem} {u : Use}
    (hm : m.Analyses uri) (he : fileExt uri = some .template) (hig : s.files.ignoreGlobals = false)
    (h : s.handle env w m = .ok (s', out, r)) (hd : s'.files.documents.get? uri = some text)
    (ht : (s'.files.trees .template).get? uri = some tree) (hv : s'.files.variables.get? uri = some vars)
    (hes : Elems.Wf es) (hce : (env.queryMatches .jinjaObjects tree text).flatten = es.flatMap Elem.caps) (hu : Elem.use u ∈ es)
    (hvar : u.info.filter = false ∧ u.info.test = false) :
    ∃ ds, out = [.diag (HMap.empty.insert uri ds)] ∧ ∀ k, about k u.root ∈ useDiags ds ↔ verdict (vars.map Identifier.binding)
      ((vars.map Identifier.binding).map (·.name) ++ knownElsewhere s.files.variables uri) u.info = some k := by
  obtain ⟨ds, h1, h2⟩ := C25_reports_partial env w s s' m uri out r vars _ hm he hig h (readObjects_eq he hd ht) hv
  rw [usesIn_elems hes hce] at h2
  refine ⟨ds, h1, fun k => ?_⟩
  rw [h2]
  exact mem_useReports (List.mem_filterMap.mpr ⟨_, hu, rfl⟩) hvar.1 hvar.2 k

/-- **C97 is false for the names of blocks**: a use of the name of a block of the same file is reported as defined in another file, but
goto-definition leads to the block in this file. -/
theorem C97_block_refuted (env : Env) (w w₁ : World) (s s' : Server) (m : Msg) (uri text : Str) (tree : Tree) (out : List Send)
    (r : Reply) (vars : List Identifier) (es : List Elem) (before : List Elem) (u : Use) (rest : List Capture) (pos : Position)
    (hm : m.Analyses uri) (he : fileExt uri = some .template) (hig : s.files.ignoreGlobals = false)
    (h : s.handle env w m = .ok (s', out, r)) (hd : s'.files.documents.get? uri = some text)
    (ht : (s'.files.trees .template).get? uri = some tree) (hv : s'.files.variables.get? uri = some vars)
    (hes : Elems.Wf es) (hce : (env.queryMatches .jinjaObjects tree text).flatten = es.flatMap Elem.caps) (hu : Elem.use u ∈ es)
    (hon : OnUse (env.queryMatches .jinjaObjects tree text).flatten before u rest (toPoint pos))
    (hvar : u.info.filter = false ∧ u.info.test = false) (hfit : ∀ d ∈ vars, Fits d)
    (hblock : ∀ d ∈ vars, d.name = u.root.text → d.idType = .templateBlock) (hex : ∃ d ∈ vars, Binds u.root.text (toPoint pos) d) :
    ∃ ds, out = [.diag (HMap.empty.insert uri ds)] ∧ about .definedSomewhere u.root ∈ useDiags ds ∧
      ∃ d ∈ vars, d.name = u.root.text ∧
        s'.handle env w₁ (.goto uri pos) = .ok (s', [], .goto (some (.scalar ⟨uri, rangeOf d⟩))) := by
  obtain ⟨ds, h1, h2⟩ := reported_iff hm he hig h hd ht hv hes hce hu hvar
  obtain ⟨d, g1, g2, _, g4⟩ := C35_latest env w₁ s'.files uri tree text pos he hd ht before u rest hon vars hv hfit hex
  refine ⟨ds, h1, (h2 _).mpr ?_, d, g1, g2.1, by simp only [Server.handle, g4]⟩
  have a1 : ¬ (u.info.filter = true ∨ u.info.test = true) := by simp [hvar.1, hvar.2]
  have a3 : ¬ ∃ b ∈ vars.map Identifier.binding, b.name = u.info.name ∧ b.kind ≠ .templateBlock := by
    rintro ⟨b, hb, hn, hk⟩
    obtain ⟨d, k1, rfl⟩ := List.mem_map.mp hb
    exact hk (hblock d k1 hn)
  have a2 : ¬ ∃ b ∈ vars.map Identifier.binding, b.VisibleAt u.info := fun ⟨b, hb, hvis⟩ => a3 ⟨b, hb, hvis.1, hvis.2.1⟩
  have a4 : u.info.name ∈ (vars.map Identifier.binding).map (·.name) ++ knownElsewhere s.files.variables uri :=
    List.mem_append.mpr (Or.inl (List.mem_map.mpr ⟨d.binding, List.mem_map.mpr ⟨d, g1, rfl⟩, g2.1⟩))
  unfold verdict
  rw [if_neg a1, if_neg a2, if_neg a3, if_pos a4]

/-- **C97 is false for the target of a definition**: nothing is reported about it and goto-definition leads to a definition in this file,
but hover shows nothing (unless another definition of the name is visible). -/
theorem C97_target_refuted (env : Env) (w w₁ w₂ : World) (s s' : Server) (m : Msg) (uri text : Str) (tree : Tree) (out : List Send)
    (r : Reply) (vars : List Identifier) (es : List Elem) (before : List Elem) (u : Use) (rest : List Capture) (pos : Position)
    (hm : m.Analyses uri) (he : fileExt uri = some .template) (hig : s.files.ignoreGlobals = false)
    (h : s.handle env w m = .ok (s', out, r)) (hd : s'.files.documents.get? uri = some text)
    (ht : (s'.files.trees .template).get? uri = some tree) (hv : s'.files.variables.get? uri = some vars)
    (hes : Elems.Wf es) (hce : (env.queryMatches .jinjaObjects tree text).flatten = es.flatMap Elem.caps) (hu : Elem.use u ∈ es)
    (hon : OnUse (env.queryMatches .jinjaObjects tree text).flatten before u rest (toPoint pos))
    (hvar : u.info.filter = false ∧ u.info.test = false) (hfit : ∀ d ∈ vars, Fits d)
    (d₀ : Identifier) (hd₀ : d₀ ∈ vars) (hname : d₀.name = u.root.text) (hkind : d₀.idType ≠ .templateBlock)
    (hst : d₀.start = u.root.start) (hsc : u.root.stop < d₀.scopeEnd)
    (hno : ∀ d ∈ vars, ¬ DefinesAt u.root.text u.root.start d) (hel : ∀ file v, ¬ Elsewhere s'.files uri u.root.text file v) :
    ∃ ds, out = [.diag (HMap.empty.insert uri ds)] ∧ (∀ k, about k u.root ∉ useDiags ds) ∧
      (∃ d ∈ vars, d.name = u.root.text ∧
        s'.handle env w₁ (.goto uri pos) = .ok (s', [], .goto (some (.scalar ⟨uri, rangeOf d⟩)))) ∧
      s'.handle env w₂ (.hover uri pos) = .ok (s', [], .hover none) := by
  obtain ⟨ds, h1, h2⟩ := reported_iff hm he hig h hd ht hv hes hce hu hvar
  have ho : u.root.start ≤ u.root.stop := Point.le_trans hon.start hon.stop
  have hb : Binds u.root.text (toPoint pos) d₀ :=
    ⟨hname, by rw [hst]; exact hon.start, Point.le_of_lt (Point.lt_of_le_of_lt hon.stop hsc)⟩
  obtain ⟨d, g1, g2, _, g4⟩ := C35_latest env w₁ s'.files uri tree text pos he hd ht before u rest hon vars hv hfit ⟨d₀, hd₀, hb⟩
  have g5 := C43_elsewhere_partial env w₂ s' uri tree text pos he hd ht before u rest hon hvar vars hv hno
  rw [if_neg (fun ⟨file, v, hx⟩ => hel file v hx)] at g5
  refine ⟨ds, h1, fun k hk => ?_, ⟨d, g1, g2.1, by simp only [Server.handle, g4]⟩, g5⟩
  have a1 : ¬ (u.info.filter = true ∨ u.info.test = true) := by simp [hvar.1, hvar.2]
  have a2 : ∃ b ∈ vars.map Identifier.binding, b.VisibleAt u.info :=
    ⟨d₀.binding, List.mem_map.mpr ⟨d₀, hd₀, rfl⟩, hname, hkind, by
      show d₀.start ≤ u.root.stop
      rw [hst]; exact ho, Or.inl (Point.lt_of_le_of_lt ho hsc)⟩
  have := (h2 k).mp hk
  unfold verdict at this
  rw [if_neg a1, if_pos a2] at this
  cases this

/-- **C97 is false for names that another file has, too**: a name that this file defines where it is not visible is reported as undefined,
but goto-definition leads to the other file and hover shows `Backend variable`. -/
theorem C97_both_refuted (env : Env) (w w₁ w₂ : World) (s s' : Server) (m : Msg) (uri text : Str) (tree : Tree) (out : List Send)
    (r : Reply) (vars : List Identifier) (es : List Elem) (before : List Elem) (u : Use) (rest : List Capture) (pos : Position)
    (hm : m.Analyses uri) (he : fileExt uri = some .template) (hig : s.files.ignoreGlobals = false)
    (h : s.handle env w m = .ok (s', out, r)) (hd : s'.files.documents.get? uri = some text)
    (ht : (s'.files.trees .template).get? uri = some tree) (hv : s'.files.variables.get? uri = some vars)
    (hes : Elems.Wf es) (hce : (env.queryMatches .jinjaObjects tree text).flatten = es.flatMap Elem.caps) (hu : Elem.use u ∈ es)
    (hon : OnUse (env.queryMatches .jinjaObjects tree text).flatten before u rest (toPoint pos))
    (htp : NoTemplate (env.queryMatches .jinjaImports tree text).flatten (toPoint pos))
    (hvar : u.info.filter = false ∧ u.info.test = false)
    (hap : ∀ d ∈ vars, d.name = u.root.text → Apart u.root d)
    (hurl : ∀ file v, Elsewhere s'.files uri u.root.text file v → env.urlParse (targetOf file v) ≠ none ∧ Fits v)
    (hdef : ∃ d ∈ vars, d.name = u.root.text)
    (hnot : ∀ d ∈ vars, ¬ (d.name = u.root.text ∧ d.stop ≤ u.root.start ∧ u.root.stop ≤ d.scopeEnd))
    (hel : ∃ file v, Elsewhere s'.files uri u.root.text file v) :
    ∃ ds, out = [.diag (HMap.empty.insert uri ds)] ∧ about .undefined u.root ∈ useDiags ds ∧
      (∃ ls, ls ≠ [] ∧ s'.handle env w₁ (.goto uri pos) = .ok (s', [], .goto (some (.array ls)))) ∧
      s'.handle env w₂ (.hover uri pos) = .ok (s', [], .hover (some c!"Backend variable")) := by
  obtain ⟨ds, h1, h2⟩ := reported_iff hm he hig h hd ht hv hes hce hu hvar
  have ho : u.root.start ≤ u.root.stop := Point.le_trans hon.start hon.stop
  have n1 : ∀ vs, s'.files.variables.get? uri = some vs → ∀ d ∈ vs, ¬ Binds u.root.text (toPoint pos) d := by
    intro vs hvs d g1 g2
    rw [hv] at hvs; cases hvs
    exact hnot d g1 (((hap d g1 g2.1).binds ho hon.start hon.stop).mp g2)
  have n2 : ∀ d ∈ vars, ¬ DefinesAt u.root.text u.root.start d := fun d g1 g2 =>
    hnot d g1 (((hap d g1 g2.2.1).defines ho).mp g2)
  obtain ⟨ls, g1, _, g3⟩ := C36_cross_file_partial env w₁ s'.files uri tree text pos he hd ht before u rest hon n1 htp hurl
  have g4 := C43_elsewhere_partial env w₂ s' uri tree text pos he hd ht before u rest hon hvar vars hv n2
  rw [if_pos hel] at g4
  refine ⟨ds, h1, (h2 _).mpr ?_, ⟨ls, ?_, by simp only [Server.handle, g1]⟩, g4⟩
  · have a1 : ¬ (u.info.filter = true ∨ u.info.test = true) := by simp [hvar.1, hvar.2]
    have a2 : ¬ ∃ b ∈ vars.map Identifier.binding, b.VisibleAt u.info := by
      rintro ⟨b, hb, hvis⟩
      obtain ⟨d, g1, rfl⟩ := List.mem_map.mp hb
      exact hnot d g1 (((hap d g1 hvis.1).visible ho).mp hvis)
    have a3 : ∃ b ∈ vars.map Identifier.binding, b.name = u.info.name ∧ b.kind ≠ .templateBlock := by
      obtain ⟨d, k1, k2⟩ := hdef
      exact ⟨d.binding, List.mem_map.mpr ⟨d, k1, rfl⟩, k2, (hap d k1 k2).kind⟩
    unfold verdict
    rw [if_neg a1, if_neg a2, if_pos a3]
  · obtain ⟨file, v, hfv⟩ := hel
    intro hnil
    have := (g3 (placeOf env file v)).mpr ⟨file, v, hfv, rfl⟩
    rw [hnil] at this
    cases this

/-- **C97 is false for dotted entries**: a name that is only the first segment of entries of other files (`user` of `user.html`) is
reported as undefined, but goto-definition leads there and hover shows `Backend variable`. -/
theorem C97_dotted_refuted (env : Env) (w w₁ w₂ : World) (s s' : Server) (m : Msg) (uri text : Str) (tree : Tree) (out : List Send)
    (r : Reply) (vars : List Identifier) (es : List Elem) (before : List Elem) (u : Use) (rest : List Capture) (pos : Position)
    (hm : m.Analyses uri) (he : fileExt uri = some .template) (hig : s.files.ignoreGlobals = false)
    (h : s.handle env w m = .ok (s', out, r)) (hd : s'.files.documents.get? uri = some text)
    (ht : (s'.files.trees .template).get? uri = some tree) (hv : s'.files.variables.get? uri = some vars)
    (hes : Elems.Wf es) (hce : (env.queryMatches .jinjaObjects tree text).flatten = es.flatMap Elem.caps) (hu : Elem.use u ∈ es)
    (hon : OnUse (env.queryMatches .jinjaObjects tree text).flatten before u rest (toPoint pos))
    (htp : NoTemplate (env.queryMatches .jinjaImports tree text).flatten (toPoint pos))
    (hvar : u.info.filter = false ∧ u.info.test = false)
    (hurl : ∀ file v, Elsewhere s'.files uri u.root.text file v → env.urlParse (targetOf file v) ≠ none ∧ Fits v)
    (hnone : ∀ d ∈ vars, d.name ≠ u.root.text)
    (hdots : ∀ file vs v, file ≠ uri → s'.files.variables.get? file = some vs → v ∈ vs → v.name ≠ u.root.text)
    (hel : ∃ file v, Elsewhere s'.files uri u.root.text file v) :
    ∃ ds, out = [.diag (HMap.empty.insert uri ds)] ∧ about .undefined u.root ∈ useDiags ds ∧
      (∃ ls, ls ≠ [] ∧ s'.handle env w₁ (.goto uri pos) = .ok (s', [], .goto (some (.array ls)))) ∧
      s'.handle env w₂ (.hover uri pos) = .ok (s', [], .hover (some c!"Backend variable")) := by
  obtain ⟨ds, h1, h2⟩ := reported_iff hm he hig h hd ht hv hes hce hu hvar
  have hfr := analyses_frame hm h
  have n1 : ∀ vs, s'.files.variables.get? uri = some vs → ∀ d ∈ vs, ¬ Binds u.root.text (toPoint pos) d := by
    intro vs hvs d g1 g2
    rw [hv] at hvs; cases hvs
    exact hnone d g1 g2.1
  obtain ⟨ls, g1, _, g3⟩ := C36_cross_file_partial env w₁ s'.files uri tree text pos he hd ht before u rest hon n1 htp hurl
  have g4 := C43_elsewhere_partial env w₂ s' uri tree text pos he hd ht before u rest hon hvar vars hv
    (fun d k1 k2 => hnone d k1 k2.2.1)
  rw [if_pos hel] at g4
  refine ⟨ds, h1, (h2 _).mpr ?_, ⟨ls, ?_, by simp only [Server.handle, g1]⟩, g4⟩
  · have a1 : ¬ (u.info.filter = true ∨ u.info.test = true) := by simp [hvar.1, hvar.2]
    have a3 : ¬ ∃ b ∈ vars.map Identifier.binding, b.name = u.info.name ∧ b.kind ≠ .templateBlock := by
      rintro ⟨b, hb, hn, _⟩
      obtain ⟨d, k1, rfl⟩ := List.mem_map.mp hb
      exact hnone d k1 hn
    have a2 : ¬ ∃ b ∈ vars.map Identifier.binding, b.VisibleAt u.info := fun ⟨b, hb, hvis⟩ => a3 ⟨b, hb, hvis.1, hvis.2.1⟩
    have a4 : u.info.name ∉ (vars.map Identifier.binding).map (·.name) ++ knownElsewhere s.files.variables uri := by
      intro a4
      rcases List.mem_append.mp a4 with a4 | a4
      · obtain ⟨b, hb, hn⟩ := List.mem_map.mp a4
        obtain ⟨d, k1, rfl⟩ := List.mem_map.mp hb
        exact hnone d k1 hn
      · obtain ⟨f', vs, hne, k1, v, k2, k3⟩ := (mem_knownElsewhere ..).mp a4
        exact hdots f' vs v hne (by rw [(hfr.same f' hne).vars]; exact k1) k2 k3
    unfold verdict
    rw [if_neg a1, if_neg a2, if_neg a3, if_neg a4]
  · obtain ⟨file, v, hfv⟩ := hel
    intro hnil
    have := (g3 (placeOf env file v)).mpr ⟨file, v, hfv, rfl⟩
    rw [hnil] at this
    cases this

/-! ## Examples -/

namespace Fix

/-- the cursor is on the loop variable inside its loop -/
theorem on_i (tree : Tree) (text : Str) : OnUse ((docEnv tpl uses []).queryMatches .jinjaObjects tree text).flatten []
    ⟨.«variable», tok 3 7 8 c!"i" 50, []⟩ ((uses.drop 1).flatMap Elem.caps) (toPoint ⟨3, 8⟩) where
  caps := by rw [docEnv_objs]; rfl
  ok := by intro e he; cases he
  mark := trivial
  name := by decide
  ordered := ⟨⟨0, 1⟩, by decide, by simp [Mark.toks, tok, Ordered, Point.lt_def, Point.le_def]⟩
  exprs := by intro n a b f l h; cases h
  start := by decide
  stop := by decide
  after := by decide

/-- the cursor is on the name that another file defines -/
theorem on_z (tree : Tree) (text : Str) : OnUse ((docEnv tpl uses []).queryMatches .jinjaObjects tree text).flatten (uses.take 3)
    ⟨.«variable», tok 8 3 4 c!"z" 53, []⟩ ((uses.drop 4).flatMap Elem.caps) (toPoint ⟨8, 3⟩) where
  caps := by rw [docEnv_objs]; rfl
  ok := by simp [uses, Elem.Ok, Mark.Ok, reserved, tok]
  mark := trivial
  name := by decide
  ordered := ⟨⟨0, 1⟩, by decide, by simp [uses, Elem.toks, Use.toks, Mark.toks, tok, Ordered, Point.lt_def, Point.le_def]⟩
  exprs := by intro n a b f l h; simp [uses] at h
  start := by decide
  stop := by decide
  after := by decide

/-- a document whose only use is the given name -/
theorem on_only (t : Tpl) (k : Tok) (is : List Capture) (tree : Tree) (text : Str) (pos : Position) (hr : k.text ∉ reserved)
    (hz : Point.zero < k.start) (hl : k.start < k.stop) (h1 : k.start ≤ toPoint pos) (h2 : toPoint pos ≤ k.stop) :
    OnUse ((docEnv t [.use ⟨.«variable», k, []⟩] is).queryMatches .jinjaObjects tree text).flatten [] ⟨.«variable», k, []⟩ [] (toPoint pos) where
  caps := by rw [docEnv_objs]; rfl
  ok := by intro e he; cases he
  mark := trivial
  name := hr
  ordered := ⟨k.start, hz, by simpa [Mark.toks, Ordered, Point.le_refl] using hl⟩
  exprs := by intro n a b f l h; cases h
  start := h1
  stop := h2
  after := by intro c hc; cases hc

/-- no import statement, no template name -/
theorem noTemplate_nil (t : Tpl) (es : List Elem) (tree : Tree) (text : Str) (p : Point) :
    NoTemplate ((docEnv t es []).queryMatches .jinjaImports tree text).flatten p := by
  rw [docEnv_imports]; intro c hc; cases hc

/-- the other file defines `i`, too -/
def serverI : Server := { server with files := { files with
  variables := (HMap.empty.insert uriA []).insert uriB [Identifier.new c!"i" ⟨0, 7⟩ ⟨0, 8⟩] } }

/-- a backend file renders `z.html` -/
def serverDotted : Server := { server with files := { files with
  variables := (HMap.empty.insert uriA []).insert c!"file:///m.rs" [{ Identifier.new c!"z.html" ⟨0, 7⟩ ⟨0, 13⟩ with idType := .jinjaTemplate }] } }

end Fix


namespace Fix

/-- what is recorded for `Fix.tpl` -/
def tplVars : List Identifier :=
  [⟨⟨0, 9⟩, ⟨0, 10⟩, c!"m", 0, ⟨9, 9⟩, .macroName, []⟩, ⟨⟨0, 11⟩, ⟨0, 12⟩, c!"p", 1, ⟨5, 0⟩, .macroParameter, []⟩,
   ⟨⟨1, 9⟩, ⟨1, 10⟩, c!"a", 1, ⟨5, 0⟩, .setVariable, []⟩, ⟨⟨2, 9⟩, ⟨2, 10⟩, c!"i", 8, ⟨4, 2⟩, .forLoopKey, []⟩,
   ⟨⟨6, 7⟩, ⟨6, 8⟩, c!"b", 0, ⟨9, 9⟩, .setVariable, []⟩]

theorem tplVars_fit : ∀ d ∈ tplVars, Fits d := by
  simp only [Fits]
  decide

/-- a use of one name is well-formed -/
theorem only_wf (k : Tok) (hr : k.text ∉ reserved) (hz : Point.zero < k.start) (hl : k.start < k.stop) :
    Elems.Wf [.use ⟨.«variable», k, []⟩] :=
  ⟨by simpa [Elem.Ok, Mark.Ok] using hr, ⟨k.start, hz, by simpa [Elem.toks, Use.toks, Mark.toks, Ordered, Point.le_refl] using hl⟩⟩

end Fix

theorem Spec.Apart.of {t : Tok} {d : Identifier} (h : d.idType ≠ .templateBlock ∧ d.start ≤ d.stop ∧ (d.stop ≤ t.start ∨ t.stop < d.start) ∧
    ((t.start < d.scopeEnd ∧ t.stop ≤ d.scopeEnd) ∨ (d.scopeEnd < t.start ∧ d.scopeEnd ≠ ⟨0, 0⟩))) : Apart t d :=
  ⟨h.1, h.2.1, h.2.2.1, h.2.2.2⟩

/-- the entries of other files in a workspace of two -/
theorem elsewhere_two {f : LspFiles} {u₁ u₂ n file : Str} {l₁ l₂ : List Identifier} {v : Identifier}
    (hf : ∀ x, x ≠ u₁ → f.variables.get? x = ((HMap.empty.insert u₁ l₁).insert u₂ l₂).get? x) (h : Elsewhere f u₁ n file v) :
    file = u₂ ∧ v ∈ l₂ ∧ FirstSegment n v.name := by
  obtain ⟨h1, vs, h2, h3, h4⟩ := h
  rw [hf _ h1] at h2
  by_cases h5 : file = u₂
  · subst h5
    rw [HMap.get?_insert_self] at h2
    cases h2
    exact ⟨rfl, h3, h4⟩
  · rw [HMap.get?_insert_ne _ _ h5, HMap.get?_insert_ne _ _ h1] at h2
    cases h2


/-- opening and saving leave the entries of other files -/
theorem elsewhere_analysed {env : Env} {w : World} {s s' : Server} {uri n file : Str} {v : Identifier} {m : Msg} {out : List Send} {r : Reply}
    (hm : m.Analyses uri) (h : s.handle env w m = .ok (s', out, r)) (hx : Elsewhere s'.files uri n file v) : Elsewhere s.files uri n file v := by
  obtain ⟨h1, vs, h2, h3⟩ := hx
  exact ⟨h1, vs, by rw [← ((analyses_frame hm h).same file h1).vars]; exact h2, h3⟩

/-- `C97_agreement_partial` applies to the loop variable inside its loop, … -/
example := C97_agreement_partial (Fix.docEnv Fix.tpl Fix.uses []) Fix.world Fix.world Fix.world Fix.serverZ _ (.didOpen Fix.uriA []) Fix.uriA [] _ _ _
  Fix.tplVars Fix.uses [] _ _ ⟨3, 8⟩ (.opened []) rfl rfl rfl rfl rfl rfl Fix.uses_wf (Fix.docEnv_objs ..) (by simp [Fix.uses, Fix.tok]) (Fix.on_i _ _)
  (Fix.noTemplate_nil _ _ _ _ _) ⟨rfl, rfl⟩ (by decide) Fix.tplVars_fit
  (fun d hd hn => .of (by revert d; decide)) (fun file v hx => ⟨by simp [Fix.docEnv, Fix.env], by
    obtain ⟨_, h2, _⟩ := elsewhere_two (fun _ _ => rfl) (elsewhere_analysed (env := (Fix.docEnv Fix.tpl Fix.uses [])) (w := Fix.world) (s := Fix.serverZ)
      (.opened []) rfl hx)
    cases List.mem_singleton.mp h2
    unfold Fits; decide⟩) (fun file v hx => by
    obtain ⟨_, h2, _, h4⟩ := elsewhere_two (fun _ _ => rfl) (elsewhere_analysed (env := (Fix.docEnv Fix.tpl Fix.uses [])) (w := Fix.world) (s := Fix.serverZ)
      (.opened []) rfl hx)
    cases List.mem_singleton.mp h2
    exfalso
    rcases h4 with h4 | ⟨_, h4⟩ <;> cases h4)

/-- … and to the name that the other file defines -/
example := C97_agreement_partial (Fix.docEnv Fix.tpl Fix.uses []) Fix.world Fix.world Fix.world Fix.serverZ _ (.didOpen Fix.uriA []) Fix.uriA [] _ _ _
  Fix.tplVars Fix.uses _ _ _ ⟨8, 3⟩ (.opened []) rfl rfl rfl rfl rfl rfl Fix.uses_wf (Fix.docEnv_objs ..) (by simp [Fix.uses, Fix.tok]) (Fix.on_z _ _)
  (Fix.noTemplate_nil _ _ _ _ _) ⟨rfl, rfl⟩ (by decide) Fix.tplVars_fit
  (fun d hd hn => .of (by revert d; decide)) (fun file v hx => ⟨by simp [Fix.docEnv, Fix.env], by
    obtain ⟨_, h2, _⟩ := elsewhere_two (fun _ _ => rfl) (elsewhere_analysed (env := (Fix.docEnv Fix.tpl Fix.uses [])) (w := Fix.world) (s := Fix.serverZ)
      (.opened []) rfl hx)
    cases List.mem_singleton.mp h2
    unfold Fits; decide⟩) (fun file v hx => by
    obtain ⟨_, h2, _, _⟩ := elsewhere_two (fun _ _ => rfl) (elsewhere_analysed (env := (Fix.docEnv Fix.tpl Fix.uses [])) (w := Fix.world) (s := Fix.serverZ)
      (.opened []) rfl hx)
    cases List.mem_singleton.mp h2
    exact ⟨rfl, by decide⟩)

namespace Fix

def inBlock : Tok := tok 0 20 27 c!"content" 50
def target : Tok := tok 2 9 10 c!"i" 50
def outside : Tok := tok 4 20 21 c!"i" 50
def zTok : Tok := tok 2 3 4 c!"z" 50

end Fix

/-- `C97_block_refuted` applies to `{% block content %}{{ content }}…` -/
example := C97_block_refuted (Fix.docEnv Fix.blockTpl [.use ⟨.«variable», Fix.inBlock, []⟩] []) Fix.world Fix.world Fix.server _ (.didOpen Fix.uriA [])
  Fix.uriA [] _ _ _ [⟨⟨0, 9⟩, ⟨0, 16⟩, c!"content", 1, ⟨1, 0⟩, .templateBlock, []⟩] _ [] _ _ ⟨0, 22⟩ (.opened []) rfl rfl rfl rfl rfl rfl
  (Fix.only_wf Fix.inBlock (by decide) (by decide) (by decide)) (Fix.docEnv_objs ..) (List.mem_singleton.mpr rfl)
  (Fix.on_only _ Fix.inBlock _ _ _ _ (by decide) (by decide) (by decide) (by decide) (by decide)) ⟨rfl, rfl⟩ (by simp only [Fits]; decide)
  (by decide) ⟨_, List.mem_singleton.mpr rfl, rfl, by decide, by decide⟩

/-- `C97_target_refuted` applies to the target of `{% for i in p %}` -/
example := C97_target_refuted (Fix.docEnv Fix.tpl [.use ⟨.«variable», Fix.target, []⟩] []) Fix.world Fix.world Fix.world Fix.server _
  (.didOpen Fix.uriA []) Fix.uriA [] _ _ _ Fix.tplVars _ [] _ _ ⟨2, 9⟩ (.opened []) rfl rfl rfl rfl rfl rfl
  (Fix.only_wf Fix.target (by decide) (by decide) (by decide)) (Fix.docEnv_objs ..) (List.mem_singleton.mpr rfl)
  (Fix.on_only _ Fix.target _ _ _ _ (by decide) (by decide) (by decide) (by decide) (by decide)) ⟨rfl, rfl⟩ Fix.tplVars_fit
  ⟨⟨2, 9⟩, ⟨2, 10⟩, c!"i", 8, ⟨4, 2⟩, .forLoopKey, []⟩ (by decide) rfl (by decide) rfl (by decide) (by simp only [DefinesAt]; decide)
  (fun file v hx => by
    obtain ⟨_, h2, _, _⟩ := elsewhere_two (fun _ _ => rfl) (elsewhere_analysed (env := (Fix.docEnv Fix.tpl [.use ⟨.«variable», Fix.target, []⟩] [])) (w := Fix.world) (s := Fix.server)
      (.opened []) rfl hx)
    cases h2)

/-- `C97_both_refuted` applies to the loop variable after its loop, if the other file defines `i`, too -/
example := C97_both_refuted (Fix.docEnv Fix.tpl [.use ⟨.«variable», Fix.outside, []⟩] []) Fix.world Fix.world Fix.world Fix.serverI _
  (.didOpen Fix.uriA []) Fix.uriA [] _ _ _ Fix.tplVars _ [] _ _ ⟨4, 20⟩ (.opened []) rfl rfl rfl rfl rfl rfl
  (Fix.only_wf Fix.outside (by decide) (by decide) (by decide)) (Fix.docEnv_objs ..) (List.mem_singleton.mpr rfl)
  (Fix.on_only _ Fix.outside _ _ _ _ (by decide) (by decide) (by decide) (by decide) (by decide)) (Fix.noTemplate_nil _ _ _ _ _) ⟨rfl, rfl⟩
  (fun d hd hn => .of (by revert d; decide)) (fun file v hx => ⟨by simp [Fix.docEnv, Fix.env], by
    obtain ⟨_, h2, _⟩ := elsewhere_two (fun _ _ => rfl) (elsewhere_analysed (env := (Fix.docEnv Fix.tpl [.use ⟨.«variable», Fix.outside, []⟩] [])) (w := Fix.world) (s := Fix.serverI)
      (.opened []) rfl hx)
    cases List.mem_singleton.mp h2
    unfold Fits; decide⟩) (by decide) (by decide) ⟨Fix.uriB, _, by decide, _, rfl, List.mem_singleton.mpr rfl, by decide, Or.inl rfl⟩

/-- `C97_dotted_refuted` applies to `{{ z }}`, if a backend file renders `z.html` -/
example := C97_dotted_refuted (Fix.docEnv .nil [.use ⟨.«variable», Fix.zTok, []⟩] []) Fix.world Fix.world Fix.world Fix.serverDotted _
  (.didOpen Fix.uriA []) Fix.uriA [] _ _ _ [] _ [] _ _ ⟨2, 3⟩ (.opened []) rfl rfl rfl rfl rfl rfl
  (Fix.only_wf Fix.zTok (by decide) (by decide) (by decide)) (Fix.docEnv_objs ..) (List.mem_singleton.mpr rfl)
  (Fix.on_only _ Fix.zTok _ _ _ _ (by decide) (by decide) (by decide) (by decide) (by decide)) (Fix.noTemplate_nil _ _ _ _ _) ⟨rfl, rfl⟩
  (fun file v hx => ⟨by simp [Fix.docEnv, Fix.env], by
    obtain ⟨_, h2, _⟩ := elsewhere_two (fun _ _ => rfl) (elsewhere_analysed (env := (Fix.docEnv .nil [.use ⟨.«variable», Fix.zTok, []⟩] [])) (w := Fix.world) (s := Fix.serverDotted)
      (.opened []) rfl hx)
    cases List.mem_singleton.mp h2
    unfold Fits; decide⟩) (by decide)
  (fun file vs v hne hg hv hn => by
    obtain ⟨_, h2, _, _⟩ := elsewhere_two (fun _ _ => rfl)
      (elsewhere_analysed (env := (Fix.docEnv .nil [.use ⟨.«variable», Fix.zTok, []⟩] [])) (w := Fix.world) (s := Fix.serverDotted)
      (n := c!"z") (.opened []) rfl ⟨hne, vs, hg, hv, by rw [hn]; exact FirstSegment.dotless (by decide)⟩)
    cases List.mem_singleton.mp h2
    cases hn)
  ⟨c!"file:///m.rs", _, by decide, _, rfl, List.mem_singleton.mpr rfl, by decide, Or.inr ⟨c!"html", rfl⟩⟩

end JinjaLsp
