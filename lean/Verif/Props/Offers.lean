import Verif.Props.Agreement
/-
  C99: completion and diagnostics agree about a name.
-/

namespace JinjaLsp
open Spec

/-- a definition that does not touch the name can be used at the cursor exactly when it is visible -/
theorem Spec.Apart.usable {t : Tok} {d : Identifier} (h : Apart t d) {p : Point} (h1 : t.start ≤ p) (h2 : p ≤ t.stop)
    (hj : d.idType ≠ .jinjaTemplate) : Visible p d ↔ d.stop ≤ t.start ∧ t.stop ≤ d.scopeEnd := by
  constructor
  · rintro ⟨_, _, a, b⟩
    refine ⟨?_, ?_⟩
    · rcases h.place with hp | hp
      · exact hp
      · exact absurd (Point.lt_of_lt_of_le hp (Point.le_trans h.order (Point.le_trans a h2))) (Point.lt_irrefl _)
    · rcases h.scope with hs | hs
      · exact hs.2
      · exact absurd (Point.lt_of_lt_of_le hs.1 (Point.le_trans h1 b)) (Point.lt_irrefl _)
  · rintro ⟨a, b⟩
    exact ⟨h.kind, hj, Point.le_trans a h1, Point.le_trans h2 b⟩

/-- **C99** (part) After a template was opened or saved, for every variable used in it, completion with the cursor in or behind its name
(after the first character): the name is among the variables of the document that are offered exactly when nothing is reported about it; and if
it is offered as a variable of a backend file and the document does not define it, it is reported as defined elsewhere, not as undefined.
Missing: names that the document defines where they are not visible and a backend file, too (`C99_both_refuted`). -/
theorem C99_offered_partial (env : Env) (w w₁ : World) (s s' : Server) (m : Msg) (uri text : Str) (tree : Tree) (out : List Send)
    (r : Reply) (vars : List Identifier) (es : List Elem) (before : List Elem) (u : Use) (rest : List Capture) (pos : Position)
    (hm : m.Analyses uri) (he : fileExt uri = some .template) (hig : s.files.ignoreGlobals = false)
    (h : s.handle env w m = .ok (s', out, r)) (hd : s'.files.documents.get? uri = some text)
    (ht : (s'.files.trees .template).get? uri = some tree) (hv : s'.files.variables.get? uri = some vars)
    (hes : Elems.Wf es) (hce : (env.queryMatches .jinjaObjects tree text).flatten = es.flatMap Elem.caps) (hu : Elem.use u ∈ es)
    (hon : OnUse (env.queryMatches .jinjaObjects tree text).flatten before u rest (toPoint pos))
    (hvar : u.info.filter = false ∧ u.info.test = false)
    (hs : ¬ Spec.Broken (env.queryMatches .jinjaSnippets tree text).flatten (toPoint pos))
    (typed untyped : Str) (hn : u.root.text = typed ++ untyped) (hty : typed ≠ [])
    (hrow : u.root.stop.column = u.root.start.column + utf8Len u.root.text)
    (hcol : pos.character = u.root.start.column + utf8Len typed) (hline : pos.line = u.root.start.row)
    (hin : (lastExpr ((Point.zero, Point.zero), ExprRange.default) before).1.1 ≤ toPoint pos ∧
      toPoint pos < (lastExpr ((Point.zero, Point.zero), ExprRange.default) before).1.2)
    (hbeg : (lastExpr ((Point.zero, Point.zero), ExprRange.default) before).2.beginR.2 ≤ u.root.start)
    (hap : ∀ d ∈ vars, d.name = u.root.text → d.idType ≠ .templateBlock → Apart u.root d ∧ d.idType ≠ .jinjaTemplate) :
    ∃ ds own more, out = [.diag (HMap.empty.insert uri ds)] ∧
      s'.handle env w₁ (.completion uri pos .invoked) = .ok (s', [], .completion (some (own ++ more))) ∧
      (u.root.text ∈ own.map (·.label) ↔ ∀ k, about k u.root ∉ useDiags ds) ∧
      (u.root.text ∈ more.map (·.label) → (∀ d ∈ vars, d.name = u.root.text → d.idType = .templateBlock) →
        about .definedSomewhere u.root ∈ useDiags ds ∧ about .undefined u.root ∉ useDiags ds) := by
  obtain ⟨ds, h1, h2⟩ := reported_iff hm he hig h hd ht hv hes hce hu hvar
  obtain ⟨rg, b, hk⟩ := C20_typed_partial env s'.files uri tree text pos he hd ht hs before u rest hon typed untyped hn hty hrow hcol hline hin hbeg
  obtain ⟨own, more, h3, _, h4, h5⟩ := C38_offered env w₁ s' uri pos .invoked _ b typed vars hk (Or.inr ⟨rg, rfl⟩) hv
  have ho : u.root.start ≤ u.root.stop := Point.le_trans hon.start hon.stop
  have a1 : ¬ (u.info.filter = true ∨ u.info.test = true) := by simp [hvar.1, hvar.2]
  have hpre : typed <+: u.root.text := ⟨untyped, hn.symm⟩
  refine ⟨ds, own, more, h1, h3, ?_, ?_⟩
  · rw [h4]
    simp only [h2]
    constructor
    · rintro ⟨⟨d, g1, g2, g3⟩, _⟩ k
      obtain ⟨g4, g5⟩ := hap d g1 g3 g2.1
      have a2 : ∃ b ∈ vars.map Identifier.binding, b.VisibleAt u.info :=
        ⟨d.binding, List.mem_map.mpr ⟨d, g1, rfl⟩, (g4.visible ho).mpr ⟨g3, (g4.usable hon.start hon.stop g5).mp g2⟩⟩
      unfold verdict
      rw [if_neg a1, if_pos a2]
      simp
    · intro hno
      refine ⟨?_, hpre⟩
      have a2 : ∃ b ∈ vars.map Identifier.binding, b.VisibleAt u.info := by
        apply Classical.byContradiction
        intro a2
        have hver : verdict (vars.map Identifier.binding)
            ((vars.map Identifier.binding).map (·.name) ++ knownElsewhere s.files.variables uri) u.info ≠ none := by
          unfold verdict
          rw [if_neg a1, if_neg a2]
          split <;> (try split) <;> simp
        cases hk : verdict (vars.map Identifier.binding)
            ((vars.map Identifier.binding).map (·.name) ++ knownElsewhere s.files.variables uri) u.info with
        | none => exact hver hk
        | some k => exact hno k hk
      obtain ⟨b, hb, hvis⟩ := a2
      obtain ⟨d, g1, rfl⟩ := List.mem_map.mp hb
      obtain ⟨g4, g5⟩ := hap d g1 hvis.1 hvis.2.1
      obtain ⟨g6, g7⟩ := (g4.visible ho).mp hvis
      exact ⟨d, g1, (g4.usable hon.start hon.stop g5).mpr g7, g6⟩
  · intro hmem hnone
    obtain ⟨file, vs, v, k1, k2, k3, k4⟩ := (h5 _).mp hmem
    have hne : file ≠ uri := by
      rintro rfl
      rw [hv] at k1
      cases k1
      rw [hnone v k2 k4] at k3
      cases k3
    have hfr := analyses_frame hm h
    have a4 : u.info.name ∈ (vars.map Identifier.binding).map (·.name) ++ knownElsewhere s.files.variables uri :=
      List.mem_append.mpr (Or.inr ((mem_knownElsewhere ..).mpr ⟨file, vs, hne, by rw [← (hfr.same file hne).vars]; exact k1, v, k2, k4⟩))
    have a3 : ¬ ∃ b ∈ vars.map Identifier.binding, b.name = u.info.name ∧ b.kind ≠ .templateBlock := by
      rintro ⟨b, hb, hn, hb'⟩
      obtain ⟨d, j1, rfl⟩ := List.mem_map.mp hb
      exact hb' (hnone d j1 hn)
    have a2 : ¬ ∃ b ∈ vars.map Identifier.binding, b.VisibleAt u.info := fun ⟨b, hb, hvis⟩ => a3 ⟨b, hb, hvis.1, hvis.2.1⟩
    have hver : verdict (vars.map Identifier.binding)
        ((vars.map Identifier.binding).map (·.name) ++ knownElsewhere s.files.variables uri) u.info = some .definedSomewhere := by
      unfold verdict
      rw [if_neg a1, if_neg a2, if_neg a3, if_pos a4]
    rw [h2, h2, hver]
    exact ⟨rfl, by simp⟩

/-- **C99 is false for names that a backend file has, too**: a name that the document defines only where it is not visible is offered as a
variable of the backend file, but reported as undefined. -/
theorem C99_both_refuted (env : Env) (w w₁ : World) (s s' : Server) (m : Msg) (uri text : Str) (tree : Tree) (out : List Send)
    (r : Reply) (vars : List Identifier) (es : List Elem) (before : List Elem) (u : Use) (rest : List Capture) (pos : Position)
    (hm : m.Analyses uri) (he : fileExt uri = some .template) (hig : s.files.ignoreGlobals = false)
    (h : s.handle env w m = .ok (s', out, r)) (hd : s'.files.documents.get? uri = some text)
    (ht : (s'.files.trees .template).get? uri = some tree) (hv : s'.files.variables.get? uri = some vars)
    (hes : Elems.Wf es) (hce : (env.queryMatches .jinjaObjects tree text).flatten = es.flatMap Elem.caps) (hu : Elem.use u ∈ es)
    (hon : OnUse (env.queryMatches .jinjaObjects tree text).flatten before u rest (toPoint pos))
    (hvar : u.info.filter = false ∧ u.info.test = false)
    (hs : ¬ Spec.Broken (env.queryMatches .jinjaSnippets tree text).flatten (toPoint pos))
    (typed untyped : Str) (hn : u.root.text = typed ++ untyped) (hty : typed ≠ [])
    (hrow : u.root.stop.column = u.root.start.column + utf8Len u.root.text)
    (hcol : pos.character = u.root.start.column + utf8Len typed) (hline : pos.line = u.root.start.row)
    (hin : (lastExpr ((Point.zero, Point.zero), ExprRange.default) before).1.1 ≤ toPoint pos ∧
      toPoint pos < (lastExpr ((Point.zero, Point.zero), ExprRange.default) before).1.2)
    (hbeg : (lastExpr ((Point.zero, Point.zero), ExprRange.default) before).2.beginR.2 ≤ u.root.start)
    (hdef : ∃ d ∈ vars, d.name = u.root.text ∧ d.idType ≠ .templateBlock)
    (hnot : ∀ d ∈ vars, d.name = u.root.text → u.root.stop < d.start ∨ d.scopeEnd ≤ u.root.start ∧ d.scopeEnd ≠ ⟨0, 0⟩)
    (hb : BackendName s'.files u.root.text) :
    ∃ ds items, out = [.diag (HMap.empty.insert uri ds)] ∧
      s'.handle env w₁ (.completion uri pos .invoked) = .ok (s', [], .completion (some items)) ∧
      u.root.text ∈ items.map (·.label) ∧ about .undefined u.root ∈ useDiags ds := by
  obtain ⟨ds, h1, h2⟩ := reported_iff hm he hig h hd ht hv hes hce hu hvar
  obtain ⟨rg, b, hk⟩ := C20_typed_partial env s'.files uri tree text pos he hd ht hs before u rest hon typed untyped hn hty hrow hcol hline hin hbeg
  obtain ⟨items, h3, h4, _⟩ := C39_all_partial env w₁ s' uri pos .invoked _ b typed vars hk (Or.inr ⟨rg, rfl⟩) hv
  refine ⟨ds, items, h1, h3, h4 _ hb, (h2 _).mpr ?_⟩
  have a1 : ¬ (u.info.filter = true ∨ u.info.test = true) := by simp [hvar.1, hvar.2]
  have a2 : ¬ ∃ b ∈ vars.map Identifier.binding, b.VisibleAt u.info := by
    rintro ⟨b, hb, hvis⟩
    obtain ⟨d, g1, rfl⟩ := List.mem_map.mp hb
    obtain ⟨v1, _, v3, v4⟩ := hvis
    rcases hnot d g1 v1 with g | ⟨g, g'⟩
    · exact Point.lt_irrefl _ (Point.lt_of_lt_of_le g v3)
    · rcases v4 with v4 | v4
      · exact Point.lt_irrefl _ (Point.lt_of_lt_of_le v4 g)
      · exact g' v4
  have a3 : ∃ b ∈ vars.map Identifier.binding, b.name = u.info.name ∧ b.kind ≠ .templateBlock := by
    obtain ⟨d, k1, k2, k3⟩ := hdef
    exact ⟨d.binding, List.mem_map.mpr ⟨d, k1, rfl⟩, k2, k3⟩
  unfold verdict
  rw [if_neg a1, if_neg a2, if_pos a3]

/-! ## Examples -/

namespace Fix

/-- `{{ i }}` in the loop, `{{ i }}` after it, and a use of a variable of the backend -/
def shownUses : List Elem :=
  [.expr 40 ⟨3, 4⟩ ⟨3, 11⟩ (⟨3, 4⟩, ⟨3, 6⟩) (⟨3, 9⟩, ⟨3, 11⟩), .use ⟨.«variable», tok 3 7 8 c!"i" 50, []⟩,
   .expr 41 ⟨4, 17⟩ ⟨4, 24⟩ (⟨4, 17⟩, ⟨4, 19⟩) (⟨4, 22⟩, ⟨4, 24⟩), .use ⟨.«variable», tok 4 20 21 c!"i" 51, []⟩,
   .expr 42 ⟨7, 0⟩ ⟨7, 13⟩ (⟨7, 0⟩, ⟨7, 2⟩) (⟨7, 11⟩, ⟨7, 13⟩), .use ⟨.«variable», tok 7 3 10 c!"request" 52, []⟩]

def shownEnv : Env := docEnv tpl shownUses []

/-- a backend file has `request` and `i` -/
def shownServer : Server := { server with files := { files with
  variables := (HMap.empty.insert uriA []).insert uriM
    [{ Identifier.new c!"request" ⟨1, 1⟩ ⟨1, 8⟩ with idType := .backendVariable }, { Identifier.new c!"i" ⟨2, 1⟩ ⟨2, 2⟩ with idType := .backendVariable }] } }

theorem shown_wf : Elems.Wf shownUses :=
  ⟨by simp [shownUses, Elem.Ok, Mark.Ok, reserved, tok], ⟨⟨0, 1⟩, by decide, by simp [shownUses, Elem.toks, Use.toks, Mark.toks, tok, Ordered, Point.lt_def, Point.le_def]⟩⟩

/-- behind the loop variable in its loop -/
theorem on_shown_i (tree : Tree) (text : Str) : OnUse (shownEnv.queryMatches .jinjaObjects tree text).flatten (shownUses.take 1)
    ⟨.«variable», tok 3 7 8 c!"i" 50, []⟩ ((shownUses.drop 2).flatMap Elem.caps) (toPoint ⟨3, 8⟩) where
  caps := by rw [shownEnv, docEnv_objs]; rfl
  ok := by simp [shownUses, Elem.Ok, Mark.Ok, reserved, tok]
  mark := trivial
  name := by decide
  ordered := ⟨⟨0, 1⟩, by decide, by simp [shownUses, Elem.toks, Use.toks, Mark.toks, tok, Ordered, Point.lt_def, Point.le_def]⟩
  exprs := by
    intro n a b f l h
    simp only [shownUses, List.take, List.mem_cons, Elem.expr.injEq, reduceCtorEq, List.not_mem_nil, or_false, false_or] at h
    obtain ⟨_, rfl, _⟩ := h
    decide
  start := by decide
  stop := by decide
  after := by decide

/-- behind the loop variable after the loop -/
theorem on_shown_out (tree : Tree) (text : Str) : OnUse (shownEnv.queryMatches .jinjaObjects tree text).flatten (shownUses.take 3)
    ⟨.«variable», tok 4 20 21 c!"i" 51, []⟩ ((shownUses.drop 4).flatMap Elem.caps) (toPoint ⟨4, 21⟩) where
  caps := by rw [shownEnv, docEnv_objs]; rfl
  ok := by simp [shownUses, Elem.Ok, Mark.Ok, reserved, tok]
  mark := trivial
  name := by decide
  ordered := ⟨⟨0, 1⟩, by decide, by simp [shownUses, Elem.toks, Use.toks, Mark.toks, tok, Ordered, Point.lt_def, Point.le_def]⟩
  exprs := by
    intro n a b f l h
    simp only [shownUses, List.take, List.mem_cons, Elem.expr.injEq, reduceCtorEq, List.not_mem_nil, or_false, false_or] at h
    rcases h with h | h <;> (obtain ⟨_, rfl, _⟩ := h; decide)
  start := by decide
  stop := by decide
  after := by decide

/-- in the name of the variable of the backend -/
theorem on_shown_request (tree : Tree) (text : Str) : OnUse (shownEnv.queryMatches .jinjaObjects tree text).flatten (shownUses.take 5)
    ⟨.«variable», tok 7 3 10 c!"request" 52, []⟩ ((shownUses.drop 6).flatMap Elem.caps) (toPoint ⟨7, 6⟩) where
  caps := by rw [shownEnv, docEnv_objs]; rfl
  ok := by simp [shownUses, Elem.Ok, Mark.Ok, reserved, tok]
  mark := trivial
  name := by decide
  ordered := ⟨⟨0, 1⟩, by decide, by simp [shownUses, Elem.toks, Use.toks, Mark.toks, tok, Ordered, Point.lt_def, Point.le_def]⟩
  exprs := by
    intro n a b f l h
    simp only [shownUses, List.take, List.mem_cons, Elem.expr.injEq, reduceCtorEq, List.not_mem_nil, or_false, false_or] at h
    rcases h with h | h | h <;> (obtain ⟨_, rfl, _⟩ := h; decide)
  start := by decide
  stop := by decide
  after := by decide

theorem shown_intact (tree : Tree) (text : Str) (p : Point) : ¬ Spec.Broken (shownEnv.queryMatches .jinjaSnippets tree text).flatten p := by
  rintro ⟨pre, e, post, hc, _⟩
  simp [shownEnv, docEnv] at hc

end Fix

/-- `C99_offered_partial` applies to the loop variable in its loop, about which nothing is reported, … -/
example := C99_offered_partial Fix.shownEnv Fix.world Fix.world Fix.shownServer _ (.didOpen Fix.uriA []) Fix.uriA [] _ _ _
  Fix.tplVars Fix.shownUses _ _ _ ⟨3, 8⟩ (.opened []) rfl rfl rfl rfl rfl rfl Fix.shown_wf (Fix.docEnv_objs ..) (by simp [Fix.shownUses, Fix.tok])
  (Fix.on_shown_i _ _) ⟨rfl, rfl⟩ (Fix.shown_intact _ _ _) c!"i" [] rfl (by decide) (by decide) (by decide) rfl (by decide) (by decide)
  (fun d hd hn hb => ⟨.of (by revert d; decide), by revert d; decide⟩)

/-- … and to the variable of the backend, which is reported as defined elsewhere -/
example := C99_offered_partial Fix.shownEnv Fix.world Fix.world Fix.shownServer _ (.didOpen Fix.uriA []) Fix.uriA [] _ _ _
  Fix.tplVars Fix.shownUses _ _ _ ⟨7, 6⟩ (.opened []) rfl rfl rfl rfl rfl rfl Fix.shown_wf (Fix.docEnv_objs ..) (by simp [Fix.shownUses, Fix.tok])
  (Fix.on_shown_request _ _) ⟨rfl, rfl⟩ (Fix.shown_intact _ _ _) c!"req" c!"uest" rfl (by decide) (by decide) (by decide) rfl (by decide) (by decide)
  (fun d hd hn hb => ⟨.of (by revert d; decide), by revert d; decide⟩)

/-- what is offered and reported there -/
example : ∃ ds s' items, Fix.shownServer.handle Fix.shownEnv Fix.world (.didOpen Fix.uriA []) = .ok (s', [.diag (HMap.empty.insert Fix.uriA ds)], .none) ∧
    s'.handle Fix.shownEnv Fix.world (.completion Fix.uriA ⟨3, 8⟩ .invoked) = .ok (s', [], .completion (some items)) ∧
    items.map (·.label) = [c!"i", c!"request", c!"i"] ∧
    useDiags ds = [⟨.undefined, c!"i", ⟨4, 20⟩, ⟨4, 21⟩⟩, ⟨.definedSomewhere, c!"request", ⟨7, 3⟩, ⟨7, 10⟩⟩] :=
  ⟨_, _, _, rfl, rfl, by decide, by decide⟩

/-- `C99_both_refuted` applies to the loop variable after its loop, if a backend file has `i`, too -/
example := C99_both_refuted Fix.shownEnv Fix.world Fix.world Fix.shownServer _ (.didOpen Fix.uriA []) Fix.uriA [] _ _ _
  Fix.tplVars Fix.shownUses _ _ _ ⟨4, 21⟩ (.opened []) rfl rfl rfl rfl rfl rfl Fix.shown_wf (Fix.docEnv_objs ..) (by simp [Fix.shownUses, Fix.tok])
  (Fix.on_shown_out _ _) ⟨rfl, rfl⟩ (Fix.shown_intact _ _ _) c!"i" [] rfl (by decide) (by decide) (by decide) rfl (by decide) (by decide)
  (by decide) (by decide) ⟨Fix.uriM, _, _, rfl, List.mem_cons_of_mem _ List.mem_cons_self, rfl, rfl⟩

end JinjaLsp
