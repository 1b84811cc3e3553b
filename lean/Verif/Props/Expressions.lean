import Verif.Lemmas.Completion
import Verif.Lemmas.Snippets
import Verif.Props.Definitions
/-
  C17 (variable uses), C18 (no overflow at the cursor), C19 (kind of completion), C20 (completion prefix).
-/

namespace JinjaLsp
open Spec JinjaObjects

/-! ## C17 -/

/-- the uses reported after captures of a well-formed sequence and further captures -/
theorem objects_of_elems (env : Env) (tree : Tree) (text : Str) (p : Point) (es : List Elem) (h : Elems.Wf es) (more : List Capture)
    (hc : (env.queryMatches .jinjaObjects tree text).flatten = es.flatMap Elem.caps ++ more) :
    ∃ s q, objectsQuery env tree p text true = .ok (s.feed more) ∧
      s.objects = es.filterMap (fun | .use u => some (useObj u) | _ => none) ∧ Ready s q ∧
      ∀ q0, Ordered q0 (es.flatMap Elem.toks) → Point.zero < q0 → Ready s (endOf q0 (es.flatMap Elem.toks)) := by
  obtain ⟨q, hq, ho⟩ := h.ordered
  obtain ⟨s, h1, h2, h3, _⟩ := feeds_doc hq h.ok ho
  refine ⟨s, _, ?_, h2, h3, ?_⟩
  · unfold objectsQuery
    rw [hc, objectsLoop_all]
    show Except.ok (JinjaObjects.feed JinjaObjects.default _) = _
    rw [h1.feed]
  · intro q0 ho0 hq0
    obtain ⟨s', g1, _, g3, _⟩ := feeds_doc hq0 h.ok ho0
    have : s' = s := by
      have e : JinjaObjects.steps JinjaObjects.default (es.flatMap Elem.caps) = some s' := g1
      rw [show JinjaObjects.steps JinjaObjects.default (es.flatMap Elem.caps) = some s from h1] at e
      injection e with e; exact e.symm
    rw [← this]; exact g3

theorem useObj_info (es : List Elem) :
    (es.filterMap (fun | .use u => some (useObj u) | _ => none)).map JinjaObject.info = Elems.uses es := by
  induction es with
  | nil => rfl
  | cons e es ih =>
    cases e with
    | use u => simp only [List.filterMap_cons, List.map_cons, Elems.uses] at ih ⊢; rw [ih]; rfl
    | op t => simpa [Elems.uses] using ih
    | word t => simpa [Elems.uses] using ih
    | expr n a b f l => simpa [Elems.uses] using ih

/-- **C17** (part) For every well-formed sequence of expressions, of any length: the uses reported are exactly the names
that are neither reserved nor attributes, in document order, each with its range, its attributes, and marked as filter or
test exactly when it directly follows a pipe or (up to reserved words) `is`.
Missing: attributes of reserved words and `is` directly before a reserved operand (`C17_reserved_attribute_refuted`,
`C17_reserved_test_refuted`). -/
theorem C17_uses_partial (env : Env) (f : LspFiles) (uri : Str) (tree : Tree) (text : Str) (es : List Elem)
    (hext : fileExt uri = some .template) (hd : f.documents.get? uri = some text) (ht : (f.trees .template).get? uri = some tree)
    (h : Elems.Wf es) (hc : (env.queryMatches .jinjaObjects tree text).flatten = es.flatMap Elem.caps) :
    ∃ os, f.readObjects env uri = .ok (some os) ∧ os.map JinjaObject.info = Elems.uses es := by
  obtain ⟨s, q, h1, h2, _⟩ := objects_of_elems env tree text Point.zero es h [] (by simpa using hc)
  refine ⟨s.objects, ?_, ?_⟩
  · simp only [LspFiles.readObjects, hd, hext, ht, h1]; rfl
  · rw [h2, useObj_info]

namespace Fix

/-- `{{ user.name | upper }} {{ not x is not defined }}` -/
def exprs : List Elem :=
  [.expr 1 ⟨0, 0⟩ ⟨0, 24⟩ (⟨0, 0⟩, ⟨0, 2⟩) (⟨0, 22⟩, ⟨0, 24⟩),
   .use ⟨.variable, tok 0 3 7 c!"user" 2, [(tok 0 7 8 c!"." 3, tok 0 8 12 c!"name" 4)]⟩,
   .use ⟨.filter (tok 0 13 15 c!"| " 5), tok 0 15 20 c!"upper" 6, []⟩,
   .expr 7 ⟨0, 25⟩ ⟨0, 53⟩ (⟨0, 25⟩, ⟨0, 27⟩) (⟨0, 51⟩, ⟨0, 53⟩),
   .word (tok 0 28 31 c!"not" 8),
   .use ⟨.variable, tok 0 32 33 c!"x" 9, []⟩,
   .use ⟨.test (tok 0 34 36 c!"is" 10) [tok 0 37 40 c!"not" 11], tok 0 41 48 c!"defined" 12, []⟩]

theorem exprs_wf : Elems.Wf exprs := by
  refine ⟨?_, ⟨0, 1⟩, by decide, ?_⟩
  · intro e he
    simp only [exprs, List.mem_cons, List.not_mem_nil, or_false] at he
    rcases he with rfl | rfl | rfl | rfl | rfl | rfl | rfl <;> simp [Elem.Ok, Mark.Ok, reserved, tok]
  · simp only [exprs, List.flatMap_cons, List.flatMap_nil, Elem.toks, Use.toks, Mark.toks, tok, List.append_nil,
      List.nil_append, List.cons_append, Ordered]
    decide

end Fix

/-- not vacuous: four uses -/
example : Elems.Wf Fix.exprs ∧ (Elems.uses Fix.exprs).map (fun u => (u.name, u.filter, u.test, u.attrs.length)) =
    [(c!"user", false, false, 1), (c!"upper", true, false, 0), (c!"x", false, false, 0), (c!"defined", false, true, 0)] :=
  ⟨Fix.exprs_wf, by decide⟩

/-- **C17 is false for attributes of reserved words** (`loop.index`): after any well-formed document, the attribute name of a
reserved word is attached to the preceding variable, or becomes a variable of its own when there is none. -/
theorem C17_reserved_attribute_refuted (env : Env) (tree : Tree) (text : Str) (p q : Point) (es : List Elem)
    (hok : ∀ e ∈ es, e.Ok) (w d n : Tok) (hq : Point.zero < q) (ho : Ordered q (es.flatMap Elem.toks ++ [w, d, n]))
    (hw : w.text ∈ reserved) (hn : n.text ∉ reserved) (hdn : d.stop = n.start) (hd : d.text = c!".")
    (hc : (env.queryMatches .jinjaObjects tree text).flatten =
      es.flatMap Elem.caps ++ [w.cap .justId, d.cap .pipe, d.cap .dot, n.cap .justId]) :
    ∃ s, objectsQuery env tree p text true = .ok s ∧ s.objects.map JinjaObject.info ≠ Elems.uses es ∧
      s.objects.map JinjaObject.info =
        match (Elems.uses es).getLast? with
        | none => [⟨n.text, (n.start, n.stop), false, false, []⟩]
        | some u => (Elems.uses es).dropLast ++ [{ u with attrs := u.attrs ++ [(n.text, (n.start, n.stop))] }] := by
  rw [ordered_append] at ho
  obtain ⟨s, _, h1, h2, _, h4⟩ := objects_of_elems env tree text p es ⟨hok, q, hq, ho.1⟩ _ hc
  have hr := h4 q ho.1 hq
  simp only [Ordered] at ho
  have hinfo : s.objects.map JinjaObject.info = Elems.uses es := by rw [h2, useObj_info]
  have k1 := check_word s w (fun e => Point.lt_irrefl _ (Point.lt_of_lt_of_le hr.dot (e ▸ ho.2.1))) hw
  have k2 : s.check (d.cap .pipe) = some (s, .newFilter) := by simp [check, Tok.cap, hd]
  have k3 : s.check (d.cap .dot) = some ({ s with dot := (d.start, d.stop) }, .newField) := rfl
  have run4 : ∀ {t a}, ({ s with dot := (d.start, d.stop) } : JinjaObjects).check (n.cap .justId) = some (t, a) →
      s.feed [w.cap .justId, d.cap .pipe, d.cap .dot, n.cap .justId] = t := fun k4 =>
    (Feeds.cons k1 (Feeds.cons k2 (Feeds.cons k3 (Feeds.cons k4 (Feeds.nil _))))).feed []
  refine ⟨_, h1, ?_⟩
  rcases hobj : s.objects.getLast? with _ | o
  · have hnil : s.objects = [] := by simpa using hobj
    have hun : Elems.uses es = [] := by rw [← hinfo, hnil]; rfl
    have k4 : ({ s with dot := (d.start, d.stop) } : JinjaObjects).check (n.cap .justId) =
        some ({ s with dot := (d.start, d.stop), ident := (n.start, n.stop), testOn := false,
                       objects := [JinjaObject.new n.text n.start n.stop (decide (s.pipe.2 = n.start)) s.testOn] }, .newObject) := by
      have hle : n.start ≤ n.stop := Point.le_of_lt ho.2.2.2.2.2.2.1
      have hn' : n.text ∉ validIdentifiers := hn
      simp only [check, Tok.cap, buildObject, hdn, and_self, if_true, pushObject, hn', if_false, isHover, isFilter,
        Point.le_refl, hle, decide_true, Bool.and_self, Bool.true_or, Bool.true_and, hnil, List.nil_append]
      congr
    have hpn : decide (s.pipe.2 = n.start) = false := by
      simp only [decide_eq_false_iff_not]
      intro e
      have : s.pipe.2 < n.start := Point.lt_of_lt_of_le hr.pipe (Point.le_trans ho.2.1
        (Point.le_trans (Point.le_of_lt ho.2.2.1) (Point.le_trans ho.2.2.2.1 (hdn ▸ Point.le_of_lt ho.2.2.2.2.1))))
      rw [e] at this
      exact Point.lt_irrefl _ this
    rw [run4 k4, hpn, hr.test, hun]
    constructor
    · simp
    · simp [JinjaObject.info, JinjaObject.new]
  · obtain ⟨os, hos⟩ : ∃ os, s.objects = os ++ [o] := by
      obtain ⟨os, h⟩ := List.getLast?_eq_some_iff.mp hobj; exact ⟨os, h⟩
    have k4 := check_field { s with dot := (d.start, d.stop) } n hdn o os hos
    have hun : Elems.uses es = os.map JinjaObject.info ++ [o.info] := by rw [← hinfo, hos]; simp
    rw [run4 k4, hun]
    constructor
    · simp [JinjaObject.info]
    · simp [JinjaObject.info]

/-- the hypotheses hold: the document above followed by `loop.index` -/
example : ∃ w d n : Tok, Ordered ⟨0, 1⟩ (Fix.exprs.flatMap Elem.toks ++ [w, d, n]) ∧ w.text ∈ reserved ∧ n.text ∉ reserved ∧
    d.stop = n.start ∧ d.text = c!"." :=
  ⟨Fix.tok 1 3 7 c!"loop" 20, Fix.tok 1 7 8 c!"." 21, Fix.tok 1 8 13 c!"index" 22, by
    refine ⟨?_, by simp [Fix.tok, reserved], by simp [Fix.tok, reserved], by simp [Fix.tok], rfl⟩
    simp only [Fix.exprs, List.flatMap_cons, List.flatMap_nil, Elem.toks, Use.toks, Mark.toks, Fix.tok, List.append_nil,
      List.nil_append, List.cons_append, Ordered]
    decide⟩

/-- **C17 is false for a test against a reserved word** (`x is true`): the next variable of the document, wherever it is, is
reported as a test. -/
theorem C17_reserved_test_refuted (env : Env) (tree : Tree) (text : Str) (p q : Point) (es : List Elem)
    (hok : ∀ e ∈ es, e.Ok) (k w x : Tok) (hq : Point.zero < q) (ho : Ordered q (es.flatMap Elem.toks ++ [k, w, x]))
    (hw : w.text ∈ reserved) (hx : x.text ∉ reserved)
    (hc : (env.queryMatches .jinjaObjects tree text).flatten =
      es.flatMap Elem.caps ++ [k.cap .is, w.cap .justId, x.cap .justId]) :
    ∃ s, objectsQuery env tree p text true = .ok s ∧
      s.objects.map JinjaObject.info = Elems.uses es ++ [⟨x.text, (x.start, x.stop), false, true, []⟩] := by
  rw [ordered_append] at ho
  obtain ⟨s, _, h1, h2, _, h4⟩ := objects_of_elems env tree text p es ⟨hok, q, hq, ho.1⟩ _ hc
  have hr := h4 q ho.1 hq
  obtain ⟨s2, g1, g2, _⟩ := feeds_root (.test k [w]) x s _ (by intro y hy; cases List.mem_singleton.mp hy; exact hw) hx ho.2 hr
  have g1' : Feeds s [k.cap .is, w.cap .justId, x.cap .justId] s2 := g1
  have := g1'.feed []
  simp only [List.append_nil] at this
  refine ⟨_, h1, ?_⟩
  rw [this]
  simp only [feed, g2, List.map_append, h2, useObj_info]
  rfl

example : ∃ k w x : Tok, Ordered ⟨0, 1⟩ (Fix.exprs.flatMap Elem.toks ++ [k, w, x]) ∧ w.text ∈ reserved ∧ x.text ∉ reserved :=
  ⟨Fix.tok 1 3 5 c!"is" 20, Fix.tok 1 7 11 c!"true" 21, Fix.tok 2 8 13 c!"index" 22, by
    refine ⟨?_, by simp [Fix.tok, reserved], by simp [Fix.tok, reserved]⟩
    simp only [Fix.exprs, List.flatMap_cons, List.flatMap_nil, Elem.toks, Use.toks, Mark.toks, Fix.tok, List.append_nil,
      List.nil_append, List.cons_append, Ordered]
    decide⟩

/-! ## C18 -/

/-- no operator begins a document: operators only occur inside `{{ … }}` and `{% … %}` -/
def NoOperatorAtOrigin (env : Env) : Prop :=
  ∀ tree text, ∀ c ∈ (env.queryMatches .jinjaObjects tree text).flatten, c.name = .pipe → c.start ≠ Point.zero

theorem query_total {env : Env} (h : NoOperatorAtOrigin env) (tree : Tree) (p : Point) (text : Str) (all : Bool) :
    ∃ s, objectsQuery env tree p text all = .ok s :=
  query_ok env tree p text all fun ⟨c, hc, hn, _, hz⟩ => h tree text c hc hn hz

/-- **C18** (hover, code action) These requests never fail, in any build profile, whatever the state. -/
theorem C18_hover (env : Env) (h : NoOperatorAtOrigin env) (f : LspFiles) (uri : Str) (pos : Position) :
    ∃ r, f.hover env uri pos = .ok r := by
  unfold LspFiles.hover
  split
  · exact ⟨_, rfl⟩
  · simp only
    split
    · rename_i tree content _ _
      obtain ⟨s, hs⟩ := query_total h tree (toPoint pos) content false
      simp only [hs]
      split
      · split
        · exact ⟨_, rfl⟩
        · split
          · exact ⟨_, rfl⟩
          · split <;> exact ⟨_, rfl⟩
      · exact ⟨_, rfl⟩
    · exact ⟨_, rfl⟩

theorem C18_code_action (env : Env) (h : NoOperatorAtOrigin env) (f : LspFiles) (uri : Str) (pos : Position) :
    ∃ r, f.codeAction env uri pos = .ok r := by
  unfold LspFiles.codeAction
  split
  · exact ⟨_, rfl⟩
  · rename_i lang _
    simp only
    split
    · rename_i tree actions _ _
      cases lang with
      | template =>
        simp only
        split
        · exact ⟨_, rfl⟩
        · rename_i content _
          split
          · exact ⟨_, rfl⟩
          · obtain ⟨s, hs⟩ := query_total h tree (toPoint pos) content false
            simp only [hs]
            split <;> exact ⟨_, rfl⟩
      | backend =>
        simp only
        split <;> exact ⟨_, rfl⟩
    · exact ⟨_, rfl⟩

theorem collectLocations_error {env : Env} {file : Str} : ∀ (vs : List Identifier) (e : Panic),
    LspFiles.collectLocations env file vs = .error e → e = .unwrap
  | [], e, h => by simp [LspFiles.collectLocations] at h
  | v :: vs, e, h => by
    unfold LspFiles.collectLocations at h
    split at h
    · rename_i e' he
      injection h with h; subst h
      unfold LspFiles.variableLocation at he
      simp only at he
      split at he
      · injection he with he; exact he.symm
      · cases he
    · split at h
      · rename_i e' he
        injection h with h; subst h
        exact collectLocations_error vs _ he
      · cases h

theorem collectFiles_error {env : Env} {uri ident : Str} : ∀ (fs : List (Str × List Identifier)) (e : Panic),
    LspFiles.collectFiles env uri ident fs = .error e → e = .unwrap
  | [], e, h => by simp [LspFiles.collectFiles] at h
  | x :: fs, e, h => by
    unfold LspFiles.collectFiles at h
    split at h
    · exact collectFiles_error fs e h
    · split at h
      · rename_i e' he
        injection h with h; subst h
        exact collectLocations_error _ _ he
      · split at h
        · rename_i e' he
          injection h with h; subst h
          exact collectFiles_error fs _ he
        · cases h

/-- **C18** (goto-definition) It never fails arithmetically. -/
theorem C18_goto (env : Env) (h : NoOperatorAtOrigin env) (w : World) (f : LspFiles) (uri : Str) (pos : Position) :
    f.gotoDefinition env w uri pos ≠ .error .overflow := by
  intro hh
  unfold LspFiles.gotoDefinition at hh
  split at hh
  · cases hh
  · rename_i lang _
    simp only at hh
    split at hh
    · rename_i tree content _ _
      cases lang with
      | template =>
        simp only at hh
        obtain ⟨s, hs⟩ := query_total h tree (toPoint pos) content false
        simp only [hs] at hh
        split at hh
        · cases hh
        · split at hh
          · cases hh
          · split at hh
            · rename_i e he
              injection hh with hh; subst hh
              exact absurd (collectFiles_error _ _ he) (by simp)
            · cases hh
      | backend =>
        simp only at hh
        split at hh <;> cases hh
    · cases hh

/-- every identifier and every template name lies on one line -/
structure SingleLine (env : Env) : Prop where
  names : ∀ tree text, ∀ c ∈ (env.queryMatches .jinjaObjects tree text).flatten, c.name = .justId → c.start.row = c.stop.row
  templates : ∀ tree text, ∀ c ∈ (env.queryMatches .jinjaImports tree text).flatten, c.name = .templateName →
    c.start.row = c.stop.row
  backend : ∀ g tree text, ∀ c ∈ (env.queryMatches (.backendTemplates g) tree text).flatten, c.name = .templateName →
    c.start.row = c.stop.row

theorem column_le_of_cover {a b p : Point} (h1 : a ≤ p) (h2 : p ≤ b) (h : a.row = b.row) : p.column ≤ b.column := by
  rw [Point.le_def] at h1 h2
  omega

theorem completionStart_cover {prof : Profile} {p : Point} {i : Identifier} (h1 : i.start ≤ p) (h2 : p ≤ i.stop)
    (h : i.start.row = i.stop.row) : ∃ r, completionStart prof p i = .ok r :=
  completionStart_ok (by have := column_le_of_cover h1 h2 h; omega)

theorem completionStart_tpl {env : Env} {tree : Tree} {text : Str} {p : Point} {i : Identifier} {q : QueryId}
    (hq : ∀ c ∈ (env.queryMatches q tree text).flatten, c.name = .templateName → c.start.row = c.stop.row)
    (hi : TplOk (env.queryMatches q tree text).flatten i) (h1 : i.start ≤ p) (h2 : p ≤ i.stop) :
    ∃ r, completionStart env.profile p i = .ok r := by
  refine completionStart_cover h1 h2 ?_
  rcases hi with ⟨_, e1, e2⟩ | ⟨c, hc, hn, _, e1, e2⟩
  · rw [e1, e2]
  · rw [e1, e2]; exact hq c hc hn

/-- **C18** (part: completion) It never fails when identifiers and template names lie on one line and the column is below
2³² − 1.  Missing: strings over several lines and the last column, for which it does fail (`C18_multiline_refuted`,
`C18_last_column_refuted`). -/
theorem C18_completion_partial (env : Env) (h : NoOperatorAtOrigin env) (hl : SingleLine env) (f : LspFiles) (uri : Str)
    (pos : Position) (tr : TriggerKind) (hpos : pos.character + 1 < 4294967296) :
    ∃ r, f.completion env uri pos tr = .ok r := by
  have hadd : uadd32 env.profile (toPosition2 (toPoint pos)).character 1 = .ok (pos.character + 1) := by
    have : (toPosition2 (toPoint pos)).character = pos.character := by
      show pos.character % 4294967296 = _
      omega
    rw [this]
    simp [uadd32, hpos]
  unfold LspFiles.completion
  split
  · exact ⟨_, rfl⟩
  · simp only
    split
    · exact ⟨_, rfl⟩
    · rename_i ext _
      split
      · rename_i tree content _ _
        cases ext with
        | template =>
          simp only
          have hsn : ∃ x, (snippetsQuery env tree (toPoint pos) content false).toComplete env.profile (toPoint pos) = .ok x := by
            unfold Snippets.toComplete
            split
            · exact ⟨_, rfl⟩
            · split
              · split
                · exact ⟨_, rfl⟩
                · rw [hadd]; exact ⟨_, rfl⟩
              · exact ⟨_, rfl⟩
          obtain ⟨x, hx⟩ := hsn
          rw [hx]
          cases x with
          | some x => simp only [hadd]; exact ⟨_, rfl⟩
          | none =>
            simp only
            obtain ⟨s, hs⟩ := query_total h tree (toPoint pos) content false
            simp only [hs]
            have hsf := from_query hs
            have hcomp : ∃ c, s.completion env.profile (toPoint pos) = .ok c := by
              unfold JinjaObjects.completion
              simp only
              split
              · exact ⟨_, rfl⟩
              · split
                · split
                  · exact ⟨_, rfl⟩
                  · split
                    · exact ⟨_, rfl⟩
                    · split
                      · rename_i v hv
                        have hcov : s.ident.1 ≤ toPoint pos ∧ toPoint pos ≤ s.ident.2 := by
                          unfold isIdent at hv
                          split at hv
                          · rename_i hh; exact hh
                          · cases hv
                        have hrow : s.ident.1.row = s.ident.2.row := by
                          rcases hsf.ident with e | ⟨c, hc, hn, e⟩
                          · rw [e]
                          · rw [e]; exact hl.names _ _ c hc hn
                        obtain ⟨r, hr⟩ := completionStart_cover (prof := env.profile) (i := Identifier.new v s.ident.1 s.ident.2)
                          hcov.1 hcov.2 hrow
                        rw [hr]
                        cases r <;> exact ⟨_, rfl⟩
                      · exact ⟨_, rfl⟩
                · split <;> exact ⟨_, rfl⟩
            obtain ⟨c, hc⟩ := hcomp
            rw [hc]
            cases c with
            | some c => exact ⟨_, rfl⟩
            | none =>
              simp only
              split
              · exact ⟨_, rfl⟩
              · rename_i i hi
                obtain ⟨h1, h2, h3⟩ := template_under_cursor hi
                obtain ⟨r, hr⟩ := completionStart_tpl (hl.templates tree content) h1 h2 h3
                rw [hr]
                cases r <;> exact ⟨_, rfl⟩
        | backend =>
          simp only
          split
          · exact ⟨_, rfl⟩
          · rename_i i hi
            obtain ⟨h1, h2, h3⟩ := backend_under_cursor hi
            obtain ⟨r, hr⟩ := completionStart_tpl (hl.backend _ tree content) (Or.inr h1) h2 h3
            rw [hr]
            cases r <;> exact ⟨_, rfl⟩
      · exact ⟨_, rfl⟩

/-- the hypotheses hold for the captures of the document above -/
example : NoOperatorAtOrigin (Fix.envWith .jinjaObjects (Fix.exprs.flatMap Elem.caps)) ∧
    SingleLine (Fix.envWith .jinjaObjects (Fix.exprs.flatMap Elem.caps)) := by
  refine ⟨?_, ⟨?_, ?_, ?_⟩⟩
  · intro _ _
    simp only [Fix.envWith, if_true, Fix.flatten_singletons]
    decide
  · intro _ _
    simp only [Fix.envWith, if_true, Fix.flatten_singletons]
    decide
  · intro _ _ c hc; simp [Fix.envWith] at hc
  · intro _ _ _ c hc; simp [Fix.envWith] at hc

/-- **C18 is false for strings over several lines**: in a debug build, completion with the cursor on the first line of a
template name that continues on a later line, far enough to the right, panics (backend file; any name, any position). -/
theorem C18_multiline_refuted (env : Env) (hprof : env.profile = .debug) (f : LspFiles) (uri : Str) (tree : Tree) (text : Str)
    (hext : fileExt uri = some .backend) (hd : f.documents.get? uri = some text) (ht : (f.trees .backend).get? uri = some tree)
    (m t : Tok) (hm : m.text ∈ [c!"render_jinja", c!"get_template"]) (pos : Position)
    (hc : env.queryMatches (.backendTemplates f.queriesBackend) tree text = [[m.cap .methodName, t.cap .templateName]])
    (h1 : m.start ≤ t.start) (h2 : t.start ≤ toPoint pos) (h3 : pos.line < t.stop.row) (h4 : t.stop.column + 1 < pos.character)
    (hne : stripQuotes t.text ≠ []) :
    f.completion env uri pos .invoked = .error .overflow := by
  have hmp : m.start ≤ toPoint pos := Point.le_trans h1 h2
  have hq : backendTemplatesQuery env f.queriesBackend tree (toPoint pos) text false =
      ⟨[{ Identifier.new (stripQuotes t.text) t.start t.stop with idType := .jinjaTemplate }], false⟩ := by
    have hm' : m.text ∈ backendMethods := hm
    unfold backendTemplatesQuery
    simp [hc, selectCaptures, Tok.cap, hmp, h2, BackendTemplates.check, hm']
  have hcov : t.start ≤ toPoint pos ∧ toPoint pos ≤ t.stop := ⟨h2, by rw [Point.le_def]; exact Or.inl h3⟩
  have hin : (backendTemplatesQuery env f.queriesBackend tree (toPoint pos) text false).inTemplate (toPoint pos) =
      some { Identifier.new (stripQuotes t.text) t.start t.stop with idType := .jinjaTemplate } := by
    rw [hq]
    simp [BackendTemplates.inTemplate, Identifier.new, hcov.1, hcov.2]
  have hcs : completionStart env.profile (toPoint pos)
      { Identifier.new (stripQuotes t.text) t.start t.stop with idType := .jinjaTemplate } = .error .overflow := by
    have hl := utf8Len_pos hne
    have hcol : (toPoint pos).column = pos.character := rfl
    have e1 : (toPoint pos).column > 0 := by omega
    have e2 : ¬ utf8Len (stripQuotes t.text) = 0 := by omega
    have e3 : ¬ (toPoint pos).column - 1 ≤ t.stop.column := by omega
    unfold completionStart
    simp only [Identifier.new, e1, if_true, e2, if_false, usub, e3, hprof]
  simp only [LspFiles.completion, hext, ht, hd, hin, hcs]
  simp

example : ∃ (m t : Tok) (pos : Position), m.text ∈ [c!"render_jinja", c!"get_template"] ∧ m.start ≤ t.start ∧ t.start ≤ toPoint pos ∧
    pos.line < t.stop.row ∧ t.stop.column + 1 < pos.character ∧ stripQuotes t.text ≠ [] :=
  ⟨Fix.tok 0 0 12 c!"render_jinja" 1, ⟨⟨0, 13⟩, ⟨1, 3⟩, c!"\"a b\n  \"", 2⟩, ⟨0, 14⟩, by decide⟩

/-- **C18 is false in the last column**: in a debug build, completion inside a broken statement at column 2³² − 1 panics. -/
theorem C18_last_column_refuted (env : Env) (hprof : env.profile = .debug) (f : LspFiles) (uri : Str) (tree : Tree) (text : Str)
    (hext : fileExt uri = some .template) (hd : f.documents.get? uri = some text) (ht : (f.trees .template).get? uri = some tree)
    (e : Tok) (pos : Position) (hpos : pos.character = 4294967295)
    (hc : env.queryMatches .jinjaSnippets tree text = [[e.cap .errorBlock]])
    (h1 : e.start ≤ toPoint pos) (h2 : toPoint pos ≤ e.stop) :
    f.completion env uri pos .invoked = .error .overflow := by
  have h1' : e.start ≤ (⟨(toPoint pos).row, (toPoint pos).column + 2⟩ : Point) := by
    refine Point.le_trans h1 ?_
    rw [Point.le_def]; right; exact ⟨rfl, Nat.le_add_right _ _⟩
  have hs : snippetsQuery env tree (toPoint pos) text false = ⟨Point.zero, e.stop, Point.zero, true⟩ := by
    unfold snippetsQuery
    simp [hc, selectCaptures, Tok.cap, h1', Snippets.run, Snippets.check, Snippets.default]
  have ha : uadd32 env.profile (toPosition2 (toPoint pos)).character 1 = .error .overflow := by
    have : (toPosition2 (toPoint pos)).character = 4294967295 := by
      show pos.character % 4294967296 = _
      omega
    rw [this, hprof]; rfl
  simp [LspFiles.completion, hext, ht, hd, hs, Snippets.toComplete, h2, ha]

example : ∃ (e : Tok) (pos : Position), pos.character = 4294967295 ∧ e.start ≤ toPoint pos ∧ toPoint pos ≤ e.stop :=
  ⟨⟨⟨0, 0⟩, ⟨1, 0⟩, [], 1⟩, ⟨0, 4294967295⟩, by decide⟩

/-! ## C19 -/

/-- **C19** (part) Filter completion is offered only inside or at the edges of a pipe.  Missing: the first position of a
document, where it is offered without a pipe (`C19_origin_refuted`). -/
theorem C19_filter_partial (env : Env) (f : LspFiles) (uri : Str) (pos : Position) (tr : TriggerKind) (b : Bool)
    (h : f.completion env uri pos tr = .ok (some (.filter, b))) (hp : pos ≠ ⟨0, 0⟩) :
    ∃ tree text, (f.trees .template).get? uri = some tree ∧ f.documents.get? uri = some text ∧
      ∃ c ∈ (env.queryMatches .jinjaObjects tree text).flatten, c.name = .pipe ∧
        (∃ t, c.text = some t ∧ t.head? = some '|') ∧ c.start ≤ toPoint pos ∧ toPoint pos ≤ c.stop := by
  obtain ⟨ext, tree, text, _, ht, hd, h⟩ := LspFiles.completion_inv h
  rcases h with ⟨rfl, h⟩ | ⟨_, i, s, _, _, h⟩
  · refine ⟨tree, text, ht, hd, ?_⟩
    rcases h with ⟨x, ch, _, _, h⟩ | ⟨_, s, hs, h | ⟨_, i, x, _, _, h⟩⟩
    · cases h
    · rcases JinjaObjects.completion_inv h with ⟨_, h⟩ | ⟨h, _⟩ | ⟨_, _, h, _⟩ | ⟨h, _⟩
      · simp only [inPipe, Bool.and_eq_true, decide_eq_true_eq] at h
        rcases (from_query hs).pipe with e | ⟨c, hc, hn, hx, e⟩
        · rw [e] at h
          exfalso
          have hz : toPoint pos = Point.zero := Point.le_antisymm h.2 h.1
          apply hp
          have e1 : pos.line = 0 := congrArg Point.row hz
          have e2 : pos.character = 0 := congrArg Point.column hz
          cases pos; simp only at e1 e2; rw [e1, e2]
        · rw [e] at h
          exact ⟨c, hc, hn, hx, h⟩
      · cases h
      · cases h
      · cases h
    · cases h
  · cases h

/-- **C19** Identifier completion, with or without typed prefix, is offered only inside an expression. -/
theorem C19_identifier (env : Env) (f : LspFiles) (uri : Str) (pos : Position) (tr : TriggerKind) (ct : CompletionType) (b : Bool)
    (h : f.completion env uri pos tr = .ok (some (ct, b))) (hct : ct = .identifier ∨ ∃ s r, ct = .incompleteIdentifier s r) :
    ∃ tree text, (f.trees .template).get? uri = some tree ∧ f.documents.get? uri = some text ∧
      ∃ c ∈ (env.queryMatches .jinjaObjects tree text).flatten, c.name = .expr ∧ c.start ≤ toPoint pos ∧ toPoint pos < c.stop := by
  obtain ⟨ext, tree, text, _, ht, hd, h⟩ := LspFiles.completion_inv h
  rcases h with ⟨rfl, h⟩ | ⟨_, i, s, _, _, h⟩
  · refine ⟨tree, text, ht, hd, ?_⟩
    rcases h with ⟨x, ch, _, _, h⟩ | ⟨_, s, hs, h | ⟨_, i, x, _, _, h⟩⟩
    · injection h with h _; subst h; rcases hct with h | ⟨_, _, h⟩ <;> cases h
    · have key : s.inExpr (toPoint pos) = true := by
        rcases JinjaObjects.completion_inv h with ⟨h, _⟩ | ⟨_, h⟩ | ⟨_, _, _, h, _⟩ | ⟨h, _⟩
        · subst h; rcases hct with h | ⟨_, _, h⟩ <;> cases h
        · exact h
        · exact h
        · subst h; rcases hct with h | ⟨_, _, h⟩ <;> cases h
      have hcov := inExpr_cover key
      rcases (from_query hs).expr with ⟨e, _⟩ | ⟨c, hc, hn, e, _⟩
      · rw [e] at hcov
        exact absurd hcov.2 (Point.not_lt_zero _)
      · rw [e] at hcov
        exact ⟨c, hc, hn, hcov⟩
    · injection h with h _; subst h; rcases hct with h | ⟨_, _, h⟩ <;> cases h
  · injection h with h _; subst h; rcases hct with h | ⟨_, _, h⟩ <;> cases h

/-- **C19** Test completion is offered only after an `is` on the same line. -/
theorem C19_test (env : Env) (f : LspFiles) (uri : Str) (pos : Position) (tr : TriggerKind) (b : Bool)
    (h : f.completion env uri pos tr = .ok (some (.test, b))) :
    ∃ tree text, (f.trees .template).get? uri = some tree ∧ f.documents.get? uri = some text ∧
      ∃ c ∈ (env.queryMatches .jinjaObjects tree text).flatten, c.name = .is ∧ c.stop.row = pos.line ∧
        c.stop.column ≤ pos.character := by
  obtain ⟨ext, tree, text, _, ht, hd, h⟩ := LspFiles.completion_inv h
  rcases h with ⟨rfl, h⟩ | ⟨_, i, s, _, _, h⟩
  · refine ⟨tree, text, ht, hd, ?_⟩
    rcases h with ⟨x, ch, _, _, h⟩ | ⟨_, s, hs, h | ⟨_, i, x, _, _, h⟩⟩
    · cases h
    · rcases JinjaObjects.completion_inv h with ⟨h, _⟩ | ⟨h, _⟩ | ⟨_, _, h, _⟩ | ⟨_, h⟩
      · cases h
      · cases h
      · cases h
      · simp only [isTest, Bool.and_eq_true, decide_eq_true_eq] at h
        obtain ⟨c, hc, hn, e⟩ := (from_query hs).test h.1.1
        rw [e] at h
        refine ⟨c, hc, hn, h.2.symm, ?_⟩
        have := h.1.2
        rw [Point.le_def] at this
        have h2 : (toPoint pos).row = c.stop.row := h.2
        simp only at this
        show c.stop.column ≤ (toPoint pos).column
        omega
    · cases h
  · cases h

/-- **C19 is false at the first position of a document**: filter completion is offered there in every template whose
expressions begin later, also when it contains no pipe at all. -/
theorem C19_origin_refuted (env : Env) (f : LspFiles) (uri : Str) (tree : Tree) (text : Str)
    (hext : fileExt uri = some .template) (hd : f.documents.get? uri = some text) (ht : (f.trees .template).get? uri = some tree)
    (hs : ∀ c ∈ (env.queryMatches .jinjaSnippets tree text).flatten, c.name ≠ .errorBlock)
    (ho : ∀ c ∈ (env.queryMatches .jinjaObjects tree text).flatten, Point.zero < c.start) :
    ∃ b, f.completion env uri ⟨0, 0⟩ .invoked = .ok (some (.filter, b)) := by
  have htc := snippets_none env tree text (toPoint ⟨0, 0⟩) hs
  have hobj : objectsQuery env tree (toPoint ⟨0, 0⟩) text false = .ok JinjaObjects.default := by
    unfold objectsQuery
    rcases hcs : (env.queryMatches .jinjaObjects tree text).flatten with _ | ⟨c, cs⟩
    · rfl
    · have hc : Point.zero < c.start := ho c (by rw [hcs]; simp)
      have h1 : ¬ c.start ≤ toPoint ⟨0, 0⟩ := fun h => Point.lt_irrefl _ (Point.lt_of_lt_of_le hc h)
      have h2 : toPoint ⟨0, 0⟩ ≤ c.start := Point.le_of_lt hc
      have hf : ObjLoop.init.objects.isFilter = true := by decide
      simp only [objectsLoop, Bool.false_or, h1, decide_false, Bool.false_eq_true, if_false, h2, decide_true, if_true, hf,
        Bool.true_or]
      rfl
  have hcomp : ∃ b, JinjaObjects.default.completion env.profile (toPoint ⟨0, 0⟩) = .ok (some (.filter, b)) := ⟨_, rfl⟩
  obtain ⟨b, hb⟩ := hcomp
  refine ⟨b, ?_⟩
  simp [LspFiles.completion, hext, ht, hd, htc, hobj, hb]

/-- the hypotheses hold: an empty template -/
example : ∃ b, Fix.files.completion Fix.env Fix.uriA ⟨0, 0⟩ .invoked = .ok (some (.filter, b)) :=
  C19_origin_refuted Fix.env Fix.files Fix.uriA (.parsed .jinja c!"aaa" none) c!"aaa" (by decide) (by decide) rfl
    (by simp [Fix.env]) (by simp [Fix.env])

/-- each kind is offered somewhere: after `{{ x|`, inside `{{ }}` and after `{{ x is` -/
example :
    (∃ b, Fix.files.completion (Fix.envWith .jinjaObjects [(Fix.tok 0 3 4 c!"x" 2).cap .justId, (Fix.tok 0 4 5 c!"|" 3).cap .pipe])
      Fix.uriA ⟨0, 5⟩ .invoked = .ok (some (.filter, b))) ∧
    (∃ b, Fix.files.completion (Fix.envWith .jinjaObjects
        (Elem.caps (.expr 1 ⟨0, 0⟩ ⟨0, 20⟩ (⟨0, 0⟩, ⟨0, 2⟩) (⟨0, 18⟩, ⟨0, 20⟩))))
      Fix.uriA ⟨0, 5⟩ .invoked = .ok (some (.identifier, b))) ∧
    (∃ b, Fix.files.completion (Fix.envWith .jinjaObjects [(Fix.tok 0 3 4 c!"x" 2).cap .justId, (Fix.tok 0 5 7 c!"is" 3).cap .is])
      Fix.uriA ⟨0, 8⟩ .invoked = .ok (some (.test, b))) :=
  ⟨⟨_, rfl⟩, ⟨_, rfl⟩, ⟨_, rfl⟩⟩

/-! ## C20 -/

/-- **C20** (prefix) The text used to filter identifier completions is a prefix of a name of the document. -/
theorem C20_identifier_prefix (env : Env) (f : LspFiles) (uri : Str) (pos : Position) (tr : TriggerKind) (b : Bool) (x : Str) (r : Range)
    (h : f.completion env uri pos tr = .ok (some (.incompleteIdentifier x r, b))) :
    ∃ tree text, (f.trees .template).get? uri = some tree ∧ f.documents.get? uri = some text ∧
      ∃ c ∈ (env.queryMatches .jinjaObjects tree text).flatten, c.name = .justId ∧ ∃ name, c.text = some name ∧ x <+: name := by
  obtain ⟨ext, tree, text, _, ht, hd, h⟩ := LspFiles.completion_inv h
  rcases h with ⟨rfl, h⟩ | ⟨_, i, s, _, _, h⟩
  · refine ⟨tree, text, ht, hd, ?_⟩
    rcases h with ⟨_, _, _, _, h⟩ | ⟨_, s, hs, h | ⟨_, i, y, _, _, h⟩⟩
    · cases h
    · rcases JinjaObjects.completion_inv h with ⟨h, _⟩ | ⟨h, _⟩ | ⟨v, y, h, _, hv, hc⟩ | ⟨h, _⟩
      · cases h
      · cases h
      · injection h with h1 h2
        subst h1
        have hx := completionStart_prefix hc
        unfold isIdent at hv
        split at hv
        · cases hl : s.objects.getLast? with
          | none => rw [hl] at hv; cases hv
          | some o =>
            rw [hl] at hv
            simp only [Option.map_some, Option.some.injEq] at hv
            obtain ⟨c, hc, hn, ht, _⟩ := (from_query hs).objects o (List.mem_of_getLast? hl)
            refine ⟨c, hc, hn, v, ?_, hx⟩
            rw [← hv]; exact ht
        · cases hv
      · cases h
    · cases h
  · cases h

/-- **C20** (prefix) The text used to filter template completions is a prefix of the name, without quotes, of the string
under the cursor. -/
theorem C20_template_prefix (env : Env) (f : LspFiles) (uri : Str) (pos : Position) (tr : TriggerKind) (b : Bool) (x : Str) (r : Range)
    (h : f.completion env uri pos tr = .ok (some (.includedTemplate x r, b))) :
    ∃ ext tree text, (f.trees ext).get? uri = some tree ∧ f.documents.get? uri = some text ∧
      (x = [] ∨ ∃ q, ∃ c ∈ (env.queryMatches q tree text).flatten,
        (q = .jinjaImports ∨ q = .backendTemplates f.queriesBackend) ∧ c.name = .templateName ∧
        c.start ≤ toPoint pos ∧ toPoint pos ≤ c.stop ∧ ∃ raw, c.text = some raw ∧ x <+: stripQuotes raw) := by
  obtain ⟨ext, tree, text, _, ht, hd, h⟩ := LspFiles.completion_inv h
  refine ⟨ext, tree, text, ht, hd, ?_⟩
  rcases h with ⟨rfl, h⟩ | ⟨rfl, i, s, hi, hc, h⟩
  · rcases h with ⟨_, _, _, _, h⟩ | ⟨_, s, hs, h | ⟨_, i, y, hi, hc, h⟩⟩
    · cases h
    · rcases JinjaObjects.completion_inv h with ⟨h, _⟩ | ⟨h, _⟩ | ⟨_, _, h, _⟩ | ⟨h, _⟩ <;> cases h
    · injection h with h _
      injection h with h1 h2
      subst h1
      have hx := completionStart_prefix hc
      obtain ⟨h1, h2, h3⟩ := template_under_cursor hi
      rcases h1 with ⟨e, _⟩ | ⟨c, hc, hn, ⟨raw, hr, hnm⟩, e1, e2⟩
      · left
        rw [e] at hx
        exact List.prefix_nil.mp hx
      · exact Or.inr ⟨_, c, hc, Or.inl rfl, hn, e1 ▸ h2, e2 ▸ h3, raw, hr, hnm ▸ hx⟩
  · injection h with h _
    injection h with h1 h2
    subst h1
    have hx := completionStart_prefix hc
    obtain ⟨⟨c, hc, hn, ⟨raw, hr, hnm⟩, e1, e2⟩, h2, h3⟩ := backend_under_cursor hi
    exact Or.inr ⟨_, c, hc, Or.inr rfl, hn, e1 ▸ h2, e2 ▸ h3, raw, hr, hnm ▸ hx⟩

theorem typed_kind (env : Env) (f : LspFiles) (uri : Str) (tree : Tree) (text : Str) (pos : Position)
    (hext : fileExt uri = some .template) (hd : f.documents.get? uri = some text) (ht : (f.trees .template).get? uri = some tree)
    (hs : ¬ Spec.Broken (env.queryMatches .jinjaSnippets tree text).flatten (toPoint pos))
    (es : List Elem) (u : Use) (rest : List Capture)
    (h : OnUse (env.queryMatches .jinjaObjects tree text).flatten es u rest (toPoint pos))
    (typed untyped : Str) (hn : u.root.text = typed ++ untyped) (hty : typed ≠ [])
    (hrow : u.root.stop.column = u.root.start.column + utf8Len u.root.text)
    (hcol : pos.character = u.root.start.column + utf8Len typed) (hline : pos.line = u.root.start.row)
    (he : (lastExpr ((Point.zero, Point.zero), ExprRange.default) es).1.1 ≤ toPoint pos ∧
      toPoint pos < (lastExpr ((Point.zero, Point.zero), ExprRange.default) es).1.2)
    (hf : (lastExpr ((Point.zero, Point.zero), ExprRange.default) es).2.beginR.2 ≤ u.root.start) :
    ∃ r b, objectsQuery env tree (toPoint pos) text false = .ok r ∧
      f.completion env uri pos .invoked = .ok (some (.incompleteIdentifier typed r.fullRange, b)) := by
  obtain ⟨r, o, os, hq, ho, h1, h2, h3, h4, h5, h6, h7⟩ := cursor_root h
  have htc := snippets_intact env tree text (toPoint pos) hs
  have hlt : u.root.start < toPoint pos := by
    have := utf8Len_pos hty
    rw [Point.lt_def]
    right
    exact ⟨hline.symm, by show _ < pos.character; omega⟩
  have hexpr : r.expr = (lastExpr ((Point.zero, Point.zero), ExprRange.default) es).1 := by rw [← h6]
  have hrange : r.exprRange = (lastExpr ((Point.zero, Point.zero), ExprRange.default) es).2 := by rw [← h6]
  have hpipe : r.inPipe (toPoint pos) = false := by
    unfold inPipe
    rcases h7 with h7 | h7
    · have : ¬ toPoint pos ≤ r.pipe.2 := fun hh => Point.lt_irrefl _ (Point.lt_of_lt_of_le hlt (Point.le_trans hh h7))
      simp [this]
    · have : ¬ r.pipe.1 ≤ toPoint pos := fun hh => Point.lt_irrefl _ (Point.lt_of_lt_of_le h7 hh)
      simp [this]
  have hin : r.inExpr (toPoint pos) = true := by
    unfold inExpr
    simp [hexpr, he.1, he.2, h5, hlt]
  have hne : ¬ (toPoint pos = r.exprRange.beginR.2 ∧ toPoint pos = r.exprRange.endR.1) := by
    rintro ⟨e, _⟩
    rw [hrange] at e
    rw [← e] at hf
    exact Point.lt_irrefl _ (Point.lt_of_lt_of_le hlt hf)
  have hid : r.isIdent (toPoint pos) = some u.root.text := by
    unfold isIdent
    simp [h5, h.start, h.stop, ho, h1]
  have hpast : ¬ r.ident.2 < toPoint pos := by
    rw [h5]
    exact fun hh => Point.lt_irrefl _ (Point.lt_of_lt_of_le hh h.stop)
  have hcs : completionStart env.profile (toPoint pos) (Identifier.new u.root.text r.ident.1 r.ident.2) = .ok (some typed) := by
    rw [h5]
    exact completionStart_exact _ _ _ typed untyped hn hty hrow hcol
  refine ⟨r, r.shouldAutoclose, hq, ?_⟩
  have hcomp : r.completion env.profile (toPoint pos) = .ok (some (.incompleteIdentifier typed r.fullRange, r.shouldAutoclose)) := by
    unfold JinjaObjects.completion
    simp only [hpipe, Bool.false_eq_true, if_false, hin, if_true, hne, hpast, hid, hcs]
  simp only [LspFiles.completion, hext, ht, hd, htc, hq, hcomp]
  simp

/-- **C20** (part: the exact prefix) With the cursor inside or at the end of a variable, filter or test name of an expression,
after its first character, the prefix is exactly the text between the start of the name and the cursor.
Missing: attributes and quoted names, for which it is wrong (`C20_attribute_refuted`, `C20_quoted_refuted`). -/
theorem C20_typed_partial (env : Env) (f : LspFiles) (uri : Str) (tree : Tree) (text : Str) (pos : Position)
    (hext : fileExt uri = some .template) (hd : f.documents.get? uri = some text) (ht : (f.trees .template).get? uri = some tree)
    (hs : ¬ Spec.Broken (env.queryMatches .jinjaSnippets tree text).flatten (toPoint pos))
    (es : List Elem) (u : Use) (rest : List Capture)
    (h : OnUse (env.queryMatches .jinjaObjects tree text).flatten es u rest (toPoint pos))
    (typed untyped : Str) (hn : u.root.text = typed ++ untyped) (hty : typed ≠ [])
    (hrow : u.root.stop.column = u.root.start.column + utf8Len u.root.text)
    (hcol : pos.character = u.root.start.column + utf8Len typed) (hline : pos.line = u.root.start.row)
    (he : (lastExpr ((Point.zero, Point.zero), ExprRange.default) es).1.1 ≤ toPoint pos ∧
      toPoint pos < (lastExpr ((Point.zero, Point.zero), ExprRange.default) es).1.2)
    (hf : (lastExpr ((Point.zero, Point.zero), ExprRange.default) es).2.beginR.2 ≤ u.root.start) :
    ∃ r b, f.completion env uri pos .invoked = .ok (some (.incompleteIdentifier typed r, b)) := by
  obtain ⟨r, b, _, h⟩ := typed_kind env f uri tree text pos hext hd ht hs es u rest h typed untyped hn hty hrow hcol hline he hf
  exact ⟨_, b, h⟩

/-- `{{ user.na` with the beginning of the expression at the start of line 0 -/
def Fix.opened : List Elem := [.expr 1 ⟨0, 0⟩ ⟨0, 20⟩ (⟨0, 0⟩, ⟨0, 2⟩) (⟨0, 18⟩, ⟨0, 20⟩)]

/-- the hypotheses hold: the cursor in the middle of `user` -/
example : ∃ r b, Fix.files.completion (Fix.envWith .jinjaObjects (Fix.opened.flatMap Elem.caps ++ [(Fix.tok 0 3 7 c!"user" 2).cap .justId]))
    Fix.uriA ⟨0, 5⟩ .invoked = .ok (some (.incompleteIdentifier c!"us" r, b)) :=
  C20_typed_partial _ Fix.files Fix.uriA (.parsed .jinja c!"aaa" none) c!"aaa" ⟨0, 5⟩ (by decide) (by decide) rfl
    (by rintro ⟨pre, e, post, hc, _⟩; simp [Fix.envWith] at hc)
    Fix.opened ⟨.variable, Fix.tok 0 3 7 c!"user" 2, []⟩ []
    { caps := by simp [Fix.envWith, Fix.flatten_singletons, Mark.caps]
      ok := by intro e he; cases List.mem_singleton.mp he; exact trivial
      mark := trivial
      name := by decide
      ordered := ⟨⟨0, 1⟩, by decide, by simp only [Fix.opened, List.flatMap_cons, List.flatMap_nil, Elem.toks, Mark.toks, Fix.tok,
        List.append_nil, List.nil_append, Ordered]; decide⟩
      exprs := by intro n a b f l h; cases List.mem_singleton.mp h; decide
      start := by decide
      stop := by decide
      after := by intro c hc; cases hc }
    c!"us" c!"er" rfl (by decide) (by decide) (by decide) rfl (by decide) (by decide)

/-- **C20 is false for attributes**: at the end of an attribute the prefix is the name of the variable it belongs to
(`{{ user.na` is completed with the prefix `user`). -/
theorem C20_attribute_refuted (env : Env) (f : LspFiles) (uri : Str) (tree : Tree) (text : Str) (pos : Position)
    (hext : fileExt uri = some .template) (hd : f.documents.get? uri = some text) (ht : (f.trees .template).get? uri = some tree)
    (hs : ¬ Spec.Broken (env.queryMatches .jinjaSnippets tree text).flatten (toPoint pos))
    (es : List Elem) (hok : ∀ e ∈ es, e.Ok) (root dot attr : Tok) (q : Point) (hq : Point.zero < q)
    (ho : Ordered q (es.flatMap Elem.toks ++ [root, dot, attr])) (hres : root.text ∉ reserved) (hdot : dot.text = c!".")
    (hadj : dot.stop = attr.start) (hstarts : ∀ n a b f l, Elem.expr n a b f l ∈ es → a ≤ root.start)
    (hc : (env.queryMatches .jinjaObjects tree text).flatten =
      es.flatMap Elem.caps ++ [root.cap .justId, dot.cap .pipe, dot.cap .dot, attr.cap .justId])
    (hp : toPoint pos = attr.stop) (hcol : 0 < pos.character) (hne : root.text ≠ [])
    (he : attr.stop < (lastExpr ((Point.zero, Point.zero), ExprRange.default) es).1.2)
    (hb : (lastExpr ((Point.zero, Point.zero), ExprRange.default) es).1.1 ≤ root.start)
    (hf : (lastExpr ((Point.zero, Point.zero), ExprRange.default) es).2.beginR.2 ≤ root.start) :
    ∃ r b, f.completion env uri pos .invoked = .ok (some (.incompleteIdentifier root.text r, b)) := by
  have ho0 := ho
  rw [ordered_append] at ho
  obtain ⟨s, f1, f2, f3, f4⟩ := feeds_doc hq hok ho.1
  have hord := ho.2
  have hroot : Ordered (endOf q (es.flatMap Elem.toks)) (Mark.variable.toks ++ [root]) := ⟨ho.2.1, ho.2.2.1, trivial⟩
  obtain ⟨s2, g1, g2, g3, g4, g5, g6, g7, _⟩ := feeds_root .variable root s _ trivial hres hroot f3
  simp only [Ordered] at hord
  have k2 : s2.check (dot.cap .pipe) = some (s2, .newFilter) := by simp [check, Tok.cap, hdot]
  have k3 : s2.check (dot.cap .dot) = some ({ s2 with dot := (dot.start, dot.stop) }, .newField) := rfl
  have k4 := check_field { s2 with dot := (dot.start, dot.stop) } attr hadj (useObj ⟨.variable, root, []⟩) s.objects g2
  have hfeed : Feeds JinjaObjects.default (es.flatMap Elem.caps ++ [root.cap .justId, dot.cap .pipe, dot.cap .dot, attr.cap .justId]) _ :=
    Feeds.append f1 (Feeds.append g1 (Feeds.cons k2 (Feeds.cons k3 (Feeds.cons k4 (Feeds.nil _)))))
  have h1 : root.start < root.stop := hord.2.1
  have h2 : root.start < attr.start := Point.lt_of_lt_of_le h1 (Point.le_trans hord.2.2.1 (hadj ▸ Point.le_of_lt hord.2.2.2.1))
  have h3 : attr.start < attr.stop := hord.2.2.2.2.2.1
  have hrs : root.start < attr.stop := Point.lt_trans h2 h3
  have hbefore : ∀ c ∈ es.flatMap Elem.caps ++ [root.cap .justId, dot.cap .pipe, dot.cap .dot, attr.cap .justId], c.start ≤ toPoint pos := by
    intro c hc
    rw [hp]
    rcases List.mem_append.mp hc with hc | hc
    · obtain ⟨e, he, hc⟩ := List.mem_flatMap.mp hc
      rcases elem_caps e c hc with ⟨t, ht, hs, _⟩ | ⟨n, a, b, f, l, rfl, hs, _⟩
      · have := tok_le _ _ t ho.1 (List.mem_flatMap.mpr ⟨e, he, ht⟩)
        rw [hs]
        exact Point.le_trans (Point.le_of_lt this.1) (Point.le_trans this.2.1 (Point.le_trans hord.1 (Point.le_of_lt hrs)))
      · rw [hs]; exact Point.le_trans (hstarts n a b f l he) (Point.le_of_lt hrs)
    · have hds : dot.start ≤ attr.stop := Point.le_trans (Point.le_of_lt hord.2.2.2.1) (hadj ▸ Point.le_of_lt h3)
      simp only [List.mem_cons, List.not_mem_nil, or_false] at hc
      rcases hc with rfl | rfl | rfl | rfl
      · exact Point.le_of_lt hrs
      · exact hds
      · exact hds
      · exact Point.le_of_lt h3
  have hquery : ∃ r, objectsQuery env tree (toPoint pos) text false = .ok r ∧ r.ident = (attr.start, attr.stop) ∧
      r.objects.getLast?.map (·.name) = some root.text ∧ r.pipe = s2.pipe ∧ r.expr = s2.expr ∧ r.exprRange = s2.exprRange := by
    refine ⟨({ s2 with dot := (dot.start, dot.stop), ident := (attr.start, attr.stop),
                       objects := s.objects ++ [{ useObj ⟨.variable, root, []⟩ with
                         fields := (useObj ⟨.variable, root, []⟩).fields ++ [(attr.text, (attr.start, attr.stop))] }] } : JinjaObjects),
      ?_, ?_⟩
    · unfold objectsQuery
      rw [hc]
      have := loop_before env.profile (toPoint pos) false [] _ ObjLoop.init _ hbefore hfeed
      rw [List.append_nil] at this
      rw [this]
      rfl
    · simp [useObj]
  obtain ⟨r, hq, hi, hl, hpi, hex, hxr⟩ := hquery
  have htc := snippets_intact env tree text (toPoint pos) hs
  have hexpr : r.expr = (lastExpr ((Point.zero, Point.zero), ExprRange.default) es).1 := by rw [hex, g6, ← f4]
  have hrange : r.exprRange = (lastExpr ((Point.zero, Point.zero), ExprRange.default) es).2 := by rw [hxr, g7, ← f4]
  have hpipe : r.inPipe (toPoint pos) = false := by
    unfold inPipe
    have : ¬ toPoint pos ≤ r.pipe.2 := fun hh => by
      rw [hpi, hp] at hh
      exact Point.lt_irrefl _ (Point.lt_of_lt_of_le hrs (Point.le_trans hh g5))
    simp [this]
  have hin : r.inExpr (toPoint pos) = true := by
    unfold inExpr
    have : (lastExpr ((Point.zero, Point.zero), ExprRange.default) es).1.1 ≤ attr.stop := Point.le_trans hb (Point.le_of_lt hrs)
    simp [hexpr, hi, hp, he, h3, this]
  have hne' : ¬ (toPoint pos = r.exprRange.beginR.2 ∧ toPoint pos = r.exprRange.endR.1) := by
    rintro ⟨e, _⟩
    rw [hrange, hp] at e
    rw [← e] at hf
    exact Point.lt_irrefl _ (Point.lt_of_lt_of_le hrs hf)
  have hid : r.isIdent (toPoint pos) = some root.text := by
    unfold isIdent
    simp only [hi, hp, Point.le_of_lt h3, Point.le_refl, and_self, if_true, hl]
  have hpast : ¬ r.ident.2 < toPoint pos := by
    rw [hi, hp]
    exact Point.lt_irrefl _
  have hcs : completionStart env.profile (toPoint pos) (Identifier.new root.text r.ident.1 r.ident.2) = .ok (some root.text) := by
    rw [hi]
    have hl := utf8Len_pos hne
    have hc' : attr.stop.column = pos.character := by rw [← hp]; rfl
    have e1 : (toPoint pos).column > 0 := hcol
    have e2 : ¬ utf8Len root.text = 0 := by omega
    have e3 : (toPoint pos).column - 1 ≤ attr.stop.column := by
      show pos.character - 1 ≤ _
      omega
    have e4 : attr.stop.column - ((toPoint pos).column - 1) = 1 := by
      show _ - (pos.character - 1) = 1
      omega
    unfold completionStart
    simp [Identifier.new, e1, e2, usub_ok env.profile e3, e4]
  refine ⟨r.fullRange, r.shouldAutoclose, ?_⟩
  have hcomp : r.completion env.profile (toPoint pos) = .ok (some (.incompleteIdentifier root.text r.fullRange, r.shouldAutoclose)) := by
    unfold JinjaObjects.completion
    simp only [hpipe, Bool.false_eq_true, if_false, hin, if_true, hne', hpast, hid, hcs]
  simp only [LspFiles.completion, hext, ht, hd, htc, hq, hcomp]
  simp

/-- the hypotheses hold: the cursor at the end of `{{ user.na` -/
example : ∃ r b, Fix.files.completion (Fix.envWith .jinjaObjects (Fix.opened.flatMap Elem.caps ++
      [(Fix.tok 0 3 7 c!"user" 2).cap .justId, (Fix.tok 0 7 8 c!"." 3).cap .pipe, (Fix.tok 0 7 8 c!"." 3).cap .dot,
        (Fix.tok 0 8 10 c!"na" 4).cap .justId]))
    Fix.uriA ⟨0, 10⟩ .invoked = .ok (some (.incompleteIdentifier c!"user" r, b)) :=
  C20_attribute_refuted _ Fix.files Fix.uriA (.parsed .jinja c!"aaa" none) c!"aaa" ⟨0, 10⟩ (by decide) (by decide) rfl
    (by rintro ⟨pre, e, post, hc, _⟩; simp [Fix.envWith] at hc)
    Fix.opened (by intro e he; cases List.mem_singleton.mp he; exact trivial)
    (Fix.tok 0 3 7 c!"user" 2) (Fix.tok 0 7 8 c!"." 3) (Fix.tok 0 8 10 c!"na" 4) ⟨0, 1⟩ (by decide)
    (by simp only [Fix.opened, List.flatMap_cons, List.flatMap_nil, Elem.toks, Fix.tok, List.append_nil, List.nil_append, Ordered]; decide)
    (by decide) rfl rfl (by intro n a b f l h; cases List.mem_singleton.mp h; decide)
    (by simp [Fix.envWith, Fix.flatten_singletons]) rfl (by decide) (by decide) (by decide) (by decide) (by decide)

/-- **C20 is false for quoted names**: with the cursor after the characters `a ++ [x]` of a template name, the prefix is only `a`
(one character short), and after the first character it is the whole name. -/
theorem C20_quoted_refuted (env : Env) (f : LspFiles) (uri : Str) (tree : Tree) (text : Str)
    (hext : fileExt uri = some .backend) (hd : f.documents.get? uri = some text) (ht : (f.trees .backend).get? uri = some tree)
    (m t : Tok) (hm : m.text ∈ [c!"render_jinja", c!"get_template"]) (a b : Str) (x : Char) (pos : Position)
    (hc : env.queryMatches (.backendTemplates f.queriesBackend) tree text = [[m.cap .methodName, t.cap .templateName]])
    (htext : t.text = '"' :: (a ++ x :: b) ++ ['"']) (hx : x.utf8Size = 1)
    (hquot : ∀ c ∈ a ++ x :: b, c ≠ '"' ∧ c ≠ '\'')
    (h1 : m.start ≤ t.start) (hrow : t.stop = ⟨t.start.row, t.start.column + utf8Len t.text⟩)
    (hpos : toPoint pos = ⟨t.start.row, t.start.column + utf8Len ('"' :: (a ++ [x]))⟩) :
    ∃ r, f.completion env uri pos .invoked = .ok (some (.includedTemplate (if a = [] then x :: b else a) r, false)) := by
  have hq1 : Char.utf8Size '"' = 1 := by decide
  have hlen : utf8Len t.text = 1 + (utf8Len a + (1 + utf8Len b)) + 1 := by
    rw [htext]; simp [utf8Len, hx, hq1]; omega
  have hplen : utf8Len ('"' :: (a ++ [x])) = 1 + utf8Len a + 1 := by simp [utf8Len, hx, hq1]; omega
  have hcol : (toPoint pos).column = t.start.column + (1 + utf8Len a + 1) := by rw [hpos, hplen]
  have h2 : t.start ≤ toPoint pos := by
    rw [hpos, Point.le_def]; right; exact ⟨rfl, Nat.le_add_right _ _⟩
  have h3 : toPoint pos ≤ t.stop := by
    rw [hpos, hrow, Point.le_def]
    right
    refine ⟨rfl, ?_⟩
    show t.start.column + _ ≤ t.start.column + _
    rw [hplen, hlen]; omega
  have hstrip : stripQuotes t.text = a ++ x :: b := by
    rw [htext]
    unfold stripQuotes
    rw [List.cons_append, List.filter_cons, List.filter_append]
    have : (a ++ x :: b).filter (fun c => c ≠ '"' && c ≠ '\'') = a ++ x :: b := by
      rw [List.filter_eq_self]
      intro c hc
      simpa using hquot c hc
    rw [this]
    simp
  have hmp : m.start ≤ toPoint pos := Point.le_trans h1 h2
  have hq : backendTemplatesQuery env f.queriesBackend tree (toPoint pos) text false =
      ⟨[{ Identifier.new (a ++ x :: b) t.start t.stop with idType := .jinjaTemplate }], false⟩ := by
    have hm' : m.text ∈ backendMethods := hm
    unfold backendTemplatesQuery
    simp [hc, selectCaptures, Tok.cap, hmp, h2, BackendTemplates.check, hm', hstrip]
  have hin : (backendTemplatesQuery env f.queriesBackend tree (toPoint pos) text false).inTemplate (toPoint pos) =
      some { Identifier.new (a ++ x :: b) t.start t.stop with idType := .jinjaTemplate } := by
    rw [hq]
    simp [BackendTemplates.inTemplate, Identifier.new, h2, h3]
  have hL : utf8Len (a ++ x :: b) = utf8Len a + (1 + utf8Len b) := by simp [utf8Len, hx]
  have hcs : completionStart env.profile (toPoint pos)
      { Identifier.new (a ++ x :: b) t.start t.stop with idType := .jinjaTemplate } =
        .ok (some (if a = [] then x :: b else a)) := by
    have hstop : t.stop.column = t.start.column + (1 + (utf8Len a + (1 + utf8Len b)) + 1) := by rw [hrow, hlen]
    have e1 : (toPoint pos).column > 0 := by omega
    have e2 : ¬ utf8Len (a ++ x :: b) = 0 := by omega
    have e3 : (toPoint pos).column - 1 ≤ t.stop.column := by omega
    have e4 : t.stop.column - ((toPoint pos).column - 1) = utf8Len b + 2 := by omega
    unfold completionStart
    simp only [Identifier.new, e1, if_true, e2, if_false, usub_ok env.profile e3, e4]
    have e5 : (decide (utf8Len b + 2 = 0) || decide (utf8Len b + 2 = 1)) = false := by simp
    simp only [e5, Bool.false_eq_true, if_false]
    by_cases ha : a = []
    · subst ha
      have e6 : utf8Len b + 2 > utf8Len ([] ++ x :: b) := by rw [hL]; simp [utf8Len]; omega
      simp only [List.nil_append] at e6 ⊢
      simp only [e6, if_true]
    · have hap := utf8Len_pos ha
      have e6 : ¬ utf8Len b + 2 > utf8Len (a ++ x :: b) := by omega
      have e7 : utf8Len (a ++ x :: b) - (utf8Len b + 2) + 1 = utf8Len a := by omega
      simp only [e6, if_false, e7, bytePrefix_append, ha]
  refine ⟨toRange (t.start, t.stop), ?_⟩
  simp only [LspFiles.completion, hext, ht, hd, hin, hcs]
  simp [Identifier.new]

/-- the hypotheses hold: `get_template("ab.html")` with the cursor after `ab` -/
example : ∃ (m t : Tok) (a b : Str) (x : Char) (pos : Position), m.text ∈ [c!"render_jinja", c!"get_template"] ∧
    t.text = '"' :: (a ++ x :: b) ++ ['"'] ∧ x.utf8Size = 1 ∧ (∀ c ∈ a ++ x :: b, c ≠ '"' ∧ c ≠ '\'') ∧ m.start ≤ t.start ∧
    t.stop = ⟨t.start.row, t.start.column + utf8Len t.text⟩ ∧
    toPoint pos = ⟨t.start.row, t.start.column + utf8Len ('"' :: (a ++ [x]))⟩ ∧ a ≠ [] :=
  ⟨Fix.tok 0 0 12 c!"get_template" 1, Fix.tok 0 13 22 ('"' :: c!"ab.html" ++ ['"']) 2, c!"a", c!".html", 'b', ⟨0, 16⟩, by decide⟩

end JinjaLsp
