import Verif.Lemmas.Objects
/- The cursor on the name of a use in a well-formed document. -/

namespace JinjaLsp
namespace JinjaObjects
open Spec

theorem ready_default {p : Point} (h : Point.zero < p) : Ready JinjaObjects.default p := ⟨h, h, rfl⟩

/-- the state after a well-formed document -/
theorem feeds_doc {es : List Elem} {p : Point} (hp : Point.zero < p) (hok : ∀ e ∈ es, e.Ok)
    (ho : Ordered p (es.flatMap Elem.toks)) :
    ∃ s, Feeds JinjaObjects.default (es.flatMap Elem.caps) s ∧
      s.objects = es.filterMap (fun | .use u => some (useObj u) | _ => none) ∧ Ready s (endOf p (es.flatMap Elem.toks)) ∧
      (s.expr, s.exprRange) = lastExpr ((Point.zero, Point.zero), ExprRange.default) es := by
  obtain ⟨s, h1, h2, h3, h4⟩ := feeds_elems es JinjaObjects.default p hok ho (ready_default hp)
  exact ⟨s, h1, by rw [h2]; rfl, h3, h4⟩

theorem tok_le : ∀ (ts : List Tok) (cur : Point) (t : Tok), Ordered cur ts → t ∈ ts → t.start < t.stop ∧ t.stop ≤ endOf cur ts ∧ cur ≤ t.start
  | x :: ts, cur, t, h, ht => by
    rcases List.mem_cons.mp ht with rfl | ht
    · exact ⟨h.2.1, le_endOf ts _ h.2.2, h.1⟩
    · have := tok_le ts x.stop t h.2.2 ht
      exact ⟨this.1, this.2.1, Point.le_trans (Point.le_trans h.1 (Point.le_of_lt h.2.1)) this.2.2⟩

/-- captures of an element start at a token or at the expression -/
theorem elem_caps (e : Elem) (c : Capture) (h : c ∈ e.caps) :
    (∃ t ∈ e.toks, c.start = t.start ∧ c.stop = t.stop ∧ c.name ≠ .expr) ∨
      (∃ n a b f l, e = .expr n a b f l ∧ c.start = a ∧ c.name = .expr) := by
  cases e with
  | use u =>
    left
    obtain ⟨mark, root, fields⟩ := u
    simp only [Elem.caps, Use.caps, List.mem_append, List.mem_cons, List.mem_flatMap] at h
    simp only [Elem.toks, Use.toks, List.mem_append, List.mem_cons, List.mem_flatMap]
    rcases h with h | h | ⟨f, hf, h⟩
    · cases mark with
      | «variable» => cases h
      | filter p => cases List.mem_singleton.mp h; exact ⟨p, Or.inl (by simp [Mark.toks]), rfl, rfl, by simp [Tok.cap]⟩
      | test k ws =>
        rcases List.mem_cons.mp h with rfl | h
        · exact ⟨k, Or.inl (by simp [Mark.toks]), rfl, rfl, by simp [Tok.cap]⟩
        · obtain ⟨w, hw, rfl⟩ := List.mem_map.mp h
          exact ⟨w, Or.inl (by simp [Mark.toks, hw]), rfl, rfl, by simp [Tok.cap]⟩
    · subst h; exact ⟨root, Or.inr (Or.inl rfl), rfl, rfl, by simp [Tok.cap]⟩
    · simp only [dotCaps, List.mem_cons, List.not_mem_nil, or_false] at h
      rcases h with (rfl | rfl) | rfl
      · exact ⟨f.1, Or.inr (Or.inr ⟨f, hf, by simp⟩), rfl, rfl, by simp [Tok.cap]⟩
      · exact ⟨f.1, Or.inr (Or.inr ⟨f, hf, by simp⟩), rfl, rfl, by simp [Tok.cap]⟩
      · exact ⟨f.2, Or.inr (Or.inr ⟨f, hf, by simp⟩), rfl, rfl, by simp [Tok.cap]⟩
  | op t => cases List.mem_singleton.mp h; exact Or.inl ⟨t, by simp [Elem.toks], rfl, rfl, by simp [Tok.cap]⟩
  | word t => cases List.mem_singleton.mp h; exact Or.inl ⟨t, by simp [Elem.toks], rfl, rfl, by simp [Tok.cap]⟩
  | expr n a b f l => cases List.mem_singleton.mp h; exact Or.inr ⟨n, a, b, f, l, rfl, rfl, rfl⟩

/-- the state when the captures after the cursor are reached -/
theorem cursor_state {env : Env} {tree : Tree} {text : Str} {es : List Elem} {u : Use} {rest : List Capture} {p : Point}
    (h : OnUse (env.queryMatches .jinjaObjects tree text).flatten es u rest p) :
    ∃ s2 : JinjaObjects, objectsQuery env tree p text false = objectsLoop env.profile p false ⟨s2, false, 0,
        ((Point.zero, Point.zero), ExprRange.default)⟩ rest ∧
      (∃ os, s2.objects = os ++ [useObj ⟨u.mark, u.root, []⟩]) ∧ s2.dot.2 ≤ u.root.start ∧
      s2.ident = (u.root.start, u.root.stop) ∧ s2.pipe.2 ≤ u.root.start ∧
      (s2.expr, s2.exprRange) = lastExpr ((Point.zero, Point.zero), ExprRange.default) es ∧ s2.isFilter = u.info.filter ∧ s2.testOn = false := by
  obtain ⟨q, hq, hord⟩ := h.ordered
  have hord0 := hord
  rw [ordered_append] at hord
  obtain ⟨s, f1, f2, f3, f4⟩ := feeds_doc hq h.ok hord.1
  obtain ⟨s2, g1, g2, g3, g4, g5, g6, g7, g8, g9⟩ := feeds_root u.mark u.root s _ h.mark h.name hord.2 f3
  have hbefore : ∀ c ∈ es.flatMap Elem.caps ++ (u.mark.caps ++ [u.root.cap .justId]), c.start ≤ p := by
    intro c hc
    refine Point.le_trans ?_ h.start
    have hmem : c ∈ es.flatMap Elem.caps ∨ c ∈ (Elem.use { u with fields := [] }).caps := by
      rcases List.mem_append.mp hc with hc | hc
      · exact Or.inl hc
      · right; simpa [Elem.caps, Use.caps] using hc
    have hlast : ∀ t ∈ es.flatMap Elem.toks ++ (u.mark.toks ++ [u.root]), t.start ≤ u.root.start := by
      intro t ht
      rw [← List.append_assoc] at ht hord0
      rw [ordered_append] at hord0
      rcases List.mem_append.mp ht with ht | ht
      · have := tok_le _ _ t hord0.1 ht
        exact Point.le_trans (Point.le_of_lt this.1) (Point.le_trans this.2.1 hord0.2.1)
      · cases List.mem_singleton.mp ht; exact Point.le_refl _
    rcases hmem with hc | hc
    · obtain ⟨e, he, hc⟩ := List.mem_flatMap.mp hc
      rcases elem_caps e c hc with ⟨t, ht, hs, _⟩ | ⟨n, a, b, f, l, rfl, hs, _⟩
      · rw [hs]; exact hlast t (List.mem_append.mpr (Or.inl (List.mem_flatMap.mpr ⟨e, he, ht⟩)))
      · rw [hs]; exact h.exprs n a b f l he
    · rcases elem_caps _ c hc with ⟨t, ht, hs, _⟩ | ⟨n, a, b, f, l, hh, _⟩
      · rw [hs]; exact hlast t (List.mem_append.mpr (Or.inr (by simpa [Elem.toks, Use.toks] using ht)))
      · cases hh
  have hfeed := Feeds.append f1 g1
  refine ⟨s2, ?_, ⟨_, g2⟩, g8, g4, g5, by rw [g6, g7]; exact f4, by rw [g9]; unfold Use.info; cases u.mark <;> rfl, g3.3⟩
  unfold objectsQuery
  rw [h.caps, ← List.append_assoc, loop_before env.profile p false rest _ ObjLoop.init s2 hbefore hfeed]
  rfl

/-- what is found under the cursor -/
theorem cursor_root {env : Env} {tree : Tree} {text : Str} {es : List Elem} {u : Use} {rest : List Capture} {p : Point}
    (h : OnUse (env.queryMatches .jinjaObjects tree text).flatten es u rest p) :
    ∃ r o os, objectsQuery env tree p text false = .ok r ∧ r.objects = os ++ [o] ∧ o.name = u.root.text ∧
      o.location = (u.root.start, u.root.stop) ∧ o.isFilter = u.info.filter ∧ o.isTest = u.info.test ∧
      r.ident = (u.root.start, u.root.stop) ∧
      (r.expr, r.exprRange) = lastExpr ((Point.zero, Point.zero), ExprRange.default) es ∧
      (r.pipe.2 ≤ u.root.start ∨ p < r.pipe.1) := by
  obtain ⟨s2, hq, ⟨os, ho⟩, _, g4, g5, g6, _⟩ := cursor_state h
  have hhov : s2.isHover p = true := by simp [isHover, g4, h.start, h.stop]
  obtain ⟨r, hr, hk⟩ := loop_after env.profile p os (useObj ⟨u.mark, u.root, []⟩) s2 0
    ((Point.zero, Point.zero), ExprRange.default) ho (by rw [g4]; rfl) hhov rest h.after
  obtain ⟨o, k1, k2, k3, k4, k5⟩ := hk.objects
  refine ⟨r, o, _, hq.trans hr, k1, k2, k3, k4, k5, hk.ident, ?_, ?_⟩
  · rw [hk.expr, hk.exprRange]; exact g6
  · rcases hk.pipe with e | e
    · rw [e]; exact Or.inl g5
    · exact Or.inr e

/-- the last object of `r` is `o` without new attributes -/
def SameFields (os : List JinjaObject) (o : JinjaObject) (r : JinjaObjects) : Prop :=
  ∃ o', r.objects = os ++ [o'] ∧ o'.fields = o.fields ∧ o'.location = o.location

theorem finish_fields {prof : Profile} {os : List JinjaObject} {o : JinjaObject} {t r : JinjaObjects} {rest : List JinjaObject}
    {x : (Point × Point) × ExprRange} (ho : t.objects = os ++ o :: rest) (hr : rest.length ≤ 1)
    (h : objectsFinish prof t os.length x = .ok r) : SameFields os o r := by
  have hf : (focus t os.length).objects = os ++ { o with captureFirst := true } :: rest := by
    have hg : t.objects[os.length]? = some o := by simp [ho]
    simp only [focus, hg]
    simp [ho]
  rw [objectsFinish_eq, hf] at h
  rcases rest with _ | ⟨y, _ | ⟨z, r'⟩⟩
  · simp only [List.length_append, List.length_cons, List.length_nil, usub_ok prof (Nat.le_add_left 1 os.length)] at h
    simp only [Nat.add_sub_cancel, ne_eq, not_true, if_false] at h
    cases h
    exact ⟨_, hf, rfl, rfl⟩
  · have : usub prof (os ++ { o with captureFirst := true } :: [y]).length 1 = .ok (os.length + 1) := by
      rw [usub_ok prof (by simp)]; simp
    simp only [this] at h
    have hne : os.length ≠ os.length + 1 := by omega
    simp only [ne_eq, hne, not_false_eq_true, if_true] at h
    cases h
    refine ⟨{ o with captureFirst := true }, ?_, rfl, rfl⟩
    show (os ++ { o with captureFirst := true } :: [y]).dropLast = _
    rw [List.dropLast_append_of_ne_nil (by simp)]
    rfl
  · simp at hr

theorem loop_fields {prof : Profile} {p : Point} {os : List JinjaObject} {o : JinjaObject} {x : (Point × Point) × ExprRange} :
    ∀ (cs : List Capture) (t r : JinjaObjects), (∀ c ∈ cs, p < c.start) → NoDotBeforeName cs →
      t.objects = os ++ [o] → t.dot.2 ≤ p →
      objectsLoop prof p false ⟨t, true, os.length, x⟩ cs = .ok r → SameFields os o r
  | [], t, r, _, _, ho, _, h => by
    simp only [objectsLoop] at h
    cases h
    exact ⟨o, ho, rfl, rfl⟩
  | c :: cs, t, r, hc, hn, ho, hd, h => by
    have hlt : p < c.start := hc c (by simp)
    have h1 : ¬ c.start ≤ p := fun h => Point.lt_irrefl _ (Point.lt_of_lt_of_le hlt h)
    have h2 : p ≤ c.start := Point.le_of_lt hlt
    have ih : ∀ u : JinjaObjects, c.name ≠ .justId → u.objects = os ++ [o] → u.dot = t.dot →
        objectsLoop prof p false ⟨u, true, os.length, x⟩ cs = .ok r → SameFields os o r := fun u hj hu hud h =>
      loop_fields cs u r (fun x hx => hc x (by simp [hx])) (hn.2 hj) hu (by rw [hud]; exact hd) h
    simp only [objectsLoop, Bool.false_or, h1, decide_false, Bool.false_eq_true, if_false, h2, decide_true, if_true,
      Bool.not_true] at h
    split at h
    · cases h; exact ⟨o, ho, rfl, rfl⟩
    · rename_i hne
      have hx : c.name ≠ .expr := by
        intro h; apply hne; simp [h]
      have hdot := hn.1
      cases hch : t.check c with
      | none => rw [hch] at h; cases h; exact ⟨o, ho, rfl, rfl⟩
      | some y =>
        obtain ⟨u, a⟩ := y
        rw [hch] at h
        simp only at h
        cases hcn : c.name with
        | error => simp [check, hcn] at hch
        | expr => exact absurd hcn hx
        | dot => exact absurd hcn hdot
        | justId =>
          simp only [check, hcn, Option.some.injEq] at hch
          have hnd : ¬ (c.start.row = t.dot.2.row ∧ c.start.column = t.dot.2.column) := by
            rintro ⟨e1, e2⟩
            have : c.start = t.dot.2 := by
              cases hcs : c.start; cases hds : t.dot.2
              rw [hcs, hds] at e1 e2
              simp only at e1 e2
              rw [e1, e2]
            rw [this] at hlt
            exact Point.lt_irrefl _ (Point.lt_of_lt_of_le hlt hd)
          unfold buildObject at hch
          split at hch
          · cases hch
            exact finish_fields (rest := []) ho (by simp) h
          · rw [if_neg hnd] at hch
            unfold pushObject at hch
            split at hch
            · cases hch
              exact finish_fields (rest := []) ho (by simp) h
            · simp only [Prod.mk.injEq] at hch
              obtain ⟨hu, rfl⟩ := hch
              have hy : ∃ y, u.objects = os ++ o :: [y] := by
                rw [← hu, ho]
                exact ⟨_, List.append_assoc _ _ _⟩
              obtain ⟨y, hy⟩ := hy
              exact finish_fields hy (by simp) h
        | pipe =>
          simp only [check, hcn] at hch
          split at hch
          · cases hch
          · cases hch
            refine ih _ (by simp [hcn]) ?_ ?_ h
            · split <;> exact ho
            · split <;> rfl
        | «is» =>
          simp only [check, hcn, Option.some.injEq] at hch
          cases hch
          exact ih { t with test := (c.start, c.stop), testOn := true } (by simp [hcn]) ho rfl h
        | _ =>
          simp only [check, hcn, Option.some.injEq] at hch
          cases hch
          exact finish_fields (rest := []) ho (by simp) h

/-- the range of the object under the cursor is the name under the cursor -/
theorem cursor_range {env : Env} {tree : Tree} {text : Str} {es : List Elem} {u : Use} {rest : List Capture} {p : Point}
    {r : JinjaObjects} (h : OnUse (env.queryMatches .jinjaObjects tree text).flatten es u rest p)
    (hn : NoDotBeforeName rest.tail) (hr : objectsQuery env tree p text false = .ok r) :
    r.fullRange = toRange (u.root.start, u.root.stop) := by
  obtain ⟨s2, hq, g2, g3, g4, _⟩ := cursor_state h
  rw [hq] at hr
  have key : SameFields (s2.objects.dropLast) (useObj ⟨u.mark, u.root, []⟩) r := by
    obtain ⟨os, ho⟩ := g2
    have hdl : s2.objects.dropLast = os := by simp [ho]
    rw [hdl]
    cases rest with
    | nil => simp only [objectsLoop] at hr; cases hr; exact ⟨_, ho, rfl, rfl⟩
    | cons c cs =>
      have hlt : p < c.start := h.after c (by simp)
      have h1 : ¬ c.start ≤ p := fun h => Point.lt_irrefl _ (Point.lt_of_lt_of_le hlt h)
      have h2 : p ≤ c.start := Point.le_of_lt hlt
      have hhov : s2.isHover p = true := by simp [isHover, g4, h.start, h.stop]
      simp only [objectsLoop, Bool.false_or, h1, decide_false, Bool.false_eq_true, if_false, h2, decide_true, if_true,
        Bool.not_false, hhov] at hr
      split at hr
      · cases hr; exact ⟨_, ho, rfl, rfl⟩
      · have : usub env.profile s2.objects.length 1 = .ok os.length := by
          rw [ho, usub_ok _ (by simp)]; simp
        simp only [this] at hr
        exact loop_fields cs s2 r (fun x hx => h.after x (by simp [hx])) hn ho (Point.le_trans g3 h.start) hr
  obtain ⟨o', ho, hf, hl⟩ := key
  unfold fullRange
  have hf' : o'.fields = [] := by rw [hf]; cases u.mark <;> rfl
  rw [ho]
  simp only [List.getLast?_append, List.getLast?_singleton, Option.some_or, JinjaObject.fullRange, JinjaObject.lastFieldEnd, hf',
    List.getLast?_nil, hl]
  rfl

/-- … unless the next name is skipped and has an attribute, which is then attached to the name under the cursor -/
theorem cursor_range_far {env : Env} {tree : Tree} {text : Str} {es : List Elem} {u : Use} {x d pp a : Capture} {more : List Capture}
    {p : Point} {v : Str} {r : JinjaObjects}
    (h : OnUse (env.queryMatches .jinjaObjects tree text).flatten es u (x :: pp :: d :: a :: more) p)
    (hm : u.info.filter = false) (hx : x.name = .justId) (hd : d.name = .dot) (hp : pp.name = .pipe) (hpt : pp.text = some c!".")
    (ha : a.name = .justId) (had : a.start = d.stop) (hat : a.text = some v) (hr : objectsQuery env tree p text false = .ok r) :
    r.fullRange = toRange (u.root.start, a.stop) := by
  obtain ⟨s2, hq, ⟨os, ho⟩, _, g4, g5, _, g6, _⟩ := cursor_state h
  rw [hq] at hr
  have after : ∀ c ∈ x :: pp :: d :: a :: more, (decide (c.start ≤ p) = false) ∧ decide (p ≤ c.start) = true := by
    intro c hc
    have hlt := h.after c hc
    exact ⟨decide_eq_false (fun h => Point.lt_irrefl _ (Point.lt_of_lt_of_le hlt h)), decide_eq_true (Point.le_of_lt hlt)⟩
  have hhov : s2.isHover p = true := by simp [isHover, g4, h.start, h.stop]
  have hf : s2.isFilter = false := g6.trans hm
  obtain ⟨x1, x2⟩ := after x (by simp)
  obtain ⟨d1, d2⟩ := after d (by simp)
  obtain ⟨p1, p2⟩ := after pp (by simp)
  obtain ⟨a1, a2⟩ := after a (by simp)
  have hu : usub env.profile s2.objects.length 1 = .ok os.length := by
    rw [ho, usub_ok _ (by simp)]; simp
  have hf' : ({ s2 with dot := (d.start, d.stop) } : JinjaObjects).isFilter = false := hf
  have hk : ({ s2 with dot := (d.start, d.stop) } : JinjaObjects).buildObject a = ({ s2 with
      dot := (d.start, d.stop)
      objects := os ++ [{ useObj ⟨u.mark, u.root, []⟩ with fields := [(v, (a.start, a.stop))] }]
      ident := (a.start, a.stop) }, .invalid) := by
    have hl : s2.objects.getLast? = some (useObj ⟨u.mark, u.root, []⟩) := by simp [ho]
    have hfs : (useObj ⟨u.mark, u.root, []⟩).fields = [] := by cases u.mark <;> rfl
    simp only [buildObject, hat, had, and_self, if_true, hl, hfs, List.nil_append]
    simp [ho]
  simp only [objectsLoop, x1, x2, d1, d2, p1, p2, a1, a2, Bool.false_eq_true, if_false, if_true, Bool.not_false,
    Bool.not_true, hhov, hf, hf', hx, hd, hp, ha, hu, check, hpt, hk, reduceCtorEq, decide_false, Bool.or_self] at hr
  have hnp : ¬ (c!".").head? = some '|' := by decide
  simp only [hnp, if_false, hf, hf', hk, Bool.false_eq_true, Bool.or_self] at hr
  have key := finish_fields (os := os) (rest := [])
    (o := { useObj ⟨u.mark, u.root, []⟩ with fields := [(v, (a.start, a.stop))] }) rfl (by simp) hr
  obtain ⟨o', ho', hfl, hl⟩ := key
  unfold fullRange
  rw [ho']
  simp only [List.getLast?_append, List.getLast?_singleton, Option.some_or, JinjaObject.fullRange, JinjaObject.lastFieldEnd, hfl, hl]
  rfl

/-- … or the name under the cursor has an attribute itself -/
theorem cursor_range_own {env : Env} {tree : Tree} {text : Str} {es : List Elem} {u : Use} {d pp a : Capture} {more : List Capture}
    {p : Point} {v : Str} {r : JinjaObjects}
    (h : OnUse (env.queryMatches .jinjaObjects tree text).flatten es u (pp :: d :: a :: more) p)
    (hm : u.info.filter = false) (hd : d.name = .dot) (hp : pp.name = .pipe)
    (ha : a.name = .justId) (had : a.start = d.stop) (hat : a.text = some v) (hr : objectsQuery env tree p text false = .ok r) :
    r.fullRange = toRange (u.root.start, a.stop) := by
  obtain ⟨s2, hq, ⟨os, ho⟩, _, g4, g5, _, g6, _⟩ := cursor_state h
  rw [hq] at hr
  have after : ∀ c ∈ pp :: d :: a :: more, (decide (c.start ≤ p) = false) ∧ decide (p ≤ c.start) = true := by
    intro c hc
    have hlt := h.after c hc
    exact ⟨decide_eq_false (fun h => Point.lt_irrefl _ (Point.lt_of_lt_of_le hlt h)), decide_eq_true (Point.le_of_lt hlt)⟩
  have hhov : s2.isHover p = true := by simp [isHover, g4, h.start, h.stop]
  have hf : s2.isFilter = false := g6.trans hm
  obtain ⟨d1, d2⟩ := after d (by simp)
  obtain ⟨p1, p2⟩ := after pp (by simp)
  obtain ⟨a1, a2⟩ := after a (by simp)
  have hu : usub env.profile s2.objects.length 1 = .ok os.length := by
    rw [ho, usub_ok _ (by simp)]; simp
  have hf' : ({ s2 with dot := (d.start, d.stop) } : JinjaObjects).isFilter = false := hf
  have hk : ({ s2 with dot := (d.start, d.stop) } : JinjaObjects).buildObject a = ({ s2 with
      dot := (d.start, d.stop)
      objects := os ++ [{ useObj ⟨u.mark, u.root, []⟩ with fields := [(v, (a.start, a.stop))] }]
      ident := (a.start, a.stop) }, .invalid) := by
    have hl : s2.objects.getLast? = some (useObj ⟨u.mark, u.root, []⟩) := by simp [ho]
    have hfs : (useObj ⟨u.mark, u.root, []⟩).fields = [] := by cases u.mark <;> rfl
    simp only [buildObject, hat, had, and_self, if_true, hl, hfs, List.nil_append]
    simp [ho]
  simp only [objectsLoop, d1, d2, p1, p2, a1, a2, Bool.false_eq_true, if_false, if_true, Bool.not_false,
    Bool.not_true, hhov, hf, hf', hd, hp, ha, hu, check, hk, reduceCtorEq, decide_false, Bool.or_self] at hr
  have key := finish_fields (os := os) (rest := [])
    (o := { useObj ⟨u.mark, u.root, []⟩ with fields := [(v, (a.start, a.stop))] }) rfl (by simp) hr
  obtain ⟨o', ho', hfl, hl⟩ := key
  unfold fullRange
  rw [ho']
  simp only [List.getLast?_append, List.getLast?_singleton, Option.some_or, JinjaObject.fullRange, JinjaObject.lastFieldEnd, hfl, hl]
  rfl

end JinjaObjects
end JinjaLsp
