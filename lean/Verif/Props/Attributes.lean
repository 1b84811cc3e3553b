import Verif.Props.Lookup
import Verif.Lemmas.Idle
/-
  C108: on an attribute, hover and goto-definition are about the variable it belongs to.
-/

namespace JinjaLsp
open Spec JinjaObjects

namespace Spec

/-- positions of tree-sitter are 32-bit numbers -/
def SmallPoint (p : Point) : Prop := p.row < 4294967296 ∧ p.column < 4294967296

/-- a name comes before the next `{{ … }}` begins -/
def NameFollows : List Capture → Prop
  | [] => False
  | c :: cs => c.name = .justId ∨ (c.name ≠ .expr ∧ NameFollows cs)

/-- a document with the cursor on the last attribute `n` of `u`: `es` precedes it, `rest` are the captures after it -/
structure OnAttr (cs : List Capture) (es : List Elem) (u : Use) (n : Tok) (rest : List Capture) (p : Point) : Prop where
  caps : cs = (es ++ [Elem.use u]).flatMap Elem.caps ++ rest
  wf : Elems.Wf (es ++ [Elem.use u])
  last : ∃ fs d, u.fields = fs ++ [(d, n)]
  exprs : ∀ i a b f l, Elem.expr i a b f l ∈ es → a ≤ p
  start : n.start ≤ p
  stop : p ≤ n.stop
  small : SmallPoint n.stop
  after : ∀ c ∈ rest, p < c.start ∧ c.text ≠ none ∧
    (c.name = .expr ∨ ((c.name = .justId ∨ c.name = .dot ∨ c.name = .pipe ∨ c.name = .is) ∧ c.start ≤ c.stop ∧ SmallPoint c.stop))

end Spec

/-! ### The captures after the cursor -/

/-- what a capture other than the beginning of an expression does to the last object -/
theorem check_fields {s t : JinjaObjects} {a : ObjectAction} {os : List JinjaObject} {o : JinjaObject} {c : Capture}
    (ho : s.objects = os ++ [o]) (hk : s.check c = some (t, a)) (hn : c.name = .justId ∨ c.name = .dot ∨ c.name = .pipe ∨ c.name = .is)
    (htx : c.text ≠ none) :
    (c.name = .justId → (a = .newObject ∨ a = .invalid) ∧ ∃ fs rest, t.objects = os ++ { o with fields := o.fields ++ fs } :: rest ∧ rest.length ≤ 1 ∧
      (fs = [] ∨ ∃ v, fs = [(v, (c.start, c.stop))])) ∧
    (c.name ≠ .justId → (a = .newField ∨ a = .newFilter ∨ a = .newTest) ∧ t.objects = os ++ [o] ∧ t.ident = s.ident ∧
      (t.pipe = s.pipe ∨ t.pipe = (c.start, c.stop))) := by
  refine ⟨fun hj => ?_, fun hj => ?_⟩
  · simp only [check, hj, Option.some.injEq] at hk
    have push : ∀ v, ((s.pushObject v c.start c.stop).2 = .newObject ∨ (s.pushObject v c.start c.stop).2 = .invalid) ∧
        ∃ fs rest, (s.pushObject v c.start c.stop).1.objects = os ++ { o with fields := o.fields ++ fs } :: rest ∧ rest.length ≤ 1 ∧
          (fs = [] ∨ ∃ v, fs = [(v, (c.start, c.stop))]) := by
      intro v
      unfold pushObject
      split
      · exact ⟨.inr rfl, [], [], by simp [ho], by simp, .inl rfl⟩
      · exact ⟨.inl rfl, [], [_], by simp [ho]; rfl, by simp, .inl rfl⟩
    obtain ⟨v, hv⟩ := Option.ne_none_iff_exists'.mp htx
    have h1 : t = (s.buildObject c).1 := by rw [hk]
    have h2 : a = (s.buildObject c).2 := by rw [hk]
    subst h1; subst h2
    unfold buildObject
    simp only [hv]
    split
    · have hl : s.objects.getLast? = some o := by simp [ho]
      simp only [hl]
      exact ⟨.inr trivial, [(v, (c.start, c.stop))], [], by simp [ho], by simp, .inr ⟨v, rfl⟩⟩
    · exact push v
  · rcases hn with h | h | h | h
    · exact absurd h hj
    · simp only [check, h, Option.some.injEq, Prod.mk.injEq] at hk
      obtain ⟨rfl, rfl⟩ := hk
      exact ⟨.inl rfl, ho, rfl, .inl rfl⟩
    · obtain ⟨v, hv⟩ := Option.ne_none_iff_exists'.mp htx
      simp only [check, h, hv, Option.some.injEq, Prod.mk.injEq] at hk
      obtain ⟨rfl, rfl⟩ := hk
      refine ⟨.inr (.inl rfl), ?_, ?_, ?_⟩
      · split <;> exact ho
      · split <;> rfl
      · split
        · exact .inr rfl
        · exact .inl rfl
    · simp only [check, h, Option.some.injEq, Prod.mk.injEq] at hk
      obtain ⟨rfl, rfl⟩ := hk
      exact ⟨.inr (.inr rfl), ho, rfl, .inl rfl⟩

/-- the object found under the cursor: that of the name, perhaps with a further attribute, and where the cursor is seen -/
structure Found (p : Point) (os : List JinjaObject) (o : JinjaObject) (ident : Point × Point) (r : JinjaObjects) : Prop where
  objects : ∃ o', r.objects = os ++ [o'] ∧ o'.name = o.name ∧ o'.location = o.location ∧ o'.isFilter = o.isFilter ∧ o'.isTest = o.isTest ∧
    p ≤ o'.lastFieldEnd ∧ SmallPoint o'.lastFieldEnd
  ident : r.ident = ident

theorem found_finish {prof : Profile} {p : Point} {os rest : List JinjaObject} {o : JinjaObject} {t : JinjaObjects} {fs : List (Str × (Point × Point))}
    {x : (Point × Point) × ExprRange} {c : Capture} (ho : t.objects = os ++ { o with fields := o.fields ++ fs } :: rest) (hr : rest.length ≤ 1)
    (hfs : fs = [] ∨ ∃ v, fs = [(v, (c.start, c.stop))]) (hp : p ≤ o.lastFieldEnd) (hs : SmallPoint o.lastFieldEnd) (hc : p ≤ c.stop)
    (hcs : SmallPoint c.stop) : ∃ r, objectsFinish prof t os.length x = .ok r ∧ Found p os o o.location r := by
  have hend : ∀ b, p ≤ (JinjaObject.lastFieldEnd { o with fields := o.fields ++ fs, captureFirst := b }) ∧
      SmallPoint (JinjaObject.lastFieldEnd { o with fields := o.fields ++ fs, captureFirst := b }) := by
    intro b
    rcases hfs with rfl | ⟨v, rfl⟩
    · simp only [List.append_nil]
      exact ⟨hp, hs⟩
    · simp only [JinjaObject.lastFieldEnd, List.getLast?_append, List.getLast?_singleton, Option.some_or]
      exact ⟨hc, hcs⟩
  have hf : focus t os.length = { t with ident := o.location, objects := os ++ { o with fields := o.fields ++ fs, captureFirst := true } :: rest } := by
    have hg : t.objects[os.length]? = some { o with fields := o.fields ++ fs } := by simp [ho]
    simp only [focus, hg]
    simp [ho]
  rw [objectsFinish_eq, hf]
  rcases rest with _ | ⟨y, _ | ⟨z, l⟩⟩
  · simp only [List.length_append, List.length_cons, List.length_nil, usub_ok prof (Nat.le_add_left 1 os.length)]
    simp only [Nat.add_sub_cancel, ne_eq, not_true, if_false]
    exact ⟨_, rfl, ⟨_, rfl, rfl, rfl, rfl, rfl, hend true⟩, rfl⟩
  · have : usub prof (os ++ { o with fields := o.fields ++ fs, captureFirst := true } :: [y]).length 1 = .ok (os.length + 1) := by
      rw [usub_ok prof (by simp)]; simp
    simp only [this]
    have hne : os.length ≠ os.length + 1 := by omega
    simp only [ne_eq, hne, not_false_eq_true, if_true]
    refine ⟨_, rfl, ⟨{ o with fields := o.fields ++ fs, captureFirst := true }, ?_, rfl, rfl, rfl, rfl, hend true⟩, rfl⟩
    show (os ++ { o with fields := o.fields ++ fs, captureFirst := true } :: [y]).dropLast = _
    rw [List.dropLast_append_of_ne_nil (by simp)]
    rfl
  · simp at hr

theorem found_continued {prof : Profile} {p : Point} {os : List JinjaObject} {o : JinjaObject} {id : Point × Point} {x : (Point × Point) × ExprRange}
    (hp : p ≤ o.lastFieldEnd) (hs : SmallPoint o.lastFieldEnd) (hid : id.1 ≤ p) :
    ∀ (cs : List Capture) (t : JinjaObjects), (∀ c ∈ cs, p < c.start ∧ c.text ≠ none ∧
        (c.name = .expr ∨ ((c.name = .justId ∨ c.name = .dot ∨ c.name = .pipe ∨ c.name = .is) ∧ c.start ≤ c.stop ∧ SmallPoint c.stop))) →
      t.objects = os ++ [o] → t.ident = id → t.pipe.2 ≠ id.1 →
      ∃ r, objectsLoop prof p false ⟨t, true, os.length, x⟩ cs = .ok r ∧
        ((¬ NameFollows cs ∧ Found p os o id r) ∨ (NameFollows cs ∧ Found p os o o.location r))
  | [], t, _, ho, hi, _ => ⟨t, rfl, .inl ⟨fun h => h, ⟨o, ho, rfl, rfl, rfl, rfl, hp, hs⟩, hi⟩⟩
  | c :: cs, t, hc, ho, hi, hpi => by
    obtain ⟨hlt, htx, hname⟩ := hc c (by simp)
    have h1 : ¬ c.start ≤ p := fun h => Point.lt_irrefl _ (Point.lt_of_lt_of_le hlt h)
    have h2 : p ≤ c.start := Point.le_of_lt hlt
    have hfil : t.isFilter = false := by
      unfold isFilter
      rw [hi]
      exact decide_eq_false hpi
    simp only [objectsLoop, Bool.false_or, h1, decide_false, Bool.false_eq_true, if_false, h2, decide_true, if_true, Bool.not_true, hfil]
    by_cases hx : c.name = .expr
    · simp only [hx, decide_true, if_true]
      refine ⟨t, rfl, .inl ⟨?_, ⟨o, ho, rfl, rfl, rfl, rfl, hp, hs⟩, hi⟩⟩
      simp [NameFollows, hx]
    · obtain ⟨hname', hcc, hsm⟩ := hname.resolve_left hx
      simp only [hx, decide_false, Bool.false_eq_true, if_false]
      cases hk : t.check c with
      | none => exact absurd hk (check_some (by rcases hname' with h | h | h | h <;> simp [h]) fun _ => htx)
      | some y =>
        obtain ⟨t', a⟩ := y
        obtain ⟨hj, hnj⟩ := check_fields ho hk hname' htx
        simp only
        by_cases hjust : c.name = .justId
        · obtain ⟨ha, fs, rest, h3, h4, h5⟩ := hj hjust
          obtain ⟨r, hr, hfound⟩ := found_finish (prof := prof) (x := x) h3 h4 h5 hp hs (Point.le_trans h2 hcc) hsm
          refine ⟨r, ?_, .inr ⟨.inl hjust, hfound⟩⟩
          rcases ha with rfl | rfl <;> exact hr
        · obtain ⟨ha, h3, h4, h5⟩ := hnj hjust
          have hpi' : t'.pipe.2 ≠ id.1 := by
            rcases h5 with e | e
            · rw [e]; exact hpi
            · rw [e]
              intro e'
              exact Point.lt_irrefl _ (Point.lt_of_lt_of_le (Point.lt_of_le_of_lt hid hlt) (e' ▸ hcc))
          obtain ⟨r, hr, hfound⟩ := found_continued (prof := prof) (x := x) hp hs hid cs t' (fun y hy => hc y (by simp [hy])) h3 (h4.trans hi) hpi'
          refine ⟨r, ?_, ?_⟩
          · rcases ha with rfl | rfl | rfl <;> exact hr
          · have : NameFollows (c :: cs) ↔ NameFollows cs := by simp [NameFollows, hjust, hx]
            rw [this]
            exact hfound

/-! ### The cursor on an attribute -/

theorem ordered_last {cur : Point} {ts : List Tok} {t : Tok} (h : Ordered cur (ts ++ [t])) : ∀ x ∈ ts, x.stop ≤ t.start := by
  rw [JinjaObjects.ordered_append] at h
  intro x hx
  exact Point.le_trans (tok_le ts cur x h.1 hx).2.1 h.2.1

/-- what is found under the cursor -/
theorem attr_found {env : Env} {tree : Tree} {text : Str} {es : List Elem} {u : Use} {n : Tok} {rest : List Capture} {p : Point}
    (h : OnAttr (env.queryMatches .jinjaObjects tree text).flatten es u n rest p) :
    u.root.start ≤ p ∧ u.root.stop < p ∧ ∃ os r, objectsQuery env tree p text false = .ok r ∧
      ((¬ (∃ c cs, rest = c :: cs ∧ c.name ≠ .expr ∧ NameFollows cs) ∧ Found p os (useObj u) (n.start, n.stop) r) ∨
        ((∃ c cs, rest = c :: cs ∧ c.name ≠ .expr ∧ NameFollows cs) ∧ Found p os (useObj u) (u.root.start, u.root.stop) r)) := by
  obtain ⟨mark, root, fields⟩ := u
  obtain ⟨fs, d, hfs⟩ := h.last
  simp only at hfs
  subst hfs
  obtain ⟨q, hq, ho⟩ := h.wf.ordered
  have htoks : (es ++ [Elem.use ⟨mark, root, fs ++ [(d, n)]⟩]).flatMap Elem.toks = ((es ++ [Elem.use ⟨mark, root, fs⟩]).flatMap Elem.toks ++ [d]) ++ [n] := by
    simp [Elem.toks, Use.toks]
  have hcaps : (es ++ [Elem.use ⟨mark, root, fs ++ [(d, n)]⟩]).flatMap Elem.caps =
      (es ++ [Elem.use ⟨mark, root, fs⟩]).flatMap Elem.caps ++ [d.cap .pipe, d.cap .dot, n.cap .justId] := by
    simp [Elem.caps, Use.caps, dotCaps]
  have hok := h.wf.ok (Elem.use ⟨mark, root, fs ++ [(d, n)]⟩) (by simp)
  obtain ⟨hdn, hdot⟩ := hok.2.2 (d, n) (by simp)
  simp only at hdn hdot
  rw [htoks] at ho
  have hall := ordered_last ho
  have hoks : ∀ e ∈ es ++ [Elem.use ⟨mark, root, fs⟩], e.Ok := by
    intro e he
    rcases List.mem_append.mp he with he | he
    · exact h.wf.ok e (List.mem_append_left _ he)
    · cases List.mem_singleton.mp he
      exact ⟨hok.1, hok.2.1, fun f hf => hok.2.2 f (by simp [hf])⟩
  have ho' := ho
  rw [JinjaObjects.ordered_append, JinjaObjects.ordered_append] at ho'
  obtain ⟨⟨ho1, ho2⟩, ho3⟩ := ho'
  obtain ⟨s, f1, f2, f3, _⟩ := feeds_doc hq hoks ho1
  have hroot : root.stop < p := by
    have hm : root ∈ (es ++ [Elem.use ⟨mark, root, fs⟩]).flatMap Elem.toks := by simp [Elem.toks, Use.toks]
    have h1 := (tok_le _ _ root ho1 hm).2.1
    exact Point.lt_of_lt_of_le (Point.lt_of_le_of_lt (Point.le_trans h1 ho2.1) ho2.2.1) (Point.le_trans (hdn ▸ Point.le_refl _) h.start)
  have hroot' : root.start ≤ p := by
    have hm : root ∈ (es ++ [Elem.use ⟨mark, root, fs⟩]).flatMap Elem.toks := by simp [Elem.toks, Use.toks]
    exact Point.le_trans (Point.le_of_lt (tok_le _ _ root ho1 hm).1) (Point.le_of_lt hroot)
  refine ⟨hroot', hroot, ?_⟩
  have hobj : s.objects = es.filterMap (fun | .use u => some (useObj u) | _ => none) ++ [useObj ⟨mark, root, fs⟩] := by
    rw [f2, List.filterMap_append]
    rfl
  let os := es.filterMap (fun | .use u => some (useObj u) | _ => none)
  let s1 : JinjaObjects := { s with dot := (d.start, d.stop) }
  let s2 : JinjaObjects := { s1 with objects := os ++ [useObj ⟨mark, root, fs ++ [(d, n)]⟩], ident := (n.start, n.stop) }
  have k1 : s.check (d.cap .pipe) = some (s, .newFilter) := by simp [check, Tok.cap, hdot]
  have k2 : s.check (d.cap .dot) = some (s1, .newField) := rfl
  have k3 : s1.check (n.cap .justId) = some (s2, .invalid) := by
    have := check_field s1 n hdn (useObj ⟨mark, root, fs⟩) os hobj
    rw [this]
    have e : useObj ⟨mark, root, fs ++ [(d, n)]⟩ =
        { useObj ⟨mark, root, fs⟩ with fields := (useObj ⟨mark, root, fs⟩).fields ++ [(n.text, (n.start, n.stop))] } := by
      simp only [useObj, Use.info, List.map_append, List.map_cons, List.map_nil]
    show some (_, _) = some (_, _)
    rw [show s2 = { s1 with objects := os ++ [useObj ⟨mark, root, fs ++ [(d, n)]⟩], ident := (n.start, n.stop) } from rfl, e]
  have hfeed := Feeds.append f1 (Feeds.cons k1 (Feeds.cons k2 (Feeds.cons k3 (Feeds.nil s2))))
  have hbefore : ∀ c ∈ (es ++ [Elem.use ⟨mark, root, fs⟩]).flatMap Elem.caps ++ [d.cap .pipe, d.cap .dot, n.cap .justId], c.start ≤ p := by
    rw [← hcaps]
    intro c hc
    obtain ⟨e, he, hc⟩ := List.mem_flatMap.mp hc
    rcases elem_caps e c hc with ⟨t, ht, hst, _⟩ | ⟨i, a, b, f, l, rfl, hst, _⟩
    · rw [hst]
      refine Point.le_trans ?_ h.start
      have hm : t ∈ ((es ++ [Elem.use ⟨mark, root, fs⟩]).flatMap Elem.toks ++ [d]) ++ [n] := by
        rw [← htoks]; exact List.mem_flatMap.mpr ⟨e, he, ht⟩
      rcases List.mem_append.mp hm with hm | hm
      · have ht' := (tok_le _ _ t ho (List.mem_append_left _ hm)).1
        exact Point.le_trans (Point.le_of_lt ht') (hall t hm)
      · cases List.mem_singleton.mp hm; exact Point.le_refl _
    · rw [hst]
      refine h.exprs i a b f l ?_
      rcases List.mem_append.mp he with he | he
      · exact he
      · cases List.mem_singleton.mp he
  have hquery : objectsQuery env tree p text false = objectsLoop env.profile p false ⟨s2, false, 0, ((Point.zero, Point.zero), ExprRange.default)⟩ rest := by
    unfold objectsQuery
    rw [h.caps, hcaps, loop_before env.profile p false rest _ ObjLoop.init s2 hbefore hfeed]
    rfl
  rw [hquery]
  have hend : (useObj ⟨mark, root, fs ++ [(d, n)]⟩).lastFieldEnd = n.stop := by
    simp [JinjaObject.lastFieldEnd, useObj, Use.info]
  have hpl : p ≤ (useObj ⟨mark, root, fs ++ [(d, n)]⟩).lastFieldEnd := hend ▸ h.stop
  have hsl : SmallPoint (useObj ⟨mark, root, fs ++ [(d, n)]⟩).lastFieldEnd := hend ▸ h.small
  have hpi : s2.pipe.2 ≠ n.start := by
    intro e
    have h1 : s.pipe.2 < endOf q ((es ++ [Elem.use ⟨mark, root, fs⟩]).flatMap Elem.toks) := f3.pipe
    have h2 : s.pipe.2 < n.start := Point.lt_of_lt_of_le h1 (Point.le_trans ho2.1 (Point.le_trans (Point.le_of_lt ho2.2.1) (hdn ▸ Point.le_refl _)))
    exact Point.lt_irrefl _ (e ▸ h2)
  have here : Found p os (useObj ⟨mark, root, fs ++ [(d, n)]⟩) (n.start, n.stop) s2 :=
    ⟨⟨_, rfl, rfl, rfl, rfl, rfl, hpl, hsl⟩, rfl⟩
  refine ⟨os, ?_⟩
  cases hrest : rest with
  | nil => exact ⟨s2, rfl, .inl ⟨by simp, here⟩⟩
  | cons c cs =>
    obtain ⟨hlt, _⟩ := h.after c (by simp [hrest])
    have h1 : ¬ c.start ≤ p := fun h => Point.lt_irrefl _ (Point.lt_of_lt_of_le hlt h)
    have h2 : p ≤ c.start := Point.le_of_lt hlt
    have hhov : s2.isHover p = true := by
      have e1 : s2.ident = (n.start, n.stop) := rfl
      simp [isHover, e1, h.start, h.stop]
    have hfil : s2.isFilter = false := decide_eq_false hpi
    simp only [objectsLoop, Bool.false_or, h1, decide_false, Bool.false_eq_true, if_false, h2, decide_true, if_true, Bool.not_false, hhov, hfil]
    by_cases hx : c.name = .expr
    · simp only [hx, decide_true, if_true]
      exact ⟨s2, rfl, .inl ⟨by rintro ⟨c', cs', e, hne, _⟩; cases e; exact hne hx, here⟩⟩
    · simp only [hx, decide_false, Bool.false_eq_true, if_false]
      have hu : usub env.profile s2.objects.length 1 = .ok os.length := by
        show usub env.profile (os ++ [useObj ⟨mark, root, fs ++ [(d, n)]⟩]).length 1 = _
        rw [usub_ok env.profile (by simp)]; simp
      simp only [hu]
      obtain ⟨r, hr, hf⟩ := found_continued (prof := env.profile) (x := (s2.expr, s2.exprRange)) (id := (n.start, n.stop)) hpl hsl h.start cs s2
        (fun y hy => h.after y (by simp [hrest, hy])) rfl rfl hpi
      refine ⟨r, hr, ?_⟩
      have hiff : (∃ c' cs', c :: cs = c' :: cs' ∧ c'.name ≠ .expr ∧ NameFollows cs') ↔ NameFollows cs := by
        constructor
        · rintro ⟨c', cs', e, _, hn⟩; cases e; exact hn
        · intro hn; exact ⟨c, cs, rfl, hx, hn⟩
      rw [hiff]
      exact hf

theorem small_point {p : Point} (h : SmallPoint p) : toPoint (toPosition2 p) = p := by
  obtain ⟨h1, h2⟩ := h
  simp only [toPosition2, toPoint, toU32, Nat.mod_eq_of_lt h1, Nat.mod_eq_of_lt h2]

/-- the cursor is inside what was found -/
theorem Found.hover {p : Point} {os : List JinjaObject} {o : JinjaObject} {id : Point × Point} {r : JinjaObjects} (h : Found p os o id r)
    (hs : o.location.1 ≤ p) : r.isHover p = true := by
  obtain ⟨o', h1, _, h3, _, _, h6, h7⟩ := h.objects
  have hf : r.fullRange = o'.fullRange := by
    unfold JinjaObjects.fullRange
    rw [h1]
    simp
  have e1 : toPoint (toPosition2 o'.location.1) ≤ p := Point.le_trans (trunc_le _) (h3 ▸ hs)
  have e2 : p ≤ toPoint (toPosition2 o'.lastFieldEnd) := by rw [small_point h7]; exact h6
  have : toRange2 r.fullRange p = true := by
    rw [hf]
    simp only [toRange2, Bool.and_eq_true, decide_eq_true_eq]
    exact ⟨e1, e2⟩
  simp [JinjaObjects.isHover, this]

/-- hover on an attribute -/
theorem hover_attr {env : Env} {f : LspFiles} {uri : Str} {tree : Tree} {text : Str} {pos : Position}
    (hext : fileExt uri = some .template) (hd : f.documents.get? uri = some text) (ht : (f.trees .template).get? uri = some tree)
    {es : List Elem} {u : Use} {n : Tok} {rest : List Capture}
    (h : OnAttr (env.queryMatches .jinjaObjects tree text).flatten es u n rest (toPoint pos)) :
    ∃ i, f.hover env uri pos = .ok (some (i, if u.info.filter then .filter else if u.info.test then .test else .identifier)) ∧
      i.name = u.root.text ∧ i.start = u.root.start := by
  obtain ⟨hst, _, os, r, hq, hf⟩ := attr_found h
  have key : ∃ id, Found (toPoint pos) os (useObj u) id r := by
    rcases hf with ⟨_, hf⟩ | ⟨_, hf⟩ <;> exact ⟨_, hf⟩
  obtain ⟨id, hf⟩ := key
  have hh := hf.hover hst
  obtain ⟨o', h1, h2, h3, h4, h5, _⟩ := hf.objects
  have hl : r.getLastId = some o' := by simp [JinjaObjects.getLastId, h1]
  refine ⟨Identifier.ofObject o', ?_, ?_, ?_⟩
  · simp only [LspFiles.hover, hext, ne_eq, not_true, if_false, ht, hd, hq, hh, if_true, hl, h4, h5]
    simp only [useObj]
    by_cases hF : u.info.filter = true <;> by_cases hT : u.info.test = true <;> simp [hF, hT]
  · simp [Identifier.ofObject, Identifier.new, h2, useObj]
  · simp [Identifier.ofObject, Identifier.new, h3, useObj]

theorem hoverText_congr {w : World} {f : LspFiles} {uri : Str} {i j : Identifier} {t : CompletionType} (h1 : i.name = j.name) (h2 : i.start = j.start) :
    hoverText w f uri (i, t) = hoverText w f uri (j, t) := by
  simp only [hoverText, LspFiles.dataType, h1, h2]

/-! ### In terms of the syntax tree -/

theorem attrs_split {digit : Char → Bool} : ∀ {fs : List (Tok × Tok)} {d n : Tok} {gs : List (Tok × Tok)} {ns : List Syn},
    Attrs digit ns (fs ++ (d, n) :: gs) → ∃ n1 x y n2, ns = n1 ++ x :: y :: n2 ∧ tokOf y = n ∧ IsName digit y ∧ Attrs digit n2 gs
  | [], d, n, gs, ns, h => by
    cases h with
    | @cons x y ns' _ h1 h2 h3 => exact ⟨[], x, y, ns', rfl, rfl, h2, h3⟩
  | g :: fs, d, n, gs, ns, h => by
    cases h with
    | @cons x y ns' _ h1 h2 h3 =>
      obtain ⟨n1, x', y', n2, rfl, k1, k2, k3⟩ := attrs_split h3
      exact ⟨x :: y :: n1, x', y', n2, rfl, k1, k2, k3⟩

theorem elem_caps_shape (e : Elem) (c : Capture) (h : c ∈ e.caps) : c.text ≠ none ∧
    (c.name = .expr ∨ (c.name = .justId ∨ c.name = .dot ∨ c.name = .pipe ∨ c.name = .is)) := by
  cases e with
  | use u =>
    obtain ⟨mark, root, fields⟩ := u
    simp only [Elem.caps, Use.caps, List.mem_append, List.mem_cons, List.mem_flatMap] at h
    rcases h with h | h | ⟨f, hf, h⟩
    · cases mark with
      | «variable» => cases h
      | filter p => cases List.mem_singleton.mp h; simp [Tok.cap]
      | test k ws =>
        rcases List.mem_cons.mp h with rfl | h
        · simp [Tok.cap]
        · obtain ⟨w, hw, rfl⟩ := List.mem_map.mp h
          simp [Tok.cap]
    · subst h; simp [Tok.cap]
    · simp only [dotCaps, List.mem_cons, List.not_mem_nil, or_false] at h
      rcases h with (rfl | rfl) | rfl <;> simp [Tok.cap]
  | op t => cases List.mem_singleton.mp h; simp [Tok.cap]
  | word t => cases List.mem_singleton.mp h; simp [Tok.cap]
  | expr n a b f l => cases List.mem_singleton.mp h; simp

/-- the captures after the attribute `n` of a use: those of the attributes `gs` after it and of the elements `post` after the use -/
def Spec.capsAfter (gs : List (Tok × Tok)) (post : List Elem) : List Capture :=
  (gs.flatMap fun f => dotCaps f.1 ++ [f.2.cap .justId]) ++ post.flatMap Elem.caps

/-- the cursor on an attribute of a use of the tree -/
theorem onAttr_tree {env : Env} {sx : Syntax} {tree : Tree} {text : Str} {pre post : List Elem} {m : Mark} {root d n : Tok} {fs gs : List (Tok × Tok)}
    {p : Point} (hs : WellFormed (sx.root tree text)) (hl : Laid (sx.root tree text))
    (hr : ReadsTree sx.digit (sx.root tree text) (pre ++ .use ⟨m, root, fs ++ (d, n) :: gs⟩ :: post))
    (hw : Elems.Wf (pre ++ .use ⟨m, root, fs ++ (d, n) :: gs⟩ :: post))
    (hsm : ∀ t ∈ (pre ++ .use ⟨m, root, fs ++ (d, n) :: gs⟩ :: post).flatMap Elem.toks, SmallPoint t.stop)
    (h1 : n.start ≤ p) (h2 : p < n.stop) :
    OnAttr ((env.over sx).queryMatches .jinjaObjects tree text).flatten pre ⟨m, root, fs ++ [(d, n)]⟩ n (capsAfter gs post) p := by
  have hcaps := over_objects (env := env) hr
  obtain ⟨q, hq, hro⟩ := hr
  obtain ⟨n1, ms, as, n2, r, hns, hr1, hm, hn, ht, ha, hr2⟩ := readsOff_split hro rfl
  obtain ⟨a1, x, y, a2, rfl, hy, hyn, ha2⟩ := attrs_split ha
  have hp : (n1 ++ (ms ++ r :: ((a1 ++ x :: y :: a2) ++ n2))).Pairwise fun a b => a.start ≤ b.start ∧ (a.kind = .identifier ∨ a.kind = .string → a.stop ≤ b.start) := by
    rw [← hns]; exact (laid_leaves hs hl).sublist List.filter_sublist
  have hp1 : ∀ a ∈ n1, a.start ≤ y.start := by
    rw [List.pairwise_append] at hp
    intro a ha
    exact (hp.2.2 a ha y (by simp)).1
  have hp2 : ∀ b ∈ a2 ++ n2, y.stop ≤ b.start := by
    have e : n1 ++ (ms ++ r :: ((a1 ++ x :: y :: a2) ++ n2)) = (n1 ++ ms ++ [r] ++ a1 ++ [x]) ++ y :: (a2 ++ n2) := by simp
    rw [e, List.pairwise_append] at hp
    intro b hb
    exact ((List.pairwise_cons.mp hp.2.1).1 b hb).2 (.inl hyn.kind)
  have hystart : y.start = n.start := by rw [← hy]; rfl
  have hystop : y.stop = n.stop := by rw [← hy]; rfl
  have hok := hw.ok (.use ⟨m, root, fs ++ (d, n) :: gs⟩) (by simp)
  obtain ⟨z, hz, ho⟩ := hw.ordered
  have htoks : (pre ++ Elem.use ⟨m, root, fs ++ (d, n) :: gs⟩ :: post).flatMap Elem.toks =
      (pre ++ [Elem.use ⟨m, root, fs ++ [(d, n)]⟩]).flatMap Elem.toks ++ ((gs.flatMap fun f => [f.1, f.2]) ++ post.flatMap Elem.toks) := by
    simp [Elem.toks, Use.toks]
  refine ⟨?_, ⟨?_, z, hz, ?_⟩, ⟨fs, d, rfl⟩, ?_, h1, Point.le_of_lt h2, ?_, ?_⟩
  · rw [hcaps]
    simp [List.flatMap_append, Elem.caps, Use.caps, capsAfter]
  · intro e he
    rcases List.mem_append.mp he with he | he
    · exact hw.ok e (List.mem_append_left _ he)
    · cases List.mem_singleton.mp he
      exact ⟨hok.1, hok.2.1, fun f hf => hok.2.2 f (by
        rcases List.mem_append.mp hf with hf | hf
        · exact List.mem_append_left _ hf
        · cases List.mem_singleton.mp hf; simp)⟩
  · rw [htoks] at ho
    exact ordered_append ho
  · intro i a b f l he
    obtain ⟨k, hk1, e⟩ := readsOff_nodes hr1 { name := .expr, id := i, start := a, stop := b, text := some [], firstChild := f, lastChild := l }
      (List.mem_flatMap.mpr ⟨_, he, List.mem_singleton.mpr rfl⟩)
    rw [show a = k.start from e]
    exact Point.le_trans (hp1 k hk1) (hystart ▸ h1)
  · exact hsm n (by simp [Elem.toks, Use.toks])
  · intro c hc
    have hin : ∃ e ∈ [Elem.use ⟨m, root, fs ++ (d, n) :: gs⟩] ++ post, c ∈ e.caps := by
      rcases List.mem_append.mp hc with hc | hc
      · exact ⟨_, List.mem_append_left _ List.mem_cons_self, by
          simp only [Elem.caps, Use.caps, List.flatMap_append, List.flatMap_cons]
          simp only [List.mem_append, List.mem_cons]
          exact .inr (.inr (.inr (.inr hc)))⟩
      · obtain ⟨e, he, hce⟩ := List.mem_flatMap.mp hc
        exact ⟨e, List.mem_append_right _ he, hce⟩
    obtain ⟨e, he, hce⟩ := hin
    obtain ⟨hs1, hs2⟩ := elem_caps_shape e c hce
    refine ⟨?_, hs1, ?_⟩
    · have : ∃ k ∈ a2 ++ n2, c.start = k.start := by
        rcases List.mem_append.mp hc with hc | hc
        · obtain ⟨k, hk, e⟩ := attrs_nodes ha2 c hc; exact ⟨k, List.mem_append_left _ hk, e⟩
        · obtain ⟨k, hk, e⟩ := readsOff_nodes hr2 c hc; exact ⟨k, List.mem_append_right _ hk, e⟩
      obtain ⟨k, hk, e⟩ := this
      rw [e]
      exact Point.lt_of_lt_of_le h2 (hystop ▸ hp2 k hk)
    · rcases hs2 with hs2 | hs2
      · exact .inl hs2
      · refine .inr ⟨hs2, ?_⟩
        rcases elem_caps e c hce with ⟨t, ht', hst, hsp, _⟩ | ⟨_, _, _, _, _, _, _, hx⟩
        · have hmem : t ∈ (pre ++ Elem.use ⟨m, root, fs ++ (d, n) :: gs⟩ :: post).flatMap Elem.toks :=
            List.mem_flatMap.mpr ⟨e, by simpa using Or.inr he, ht'⟩
          rw [hst, hsp]
          exact ⟨Point.le_of_lt (tok_le _ _ t ho hmem).1, hsm t hmem⟩
        · rw [hx] at hs2
          simp at hs2

/-- **C108** (hover) On every attribute of a name, hover shows what it shows on the name. -/
theorem C108_hover (env : Env) (sx : Syntax) (w : World) (s : Server) (uri text : Str) (tree : Tree) (es : List Elem) (u : Use) (d n : Tok)
    (pos pos0 : Position) (hx : fileExt uri = some .template) (hd : s.files.documents.get? uri = some text)
    (ht : (s.files.trees .template).get? uri = some tree) (hs : WellFormed (sx.root tree text)) (hl : Laid (sx.root tree text))
    (hr : ReadsTree sx.digit (sx.root tree text) es) (hw : Elems.Wf es) (hsm : ∀ t ∈ es.flatMap Elem.toks, SmallPoint t.stop)
    (hu : .use u ∈ es) (hf : (d, n) ∈ u.fields)
    (h1 : n.start ≤ toPoint pos) (h2 : toPoint pos < n.stop) (h3 : u.root.start ≤ toPoint pos0) (h4 : toPoint pos0 < u.root.stop) :
    s.handle (env.over sx) w (.hover uri pos) = s.handle (env.over sx) w (.hover uri pos0) := by
  obtain ⟨pre0, rest0, hon⟩ := onUse_tree (env := env) hs hl hr hw hu h3 h4
  obtain ⟨i0, k1, k2, k3⟩ := hover_use hx hd ht hon
  obtain ⟨pre, post, rfl⟩ := List.append_of_mem hu
  obtain ⟨m, root, fields⟩ := u
  obtain ⟨fs, gs, e⟩ := List.append_of_mem hf
  simp only at e
  subst e
  obtain ⟨i, g1, g2, g3⟩ := hover_attr hx hd ht (onAttr_tree (env := env) hs hl hr hw hsm h1 h2)
  have e1 : (Use.info ⟨m, root, fs ++ [(d, n)]⟩).filter = (Use.info ⟨m, root, fs ++ (d, n) :: gs⟩).filter := rfl
  have e2 : (Use.info ⟨m, root, fs ++ [(d, n)]⟩).test = (Use.info ⟨m, root, fs ++ (d, n) :: gs⟩).test := rfl
  rw [e1, e2] at g1
  simp only [Server.handle, Server.onHover, k1, g1]
  rw [hoverText_congr (g2.trans k2.symm) (g3.trans k3.symm)]

/-- **C108** (goto-definition) On an attribute, goto-definition leads to the binding of the variable that starts last among those that reach the
cursor, provided what follows the attribute is skipped without coming to a name.  Missing: see `C108_goto_refuted`. -/
theorem C108_goto_partial (env : Env) (sx : Syntax) (w : World) (s : Server) (uri text : Str) (tree : Tree) (is : List Item) (pre post : List Elem)
    (m : Mark) (root d n : Tok) (fs gs : List (Tok × Tok)) (pos : Position) (hx : fileExt uri = some .template)
    (h : Analysed env s.files uri text tree is) (hs : WellFormed (sx.root tree text)) (hl : Laid (sx.root tree text))
    (hr : ReadsTree sx.digit (sx.root tree text) (pre ++ .use ⟨m, root, fs ++ (d, n) :: gs⟩ :: post))
    (hw : Elems.Wf (pre ++ .use ⟨m, root, fs ++ (d, n) :: gs⟩ :: post))
    (hsm : ∀ t ∈ (pre ++ .use ⟨m, root, fs ++ (d, n) :: gs⟩ :: post).flatMap Elem.toks, SmallPoint t.stop)
    (h1 : n.start ≤ toPoint pos) (h2 : toPoint pos < n.stop) (hfit : ∀ b ∈ Items.bindings (env.rootEnd tree) 0 is, Short b)
    (hno : ∀ c cs, capsAfter gs post = c :: cs → c.name = .expr ∨ ¬ NameFollows cs)
    (hex : ∃ b ∈ Items.bindings (env.rootEnd tree) 0 is, Reaches root.text (toPoint pos) b) :
    ∃ b ∈ Items.bindings (env.rootEnd tree) 0 is, Reaches root.text (toPoint pos) b ∧
      (∀ b' ∈ Items.bindings (env.rootEnd tree) 0 is, Reaches root.text (toPoint pos) b' → b'.start ≤ b.start) ∧
      s.handle (env.over sx) w (.goto uri pos) = .ok (s, [], .goto (some (.scalar
        ⟨uri, ⟨⟨b.start.row, b.start.column⟩, ⟨b.stop.row, b.stop.column⟩⟩⟩))) := by
  obtain ⟨hd, ht, vs, hv, hb⟩ := h
  have hon := onAttr_tree (env := env) hs hl hr hw hsm h1 h2
  rw [← hb] at hfit hex ⊢
  have hm : ∀ d ∈ vs, d.binding ∈ vs.map Identifier.binding := fun d hd => List.mem_map_of_mem hd
  obtain ⟨_, _, os, r, hq, hf⟩ := attr_found hon
  have hfound : Found (toPoint pos) os (useObj ⟨m, root, fs ++ [(d, n)]⟩) (n.start, n.stop) r := by
    rcases hf with ⟨_, hf⟩ | ⟨⟨c, cs, e, hne, hn⟩, _⟩
    · exact hf
    · rcases hno c cs e with h | h
      · exact absurd h hne
      · exact absurd hn h
  obtain ⟨o', k1, k2, _⟩ := hfound.objects
  have hid : r.isIdent (toPoint pos) = some root.text := by
    unfold JinjaObjects.isIdent
    rw [hfound.ident, if_pos ⟨h1, Point.le_of_lt h2⟩, k1]
    simp [k2, useObj]
  obtain ⟨x, hx1, hx2, hx3, hx4⟩ := localDefinition_some (f := s.files) (uri := uri) (n := root.text) (p := toPoint pos) hv (by
    obtain ⟨b, hb1, hb2⟩ := hex
    obtain ⟨x, hx, rfl⟩ := List.mem_map.mp hb1
    exact ⟨x, hx, hb2⟩)
  refine ⟨x.binding, hm x hx1, hx2, ?_, ?_⟩
  · intro b' hb' hc
    obtain ⟨e, he, rfl⟩ := List.mem_map.mp hb'
    exact hx3 e he hc
  · have hg : s.files.gotoDefinition (env.over sx) w uri pos = .ok (some (.scalar ⟨uri, rangeOf x⟩)) := by
      simp only [LspFiles.gotoDefinition, hx, ht, hd, hq, hid, Option.bind_some, hx4, rangeOf_eq (hfit _ (hm x hx1))]
    simp only [Server.handle, hg]
    rfl

theorem collectFiles_nil {env : Env} {uri n : Str} : ∀ (fs : List (Str × List Identifier)), (∀ e ∈ fs, e.1 ≠ uri → ∀ v ∈ e.2, ¬ FirstSegment n v.name) →
    LspFiles.collectFiles env uri n fs = .ok []
  | [], _ => rfl
  | e :: fs, h => by
    have ih := collectFiles_nil (env := env) fs fun x hx => h x (List.mem_cons_of_mem _ hx)
    unfold LspFiles.collectFiles
    split
    · exact ih
    · rename_i hne
      have : LspFiles.segmentMatches n e.2 = [] := by
        rw [segmentMatches_eq, List.filter_eq_nil_iff]
        intro v hv
        simpa using h e List.mem_cons_self hne v hv
      rw [this, ih]
      rfl

/-- **C108 is false for goto-definition** when a name follows that is not the very next thing: another attribute, a filter, an operand.
Nothing is found, whatever binds the variable. -/
theorem C108_goto_refuted (env : Env) (sx : Syntax) (w : World) (s : Server) (uri text : Str) (tree : Tree) (pre post : List Elem)
    (m : Mark) (root d n : Tok) (fs gs : List (Tok × Tok)) (pos : Position) (hx : fileExt uri = some .template)
    (hd : s.files.documents.get? uri = some text) (ht : (s.files.trees .template).get? uri = some tree)
    (hs : WellFormed (sx.root tree text)) (hl : Laid (sx.root tree text))
    (hr : ReadsTree sx.digit (sx.root tree text) (pre ++ .use ⟨m, root, fs ++ (d, n) :: gs⟩ :: post))
    (hw : Elems.Wf (pre ++ .use ⟨m, root, fs ++ (d, n) :: gs⟩ :: post))
    (hsm : ∀ t ∈ (pre ++ .use ⟨m, root, fs ++ (d, n) :: gs⟩ :: post).flatMap Elem.toks, SmallPoint t.stop)
    (h1 : n.start ≤ toPoint pos) (h2 : toPoint pos < n.stop) (c : Capture) (cs : List Capture) (hc : capsAfter gs post = c :: cs)
    (hne : c.name ≠ .expr) (hn : NameFollows cs)
    (hk : (sx.root tree text).kind = .other) (ss : List ImpStmt) (hi : Refs sx.options (sx.root tree text).children ss) (hss : ImpStmt.Wf ss)
    (hni : ∀ i ∈ ss, ∀ t ∈ i.names, ¬ (t.start ≤ toPoint pos ∧ toPoint pos ≤ t.stop))
    (hnames : ∀ file vs, s.files.variables.get? file = some vs → ∀ v ∈ vs, v.name.head? ≠ none ∧ v.name.head? ≠ some '.') :
    s.handle (env.over sx) w (.goto uri pos) = .ok (s, [], .goto (some (.array []))) := by
  have hon := onAttr_tree (env := env) hs hl hr hw hsm h1 h2
  obtain ⟨_, hlt, os, r, hq, hf⟩ := attr_found hon
  have hfound : Found (toPoint pos) os (useObj ⟨m, root, fs ++ [(d, n)]⟩) (root.start, root.stop) r := by
    rcases hf with ⟨hf, _⟩ | ⟨_, hf⟩
    · exact absurd ⟨c, cs, hc, hne, hn⟩ hf
    · exact hf
  have hid : r.isIdent (toPoint pos) = none := by
    unfold JinjaObjects.isIdent
    rw [hfound.ident, if_neg]
    rintro ⟨_, h⟩
    exact Point.lt_irrefl _ (Point.lt_of_lt_of_le hlt h)
  have hz : toPoint pos ≠ Point.zero := by
    intro e
    rw [e] at hlt
    exact Point.lt_irrefl _ (Point.lt_of_lt_of_le hlt (Point.zero_le _))
  have htp := no_template hz (noTemplate_refs (env := env) hk hi hss hni)
  have hcol : LspFiles.collectFiles (env.over sx) uri [] (w.order.shuffle 2 s.files.variables.entries) = .ok [] := by
    refine collectFiles_nil _ fun e he _ v hv hfs => ?_
    obtain ⟨k1, k2⟩ := hnames e.1 e.2 (mem_entries.mp he) v hv
    rcases hfs.2 with h | ⟨t, h⟩
    · rw [h] at k1; exact k1 rfl
    · rw [h] at k2; exact k2 rfl
  simp only [Server.handle, LspFiles.gotoDefinition, hx, ht, hd, hq, hid, htp, Option.bind_none, Option.getD_none, hcol]

/-! ### What follows -/

theorem follows_attr (f : Tok × Tok) (gs : List (Tok × Tok)) (post : List Elem) :
    ∃ c cs, capsAfter (f :: gs) post = c :: cs ∧ c.name ≠ .expr ∧ NameFollows cs :=
  ⟨f.1.cap .pipe, _, rfl, by simp [Tok.cap], .inr ⟨by simp [Tok.cap], .inl rfl⟩⟩

theorem follows_filter (k r : Tok) (fs : List (Tok × Tok)) (post : List Elem) :
    ∃ c cs, capsAfter [] (.use ⟨.filter k, r, fs⟩ :: post) = c :: cs ∧ c.name ≠ .expr ∧ NameFollows cs :=
  ⟨k.cap .pipe, _, rfl, by simp [Tok.cap], .inl rfl⟩

theorem follows_operand (t r : Tok) (fs : List (Tok × Tok)) (post : List Elem) :
    ∃ c cs, capsAfter [] (.op t :: .use ⟨.variable, r, fs⟩ :: post) = c :: cs ∧ c.name ≠ .expr ∧ NameFollows cs :=
  ⟨t.cap .pipe, _, rfl, by simp [Tok.cap], .inl rfl⟩

namespace Fix

/-- ```
{% set a = 1 %}
{{ a.x }}{{ a.y.z }}
``` -/
def dotNodes : List Syn :=
  [st 3 0 15 [lf .keyword 15 0 3 6 c!"set", lf .identifier 16 0 7 8 c!"a", lf .operator 17 0 9 10 c!"=", lf .identifier 18 0 11 12 c!"1"],
   ex 6 1 0 9 [lf .identifier 20 1 3 4 c!"a", lf .operator 21 1 4 5 c!".", lf .identifier 22 1 5 6 c!"x"],
   ex 7 1 9 20 [lf .identifier 23 1 12 13 c!"a", lf .operator 24 1 13 14 c!".", lf .identifier 25 1 14 15 c!"y", lf .operator 26 1 15 16 c!".",
     lf .identifier 27 1 16 17 c!"z"]]

def dotRoot : Syn := .node .other none 900 ⟨0, 0⟩ ⟨1, 20⟩ (some []) dotNodes

def dotSyn : Syntax := ⟨fun _ _ => dotRoot, digit, fun _ _ => [[]], fun _ => true⟩

def dotTags : List Item :=
  [.leaf (.set (dst 3 0 15) (tok 0 3 6 c!"set" 15) (tok 0 7 8 c!"a" 16) [.eq (tok 0 9 10 c!"=" 17)]),
   .leaf (.expr [.name (tok 1 3 4 c!"a" 20), .name (tok 1 5 6 c!"x" 22)]),
   .leaf (.expr [.name (tok 1 12 13 c!"a" 23), .name (tok 1 14 15 c!"y" 25), .name (tok 1 16 17 c!"z" 27)])]

def useX : Use := ⟨.variable, tok 1 3 4 c!"a" 20, [(tok 1 4 5 c!"." 21, tok 1 5 6 c!"x" 22)]⟩
def useYZ : Use := ⟨.variable, tok 1 12 13 c!"a" 23, [(tok 1 13 14 c!"." 24, tok 1 14 15 c!"y" 25), (tok 1 15 16 c!"." 26, tok 1 16 17 c!"z" 27)]⟩

def dotElems : List Elem :=
  [.use ⟨.variable, tok 0 7 8 c!"a" 16, []⟩, .op (tok 0 9 10 c!"=" 17),
   .expr 6 ⟨1, 0⟩ ⟨1, 9⟩ (⟨1, 0⟩, ⟨1, 2⟩) (⟨1, 7⟩, ⟨1, 9⟩), .use useX,
   .expr 7 ⟨1, 9⟩ ⟨1, 20⟩ (⟨1, 9⟩, ⟨1, 11⟩) (⟨1, 18⟩, ⟨1, 20⟩), .use useYZ]

theorem dotTags_read : Tags digit dotNodes dotTags := by
  refine Tags.stmt rfl rfl (token_lf ..) rfl (token_lf ..) rfl (.set (token_lf ..) rfl rfl ?_) ?_
  · exact Header.cons (hs := [_]) (token_lf ..) (.name rfl (by decide)) (Header.cons (hs := [_]) (token_lf ..) (.eq rfl (by decide))
      (Header.cons (hs := []) (token_lf ..) (.numeral rfl (by decide)) .nil))
  refine Tags.expr (is := []) rfl ?_ ?_
  · exact Inline.tok (hs := []) (token_lf ..) (.other rfl) (Inline.tok (hs := [_]) (token_lf ..) (.name rfl (by decide))
      (Inline.tok (hs := []) (token_lf ..) (.op rfl (by decide)) (Inline.tok (hs := [_]) (token_lf ..) (.name rfl (by decide))
        (Inline.tok (hs := []) (token_lf ..) (.other rfl) .nil))))
  refine Tags.expr (is := []) rfl ?_ .nil
  exact Inline.tok (hs := []) (token_lf ..) (.other rfl) (Inline.tok (hs := [_]) (token_lf ..) (.name rfl (by decide))
    (Inline.tok (hs := []) (token_lf ..) (.op rfl (by decide)) (Inline.tok (hs := [_]) (token_lf ..) (.name rfl (by decide))
      (Inline.tok (hs := []) (token_lf ..) (.op rfl (by decide)) (Inline.tok (hs := [_]) (token_lf ..) (.name rfl (by decide))
        (Inline.tok (hs := []) (token_lf ..) (.other rfl) .nil))))))

theorem dotElems_read : ReadsTree digit dotRoot dotElems := by
  refine ⟨relevant, fun n => by simp [relevant, Relevant], ?_⟩
  have hf : dotRoot.flat.filter relevant = [lf .identifier 16 0 7 8 c!"a", lf .operator 17 0 9 10 c!"=",
      ex 6 1 0 9 [lf .identifier 20 1 3 4 c!"a", lf .operator 21 1 4 5 c!".", lf .identifier 22 1 5 6 c!"x"],
      lf .identifier 20 1 3 4 c!"a", lf .operator 21 1 4 5 c!".", lf .identifier 22 1 5 6 c!"x",
      ex 7 1 9 20 [lf .identifier 23 1 12 13 c!"a", lf .operator 24 1 13 14 c!".", lf .identifier 25 1 14 15 c!"y", lf .operator 26 1 15 16 c!".",
        lf .identifier 27 1 16 17 c!"z"],
      lf .identifier 23 1 12 13 c!"a", lf .operator 24 1 13 14 c!".", lf .identifier 25 1 14 15 c!"y", lf .operator 26 1 15 16 c!".",
      lf .identifier 27 1 16 17 c!"z"] := rfl
  rw [hf]
  have nm : ∀ (i l a b : Nat) (t : Str), ¬ IsNumeral digit t → IsName digit (lf .identifier i l a b t) :=
    fun i l a b t h => ⟨rfl, by simp [lf, Syn.text], h⟩
  have dt : ∀ (i l a b : Nat), IsDot (lf .operator i l a b c!".") := fun i l a b => ⟨rfl, rfl⟩
  refine ReadsOff.use (ms := []) (fs := []) .variable (nm _ _ _ _ _ (by decide)) .nil (.op ⟨rfl, by simp [lf, Syn.text], by simp [lf, Syn.text]⟩ (.expr rfl ?_))
  refine ReadsOff.use (ms := []) (fs := [_, _]) .variable (nm _ _ _ _ _ (by decide)) (.cons (dt ..) (nm _ _ _ _ _ (by decide)) .nil) (.expr rfl ?_)
  exact ReadsOff.use (ms := []) (fs := [_, _, _, _]) (ns := []) .variable (nm _ _ _ _ _ (by decide))
    (.cons (dt ..) (nm _ _ _ _ _ (by decide)) (.cons (dt ..) (nm _ _ _ _ _ (by decide)) .nil)) .nil

theorem dotElems_wf : Elems.Wf dotElems := by
  refine ⟨?_, ⟨⟨0, 2⟩, by decide, ?_⟩⟩
  · simp [dotElems, useX, useYZ, Elem.Ok, Mark.Ok, reserved, tok]
    rintro _ _ (⟨rfl, rfl⟩ | ⟨rfl, rfl⟩) <;> simp
  · simp [dotElems, useX, useYZ, Elem.toks, Use.toks, Mark.toks, Ordered, tok, Point.lt_def, Point.le_def]

theorem dot_small : ∀ t ∈ dotElems.flatMap Elem.toks, SmallPoint t.stop := by
  simp [dotElems, useX, useYZ, Elem.toks, Use.toks, Mark.toks, tok, SmallPoint]

theorem dot_laid : Laid dotRoot := ⟨by decide, by decide, by decide, by decide⟩

theorem dot_wellFormed : WellFormed dotRoot := ⟨by decide, by decide, by decide⟩

theorem dot_refs : Refs dotSyn.options dotRoot.children [] := by
  refine Refs.stmt (b := lf .statementBegin 103 0 0 2 c!"{%") (e := lf .statementEnd 203 0 13 15 c!"%}") ⟨rfl, rfl, ⟨token_lf .., rfl⟩, ⟨token_lf .., rfl⟩, ?_⟩
    (by simp [NoRef, strings, lf, Syn.kind]) (Refs.other (.inr rfl) ?_ (Refs.other (.inr rfl) ?_ .nil))
  · simp [lf, Syn.kind]; exact ⟨token_lf .., token_lf .., token_lf .., token_lf ..⟩
  · simp [ex, lf, Syn.children, Syn.kind]
  · simp [ex, lf, Syn.children, Syn.kind]

/-- the variables of the template -/
theorem dot_opened : ∃ s' out r tree, server.handle (env.over dotSyn) emptyWorld (.didOpen uriA []) = .ok (s', out, r) ∧
    Analysed env s'.files uriA [] tree dotTags ∧ dotSyn.root tree [] = dotRoot ∧
    (∀ file vs, s'.files.variables.get? file = some vs → ∀ v ∈ vs, v.name.head? ≠ none ∧ v.name.head? ≠ some '.') := by
  have : ∃ s' out r, server.handle (env.over dotSyn) emptyWorld (.didOpen uriA []) = .ok (s', out, r) ∧
      s'.files.documents.get? uriA = some [] ∧
      (s'.files.trees .template).get? uriA = some (.parsed .jinja [] (some (.parsed .jinja c!"aaa" none))) ∧
      s'.files.variables.entries.all (fun e => e.2.all fun v => v.name.head? == some 'a') = true := ⟨_, _, _, rfl, rfl, rfl, by decide⟩
  obtain ⟨s', out, r, h, h1, h2, h3⟩ := this
  refine ⟨s', out, r, _, h, C83_analysed env dotSyn emptyWorld server s' (.didOpen uriA []) uriA [] _ out r _ (.opened _) rfl h h1 h2
    dot_wellFormed rfl dotTags_read, rfl, fun file vs hv v hm => ?_⟩
  have := List.all_eq_true.mp (List.all_eq_true.mp h3 (file, vs) ((HMap.get?_eq_some_iff ..).mp hv)) v hm
  rw [beq_iff_eq] at this
  simp [this]

end Fix

/-- In the template of `Fix.dotNodes`, hover on `x` and on `z` describes `a`.  Goto-definition leads from `x` to the `set` statement; on `y`, it finds
nothing. -/
example : ∃ s' out r, Fix.server.handle (Fix.env.over Fix.dotSyn) Fix.emptyWorld (.didOpen Fix.uriA []) = .ok (s', out, r) ∧
    s'.handle (Fix.env.over Fix.dotSyn) Fix.emptyWorld (.hover Fix.uriA ⟨1, 5⟩) = s'.handle (Fix.env.over Fix.dotSyn) Fix.emptyWorld (.hover Fix.uriA ⟨1, 3⟩) ∧
    s'.handle (Fix.env.over Fix.dotSyn) Fix.emptyWorld (.hover Fix.uriA ⟨1, 16⟩) = s'.handle (Fix.env.over Fix.dotSyn) Fix.emptyWorld (.hover Fix.uriA ⟨1, 12⟩) ∧
    s'.handle (Fix.env.over Fix.dotSyn) Fix.emptyWorld (.goto Fix.uriA ⟨1, 5⟩) =
      .ok (s', [], .goto (some (.scalar ⟨Fix.uriA, ⟨⟨0, 7⟩, ⟨0, 8⟩⟩⟩))) ∧
    s'.handle (Fix.env.over Fix.dotSyn) Fix.emptyWorld (.goto Fix.uriA ⟨1, 14⟩) = .ok (s', [], .goto (some (.array []))) := by
  obtain ⟨s', out, r, tree, h, ha, hr, hn⟩ := Fix.dot_opened
  refine ⟨s', out, r, h, ?_, ?_, ?_, ?_⟩
  · exact C108_hover Fix.env Fix.dotSyn _ _ _ _ _ Fix.dotElems Fix.useX (Fix.tok 1 4 5 c!"." 21) (Fix.tok 1 5 6 c!"x" 22) _ _ rfl ha.doc ha.held
      Fix.dot_wellFormed Fix.dot_laid Fix.dotElems_read Fix.dotElems_wf Fix.dot_small (by simp [Fix.dotElems]) (by simp [Fix.useX])
      (by decide) (by decide) (by decide) (by decide)
  · exact C108_hover Fix.env Fix.dotSyn _ _ _ _ _ Fix.dotElems Fix.useYZ (Fix.tok 1 15 16 c!"." 26) (Fix.tok 1 16 17 c!"z" 27) _ _ rfl ha.doc ha.held
      Fix.dot_wellFormed Fix.dot_laid Fix.dotElems_read Fix.dotElems_wf Fix.dot_small (by simp [Fix.dotElems]) (by simp [Fix.useYZ])
      (by decide) (by decide) (by decide) (by decide)
  · have hbs : Items.bindings (Fix.env.rootEnd tree) 0 Fix.dotTags = [⟨c!"a", ⟨0, 7⟩, ⟨0, 8⟩, .setVariable, ⟨9, 9⟩⟩] := rfl
    obtain ⟨b, hb, _, _, e⟩ := C108_goto_partial Fix.env Fix.dotSyn Fix.emptyWorld s' Fix.uriA [] tree Fix.dotTags (Fix.dotElems.take 3) (Fix.dotElems.drop 4)
      .variable (Fix.tok 1 3 4 c!"a" 20) (Fix.tok 1 4 5 c!"." 21) (Fix.tok 1 5 6 c!"x" 22) [] [] ⟨1, 5⟩ rfl ha
      Fix.dot_wellFormed Fix.dot_laid Fix.dotElems_read Fix.dotElems_wf Fix.dot_small (by decide) (by decide) (by rw [hbs]; unfold Short; decide)
      (fun c cs hc => .inl (by cases hc; rfl)) ⟨⟨c!"a", ⟨0, 7⟩, ⟨0, 8⟩, .setVariable, ⟨9, 9⟩⟩, by rw [hbs]; decide, by unfold Reaches; decide⟩
    have : b = ⟨c!"a", ⟨0, 7⟩, ⟨0, 8⟩, .setVariable, ⟨9, 9⟩⟩ := by
      rw [hbs] at hb
      exact List.mem_singleton.mp hb
    rw [e, this]
  · obtain ⟨c, cs, e1, e2, e3⟩ := follows_attr (Fix.tok 1 15 16 c!"." 26, Fix.tok 1 16 17 c!"z" 27) [] []
    exact C108_goto_refuted Fix.env Fix.dotSyn Fix.emptyWorld s' Fix.uriA [] tree (Fix.dotElems.take 5) []
      .variable (Fix.tok 1 12 13 c!"a" 23) (Fix.tok 1 13 14 c!"." 24) (Fix.tok 1 14 15 c!"y" 25) [] _ ⟨1, 14⟩ rfl ha.doc ha.held
      Fix.dot_wellFormed Fix.dot_laid Fix.dotElems_read Fix.dotElems_wf Fix.dot_small (by decide) (by decide) c cs e1 e2 e3 rfl [] Fix.dot_refs
      ⟨by simp, by simp, by simp⟩ (by simp) hn

end JinjaLsp
