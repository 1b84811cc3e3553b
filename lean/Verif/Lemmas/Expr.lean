import Verif.Spec.Expr
import Verif.Lemmas.Point
/- The expression analysis over a whole document. -/

namespace JinjaLsp
open Spec

namespace JinjaObjects

/-- the loop of `objects_query` over all captures -/
def feed : JinjaObjects → List Capture → JinjaObjects
  | s, [] => s
  | s, c :: cs =>
    match s.check c with
    | none => s
    | some (o, _) => feed o cs

theorem objectsLoop_all (prof : Profile) (p : Point) : ∀ (cs : List Capture) (st : ObjLoop),
    objectsLoop prof p true st cs = .ok (feed st.objects cs)
  | [], st => rfl
  | c :: cs, st => by
    simp only [objectsLoop, Bool.true_or, if_true, feed]
    cases h : st.objects.check c with
    | none => rfl
    | some x => exact objectsLoop_all prof p cs _

/-- the state after the captures, `none` if one of them stops the loop -/
def steps : JinjaObjects → List Capture → Option JinjaObjects
  | s, [] => some s
  | s, c :: cs =>
    match s.check c with
    | none => none
    | some x => steps x.1 cs

/-- processing `cs` leads from `s` to `s'` without stopping -/
def Feeds (s : JinjaObjects) (cs : List Capture) (s' : JinjaObjects) : Prop := steps s cs = some s'

theorem Feeds.nil (s : JinjaObjects) : Feeds s [] s := rfl
theorem Feeds.cons {s t u : JinjaObjects} {c : Capture} {cs : List Capture} {act : ObjectAction}
    (h : s.check c = some (t, act)) (h' : Feeds t cs u) : Feeds s (c :: cs) u := by
  unfold Feeds steps; rw [h]; exact h'
theorem Feeds.append : ∀ {a b : List Capture} {s t u : JinjaObjects}, Feeds s a t → Feeds t b u → Feeds s (a ++ b) u
  | [], _, _, _, _, h, h' => by injection h with h; subst h; exact h'
  | c :: a, b, s, t, u, h, h' => by
    unfold Feeds steps at h
    cases hk : s.check c with
    | none => rw [hk] at h; cases h
    | some x => rw [hk] at h; exact Feeds.cons (act := x.2) hk (Feeds.append (a := a) h h')
theorem Feeds.feed : ∀ {a : List Capture} {s t : JinjaObjects}, Feeds s a t → ∀ more, JinjaObjects.feed s (a ++ more) = t.feed more
  | [], _, _, h, _ => by injection h with h; subst h; rfl
  | c :: a, s, t, h, more => by
    unfold Feeds steps at h
    cases hk : s.check c with
    | none => rw [hk] at h; cases h
    | some x =>
      rw [hk] at h
      simp only [List.cons_append, JinjaObjects.feed, hk]
      exact Feeds.feed (a := a) h more

/-- no pending marker: the last dot and pipe end before `cur`, no `is` is waiting -/
structure Ready (s : JinjaObjects) (cur : Point) : Prop where
  dot : s.dot.2 < cur
  pipe : s.pipe.2 < cur
  test : s.testOn = false

/-- the end of the last token -/
def endOf : Point → List Tok → Point
  | cur, [] => cur
  | _, t :: ts => endOf t.stop ts

theorem endOf_append : ∀ (a b : List Tok) (cur : Point), endOf cur (a ++ b) = endOf (endOf cur a) b
  | [], _, _ => rfl
  | t :: a, b, cur => by simp only [List.cons_append, endOf]; exact endOf_append a b t.stop

theorem ordered_append : ∀ (a b : List Tok) (cur : Point), Ordered cur (a ++ b) ↔ Ordered cur a ∧ Ordered (endOf cur a) b
  | [], _, _ => by simp [Ordered, endOf]
  | t :: a, b, cur => by
    simp only [List.cons_append, Ordered, endOf, ordered_append a b t.stop, and_assoc]

theorem le_endOf : ∀ (ts : List Tok) (cur : Point), Ordered cur ts → cur ≤ endOf cur ts
  | [], cur, _ => Point.le_refl cur
  | t :: ts, _, h =>
    Point.le_trans (Point.le_trans h.1 (Point.le_of_lt h.2.1)) (le_endOf ts t.stop h.2.2)

/-- the object recorded for a use -/
def useObj (u : Use) : JinjaObject :=
  ⟨u.root.text, (u.root.start, u.root.stop), u.info.filter, u.info.test, u.info.attrs, false⟩

theorem ne_of_row_col {a b : Point} (h : a ≠ b) : ¬ (b.row = a.row ∧ b.column = a.column) := by
  rintro ⟨h1, h2⟩
  apply h
  ext
  · exact h1.symm
  · exact h2.symm

/-- an identifier that does not follow a dot and is not reserved -/
theorem check_root (s : JinjaObjects) (t : Tok) (hd : s.dot.2 ≠ t.start) (hr : t.text ∉ reserved) (hlt : t.start < t.stop) :
    s.check (t.cap .justId) = some ({ s with
      ident := (t.start, t.stop)
      objects := s.objects ++ [JinjaObject.new t.text t.start t.stop (decide (s.pipe.2 = t.start)) s.testOn]
      testOn := false }, .newObject) := by
  have hd' := ne_of_row_col hd
  have hr' : t.text ∉ validIdentifiers := hr
  have hle : t.start ≤ t.stop := Point.le_of_lt hlt
  simp only [check, Tok.cap, buildObject, pushObject, hd', if_false, hr', isHover, isFilter, Point.le_refl, hle, decide_true,
    Bool.and_self, Bool.true_or, Bool.true_and]
  congr

/-- a reserved word changes nothing -/
theorem check_word (s : JinjaObjects) (t : Tok) (hd : s.dot.2 ≠ t.start) (hr : t.text ∈ reserved) :
    s.check (t.cap .justId) = some (s, .invalid) := by
  have hd' := ne_of_row_col hd
  have hr' : t.text ∈ validIdentifiers := hr
  simp only [check, Tok.cap, buildObject, pushObject, hd', if_false, hr', if_true]

/-- an attribute is attached to the last object -/
theorem check_field (s : JinjaObjects) (t : Tok) (hd : s.dot.2 = t.start) (o : JinjaObject) (os : List JinjaObject)
    (ho : s.objects = os ++ [o]) :
    s.check (t.cap .justId) = some ({ s with
      objects := os ++ [{ o with fields := o.fields ++ [(t.text, (t.start, t.stop))] }]
      ident := (t.start, t.stop) }, .invalid) := by
  have hl : s.objects.getLast? = some o := by simp [ho]
  simp only [check, Tok.cap, buildObject, hd, and_self, if_true, hl]
  simp [ho]

theorem feeds_words : ∀ (ws : List Tok) (s : JinjaObjects) (cur : Point), (∀ w ∈ ws, w.text ∈ reserved) → Ordered cur ws →
    s.dot.2 < cur → Feeds s (ws.map (·.cap .justId)) s
  | [], s, _, _, _, _ => Feeds.nil s
  | w :: ws, s, cur, hr, ho, hd => by
    refine Feeds.cons (check_word s w ?_ (hr w (by simp))) (feeds_words ws s w.stop (fun x hx => hr x (by simp [hx])) ho.2.2 ?_)
    · intro e; exact Point.lt_irrefl _ (Point.lt_of_lt_of_le hd (e ▸ ho.1))
    · exact Point.lt_of_lt_of_le hd (Point.le_trans ho.1 (Point.le_of_lt ho.2.1))

theorem feeds_fields : ∀ (fs : List (Tok × Tok)) (s : JinjaObjects) (cur : Point) (o : JinjaObject) (os : List JinjaObject),
    s.objects = os ++ [o] → (∀ f ∈ fs, f.1.stop = f.2.start ∧ f.1.text = c!".") →
    Ordered cur (fs.flatMap fun f => [f.1, f.2]) → Ready s cur →
    ∃ s', Feeds s (fs.flatMap fun f => dotCaps f.1 ++ [f.2.cap .justId]) s' ∧
      s'.objects = os ++ [{ o with fields := o.fields ++ fs.map fun f => (f.2.text, (f.2.start, f.2.stop)) }] ∧
      Ready s' (endOf cur (fs.flatMap fun f => [f.1, f.2])) ∧ s'.expr = s.expr ∧ s'.exprRange = s.exprRange
  | [], s, cur, o, os, hs, _, _, hr => ⟨s, Feeds.nil s, by simp [hs], hr, rfl, rfl⟩
  | (d, n) :: fs, s, cur, o, os, hs, hf, ho, hr => by
    obtain ⟨hdn, hdot⟩ := hf (d, n) (by simp)
    simp only at hdn hdot
    simp only [List.flatMap_cons, List.cons_append, List.nil_append, Ordered] at ho
    let s1 : JinjaObjects := { s with dot := (d.start, d.stop) }
    have h1 : s.check (d.cap .pipe) = some (s, .newFilter) := by
      simp [check, Tok.cap, hdot]
    have h2 : s.check (d.cap .dot) = some (s1, .newField) := rfl
    let s2 : JinjaObjects := { s1 with
      objects := os ++ [{ o with fields := o.fields ++ [(n.text, (n.start, n.stop))] }], ident := (n.start, n.stop) }
    have h3 : s1.check (n.cap .justId) = some (s2, .invalid) := check_field s1 n hdn o os hs
    have hcur : cur ≤ n.stop :=
      Point.le_trans ho.1 (Point.le_trans (Point.le_of_lt ho.2.1) (Point.le_trans ho.2.2.1 (Point.le_of_lt ho.2.2.2.1)))
    obtain ⟨s', hr', ho', hrd', hx', hx2'⟩ := feeds_fields fs s2 n.stop _ os rfl (fun f h => hf f (by simp [h])) ho.2.2.2.2
      ⟨by show d.stop < n.stop; rw [hdn]; exact ho.2.2.2.1, Point.lt_of_lt_of_le hr.pipe hcur, hr.test⟩
    refine ⟨s', ?_, ?_, ?_, hx', hx2'⟩
    · exact Feeds.cons h1 (Feeds.cons h2 (Feeds.cons h3 hr'))
    · rw [ho']; simp
    · simpa [List.flatMap_cons, endOf] using hrd'

/-- the state before the root of a use -/
theorem feeds_mark (mark : Mark) (root : Tok) (s : JinjaObjects) (cur : Point) (hm : mark.Ok root)
    (ho : Ordered cur (mark.toks ++ [root])) (hr : Ready s cur) :
    ∃ s1, Feeds s mark.caps s1 ∧ s1.objects = s.objects ∧ s1.dot.2 < root.start ∧
      (decide (s1.pipe.2 = root.start) = (Use.info ⟨mark, root, []⟩).filter) ∧
      s1.testOn = (Use.info ⟨mark, root, []⟩).test ∧ s1.pipe.2 ≤ root.start ∧ s1.expr = s.expr ∧ s1.exprRange = s.exprRange := by
  simp only [ordered_append] at ho
  obtain ⟨hom, hor⟩ := ho
  simp only [Ordered] at hor
  have hdl : s.dot.2 < root.start := Point.lt_of_lt_of_le hr.dot (Point.le_trans (le_endOf _ _ hom) hor.1)
  have hpl : s.pipe.2 < root.start :=
    Point.lt_of_lt_of_le hr.pipe (Point.le_trans (le_endOf _ _ hom) hor.1)
  have hpn : decide (s.pipe.2 = root.start) = false := by
    simp only [decide_eq_false_iff_not]; intro e; rw [e] at hpl; exact Point.lt_irrefl _ hpl
  cases mark with
  | «variable» => exact ⟨s, Feeds.nil s, rfl, hdl, hpn, hr.test, Point.le_of_lt hpl, rfl, rfl⟩
  | filter p =>
    refine ⟨{ s with pipe := (p.start, p.stop) }, Feeds.cons (act := .newFilter) ?_ (Feeds.nil _), rfl, hdl, ?_, hr.test, ?_,
      rfl, rfl⟩
    · simp [check, Tok.cap, hm.1]
    · simpa [Use.info] using hm.2
    · rw [← hm.2]; exact Point.le_refl _
  | test k ws =>
    simp only [Mark.toks, Ordered] at hom
    refine ⟨{ s with test := (k.start, k.stop), testOn := true }, Feeds.cons (act := .newTest) rfl ?_, rfl, hdl, hpn, rfl,
      Point.le_of_lt hpl, rfl, rfl⟩
    refine feeds_words ws _ k.stop hm hom.2.2 ?_
    exact Point.lt_of_lt_of_le hr.dot (Point.le_trans hom.1 (Point.le_of_lt hom.2.1))

/-- the state after the root of a use -/
theorem feeds_root (mark : Mark) (root : Tok) (s : JinjaObjects) (cur : Point) (hm : mark.Ok root)
    (hres : root.text ∉ reserved) (ho : Ordered cur (mark.toks ++ [root])) (hr : Ready s cur) :
    ∃ s2, Feeds s (mark.caps ++ [root.cap .justId]) s2 ∧ s2.objects = s.objects ++ [useObj ⟨mark, root, []⟩] ∧
      Ready s2 root.stop ∧ s2.ident = (root.start, root.stop) ∧ s2.pipe.2 ≤ root.start ∧
      s2.expr = s.expr ∧ s2.exprRange = s.exprRange ∧ s2.dot.2 ≤ root.start ∧
      s2.isFilter = (Use.info ⟨mark, root, []⟩).filter := by
  obtain ⟨s1, hfe, hobj, hdl, hfil, htest, hpipe, hx, hx2⟩ := feeds_mark mark root s cur hm ho hr
  simp only [ordered_append, Ordered] at ho
  have h2 := check_root s1 root (fun e => Point.lt_irrefl _ (e ▸ hdl)) hres ho.2.2.1
  rw [hfil, htest, hobj] at h2
  exact ⟨_, Feeds.append hfe (Feeds.cons h2 (Feeds.nil _)), by simp [useObj, JinjaObject.new, Use.info],
    ⟨Point.lt_trans hdl ho.2.2.1, Point.lt_of_le_of_lt hpipe ho.2.2.1, rfl⟩, rfl, hpipe, hx, hx2, Point.le_of_lt hdl, hfil⟩

theorem feeds_use (u : Use) (s : JinjaObjects) (cur : Point) (hok : (Elem.use u).Ok) (ho : Ordered cur u.toks)
    (hr : Ready s cur) :
    ∃ s', Feeds s u.caps s' ∧ s'.objects = s.objects ++ [useObj u] ∧ Ready s' (endOf cur u.toks) ∧
      s'.expr = s.expr ∧ s'.exprRange = s.exprRange := by
  obtain ⟨hm, hres, hf⟩ := hok
  obtain ⟨mark, root, fields⟩ := u
  have he : Use.toks ⟨mark, root, fields⟩ = (mark.toks ++ [root]) ++ fields.flatMap fun f => [f.1, f.2] := by simp [Use.toks]
  rw [he, ordered_append] at ho
  obtain ⟨s2, h1, h2, h3, _, _, h4, h5, _⟩ := feeds_root mark root s cur hm hres ho.1 hr
  have hend : endOf cur (mark.toks ++ [root]) = root.stop := by rw [endOf_append]; rfl
  rw [hend] at ho
  obtain ⟨s3, hf3, ho3, hr3, hx3, hy3⟩ := feeds_fields fields s2 root.stop _ s.objects h2 hf ho.2 h3
  refine ⟨s3, ?_, ?_, ?_, hx3.trans h4, hy3.trans h5⟩
  · have := Feeds.append h1 hf3
    simpa [Use.caps] using this
  · rw [ho3]; cases mark <;> simp [useObj, Use.info]
  · rw [he, endOf_append, hend]; exact hr3

theorem feeds_elems : ∀ (es : List Elem) (s : JinjaObjects) (cur : Point), (∀ e ∈ es, e.Ok) →
    Ordered cur (es.flatMap Elem.toks) → Ready s cur →
    ∃ s', Feeds s (es.flatMap Elem.caps) s' ∧
      s'.objects = s.objects ++ es.filterMap (fun | .use u => some (useObj u) | _ => none) ∧
      Ready s' (endOf cur (es.flatMap Elem.toks)) ∧ (s'.expr, s'.exprRange) = lastExpr (s.expr, s.exprRange) es
  | [], s, cur, _, _, hr => ⟨s, Feeds.nil s, by simp, hr, rfl⟩
  | e :: es, s, cur, hok, ho, hr => by
    rw [List.flatMap_cons, ordered_append] at ho
    have hok' : ∀ e ∈ es, e.Ok := fun x hx => hok x (by simp [hx])
    have hoke := hok e (by simp)
    cases e with
    | use u =>
      obtain ⟨s1, h1, h2, h3, h4, h5⟩ := feeds_use u s cur hoke ho.1 hr
      obtain ⟨s2, g1, g2, g3, g4⟩ := feeds_elems es s1 _ hok' ho.2 h3
      refine ⟨s2, Feeds.append h1 g1, ?_, ?_, ?_⟩
      · rw [g2, h2]; simp
      · rw [List.flatMap_cons, endOf_append]; exact g3
      · rw [g4, h4, h5]; rfl
    | op t =>
      have h1 : s.check (t.cap .pipe) = some (s, .newFilter) := by
        have : ¬ (t.text.head? = some '|') := hoke
        simp [check, Tok.cap, this]
      simp only [Elem.toks, Ordered] at ho
      have hc : cur ≤ t.stop := Point.le_trans ho.1.1 (Point.le_of_lt ho.1.2.1)
      obtain ⟨s2, g1, g2, g3, g4⟩ := feeds_elems es s t.stop hok' ho.2
        ⟨Point.lt_of_lt_of_le hr.dot hc, Point.lt_of_lt_of_le hr.pipe hc, hr.test⟩
      exact ⟨s2, Feeds.cons h1 g1, by rw [g2]; simp, g3, g4⟩
    | word t =>
      simp only [Elem.toks, Ordered] at ho
      have h1 := check_word s t (fun e => Point.lt_irrefl _ (Point.lt_of_lt_of_le hr.dot (e ▸ ho.1.1))) hoke
      have hc : cur ≤ t.stop := Point.le_trans ho.1.1 (Point.le_of_lt ho.1.2.1)
      obtain ⟨s2, g1, g2, g3, g4⟩ := feeds_elems es s t.stop hok' ho.2
        ⟨Point.lt_of_lt_of_le hr.dot hc, Point.lt_of_lt_of_le hr.pipe hc, hr.test⟩
      exact ⟨s2, Feeds.cons h1 g1, by rw [g2]; simp, g3, g4⟩
    | expr n a b f l =>
      obtain ⟨s2, g1, g2, g3, g4⟩ := feeds_elems es { s with expr := (a, b), exprRange := ⟨f, l⟩ } cur hok' ho.2
        ⟨hr.dot, hr.pipe, hr.test⟩
      exact ⟨s2, Feeds.cons (act := .expression) rfl g1, by rw [g2]; simp, g3, g4⟩

end JinjaObjects
end JinjaLsp
