import Verif.Lemmas.Expr
/- The expression analysis at a cursor: where the result comes from, absence of overflow, the object under the cursor. -/

namespace JinjaLsp
namespace JinjaObjects

/-! ### Provenance -/

/-- every part of the state comes from a capture -/
structure From (cs : List Capture) (s : JinjaObjects) : Prop where
  pipe : s.pipe = (Point.zero, Point.zero) ∨
    ∃ c ∈ cs, c.name = .pipe ∧ (∃ t, c.text = some t ∧ t.head? = some '|') ∧ s.pipe = (c.start, c.stop)
  test : s.testOn = true → ∃ c ∈ cs, c.name = .is ∧ s.test = (c.start, c.stop)
  expr : (s.expr = (Point.zero, Point.zero) ∧ s.exprRange = ExprRange.default) ∨
    ∃ c ∈ cs, c.name = .expr ∧ s.expr = (c.start, c.stop) ∧ s.exprRange = ⟨c.firstChild, c.lastChild⟩
  ident : s.ident = (Point.zero, Point.zero) ∨ ∃ c ∈ cs, c.name = .justId ∧ s.ident = (c.start, c.stop)
  objects : ∀ o ∈ s.objects, ∃ c ∈ cs, c.name = .justId ∧ c.text = some o.name ∧ o.location = (c.start, c.stop)
  fields : ∀ o ∈ s.objects, ∀ f ∈ o.fields, ∃ c ∈ cs, c.name = .justId ∧ c.text = some f.1 ∧ f.2 = (c.start, c.stop)

theorem from_default (cs : List Capture) : From cs JinjaObjects.default :=
  ⟨Or.inl rfl, (fun h => by cases h), Or.inl ⟨rfl, rfl⟩, Or.inl rfl, (fun o h => by cases h), (fun o h => by cases h)⟩

theorem from_push {cs : List Capture} {s : JinjaObjects} (h : From cs s) (c : Capture) (hc : c ∈ cs) (hn : c.name = .justId)
    (v : Str) (ht : c.text = some v) : From cs (s.pushObject v c.start c.stop).1 := by
  unfold pushObject
  split
  · exact h
  · refine ⟨h.pipe, (fun hh => by cases hh), h.expr, Or.inr ⟨c, hc, hn, rfl⟩, ?_, ?_⟩
    · intro o ho
      rcases List.mem_append.mp ho with ho | ho
      · exact h.objects o ho
      · cases List.mem_singleton.mp ho
        exact ⟨c, hc, hn, ht, rfl⟩
    · intro o ho f hf
      rcases List.mem_append.mp ho with ho | ho
      · exact h.fields o ho f hf
      · cases List.mem_singleton.mp ho
        cases hf

theorem from_check {cs : List Capture} {s s' : JinjaObjects} {a : ObjectAction} (h : From cs s) (c : Capture) (hc : c ∈ cs)
    (hk : s.check c = some (s', a)) : From cs s' := by
  unfold check at hk
  split at hk
  · cases hk
  · rename_i hn
    simp only [Option.some.injEq] at hk
    have : s' = (s.buildObject c).1 := by rw [hk]
    subst this
    unfold buildObject
    split
    · exact h
    · rename_i v hv
      split
      · split
        · rename_i last hl
          have hlm : last ∈ s.objects := List.mem_of_getLast? hl
          refine ⟨h.pipe, h.test, h.expr, Or.inr ⟨c, hc, hn, rfl⟩, ?_, ?_⟩
          · intro o ho
            rcases List.mem_append.mp ho with ho | ho
            · exact h.objects o (List.dropLast_subset _ ho)
            · cases List.mem_singleton.mp ho
              exact h.objects last hlm
          · intro o ho f hf
            rcases List.mem_append.mp ho with ho | ho
            · exact h.fields o (List.dropLast_subset _ ho) f hf
            · cases List.mem_singleton.mp ho
              rcases List.mem_append.mp hf with hf | hf
              · exact h.fields last hlm f hf
              · cases List.mem_singleton.mp hf
                exact ⟨c, hc, hn, hv, rfl⟩
        · exact from_push h c hc hn v hv
      · exact from_push h c hc hn v hv
  · simp only [Option.some.injEq, Prod.mk.injEq] at hk
    obtain ⟨rfl, _⟩ := hk
    exact ⟨h.pipe, h.test, h.expr, h.ident, h.objects, h.fields⟩
  · split at hk
    · cases hk
    · rename_i hn _ t ht
      simp only [Option.some.injEq, Prod.mk.injEq] at hk
      obtain ⟨rfl, _⟩ := hk
      split
      · rename_i hp
        exact ⟨Or.inr ⟨c, hc, hn, ⟨t, ht, hp⟩, rfl⟩, h.test, h.expr, h.ident, h.objects, h.fields⟩
      · exact h
  · rename_i hn
    simp only [Option.some.injEq, Prod.mk.injEq] at hk
    obtain ⟨rfl, _⟩ := hk
    exact ⟨h.pipe, fun _ => ⟨c, hc, hn, rfl⟩, h.expr, h.ident, h.objects, h.fields⟩
  · rename_i hn
    simp only [Option.some.injEq, Prod.mk.injEq] at hk
    obtain ⟨rfl, _⟩ := hk
    exact ⟨h.pipe, h.test, Or.inr ⟨c, hc, hn, rfl, rfl⟩, h.ident, h.objects, h.fields⟩
  · simp only [Option.some.injEq, Prod.mk.injEq] at hk
    obtain ⟨rfl, _⟩ := hk
    exact h

/-- the provenance of the saved expression -/
def FromExpr (cs : List Capture) (e : (Point × Point) × ExprRange) : Prop :=
  (e.1 = (Point.zero, Point.zero) ∧ e.2 = ExprRange.default) ∨
    ∃ c ∈ cs, c.name = .expr ∧ e.1 = (c.start, c.stop) ∧ e.2 = ⟨c.firstChild, c.lastChild⟩

/-- objects.rs:296-299: the object with the given index becomes the current one -/
def focus (o : JinjaObjects) (n : Nat) : JinjaObjects :=
  match o.objects[n]? with
  | some obj => { o with ident := obj.location, objects := o.objects.set n { obj with captureFirst := true } }
  | none => o

theorem objectsFinish_eq (prof : Profile) (o : JinjaObjects) (n : Nat) (e : (Point × Point) × ExprRange) :
    objectsFinish prof o n e =
      match usub prof (focus o n).objects.length 1 with
      | .error e => .error e
      | .ok l =>
        if n ≠ l then .ok { focus o n with objects := (focus o n).objects.dropLast, expr := e.1, exprRange := e.2 }
        else .ok (focus o n) := rfl

theorem from_focus {cs : List Capture} {o : JinjaObjects} (h : From cs o) (n : Nat) : From cs (focus o n) := by
  unfold focus
  split
  · rename_i obj hobj
    have hm : obj ∈ o.objects := List.mem_of_getElem? hobj
    refine ⟨h.pipe, h.test, h.expr, ?_, ?_, ?_⟩
    · obtain ⟨c, hc, hn, _, hl⟩ := h.objects obj hm
      exact Or.inr ⟨c, hc, hn, hl⟩
    · intro x hx
      rcases List.mem_or_eq_of_mem_set hx with hx | rfl
      · exact h.objects x hx
      · exact h.objects obj hm
    · intro x hx
      rcases List.mem_or_eq_of_mem_set hx with hx | rfl
      · exact h.fields x hx
      · exact h.fields obj hm
  · exact h

theorem from_finish {cs : List Capture} {prof : Profile} {o r : JinjaObjects} {n : Nat} {e : (Point × Point) × ExprRange}
    (h : From cs o) (he : FromExpr cs e) (hr : objectsFinish prof o n e = .ok r) : From cs r := by
  rw [objectsFinish_eq] at hr
  have h1 := from_focus h n
  split at hr
  · cases hr
  · split at hr
    · injection hr with hr; subst hr
      exact ⟨h1.pipe, h1.test, he, h1.ident, fun x hx => h1.objects x (List.dropLast_subset _ hx),
        fun x hx => h1.fields x (List.dropLast_subset _ hx)⟩
    · injection hr with hr; subst hr; exact h1

theorem from_loop (all0 : List Capture) (prof : Profile) (p : Point) (all : Bool) :
    ∀ (cs : List Capture) (st : ObjLoop) (r : JinjaObjects), (∀ c ∈ cs, c ∈ all0) → From all0 st.objects →
      FromExpr all0 st.myExpr → objectsLoop prof p all st cs = .ok r → From all0 r
  | [], st, r, _, h, _, hr => by
    simp only [objectsLoop] at hr
    injection hr with hr; subst hr; exact h
  | c :: cs, st, r, hs, h, he, hr => by
    have hc : c ∈ all0 := hs c (by simp)
    have hs' : ∀ c ∈ cs, c ∈ all0 := fun x hx => hs x (by simp [hx])
    simp only [objectsLoop] at hr
    split at hr
    · cases hk : st.objects.check c with
      | none => rw [hk] at hr; injection hr with hr; subst hr; exact h
      | some x =>
        obtain ⟨o, a⟩ := x
        rw [hk] at hr
        exact from_loop all0 prof p all cs { st with objects := o } r hs' (from_check h c hc hk) he hr
    · split at hr
      · split at hr
        · injection hr with hr; subst hr; exact h
        · split at hr
          · split at hr
            · split at hr
              · cases hr
              · rename_i k _
                exact from_loop all0 prof p all cs
                  { st with continued := true, myId := k, myExpr := (st.objects.expr, st.objects.exprRange) } r hs' h h.expr hr
            · injection hr with hr; subst hr; exact h
          · cases hk : st.objects.check c with
            | none => rw [hk] at hr; injection hr with hr; subst hr; exact h
            | some x =>
              obtain ⟨o, a⟩ := x
              rw [hk] at hr
              have ho := from_check h c hc hk
              cases a with
              | expression => exact from_finish ho he hr
              | newObject => exact from_finish ho he hr
              | invalid => exact from_finish ho he hr
              | newField => exact from_loop all0 prof p all cs { st with objects := o } r hs' ho he hr
              | newFilter => exact from_loop all0 prof p all cs { st with objects := o } r hs' ho he hr
              | newTest => exact from_loop all0 prof p all cs { st with objects := o } r hs' ho he hr
      · exact from_loop all0 prof p all cs _ r hs' h he hr

/-- the result of the analysis comes from the captures -/
theorem from_query {env : Env} {tree : Tree} {p : Point} {text : Str} {all : Bool} {s : JinjaObjects}
    (h : objectsQuery env tree p text all = .ok s) : From (env.queryMatches .jinjaObjects tree text).flatten s :=
  from_loop _ _ _ _ _ _ _ (fun _ h => h) (from_default _) (Or.inl ⟨rfl, rfl⟩) h

/-! ### No overflow -/

/-- a `|` capture at the very beginning of the document -/
def PipeAtOrigin (cs : List Capture) : Prop :=
  ∃ c ∈ cs, c.name = .pipe ∧ (∃ t, c.text = some t ∧ t.head? = some '|') ∧ c.start = Point.zero

theorem check_objects {s s' : JinjaObjects} {a : ObjectAction} (c : Capture) (hk : s.check c = some (s', a)) :
    (s'.objects = [] → s.objects = [] ∧ s'.ident = s.ident ∧
      (s'.pipe = s.pipe ∨ (c.name = .pipe ∧ (∃ t, c.text = some t ∧ t.head? = some '|') ∧ s'.pipe = (c.start, c.stop)))) := by
  intro hobj
  unfold check at hk
  split at hk
  · cases hk
  · simp only [Option.some.injEq] at hk
    have : s' = (s.buildObject c).1 := by rw [hk]
    subst this
    unfold buildObject pushObject at hobj ⊢
    split at hobj
    · rename_i hv; simp only [hv]; exact ⟨hobj, trivial, Or.inl trivial⟩
    · rename_i v hv
      simp only at hobj ⊢
      split at hobj
      · rename_i hd
        simp only [hd, and_self, if_true]
        split at hobj
        · simp at hobj
        · rename_i hl
          split at hobj
          · rename_i hr; simp only [hr, if_true]; exact ⟨hobj, trivial, Or.inl trivial⟩
          · simp at hobj
      · rename_i hd
        simp only [hd, if_false]
        split at hobj
        · rename_i hr; simp only [hr, if_true]; exact ⟨hobj, trivial, Or.inl trivial⟩
        · simp at hobj
  · simp only [Option.some.injEq, Prod.mk.injEq] at hk
    obtain ⟨rfl, _⟩ := hk
    exact ⟨hobj, rfl, Or.inl rfl⟩
  · split at hk
    · cases hk
    · rename_i hn _ t ht
      simp only [Option.some.injEq, Prod.mk.injEq] at hk
      obtain ⟨rfl, _⟩ := hk
      split
      · rename_i hp
        simp only [hp, if_true] at hobj
        exact ⟨hobj, rfl, Or.inr ⟨hn, ⟨t, ht, hp⟩, rfl⟩⟩
      · rename_i hp
        simp only [hp, if_false] at hobj
        exact ⟨hobj, rfl, Or.inl rfl⟩
  · simp only [Option.some.injEq, Prod.mk.injEq] at hk
    obtain ⟨rfl, _⟩ := hk
    exact ⟨hobj, rfl, Or.inl rfl⟩
  · simp only [Option.some.injEq, Prod.mk.injEq] at hk
    obtain ⟨rfl, _⟩ := hk
    exact ⟨hobj, rfl, Or.inl rfl⟩
  · simp only [Option.some.injEq, Prod.mk.injEq] at hk
    obtain ⟨rfl, _⟩ := hk
    exact ⟨hobj, rfl, Or.inl rfl⟩

/-- while no object was found the cursor is not at the origin after a pipe -/
structure Safe (p : Point) (st : ObjLoop) : Prop where
  ident : st.objects.objects = [] → st.objects.ident = (Point.zero, Point.zero)
  pipe : st.objects.objects = [] → st.objects.pipe.2 = Point.zero ∨ p ≠ Point.zero
  cont : st.objects.objects = [] → st.continued = false

theorem usub_ok (prof : Profile) {a b : Nat} (h : b ≤ a) : usub prof a b = .ok (a - b) := by simp [usub, h]

theorem hover_empty {s : JinjaObjects} {p : Point} (ho : s.objects = []) (hi : s.ident = (Point.zero, Point.zero))
    (hh : s.isHover p = true) : p = Point.zero := by
  have hz : toPoint Range.zero.start = Point.zero ∧ toPoint Range.zero.stop = Point.zero := ⟨rfl, rfl⟩
  simp only [isHover, hi, fullRange, ho, List.getLast?_nil, toRange2, hz, Bool.or_eq_true, Bool.and_eq_true,
    decide_eq_true_eq] at hh
  rcases hh with hh | hh
  · exact Point.le_antisymm hh.2 hh.1
  · exact Point.le_antisymm hh.2 hh.1

theorem finish_ok (prof : Profile) (o : JinjaObjects) (n : Nat) (e : (Point × Point) × ExprRange) (h : o.objects ≠ []) :
    ∃ r, objectsFinish prof o n e = .ok r := by
  have hl : 1 ≤ o.objects.length := by
    rcases hh : o.objects with _ | ⟨a, b⟩
    · exact absurd hh h
    · simp
  rw [objectsFinish_eq]
  have hl' : 1 ≤ (focus o n).objects.length := by
    unfold focus
    split
    · simpa using hl
    · exact hl
  simp only [usub_ok prof hl']
  split <;> exact ⟨_, rfl⟩

theorem check_ne_nil {s s' : JinjaObjects} {a : ObjectAction} (c : Capture) (hk : s.check c = some (s', a)) (h : s.objects ≠ []) :
    s'.objects ≠ [] := fun hh => h (check_objects c hk hh).1

theorem safe_loop (prof : Profile) (p : Point) (all : Bool) :
    ∀ (cs : List Capture) (st : ObjLoop), ¬ PipeAtOrigin cs → Safe p st → all = false → ∃ r, objectsLoop prof p all st cs = .ok r
  | [], st, _, _, _ => ⟨_, rfl⟩
  | c :: cs, st, hp, hsafe, hall => by
    have hp' : ¬ PipeAtOrigin cs := fun ⟨x, hx, h⟩ => hp ⟨x, by simp [hx], h⟩
    subst hall
    simp only [objectsLoop, Bool.false_or]
    split
    · rename_i hle
      simp only [decide_eq_true_eq] at hle
      cases hk : st.objects.check c with
      | none => exact ⟨_, rfl⟩
      | some x =>
        obtain ⟨o, a⟩ := x
        have hco := check_objects c hk
        refine safe_loop prof p false cs _ hp' ⟨?_, ?_, ?_⟩ rfl
        · intro ho; rw [(hco ho).2.1]; exact hsafe.ident (hco ho).1
        · intro ho
          rcases (hco ho).2.2 with h | ⟨hn, ht, h⟩
          · simp only [h]; exact hsafe.pipe (hco ho).1
          · refine Or.inr ?_
            intro hz
            rw [hz] at hle
            exact hp ⟨c, by simp, hn, ht, Point.le_antisymm hle (Point.zero_le _)⟩
        · intro ho; exact hsafe.cont (hco ho).1
    · split
      · split
        · exact ⟨_, rfl⟩
        · rename_i hfil
          split
          · split
            · rename_i hhov
              have hne : st.objects.objects ≠ [] := by
                intro ho
                have hz := hover_empty ho (hsafe.ident ho) hhov
                rcases hsafe.pipe ho with h | h
                · apply hfil
                  simp [isFilter, h, hsafe.ident ho]
                · exact h hz
              have hl : 1 ≤ st.objects.objects.length := by
                rcases hh : st.objects.objects with _ | ⟨a, b⟩
                · exact absurd hh hne
                · simp
              simp only [usub_ok prof hl]
              exact safe_loop prof p false cs _ hp' ⟨fun h => absurd h hne, fun h => absurd h hne, fun h => absurd h hne⟩ rfl
            · exact ⟨_, rfl⟩
          · rename_i hcont
            have hne : st.objects.objects ≠ [] := fun ho => by
              have := hsafe.cont ho
              simp [this] at hcont
            cases hk : st.objects.check c with
            | none => exact ⟨_, rfl⟩
            | some x =>
              obtain ⟨o, a⟩ := x
              have hno := check_ne_nil c hk hne
              have hrec : ∃ r, objectsLoop prof p false { st with objects := o } cs = .ok r :=
                safe_loop prof p false cs _ hp' ⟨fun h => absurd h hno, fun h => absurd h hno, fun h => absurd h hno⟩ rfl
              cases a with
              | expression => exact finish_ok prof o _ _ hno
              | newObject => exact finish_ok prof o _ _ hno
              | invalid => exact finish_ok prof o _ _ hno
              | newField => exact hrec
              | newFilter => exact hrec
              | newTest => exact hrec
      · exact safe_loop prof p false cs _ hp' hsafe rfl

theorem query_ok (env : Env) (tree : Tree) (p : Point) (text : Str) (all : Bool)
    (h : ¬ PipeAtOrigin (env.queryMatches .jinjaObjects tree text).flatten) : ∃ s, objectsQuery env tree p text all = .ok s := by
  unfold objectsQuery
  cases all with
  | true => exact ⟨_, objectsLoop_all _ _ _ _⟩
  | false =>
    exact safe_loop _ _ _ _ _ h ⟨fun _ => rfl, fun _ => Or.inl rfl, fun _ => rfl⟩ rfl

/-! ### The object under the cursor -/

/-- `r` still has `o` as its last object, up to attributes, and nothing was found at or before the cursor since -/
structure Kept (p : Point) (os : List JinjaObject) (o : JinjaObject) (s r : JinjaObjects) : Prop where
  objects : ∃ o', r.objects = os ++ [o'] ∧ o'.name = o.name ∧ o'.location = o.location ∧ o'.isFilter = o.isFilter ∧
    o'.isTest = o.isTest
  ident : r.ident = o.location
  expr : r.expr = s.expr
  exprRange : r.exprRange = s.exprRange
  pipe : r.pipe = s.pipe ∨ p < r.pipe.1

theorem kept_focus {p : Point} {os : List JinjaObject} {o o' : JinjaObject} {s t : JinjaObjects} {rest : List JinjaObject}
    (ho : t.objects = os ++ o' :: rest) (hr : rest.length ≤ 1)
    (h1 : o'.name = o.name) (h2 : o'.location = o.location) (h3 : o'.isFilter = o.isFilter) (h4 : o'.isTest = o.isTest)
    (he : t.expr = s.expr) (hx : t.exprRange = s.exprRange) (hp : t.pipe = s.pipe ∨ p < t.pipe.1) (prof : Profile) :
    ∃ r, objectsFinish prof t os.length (s.expr, s.exprRange) = .ok r ∧ Kept p os o s r := by
  have hf : focus t os.length = { t with ident := o.location, objects := os ++ { o' with captureFirst := true } :: rest } := by
    have hg : t.objects[os.length]? = some o' := by simp [ho]
    simp only [focus, hg, h2]
    simp [ho]
  rw [objectsFinish_eq, hf]
  rcases rest with _ | ⟨x, _ | ⟨y, r⟩⟩
  · simp only [List.length_append, List.length_cons, List.length_nil, usub_ok prof (Nat.le_add_left 1 os.length)]
    simp only [Nat.add_sub_cancel, ne_eq, not_true, if_false]
    exact ⟨_, rfl, ⟨⟨_, rfl, h1, h2, h3, h4⟩, rfl, he, hx, hp⟩⟩
  · have : usub prof (os ++ { o' with captureFirst := true } :: [x]).length 1 = .ok (os.length + 1) := by
      rw [usub_ok prof (by simp)]; simp
    simp only [this]
    have hne : os.length ≠ os.length + 1 := by omega
    simp only [ne_eq, hne, not_false_eq_true, if_true]
    refine ⟨_, rfl, ⟨⟨{ o' with captureFirst := true }, ?_, h1, h2, h3, h4⟩, rfl, rfl, rfl, hp⟩⟩
    show (os ++ { o' with captureFirst := true } :: [x]).dropLast = _
    rw [List.dropLast_append_of_ne_nil (by simp)]
    rfl
  · simp at hr

/-- what a capture does to the last object and the markers -/
theorem check_last {s t : JinjaObjects} {a : ObjectAction} {os : List JinjaObject} {o : JinjaObject} (c : Capture)
    (ho : s.objects = os ++ [o]) (hk : s.check c = some (t, a)) (hn : c.name ≠ .expr) :
    (∃ o' rest, t.objects = os ++ o' :: rest ∧ rest.length ≤ 1 ∧ o'.name = o.name ∧ o'.location = o.location ∧
      o'.isFilter = o.isFilter ∧ o'.isTest = o.isTest ∧
      ((a ≠ .newObject ∧ a ≠ .invalid) → rest = [] ∧ t.ident = s.ident)) ∧
    t.expr = s.expr ∧ t.exprRange = s.exprRange ∧ (t.pipe = s.pipe ∨ t.pipe = (c.start, c.stop)) ∧ a ≠ .expression := by
  have push : ∀ v, (∃ o' rest, (s.pushObject v c.start c.stop).1.objects = os ++ o' :: rest ∧ rest.length ≤ 1 ∧
      o'.name = o.name ∧ o'.location = o.location ∧ o'.isFilter = o.isFilter ∧ o'.isTest = o.isTest ∧
      (((s.pushObject v c.start c.stop).2 ≠ .newObject ∧ (s.pushObject v c.start c.stop).2 ≠ .invalid) →
        rest = [] ∧ (s.pushObject v c.start c.stop).1.ident = s.ident)) ∧
      (s.pushObject v c.start c.stop).1.expr = s.expr ∧ (s.pushObject v c.start c.stop).1.exprRange = s.exprRange ∧
      ((s.pushObject v c.start c.stop).1.pipe = s.pipe ∨ (s.pushObject v c.start c.stop).1.pipe = (c.start, c.stop)) ∧
      (s.pushObject v c.start c.stop).2 ≠ .expression := by
    intro v
    unfold pushObject
    split
    · exact ⟨⟨o, [], ho, by simp, rfl, rfl, rfl, rfl, fun h => ⟨rfl, rfl⟩⟩, rfl, rfl, Or.inl rfl, by simp⟩
    · exact ⟨⟨o, [_], by simp [ho]; rfl, by simp, rfl, rfl, rfl, rfl, fun h => absurd rfl h.1⟩, rfl, rfl, Or.inl rfl, by simp⟩
  unfold check at hk
  split at hk
  · cases hk
  · simp only [Option.some.injEq] at hk
    have h1 : t = (s.buildObject c).1 := by rw [hk]
    have h2 : a = (s.buildObject c).2 := by rw [hk]
    subst h1; subst h2
    unfold buildObject
    split
    · exact ⟨⟨o, [], ho, by simp, rfl, rfl, rfl, rfl, fun h => ⟨rfl, rfl⟩⟩, rfl, rfl, Or.inl rfl, by simp⟩
    · rename_i v hv
      split
      · have hl : s.objects.getLast? = some o := by simp [ho]
        simp only [hl]
        refine ⟨⟨{ o with fields := o.fields ++ [(v, (c.start, c.stop))] }, [], by simp [ho], by simp, rfl, rfl, rfl, rfl,
          fun h => absurd rfl h.2⟩, trivial, trivial, Or.inl trivial, by simp⟩
      · exact push v
  · simp only [Option.some.injEq, Prod.mk.injEq] at hk
    obtain ⟨rfl, rfl⟩ := hk
    exact ⟨⟨o, [], ho, by simp, rfl, rfl, rfl, rfl, fun h => ⟨rfl, rfl⟩⟩, rfl, rfl, Or.inl rfl, by simp⟩
  · split at hk
    · cases hk
    · simp only [Option.some.injEq, Prod.mk.injEq] at hk
      obtain ⟨rfl, rfl⟩ := hk
      split
      · exact ⟨⟨o, [], ho, by simp, rfl, rfl, rfl, rfl, fun h => ⟨rfl, rfl⟩⟩, rfl, rfl, Or.inr rfl, by simp⟩
      · exact ⟨⟨o, [], ho, by simp, rfl, rfl, rfl, rfl, fun h => ⟨rfl, rfl⟩⟩, rfl, rfl, Or.inl rfl, by simp⟩
  · simp only [Option.some.injEq, Prod.mk.injEq] at hk
    obtain ⟨rfl, rfl⟩ := hk
    exact ⟨⟨o, [], ho, by simp, rfl, rfl, rfl, rfl, fun h => ⟨rfl, rfl⟩⟩, rfl, rfl, Or.inl rfl, by simp⟩
  · rename_i hh; exact absurd hh hn
  · simp only [Option.some.injEq, Prod.mk.injEq] at hk
    obtain ⟨rfl, rfl⟩ := hk
    exact ⟨⟨o, [], ho, by simp, rfl, rfl, rfl, rfl, fun h => ⟨rfl, rfl⟩⟩, rfl, rfl, Or.inl rfl, by simp⟩

theorem loop_continued (prof : Profile) (p : Point) (os : List JinjaObject) (o : JinjaObject) (s : JinjaObjects) :
    ∀ (cs : List Capture) (t : JinjaObjects), (∀ c ∈ cs, p < c.start) → Kept p os o s t →
      ∃ r, objectsLoop prof p false ⟨t, true, os.length, (s.expr, s.exprRange)⟩ cs = .ok r ∧ Kept p os o s r
  | [], t, _, hk => ⟨t, rfl, hk⟩
  | c :: cs, t, hc, hk => by
    have hlt : p < c.start := hc c (by simp)
    have h1 : ¬ c.start ≤ p := fun h => Point.lt_irrefl _ (Point.lt_of_lt_of_le hlt h)
    have h2 : p ≤ c.start := Point.le_of_lt hlt
    simp only [objectsLoop, Bool.false_or, h1, decide_false, Bool.false_eq_true, if_false, h2, decide_true, if_true,
      Bool.not_true]
    split
    · exact ⟨t, rfl, hk⟩
    · rename_i hne
      have hn : c.name ≠ .expr := by
        intro h; apply hne; simp [h]
      cases hch : t.check c with
      | none => exact ⟨t, rfl, hk⟩
      | some x =>
        obtain ⟨u, a⟩ := x
        obtain ⟨o1, ho1, g1, g2, g3, g4⟩ := hk.objects
        obtain ⟨⟨o', rest, k1, k2, k3, k4, k5, k6, k7⟩, e1, e2, e3, e4⟩ := check_last c ho1 hch hn
        have hpipe : u.pipe = s.pipe ∨ p < u.pipe.1 := by
          rcases e3 with e | e
          · rw [e]; exact hk.pipe
          · rw [e]; exact Or.inr hlt
        have fin : ∃ r, objectsFinish prof u os.length (s.expr, s.exprRange) = .ok r ∧ Kept p os o s r :=
          kept_focus k1 k2 (k3.trans g1) (k4.trans g2) (k5.trans g3) (k6.trans g4) (e1.trans hk.expr) (e2.trans hk.exprRange) hpipe prof
        have rec' : (a ≠ .newObject ∧ a ≠ .invalid) → ∃ r, objectsLoop prof p false ⟨u, true, os.length, (s.expr, s.exprRange)⟩ cs = .ok r ∧
            Kept p os o s r := by
          intro ha
          obtain ⟨hrest, hid⟩ := k7 ha
          subst hrest
          exact loop_continued prof p os o s cs u (fun x hx => hc x (by simp [hx]))
            ⟨⟨o', k1, k3.trans g1, k4.trans g2, k5.trans g3, k6.trans g4⟩, hid.trans hk.ident, e1.trans hk.expr,
              e2.trans hk.exprRange, hpipe⟩
        cases a with
        | expression => exact absurd rfl e4
        | newObject => exact fin
        | invalid => exact fin
        | newField => exact rec' ⟨by simp, by simp⟩
        | newFilter => exact rec' ⟨by simp, by simp⟩
        | newTest => exact rec' ⟨by simp, by simp⟩

/-- the captures after the cursor do not change what was found under it -/
theorem loop_after (prof : Profile) (p : Point) (os : List JinjaObject) (o : JinjaObject) (s : JinjaObjects) (n : Nat)
    (x : (Point × Point) × ExprRange) (ho : s.objects = os ++ [o]) (hi : s.ident = o.location) (hh : s.isHover p = true) :
    ∀ (cs : List Capture), (∀ c ∈ cs, p < c.start) → ∃ r, objectsLoop prof p false ⟨s, false, n, x⟩ cs = .ok r ∧ Kept p os o s r
  | [], _ => ⟨s, rfl, ⟨⟨o, ho, rfl, rfl, rfl, rfl⟩, hi, rfl, rfl, Or.inl rfl⟩⟩
  | c :: cs, hc => by
    have hk : Kept p os o s s := ⟨⟨o, ho, rfl, rfl, rfl, rfl⟩, hi, rfl, rfl, Or.inl rfl⟩
    have hlt : p < c.start := hc c (by simp)
    have h1 : ¬ c.start ≤ p := fun h => Point.lt_irrefl _ (Point.lt_of_lt_of_le hlt h)
    have h2 : p ≤ c.start := Point.le_of_lt hlt
    simp only [objectsLoop, Bool.false_or, h1, decide_false, Bool.false_eq_true, if_false, h2, decide_true, if_true,
      Bool.not_false, hh]
    split
    · exact ⟨s, rfl, hk⟩
    · have : usub prof s.objects.length 1 = .ok os.length := by
        rw [ho, usub_ok prof (by simp)]; simp
      simp only [this]
      exact loop_continued prof p os o s cs s (fun x hx => hc x (by simp [hx])) hk

/-- the captures up to the cursor -/
theorem loop_before (prof : Profile) (p : Point) (all : Bool) (more : List Capture) :
    ∀ (cs : List Capture) (st : ObjLoop) (s' : JinjaObjects), (∀ c ∈ cs, c.start ≤ p) → Feeds st.objects cs s' →
      objectsLoop prof p all st (cs ++ more) = objectsLoop prof p all { st with objects := s' } more
  | [], st, s', _, h => by injection h with h; subst h; rfl
  | c :: cs, st, s', hc, h => by
    have h1 : c.start ≤ p := hc c (by simp)
    simp only [List.cons_append, objectsLoop, h1, decide_true, Bool.or_true, if_true]
    unfold Feeds steps at h
    cases hk : st.objects.check c with
    | none => rw [hk] at h; cases h
    | some x =>
      rw [hk] at h
      exact loop_before prof p all more cs { st with objects := x.1 } s' (fun y hy => hc y (by simp [hy])) h

end JinjaObjects
end JinjaLsp
