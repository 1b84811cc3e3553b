import Verif.Lemmas.Objects
/- The expression analysis with the cursor beside all names. -/

namespace JinjaLsp
namespace JinjaObjects

/-- a pipe -/
def IsBar (c : Capture) : Prop := c.name = .pipe ∧ ∃ t, c.text = some t ∧ t.head? = some '|'

instance (c : Capture) : Decidable (IsBar c) := by
  unfold IsBar
  cases h : c.text with
  | none => exact isFalse (by rintro ⟨_, _, h, _⟩; cases h)
  | some t =>
    by_cases h1 : c.name = .pipe ∧ t.head? = some '|'
    · exact isTrue ⟨h1.1, t, rfl, h1.2⟩
    · exact isFalse (by rintro ⟨a, _, h, b⟩; cases h; exact h1 ⟨a, b⟩)

theorem feeds_cons_inv {s t : JinjaObjects} {c : Capture} {cs : List Capture} (h : Feeds s (c :: cs) t) :
    ∃ u a, s.check c = some (u, a) ∧ Feeds u cs t := by
  unfold Feeds steps at h
  cases hk : s.check c with
  | none => rw [hk] at h; cases h
  | some x => rw [hk] at h; exact ⟨x.1, x.2, rfl, h⟩

theorem check_some {s : JinjaObjects} {c : Capture} (h1 : c.name ≠ .error) (h2 : c.name = .pipe → c.text ≠ none) : s.check c ≠ none := by
  unfold check
  split
  · rename_i h; exact absurd h h1
  · simp
  · simp
  · rename_i h
    split
    · rename_i ht; exact absurd ht (h2 h)
    · simp
  · simp
  · simp
  · simp

theorem feeds_exists : ∀ (cs : List Capture) (s : JinjaObjects), (∀ c ∈ cs, c.name ≠ .error ∧ (c.name = .pipe → c.text ≠ none)) →
    ∃ t, Feeds s cs t
  | [], s, _ => ⟨s, rfl⟩
  | c :: cs, s, h => by
    have hc := h c List.mem_cons_self
    obtain ⟨x, hx⟩ := Option.ne_none_iff_exists'.mp (check_some (s := s) hc.1 hc.2)
    obtain ⟨t, ht⟩ := feeds_exists cs x.1 fun d hd => h d (List.mem_cons_of_mem _ hd)
    exact ⟨t, Feeds.cons (t := x.1) (act := x.2) hx ht⟩

theorem from_feeds {all : List Capture} : ∀ (cs : List Capture) (s t : JinjaObjects), (∀ c ∈ cs, c ∈ all) → From all s → Feeds s cs t →
    From all t
  | [], s, t, _, hf, h => by injection h with h; subst h; exact hf
  | c :: cs, s, t, hc, hf, h => by
    obtain ⟨u, a, h1, h2⟩ := feeds_cons_inv h
    exact from_feeds cs u t (fun d hd => hc d (List.mem_cons_of_mem _ hd)) (from_check hf c (hc c List.mem_cons_self) h1) h2

/-- what a capture does to the pipe, the expression and the test -/
theorem check_marks {s t : JinjaObjects} {a : ObjectAction} {c : Capture} (h : s.check c = some (t, a)) :
    (if IsBar c then t.pipe = (c.start, c.stop) else t.pipe = s.pipe) ∧
    (if c.name = .expr then t.expr = (c.start, c.stop) ∧ t.exprRange = ⟨c.firstChild, c.lastChild⟩
      else t.expr = s.expr ∧ t.exprRange = s.exprRange) ∧
    (c.name = .is → t.testOn = true ∧ t.test = (c.start, c.stop)) ∧
    (c.name ≠ .is → t.test = s.test ∧ ((c.name = .justId → ∀ v, c.text = some v → v ∈ validIdentifiers) → t.testOn = s.testOn)) := by
  have push : ∀ v, (s.pushObject v c.start c.stop).1.pipe = s.pipe ∧ (s.pushObject v c.start c.stop).1.expr = s.expr ∧
      (s.pushObject v c.start c.stop).1.exprRange = s.exprRange ∧ (s.pushObject v c.start c.stop).1.test = s.test ∧
      (v ∈ validIdentifiers → (s.pushObject v c.start c.stop).1.testOn = s.testOn) := by
    intro v
    unfold pushObject
    split
    · exact ⟨rfl, rfl, rfl, rfl, fun _ => rfl⟩
    · rename_i hv; exact ⟨rfl, rfl, rfl, rfl, fun h => absurd h hv⟩
  unfold check at h
  split at h
  · cases h
  · rename_i hn
    simp only [Option.some.injEq] at h
    have ht : t = (s.buildObject c).1 := by rw [h]
    subst ht
    have hb : ¬ IsBar c := fun hb => by rw [hb.1] at hn; cases hn
    simp only [hb, if_false, hn]
    unfold buildObject
    split
    · simp
    · rename_i v hv
      split
      · split
        · simp
        · have := push v
          simp_all
      · have := push v
        simp_all
  · rename_i hn
    simp only [Option.some.injEq, Prod.mk.injEq] at h
    obtain ⟨rfl, rfl⟩ := h
    have hb : ¬ IsBar c := fun hb => by rw [hb.1] at hn; cases hn
    simp [hb, hn]
  · rename_i hn
    split at h
    · cases h
    · rename_i v hv
      simp only [Option.some.injEq, Prod.mk.injEq] at h
      obtain ⟨rfl, rfl⟩ := h
      by_cases hh : v.head? = some '|'
      · have hb : IsBar c := ⟨hn, v, hv, hh⟩
        simp [hb, hn, hh]
      · have hb : ¬ IsBar c := by
          rintro ⟨_, v', hv', hh'⟩
          rw [hv] at hv'
          cases hv'
          exact hh hh'
        simp [hb, hn, hh]
  · rename_i hn
    simp only [Option.some.injEq, Prod.mk.injEq] at h
    obtain ⟨rfl, rfl⟩ := h
    have hb : ¬ IsBar c := fun hb => by rw [hb.1] at hn; cases hn
    simp [hb, hn]
  · rename_i hn
    simp only [Option.some.injEq, Prod.mk.injEq] at h
    obtain ⟨rfl, rfl⟩ := h
    have hb : ¬ IsBar c := fun hb => by rw [hb.1] at hn; cases hn
    simp [hb, hn]
  · rename_i h1 h2 h3 h4 h5 h6
    simp only [Option.some.injEq, Prod.mk.injEq] at h
    obtain ⟨rfl, rfl⟩ := h
    have hb : ¬ IsBar c := fun hb => h4 hb.1
    have he : c.name ≠ .expr := fun h => h6 h
    have hi : c.name ≠ .is := fun h => h5 h
    simp [hb, he, hi]

/-- the pipe is the last one, or the one before -/
theorem feeds_pipe : ∀ (cs : List Capture) (s t : JinjaObjects), Feeds s cs t →
    (t.pipe = s.pipe ∧ ∀ c ∈ cs, ¬ IsBar c) ∨ ∃ a c b, cs = a ++ c :: b ∧ IsBar c ∧ (∀ x ∈ b, ¬ IsBar x) ∧ t.pipe = (c.start, c.stop)
  | [], s, t, h => by injection h with h; subst h; exact Or.inl ⟨rfl, fun _ h => by cases h⟩
  | c :: cs, s, t, h => by
    obtain ⟨u, a, h1, h2⟩ := feeds_cons_inv h
    have hm := (check_marks h1).1
    rcases feeds_pipe cs u t h2 with ⟨e, hn⟩ | ⟨a, x, b, rfl, h3, h4, h5⟩
    · by_cases hb : IsBar c
      · rw [if_pos hb] at hm
        exact Or.inr ⟨[], c, cs, rfl, hb, hn, e.trans hm⟩
      · rw [if_neg hb] at hm
        refine Or.inl ⟨e.trans hm, fun x hx => ?_⟩
        rcases List.mem_cons.mp hx with rfl | hx
        · exact hb
        · exact hn x hx
    · exact Or.inr ⟨c :: a, x, b, rfl, h3, h4, h5⟩

/-- the expression is the last one, or the one before -/
theorem feeds_expr : ∀ (cs : List Capture) (s t : JinjaObjects), Feeds s cs t →
    (t.expr = s.expr ∧ t.exprRange = s.exprRange ∧ ∀ c ∈ cs, c.name ≠ .expr) ∨
    ∃ a c b, cs = a ++ c :: b ∧ c.name = .expr ∧ (∀ x ∈ b, x.name ≠ .expr) ∧ t.expr = (c.start, c.stop) ∧
      t.exprRange = ⟨c.firstChild, c.lastChild⟩
  | [], s, t, h => by injection h with h; subst h; exact Or.inl ⟨rfl, rfl, fun _ h => by cases h⟩
  | c :: cs, s, t, h => by
    obtain ⟨u, a, h1, h2⟩ := feeds_cons_inv h
    have hm := (check_marks h1).2.1
    rcases feeds_expr cs u t h2 with ⟨e, e', hn⟩ | ⟨a, x, b, rfl, h3, h4, h5⟩
    · by_cases hb : c.name = .expr
      · rw [if_pos hb] at hm
        exact Or.inr ⟨[], c, cs, rfl, hb, hn, e.trans hm.1, e'.trans hm.2⟩
      · rw [if_neg hb] at hm
        refine Or.inl ⟨e.trans hm.1, e'.trans hm.2, fun x hx => ?_⟩
        rcases List.mem_cons.mp hx with rfl | hx
        · exact hb
        · exact hn x hx
    · exact Or.inr ⟨c :: a, x, b, rfl, h3, h4, h5⟩

/-- reserved words do not end a test -/
theorem feeds_test : ∀ (cs : List Capture) (s t : JinjaObjects), Feeds s cs t →
    (∀ c ∈ cs, c.name = .justId → ∀ v, c.text = some v → v ∈ validIdentifiers) →
    (t.testOn = s.testOn ∧ t.test = s.test ∧ ∀ c ∈ cs, c.name ≠ .is) ∨
    ∃ c ∈ cs, c.name = .is ∧ t.testOn = true ∧ t.test = (c.start, c.stop)
  | [], s, t, h, _ => by injection h with h; subst h; exact Or.inl ⟨rfl, rfl, fun _ h => by cases h⟩
  | c :: cs, s, t, h, hr => by
    obtain ⟨u, a, h1, h2⟩ := feeds_cons_inv h
    obtain ⟨_, _, hm1, hm2⟩ := check_marks h1
    rcases feeds_test cs u t h2 (fun x hx => hr x (List.mem_cons_of_mem _ hx)) with ⟨e, e', hn⟩ | ⟨x, hx, h3⟩
    · by_cases hb : c.name = .is
      · obtain ⟨k1, k2⟩ := hm1 hb
        exact Or.inr ⟨c, List.mem_cons_self, hb, e.trans k1, e'.trans k2⟩
      · obtain ⟨k1, k2⟩ := hm2 hb
        refine Or.inl ⟨e.trans (k2 (hr c List.mem_cons_self)), e'.trans k1, fun x hx => ?_⟩
        rcases List.mem_cons.mp hx with rfl | hx
        · exact hb
        · exact hn x hx
    · exact Or.inr ⟨x, List.mem_cons_of_mem _ hx, h3⟩

theorem feeds_append_inv : ∀ {a b : List Capture} {s u : JinjaObjects}, Feeds s (a ++ b) u → ∃ t, Feeds s a t ∧ Feeds t b u
  | [], _, s, _, h => ⟨s, rfl, h⟩
  | c :: a, b, s, u, h => by
    obtain ⟨v, act, h1, h2⟩ := feeds_cons_inv (cs := a ++ b) h
    obtain ⟨t, h3, h4⟩ := feeds_append_inv h2
    exact ⟨t, Feeds.cons h1 h3, h4⟩

theorem trunc_le (p : Point) : toPoint (toPosition2 p) ≤ p := by
  rw [Point.le_def]
  show p.row % 4294967296 < p.row ∨ p.row % 4294967296 = p.row ∧ p.column % 4294967296 ≤ p.column
  have h1 := Nat.mod_le p.row 4294967296
  have h2 := Nat.mod_le p.column 4294967296
  omega

/-- a cursor behind all names hovers over none -/
theorem not_hover {cs : List Capture} {s : JinjaObjects} {p : Point} (hf : From cs s) (hz : p ≠ Point.zero)
    (hn : ∀ c ∈ cs, c.name = .justId → c.stop < p) : s.isHover p = false := by
  have hpos : Point.zero < p := Point.lt_iff_le_and_ne.mpr ⟨Point.zero_le _, Ne.symm hz⟩
  have past : ∀ q : Point, q < p → ¬ p ≤ q := fun q h h' => Point.lt_irrefl _ (Point.lt_of_lt_of_le h h')
  have h1 : ¬ p ≤ s.ident.2 := by
    rcases hf.ident with e | ⟨c, hc, hcn, e⟩
    · rw [e]; exact past _ hpos
    · rw [e]; exact past _ (hn c hc hcn)
  have h2 : ¬ p ≤ toPoint s.fullRange.stop := by
    unfold fullRange
    cases hl : s.objects.getLast? with
    | none => exact past _ hpos
    | some o =>
      have ho := List.mem_of_getLast? hl
      show ¬ p ≤ toPoint (toPosition2 o.lastFieldEnd)
      intro h
      have h3 := Point.le_trans h (trunc_le _)
      unfold JinjaObject.lastFieldEnd at h3
      cases hg : o.fields.getLast? with
      | none =>
        rw [hg] at h3
        obtain ⟨c, hc, hcn, _, e⟩ := hf.objects o ho
        rw [e] at h3
        exact past _ (hn c hc hcn) h3
      | some f =>
        rw [hg] at h3
        obtain ⟨c, hc, hcn, _, e⟩ := hf.fields o ho f (List.mem_of_getLast? hg)
        simp only [e] at h3
        exact past _ (hn c hc hcn) h3
  simp [isHover, toRange2, h1, h2]

/-- with the cursor behind all names that begin before it, the analysis is that of the captures up to the cursor -/
theorem idle_query {env : Env} {tree : Tree} {text : Str} {p : Point} {before after : List Capture}
    (hc : (env.queryMatches .jinjaObjects tree text).flatten = before ++ after) (hb : ∀ c ∈ before, c.start ≤ p)
    (ha : ∀ c ∈ after, p < c.start) (he : ∀ c ∈ before, c.name ≠ .error ∧ (c.name = .pipe → c.text ≠ none))
    (hn : ∀ c ∈ before, c.name = .justId → c.stop < p) (hz : p ≠ Point.zero) :
    ∃ s, objectsQuery env tree p text false = .ok s ∧ Feeds JinjaObjects.default before s ∧ From before s := by
  obtain ⟨s, hs⟩ := feeds_exists before JinjaObjects.default he
  have hf := from_feeds before _ s (fun c h => h) (from_default before) hs
  refine ⟨s, ?_, hs, hf⟩
  unfold objectsQuery
  rw [hc, loop_before env.profile p false after before ObjLoop.init s hb hs]
  cases after with
  | nil => rfl
  | cons c cs =>
    have hlt := ha c List.mem_cons_self
    have h1 : ¬ c.start ≤ p := fun h => Point.lt_irrefl _ (Point.lt_of_lt_of_le hlt h)
    have h2 : p ≤ c.start := Point.le_of_lt hlt
    have h3 := not_hover hf hz hn
    simp only [objectsLoop, Bool.false_or, h1, decide_false, Bool.false_eq_true, if_false, h2, decide_true, if_true, h3, ObjLoop.init,
      Bool.not_false]
    split <;> rfl

end JinjaObjects
end JinjaLsp
