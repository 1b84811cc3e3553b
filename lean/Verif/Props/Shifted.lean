import Verif.Props.Moved
/-
  C116: completion in a template into which lines were inserted.
-/

namespace JinjaLsp
open Spec

namespace Spec

/-- lines are inserted: row `r` becomes row `g r`; columns and names stay -/
structure Recast.Lines (φ : Recast) (g : Nat → Nat) : Prop where
  name : ∀ n, φ.name n = n
  place : ∀ p, φ.place p = ⟨g p.row, p.column⟩

def movedPosition (g : Nat → Nat) (p : Position) : Position := ⟨g p.line, p.character⟩

def movedRange (g : Nat → Nat) (r : Range) : Range := ⟨movedPosition g r.start, movedPosition g r.stop⟩

def movedEdit (g : Nat → Nat) : CompletionEdit → CompletionEdit
  | .edit e => .edit ⟨movedRange g e.range, e.newText⟩
  | .insertReplace t a b => .insertReplace t (movedRange g a) (movedRange g b)

/-- the same item, but its edits are made in the moved lines -/
def movedItem (g : Nat → Nat) (i : CompletionItem) : CompletionItem :=
  { i with textEdit := i.textEdit.map (movedEdit g)
           additional := i.additional.map fun es => es.map fun e => ⟨movedRange g e.range, e.newText⟩ }

/-- what the two servers know about other files -/
structure Recast.SameTemplates (φ : Recast) (uri : Str) (f g : LspFiles) : Prop where
  known : φ.SameElse uri f g
  held : ∀ u, u ≠ uri → (((g.trees .template).get? u).isSome = ((f.trees .template).get? u).isSome)
  editor : g.isVscode = f.isVscode

/-- places of captured template names have 32 bits -/
def MeasuredRefs (sx : Syntax) (tree : Tree) (text : Str) : Prop :=
  ∀ m ∈ sx.run .jinjaImports tree text, ∀ c ∈ m, SmallPoint c.start ∧ SmallPoint c.stop

end Spec

namespace Spec.Recast
variable {φ : Recast} {digit : Char → Bool} {g : Nat → Nat}

/-! ### Comparisons with the cursor -/

theorem Pt.le_cursor (ok : φ.Ok digit) {p x x' : Point} (_hp : p ≠ ⟨0, 0⟩ ∨ φ.place ⟨0, 0⟩ = ⟨0, 0⟩) (h : φ.Pt x x') :
    x' ≤ φ.place p ↔ x ≤ p := by
  rcases h with rfl | ⟨rfl, rfl⟩
  · exact ok.place_le
  · exact ⟨fun _ => Point.zero_le _, fun _ => Point.zero_le _⟩

theorem Pt.cursor_le (ok : φ.Ok digit) {p x x' : Point} (hp : p ≠ ⟨0, 0⟩ ∨ φ.place ⟨0, 0⟩ = ⟨0, 0⟩) (h : φ.Pt x x') :
    φ.place p ≤ x' ↔ p ≤ x := by
  rcases h with rfl | ⟨rfl, rfl⟩
  · exact ok.place_le
  · have := origin_covers ok hp
    exact ⟨fun h => (this.mp ⟨Point.zero_le _, h⟩).2, fun h => (this.mpr ⟨Point.zero_le _, h⟩).2⟩

theorem Pt.lt_cursor (ok : φ.Ok digit) {p x x' : Point} (hp : p ≠ ⟨0, 0⟩ ∨ φ.place ⟨0, 0⟩ = ⟨0, 0⟩) (h : φ.Pt x x') :
    x' < φ.place p ↔ x < p := by
  rw [← Point.not_le, ← Point.not_le, h.cursor_le ok hp]

theorem Pt.cursor_lt (ok : φ.Ok digit) {p x x' : Point} (hp : p ≠ ⟨0, 0⟩ ∨ φ.place ⟨0, 0⟩ = ⟨0, 0⟩) (h : φ.Pt x x') :
    φ.place p < x' ↔ p < x := by
  rw [← Point.not_le, ← Point.not_le, h.le_cursor ok hp]

theorem Pt.cursor_eq (ok : φ.Ok digit) {p x x' : Point} (hp : p ≠ ⟨0, 0⟩ ∨ φ.place ⟨0, 0⟩ = ⟨0, 0⟩) (h : φ.Pt x x') :
    φ.place p = x' ↔ p = x := by
  constructor
  · intro e
    exact Point.le_antisymm ((h.cursor_le ok hp).mp (e ▸ Point.le_refl _)) ((h.le_cursor ok hp).mp (e ▸ Point.le_refl _))
  · intro e
    exact Point.le_antisymm ((h.cursor_le ok hp).mpr (e ▸ Point.le_refl _)) ((h.le_cursor ok hp).mpr (e ▸ Point.le_refl _))

/-! ### What the loop knows about expressions -/

def Span (φ : Recast) (x x' : Point × Point) : Prop := φ.Pt x.1 x'.1 ∧ φ.Pt x.2 x'.2

def Ends (φ : Recast) (e e' : ExprRange) : Prop :=
  (e = ExprRange.default ∧ e' = ExprRange.default) ∨
    e' = ⟨(φ.place e.beginR.1, φ.place e.beginR.2), (φ.place e.endR.1, φ.place e.endR.2)⟩

structure Deep (φ : Recast) (s s' : JinjaObjects) : Prop where
  cur : φ.Cur s s'
  expr : φ.Span s.expr s'.expr
  ends : φ.Ends s.exprRange s'.exprRange
  test : s.testOn = true → s'.test.2 = φ.place s.test.2
  pipe : φ.Span s.pipe s'.pipe

/-- … and about the ends of captured expressions -/
structure DeepCap (φ : Recast) (c c' : Capture) : Prop where
  cap : φ.Cap c c'
  first : c.name = .expr → c'.firstChild = (φ.place c.firstChild.1, φ.place c.firstChild.2)
  last : c.name = .expr → c'.lastChild = (φ.place c.lastChild.1, φ.place c.lastChild.2)

theorem Deep.default (φ : Recast) : φ.Deep JinjaObjects.default JinjaObjects.default :=
  ⟨.default φ, ⟨.inr ⟨rfl, rfl⟩, .inr ⟨rfl, rfl⟩⟩, .inl ⟨rfl, rfl⟩, fun h => (nomatch h), ⟨.inr ⟨rfl, rfl⟩, .inr ⟨rfl, rfl⟩⟩⟩

theorem build_keeps (s : JinjaObjects) (c : Capture) : (s.buildObject c).1.expr = s.expr ∧ (s.buildObject c).1.exprRange = s.exprRange ∧
    (s.buildObject c).1.pipe = s.pipe ∧ (s.buildObject c).1.test = s.test ∧ ((s.buildObject c).1.testOn = true → s.testOn = true) := by
  have push : ∀ t a b, (s.pushObject t a b).1.expr = s.expr ∧ (s.pushObject t a b).1.exprRange = s.exprRange ∧
      (s.pushObject t a b).1.pipe = s.pipe ∧ (s.pushObject t a b).1.test = s.test ∧ ((s.pushObject t a b).1.testOn = true → s.testOn = true) := by
    intro t a b
    unfold JinjaObjects.pushObject
    split
    · exact ⟨rfl, rfl, rfl, rfl, id⟩
    · exact ⟨rfl, rfl, rfl, rfl, fun h => (nomatch h)⟩
  unfold JinjaObjects.buildObject
  split
  · exact ⟨rfl, rfl, rfl, rfl, id⟩
  · split
    · split
      · exact ⟨rfl, rfl, rfl, rfl, id⟩
      · exact push _ _ _
    · exact push _ _ _

def DeepStep (φ : Recast) : Option (JinjaObjects × ObjectAction) → Option (JinjaObjects × ObjectAction) → Prop
  | none, none => True
  | some (s, a), some (s', a') => φ.Deep s s' ∧ a' = a
  | _, _ => False

theorem Deep.check {s s' : JinjaObjects} {c c' : Capture} (ok : φ.Ok digit) (h : φ.Deep s s') (hc : φ.DeepCap c c') (hg : GoodCap c c') :
    φ.DeepStep (s.check c) (s'.check c') := by
  have hcur := h.cur.check ok hc.cap hg
  unfold JinjaObjects.check at hcur ⊢
  rw [hc.cap.name] at hcur ⊢
  cases hn : c.name with
  | error => trivial
  | justId =>
    simp only [hn] at hcur ⊢
    obtain ⟨e1, e2, e3, e4, e5⟩ := build_keeps s c
    obtain ⟨f1, f2, f3, f4, f5⟩ := build_keeps s' c'
    have hd : φ.Deep (s.buildObject c).1 (s'.buildObject c').1 := by
      constructor
      · exact hcur.1
      · rw [e1, f1]; exact h.expr
      · rw [e2, f2]; exact h.ends
      · rw [e4, f4]; exact fun ht => h.test (e5 ht)
      · rw [e3, f3]; exact h.pipe
    exact ⟨hd, hcur.2⟩
  | dot => simp only [hn] at hcur ⊢; exact ⟨⟨hcur.1, h.expr, h.ends, h.test, h.pipe⟩, rfl⟩
  | pipe =>
    simp only [hn] at hcur ⊢
    rw [hc.cap.words (by rw [hn]; trivial)] at hcur ⊢
    cases ht : c.text with
    | none => trivial
    | some t =>
      rw [ht] at hcur
      simp only at hcur ⊢
      split
      · rename_i hh
        rw [if_pos hh, if_pos hh] at hcur
        exact ⟨⟨hcur.1, h.expr, h.ends, h.test, ⟨.inl hc.cap.start, .inl hc.cap.stop⟩⟩, rfl⟩
      · exact ⟨h, rfl⟩
  | is => simp only [hn] at hcur ⊢; exact ⟨⟨hcur.1, h.expr, h.ends, fun _ => hc.cap.stop, h.pipe⟩, rfl⟩
  | expr =>
    simp only [hn] at hcur ⊢
    exact ⟨⟨hcur.1, ⟨.inl hc.cap.start, .inl hc.cap.stop⟩, .inr (by rw [hc.first hn, hc.last hn]), h.test, h.pipe⟩, rfl⟩
  | _ => exact ⟨h, rfl⟩

theorem Deep.finish {s s' : JinjaObjects} {prof : Profile} {k : Nat} {e e' : (Point × Point) × ExprRange} (h : φ.Deep s s')
    (he : φ.Span e.1 e'.1) (he' : φ.Ends e.2 e'.2) : Agree φ.Deep (objectsFinish prof s k e) (objectsFinish prof s' k e') := by
  have hcur := h.cur.finish (prof := prof) (k := k) (e := e) (e' := e')
  have key : ∀ {t t' : JinjaObjects}, t.expr = s.expr → t.exprRange = s.exprRange → t.test = s.test → t.testOn = s.testOn → t.pipe = s.pipe →
      t'.expr = s'.expr → t'.exprRange = s'.exprRange → t'.test = s'.test → t'.pipe = s'.pipe → t'.objects.length = t.objects.length →
      Agree φ.Cur (match usub prof t.objects.length 1 with
        | .error e => .error e
        | .ok l => if k ≠ l then .ok { t with objects := t.objects.dropLast, expr := e.1, exprRange := e.2 } else .ok t)
      (match usub prof t'.objects.length 1 with
        | .error e => .error e
        | .ok l => if k ≠ l then .ok { t' with objects := t'.objects.dropLast, expr := e'.1, exprRange := e'.2 } else .ok t') →
      Agree φ.Deep (match usub prof t.objects.length 1 with
        | .error e => .error e
        | .ok l => if k ≠ l then .ok { t with objects := t.objects.dropLast, expr := e.1, exprRange := e.2 } else .ok t)
      (match usub prof t'.objects.length 1 with
        | .error e => .error e
        | .ok l => if k ≠ l then .ok { t' with objects := t'.objects.dropLast, expr := e'.1, exprRange := e'.2 } else .ok t') := by
    intro t t' a1 a2 a3 a4 a5 b1 b2 b3 b5 hl hc
    rw [hl] at hc ⊢
    cases hu : usub prof t.objects.length 1 with
    | error e => rfl
    | ok l =>
      rw [hu] at hc
      simp only at hc ⊢
      by_cases hk : k ≠ l
      · rw [if_pos hk, if_pos hk] at hc ⊢
        refine ⟨hc, he, he', ?_, ?_⟩
        · show t.testOn = true → t'.test.2 = φ.place t.test.2
          rw [a3, a4, b3]; exact h.test
        · show φ.Span t.pipe t'.pipe
          rw [a5, b5]; exact h.pipe
      · rw [if_neg hk, if_neg hk] at hc ⊢
        refine ⟨hc, ?_, ?_, ?_, ?_⟩
        · rw [a1, b1]; exact h.expr
        · rw [a2, b2]; exact h.ends
        · rw [a3, a4, b3]; exact h.test
        · rw [a5, b5]; exact h.pipe
  unfold objectsFinish at hcur ⊢
  have hlen : s'.objects.length = s.objects.length := by rw [h.cur.base.objs, List.length_map]
  have hget : s'.objects[k]? = s.objects[k]?.map φ.obj := by rw [h.cur.base.objs, List.getElem?_map]
  rw [hget] at hcur ⊢
  cases ho : s.objects[k]? with
  | none =>
    rw [ho] at hcur
    exact key (t := s) (t' := s') rfl rfl rfl rfl rfl rfl rfl rfl rfl hlen hcur
  | some o =>
    rw [ho] at hcur
    exact key (t := { s with ident := o.location, objects := s.objects.set k { o with captureFirst := true } })
      (t' := { s' with ident := (φ.obj o).location, objects := s'.objects.set k { φ.obj o with captureFirst := true } })
      rfl rfl rfl rfl rfl rfl rfl rfl rfl (by simp only [List.length_set, hlen]) hcur

theorem Deep.loop {prof : Profile} {p : Point} (ok : φ.Ok digit) (hp : p ≠ ⟨0, 0⟩ ∨ φ.place ⟨0, 0⟩ = ⟨0, 0⟩) {cs cs' : List Capture}
    (hz : Zip (fun c c' => φ.DeepCap c c' ∧ GoodCap c c') cs cs') : ∀ {st st' : ObjLoop}, φ.Deep st.objects st'.objects →
    st'.continued = st.continued → st'.myId = st.myId → φ.Span st.myExpr.1 st'.myExpr.1 → φ.Ends st.myExpr.2 st'.myExpr.2 →
    Agree φ.Deep (objectsLoop prof p false st cs) (objectsLoop prof (φ.place p) false st' cs') := by
  induction hz with
  | nil => intro st st' h _ _ _ _; exact h
  | @cons c c' cs cs' hc _ ih =>
    intro st st' h h1 h2 h3 h4
    obtain ⟨hc, hg⟩ := hc
    unfold objectsLoop
    simp only [Bool.false_or, hc.cap.start, ok.place_le, hc.cap.name, h.cur.isFilter ok, h1, h.cur.isHover ok hp]
    have hstep := h.check ok hc hg
    split
    · cases hs : st.objects.check c with
      | none =>
        cases hs' : st'.objects.check c' with
        | none => exact h
        | some _ => rw [hs, hs'] at hstep; exact hstep.elim
      | some x =>
        cases hs' : st'.objects.check c' with
        | none => rw [hs, hs'] at hstep; exact hstep.elim
        | some y =>
          rw [hs, hs'] at hstep
          exact ih hstep.1 rfl h2 h3 h4
    · split
      · split
        · exact h
        · split
          · split
            · have hl : st'.objects.objects.length = st.objects.objects.length := by rw [h.cur.base.objs, List.length_map]
              rw [hl]
              cases usub prof st.objects.objects.length 1 with
              | error e => rfl
              | ok k => exact ih h rfl rfl h.expr h.ends
            · exact h
          · cases hs : st.objects.check c with
            | none =>
              cases hs' : st'.objects.check c' with
              | none => exact h
              | some _ => rw [hs, hs'] at hstep; exact hstep.elim
            | some x =>
              cases hs' : st'.objects.check c' with
              | none => rw [hs, hs'] at hstep; exact hstep.elim
              | some y =>
                rw [hs, hs'] at hstep
                obtain ⟨o, act⟩ := x
                obtain ⟨o', act'⟩ := y
                obtain ⟨hcur, rfl⟩ := hstep
                rw [h2]
                cases act' with
                | expression => exact hcur.finish h3 h4
                | newObject => exact hcur.finish h3 h4
                | invalid => exact hcur.finish h3 h4
                | newField => exact ih hcur rfl rfl h3 h4
                | newFilter => exact ih hcur rfl rfl h3 h4
                | newTest => exact ih hcur rfl rfl h3 h4
      · exact ih h h1 h2 h3 h4

/-! ### Captured expressions -/

/-- a query that reports corresponding captures -/
def SameBy (φ : Recast) (R : Capture → Capture → Prop) (q q' : Reports) : Prop :=
  ∀ v up up' left left' n n', Ups φ up up' → Zip φ.Tree left left' → φ.Tree n n' → Zip (Zip R) (q v up left n) (q' v up' left' n')

mutual
theorem SameBy.walk {R : Capture → Capture → Prop} {q q' : Reports} (hq : φ.SameBy R q q') {up up' : List Above} {left left' : List Syn}
    (hu : φ.Ups up up') (hl : Zip φ.Tree left left') :
    (n n' : Syn) → φ.Tree n n' → Zip (Zip R) (Syn.walk q up left n) (Syn.walk q' up' left' n')
  | .node k f i a b t cs, n', h => by
    cases h with
    | node ht hs hc =>
      have h := Tree.node (φ := φ) (f := f) (i := i) ht hs hc
      rw [Syn.walk, Syn.walk]
      exact ((hq _ _ _ _ _ _ _ hu hl h).append (SameBy.walkAll hq (.cons ⟨h, hl⟩ hu) .nil cs _ hc)).append (hq _ _ _ _ _ _ _ hu hl h)

theorem SameBy.walkAll {R : Capture → Capture → Prop} {q q' : Reports} (hq : φ.SameBy R q q') {up up' : List Above} {left left' : List Syn}
    (hu : φ.Ups up up') (hl : Zip φ.Tree left left') : (cs cs' : List Syn) → Zip φ.Tree cs cs' →
      Zip (Zip R) (Syn.walkAll q up left cs) (Syn.walkAll q' up' left' cs')
  | [], _, h => by cases h; rw [Syn.walkAll, Syn.walkAll]; exact .nil
  | c :: cs, _, h => by
    cases h with
    | cons hc hcs =>
      rw [Syn.walkAll, Syn.walkAll]
      exact (SameBy.walk hq hu hl c _ hc).append (SameBy.walkAll hq hu (hl.append (.single hc)) cs _ hcs)
end

theorem objects_caps {v : Visit} {up : List Above} {left : List Syn} {n : Syn} {m : List Capture} {c : Capture}
    (hm : m ∈ qObjects digit v up left n) (hc : c ∈ m) : ∃ cn, c = n.cap cn up := by
  have key : ∀ {b : Bool} {cn : CapName} {m : List Capture}, m ∈ single b cn up n → c ∈ m → ∃ cn, c = n.cap cn up := by
    intro b cn m hm hc
    unfold single at hm
    split at hm
    · cases List.mem_singleton.mp hm
      exact ⟨cn, List.mem_singleton.mp hc⟩
    · cases hm
  cases v with
  | leave => cases hm
  | enter =>
    simp only [qObjects] at hm
    split at hm
    · rcases List.mem_append.mp hm with hm | hm <;> exact key hm hc
    all_goals first | exact key hm hc | cases hm

theorem zip_ends {α β : Type} {R : α → β → Prop} {as : List α} {bs : List β} (h : Zip R as bs) :
    ((as.head? = none ∧ bs.head? = none) ∨ ∃ a b, as.head? = some a ∧ bs.head? = some b ∧ R a b) ∧
    ((as.getLast? = none ∧ bs.getLast? = none) ∨ ∃ a b, as.getLast? = some a ∧ bs.getLast? = some b ∧ R a b) := by
  induction h with
  | nil => exact ⟨.inl ⟨rfl, rfl⟩, .inl ⟨rfl, rfl⟩⟩
  | @cons a b as bs hab ht ih =>
    refine ⟨.inr ⟨a, b, rfl, rfl, hab⟩, ?_⟩
    cases ht with
    | nil => exact .inr ⟨a, b, rfl, rfl, hab⟩
    | cons h1 h2 => rw [List.getLast?_cons_cons, List.getLast?_cons_cons]; exact ih.2

theorem Tree.children {n n' : Syn} (h : φ.Tree n n') : Zip φ.Tree n.children n'.children := by
  cases h with
  | node _ _ hc => exact hc

theorem Tree.first {n n' : Syn} (h : φ.Tree n n') : n'.first = (φ.place n.first.1, φ.place n.first.2) := by
  unfold Syn.first
  rcases (zip_ends h.children).1 with ⟨h1, h2⟩ | ⟨a, b, h1, h2, h3⟩
  · rw [h1, h2, h.start, h.stop]
  · rw [h1, h2]; simp only [h3.start, h3.stop]

theorem Tree.last {n n' : Syn} (h : φ.Tree n n') : n'.last = (φ.place n.last.1, φ.place n.last.2) := by
  unfold Syn.last
  rcases (zip_ends h.children).2 with ⟨h1, h2⟩ | ⟨a, b, h1, h2, h3⟩
  · rw [h1, h2, h.start, h.stop]
  · rw [h1, h2]; simp only [h3.start, h3.stop]

theorem deep_objects (ok : φ.Ok digit) : φ.SameBy φ.DeepCap (qObjects digit) (qObjects digit) := by
  intro v up up' left left' n n' hu hl h
  refine (same_objects ok v up up' left left' n n' hu hl h).upgrade fun m hm m' hm' hz => hz.upgrade fun c hc c' hc' hr => ?_
  obtain ⟨cn, rfl⟩ := objects_caps hm hc
  obtain ⟨cn', rfl⟩ := objects_caps hm' hc'
  refine ⟨hr, fun hn => ?_, fun hn => ?_⟩
  · have hn' := hr.name.trans hn
    rw [cap_name] at hn hn'
    subst hn; subst hn'
    exact h.first
  · have hn' := hr.name.trans hn
    rw [cap_name] at hn hn'
    subst hn; subst hn'
    exact h.last

/-! ### The kind of completion -/

def movedType (g : Nat → Nat) : CompletionType → CompletionType
  | .includedTemplate n r => .includedTemplate n (movedRange g r)
  | .snippets r => .snippets (movedRange g r)
  | .incompleteIdentifier n r => .incompleteIdentifier n (movedRange g r)
  | .incompleteFilter n r => .incompleteFilter n (movedRange g r)
  | t => t

theorem range_moved (hl : φ.Lines g) {a b : Point} (ha : SmallPoint a) (hb : SmallPoint b) (ha' : SmallPoint (φ.place a))
    (hb' : SmallPoint (φ.place b)) : toRange (φ.place a, φ.place b) = movedRange g (toRange (a, b)) := by
  rw [hl.place] at ha' hb'
  unfold toRange movedRange movedPosition toU32
  simp only [hl.place]
  rw [Nat.mod_eq_of_lt ha.1, Nat.mod_eq_of_lt hb.1, Nat.mod_eq_of_lt ha'.1, Nat.mod_eq_of_lt hb'.1]

theorem start_moved (hl : φ.Lines g) (prof : Profile) (p : Point) {i i' : Identifier} (hn : i'.name = i.name) (hc : i'.stop.column = i.stop.column) :
    completionStart prof (φ.place p) i' = completionStart prof p i := by
  unfold completionStart
  simp only [hl.place, hn, hc]

theorem Lines.mono (ok : φ.Ok digit) (hl : φ.Lines g) {a b : Nat} (h : a < b) : g a < g b := by
  have := ok.places ⟨a, 0⟩ ⟨b, 0⟩ (by rw [Point.lt_def]; exact .inl h)
  rw [hl.place, hl.place, Point.lt_def] at this
  rcases this with h | h
  · exact h
  · exact absurd h.2 (Nat.lt_irrefl _)

theorem Lines.row (ok : φ.Ok digit) (hl : φ.Lines g) (p q : Point) : (φ.place p).row = (φ.place q).row ↔ p.row = q.row := by
  rw [hl.place, hl.place]
  constructor
  · intro h
    rcases Nat.lt_trichotomy p.row q.row with h1 | h1 | h1
    · exact absurd h (Nat.ne_of_lt (hl.mono ok h1))
    · exact h1
    · exact absurd h.symm (Nat.ne_of_lt (hl.mono ok h1))
  · intro h; exact congrArg g h

theorem Cur.pt {s s' : JinjaObjects} (h : φ.Cur s s') : φ.Span s.ident s'.ident := by
  rcases h.ident with ⟨h1, h2⟩ | ⟨_, _, h2⟩
  · rw [h1, h2]; exact ⟨.inr ⟨rfl, rfl⟩, .inr ⟨rfl, rfl⟩⟩
  · rw [h2]; exact ⟨.inl rfl, .inl rfl⟩

theorem Ends.points {e e' : ExprRange} (h : φ.Ends e e') : φ.Span e.beginR e'.beginR ∧ φ.Span e.endR e'.endR := by
  rcases h with ⟨rfl, rfl⟩ | rfl
  · exact ⟨⟨.inr ⟨rfl, rfl⟩, .inr ⟨rfl, rfl⟩⟩, ⟨.inr ⟨rfl, rfl⟩, .inr ⟨rfl, rfl⟩⟩⟩
  · exact ⟨⟨.inl rfl, .inl rfl⟩, ⟨.inl rfl, .inl rfl⟩⟩

theorem Ends.empty (ok : φ.Ok digit) {e e' : ExprRange} (h : φ.Ends e e') : (e'.beginR.2 = e'.endR.1) ↔ (e.beginR.2 = e.endR.1) := by
  rcases h with ⟨rfl, rfl⟩ | rfl
  · exact Iff.rfl
  · exact ok.place_inj

theorem Ends.closed (ok : φ.Ok digit) {e e' : ExprRange} (h : φ.Ends e e') : (e'.endR.1 = e'.endR.2) ↔ (e.endR.1 = e.endR.2) := by
  rcases h with ⟨rfl, rfl⟩ | rfl
  · exact Iff.rfl
  · exact ok.place_inj

theorem Cur.full (hl : φ.Lines g) {s s' : JinjaObjects} (h : φ.Cur s s') (hne : s.objects ≠ []) : s'.fullRange = movedRange g s.fullRange := by
  unfold JinjaObjects.fullRange
  rw [h.base.objs, List.getLast?_map]
  cases ho : s.objects.getLast? with
  | none => exact absurd (List.getLast?_eq_none_iff.mp ho) hne
  | some o =>
    have hm := List.mem_of_getLast? ho
    have hm' : φ.obj o ∈ s'.objects := by rw [h.base.objs]; exact List.mem_map_of_mem hm
    have hs := h.small o hm
    have hs' := h.small' _ hm'
    have he := smallObj_end hs'
    simp only [Option.map_some, JinjaObject.fullRange]
    rw [obj_end] at he ⊢
    exact range_moved hl hs.first (smallObj_end hs) hs'.first he

theorem Deep.completion (ok : φ.Ok digit) (hl : φ.Lines g) {s s' : JinjaObjects} (h : φ.Deep s s') (prof : Profile) {p : Point}
    (hp : p ≠ ⟨0, 0⟩ ∨ φ.place ⟨0, 0⟩ = ⟨0, 0⟩) :
    s'.completion prof (φ.place p) = Except.map (Option.map fun x => (movedType g x.1, x.2)) (s.completion prof p) := by
  have hpt := h.cur.pt
  have e1 : s'.shouldAutoclose = s.shouldAutoclose := decide_eq_decide.mpr (h.ends.closed ok)
  have e2 : s'.inPipe (φ.place p) = s.inPipe p := by
    unfold JinjaObjects.inPipe
    rw [decide_eq_decide.mpr (h.pipe.1.le_cursor ok hp), decide_eq_decide.mpr (h.pipe.2.cursor_le ok hp)]
  have e3 : s'.inExpr (φ.place p) = s.inExpr p := by
    unfold JinjaObjects.inExpr
    rw [decide_eq_decide.mpr (h.expr.1.le_cursor ok hp), decide_eq_decide.mpr (h.expr.2.cursor_lt ok hp),
      decide_eq_decide.mpr (hpt.1.lt_cursor ok hp), decide_eq_decide.mpr (h.ends.empty ok)]
  have e4 : s'.isTest (φ.place p) = s.isTest p := by
    unfold JinjaObjects.isTest
    rw [h.cur.base.test]
    cases ht : s.testOn with
    | false => rfl
    | true =>
      have := h.test ht
      rw [this, decide_eq_decide.mpr ok.place_le, decide_eq_decide.mpr (hl.row ok _ _)]
  have e5 := h.cur.isIdent ok hp
  have e6 : (φ.place p = s'.exprRange.beginR.2 ∧ φ.place p = s'.exprRange.endR.1) ↔ (p = s.exprRange.beginR.2 ∧ p = s.exprRange.endR.1) := by
    obtain ⟨h1, h2⟩ := h.ends.points
    rw [h1.2.cursor_eq ok hp, h2.1.cursor_eq ok hp]
  have e7 := hpt.2.lt_cursor ok hp
  have hid : (fun n => φ.name n) = id := funext hl.name
  unfold JinjaObjects.completion
  simp only [e1, e2, e3, e4, e5, e6, e7]
  split
  · rfl
  · split
    · split
      · rfl
      · split
        · rfl
        · cases hi : s.isIdent p with
          | none => rfl
          | some v =>
            have hne : s.objects ≠ [] := by
              intro e
              unfold JinjaObjects.isIdent at hi
              rw [e] at hi
              split at hi <;> cases hi
            have hi1 : s.ident.1 ≤ p ∧ p ≤ s.ident.2 := by
              unfold JinjaObjects.isIdent at hi
              split at hi
              · assumption
              · cases hi
            simp only [Option.map_some, hl.name]
            have hcol : s'.ident.2.column = s.ident.2.column := by
              rcases hpt.2 with e | ⟨e, e'⟩
              · rw [e, hl.place]
              · rw [e, e']
            rw [start_moved hl prof p (i := Identifier.new v s.ident.1 s.ident.2) (i' := Identifier.new v s'.ident.1 s'.ident.2) rfl hcol, h.cur.full hl hne]
            cases completionStart prof p (Identifier.new v s.ident.1 s.ident.2) with
            | error e => rfl
            | ok st => cases st <;> rfl
    · split <;> rfl

/-! ### Items -/

theorem variableItem_moved (hl : φ.Lines g) (ok : φ.Ok digit) (vsc : Bool) (st : Str) (r : Range) (v : Identifier) :
    LspFiles.variableItem vsc st (movedRange g r) (φ.final v) = (LspFiles.variableItem vsc st r v).map (movedItem g) := by
  unfold LspFiles.variableItem
  rw [final_name ok, final_type, hl.name]
  simp only
  split
  · rfl
  · split
    · cases vsc <;> rfl
    · rfl

theorem variableItems_moved (hl : φ.Lines g) (ok : φ.Ok digit) (vsc : Bool) (st : Str) (r : Range) : ∀ (l : List Identifier) (names : List Str),
    LspFiles.variableItems vsc st (movedRange g r) names (l.map φ.final) = (LspFiles.variableItems vsc st r names l).map (movedItem g)
  | [], _ => rfl
  | v :: l, names => by
    rw [List.map_cons]
    unfold LspFiles.variableItems
    rw [variableItem_moved hl ok, final_name ok, hl.name, variableItems_moved hl ok vsc st r l, variableItems_moved hl ok vsc st r l]
    split
    · rfl
    · cases LspFiles.variableItem vsc st r v <;> rfl

theorem visible_moved (ok : φ.Ok digit) {vs : List Identifier} (hn : ∀ v ∈ vs, v.name = [] → v.stop = ⟨0, 0⟩) (p : Point) :
    (vs.map φ.final).filter (LspFiles.visibleAt (φ.place p)) = (vs.filter (LspFiles.visibleAt p)).map φ.final := by
  rw [List.filter_map]
  congr 1
  apply List.filter_congr
  intro v hv
  simp only [Function.comp_def, LspFiles.visibleAt, final_type]
  have hsc : φ.place p ≤ (φ.final v).scopeEnd ↔ p ≤ v.scopeEnd := by rw [final_scope, ok.place_le]
  rw [decide_eq_decide.mpr hsc]
  have : (φ.final v).stop ≤ φ.place p ↔ v.stop ≤ p := by
    by_cases h : v.name = []
    · have e : (φ.final v).stop = v.stop := by unfold final ident; rw [if_pos h]
      rw [e, hn v hv h]
      exact ⟨fun _ => Point.zero_le _, fun _ => Point.zero_le _⟩
    · rw [(final_named h).2.2, ok.place_le]
  rw [decide_eq_decide.mpr this]

theorem own_first {m : HMap Str (List Identifier)} {k : Str} {v : List Identifier} (h : m.get? k = some v) :
    m.entries.Perm ((k, v) :: m.entries.filter fun e => decide (e.1 ≠ k)) := by
  have := entries_perm (m := m) (m' := m.insert k v) fun x => by
    rw [HMap.get?_insert]
    split
    · rename_i e; rw [e, h]
    · rfl
  exact this

theorem backend_moved (hl : φ.Lines g) (ok : φ.Ok digit) {f f' : LspFiles} {uri : Str} {vs : List Identifier} (hv : f.variables.get? uri = some vs)
    (hv' : f'.variables.get? uri = some (vs.map φ.final)) (hs : φ.SameElse uri f f') (o o' : HashOrder) :
    (((o.shuffle 5 f.variables.entries).flatMap fun file => (file.2.filter fun v => v.idType = .backendVariable).map LspFiles.backendItem).map
        (movedItem g)).Perm
      ((o'.shuffle 5 f'.variables.entries).flatMap fun file => (file.2.filter fun v => v.idType = .backendVariable).map LspFiles.backendItem) := by
  rw [List.map_flatMap]
  have e : ∀ l : List Identifier, (l.map LspFiles.backendItem).map (movedItem g) = l.map LspFiles.backendItem := fun l => by
    rw [List.map_map]; rfl
  simp only [e]
  refine (((o.perm 5 _).flatMap_right _).trans ?_).trans ((o'.perm 5 _).flatMap_right _).symm
  refine ((own_first hv).flatMap_right _).trans (List.Perm.trans ?_ ((own_first hv').flatMap_right _).symm)
  rw [List.flatMap_cons, List.flatMap_cons]
  refine List.Perm.append (List.Perm.of_eq ?_) (hs.perm.flatMap_right _)
  rw [List.filter_map, List.map_map]
  have e1 : ((fun v : Identifier => decide (v.idType = .backendVariable)) ∘ φ.final) = fun v => decide (v.idType = .backendVariable) := by
    funext v; simp only [Function.comp_def, final_type]
  have e2 : LspFiles.backendItem ∘ φ.final = LspFiles.backendItem := by
    funext v; simp only [Function.comp_def, LspFiles.backendItem, final_type, final_name ok, hl.name]
  rw [e1, e2]

theorem readVariables_moved (hl : φ.Lines g) (ok : φ.Ok digit) {f f' : LspFiles} {uri : Str} {vs : List Identifier}
    (hv : f.variables.get? uri = some vs) (hv' : f'.variables.get? uri = some (vs.map φ.final)) (hs : φ.SameTemplates uri f f')
    (hn : ∀ v ∈ vs, v.name = [] → v.stop = ⟨0, 0⟩) (w w' : World) {pos pos' : Position} (hpos : toPoint pos' = φ.place (toPoint pos))
    (st : Str) (r r' : Range) (hr : st = [] ∨ r' = movedRange g r) :
    OptPerm ((some (LspFiles.variableItems f.isVscode st r [] (vs.filter (LspFiles.visibleAt (toPoint pos))) ++
        (w.order.shuffle 5 f.variables.entries).flatMap fun file =>
          (file.2.filter fun v => v.idType = .backendVariable).map LspFiles.backendItem)).map (List.map (movedItem g)))
      (some (LspFiles.variableItems f'.isVscode st r' [] ((vs.map φ.final).filter (LspFiles.visibleAt (toPoint pos'))) ++
        (w'.order.shuffle 5 f'.variables.entries).flatMap fun file =>
          (file.2.filter fun v => v.idType = .backendVariable).map LspFiles.backendItem)) := by
  rw [hpos, visible_moved ok hn, hs.editor]
  have hr' : ∀ l names, LspFiles.variableItems f.isVscode st r' names l = LspFiles.variableItems f.isVscode st (movedRange g r) names l := by
    rcases hr with rfl | rfl
    · intro l
      induction l with
      | nil => intro _; rfl
      | cons v l ih =>
        intro names
        unfold LspFiles.variableItems
        simp only [ih]
        rfl
    · intro _ _; rfl
  rw [hr', variableItems_moved hl ok, Option.map_some, List.map_append]
  exact (List.Perm.refl _).append (backend_moved hl ok hv hv' hs.known w.order w'.order)

theorem templateItem_moved {f f' : LspFiles} {uri : Str} (hs : φ.SameTemplates uri f f') {pos pos' : Position} (hpos : pos' = movedPosition g pos)
    (r : Range) (t : Str) : f'.templateItem (movedRange g r) pos' t = (f.templateItem r pos t).map (movedItem g) := by
  unfold LspFiles.templateItem
  rw [hs.known.templates, hs.editor, hpos]
  simp only
  split
  · rfl
  · cases f.isVscode <;> rfl

theorem templateItems_moved {f f' : LspFiles} {uri : Str} (hs : φ.SameTemplates uri f f') {pos pos' : Position} (hpos : pos' = movedPosition g pos)
    (r : Range) : ∀ l : List Str, f'.templateItems (movedRange g r) pos' l = (f.templateItems r pos l).map (List.map (movedItem g))
  | [] => rfl
  | t :: l => by
    unfold LspFiles.templateItems
    rw [templateItem_moved hs hpos, templateItems_moved hs hpos r l]
    cases f.templateItem r pos t with
    | none => rfl
    | some i => cases f.templateItems r pos l <;> rfl

theorem readTemplates_moved {f f' : LspFiles} {uri : Str} (hs : φ.SameTemplates uri f f') (hu : ((f.trees .template).get? uri).isSome)
    (hu' : ((f'.trees .template).get? uri).isSome) (w w' : World) {pos pos' : Position} (hpos : pos' = movedPosition g pos) (st : Str) (r : Range) :
    OptPerm ((f.readTemplates w st r pos).map (List.map (movedItem g))) (f'.readTemplates w' st (movedRange g r) pos') := by
  unfold LspFiles.readTemplates
  simp only
  rw [← templateItems_moved hs hpos]
  refine templateItems_perm f' _ _ (List.Perm.filter _ ?_)
  refine ((w.order.perm 6 _).map _).trans (List.Perm.trans ?_ ((w'.order.perm 6 _).map _).symm)
  refine (List.perm_ext_iff_of_nodup (f.trees .template).nodup (f'.trees .template).nodup).mpr fun u => ?_
  have h1 := HMap.get?_isSome_iff (f.trees .template) u
  have h2 := HMap.get?_isSome_iff (f'.trees .template) u
  simp only [HMap.keys] at h1 h2
  rw [← h1, ← h2]
  by_cases h : u = uri
  · subst h; rw [hu, hu']
  · rw [hs.held u h]

theorem items_moved (hl : φ.Lines g) (ok : φ.Ok digit) {f f' : LspFiles} {uri : Str} {vs : List Identifier}
    (hv : f.variables.get? uri = some vs) (hv' : f'.variables.get? uri = some (vs.map φ.final)) (hs : φ.SameTemplates uri f f')
    (hu : ((f.trees .template).get? uri).isSome) (hu' : ((f'.trees .template).get? uri).isSome)
    (hn : ∀ v ∈ vs, v.name = [] → v.stop = ⟨0, 0⟩) (w w' : World) (pos : Position) (c : CompletionType) :
    OptPerm ((completionItems w f uri pos c).map (List.map (movedItem g))) (completionItems w' f' uri (movedPosition g pos) (movedType g c)) := by
  have hpos : toPoint (movedPosition g pos) = φ.place (toPoint pos) := by rw [hl.place]; rfl
  have all : ∀ (l : List (Str × List Identifier)), l.filter (fun _ => true) = l := fun l => List.filter_eq_self.mpr fun _ _ => rfl
  cases c with
  | filter =>
    show OptPerm (some ((filterTable.map docItem).map (movedItem g))) (some (filterTable.map docItem))
    rw [List.map_map]; exact OptPerm.refl _
  | test =>
    show OptPerm (some ((testTable.map docItem).map (movedItem g))) (some (testTable.map docItem))
    rw [List.map_map]; exact OptPerm.refl _
  | identifier =>
    simp only [completionItems, movedType, LspFiles.readVariables, hv, hv', Option.getD_none, all]
    exact readVariables_moved hl ok hv hv' hs hn w w' hpos _ _ _ (.inl rfl)
  | includedTemplate n r => exact readTemplates_moved hs hu hu' w w' rfl n r
  | snippets r =>
    show OptPerm (some ((snippetTable.map (snippetItem f.isVscode r)).map (movedItem g))) (some (snippetTable.map (snippetItem f'.isVscode (movedRange g r))))
    rw [List.map_map, hs.editor]
    refine List.Perm.of_eq (List.map_congr_left fun e _ => ?_)
    unfold snippetItem
    cases f.isVscode <;> rfl
  | incompleteIdentifier n r =>
    simp only [completionItems, movedType, LspFiles.readVariables, hv, hv', Option.getD_some, all]
    exact readVariables_moved hl ok hv hv' hs hn w w' hpos _ _ _ (.inr rfl)
  | incompleteFilter n r => trivial

/-! ### The template name -/

def GoodSlot (φ : Recast) (t : Identifier) : Prop :=
  (t.idType = .jinjaTemplate ∧ (SmallPoint t.start ∧ SmallPoint t.stop) ∧ (SmallPoint (φ.place t.start) ∧ SmallPoint (φ.place t.stop))) ∨
    (t.start = ⟨0, 0⟩ ∧ t.stop = ⟨0, 0⟩)

theorem slots_under {P : Identifier → Prop} {i : Import} (h : Slots P i) {p : Point} {t : Identifier} (ht : i.getIdentifier p = some t) :
    P t ∧ t.covers p = true := by
  cases i with
  | «extends» x => simp only [Import.getIdentifier] at ht; split at ht <;> cases ht; exact ⟨h, by assumption⟩
  | «include» ts => exact ⟨h t (List.mem_of_find?_eq_some ht), by simpa using List.find?_some ht⟩
  | from_ x _ => simp only [Import.getIdentifier] at ht; split at ht <;> cases ht; exact ⟨h, by assumption⟩
  | import_ x _ => simp only [Import.getIdentifier] at ht; split at ht <;> cases ht; exact ⟨h, by assumption⟩

theorem ref_moved (hl : φ.Lines g) {p : Point} (hp : p ≠ ⟨0, 0⟩ ∨ φ.place ⟨0, 0⟩ = ⟨0, 0⟩) {t : Identifier} (h : φ.GoodSlot t)
    (hc : t.covers p = true) : toRange ((φ.ref t).start, (φ.ref t).stop) = movedRange g (toRange (t.start, t.stop)) ∧
      (φ.ref t).stop.column = t.stop.column := by
  by_cases hk : t.idType = .jinjaTemplate
  · have e : φ.ref t = { t with start := φ.place t.start, stop := φ.place t.stop } := by unfold ref; rw [if_pos hk]
    rw [e]
    refine ⟨?_, by show (φ.place t.stop).column = _; rw [hl.place]⟩
    rcases h with ⟨_, h1, h2⟩ | ⟨h1, h2⟩
    · exact range_moved hl h1.1 h1.2 h2.1 h2.2
    · simp only [h1, h2]
      have hz : p = ⟨0, 0⟩ := by
        unfold Identifier.covers at hc
        simp only [Bool.and_eq_true, decide_eq_true_eq] at hc
        exact Point.le_antisymm (h2 ▸ hc.2) (Point.zero_le _)
      have hz' : φ.place ⟨0, 0⟩ = ⟨0, 0⟩ := hp.elim (fun e => absurd hz e) id
      have hg : g 0 = 0 := by have := hz'; rw [hl.place] at this; exact congrArg Point.row this
      rw [hz']
      unfold toRange movedRange movedPosition
      simp only
      have : toU32 0 = 0 := rfl
      rw [this, hg]
  · have e : φ.ref t = t := by unfold ref; rw [if_neg hk]
    rw [e]
    refine ⟨?_, rfl⟩
    rcases h with ⟨h, _⟩ | ⟨h1, h2⟩
    · exact absurd h hk
    · simp only [h1, h2]
      have hz : p = ⟨0, 0⟩ := by
        unfold Identifier.covers at hc
        simp only [Bool.and_eq_true, decide_eq_true_eq] at hc
        exact Point.le_antisymm (h2 ▸ hc.2) (Point.zero_le _)
      have hz' : φ.place ⟨0, 0⟩ = ⟨0, 0⟩ := hp.elim (fun e => absurd hz e) id
      have hg : g 0 = 0 := by have := hz'; rw [hl.place] at this; exact congrArg Point.row this
      unfold toRange movedRange movedPosition
      simp only
      have : toU32 0 = 0 := rfl
      rw [this, hg]

end Spec.Recast

section
variable {env : Env} {sx : Syntax} {φ : Recast} {g : Nat → Nat} {tree tree' : Tree} {text text' : Str}

theorem objects_deep (ok : φ.Ok sx.digit) (ht : φ.Tree (sx.root tree text) (sx.root tree' text')) (hm : Measured (sx.root tree text))
    (hm' : Measured (sx.root tree' text')) {p : Point} (hp : p ≠ ⟨0, 0⟩ ∨ φ.place ⟨0, 0⟩ = ⟨0, 0⟩) :
    Agree φ.Deep (objectsQuery (env.over sx) tree p text false) (objectsQuery (env.over sx) tree' (φ.place p) text' false) := by
  have hz := ((Recast.deep_objects ok).walk .nil .nil _ _ ht).flatten
  unfold objectsQuery
  refine Recast.Deep.loop ok hp (hz.upgrade fun c hc c' hc' h => ⟨h, ?_, ?_, ?_⟩) (Recast.Deep.default φ) rfl rfl
    ⟨.inr ⟨rfl, rfl⟩, .inr ⟨rfl, rfl⟩⟩ (.inl ⟨rfl, rfl⟩)
  · intro hn
    obtain ⟨n, h1, h2, _, h3, h4, _⟩ := objects_names hc hn
    rw [← h3, ← h4]
    exact hm.small n h1 h2
  · intro hn
    obtain ⟨n, h1, h2, _, h3, h4, _⟩ := objects_names hc' (h.cap.name.trans hn)
    rw [← h3, ← h4]
    exact hm'.small n h1 h2
  · intro hn
    obtain ⟨n, h1, h2, h3⟩ := objects_pipes hc hn
    rw [← h3]
    exact hm.solid n h1 h2

theorem reference_moved (hl : φ.Lines g) (ht : φ.Tree (sx.root tree text) (sx.root tree' text')) (ho : φ.Options sx.options)
    (hm : MeasuredRefs sx tree text) (hm' : MeasuredRefs sx tree' text') {p : Point} (hp : p ≠ ⟨0, 0⟩ ∨ φ.place ⟨0, 0⟩ = ⟨0, 0⟩)
    {i : Identifier} (hi : ((templatesQuery (env.over sx) tree p text false).inTemplate.bind fun i => i.getIdentifier p) = some i) :
    toRange ((φ.ref i).start, (φ.ref i).stop) = movedRange g (toRange (i.start, i.stop)) ∧ (φ.ref i).stop.column = i.stop.column := by
  have hz := (Recast.same_imports ho).walk .nil .nil _ _ ht
  have hs : ∀ e ∈ (templatesQuery (env.over sx) tree p text false).imports.entries, Recast.Slots φ.GoodSlot e.2 := by
    refine Recast.slots_run (.inr ⟨rfl, rfl⟩) _ _ (fun c hc t h1 h2 h3 => .inl ⟨h3, ?_⟩) (fun e he => by cases he)
    have hc := selectCaptures_subset _ _ _ c hc
    obtain ⟨m, hm1, hm2⟩ := List.mem_flatten.mp hc
    obtain ⟨c', hc', hr⟩ := hz.flatten.mem_left hc
    obtain ⟨m', hm1', hm2'⟩ := List.mem_flatten.mp hc'
    rw [h1, h2, ← hr.start, ← hr.stop]
    exact ⟨hm m hm1 c hm2, hm' m' hm1' c' hm2'⟩
  generalize templatesQuery (env.over sx) tree p text false = s at hs hi
  obtain ⟨im, h1, h2⟩ := Option.bind_eq_some_iff.mp hi
  unfold JinjaImports.inTemplate at h1
  split at h1
  · rename_i id _
    obtain ⟨h3, h4⟩ := Recast.slots_under (hs (id, im) ((HMap.get?_eq_some_iff _ _ _).mp h1)) h2
    exact Recast.ref_moved hl hp h3 h4
  · cases h1

/-- unnamed definitions have no place -/
theorem recorded_unnamed {w : World} {s s' : Server} {uri : Str} {out : List Send} (hno : ¬ HasError (sx.root tree text))
    (h : Analysed (env.over sx) w s uri text tree s' out) {vs : List Identifier} (hv : s'.files.variables.get? uri = some vs)
    (ok : φ.Ok sx.digit) (ht : φ.Tree (sx.root tree text) (sx.root tree' text')) :
    ∀ v ∈ vs, v.name = [] → v.stop = ⟨0, 0⟩ := by
  obtain ⟨m, r, hma, hh⟩ := h.handled
  obtain ⟨defs, hd, hv'⟩ := (analyses_records hma h.template hh h.document h.parsed).1 (fun e => hno ((over_error ..).mp e))
  rw [hv] at hv'
  cases hv'
  intro v hmem hne
  rcases C14_from_text _ _ _ _ _ _ hd v hmem with ⟨_, _, h0⟩ | ⟨c, hc, hn, htx, _, _⟩
  · exact h0
  · obtain ⟨c', _, hr⟩ := (((Recast.same_definitions ok).walk .nil .nil _ _ ht).flatten).mem_left hc
    exact absurd (hne ▸ htx) (hr.sound (.inl hn)).2.2

end

/-- **C116** Completion commutes with inserting lines: at the moved position the same items are offered, and their edits are made in the
moved lines. -/
theorem C116_completion_partial (env : Env) (sx : Syntax) (φ : Recast) (g : Nat → Nat) (w w' w1 w2 : World) (s s' t t' : Server) (uri text text' : Str)
    (tree tree' : Tree) (out out' : List Send) (pos : Position) (trigger : TriggerKind)
    (ok : φ.Ok sx.digit) (hl : φ.Lines g) (ht : φ.Tree (sx.root tree text) (sx.root tree' text')) (ho : φ.Options sx.options)
    (he : env.rootEnd tree' = φ.place (env.rootEnd tree)) (hno : ¬ HasError (sx.root tree text))
    (hm : Measured (sx.root tree text)) (hm' : Measured (sx.root tree' text'))
    (hr : MeasuredRefs sx tree text) (hr' : MeasuredRefs sx tree' text')
    (h : Analysed (env.over sx) w s uri text tree s' out) (h' : Analysed (env.over sx) w' t uri text' tree' t' out')
    (hs : φ.SameTemplates uri s.files t.files) (hp : toPoint pos ≠ ⟨0, 0⟩ ∨ φ.place ⟨0, 0⟩ = ⟨0, 0⟩) :
    (∃ r r', s'.handle (env.over sx) w1 (.completion uri pos trigger) = .ok (s', [], .completion r) ∧
      t'.handle (env.over sx) w2 (.completion uri (movedPosition g pos) trigger) = .ok (t', [], .completion r') ∧
      OptPerm (r.map (List.map (movedItem g))) r') ∨
    ∃ e, s'.handle (env.over sx) w1 (.completion uri pos trigger) = .error e ∧
      t'.handle (env.over sx) w2 (.completion uri (movedPosition g pos) trigger) = .error e := by
  obtain ⟨vs, hv, hv'⟩ := recorded_recast ok ht he hno h h'
  have hs' : φ.SameTemplates uri s'.files t'.files := by
    obtain ⟨m, r, hm1, hh⟩ := h.handled
    obtain ⟨m', r', hm1', hh'⟩ := h'.handled
    have f1 := (analyses_template hm1 h.template hh h.document h.parsed hv).2
    have f2 := (analyses_template hm1' h'.template hh' h'.document h'.parsed hv').2
    refine ⟨hs.known.analysed h h' hv hv', fun u hu => ?_, by rw [f1.conf.vsc, f2.conf.vsc, hs.editor]⟩
    rw [(f1.same u hu).tree, (f2.same u hu).tree, hs.held u hu]
  have hn := recorded_unnamed hno h hv ok ht
  have items := fun c => Recast.items_moved (g := g) hl ok hv hv' hs' (by rw [h.parsed]; rfl) (by rw [h'.parsed]; rfl) hn w1 w2 pos c
  have hpos : toPoint (movedPosition g pos) = φ.place (toPoint pos) := by rw [hl.place]; rfl
  have key : t'.files.completion (env.over sx) uri (movedPosition g pos) trigger =
      Except.map (Option.map fun x => (Recast.movedType g x.1, x.2)) (s'.files.completion (env.over sx) uri pos trigger) := by
    unfold LspFiles.completion
    split
    · rfl
    · simp only [h.template, h.document, h.parsed, h'.document, h'.parsed, hpos]
      have n1 := snippets_none (env.over sx) tree text (toPoint pos) fun c hc hk => hno ((over_error ..).mp ⟨c, hc, hk⟩)
      have n2 := snippets_none (env.over sx) tree' text' (φ.place (toPoint pos)) fun c hc hk =>
        hno (ht.hasError.mp ((over_error ..).mp ⟨c, hc, hk⟩))
      rw [n1, n2]
      simp only
      have hq := objects_deep (env := env) ok ht hm hm' hp
      cases h1 : objectsQuery (env.over sx) tree (toPoint pos) text false with
      | error e =>
        cases h2 : objectsQuery (env.over sx) tree' (φ.place (toPoint pos)) text' false with
        | error e' => rw [h1, h2] at hq; cases hq; rfl
        | ok _ => rw [h1, h2] at hq; exact hq.elim
      | ok a =>
        cases h2 : objectsQuery (env.over sx) tree' (φ.place (toPoint pos)) text' false with
        | error e' => rw [h1, h2] at hq; exact hq.elim
        | ok b =>
          rw [h1, h2] at hq
          have hc := hq.completion ok hl (env.over sx).profile hp
          simp only [hc]
          cases h3 : a.completion (env.over sx).profile (toPoint pos) with
          | error e => rfl
          | ok c =>
            cases c with
            | some c => rfl
            | none =>
              have htm := template_recast (env := env) ok ht ho hp
              simp only [Except.map, Option.map_none, htm]
              cases h4 : ((templatesQuery (env.over sx) tree (toPoint pos) text false).inTemplate.bind fun i => i.getIdentifier (toPoint pos)) with
              | none => rfl
              | some i =>
                obtain ⟨e1, e2⟩ := reference_moved hl ht ho hr hr' hp h4
                simp only [Option.map_some]
                rw [Recast.start_moved hl (env.over sx).profile (toPoint pos) (Recast.ref_name φ i) e2, e1]
                cases completionStart (env.over sx).profile (toPoint pos) i with
                | error e => rfl
                | ok st => cases st <;> rfl
  simp only [Server.handle, Server.onCompletion, key]
  cases s'.files.completion (env.over sx) uri pos trigger with
  | error e => exact .inr ⟨e, rfl, rfl⟩
  | ok c =>
    cases c with
    | none => exact .inl ⟨none, none, rfl, rfl, trivial⟩
    | some c => exact .inl ⟨_, _, rfl, rfl, items c.1⟩

namespace Fix

/-- two lines are inserted after the second line -/
def gap (r : Nat) : Nat := if r < 2 then r else r + 2

def gapped : Recast := ⟨id, fun p => ⟨gap p.row, p.column⟩, id⟩

theorem gapped_ok : gapped.Ok digit :=
  ⟨fun _ _ h => h, rfl, fun _ _ => rfl, fun _ _ => rfl, fun p q h => by
    rw [Point.lt_def] at h ⊢
    simp only [gapped, gap]
    split <;> split <;> omega, fun _ _ h => h, rfl⟩

theorem gapped_lines : gapped.Lines gap := ⟨fun _ => rfl, fun _ => rfl⟩

/-- ```

{% set ab = 1 %}

{{ a }}
``` -/
def short : Syn := .node .other none 900 ⟨0, 0⟩ ⟨3, 7⟩ (some [])
  [st 3 1 16 [lf .keyword 15 1 3 6 c!"set", lf .identifier 16 1 7 9 c!"ab", lf .operator 17 1 10 11 c!"=", lf .identifier 18 1 12 13 c!"1"],
   lf .other 5 2 0 0 [], ex 6 3 0 7 [lf .identifier 20 3 3 4 c!"a"]]

/-- the tree of the text `n` is the one with more lines -/
def synGap : Syntax := { syn with root := fun _ text => if text = c!"n" then recast gapped short else short }

def envGap : Env := { env with rootEnd := fun t => match t with
  | .parsed _ text _ => if text = c!"n" then ⟨11, 9⟩ else ⟨9, 9⟩
  | .edited _ _ => ⟨9, 9⟩ }

theorem gap_tree : gapped.Tree (synGap.root treeOne []) (synGap.root treeTwo c!"n") := recast_tree gapped short (by decide)

theorem gap_options : gapped.Options synGap.options := fun _ _ _ _ _ _ => .single .nil

/-- the one item: `ab` replaces the `a` on row `r` -/
def itemAt (r : Nat) : CompletionItem :=
  { label := c!"ab", detail := some IdType.setVariable.completionDetail, kind := some IdType.setVariable.completionKind
    textEdit := some (.insertReplace c!"ab" ⟨⟨r, 3⟩, ⟨r, 4⟩⟩ ⟨⟨r, 3⟩, ⟨r, 4⟩⟩) }

end Fix

/-- the hypotheses of `C116_completion_partial` hold, and `ab` is offered for `a` on row 3, or on row 5 with two more lines -/
example : Fix.gapped.Ok Fix.synGap.digit ∧ Fix.gapped.Lines Fix.gap ∧ Fix.gapped.Tree (Fix.synGap.root Fix.treeOne []) (Fix.synGap.root Fix.treeTwo c!"n") ∧
    Fix.gapped.Options Fix.synGap.options ∧ Fix.envGap.rootEnd Fix.treeTwo = Fix.gapped.place (Fix.envGap.rootEnd Fix.treeOne) ∧
    ¬ HasError (Fix.synGap.root Fix.treeOne []) ∧ Measured (Fix.synGap.root Fix.treeOne []) ∧ Measured (Fix.synGap.root Fix.treeTwo c!"n") ∧
    MeasuredRefs Fix.synGap Fix.treeOne [] ∧ MeasuredRefs Fix.synGap Fix.treeTwo c!"n" ∧
    Fix.gapped.SameTemplates Fix.uriA Fix.server.files Fix.server.files ∧ Fix.gapped.place ⟨0, 0⟩ = ⟨0, 0⟩ ∧
    ∃ s' out t' out', Analysed (Fix.envGap.over Fix.synGap) Fix.world Fix.server Fix.uriA [] Fix.treeOne s' out ∧
      Analysed (Fix.envGap.over Fix.synGap) Fix.world Fix.server Fix.uriA c!"n" Fix.treeTwo t' out' ∧
      s'.handle (Fix.envGap.over Fix.synGap) Fix.world (.completion Fix.uriA ⟨3, 4⟩ .invoked) = .ok (s', [], .completion (some [Fix.itemAt 3])) ∧
      t'.handle (Fix.envGap.over Fix.synGap) Fix.world (.completion Fix.uriA (movedPosition Fix.gap ⟨3, 4⟩) .invoked) =
        .ok (t', [], .completion (some [Fix.itemAt 5])) ∧ movedItem Fix.gap (Fix.itemAt 3) = Fix.itemAt 5 := by
  refine ⟨Fix.gapped_ok, Fix.gapped_lines, Fix.gap_tree, Fix.gap_options, rfl, ?_, ⟨by unfold SmallPoint; decide, by decide⟩,
    ⟨by unfold SmallPoint; decide, by decide⟩, ?_, ?_, ⟨⟨fun _ _ => rfl, rfl, fun _ _ _ _ _ _ _ _ => rfl⟩, fun _ _ => rfl, rfl⟩, rfl, _, _, _, _,
    ⟨⟨.didOpen Fix.uriA [], _, .opened _, rfl⟩, by decide, rfl, rfl⟩, ⟨⟨.didOpen Fix.uriA c!"n", _, .opened _, rfl⟩, by decide, rfl, rfl⟩,
    rfl, rfl, rfl⟩
  · rintro ⟨n, hn, hk⟩
    exact absurd hk (by revert n; decide)
  · unfold MeasuredRefs SmallPoint; decide
  · unfold MeasuredRefs SmallPoint; decide

namespace Fix

/-- the tree of the text `n` is the one with a line more at the top -/
def synTop : Syntax := { syn with root := fun _ text => if text = c!"n" then recast (.below 1) short else short }

def envTop : Env := { env with rootEnd := fun t => match t with
  | .parsed _ text _ => if text = c!"n" then ⟨10, 9⟩ else ⟨9, 9⟩
  | .edited _ _ => ⟨9, 9⟩ }

end Fix

/-- **C116 is false at the very start of a template**: there all filters are offered, whatever is written there; when a line is inserted
above, nothing is offered at the moved position. -/
theorem C116_start_refuted : ∃ (env : Env) (sx : Syntax) (w : World) (s s' t' : Server) (uri text text' : Str) (tree tree' : Tree)
    (out out' : List Send),
    (Recast.below 1).Ok sx.digit ∧ (Recast.below 1).Lines (· + 1) ∧ (Recast.below 1).Tree (sx.root tree text) (sx.root tree' text') ∧
    (Recast.below 1).Options sx.options ∧ env.rootEnd tree' = (Recast.below 1).place (env.rootEnd tree) ∧ ¬ HasError (sx.root tree text) ∧
    Measured (sx.root tree text) ∧ Measured (sx.root tree' text') ∧ MeasuredRefs sx tree text ∧ MeasuredRefs sx tree' text' ∧
    Analysed (env.over sx) w s uri text tree s' out ∧ Analysed (env.over sx) w s uri text' tree' t' out' ∧
    (Recast.below 1).SameTemplates uri s.files s.files ∧
    s'.handle (env.over sx) w (.completion uri ⟨0, 0⟩ .invoked) = .ok (s', [], .completion (some (filterTable.map docItem))) ∧
    t'.handle (env.over sx) w (.completion uri (movedPosition (· + 1) ⟨0, 0⟩) .invoked) = .ok (t', [], .completion none) := by
  refine ⟨Fix.envTop, Fix.synTop, Fix.world, Fix.server, _, _, Fix.uriA, [], c!"n", Fix.treeOne, Fix.treeTwo, _, _, below_ok _ 1,
    ⟨fun _ => rfl, fun _ => rfl⟩, Fix.recast_tree (.below 1) Fix.short (by decide), fun _ _ _ _ _ _ => .single .nil, rfl, ?_,
    ⟨by unfold SmallPoint; decide, by decide⟩, ⟨by unfold SmallPoint; decide, by decide⟩, ?_, ?_,
    ⟨⟨.didOpen Fix.uriA [], _, .opened _, rfl⟩, by decide, rfl, rfl⟩, ⟨⟨.didOpen Fix.uriA c!"n", _, .opened _, rfl⟩, by decide, rfl, rfl⟩,
    ⟨⟨fun _ _ => rfl, rfl, fun _ _ _ _ _ _ _ _ => rfl⟩, fun _ _ => rfl, rfl⟩, rfl, rfl⟩
  · rintro ⟨n, hn, hk⟩
    exact absurd hk (by revert n; decide)
  · unfold MeasuredRefs SmallPoint; decide
  · unfold MeasuredRefs SmallPoint; decide

end JinjaLsp
