import Verif.Props.Recast
import Verif.Props.Attributes
import Verif.Lemmas.Total
import Verif.Props.Goto
import Verif.Props.History
/-
  C115: questions about a rewritten template get the rewritten answers.
-/

namespace JinjaLsp
open Spec

namespace Spec

/-- positions of the protocol have 32 bits; operators are not empty -/
structure Measured (root : Syn) : Prop where
  small : ∀ n ∈ root.flat, n.kind = .identifier → SmallPoint n.start ∧ SmallPoint n.stop
  solid : ∀ n ∈ root.flat, n.kind = .operator → n.stop ≠ ⟨0, 0⟩

/-- the range of a place in the protocol -/
def between (a b : Point) : Range := ⟨⟨a.row, a.column⟩, ⟨b.row, b.column⟩⟩

/-- two answers to goto-definition: the place of a definition in the template is rewritten; a file is the same, and so are the places in
other files -/
inductive Recast.GotoAs (φ : Recast) (uri : Str) : Option GotoResponse → Option GotoResponse → Prop where
  | own {a b : Point} : a ≠ ⟨0, 0⟩ → GotoAs φ uri (some (.scalar ⟨uri, between a b⟩)) (some (.scalar ⟨uri, between (φ.place a) (φ.place b)⟩))
  | file (u : Str) : GotoAs φ uri (some (.scalar ⟨u, between ⟨0, 0⟩ ⟨0, 0⟩⟩)) (some (.scalar ⟨u, between ⟨0, 0⟩ ⟨0, 0⟩⟩))
  | others {ls ls' : List Location} : ls.Perm ls' → GotoAs φ uri (some (.array ls)) (some (.array ls'))

/-- what the two servers know about everything but the template -/
structure Recast.SameElse (φ : Recast) (uri : Str) (f g : LspFiles) : Prop where
  others : ∀ u, u ≠ uri → g.variables.get? u = f.variables.get? u
  templates : g.config.templates = f.config.templates
  kept : ∀ u vs, u ≠ uri → f.variables.get? u = some vs → ∀ v ∈ vs, ∀ n, FirstSegment n v.name → φ.name n = n

end Spec

namespace Spec.Recast
variable {φ : Recast} {digit : Char → Bool}

/-! ### The object under the cursor -/

structure SmallObj (o : JinjaObject) : Prop where
  first : SmallPoint o.location.1
  last : SmallPoint o.location.2
  fields : ∀ a ∈ o.fields, SmallPoint a.2.2

/-- what the loop has found before the cursor -/
structure Cur (φ : Recast) (s s' : JinjaObjects) : Prop where
  base : φ.Objs s s'
  ident : (s.ident = (⟨0, 0⟩, ⟨0, 0⟩) ∧ s'.ident = (⟨0, 0⟩, ⟨0, 0⟩)) ∨
    (s.ident.1 ≠ ⟨0, 0⟩ ∧ s.ident.1 ≤ s.ident.2 ∧ s'.ident = (φ.place s.ident.1, φ.place s.ident.2))
  pipe : (s.pipe.2 = ⟨0, 0⟩ ∧ s'.pipe.2 = ⟨0, 0⟩) ∨ (s.pipe.2 ≠ ⟨0, 0⟩ ∧ s'.pipe.2 = φ.place s.pipe.2)
  named : ∀ o ∈ s.objects, o.name ≠ []
  placed : ∀ o ∈ s.objects, o.location.1 ≠ ⟨0, 0⟩ ∧ o.location.1 ≤ o.location.2
  small : ∀ o ∈ s.objects, SmallObj o
  small' : ∀ o ∈ s'.objects, SmallObj o

/-- captures that are found in a measured tree -/
structure GoodCap (c c' : Capture) : Prop where
  small : c.name = .justId → SmallPoint c.start ∧ SmallPoint c.stop
  small' : c.name = .justId → SmallPoint c'.start ∧ SmallPoint c'.stop
  solid : c.name = .pipe → c.stop ≠ ⟨0, 0⟩

theorem Cur.default (φ : Recast) : φ.Cur JinjaObjects.default JinjaObjects.default :=
  ⟨.default φ, .inl ⟨rfl, rfl⟩, .inl ⟨rfl, rfl⟩, fun _ h => (nomatch h), fun _ h => (nomatch h), fun _ h => (nomatch h), fun _ h => (nomatch h)⟩

theorem Cur.isFilter {s s' : JinjaObjects} (ok : φ.Ok digit) (h : φ.Cur s s') : s'.isFilter = s.isFilter := by
  unfold JinjaObjects.isFilter
  apply decide_eq_decide.mpr
  rcases h.ident with ⟨h1, h2⟩ | ⟨h1, _, h2⟩ <;> rcases h.pipe with ⟨h3, h4⟩ | ⟨h3, h4⟩
  · rw [h1, h2, h3, h4]
  · rw [h1, h2, h4]
    exact ⟨fun e => absurd e (ok.place_zero h3), fun e => absurd e h3⟩
  · rw [h2, h3, h4]
    exact ⟨fun e => absurd e.symm (ok.place_zero h1), fun e => absurd e.symm h1⟩
  · rw [h2, h4]
    exact ok.place_inj

theorem Cur.covers {s s' : JinjaObjects} (ok : φ.Ok digit) (h : φ.Cur s s') {p : Point} (hp : p ≠ ⟨0, 0⟩ ∨ φ.place ⟨0, 0⟩ = ⟨0, 0⟩) :
    (s'.ident.1 ≤ φ.place p ∧ φ.place p ≤ s'.ident.2) ↔ (s.ident.1 ≤ p ∧ p ≤ s.ident.2) := by
  rcases h.ident with ⟨h1, h2⟩ | ⟨_, _, h2⟩
  · rw [h1, h2]
    have key : ∀ q : Point, ((⟨0, 0⟩ : Point) ≤ q ∧ q ≤ ⟨0, 0⟩) ↔ q = ⟨0, 0⟩ := fun q =>
      ⟨fun h => Point.le_antisymm h.2 (Point.zero_le _), fun h => h ▸ ⟨Point.le_refl _, Point.le_refl _⟩⟩
    rw [key, key]
    rcases hp with hp | hp
    · exact ⟨fun e => absurd e (ok.place_zero hp), fun e => absurd e hp⟩
    · rw [← hp, ok.place_inj, hp]
  · rw [h2, ok.place_le, ok.place_le]

theorem smallObj_end {o : JinjaObject} (h : SmallObj o) : SmallPoint o.lastFieldEnd := by
  unfold JinjaObject.lastFieldEnd
  split
  · rename_i f hf; exact h.fields f (List.mem_of_getLast? hf)
  · exact h.last

theorem small_u32 {p : Point} (h : SmallPoint p) : (⟨toU32 p.row, toU32 p.column⟩ : Point) = p := by
  unfold toU32
  rw [Nat.mod_eq_of_lt h.1, Nat.mod_eq_of_lt h.2]

theorem toRange2_full {o : JinjaObject} (h : SmallObj o) (p : Point) :
    toRange2 o.fullRange p = (decide (o.location.1 ≤ p) && decide (p ≤ o.lastFieldEnd)) := by
  unfold toRange2 JinjaObject.fullRange toRange toPoint
  simp only [small_u32 h.first, small_u32 (smallObj_end h)]

theorem obj_end (φ : Recast) (o : JinjaObject) : (φ.obj o).lastFieldEnd = φ.place o.lastFieldEnd := by
  unfold JinjaObject.lastFieldEnd obj
  simp only [List.getLast?_map]
  cases o.fields.getLast? <;> rfl

theorem Cur.isHover {s s' : JinjaObjects} (ok : φ.Ok digit) (h : φ.Cur s s') {p : Point} (hp : p ≠ ⟨0, 0⟩ ∨ φ.place ⟨0, 0⟩ = ⟨0, 0⟩) :
    s'.isHover (φ.place p) = s.isHover p := by
  unfold JinjaObjects.isHover
  have h1 := h.covers ok hp
  have h2 : toRange2 s'.fullRange (φ.place p) = toRange2 s.fullRange p := by
    unfold JinjaObjects.fullRange
    rw [h.base.objs, List.getLast?_map]
    cases hl : s.objects.getLast? with
    | none =>
      simp only [Option.map_none]
      have key : ∀ q : Point, toRange2 Range.zero q = decide (q = ⟨0, 0⟩) := by
        intro q
        unfold toRange2
        have : ((⟨0, 0⟩ : Point) ≤ q ∧ q ≤ ⟨0, 0⟩) ↔ q = ⟨0, 0⟩ :=
          ⟨fun h => Point.le_antisymm h.2 (Point.zero_le _), fun h => h ▸ ⟨Point.le_refl _, Point.le_refl _⟩⟩
        rw [← decide_eq_decide.mpr this, Bool.decide_and]
        rfl
      rw [key, key]
      apply decide_eq_decide.mpr
      rcases hp with hp | hp
      · exact ⟨fun e => absurd e (ok.place_zero hp), fun e => absurd e hp⟩
      · rw [← hp, ok.place_inj, hp]
    | some o =>
      have hm := List.mem_of_getLast? hl
      simp only [Option.map_some]
      have hm' : φ.obj o ∈ s'.objects := by rw [h.base.objs]; exact List.mem_map_of_mem hm
      rw [toRange2_full (h.small o hm), toRange2_full (h.small' _ hm'), obj_end]
      show (decide (φ.place o.location.1 ≤ φ.place p) && decide (φ.place p ≤ φ.place o.lastFieldEnd)) = _
      simp only [ok.place_le]
  rw [h2, ← Bool.decide_and, ← Bool.decide_and, decide_eq_decide.mpr h1]

theorem Cur.isIdent {s s' : JinjaObjects} (ok : φ.Ok digit) (h : φ.Cur s s') {p : Point} (hp : p ≠ ⟨0, 0⟩ ∨ φ.place ⟨0, 0⟩ = ⟨0, 0⟩) :
    s'.isIdent (φ.place p) = (s.isIdent p).map φ.name := by
  unfold JinjaObjects.isIdent
  simp only [h.covers ok hp]
  split
  · rw [h.base.objs, List.getLast?_map, Option.map_map, Option.map_map]
    rfl
  · rfl

/-- one more object -/
theorem Cur.push {s s' : JinjaObjects} (ok : φ.Ok digit) (h : φ.Cur s s') {t : Str} {a b : Point} (ha : a ≠ ⟨0, 0⟩) (hab : a ≤ b) (ht : t ≠ [])
    (hs : SmallPoint a ∧ SmallPoint b) (hs' : SmallPoint (φ.place a) ∧ SmallPoint (φ.place b)) :
    φ.Cur (s.pushObject t a b).1 (s'.pushObject (φ.name t) (φ.place a) (φ.place b)).1 ∧
      (s'.pushObject (φ.name t) (φ.place a) (φ.place b)).2 = (s.pushObject t a b).2 := by
  have hb := h.base.push ok (t := t) ha hab
  unfold JinjaObjects.pushObject at hb ⊢
  simp only [ok.name_reserved] at hb ⊢
  split
  · exact ⟨h, rfl⟩
  · rename_i hr
    rw [if_neg hr, if_neg hr] at hb
    refine ⟨⟨hb, .inr ⟨ha, hab, rfl⟩, h.pipe, ?_, ?_, ?_, ?_⟩, rfl⟩
    · intro o ho
      rcases List.mem_append.mp ho with ho | ho
      · exact h.named o ho
      · cases List.mem_singleton.mp ho; exact ht
    · intro o ho
      rcases List.mem_append.mp ho with ho | ho
      · exact h.placed o ho
      · cases List.mem_singleton.mp ho; exact ⟨ha, hab⟩
    · intro o ho
      rcases List.mem_append.mp ho with ho | ho
      · exact h.small o ho
      · cases List.mem_singleton.mp ho; exact ⟨hs.1, hs.2, fun _ h => (nomatch h)⟩
    · intro o ho
      rcases List.mem_append.mp ho with ho | ho
      · exact h.small' o ho
      · cases List.mem_singleton.mp ho; exact ⟨hs'.1, hs'.2, fun _ h => (nomatch h)⟩

theorem Cur.build {s s' : JinjaObjects} {c c' : Capture} (ok : φ.Ok digit) (h : φ.Cur s s') (hc : φ.Cap c c') (hg : GoodCap c c')
    (hn : c.name = .justId) : φ.Cur (s.buildObject c).1 (s'.buildObject c').1 ∧ (s'.buildObject c').2 = (s.buildObject c).2 := by
  obtain ⟨h1, h2, h3⟩ := hc.sound (.inr hn)
  have ht := hc.names (by rw [hn]; trivial)
  have hb := h.base.build ok hc hn
  have hs := hg.small hn
  have hs' := hg.small' hn
  unfold JinjaObjects.buildObject at hb ⊢
  rw [ht] at hb ⊢
  cases hct : c.text with
  | none => exact ⟨h, rfl⟩
  | some t =>
    have htn : t ≠ [] := by rintro rfl; exact h3 hct
    have e : (c'.start.row = s'.dot.2.row ∧ c'.start.column = s'.dot.2.column) ↔ (c.start.row = s.dot.2.row ∧ c.start.column = s.dot.2.column) := by
      rw [← Point.ext_iff, ← Point.ext_iff, hc.start]
      exact h.base.dot.eq_iff ok h1
    rw [hct] at hb
    simp only [Option.map_some, e] at hb ⊢
    have hp := h.push ok (t := t) h1 h2 htn hs (by rw [← hc.start, ← hc.stop]; exact hs')
    rw [← hc.start, ← hc.stop] at hp
    split
    · rename_i hd
      rw [if_pos hd, if_pos hd] at hb
      rw [h.base.objs, List.getLast?_map] at hb ⊢
      cases hl : s.objects.getLast? with
      | none => simp only [Option.map_none]; exact hp
      | some o =>
        have hm := List.mem_of_getLast? hl
        rw [hl] at hb
        simp only [Option.map_some] at hb ⊢
        refine ⟨⟨hb, .inr ⟨h1, h2, by rw [hc.start, hc.stop]⟩, h.pipe, ?_, ?_, ?_, ?_⟩, by first | rfl | trivial⟩
        · intro o' ho
          rcases List.mem_append.mp ho with ho | ho
          · exact h.named o' ((List.dropLast_sublist _).subset ho)
          · cases List.mem_singleton.mp ho; exact h.named o hm
        · intro o' ho
          rcases List.mem_append.mp ho with ho | ho
          · exact h.placed o' ((List.dropLast_sublist _).subset ho)
          · cases List.mem_singleton.mp ho; exact h.placed o hm
        · intro o' ho
          rcases List.mem_append.mp ho with ho | ho
          · exact h.small o' ((List.dropLast_sublist _).subset ho)
          · cases List.mem_singleton.mp ho
            have := h.small o hm
            refine ⟨this.first, this.last, fun a ha => ?_⟩
            rcases List.mem_append.mp ha with ha | ha
            · exact this.fields a ha
            · cases List.mem_singleton.mp ha; exact hs.2
        · intro o' ho
          rcases List.mem_append.mp ho with ho | ho
          · exact h.small' o' (by rw [h.base.objs]; exact (List.dropLast_sublist _).subset ho)
          · cases List.mem_singleton.mp ho
            have := h.small' (φ.obj o) (by rw [h.base.objs]; exact List.mem_map_of_mem hm)
            refine ⟨this.first, this.last, fun a ha => ?_⟩
            rcases List.mem_append.mp ha with ha | ha
            · exact this.fields a ha
            · cases List.mem_singleton.mp ha; exact hs'.2
    · exact hp

def CurStep (φ : Recast) : Option (JinjaObjects × ObjectAction) → Option (JinjaObjects × ObjectAction) → Prop
  | none, none => True
  | some (s, a), some (s', a') => φ.Cur s s' ∧ a' = a
  | _, _ => False

theorem Cur.check {s s' : JinjaObjects} {c c' : Capture} (ok : φ.Ok digit) (h : φ.Cur s s') (hc : φ.Cap c c') (hg : GoodCap c c') :
    φ.CurStep (s.check c) (s'.check c') := by
  unfold JinjaObjects.check
  rw [hc.name]
  cases hn : c.name with
  | error => trivial
  | justId => exact h.build ok hc hg hn
  | dot => exact ⟨⟨⟨h.base.objs, .inl hc.stop, h.base.pipe, h.base.test⟩, h.ident, h.pipe, h.named, h.placed, h.small, h.small'⟩, rfl⟩
  | pipe =>
    rw [hc.words (by rw [hn]; trivial)]
    cases c.text with
    | none => trivial
    | some t =>
      simp only
      split
      · exact ⟨⟨⟨h.base.objs, h.base.dot, .inl hc.stop, h.base.test⟩, h.ident, .inr ⟨hg.solid hn, hc.stop⟩, h.named, h.placed, h.small, h.small'⟩, rfl⟩
      · exact ⟨h, rfl⟩
  | is => exact ⟨⟨⟨h.base.objs, h.base.dot, h.base.pipe, rfl⟩, h.ident, h.pipe, h.named, h.placed, h.small, h.small'⟩, rfl⟩
  | expr => exact ⟨⟨⟨h.base.objs, h.base.dot, h.base.pipe, h.base.test⟩, h.ident, h.pipe, h.named, h.placed, h.small, h.small'⟩, rfl⟩
  | _ => exact ⟨h, rfl⟩

theorem mem_set_cases {α : Type} {l : List α} {i : Nat} {a x : α} (h : x ∈ l.set i a) : x ∈ l ∨ x = a := by
  rcases List.mem_or_eq_of_mem_set h with h | h
  · exact .inl h
  · exact .inr h

theorem Cur.finish {s s' : JinjaObjects} {prof : Profile} {k : Nat} {e e' : (Point × Point) × ExprRange} (h : φ.Cur s s') :
    Agree φ.Cur (objectsFinish prof s k e) (objectsFinish prof s' k e') := by
  unfold objectsFinish
  have hget : s'.objects[k]? = s.objects[k]?.map φ.obj := by rw [h.base.objs, List.getElem?_map]
  rw [hget]
  have key : ∀ {t t' : JinjaObjects}, φ.Cur t t' →
      Agree φ.Cur (match usub prof t.objects.length 1 with
        | .error e => .error e
        | .ok l => if k ≠ l then .ok { t with objects := t.objects.dropLast, expr := e.1, exprRange := e.2 } else .ok t)
      (match usub prof t'.objects.length 1 with
        | .error e => .error e
        | .ok l => if k ≠ l then .ok { t' with objects := t'.objects.dropLast, expr := e'.1, exprRange := e'.2 } else .ok t') := by
    intro t t' ht
    rw [ht.base.objs, List.length_map]
    cases usub prof t.objects.length 1 with
    | error e => rfl
    | ok l =>
      simp only
      split
      · refine ⟨⟨?_, ht.base.dot, ht.base.pipe, ht.base.test⟩, ht.ident, ht.pipe, fun o ho => ht.named o ((List.dropLast_sublist _).subset ho),
          fun o ho => ht.placed o ((List.dropLast_sublist _).subset ho), fun o ho => ht.small o ((List.dropLast_sublist _).subset ho),
          fun o ho => ht.small' o (by rw [ht.base.objs]; exact (List.dropLast_sublist _).subset ho)⟩
        simp only [List.map_dropLast]
      · exact ht
  cases ho : s.objects[k]? with
  | none => exact key h
  | some o =>
    have hm : o ∈ s.objects := List.mem_of_getElem? ho
    have hm' : φ.obj o ∈ s'.objects := by rw [h.base.objs]; exact List.mem_map_of_mem hm
    refine key (t := { s with ident := o.location, objects := s.objects.set k { o with captureFirst := true } })
      (t' := { s' with ident := (φ.obj o).location, objects := s'.objects.set k { φ.obj o with captureFirst := true } })
      ⟨⟨?_, h.base.dot, h.base.pipe, h.base.test⟩, .inr ⟨(h.placed o hm).1, (h.placed o hm).2, rfl⟩, h.pipe, ?_, ?_, ?_, ?_⟩
    · simp only [h.base.objs, List.map_set]
      rfl
    · intro x hx
      rcases mem_set_cases hx with hx | rfl
      · exact h.named x hx
      · exact h.named o hm
    · intro x hx
      rcases mem_set_cases hx with hx | rfl
      · exact h.placed x hx
      · exact h.placed o hm
    · intro x hx
      rcases mem_set_cases hx with hx | rfl
      · exact h.small x hx
      · exact ⟨(h.small o hm).first, (h.small o hm).last, (h.small o hm).fields⟩
    · intro x hx
      rcases mem_set_cases hx with hx | rfl
      · exact h.small' x hx
      · exact ⟨(h.small' _ hm').first, (h.small' _ hm').last, (h.small' _ hm').fields⟩

theorem Cur.loop {prof : Profile} {p : Point} (ok : φ.Ok digit) (hp : p ≠ ⟨0, 0⟩ ∨ φ.place ⟨0, 0⟩ = ⟨0, 0⟩) {cs cs' : List Capture}
    (hz : Zip (fun c c' => φ.Cap c c' ∧ GoodCap c c') cs cs') : ∀ {st st' : ObjLoop}, φ.Cur st.objects st'.objects →
    st'.continued = st.continued → st'.myId = st.myId →
    Agree φ.Cur (objectsLoop prof p false st cs) (objectsLoop prof (φ.place p) false st' cs') := by
  induction hz with
  | nil => intro st st' h _ _; exact h
  | @cons c c' cs cs' hc _ ih =>
    intro st st' h h1 h2
    obtain ⟨hc, hg⟩ := hc
    unfold objectsLoop
    simp only [Bool.false_or, hc.start, ok.place_le, hc.name, h.isFilter ok, h1, h.isHover ok hp]
    have hstep := h.check ok hc hg
    split
    · cases hs : st.objects.check c with
      | none =>
        cases hs' : st'.objects.check c' with
        | none => exact h
        | some _ => rw [hs, hs'] at hstep; exact hstep.elim
      | some x =>
        cases hs' : st'.objects.check c' with
        | none => rw [hs, hs'] at hstep; exact hstep.elim
        | some y =>
          rw [hs, hs'] at hstep
          exact ih hstep.1 rfl h2
    · split
      · split
        · exact h
        · split
          · split
            · have hl : st'.objects.objects.length = st.objects.objects.length := by rw [h.base.objs, List.length_map]
              rw [hl]
              cases usub prof st.objects.objects.length 1 with
              | error e => rfl
              | ok k => exact ih h rfl rfl
            · exact h
          · cases hs : st.objects.check c with
            | none =>
              cases hs' : st'.objects.check c' with
              | none => exact h
              | some _ => rw [hs, hs'] at hstep; exact hstep.elim
            | some x =>
              cases hs' : st'.objects.check c' with
              | none => rw [hs, hs'] at hstep; exact hstep.elim
              | some y =>
                rw [hs, hs'] at hstep
                obtain ⟨o, act⟩ := x
                obtain ⟨o', act'⟩ := y
                obtain ⟨hcur, rfl⟩ := hstep
                rw [h2]
                cases act' with
                | expression => exact hcur.finish
                | newObject => exact hcur.finish
                | invalid => exact hcur.finish
                | newField => exact ih hcur rfl rfl
                | newFilter => exact ih hcur rfl rfl
                | newTest => exact ih hcur rfl rfl
      · exact ih h h1 h2

/-! ### The template name under the cursor -/

/-- a reference is filled or has no place -/
def Slot (t : Identifier) : Prop := t.idType = .jinjaTemplate ∨ (t.start = ⟨0, 0⟩ ∧ t.stop = ⟨0, 0⟩)

def Slots (P : Identifier → Prop) : Import → Prop
  | .extends t => P t
  | .include ts => ∀ t ∈ ts, P t
  | .from_ t _ => P t
  | .import_ t _ => P t

theorem slot_fill {P : Identifier → Prop} {t : Identifier} {a b : Point}
    (hf : ∀ t : Identifier, t.start = a → t.stop = b → t.idType = .jinjaTemplate → P t) (h : P t) (n : Str) :
    P (JinjaImports.fillTemplate t n a b) := by
  unfold JinjaImports.fillTemplate
  split
  · exact hf _ rfl rfl rfl
  · exact h

theorem slots_insert {P : Identifier → Prop} {m : HMap Nat Import} (h : ∀ e ∈ m.entries, Slots P e.2) (id : Nat) {v : Import} (hv : Slots P v) :
    ∀ e ∈ (m.insert id v).entries, Slots P e.2 := by
  intro e he
  simp only [HMap.insert, List.mem_cons] at he
  rcases he with rfl | he
  · exact hv
  · exact h e (List.mem_filter.mp he).1

theorem slots_open {P : Identifier → Prop} {s : JinjaImports} (h : ∀ e ∈ s.imports.entries, Slots P e.2) (id : Nat) {v : Import}
    (again : Option Nat) (hv : Slots P v) : ∀ e ∈ (s.openImport id v again).imports.entries, Slots P e.2 := by
  unfold JinjaImports.openImport
  split
  · exact h
  · exact slots_insert h id hv

theorem slot_default : Slot Identifier.default := .inr ⟨rfl, rfl⟩

theorem slots_check {P : Identifier → Prop} (h0 : P Identifier.default) {s s' : JinjaImports} (h : ∀ e ∈ s.imports.entries, Slots P e.2)
    (c : Capture) (hf : ∀ t : Identifier, t.start = c.start → t.stop = c.stop → t.idType = .jinjaTemplate → P t) (hk : s.check c = some s') :
    ∀ e ∈ s'.imports.entries, Slots P e.2 := by
  have get : ∀ {id v}, s.imports.get? id = some v → Slots P v := fun {id v} hg => h (id, v) ((HMap.get?_eq_some_iff _ _ _).mp hg)
  unfold JinjaImports.check at hk
  split at hk
  · cases hk
  · injection hk with hk; subst hk; exact slots_open h _ _ h0
  · injection hk with hk; subst hk; exact slots_open h _ _ (fun t ht => by cases ht)
  · injection hk with hk; subst hk; exact slots_open h _ _ h0
  · injection hk with hk; subst hk; exact slots_open h _ _ h0
  · split at hk
    · injection hk with hk; subst hk; exact h
    · split at hk
      · cases hk
      · rename_i last hl
        have hlast := get hl
        split at hk
        · cases hk
        · simp only [Option.some.injEq] at hk
          subst hk
          refine slots_insert h _ ?_
          cases last with
          | «extends» t => exact slot_fill hf hlast _
          | «include» ts =>
            intro t ht
            rcases List.mem_append.mp ht with ht | ht
            · exact hlast t ht
            · cases List.mem_singleton.mp ht
              exact hf _ rfl rfl rfl
          | from_ t ids => exact slot_fill hf hlast _
          | import_ t i => exact slot_fill hf hlast _
  · split at hk
    · injection hk with hk; subst hk; exact h
    · split at hk
      · cases hk
      · split at hk
        · cases hk
        · rename_i last hl
          have hlast := get hl
          split at hk
          · injection hk with hk; subst hk
            exact slots_insert h _ hlast
          · split at hk
            · injection hk with hk; subst hk
              exact slots_insert h _ hlast
            · injection hk with hk; subst hk; exact h
          · injection hk with hk; subst hk; exact h
  · injection hk with hk; subst hk; exact h

theorem slots_run {P : Identifier → Prop} (h0 : P Identifier.default) : ∀ (l : List Capture) (s : JinjaImports),
    (∀ c ∈ l, ∀ t : Identifier, t.start = c.start → t.stop = c.stop → t.idType = .jinjaTemplate → P t) →
    (∀ e ∈ s.imports.entries, Slots P e.2) → ∀ e ∈ (s.run l).imports.entries, Slots P e.2
  | [], _, _, h => h
  | c :: l, s, hf, h => by
    unfold JinjaImports.run
    split
    · exact h
    · rename_i s' hk
      exact slots_run h0 l s' (fun x hx => hf x (List.mem_cons_of_mem _ hx)) (slots_check h0 h c (hf c List.mem_cons_self) hk)

theorem origin_covers (ok : φ.Ok digit) {p : Point} (hp : p ≠ ⟨0, 0⟩ ∨ φ.place ⟨0, 0⟩ = ⟨0, 0⟩) :
    ((⟨0, 0⟩ : Point) ≤ φ.place p ∧ φ.place p ≤ ⟨0, 0⟩) ↔ ((⟨0, 0⟩ : Point) ≤ p ∧ p ≤ ⟨0, 0⟩) := by
  have key : ∀ q : Point, ((⟨0, 0⟩ : Point) ≤ q ∧ q ≤ ⟨0, 0⟩) ↔ q = ⟨0, 0⟩ := fun q =>
    ⟨fun h => Point.le_antisymm h.2 (Point.zero_le _), fun h => h ▸ ⟨Point.le_refl _, Point.le_refl _⟩⟩
  rw [key, key]
  rcases hp with hp | hp
  · exact ⟨fun e => absurd e (ok.place_zero hp), fun e => absurd e hp⟩
  · rw [← hp, ok.place_inj, hp]

theorem ref_covers (ok : φ.Ok digit) {p : Point} (hp : p ≠ ⟨0, 0⟩ ∨ φ.place ⟨0, 0⟩ = ⟨0, 0⟩) {t : Identifier} (h : Slot t) :
    (φ.ref t).covers (φ.place p) = t.covers p := by
  unfold Identifier.covers ref
  rw [← Bool.decide_and, ← Bool.decide_and]
  apply decide_eq_decide.mpr
  split
  · simp only [ok.place_le]
  · rename_i hn
    rcases h with h | ⟨h1, h2⟩
    · exact absurd h hn
    · rw [h1, h2]; exact origin_covers ok hp

theorem find_refs (ok : φ.Ok digit) {p : Point} (hp : p ≠ ⟨0, 0⟩ ∨ φ.place ⟨0, 0⟩ = ⟨0, 0⟩) : ∀ {ts : List Identifier}, (∀ t ∈ ts, Slot t) →
    (ts.map φ.ref).find? (fun t => t.covers (φ.place p)) = (ts.find? fun t => t.covers p).map φ.ref
  | [], _ => rfl
  | t :: ts, h => by
    rw [List.map_cons, List.find?_cons, List.find?_cons, ref_covers ok hp (h t List.mem_cons_self),
      find_refs ok hp fun x hx => h x (List.mem_cons_of_mem _ hx)]
    cases t.covers p <;> rfl

theorem Imp.under (ok : φ.Ok digit) {p : Point} (hp : p ≠ ⟨0, 0⟩ ∨ φ.place ⟨0, 0⟩ = ⟨0, 0⟩) {i i' : Import} (h : φ.Imp i i') (hs : Slots Slot i) :
    i'.getIdentifier (φ.place p) = (i.getIdentifier p).map φ.ref := by
  cases h with
  | «extends» t => simp only [Import.getIdentifier, ref_covers ok hp hs]; split <;> rfl
  | «include» ts => exact find_refs ok hp hs
  | from_ => simp only [Import.getIdentifier, ref_covers ok hp hs]; split <;> rfl
  | import_ => simp only [Import.getIdentifier, ref_covers ok hp hs]; split <;> rfl

theorem select_before (ok : φ.Ok digit) (p : Point) {ms ms' : List (List Capture)} (h : Zip (Zip φ.Cap) ms ms') :
    Zip φ.Cap (selectCaptures ms p false) (selectCaptures ms' (φ.place p) false) := by
  unfold selectCaptures
  refine (h.map (S := Zip φ.Cap) fun m m' hm => ?_).flatten
  induction hm with
  | nil => exact .nil
  | @cons c c' m m' hc _ ih =>
    by_cases hi : c.start ≤ p
    · rw [List.filter_cons_of_pos (by simpa using hi), List.filter_cons_of_pos (by simpa [hc.start, ok.place_le] using hi)]
      exact .cons hc ih
    · rw [List.filter_cons_of_neg (by simpa using hi), List.filter_cons_of_neg (by simpa [hc.start, ok.place_le] using hi)]
      exact ih

/-! ### The latest definition -/

theorem final_named {i : Identifier} (h : i.name ≠ []) :
    (φ.final i).name = φ.name i.name ∧ (φ.final i).start = φ.place i.start ∧ (φ.final i).stop = φ.place i.stop := by
  unfold final ident
  rw [if_neg h]
  exact ⟨rfl, rfl, rfl⟩

theorem final_scope (φ : Recast) (i : Identifier) : (φ.final i).scopeEnd = φ.place i.scopeEnd := rfl

theorem final_type (φ : Recast) (i : Identifier) : (φ.final i).idType = i.idType := by unfold final ident; split <;> rfl

theorem final_name (ok : φ.Ok digit) (i : Identifier) : (φ.final i).name = φ.name i.name := by
  by_cases h : i.name = []
  · unfold final ident; rw [if_pos h]; show i.name = _; rw [h, ok.empty]
  · exact (final_named h).1

/-- neither of two maxima is before the other -/
theorem latest_same (ok : φ.Ok digit) {l : List Identifier} (hn : ∀ i ∈ l, i.name ≠ []) :
    (iterMax l = none ∧ iterMax (l.map φ.final) = none) ∨
      ∃ m ∈ l, ∃ x ∈ l, iterMax l = some m ∧ iterMax (l.map φ.final) = some (φ.final x) ∧ x.start = m.start ∧ x.stop = m.stop := by
  have cmp_places : ∀ {a b : Identifier}, a.cmp b ≠ .gt → a.start ≤ b.start ∧ (a.start = b.start → a.stop ≤ b.stop) := by
    intro a b h
    unfold Identifier.cmp at h
    constructor
    · refine Point.not_lt.mp fun hlt => h ?_
      rw [Ordering.then_eq_gt]; exact .inl (Point.cmp_gt.mpr hlt)
    · intro e
      refine Point.not_lt.mp fun hlt => h ?_
      rw [Ordering.then_eq_gt]; refine .inr ⟨Point.cmp_eq.mpr e, ?_⟩
      rw [Ordering.then_eq_gt]; exact .inl (Point.cmp_gt.mpr hlt)
  cases hm : iterMax l with
  | none =>
    cases iterMax_none hm
    exact .inl ⟨rfl, rfl⟩
  | some m =>
    have hml := (iterMax_some hm).1
    cases hm' : iterMax (l.map φ.final) with
    | none =>
      rw [List.map_eq_nil_iff.mp (iterMax_none hm')] at hml
      cases hml
    | some m' =>
      obtain ⟨x, hx, rfl⟩ := List.mem_map.mp (iterMax_some hm').1
      obtain ⟨h1, h2⟩ := cmp_places (iterMax_greatest hm x hx)
      obtain ⟨h3, h4⟩ := cmp_places (iterMax_greatest hm' _ (List.mem_map_of_mem hml))
      obtain ⟨_, e1, e2⟩ := final_named (φ := φ) (hn m hml)
      obtain ⟨_, e3, e4⟩ := final_named (φ := φ) (hn x hx)
      rw [e1, e3, ok.place_le] at h3
      have e := Point.le_antisymm h1 h3
      have h4 := h4 (by rw [e1, e3, e])
      rw [e2, e4, ok.place_le] at h4
      exact .inr ⟨m, hml, x, hx, rfl, rfl, e, Point.le_antisymm (h2 e) h4⟩

end Spec.Recast

/-! ### Trees -/

theorem Spec.Zip.upgrade {α β : Type} {R S : α → β → Prop} {as : List α} {bs : List β} (h : Zip R as bs)
    (hf : ∀ a ∈ as, ∀ b ∈ bs, R a b → S a b) : Zip S as bs := by
  induction h with
  | nil => exact .nil
  | cons h _ ih =>
    exact .cons (hf _ List.mem_cons_self _ List.mem_cons_self h)
      (ih fun a ha b hb => hf a (List.mem_cons_of_mem _ ha) b (List.mem_cons_of_mem _ hb))

/-- the captured operators -/
theorem objects_pipes {digit : Char → Bool} {root : Syn} {c : Capture} (h : c ∈ (Syn.walk (qObjects digit) [] [] root).flatten)
    (hn : c.name = .pipe) : ∃ n ∈ root.flat, n.kind = .operator ∧ n.stop = c.stop := by
  obtain ⟨m, hm, hc⟩ := List.mem_flatten.mp h
  obtain ⟨x, hx, v, hm⟩ := (Syn.mem_walk [] [] root).mp hm
  cases v with
  | leave => cases hm
  | enter =>
    have key : ∀ {b : Bool} {cn : CapName} {m : List Capture}, m ∈ single b cn x.1 x.2.2 → c ∈ m → cn = .pipe ∧ c = x.2.2.cap .pipe x.1 := by
      intro b cn m hm hc
      unfold single at hm
      split at hm
      · cases List.mem_singleton.mp hm
        cases List.mem_singleton.mp hc
        cases cn <;> first | exact ⟨rfl, rfl⟩ | cases hn
      · cases hm
    simp only [qObjects] at hm
    split at hm
    · rename_i hk
      rcases List.mem_append.mp hm with hm | hm
      · exact ⟨x.2.2, (Syn.mem_flat_iff [] [] root).mpr ⟨x, hx, rfl⟩, hk, by rw [(key hm hc).2]; rfl⟩
      · cases (key hm hc).1
    · cases (key hm hc).1
    · cases (key hm hc).1
    · cases (key hm hc).1
    · cases (key hm hc).1
    · cases hm

section
variable {env : Env} {sx : Syntax} {φ : Recast} {tree tree' : Tree} {text text' : Str}

/-- the objects before the cursor in a template and in the rewritten one -/
theorem objects_recast (ok : φ.Ok sx.digit) (ht : φ.Tree (sx.root tree text) (sx.root tree' text')) (hm : Measured (sx.root tree text))
    (hm' : Measured (sx.root tree' text')) {p : Point} (hp : p ≠ ⟨0, 0⟩ ∨ φ.place ⟨0, 0⟩ = ⟨0, 0⟩) :
    Agree φ.Cur (objectsQuery (env.over sx) tree p text false) (objectsQuery (env.over sx) tree' (φ.place p) text' false) := by
  have hz := ((Recast.same_objects ok).walk .nil .nil _ _ ht).flatten
  unfold objectsQuery
  refine Recast.Cur.loop ok hp (hz.upgrade fun c hc c' hc' h => ⟨h, ?_, ?_, ?_⟩) (Recast.Cur.default φ) rfl rfl
  · intro hn
    obtain ⟨n, h1, h2, _, h3, h4, _⟩ := objects_names hc hn
    rw [← h3, ← h4]
    exact hm.small n h1 h2
  · intro hn
    obtain ⟨n, h1, h2, _, h3, h4, _⟩ := objects_names hc' (h.name.trans hn)
    rw [← h3, ← h4]
    exact hm'.small n h1 h2
  · intro hn
    obtain ⟨n, h1, h2, h3⟩ := objects_pipes hc hn
    rw [← h3]
    exact hm.solid n h1 h2

/-- the template name under the cursor -/
theorem template_recast (ok : φ.Ok sx.digit) (ht : φ.Tree (sx.root tree text) (sx.root tree' text')) (ho : φ.Options sx.options)
    {p : Point} (hp : p ≠ ⟨0, 0⟩ ∨ φ.place ⟨0, 0⟩ = ⟨0, 0⟩) :
    ((templatesQuery (env.over sx) tree' (φ.place p) text' false).inTemplate.bind fun i => i.getIdentifier (φ.place p)) =
      ((templatesQuery (env.over sx) tree p text false).inTemplate.bind fun i => i.getIdentifier p).map φ.ref := by
  have hz := Recast.select_before ok p ((Recast.same_imports ho).walk .nil .nil _ _ ht)
  have hi : φ.Imps (templatesQuery (env.over sx) tree p text false) (templatesQuery (env.over sx) tree' (φ.place p) text' false) :=
    Recast.Imps.run ok hz (Recast.Imps.default φ)
  have hs : ∀ e ∈ (templatesQuery (env.over sx) tree p text false).imports.entries, Recast.Slots Recast.Slot e.2 :=
    Recast.slots_run Recast.slot_default _ _ (fun _ _ _ _ _ h => .inl h) (fun e he => by cases he)
  generalize templatesQuery (env.over sx) tree p text false = s at hi hs ⊢
  generalize templatesQuery (env.over sx) tree' (φ.place p) text' false = s' at hi ⊢
  unfold JinjaImports.inTemplate
  rw [hi.current]
  cases s.current with
  | none => rfl
  | some id =>
    simp only [Option.map_some]
    have hg := hi.get ok id
    cases h1 : s.imports.get? id with
    | none =>
      cases h2 : s'.imports.get? (φ.node id) with
      | none => rfl
      | some _ => rw [h1, h2] at hg; exact hg.elim
    | some a =>
      cases h2 : s'.imports.get? (φ.node id) with
      | none => rw [h1, h2] at hg; exact hg.elim
      | some b =>
        rw [h1, h2] at hg
        exact Recast.Imp.under ok hp hg (hs (id, a) ((HMap.get?_eq_some_iff _ _ _).mp h1))

/-- what is recorded and named has the place of a name of the tree -/
theorem recorded_fits {w : World} {s s' : Server} {uri : Str} {out : List Send} (hno : ¬ HasError (sx.root tree text))
    (hm : Measured (sx.root tree text)) (h : Analysed (env.over sx) w s uri text tree s' out) {vs : List Identifier}
    (hv : s'.files.variables.get? uri = some vs) : ∀ v ∈ vs, v.name ≠ [] → Fits v := by
  obtain ⟨m, r, hma, hh⟩ := h.handled
  obtain ⟨defs, hd, hv'⟩ := (analyses_records hma h.template hh h.document h.parsed).1 (fun e => hno ((over_error ..).mp e))
  rw [hv] at hv'
  cases hv'
  intro v hmem hne
  rcases C14_from_text _ _ _ _ _ _ hd v hmem with ⟨h0, _⟩ | ⟨c, hc, hn, _, e1, e2⟩
  · exact absurd h0 hne
  · obtain ⟨n, h1, h2, _, h3, h4, _⟩ := definitions_names hc hn
    have := hm.small n h1 h2
    rw [h3, h4, e1, e2] at this
    exact this

/-- … which is not the origin -/
theorem recorded_placed {w : World} {s s' : Server} {uri : Str} {out : List Send} (ht : φ.Tree (sx.root tree text) (sx.root tree' text'))
    (ok : φ.Ok sx.digit) (hno : ¬ HasError (sx.root tree text)) (h : Analysed (env.over sx) w s uri text tree s' out) {vs : List Identifier}
    (hv : s'.files.variables.get? uri = some vs) : ∀ v ∈ vs, v.name ≠ [] → v.start ≠ ⟨0, 0⟩ := by
  obtain ⟨m, r, hma, hh⟩ := h.handled
  obtain ⟨defs, hd, hv'⟩ := (analyses_records hma h.template hh h.document h.parsed).1 (fun e => hno ((over_error ..).mp e))
  rw [hv] at hv'
  cases hv'
  intro v hmem hne
  rcases C14_from_text _ _ _ _ _ _ hd v hmem with ⟨h0, _⟩ | ⟨c, hc, hn, _, e1, _⟩
  · exact absurd h0 hne
  · have hz := ((Recast.same_definitions ok).walk .nil .nil _ _ ht).flatten
    obtain ⟨c', _, hr⟩ := hz.mem_left hc
    rw [← e1]
    exact (hr.sound (.inl hn)).1

end

/-! ### Other files -/

theorem collectFiles_skip (env : Env) (uri n : Str) : ∀ (l : List (Str × List Identifier)),
    LspFiles.collectFiles env uri n (l.filter fun e => decide (e.1 ≠ uri)) = LspFiles.collectFiles env uri n l
  | [] => rfl
  | e :: l => by
    by_cases h : e.1 = uri
    · rw [List.filter_cons_of_neg (by simpa using h), collectFiles_skip env uri n l]
      rw [LspFiles.collectFiles, if_pos h]
    · rw [List.filter_cons_of_pos (by simpa using h)]
      unfold LspFiles.collectFiles
      rw [collectFiles_skip env uri n l]

theorem collectFiles_kept {env : Env} {uri n n' : Str} : ∀ {l : List (Str × List Identifier)},
    (∀ e ∈ l, e.1 ≠ uri → LspFiles.segmentMatches n' e.2 = LspFiles.segmentMatches n e.2) →
    LspFiles.collectFiles env uri n' l = LspFiles.collectFiles env uri n l
  | [], _ => rfl
  | e :: l, h => by
    unfold LspFiles.collectFiles
    rw [collectFiles_kept fun x hx => h x (List.mem_cons_of_mem _ hx)]
    split
    · rfl
    · rename_i hne
      rw [h e List.mem_cons_self hne]

/-- analysing the template changes nothing else -/
theorem Spec.Recast.SameElse.analysed {φ : Recast} {uri : Str} {s s' t t' : Server} (h : φ.SameElse uri s.files t.files) {env : Env}
    {w w' : World} {text text' : Str} {tree tree' : JinjaLsp.Tree} {out out' : List Send} (hs : JinjaLsp.Analysed env w s uri text tree s' out)
    (ht : JinjaLsp.Analysed env w' t uri text' tree' t' out') {vs vs' : List Identifier} (hv : s'.files.variables.get? uri = some vs)
    (hv' : t'.files.variables.get? uri = some vs') : φ.SameElse uri s'.files t'.files := by
  obtain ⟨m, r, hm, hh⟩ := hs.handled
  obtain ⟨m', r', hm', hh'⟩ := ht.handled
  have h1 := (analyses_template hm hs.template hh hs.document hs.parsed hv).2
  have h2 := (analyses_template hm' ht.template hh' ht.document ht.parsed hv').2
  refine ⟨fun u hu => ?_, ?_, fun u vs hu hg => h.kept u vs hu ?_⟩
  · rw [(h1.same u hu).vars, (h2.same u hu).vars, h.others u hu]
  · rw [h1.conf.conf, h2.conf.conf, h.templates]
  · rw [← (h1.same u hu).vars, hg]

theorem Spec.Recast.SameElse.perm {φ : Recast} {uri : Str} {f g : LspFiles} (h : φ.SameElse uri f g) :
    (f.variables.entries.filter fun e => decide (e.1 ≠ uri)).Perm (g.variables.entries.filter fun e => decide (e.1 ≠ uri)) := by
  refine entries_perm (m := f.variables.erase uri) (m' := g.variables.erase uri) fun k => ?_
  rw [HMap.get?_erase, HMap.get?_erase]
  split
  · rfl
  · rename_i hk; exact h.others k hk

theorem Spec.Recast.SameElse.segments {φ : Recast} {digit : Char → Bool} (ok : φ.Ok digit) {uri : Str} {f g : LspFiles} (h : φ.SameElse uri f g)
    {u : Str} {vs : List Identifier} (hu : u ≠ uri) (hv : f.variables.get? u = some vs) (n : Str) :
    LspFiles.segmentMatches (φ.name n) vs = LspFiles.segmentMatches n vs := by
  rw [segmentMatches_eq, segmentMatches_eq]
  apply List.filter_congr
  intro v hmem
  apply decide_eq_decide.mpr
  constructor
  · intro hs
    have := ok.names _ _ (h.kept u vs hu hv v hmem _ hs)
    rwa [this] at hs
  · intro hs
    rwa [h.kept u vs hu hv v hmem _ hs]

theorem Spec.Recast.SameElse.collect {φ : Recast} {digit : Char → Bool} (ok : φ.Ok digit) {uri : Str} {f g : LspFiles} (h : φ.SameElse uri f g)
    (env : Env) (o o' : HashOrder) (n : Str) : Agree List.Perm (LspFiles.collectFiles env uri n (o.shuffle 2 f.variables.entries))
      (LspFiles.collectFiles env uri (φ.name n) (o'.shuffle 2 g.variables.entries)) := by
  rw [← collectFiles_skip env uri n, ← collectFiles_skip env uri (φ.name n)]
  have hp : ((o.shuffle 2 f.variables.entries).filter fun e => decide (e.1 ≠ uri)).Perm
      ((o'.shuffle 2 g.variables.entries).filter fun e => decide (e.1 ≠ uri)) :=
    (((o.perm 2 _).filter _).trans h.perm).trans ((o'.perm 2 _).filter _).symm
  have hk := collectFiles_perm env uri (φ.name n) hp
  rw [collectFiles_kept (n := n) (n' := φ.name n) fun e he hne => ?_] at hk
  · exact hk
  · exact h.segments ok hne (mem_entries.mp (List.mem_filter.mp he).1) n

/-! ## The answers -/

theorem Spec.Recast.Cur.ident_named {φ : Recast} {s s' : JinjaObjects} (h : φ.Cur s s') {p : Point} {n : Str} (hi : s.isIdent p = some n) : n ≠ [] := by
  unfold JinjaObjects.isIdent at hi
  split at hi
  · cases hl : s.objects.getLast? with
    | none => rw [hl] at hi; cases hi
    | some o => rw [hl] at hi; cases hi; exact h.named o (List.mem_of_getLast? hl)
  · cases hi

section
variable {φ : Recast}

/-- filtering the recorded definitions by name and place -/
theorem filter_final {digit : Char → Bool} (ok : φ.Ok digit) {n : Str} {P P' : Identifier → Bool}
    (hP : ∀ v, v.name = n → P' (φ.final v) = P v) (vs : List Identifier) :
    (vs.map φ.final).filter (fun v => decide (v.name = φ.name n) && P' v) = (vs.filter fun v => decide (v.name = n) && P v).map φ.final := by
  rw [List.filter_map]
  congr 1
  apply List.filter_congr
  intro v _
  simp only [Function.comp_def, Recast.final_name ok]
  by_cases h : v.name = n
  · simp [h, hP v h]
  · have : ¬ φ.name v.name = φ.name n := fun e => h (ok.names _ _ e)
    simp [h, this]

/-- the definition in the same file -/
theorem local_recast {digit : Char → Bool} (ok : φ.Ok digit) {f g : LspFiles} {uri : Str} {vs : List Identifier} (hf : f.variables.get? uri = some vs)
    (hg : g.variables.get? uri = some (vs.map φ.final)) (hfit : ∀ v ∈ vs, v.name ≠ [] → Fits v)
    (hfit' : ∀ v ∈ vs.map φ.final, v.name ≠ [] → Fits v) (hpl : ∀ v ∈ vs, v.name ≠ [] → v.start ≠ ⟨0, 0⟩) {n : Str} (hn : n ≠ []) (p : Point) :
    (f.localDefinition uri n p = none ∧ g.localDefinition uri (φ.name n) (φ.place p) = none) ∨
      ∃ r r', f.localDefinition uri n p = some r ∧ g.localDefinition uri (φ.name n) (φ.place p) = some r' ∧ φ.GotoAs uri (some r) (some r') := by
  have e := filter_final ok (n := n) (P := fun v => decide (v.start ≤ p) && decide (p ≤ v.scopeEnd))
    (P' := fun v => decide (v.start ≤ φ.place p) && decide (φ.place p ≤ v.scopeEnd)) (fun v hv => by
      rw [(Recast.final_named (hv ▸ hn)).2.1, Recast.final_scope]
      simp only [ok.place_le]) vs
  simp only [← Bool.and_assoc] at e
  unfold LspFiles.localDefinition
  simp only [hf, hg, e]
  have hl : ∀ v ∈ vs.filter (fun v => decide (v.name = n) && decide (v.start ≤ p) && decide (p ≤ v.scopeEnd)), v ∈ vs ∧ v.name ≠ [] := by
    intro v hv
    obtain ⟨h1, h2⟩ := List.mem_filter.mp hv
    simp only [Bool.and_eq_true, decide_eq_true_eq] at h2
    exact ⟨h1, h2.1.1 ▸ hn⟩
  rcases Recast.latest_same (φ := φ) ok (fun i hi => (hl i hi).2) with ⟨h1, h2⟩ | ⟨m, hm, x, hx, h1, h2, h3, h4⟩
  · simp only [h1, h2]; exact .inl ⟨trivial, trivial⟩
  · simp only [h1, h2]
    refine .inr ⟨_, _, rfl, rfl, ?_⟩
    have hx' : (φ.final x).name ≠ [] := by
      rw [Recast.final_name ok]; exact mt (ok.name_nil _).mp (hl x hx).2
    rw [rangeOf_eq (hfit m (hl m hm).1 (hl m hm).2), rangeOf_eq (hfit' _ (List.mem_map_of_mem (hl x hx).1) hx')]
    obtain ⟨_, e1, e2⟩ := Recast.final_named (φ := φ) (hl x hx).2
    unfold rangeOf
    rw [e1, e2, h3, h4]
    exact .own (a := m.start) (b := m.stop) (hpl m (hl m hm).1 (hl m hm).2)

end

/-- **C115** Goto-definition commutes with rewriting: in a template that has been rewritten (names replaced, text moved), the answer at
the rewritten position is the rewritten answer.  A definition in the template is found where it has been moved to, a template name
leads to the same file, and a name that is defined elsewhere leads to the same places. -/
theorem C115_goto (env : Env) (sx : Syntax) (φ : Recast) (w w' w1 w2 : World) (s s' t t' : Server) (uri text text' : Str)
    (tree tree' : Tree) (out out' : List Send) (pos pos' : Position)
    (ok : φ.Ok sx.digit) (ht : φ.Tree (sx.root tree text) (sx.root tree' text')) (ho : φ.Options sx.options)
    (he : env.rootEnd tree' = φ.place (env.rootEnd tree)) (hno : ¬ HasError (sx.root tree text))
    (hm : Measured (sx.root tree text)) (hm' : Measured (sx.root tree' text'))
    (h : Analysed (env.over sx) w s uri text tree s' out) (h' : Analysed (env.over sx) w' t uri text' tree' t' out')
    (hs : φ.SameElse uri s.files t.files) (hw : ∀ p, w2.canonicalize p = w1.canonicalize p)
    (hpos : toPoint pos' = φ.place (toPoint pos)) (hp : toPoint pos ≠ ⟨0, 0⟩ ∨ φ.place ⟨0, 0⟩ = ⟨0, 0⟩) :
    (∃ r r', s'.handle (env.over sx) w1 (.goto uri pos) = .ok (s', [], .goto r) ∧
      t'.handle (env.over sx) w2 (.goto uri pos') = .ok (t', [], .goto r') ∧ φ.GotoAs uri r r') ∨
    ∃ e, s'.handle (env.over sx) w1 (.goto uri pos) = .error e ∧ t'.handle (env.over sx) w2 (.goto uri pos') = .error e := by
  obtain ⟨vs, hv, hv'⟩ := recorded_recast ok ht he hno h h'
  have hs := hs.analysed h h' hv hv'
  have hno' : ¬ HasError (sx.root tree' text') := fun e => hno (ht.hasError.mp e)
  have hq := objects_recast (env := env) ok ht hm hm' hp
  have htm := template_recast (env := env) ok ht ho hp
  have hfit := recorded_fits hno hm h hv
  have hfit' := recorded_fits hno' hm' h' hv'
  have hpl := recorded_placed ht ok hno h hv
  have hloc : ∀ n, t'.files.templateLocation (env.over sx) w2 n = s'.files.templateLocation (env.over sx) w1 n := by
    intro n; unfold LspFiles.templateLocation; rw [hs.templates, hw]
  simp only [Server.handle, LspFiles.gotoDefinition, h.template, h.document, h.parsed, h'.document, h'.parsed, hpos]
  cases h1 : objectsQuery (env.over sx) tree (toPoint pos) text false with
  | error e =>
    cases h2 : objectsQuery (env.over sx) tree' (φ.place (toPoint pos)) text' false with
    | error e' => rw [h1, h2] at hq; cases hq; exact .inr ⟨e, rfl, rfl⟩
    | ok _ => rw [h1, h2] at hq; exact hq.elim
  | ok a =>
    cases h2 : objectsQuery (env.over sx) tree' (φ.place (toPoint pos)) text' false with
    | error e' => rw [h1, h2] at hq; exact hq.elim
    | ok b =>
      rw [h1, h2] at hq
      have hq : φ.Cur a b := hq
      have key : ((a.isIdent (toPoint pos)).bind (fun n => s'.files.localDefinition uri n (toPoint pos)) = none ∧
            ((a.isIdent (toPoint pos)).map φ.name).bind (fun n => t'.files.localDefinition uri n (φ.place (toPoint pos))) = none) ∨
          ∃ r r', (a.isIdent (toPoint pos)).bind (fun n => s'.files.localDefinition uri n (toPoint pos)) = some r ∧
            ((a.isIdent (toPoint pos)).map φ.name).bind (fun n => t'.files.localDefinition uri n (φ.place (toPoint pos))) = some r' ∧
            φ.GotoAs uri (some r) (some r') := by
        cases hi : a.isIdent (toPoint pos) with
        | none => exact .inl ⟨rfl, rfl⟩
        | some n => exact local_recast ok hv hv' hfit hfit' hpl (hq.ident_named hi) _
      have hid := hq.isIdent ok hp
      simp only [hid, htm]
      rcases key with ⟨k1, k2⟩ | ⟨r, r', k1, k2, k3⟩
      · simp only [k1, k2]
        have htl : ((((templatesQuery (env.over sx) tree (toPoint pos) text false).inTemplate.bind
            fun i => i.getIdentifier (toPoint pos)).map φ.ref).bind fun i => t'.files.templateLocation (env.over sx) w2 i.name) =
            (((templatesQuery (env.over sx) tree (toPoint pos) text false).inTemplate.bind
            fun i => i.getIdentifier (toPoint pos)).bind fun i => s'.files.templateLocation (env.over sx) w1 i.name) := by
          cases ((templatesQuery (env.over sx) tree (toPoint pos) text false).inTemplate.bind fun i => i.getIdentifier (toPoint pos)) with
          | none => rfl
          | some i => simp only [Option.map_some, Option.bind_some, Recast.ref_name, hloc]
        rw [htl]
        cases hb : (((templatesQuery (env.over sx) tree (toPoint pos) text false).inTemplate.bind
            fun i => i.getIdentifier (toPoint pos)).bind fun i => s'.files.templateLocation (env.over sx) w1 i.name) with
        | some r =>
          refine .inl ⟨_, _, rfl, rfl, ?_⟩
          obtain ⟨i, _, hi⟩ := Option.bind_eq_some_iff.mp hb
          unfold LspFiles.templateLocation at hi
          split at hi
          · cases hi
          · split at hi
            · cases hi
            · cases hi; exact .file _
        | none =>
          have hn : ((a.isIdent (toPoint pos)).map φ.name).getD [] = φ.name ((a.isIdent (toPoint pos)).getD []) := by
            cases a.isIdent (toPoint pos) with
            | none => exact ok.empty.symm
            | some _ => rfl
          have hc := hs.collect ok (env.over sx) w1.order w2.order ((a.isIdent (toPoint pos)).getD [])
          rw [hn]
          simp only
          generalize LspFiles.collectFiles (env.over sx) uri ((a.isIdent (toPoint pos)).getD []) (w1.order.shuffle 2 s'.files.variables.entries) = x at hc ⊢
          generalize LspFiles.collectFiles (env.over sx) uri (φ.name ((a.isIdent (toPoint pos)).getD [])) (w2.order.shuffle 2 t'.files.variables.entries) = y at hc ⊢
          cases x with
          | error e =>
            cases y with
            | error e' => cases hc; exact .inr ⟨e, rfl, rfl⟩
            | ok _ => exact hc.elim
          | ok ls =>
            cases y with
            | error e' => exact hc.elim
            | ok ls' => exact .inl ⟨_, _, rfl, rfl, .others hc⟩
      · simp only [k1, k2]
        exact .inl ⟨_, _, rfl, rfl, k3⟩

/-- looking up documentation -/
theorem lookup_recast {φ : Recast} {digit : Char → Bool} (ok : φ.Ok digit) {table : List (Str × Str)} (h : ∀ e ∈ table, φ.name e.1 = e.1) (n : Str) :
    lookupDoc table (φ.name n) = lookupDoc table n := by
  unfold lookupDoc
  congr 1
  induction table with
  | nil => rfl
  | cons e table ih =>
    rw [List.find?_cons, List.find?_cons, ih fun x hx => h x (List.mem_cons_of_mem _ hx)]
    have he := h e List.mem_cons_self
    by_cases hn : e.1 = n
    · simp [← hn, he]
    · have : ¬ e.1 = φ.name n := fun x => hn (ok.names _ _ (he.trans x))
      simp [hn, this]

/-- what kind of thing a name is -/
theorem dataType_recast {φ : Recast} {digit : Char → Bool} (ok : φ.Ok digit) {f g : LspFiles} {uri : Str} {vs : List Identifier}
    (hf : f.variables.get? uri = some vs) (hg : g.variables.get? uri = some (vs.map φ.final)) (hs : φ.SameElse uri f g)
    (hkind : ∀ a ∈ vs, ∀ b ∈ vs, a.name = b.name → a.start = b.start → a.stop = b.stop → a.idType = b.idType)
    (w w' : World) {o : JinjaObject} (hn : o.name ≠ []) :
    g.dataType w' uri (Identifier.ofObject (φ.obj o)) = f.dataType w uri (Identifier.ofObject o) := by
  have e : ((vs.map φ.final).filter fun v => decide (v.idType ≠ .templateBlock)).filter (fun v =>
        decide (v.stop ≤ φ.place o.location.1) && decide (φ.place o.location.1 ≤ v.scopeEnd) && decide (φ.name o.name = v.name)) =
      ((vs.filter fun v => decide (v.idType ≠ .templateBlock)).filter (fun v =>
        decide (v.stop ≤ o.location.1) && decide (o.location.1 ≤ v.scopeEnd) && decide (o.name = v.name))).map φ.final := by
    rw [List.filter_map, List.filter_map]
    congr 1
    rw [show ((fun v : Identifier => decide (v.idType ≠ .templateBlock)) ∘ φ.final) = (fun v : Identifier => decide (v.idType ≠ .templateBlock)) from by
      funext v; simp only [Function.comp_def, Recast.final_type]]
    apply List.filter_congr
    intro v _
    simp only [Function.comp_def, Recast.final_name ok, Recast.final_scope, ok.place_le]
    by_cases h : o.name = v.name
    · rw [(Recast.final_named (φ := φ) (h ▸ hn)).2.2]
      simp [h, ok.place_le]
    · have : ¬ φ.name o.name = φ.name v.name := fun e => h (ok.names _ _ e)
      simp [h, this]
  have ha : ((w'.order.shuffle 7 g.variables.entries).any fun file =>
        decide (file.1 ≠ uri) && decide (0 < (LspFiles.segmentMatches (φ.name o.name) file.2).length)) =
      (w.order.shuffle 7 f.variables.entries).any fun file =>
        decide (file.1 ≠ uri) && decide (0 < (LspFiles.segmentMatches o.name file.2).length) := by
    rw [Bool.eq_iff_iff, List.any_eq_true, List.any_eq_true]
    simp only [Bool.and_eq_true, decide_eq_true_eq]
    constructor
    · rintro ⟨x, hx, hne, hl⟩
      have hx' := hs.others x.1 hne ▸ mem_entries.mp hx
      exact ⟨x, mem_entries.mpr hx', hne, by rwa [hs.segments ok hne hx'] at hl⟩
    · rintro ⟨x, hx, hne, hl⟩
      have hx' := mem_entries.mp hx
      exact ⟨x, mem_entries.mpr ((hs.others x.1 hne).trans hx'), hne, by rwa [hs.segments ok hne hx']⟩
  unfold LspFiles.dataType
  simp only [hf, hg]
  show (match iterMax (((vs.map φ.final).filter fun v => decide (v.idType ≠ .templateBlock)).filter (fun v =>
        decide (v.stop ≤ φ.place o.location.1) && decide (φ.place o.location.1 ≤ v.scopeEnd) && decide (φ.name o.name = v.name))) with
      | some v => some v.idType
      | none => if (w'.order.shuffle 7 g.variables.entries).any (fun file =>
          decide (file.1 ≠ uri) && decide (0 < (LspFiles.segmentMatches (φ.name o.name) file.2).length)) then some .backendVariable else none) =
    (match iterMax ((vs.filter fun v => decide (v.idType ≠ .templateBlock)).filter (fun v =>
        decide (v.stop ≤ o.location.1) && decide (o.location.1 ≤ v.scopeEnd) && decide (o.name = v.name))) with
      | some v => some v.idType
      | none => if (w.order.shuffle 7 f.variables.entries).any (fun file =>
          decide (file.1 ≠ uri) && decide (0 < (LspFiles.segmentMatches o.name file.2).length)) then some .backendVariable else none)
  rw [e, ha]
  have hl : ∀ v ∈ (vs.filter fun v => decide (v.idType ≠ .templateBlock)).filter (fun v =>
        decide (v.stop ≤ o.location.1) && decide (o.location.1 ≤ v.scopeEnd) && decide (o.name = v.name)), v ∈ vs ∧ o.name = v.name := by
    intro v hv
    obtain ⟨h1, h2⟩ := List.mem_filter.mp hv
    simp only [Bool.and_eq_true, decide_eq_true_eq] at h2
    exact ⟨(List.mem_filter.mp h1).1, h2.2⟩
  rcases Recast.latest_same (φ := φ) ok (fun i hi => (hl i hi).2 ▸ hn) with ⟨h1, h2⟩ | ⟨m, hm, x, hx, h1, h2, h3, h4⟩
  · simp only [h1, h2]
  · simp only [h1, h2, Recast.final_type]
    rw [hkind x (hl x hx).1 m (hl m hm).1 ((hl x hx).2.symm.trans (hl m hm).2) h3 h4]

/-- **C115** Hover commutes with rewriting: at the rewritten position the same text is shown, if names of filters and tests are kept. -/
theorem C115_hover (env : Env) (sx : Syntax) (φ : Recast) (w w' w1 w2 : World) (s s' t t' : Server) (uri text text' : Str)
    (tree tree' : Tree) (out out' : List Send) (pos pos' : Position)
    (ok : φ.Ok sx.digit) (ht : φ.Tree (sx.root tree text) (sx.root tree' text'))
    (he : env.rootEnd tree' = φ.place (env.rootEnd tree)) (hno : ¬ HasError (sx.root tree text))
    (hm : Measured (sx.root tree text)) (hm' : Measured (sx.root tree' text'))
    (h : Analysed (env.over sx) w s uri text tree s' out) (h' : Analysed (env.over sx) w' t uri text' tree' t' out')
    (hs : φ.SameElse uri s.files t.files)
    (hkind : ∀ vs, s'.files.variables.get? uri = some vs → ∀ a ∈ vs, ∀ b ∈ vs, a.name = b.name → a.start = b.start → a.stop = b.stop →
      a.idType = b.idType)
    (hdocs : ∀ e ∈ filterTable ++ testTable, φ.name e.1 = e.1)
    (hpos : toPoint pos' = φ.place (toPoint pos)) (hp : toPoint pos ≠ ⟨0, 0⟩ ∨ φ.place ⟨0, 0⟩ = ⟨0, 0⟩) :
    (∃ r, s'.handle (env.over sx) w1 (.hover uri pos) = .ok (s', [], .hover r) ∧
      t'.handle (env.over sx) w2 (.hover uri pos') = .ok (t', [], .hover r)) ∨
    ∃ e, s'.handle (env.over sx) w1 (.hover uri pos) = .error e ∧ t'.handle (env.over sx) w2 (.hover uri pos') = .error e := by
  obtain ⟨vs, hv, hv'⟩ := recorded_recast ok ht he hno h h'
  have hs := hs.analysed h h' hv hv'
  have hq := objects_recast (env := env) ok ht hm hm' hp
  have htpl : ¬ fileExt uri ≠ some .template := fun e => e h.template
  simp only [Server.handle, Server.onHover, LspFiles.hover, if_neg htpl, h.document, h.parsed, h'.document, h'.parsed, hpos]
  cases h1 : objectsQuery (env.over sx) tree (toPoint pos) text false with
  | error e =>
    cases h2 : objectsQuery (env.over sx) tree' (φ.place (toPoint pos)) text' false with
    | error e' => rw [h1, h2] at hq; cases hq; exact .inr ⟨e, rfl, rfl⟩
    | ok _ => rw [h1, h2] at hq; exact hq.elim
  | ok a =>
    cases h2 : objectsQuery (env.over sx) tree' (φ.place (toPoint pos)) text' false with
    | error e' => rw [h1, h2] at hq; exact hq.elim
    | ok b =>
      rw [h1, h2] at hq
      have hq : φ.Cur a b := hq
      simp only [hq.isHover ok hp, JinjaObjects.getLastId, hq.base.objs, List.getLast?_map]
      cases hh : a.isHover (toPoint pos) with
      | false => exact .inl ⟨none, rfl, rfl⟩
      | true =>
        cases hl : a.objects.getLast? with
        | none => exact .inl ⟨none, rfl, rfl⟩
        | some o =>
          have hf : (φ.obj o).isFilter = o.isFilter := rfl
          have hte : (φ.obj o).isTest = o.isTest := rfl
          have hne := hq.named o (List.mem_of_getLast? hl)
          simp only [Option.map_some, hf, hte, if_true]
          left
          cases o.isFilter with
          | true =>
            refine ⟨lookupDoc filterTable o.name, rfl, ?_⟩
            show Except.ok (t', [], Reply.hover (lookupDoc filterTable (φ.name o.name))) = _
            rw [lookup_recast ok fun e he => hdocs e (List.mem_append_left _ he)]
          | false =>
            cases o.isTest with
            | true =>
              refine ⟨lookupDoc testTable o.name, rfl, ?_⟩
              show Except.ok (t', [], Reply.hover (lookupDoc testTable (φ.name o.name))) = _
              rw [lookup_recast ok fun e he => hdocs e (List.mem_append_right _ he)]
            | false =>
              refine ⟨(s'.files.dataType w1 uri (Identifier.ofObject o)).map IdType.completionDetail, rfl, ?_⟩
              show Except.ok (t', [], Reply.hover ((t'.files.dataType w2 uri (Identifier.ofObject (φ.obj o))).map IdType.completionDetail)) = _
              rw [dataType_recast ok hv hv' hs (hkind vs hv) w1 w2 hne]

namespace Fix

theorem measured_one : Measured (synTwo.root treeOne []) := ⟨by unfold SmallPoint; decide, by decide⟩
theorem measured_two : Measured (synTwo.root treeTwo c!"n") := ⟨by unfold SmallPoint; decide, by decide⟩

end Fix

/-- the hypotheses of `C115_goto` and `C115_hover` hold for the template and its rewriting of C92, and the answers are: the definition of
`a` is three lines below; hover on the filter `upper` shows its documentation -/
example : Measured (Fix.synTwo.root Fix.treeOne []) ∧ Measured (Fix.synTwo.root Fix.treeTwo c!"n") ∧
    (∀ e ∈ filterTable ++ testTable, Fix.rewriting.name e.1 = e.1) ∧
    Fix.rewriting.SameElse Fix.uriA Fix.server.files Fix.server.files ∧ toPoint ⟨5, 7⟩ = Fix.rewriting.place (toPoint ⟨2, 7⟩) ∧
    ∃ s' out t' out', Analysed (Fix.envTwo.over Fix.synTwo) Fix.world Fix.server Fix.uriA [] Fix.treeOne s' out ∧
      Analysed (Fix.envTwo.over Fix.synTwo) Fix.world Fix.server Fix.uriA c!"n" Fix.treeTwo t' out' ∧
      (∀ vs, s'.files.variables.get? Fix.uriA = some vs → ∀ a ∈ vs, ∀ b ∈ vs, a.name = b.name → a.start = b.start → a.stop = b.stop →
        a.idType = b.idType) ∧
      s'.handle (Fix.envTwo.over Fix.synTwo) Fix.world (.goto Fix.uriA ⟨2, 7⟩) =
        .ok (s', [], .goto (some (.scalar ⟨Fix.uriA, between ⟨2, 7⟩ ⟨2, 8⟩⟩))) ∧
      t'.handle (Fix.envTwo.over Fix.synTwo) Fix.world (.goto Fix.uriA ⟨5, 7⟩) =
        .ok (t', [], .goto (some (.scalar ⟨Fix.uriA, between ⟨5, 7⟩ ⟨5, 8⟩⟩))) ∧
      (∃ d, s'.handle (Fix.envTwo.over Fix.synTwo) Fix.world (.hover Fix.uriA ⟨4, 14⟩) = .ok (s', [], .hover (some d))) := by
  refine ⟨Fix.measured_one, Fix.measured_two, by decide, ⟨fun _ _ => rfl, rfl, ?_⟩, rfl, _, _, _, _,
    ⟨⟨.didOpen Fix.uriA [], _, .opened _, rfl⟩, by decide, rfl, rfl⟩, ⟨⟨.didOpen Fix.uriA c!"n", _, .opened _, rfl⟩, by decide, rfl, rfl⟩,
    ?_, rfl, rfl, ⟨_, rfl⟩⟩
  · intro u vs hu hv
    have h : (u, vs) ∈ Fix.server.files.variables.entries := (HMap.get?_eq_some_iff _ _ _).mp hv
    have he : ∀ e ∈ Fix.server.files.variables.entries, e.2 = [] := by decide
    have hn : vs = [] := he _ h
    subst hn
    intro v hmem
    cases hmem
  · intro vs h
    cases h
    decide

end JinjaLsp
