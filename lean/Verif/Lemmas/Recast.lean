import Verif.Spec.Recast
import Verif.Lemmas.Queries
import Verif.Lemmas.Point
import Verif.Lemmas.HMap
import Verif.Lemmas.Expr
import Verif.Model.Imports
/-
  What the queries and the loops over their captures find in a rewritten tree (Spec/Recast.lean).
-/

namespace JinjaLsp
open Spec

/-! ## Corresponding lists -/

namespace Spec.Zip
variable {α β γ δ : Type} {R : α → β → Prop} {S : γ → δ → Prop}

theorem append {as as' : List α} {bs bs' : List β} (h : Zip R as bs) (h' : Zip R as' bs') : Zip R (as ++ as') (bs ++ bs') := by
  induction h with
  | nil => exact h'
  | cons h _ ih => exact .cons h ih

theorem single {a : α} {b : β} (h : R a b) : Zip R [a] [b] := .cons h .nil

theorem flatten {ls : List (List α)} {ms : List (List β)} (h : Zip (Zip R) ls ms) : Zip R ls.flatten ms.flatten := by
  induction h with
  | nil => exact .nil
  | cons h _ ih => exact h.append ih

theorem map {as : List α} {bs : List β} {f : α → γ} {g : β → δ} (h : Zip R as bs) (hf : ∀ a b, R a b → S (f a) (g b)) :
    Zip S (as.map f) (bs.map g) := by
  induction h with
  | nil => exact .nil
  | cons h _ ih => exact .cons (hf _ _ h) ih

theorem flatMap {as : List α} {bs : List β} {f : α → List γ} {g : β → List δ} (h : Zip R as bs)
    (hf : ∀ a b, R a b → Zip S (f a) (g b)) : Zip S (as.flatMap f) (bs.flatMap g) := by
  induction h with
  | nil => exact .nil
  | cons h _ ih => exact (hf _ _ h).append ih

theorem flatMap_mem {as : List α} {bs : List β} {f : α → List γ} {g : β → List δ} (h : Zip R as bs)
    (hf : ∀ a b, a ∈ as → R a b → Zip S (f a) (g b)) : Zip S (as.flatMap f) (bs.flatMap g) := by
  induction h with
  | nil => exact .nil
  | cons h _ ih => exact (hf _ _ List.mem_cons_self h).append (ih fun a b ha => hf a b (List.mem_cons_of_mem _ ha))

theorem mem_left {as : List α} {bs : List β} (h : Zip R as bs) {a : α} (ha : a ∈ as) : ∃ b ∈ bs, R a b := by
  induction h with
  | nil => cases ha
  | cons h _ ih =>
    rcases List.mem_cons.mp ha with rfl | ha
    · exact ⟨_, List.mem_cons_self, h⟩
    · obtain ⟨b, hb, hr⟩ := ih ha
      exact ⟨b, List.mem_cons_of_mem _ hb, hr⟩

theorem mem_right {as : List α} {bs : List β} (h : Zip R as bs) {b : β} (hb : b ∈ bs) : ∃ a ∈ as, R a b := by
  induction h with
  | nil => cases hb
  | cons h _ ih =>
    rcases List.mem_cons.mp hb with rfl | hb
    · exact ⟨_, List.mem_cons_self, h⟩
    · obtain ⟨a, ha, hr⟩ := ih hb
      exact ⟨a, List.mem_cons_of_mem _ ha, hr⟩

end Spec.Zip

/-! ## Trees and queries -/

namespace Spec.Recast
variable {φ : Recast}

theorem Tree.kind {n n' : Syn} (h : φ.Tree n n') : n'.kind = n.kind := by cases h; rfl
theorem Tree.id {n n' : Syn} (h : φ.Tree n n') : n'.id = φ.node n.id := by cases h; rfl
theorem Tree.start {n n' : Syn} (h : φ.Tree n n') : n'.start = φ.place n.start := by cases h; rfl
theorem Tree.stop {n n' : Syn} (h : φ.Tree n n') : n'.stop = φ.place n.stop := by cases h; rfl
theorem Tree.text {n n' : Syn} (h : φ.Tree n n') : φ.Text n.kind n.text n'.text := by cases h; assumption
theorem Tree.sound {n n' : Syn} (h : φ.Tree n n') (hk : n.kind = .identifier) :
    n.start ≠ ⟨0, 0⟩ ∧ n.start ≤ n.stop ∧ n.text ≠ some [] := by cases h; rename_i h _; exact h hk

theorem Tree.name {n n' : Syn} (h : φ.Tree n n') (hk : n.kind = .identifier) : n'.text = n.text.map φ.name := by
  have := h.text; rw [hk] at this; exact this

theorem Tree.word {n n' : Syn} (h : φ.Tree n n') (hk : n.kind = .keyword ∨ n.kind = .operator ∨ n.kind = .string) : n'.text = n.text := by
  have := h.text
  rcases hk with hk | hk | hk <;> rw [hk] at this <;> exact this

theorem cap_name (cn : CapName) (up : List Above) (n : Syn) : (n.cap cn up).name = cn := by
  cases cn <;> rfl

theorem cap_text {cn : CapName} (up : List Above) (n : Syn) (h : cn ≠ .expr) : (n.cap cn up).text = n.text := by
  cases cn <;> first | rfl | exact absurd rfl h

/-- a node of a tree as a capture -/
theorem Tree.cap {n n' : Syn} (h : φ.Tree n n') (cn : CapName) (up up' : List Above)
    (h1 : nameCapture cn → n.kind = .identifier)
    (h2 : wordCapture cn → n.kind = .keyword ∨ n.kind = .operator ∨ n.kind = .string) : φ.Cap (n.cap cn up) (n'.cap cn up') := by
  have hs : (n.cap cn up).start = n.start ∧ (n.cap cn up).stop = n.stop ∧ (n.cap cn up).id = n.id := by
    cases cn <;> exact ⟨rfl, rfl, rfl⟩
  have hs' : (n'.cap cn up').start = n'.start ∧ (n'.cap cn up').stop = n'.stop ∧ (n'.cap cn up').id = n'.id := by
    cases cn <;> exact ⟨rfl, rfl, rfl⟩
  refine ⟨by rw [cap_name, cap_name], by rw [hs.2.2, hs'.2.2, h.id], by rw [hs.1, hs'.1, h.start], by rw [hs.2.1, hs'.2.1, h.stop], ?_, ?_, ?_⟩
  · intro hn
    rw [cap_name] at hn
    have : cn ≠ .expr := by rintro rfl; exact hn
    rw [cap_text _ _ this, cap_text _ _ this, h.name (h1 hn)]
  · intro hn
    rw [cap_name] at hn
    have : cn ≠ .expr := by rintro rfl; exact hn
    rw [cap_text _ _ this, cap_text _ _ this, h.word (h2 hn)]
  · intro hn
    rw [cap_name] at hn
    have hk : n.kind = .identifier := h1 (by rcases hn with rfl | rfl <;> trivial)
    have : cn ≠ .expr := by rintro rfl; rcases hn with h | h <;> cases h
    rw [hs.1, hs.2.1, cap_text _ _ this]
    exact h.sound hk

/-- ancestors -/
def Ups (φ : Recast) : List Above → List Above → Prop := Zip fun a a' => φ.Tree a.1 a'.1 ∧ Zip φ.Tree a.2 a'.2

/-- a query that reports the same in a rewritten tree -/
def Same (φ : Recast) (q q' : Reports) : Prop :=
  ∀ v up up' left left' n n', Ups φ up up' → Zip φ.Tree left left' → φ.Tree n n' → Zip (Zip φ.Cap) (q v up left n) (q' v up' left' n')

mutual
theorem Same.walk {q q' : Reports} (hq : φ.Same q q') {up up' : List Above} {left left' : List Syn} (hu : φ.Ups up up')
    (hl : Zip φ.Tree left left') : (n n' : Syn) → φ.Tree n n' → Zip (Zip φ.Cap) (Syn.walk q up left n) (Syn.walk q' up' left' n')
  | .node k f i a b t cs, n', h => by
    cases h with
    | node ht hs hc =>
      have h := Tree.node (φ := φ) (f := f) (i := i) ht hs hc
      rw [Syn.walk, Syn.walk]
      exact ((hq _ _ _ _ _ _ _ hu hl h).append (Same.walkAll hq (.cons ⟨h, hl⟩ hu) .nil cs _ hc)).append (hq _ _ _ _ _ _ _ hu hl h)

theorem Same.walkAll {q q' : Reports} (hq : φ.Same q q') {up up' : List Above} {left left' : List Syn} (hu : φ.Ups up up')
    (hl : Zip φ.Tree left left') : (cs cs' : List Syn) → Zip φ.Tree cs cs' →
      Zip (Zip φ.Cap) (Syn.walkAll q up left cs) (Syn.walkAll q' up' left' cs')
  | [], _, h => by cases h; rw [Syn.walkAll, Syn.walkAll]; exact .nil
  | c :: cs, _, h => by
    cases h with
    | cons hc hcs =>
      rw [Syn.walkAll, Syn.walkAll]
      exact (Same.walk hq hu hl c _ hc).append (Same.walkAll hq hu (hl.append (.single hc)) cs _ hcs)
end

mutual
theorem Tree.flat : (n n' : Syn) → φ.Tree n n' → Zip φ.Tree n.flat n'.flat
  | .node k f i a b t cs, _, h => by
    cases h with
    | node ht hs hc =>
      rw [Syn.flat, Syn.flat]
      exact .cons (.node ht hs hc) (Tree.flatAll cs _ hc)

theorem Tree.flatAll : (cs cs' : List Syn) → Zip φ.Tree cs cs' → Zip φ.Tree (Syn.flatAll cs) (Syn.flatAll cs')
  | [], _, h => by cases h; rw [Syn.flatAll]; exact .nil
  | c :: cs, _, h => by
    cases h with
    | cons hc hcs =>
      rw [Syn.flatAll, Syn.flatAll]
      exact (Tree.flat c _ hc).append (Tree.flatAll cs _ hcs)
end

/-- syntax errors stay -/
theorem Tree.hasError {n n' : Syn} (h : φ.Tree n n') : HasError n' ↔ HasError n := by
  have hf := Tree.flat n n' h
  constructor
  · rintro ⟨m', hm', hk⟩
    obtain ⟨m, hm, hr⟩ := hf.mem_right hm'
    exact ⟨m, hm, hr.kind ▸ hk⟩
  · rintro ⟨m, hm, hk⟩
    obtain ⟨m', hm', hr⟩ := hf.mem_left hm
    exact ⟨m', hm', hr.kind.trans hk⟩

theorem Tree.single {n n' : Syn} (h : φ.Tree n n') {b b' : Bool} (hb : b' = b) (cn : CapName) (up up' : List Above)
    (h1 : nameCapture cn → n.kind = .identifier)
    (h2 : wordCapture cn → n.kind = .keyword ∨ n.kind = .operator ∨ n.kind = .string) :
    Zip (Zip φ.Cap) (JinjaLsp.single b cn up n) (JinjaLsp.single b' cn up' n') := by
  subst hb
  unfold JinjaLsp.single
  split
  · exact .single (.single (h.cap cn up up' h1 h2))
  · exact .nil

theorem picks_zip : ∀ (ps : List (Syn → Bool)), (∀ p ∈ ps, ∀ n n', φ.Tree n n' → p n' = p n) →
    ∀ {l l' : List Syn}, Zip φ.Tree l l' → Zip (Zip φ.Tree) (picks ps l) (picks ps l')
  | [], _, l, l', _ => by
    rw [picks, picks]
    exact .single .nil
  | p :: ps, hp, _, _, .nil => by rw [picks]; exact .nil
  | p :: ps, hp, _, _, .cons (a := n) (b := n') (as := ns) (bs := ns') h hs => by
    rw [picks, picks, hp p List.mem_cons_self n n' h]
    apply Zip.append
    · split
      · exact (picks_zip ps (fun q hq => hp q (List.mem_cons_of_mem _ hq)) hs).map fun a b hab => .cons h hab
      · exact .nil
    · exact picks_zip (p :: ps) hp hs
  termination_by ps _ l => (ps.length, l.length)

theorem picks_chosen : ∀ (ps : List (Syn → Bool)) (l : List Syn) (m : List Syn), m ∈ picks ps l → Zip (fun p n => p n = true) ps m
  | [], l, m, h => by
    rw [picks] at h
    cases List.mem_singleton.mp h
    exact .nil
  | p :: ps, [], m, h => by rw [picks] at h; cases h
  | p :: ps, n :: ns, m, h => by
    rw [picks] at h
    rcases List.mem_append.mp h with h | h
    · split at h
      · rename_i hp
        obtain ⟨k, hk, rfl⟩ := List.mem_map.mp h
        exact .cons hp (picks_chosen ps ns k hk)
      · cases h
    · exact picks_chosen (p :: ps) ns m h
  termination_by ps l => (ps.length, l.length)

theorem picks_import {l m : List Syn}
    (h : m ∈ picks [fun m => m.kind = .statementBegin, fun m => m.kind = .keyword, fun m => m.kind = .string] l) :
    ∃ b kw s, m = [b, kw, s] ∧ kw.kind = .keyword ∧ s.kind = .string := by
  cases picks_chosen _ _ _ h with
  | cons h1 g => cases g with
  | cons h2 g => cases g with
  | cons h3 g =>
  cases g
  exact ⟨_, _, _, rfl, by simpa using h2, by simpa using h3⟩

variable {digit : Char → Bool}

theorem Ok.fixed (ok : φ.Ok digit) {t : Str} (h : φ.name t = t) (s : Str) : φ.name s = t ↔ s = t := by
  constructor
  · intro e; exact ok.names _ _ (e.trans h.symm)
  · rintro rfl; exact h

theorem Ok.name_nil (ok : φ.Ok digit) (s : Str) : φ.name s = [] ↔ s = [] := ok.fixed ok.empty s

theorem Ok.name_reserved (ok : φ.Ok digit) (s : Str) : φ.name s ∈ validIdentifiers ↔ s ∈ validIdentifiers := by
  constructor
  · intro h
    have e := ok.names _ _ (ok.reserved _ h)
    rwa [e] at h
  · intro h; rw [ok.reserved s h]; exact h

theorem digits_iff (digit : Char → Bool) (t : Str) : digits digit t = true ↔ IsNumeral digit t := by
  unfold digits IsNumeral
  cases t <;> simp

theorem Ok.numeral_eq (ok : φ.Ok digit) {n n' : Syn} (h : φ.Tree n n') (hk : n.kind = .identifier) :
    JinjaLsp.numeral digit n' = JinjaLsp.numeral digit n := by
  unfold JinjaLsp.numeral
  rw [h.name hk]
  cases n.text with
  | none => rfl
  | some t =>
    simp only [Option.map_some]
    rw [Bool.eq_iff_iff, digits_iff, digits_iff]
    constructor
    · intro hn
      have e := ok.names _ _ (ok.numeral _ hn)
      rwa [e] at hn
    · intro hn; rw [ok.numeral t hn]; exact hn

theorem eqText_eq {n n' : Syn} (h : n'.text = n.text) (s : Str) : eqText n' s = eqText n s := by unfold eqText; rw [h]
theorem anyText_eq {n n' : Syn} (h : n'.text = n.text) (s : List Str) : anyText n' s = anyText n s := by unfold anyText; rw [h]
theorem startsText_eq {n n' : Syn} (h : n'.text = n.text) (s : Str) : startsText n' s = startsText n s := by unfold startsText; rw [h]
theorem hasText_eq {n n' : Syn} (h : n'.text = n.text) (s : Str) : hasText n' s = hasText n s := by unfold hasText; rw [h]

/-- DEFINITIONS -/
theorem same_definitions (ok : φ.Ok digit) : φ.Same (qDefinitions digit) (qDefinitions digit) := by
  intro v up up' left left' n n' hu hl h
  cases v with
  | leave => exact .nil
  | enter =>
    simp only [qDefinitions, h.kind]
    split
    · cases hu with
      | nil => exact .nil
      | cons hp hup =>
        rename_i a a' _ _
        obtain ⟨hp, hpl⟩ := hp
        simp only [hp.kind]
        split
        · have hup' : φ.Ups (a :: _) (a' :: _) := .cons ⟨hp, hpl⟩ hup
          refine (picks_zip _ ?_ hl).map ?_
          · intro p hp n n' hn
            cases List.mem_singleton.mp hp
            simp only [hn.kind]
          · intro m m' hm
            exact (hm.map fun _ _ hb => hb.cap .scopeEnd _ _ (fun h => h.elim) (fun h => h.elim)).append
              (.single (h.cap .scopeStart _ _ (fun h => h.elim) (fun h => h.elim)))
        · exact .nil
    · rename_i hk
      exact h.single (by rw [ok.numeral_eq h hk]) _ _ _ (fun _ => hk) (fun h => h.elim)
    · rename_i hk
      have ht := h.word (.inl hk)
      exact ((h.single (anyText_eq ht _) .definition _ _ (fun h => h.elim) (fun _ => .inl hk)).append
        (h.single (anyText_eq ht _) .scope _ _ (fun h => h.elim) (fun _ => .inl hk))).append
        (h.single (startsText_eq ht _) .endblock _ _ (fun h => h.elim) (fun _ => .inl hk))
    · rename_i hk
      exact h.single (hasText_eq (h.word (.inr (.inl hk))) _) _ _ _ (fun h => h.elim) (fun _ => .inr (.inl hk))
    · exact h.single rfl _ _ _ (fun h => h.elim) (fun h => h.elim)
    · exact .nil

/-- OBJECTS -/
theorem same_objects (ok : φ.Ok digit) : φ.Same (qObjects digit) (qObjects digit) := by
  intro v up up' left left' n n' hu hl h
  cases v with
  | leave => exact .nil
  | enter =>
    simp only [qObjects, h.kind]
    split
    · rename_i hk
      have ht := h.word (.inr (.inl hk))
      exact (h.single rfl .pipe _ _ (fun h => h.elim) (fun _ => .inr (.inl hk))).append
        (h.single (eqText_eq ht _) .dot _ _ (fun h => h.elim) (fun _ => .inr (.inl hk)))
    · rename_i hk
      exact h.single (by rw [ok.numeral_eq h hk]) _ _ _ (fun _ => hk) (fun h => h.elim)
    · exact h.single rfl _ _ _ (fun h => h.elim) (fun h => h.elim)
    · rename_i hk
      exact h.single (eqText_eq (h.word (.inl hk)) _) _ _ _ (fun h => h.elim) (fun _ => .inl hk)
    · exact h.single rfl _ _ _ (fun h => h.elim) (fun h => h.elim)
    · exact .nil

/-- JINJA_IMPORTS -/
theorem same_imports {options : Syn → Syn → List (List Capture)} (ho : φ.Options options) : φ.Same (qImports options) (qImports options) := by
  intro v up up' left left' n n' hu hl h
  cases v with
  | leave => exact .nil
  | enter =>
    simp only [qImports, h.kind]
    split
    · cases hu with
      | nil => exact .nil
      | cons hp hup =>
        rename_i a a' _ _
        obtain ⟨hp, hpl⟩ := hp
        simp only [hp.kind]
        split
        · have hpicks := picks_zip [fun m => m.kind = .statementBegin, fun m => m.kind = .keyword, fun m => m.kind = .string]
            (by intro p hp n n' hn; simp only [List.mem_cons, List.not_mem_nil, or_false] at hp; rcases hp with rfl | rfl | rfl <;> simp only [hn.kind]) hl
          refine hpicks.flatMap_mem ?_
          intro m m' hmem hm
          obtain ⟨b, kw, s, rfl, hkw, hs⟩ := picks_import hmem
          cases hm with
          | cons hb hm => cases hm with
          | cons hkw' hm => cases hm with
          | cons hs' hm =>
          cases hm
          have ht := hkw'.word (.inl hkw)
          simp only [eqText_eq ht]
          have c1 := fun cn up up' h1 h2 => hp.cap cn up up' h1 h2
          have c2 := fun up up' => hkw'.cap .other up up' (fun h => h.elim) (fun h => h.elim)
          have c3 := fun up up' => hs'.cap .templateName up up' (fun h => h.elim) (fun _ => .inr (.inr hs))
          split
          · exact .single (.cons (c1 .extends _ _ (fun h => h.elim) (fun h => h.elim)) (.cons (c2 _ _) (.cons (c3 _ _) .nil)))
          split
          · exact .single (.cons (c1 .include _ _ (fun h => h.elim) (fun h => h.elim)) (.cons (c2 _ _) (.cons (c3 _ _) .nil)))
          split
          · refine (ho _ _ _ _ hp hs').map fun o o' hoo => Zip.append ?_ hoo
            exact .cons (c1 .from_ _ _ (fun h => h.elim) (fun h => h.elim)) (.cons (c2 _ _) (.cons (c3 _ _) .nil))
          split
          · refine (ho _ _ _ _ hp hs').map fun o o' hoo => Zip.append ?_ hoo
            exact .cons (c1 .import_ _ _ (fun h => h.elim) (fun h => h.elim)) (.cons (c2 _ _) (.cons (c3 _ _) .nil))
          · exact .nil
        · exact .nil
    · exact h.single rfl _ _ _ (fun h => h.elim) (fun h => h.elim)
    · exact .nil

/-! ## Places -/

theorem Ok.place_inj (ok : φ.Ok digit) {p q : Point} : φ.place p = φ.place q ↔ p = q := by
  constructor
  · intro e
    by_cases h : p = q
    · exact h
    · rcases Point.le_total p q with h' | h'
      · exact absurd (e ▸ ok.places _ _ (Point.lt_iff_le_and_ne.mpr ⟨h', h⟩)) (Point.lt_irrefl _)
      · exact absurd (e ▸ ok.places _ _ (Point.lt_iff_le_and_ne.mpr ⟨h', fun e => h e.symm⟩)) (Point.lt_irrefl _)
  · rintro rfl; rfl

theorem Ok.place_lt (ok : φ.Ok digit) {p q : Point} : φ.place p < φ.place q ↔ p < q := by
  constructor
  · intro h
    apply Point.not_le.mp
    intro h'
    by_cases e : q = p
    · subst e; exact Point.lt_irrefl _ h
    · exact Point.lt_irrefl _ (Point.lt_trans h (ok.places _ _ (Point.lt_iff_le_and_ne.mpr ⟨h', e⟩)))
  · exact ok.places _ _

theorem Ok.place_le (ok : φ.Ok digit) {p q : Point} : φ.place p ≤ φ.place q ↔ p ≤ q := by
  have := ok.place_lt (p := q) (q := p)
  rw [← Point.not_lt, ← Point.not_lt, this]

theorem Ok.place_zero (ok : φ.Ok digit) {p : Point} (h : p ≠ ⟨0, 0⟩) : φ.place p ≠ ⟨0, 0⟩ := by
  intro e
  have h0 : (⟨0, 0⟩ : Point) < p := Point.lt_iff_le_and_ne.mpr ⟨Point.zero_le p, fun e => h e.symm⟩
  have := ok.places _ _ h0
  rw [e] at this
  exact Point.not_lt_zero _ this

/-- a remembered place: moved, or both are the default -/
def Pt (φ : Recast) (p p' : Point) : Prop := p' = φ.place p ∨ (p = ⟨0, 0⟩ ∧ p' = ⟨0, 0⟩)

theorem Pt.eq_iff (ok : φ.Ok digit) {p p' a : Point} (h : φ.Pt p p') (ha : a ≠ ⟨0, 0⟩) : φ.place a = p' ↔ a = p := by
  rcases h with rfl | ⟨rfl, rfl⟩
  · exact ok.place_inj
  · exact ⟨fun e => absurd e (ok.place_zero ha), fun e => absurd e ha⟩

/-! ## Definitions -/

/-- an identifier of an unfinished definition -/
def ident (φ : Recast) (i : Identifier) : Identifier :=
  if i.name = [] then { i with scopeId := φ.node i.scopeId }
  else { i with name := φ.name i.name, start := φ.place i.start, stop := φ.place i.stop, scopeId := φ.node i.scopeId }

def defn (φ : Recast) : Definition → Definition
  | .forLoop k v => .forLoop (φ.ident k) (v.map φ.ident)
  | .set k e => .set (φ.ident k) e
  | .with_ ks => .with_ (ks.map φ.ident)
  | .macro_ ks s => .macro_ (ks.map φ.ident) (φ.node s)
  | .block k => .block (φ.ident k)

/-- what the loop has found -/
structure Defs (φ : Recast) (s s' : JinjaDefinitions) : Prop where
  defs : s'.definitions = s.definitions.map φ.defn
  close : s'.canCloseScope = s.canCloseScope
  «open» : s'.canOpenScope = s.canOpenScope
  add : s'.canAddId = s.canAddId
  isEnd : s'.isEnd = s.isEnd
  cur : s'.currentScope.map (·.id) = s.currentScope.map fun c => φ.node c.id
  scopes : s'.allScopes.map (fun c => (c.id, c.stop)) = s.allScopes.map fun c => (φ.node c.id, φ.place c.stop)
  ids : s'.allIds = s.allIds.map φ.node

theorem Ok.ident_default (ok : φ.Ok digit) : φ.ident Identifier.default = Identifier.default := by
  unfold ident Identifier.default
  simp only [if_true, ok.zero]

theorem Ok.defn_keyword (ok : φ.Ok digit) (t : Str) : φ.defn (Definition.ofKeyword t) = Definition.ofKeyword t := by
  unfold Definition.ofKeyword
  repeat' split
  all_goals simp [defn, ok.ident_default, ok.zero]

theorem ident_name (φ : Recast) (i : Identifier) : (φ.ident i).name = if i.name = [] then [] else φ.name i.name := by
  unfold ident
  split
  · rename_i h; exact h
  · rfl

theorem Ok.ident_isEmpty (ok : φ.Ok digit) (i : Identifier) : (φ.ident i).name.isEmpty = i.name.isEmpty := by
  rw [ident_name]
  by_cases h : i.name = []
  · simp [h]
  · rw [if_neg h]
    have := mt (ok.name_nil i.name).mp h
    cases h1 : φ.name i.name with
    | nil => exact absurd h1 this
    | cons => cases h2 : i.name with
      | nil => exact absurd h2 h
      | cons => rfl

theorem Ok.addId_eq (ok : φ.Ok digit) (d : Definition) (i : Identifier) :
    JinjaDefinitions.addId (φ.defn d) (φ.ident i) = (φ.defn (JinjaDefinitions.addId d i).1, (JinjaDefinitions.addId d i).2) := by
  cases d with
  | forLoop k v =>
    simp only [defn, JinjaDefinitions.addId, ok.ident_isEmpty]
    split
    · rfl
    · cases v with
      | none => rfl
      | some v =>
        simp only [Option.map_some, ok.ident_isEmpty]
        split <;> rfl
  | set k e =>
    simp only [defn, JinjaDefinitions.addId, ok.ident_isEmpty]
    split <;> rfl
  | with_ ks => simp [defn, JinjaDefinitions.addId]
  | macro_ ks sc =>
    simp only [defn, JinjaDefinitions.addId, List.isEmpty_map]
    split
    · simp only [List.map_cons, List.map_nil]
      unfold ident
      split <;> rfl
    · simp
  | block k =>
    simp only [defn, JinjaDefinitions.addId, ok.ident_isEmpty]
    split <;> rfl

theorem Defs.frontId {s s' : JinjaDefinitions} (ok : φ.Ok digit) (h : φ.Defs s s') : s'.frontId = φ.node s.frontId := by
  have hc := h.cur
  unfold JinjaDefinitions.frontId
  cases h1 : s.currentScope with
  | nil =>
    rw [h1] at hc
    cases h2 : s'.currentScope with
    | nil => exact ok.zero.symm
    | cons => rw [h2] at hc; cases hc
  | cons c cs =>
    rw [h1] at hc
    cases h2 : s'.currentScope with
    | nil => rw [h2] at hc; cases hc
    | cons c' cs' => rw [h2] at hc; exact (List.cons.inj hc).1

theorem Defs.mem_ids {s s' : JinjaDefinitions} (ok : φ.Ok digit) (h : φ.Defs s s') (i : Nat) : φ.node i ∈ s'.allIds ↔ i ∈ s.allIds := by
  rw [h.ids, List.mem_map]
  constructor
  · rintro ⟨j, hj, e⟩; rwa [← ok.nodes _ _ e]
  · intro hi; exact ⟨i, hi, rfl⟩

/-- results of a step -/
def StepRel (φ : Recast) : Res (Option JinjaDefinitions) → Res (Option JinjaDefinitions) → Prop
  | .ok (some s), .ok (some s') => φ.Defs s s'
  | .ok none, .ok none => True
  | .error e, .error e' => e' = e
  | _, _ => False

theorem Defs.last {s s' : JinjaDefinitions} (h : φ.Defs s s') : s'.definitions.getLast? = s.definitions.getLast?.map φ.defn := by
  rw [h.defs, List.getLast?_map]

theorem Defs.check {s s' : JinjaDefinitions} {c c' : Capture} (ok : φ.Ok digit) (h : φ.Defs s s') (hc : φ.Cap c c') :
    φ.StepRel (s.check c) (s'.check c') := by
  unfold JinjaDefinitions.check
  rw [hc.name]
  cases hn : c.name with
  | definition =>
    simp only [hc.id, h.mem_ids ok]
    by_cases hm : c.id ∈ s.allIds
    · rw [if_pos hm, if_pos hm]; exact h
    · rw [if_neg hm, if_neg hm, hc.words (by rw [hn]; trivial)]
      cases c.text with
      | none => exact rfl
      | some t =>
        simp only
        have hd := ok.defn_keyword t
        have h0 : ∀ d, s'.definitions ++ [φ.defn d] = (s.definitions ++ [d]).map φ.defn := fun d => by rw [h.defs, List.map_append]; rfl
        have hids : φ.node c.id :: s'.allIds = (c.id :: s.allIds).map φ.node := by rw [h.ids]; rfl
        have hcur : ∀ a b, (({ id := φ.node c.id, start := a, stop := b } : Scope) :: s'.currentScope).map (·.id) =
            (({ id := c.id, start := a, stop := b } : Scope) :: s.currentScope).map fun c => φ.node c.id := by
          intro a b; rw [List.map_cons, List.map_cons, h.cur]
        cases ht : Definition.ofKeyword t with
        | set k e =>
          rw [ht] at hd
          refine ⟨?_, h.close, h.open, rfl, h.isEnd, h.cur, h.scopes, hids⟩
          have := h0 (.set k e); rwa [hd] at this
        | macro_ ks sc =>
          rw [ht] at hd
          refine ⟨?_, rfl, rfl, rfl, rfl, hcur _ _, h.scopes, hids⟩
          simp only [defn, Definition.macro_.injEq] at hd
          rw [← h0 (.macro_ ks s.frontId)]
          simp only [defn, h.frontId ok, hd.1]
        | forLoop k v =>
          rw [ht] at hd
          refine ⟨?_, rfl, rfl, rfl, rfl, hcur _ _, h.scopes, hids⟩
          have := h0 (.forLoop k v); rwa [hd] at this
        | with_ ks =>
          rw [ht] at hd
          refine ⟨?_, rfl, rfl, rfl, rfl, hcur _ _, h.scopes, hids⟩
          have := h0 (.with_ ks); rwa [hd] at this
        | block k =>
          rw [ht] at hd
          refine ⟨?_, rfl, rfl, rfl, rfl, hcur _ _, h.scopes, hids⟩
          have := h0 (.block k); rwa [hd] at this
  | scope =>
    refine ⟨h.defs, rfl, rfl, rfl, rfl, ?_, h.scopes, h.ids⟩
    simp only [List.map_cons, h.cur, hc.id]
  | endblock => exact ⟨h.defs, rfl, rfl, h.add, rfl, h.cur, h.scopes, h.ids⟩
  | equals =>
    simp only [h.last]
    cases hl : s.definitions.getLast? with
    | none => exact h
    | some d =>
      cases d with
      | set k e =>
        refine ⟨?_, h.close, rfl, h.add, h.isEnd, h.cur, h.scopes, h.ids⟩
        simp only [h.defs, List.map_append, List.map_dropLast]
        rfl
      | _ => exact h
  | error => trivial
  | id =>
    simp only [h.add]
    split
    · exact h
    · rw [hc.names (by rw [hn]; trivial)]
      have hs := hc.sound (.inl hn)
      cases ht : c.text with
      | none => trivial
      | some t =>
        have htn : t ≠ [] := fun e => hs.2.2 (by rw [ht, e])
        simp only [Option.map_some, h.last]
        cases hl : s.definitions.getLast? with
        | none => exact h
        | some d =>
          simp only [Option.map_some]
          have hi : ({ Identifier.default with start := c'.start, stop := c'.stop, name := φ.name t, scopeId := s'.frontId } : Identifier) =
              φ.ident { Identifier.default with start := c.start, stop := c.stop, name := t, scopeId := s.frontId } := by
            unfold ident
            simp only [if_neg htn, hc.start, hc.stop, h.frontId ok]
          rw [hi, ok.addId_eq]
          refine ⟨?_, h.close, h.open, rfl, h.isEnd, h.cur, h.scopes, h.ids⟩
          simp only [h.defs, List.map_append, List.map_dropLast, List.map_cons, List.map_nil]
  | scopeEnd =>
    simp only [h.close, h.isEnd]
    split
    · have hcur := h.cur
      cases h1 : s.currentScope with
      | nil =>
        rw [h1] at hcur
        cases h2 : s'.currentScope with
        | cons => rw [h2] at hcur; cases hcur
        | nil => exact ⟨h.defs, rfl, h.open, rfl, rfl, rfl, h.scopes, h.ids⟩
      | cons x xs =>
        rw [h1] at hcur
        cases h2 : s'.currentScope with
        | nil => rw [h2] at hcur; cases hcur
        | cons y ys =>
          rw [h2] at hcur
          obtain ⟨e1, e2⟩ := List.cons.inj hcur
          refine ⟨h.defs, rfl, h.open, rfl, rfl, e2, ?_, h.ids⟩
          simp only [List.map_append, h.scopes, List.map_cons, List.map_nil, hc.start]
          rw [show y.id = φ.node x.id from e1]
    · exact h
  | scopeStart =>
    simp only [h.open]
    split
    · have hcur := h.cur
      cases h1 : s.currentScope with
      | nil =>
        rw [h1] at hcur
        cases h2 : s'.currentScope with
        | cons => rw [h2] at hcur; cases hcur
        | nil => exact ⟨h.defs, h.close, rfl, rfl, h.isEnd, rfl, h.scopes, h.ids⟩
      | cons x xs =>
        rw [h1] at hcur
        cases h2 : s'.currentScope with
        | nil => rw [h2] at hcur; cases hcur
        | cons y ys =>
          rw [h2] at hcur
          obtain ⟨e1, e2⟩ := List.cons.inj hcur
          exact ⟨h.defs, h.close, rfl, rfl, h.isEnd, by
            simp only [List.map_cons]; rw [show y.id = φ.node x.id from e1]; exact congrArg _ e2, h.scopes, h.ids⟩
    · exact h
  | _ => exact h

/-- the loop over the captures -/
theorem Defs.run {cs cs' : List Capture} (ok : φ.Ok digit) (hc : Zip φ.Cap cs cs') : ∀ {s s' : JinjaDefinitions}, φ.Defs s s' →
    (∃ t t', s.run cs = .ok t ∧ s'.run cs' = .ok t' ∧ φ.Defs t t') ∨ ∃ e, s.run cs = .error e ∧ s'.run cs' = .error e := by
  induction hc with
  | nil => intro s s' h; exact .inl ⟨s, s', rfl, rfl, h⟩
  | @cons c c' cs cs' hc _ ih =>
    intro s s' h
    have hs := h.check ok hc
    rw [JinjaDefinitions.run, JinjaDefinitions.run]
    cases h1 : s.check c with
    | error e =>
      cases h2 : s'.check c' with
      | error e' => rw [h1, h2] at hs; cases hs; exact .inr ⟨e, rfl, rfl⟩
      | ok o => rw [h1, h2] at hs; exact hs.elim
    | ok o =>
      cases h2 : s'.check c' with
      | error e' => rw [h1, h2] at hs; cases o <;> exact hs.elim
      | ok o' =>
        rw [h1, h2] at hs
        cases o with
        | none =>
          cases o' with
          | none => exact .inl ⟨s, s', rfl, rfl, h⟩
          | some _ => exact hs.elim
        | some t =>
          cases o' with
          | none => exact hs.elim
          | some t' => exact ih hs

/-- an identifier of a finished definition -/
def final (φ : Recast) (i : Identifier) : Identifier := { φ.ident i with scopeEnd := φ.place i.scopeEnd }

theorem scopeEndOf_eq (ok : φ.Ok digit) (last : Point) (id : Nat) : ∀ {l l' : List Scope},
    l'.map (fun c => (c.id, c.stop)) = l.map (fun c => (φ.node c.id, φ.place c.stop)) →
    JinjaDefinitions.scopeEndOf l' (φ.place last) (φ.node id) = φ.place (JinjaDefinitions.scopeEndOf l last id)
  | [], [], _ => rfl
  | [], _ :: _, h => by cases h
  | _ :: _, [], h => by cases h
  | c :: l, c' :: l', h => by
    obtain ⟨h1, h2⟩ := List.cons.inj h
    obtain ⟨e1, e2⟩ := Prod.mk.inj h1
    have ih := scopeEndOf_eq ok last id h2
    unfold JinjaDefinitions.scopeEndOf at ih ⊢
    rw [List.find?_cons, List.find?_cons]
    by_cases hi : c.id = id
    · have : c'.id = φ.node id := by rw [e1, hi]
      simp only [hi, this, decide_true, e2]
    · have : ¬ c'.id = φ.node id := by rw [e1]; exact fun e => hi (ok.nodes _ _ e)
      simp only [hi, this, decide_false]
      exact ih

theorem ident_scopeId (φ : Recast) (i : Identifier) : (φ.ident i).scopeId = φ.node i.scopeId := by
  unfold ident; split <;> rfl

theorem final_mk (φ : Recast) (i : Identifier) (e : Point) (ty : IdType) :
    φ.final { i with scopeEnd := e, idType := ty } = { φ.ident i with scopeEnd := φ.place e, idType := ty } := by
  unfold final ident; split <;> rfl

theorem collect_fixEnd (ok : φ.Ok digit) {scopes scopes' : List Scope} (last : Point)
    (h : scopes'.map (fun c => (c.id, c.stop)) = scopes.map (fun c => (φ.node c.id, φ.place c.stop))) (d : Definition) :
    (JinjaDefinitions.fixEndDef scopes' (φ.place last) (φ.defn d)).collect = (JinjaDefinitions.fixEndDef scopes last d).collect.map φ.final := by
  have he := fun id => scopeEndOf_eq ok last id h
  cases d with
  | forLoop k v =>
    cases v with
    | none => simp only [defn, JinjaDefinitions.fixEndDef, Definition.collect, ident_scopeId, he, Option.map_none, List.map_cons, List.map_nil, final_mk]
    | some v => simp only [defn, JinjaDefinitions.fixEndDef, Definition.collect, ident_scopeId, he, Option.map_some, List.map_cons, List.map_nil, final_mk]
  | set k e => simp only [defn, JinjaDefinitions.fixEndDef, Definition.collect, ident_scopeId, he, List.map_cons, List.map_nil, final_mk]
  | with_ ks => simp only [defn, JinjaDefinitions.fixEndDef, Definition.collect, ident_scopeId, he, List.map_map, Function.comp_def, final_mk]
  | macro_ ks sc =>
    cases ks with
    | nil => rfl
    | cons k ks =>
      simp only [defn, JinjaDefinitions.fixEndDef, Definition.collect, macroKeys, ident_scopeId, he, List.map_cons, List.map_map, Function.comp_def,
        final_mk]
  | block k => simp only [defn, JinjaDefinitions.fixEndDef, Definition.collect, ident_scopeId, he, List.map_cons, List.map_nil, final_mk]

theorem Defs.identifiers {s s' : JinjaDefinitions} (ok : φ.Ok digit) (h : φ.Defs s s') (last : Point) :
    (s'.fixEnd (φ.place last)).identifiers = (s.fixEnd last).identifiers.map φ.final := by
  unfold JinjaDefinitions.identifiers JinjaDefinitions.fixEnd
  simp only [h.defs, List.map_map]
  rw [List.map_flatMap, List.flatMap_map, List.flatMap_map]
  congr 1
  funext d
  exact collect_fixEnd ok last h.scopes d

theorem Defs.default (φ : Recast) : φ.Defs JinjaDefinitions.default JinjaDefinitions.default :=
  ⟨rfl, rfl, rfl, rfl, rfl, rfl, rfl, rfl⟩

theorem final_binding (φ : Recast) (i : Identifier) : (φ.final i).binding = φ.binding i.binding := by
  unfold final ident Recast.binding Identifier.binding
  split <;> rfl

/-! ## Uses -/

def obj (φ : Recast) (o : JinjaObject) : JinjaObject :=
  { o with name := φ.name o.name, location := (φ.place o.location.1, φ.place o.location.2)
           fields := o.fields.map fun a => (φ.name a.1, (φ.place a.2.1, φ.place a.2.2)) }

/-- what the loop has found -/
structure Objs (φ : Recast) (s s' : JinjaObjects) : Prop where
  objs : s'.objects = s.objects.map φ.obj
  dot : φ.Pt s.dot.2 s'.dot.2
  pipe : φ.Pt s.pipe.2 s'.pipe.2
  test : s'.testOn = s.testOn

theorem isHover_ident (s : JinjaObjects) {a b : Point} (h : s.ident = (a, b)) (hab : a ≤ b) : s.isHover a = true := by
  unfold JinjaObjects.isHover
  rw [h]
  simp [Point.le_refl, hab]

theorem Objs.push {s s' : JinjaObjects} (ok : φ.Ok digit) (h : φ.Objs s s') {t : Str} {a b : Point} (ha : a ≠ ⟨0, 0⟩) (hab : a ≤ b) :
    φ.Objs (s.pushObject t a b).1 (s'.pushObject (φ.name t) (φ.place a) (φ.place b)).1 := by
  unfold JinjaObjects.pushObject
  simp only [ok.name_reserved]
  split
  · exact h
  · refine ⟨?_, h.dot, h.pipe, rfl⟩
    have h1 : ({ s with ident := (a, b) } : JinjaObjects).isHover a = true := isHover_ident _ rfl hab
    have h2 : ({ s' with ident := (φ.place a, φ.place b) } : JinjaObjects).isHover (φ.place a) = true :=
      isHover_ident _ rfl (ok.place_le.mpr hab)
    have hp : ({ s' with ident := (φ.place a, φ.place b) } : JinjaObjects).isFilter = ({ s with ident := (a, b) } : JinjaObjects).isFilter := by
      unfold JinjaObjects.isFilter
      apply decide_eq_decide.mpr
      have := h.pipe.eq_iff ok ha
      exact ⟨fun e => (this.mp e.symm).symm, fun e => (this.mpr e.symm).symm⟩
    simp only [h1, h2, hp, Bool.true_and]
    rw [List.map_append, h.objs, h.test]
    rfl

theorem Objs.build {s s' : JinjaObjects} {c c' : Capture} (ok : φ.Ok digit) (h : φ.Objs s s') (hc : φ.Cap c c') (hn : c.name = .justId) :
    φ.Objs (s.buildObject c).1 (s'.buildObject c').1 := by
  obtain ⟨h1, h2, _⟩ := hc.sound (.inr hn)
  have ht := hc.names (by rw [hn]; trivial)
  unfold JinjaObjects.buildObject
  rw [ht]
  cases c.text with
  | none => exact h
  | some t =>
    have e : (c'.start.row = s'.dot.2.row ∧ c'.start.column = s'.dot.2.column) ↔ (c.start.row = s.dot.2.row ∧ c.start.column = s.dot.2.column) := by
      rw [← Point.ext_iff, ← Point.ext_iff, hc.start]
      exact h.dot.eq_iff ok h1
    simp only [Option.map_some, e]
    have hp := h.push ok (t := t) h1 h2
    split
    · rw [h.objs, List.getLast?_map]
      cases s.objects.getLast? with
      | none => simp only [Option.map_none, hc.start, hc.stop]; exact hp
      | some o =>
        simp only [Option.map_some]
        refine ⟨?_, h.dot, h.pipe, h.test⟩
        simp only [List.map_append, List.map_dropLast, List.map_cons, List.map_nil, obj, hc.start, hc.stop]
    · rw [hc.start, hc.stop]; exact hp

theorem Objs.feed {cs cs' : List Capture} (ok : φ.Ok digit) (hc : Zip φ.Cap cs cs') : ∀ {s s' : JinjaObjects}, φ.Objs s s' →
    φ.Objs (s.feed cs) (s'.feed cs') := by
  induction hc with
  | nil => intro s s' h; exact h
  | @cons c c' cs cs' hc _ ih =>
    intro s s' h
    rw [JinjaObjects.feed, JinjaObjects.feed]
    unfold JinjaObjects.check
    rw [hc.name]
    cases hn : c.name with
    | error => exact h
    | justId => exact ih (h.build ok hc hn)
    | dot => exact ih ⟨h.objs, .inl hc.stop, h.pipe, h.test⟩
    | pipe =>
      rw [hc.words (by rw [hn]; trivial)]
      cases c.text with
      | none => exact h
      | some t =>
        simp only
        apply ih
        split
        · exact ⟨h.objs, h.dot, .inl hc.stop, h.test⟩
        · exact h
    | is => exact ih ⟨h.objs, h.dot, h.pipe, rfl⟩
    | expr => exact ih ⟨h.objs, h.dot, h.pipe, h.test⟩
    | _ => exact ih h

theorem Objs.default (φ : Recast) : φ.Objs JinjaObjects.default JinjaObjects.default :=
  ⟨rfl, .inr ⟨rfl, rfl⟩, .inr ⟨rfl, rfl⟩, rfl⟩

theorem obj_info (φ : Recast) (o : JinjaObject) : (φ.obj o).info = φ.use o.info := rfl

theorem pushObject_names {s : JinjaObjects} {t : Str} {a b : Point} (ht : t ≠ []) (h : ∀ o ∈ s.objects, o.name ≠ []) :
    ∀ o ∈ (s.pushObject t a b).1.objects, o.name ≠ [] := by
  unfold JinjaObjects.pushObject
  split
  · exact h
  · intro o ho
    rcases List.mem_append.mp ho with ho | ho
    · exact h o ho
    · cases List.mem_singleton.mp ho; exact ht

/-- uses have names -/
theorem feed_names {cs : List Capture} (hc : ∀ c ∈ cs, c.name = .justId → c.text ≠ some []) : ∀ {s : JinjaObjects},
    (∀ o ∈ s.objects, o.name ≠ []) → ∀ o ∈ (s.feed cs).objects, o.name ≠ [] := by
  induction cs with
  | nil => intro s h; exact h
  | cons c cs ih =>
    intro s h
    have ih := fun {s : JinjaObjects} (h : ∀ o ∈ s.objects, o.name ≠ []) => ih (fun c hm => hc c (List.mem_cons_of_mem _ hm)) h
    rw [JinjaObjects.feed]
    unfold JinjaObjects.check
    cases hn : c.name with
    | error => exact h
    | justId =>
      refine ih ?_
      show ∀ o ∈ (s.buildObject c).1.objects, o.name ≠ []
      unfold JinjaObjects.buildObject
      cases ht : c.text with
      | none => exact h
      | some t =>
        have htn : t ≠ [] := by
          rintro rfl; exact hc c List.mem_cons_self hn ht
        simp only
        split
        · split
          · rename_i o hl
            intro o' ho'
            rcases List.mem_append.mp ho' with ho' | ho'
            · exact h o' ((List.dropLast_sublist _).subset ho')
            · cases List.mem_singleton.mp ho'
              exact h o (List.mem_of_getLast? hl)
          · exact pushObject_names htn h
        · exact pushObject_names htn h
    | pipe =>
      cases c.text with
      | none => exact h
      | some t =>
        simp only
        apply ih
        split <;> exact h
    | _ => exact ih h

/-! ## Template references -/

/-- a reference; one that is not filled yet has no place -/
def ref (φ : Recast) (i : Identifier) : Identifier :=
  if i.idType = .jinjaTemplate then { i with start := φ.place i.start, stop := φ.place i.stop } else i

/-- an import; of the imported names only their presence matters -/
inductive Imp (φ : Recast) : Import → Import → Prop where
  | «extends» (t : Identifier) : φ.Imp (Import.extends t) (Import.extends (φ.ref t))
  | «include» (ts : List Identifier) : φ.Imp (Import.include ts) (Import.include (ts.map φ.ref))
  | from_ {t : Identifier} {is is' : List Identifier} : (∀ i ∈ is, i.idType ≠ .jinjaTemplate) → (∀ i ∈ is', i.idType ≠ .jinjaTemplate) →
    φ.Imp (Import.from_ t is) (Import.from_ (φ.ref t) is')
  | import_ {t i i' : Identifier} : i'.name.isEmpty = i.name.isEmpty → φ.Imp (Import.import_ t i) (Import.import_ (φ.ref t) i')

def Entry (φ : Recast) (e e' : Nat × Import) : Prop := e'.1 = φ.node e.1 ∧ φ.Imp e.2 e'.2

structure Imps (φ : Recast) (s s' : JinjaImports) : Prop where
  entries : Zip φ.Entry s.imports.entries s'.imports.entries
  current : s'.current = s.current.map φ.node

/-- looking up -/
def OptRel (φ : Recast) : Option Import → Option Import → Prop
  | none, none => True
  | some a, some b => φ.Imp a b
  | _, _ => False

theorem entries_get (ok : φ.Ok digit) {l l' : List (Nat × Import)} (h : Zip φ.Entry l l') (id : Nat) :
    φ.OptRel ((l.find? (fun e => decide (e.1 = id))).map Prod.snd) ((l'.find? (fun e => decide (e.1 = φ.node id))).map Prod.snd) := by
  induction h with
  | nil => trivial
  | @cons e e' l l' he _ ih =>
    rw [List.find?_cons, List.find?_cons]
    by_cases hi : e.1 = id
    · have : e'.1 = φ.node id := by rw [he.1, hi]
      simp only [hi, this, decide_true, Option.map_some]
      exact he.2
    · have : ¬ e'.1 = φ.node id := by rw [he.1]; exact fun e => hi (ok.nodes _ _ e)
      simp only [hi, this, decide_false]
      exact ih

theorem Imps.get {s s' : JinjaImports} (ok : φ.Ok digit) (h : φ.Imps s s') (id : Nat) :
    φ.OptRel (s.imports.get? id) (s'.imports.get? (φ.node id)) := entries_get ok h.entries id

theorem entries_erase (ok : φ.Ok digit) {l l' : List (Nat × Import)} (h : Zip φ.Entry l l') (id : Nat) :
    Zip φ.Entry (l.filter fun e => decide (e.1 ≠ id)) (l'.filter fun e => decide (e.1 ≠ φ.node id)) := by
  induction h with
  | nil => exact .nil
  | @cons e e' l l' he _ ih =>
    by_cases hi : e.1 = id
    · have : e'.1 = φ.node id := by rw [he.1, hi]
      rw [List.filter_cons_of_neg (by simp [hi]), List.filter_cons_of_neg (by simp [this])]
      exact ih
    · have : ¬ e'.1 = φ.node id := by rw [he.1]; exact fun e => hi (ok.nodes _ _ e)
      rw [List.filter_cons_of_pos (by simp [hi]), List.filter_cons_of_pos (by simp [this])]
      exact .cons he ih

theorem entries_insert (ok : φ.Ok digit) {m m' : HMap Nat Import} (h : Zip φ.Entry m.entries m'.entries) (id : Nat) {a b : Import}
    (hab : φ.Imp a b) : Zip φ.Entry (m.insert id a).entries (m'.insert (φ.node id) b).entries :=
  .cons ⟨rfl, hab⟩ (entries_erase ok h id)

theorem Imps.open {s s' : JinjaImports} (ok : φ.Ok digit) (h : φ.Imps s s') (id : Nat) {fresh fresh' : Import} (hf : φ.Imp fresh fresh')
    (again : Option Nat) : φ.Imps (s.openImport id fresh again) (s'.openImport (φ.node id) fresh' (again.map φ.node)) := by
  have hg := h.get ok id
  unfold JinjaImports.openImport
  cases h1 : s.imports.get? id with
  | none =>
    cases h2 : s'.imports.get? (φ.node id) with
    | none => exact ⟨entries_insert ok h.entries id hf, rfl⟩
    | some _ => rw [h1, h2] at hg; exact hg.elim
  | some _ =>
    cases h2 : s'.imports.get? (φ.node id) with
    | none => rw [h1, h2] at hg; exact hg.elim
    | some _ => exact ⟨h.entries, rfl⟩

theorem ref_default (φ : Recast) : φ.ref Identifier.default = Identifier.default := rfl

theorem ref_name (φ : Recast) (i : Identifier) : (φ.ref i).name = i.name := by unfold ref; split <;> rfl

theorem ref_fill (φ : Recast) (t : Identifier) (name : Str) (a b : Point) :
    JinjaImports.fillTemplate (φ.ref t) name (φ.place a) (φ.place b) = φ.ref (JinjaImports.fillTemplate t name a b) := by
  unfold JinjaImports.fillTemplate
  rw [ref_name]
  split
  · unfold ref; split <;> rfl
  · rfl

def ImpsStep (φ : Recast) : Option JinjaImports → Option JinjaImports → Prop
  | none, none => True
  | some a, some b => φ.Imps a b
  | _, _ => False

theorem Imps.check {s s' : JinjaImports} {c c' : Capture} (ok : φ.Ok digit) (h : φ.Imps s s') (hc : φ.Cap c c') :
    φ.ImpsStep (s.check c) (s'.check c') := by
  unfold JinjaImports.check
  rw [hc.name, hc.id]
  cases hn : c.name with
  | error => trivial
  | «extends» => exact h.open ok c.id (by have := Imp.extends (φ := φ) Identifier.default; rwa [ref_default] at this) none
  | «include» => exact h.open ok c.id (.include []) (some c.id)
  | import_ =>
    exact h.open ok c.id (by have := Imp.import_ (φ := φ) (t := Identifier.default) (i := Identifier.default) rfl; rwa [ref_default] at this) (some c.id)
  | from_ =>
    refine h.open ok c.id ?_ (some c.id)
    have := Imp.from_ (φ := φ) (t := Identifier.default) (is := []) (is' := []) (by simp) (by simp)
    rwa [ref_default] at this
  | templateName =>
    rw [h.current]
    cases s.current with
    | none => exact h
    | some id =>
      simp only [Option.map_some]
      have hg := h.get ok id
      rw [hc.words (by rw [hn]; trivial)]
      cases h1 : s.imports.get? id with
      | none =>
        cases h2 : s'.imports.get? (φ.node id) with
        | none => trivial
        | some _ => rw [h1, h2] at hg; exact hg.elim
      | some a =>
        cases h2 : s'.imports.get? (φ.node id) with
        | none => rw [h1, h2] at hg; exact hg.elim
        | some b =>
          rw [h1, h2] at hg
          cases c.text with
          | none => trivial
          | some raw =>
            refine ⟨entries_insert ok h.entries id ?_, rfl⟩
            rw [hc.start, hc.stop]
            cases hg with
            | «extends» t => simp only [ref_fill]; exact .extends _
            | «include» ts =>
              have := Imp.include (φ := φ) (ts ++ [{ Identifier.new (stripQuotes raw) c.start c.stop with idType := .jinjaTemplate }])
              rw [List.map_append] at this
              exact this
            | from_ g1 g2 => simp only [ref_fill]; exact .from_ g1 g2
            | import_ g1 => simp only [ref_fill]; exact .import_ g1
  | importIdentifier =>
    rw [h.current]
    cases s.current with
    | none => exact h
    | some id =>
      simp only [Option.map_some]
      have hg := h.get ok id
      rw [hc.names (by rw [hn]; trivial)]
      cases c.text with
      | none => trivial
      | some t =>
        simp only [Option.map_some]
        cases h1 : s.imports.get? id with
        | none =>
          cases h2 : s'.imports.get? (φ.node id) with
          | none => trivial
          | some _ => rw [h1, h2] at hg; exact hg.elim
        | some a =>
          cases h2 : s'.imports.get? (φ.node id) with
          | none => rw [h1, h2] at hg; exact hg.elim
          | some b =>
            rw [h1, h2] at hg
            cases hg with
            | «extends» t => exact ⟨h.entries, rfl⟩
            | «include» ts => exact ⟨h.entries, rfl⟩
            | from_ g1 g2 =>
              refine ⟨entries_insert ok h.entries id (.from_ ?_ ?_), rfl⟩
              · intro i hi
                rcases List.mem_append.mp hi with hi | hi
                · exact g1 i hi
                · cases List.mem_singleton.mp hi; exact fun h => nomatch h
              · intro i hi
                rcases List.mem_append.mp hi with hi | hi
                · exact g2 i hi
                · cases List.mem_singleton.mp hi; exact fun h => nomatch h
            | @import_ t i i' hi =>
              simp only [hi]
              split
              · refine ⟨entries_insert ok h.entries id (.import_ ?_), rfl⟩
                show (φ.name _).isEmpty = _
                rw [Bool.eq_iff_iff, List.isEmpty_iff, List.isEmpty_iff]
                exact ok.name_nil _
              · exact h
  | _ => exact h

theorem Imps.run {cs cs' : List Capture} (ok : φ.Ok digit) (hc : Zip φ.Cap cs cs') : ∀ {s s' : JinjaImports}, φ.Imps s s' →
    φ.Imps (s.run cs) (s'.run cs') := by
  induction hc with
  | nil => intro s s' h; exact h
  | @cons c c' cs cs' hc _ ih =>
    intro s s' h
    have hs := h.check ok hc
    rw [JinjaImports.run, JinjaImports.run]
    cases h1 : s.check c with
    | none =>
      cases h2 : s'.check c' with
      | none => exact h
      | some _ => rw [h1, h2] at hs; exact hs.elim
    | some t =>
      cases h2 : s'.check c' with
      | none => rw [h1, h2] at hs; exact hs.elim
      | some t' => rw [h1, h2] at hs; exact ih hs

theorem Imps.default (φ : Recast) : φ.Imps JinjaImports.default JinjaImports.default := ⟨.nil, rfl⟩

theorem ref_type (φ : Recast) (i : Identifier) : (φ.ref i).idType = i.idType := by unfold ref; split <;> rfl

theorem filter_refs (φ : Recast) (l : List Identifier) :
    (l.map φ.ref).filter (fun i => i.idType = .jinjaTemplate) = (l.filter fun i => i.idType = .jinjaTemplate).map φ.ref := by
  rw [List.filter_map]
  simp only [Function.comp_def, ref_type]

theorem filter_none {l : List Identifier} (h : ∀ i ∈ l, i.idType ≠ .jinjaTemplate) : l.filter (fun i => i.idType = .jinjaTemplate) = [] := by
  rw [List.filter_eq_nil_iff]
  intro i hi
  simpa using h i hi

theorem Imp.collect {a b : Import} (h : φ.Imp a b) :
    b.collect.filter (fun i => i.idType = .jinjaTemplate) = (a.collect.filter fun i => i.idType = .jinjaTemplate).map φ.ref := by
  cases h with
  | «extends» t => exact filter_refs φ [t]
  | «include» ts => exact filter_refs φ ts
  | @from_ t is is' h1 h2 =>
    show List.filter _ ([φ.ref t] ++ is') = (List.filter _ ([t] ++ is)).map φ.ref
    rw [List.filter_append, List.filter_append, filter_none h1, filter_none h2, List.append_nil, List.append_nil]
    exact filter_refs φ [t]
  | @import_ t i i' h => exact filter_refs φ [t]

theorem entries_collect {l l' : List (Nat × Import)} (h : Zip φ.Entry l l') :
    (l'.flatMap fun e => e.2.collect).filter (fun i => i.idType = .jinjaTemplate) =
      ((l.flatMap fun e => e.2.collect).filter fun i => i.idType = .jinjaTemplate).map φ.ref := by
  induction h with
  | nil => rfl
  | cons he _ ih =>
    rw [List.flatMap_cons, List.flatMap_cons, List.filter_append, List.filter_append, List.map_append, ih, he.2.collect]

/-- the references found, up to the order of iteration -/
theorem Imps.collect {s s' : JinjaImports} (h : φ.Imps s s') (o o' : HashOrder) :
    ((s'.collect o').filter fun i => i.idType = .jinjaTemplate).Perm (((s.collect o).filter fun i => i.idType = .jinjaTemplate).map φ.ref) := by
  unfold JinjaImports.collect
  have h1 := (((o'.perm 0 s'.imports.entries).flatMap_right fun e => e.2.collect).filter fun i => decide (i.idType = .jinjaTemplate))
  have h2 := ((((o.perm 0 s.imports.entries).flatMap_right fun e => e.2.collect).filter fun i => decide (i.idType = .jinjaTemplate)).map φ.ref)
  refine h1.trans ?_
  rw [entries_collect h.entries]
  exact h2.symm

end Spec.Recast

end JinjaLsp
