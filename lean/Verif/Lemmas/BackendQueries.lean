import Verif.Lemmas.Visits
import Verif.Lemmas.Split
import Verif.Props.Imports
/-
  What the queries for backend files report (Model/Queries.lean), in terms of the syntax tree.
-/

namespace JinjaLsp
open Spec

theorem mem_picks_one {p : Syn → Bool} {ns : List Syn} {m : List Syn} : m ∈ picks [p] ns ↔ ∃ n ∈ ns, p n = true ∧ m = [n] := by
  rw [picks_last, List.mem_map]
  constructor
  · rintro ⟨n, hn, rfl⟩
    exact ⟨n, (List.mem_filter.mp hn).1, (List.mem_filter.mp hn).2, rfl⟩
  · rintro ⟨n, hn, hp, rfl⟩
    exact ⟨n, List.mem_filter.mpr ⟨hn, hp⟩, rfl⟩

theorem mem_picks_two {p q : Syn → Bool} : ∀ {ns m : List Syn}, m ∈ picks [p, q] ns ↔
    ∃ a n b k c, ns = a ++ n :: (b ++ k :: c) ∧ p n = true ∧ q k = true ∧ m = [n, k]
  | [], m => by
    simp only [picks]
    constructor
    · intro h; cases h
    · rintro ⟨a, n, b, k, c, h, _⟩; cases a <;> cases h
  | x :: ns, m => by
    simp only [picks, List.mem_append]
    rw [mem_picks_two (ns := ns)]
    constructor
    · rintro (h | ⟨a, n, b, k, c, rfl, h⟩)
      · split at h
        · rename_i hx
          obtain ⟨l, hl, rfl⟩ := List.mem_map.mp h
          obtain ⟨k, hk, hq, rfl⟩ := mem_picks_one.mp hl
          obtain ⟨b, c, rfl⟩ := List.append_of_mem hk
          exact ⟨[], x, b, k, c, rfl, hx, hq, rfl⟩
        · cases h
      · exact ⟨x :: a, n, b, k, c, rfl, h⟩
    · rintro ⟨a, n, b, k, c, h, hp, hq, rfl⟩
      cases a with
      | nil =>
        injection h with h1 h2
        subst h1 h2
        left
        rw [if_pos hp]
        exact List.mem_map.mpr ⟨[k], mem_picks_one.mpr ⟨k, by simp, hq, rfl⟩, rfl⟩
      | cons y a =>
        injection h with h1 h2
        exact .inr ⟨a, n, b, k, c, h2, hp, hq, rfl⟩

/-- the captures of a walk -/
theorem mem_captures {f : Reports} {root : Syn} {c : Capture} : c ∈ (Syn.walk f [] [] root).flatten ↔
    ∃ x ∈ Syn.places [] [] root, ∃ v, ∃ m ∈ f v x.1 x.2.1 x.2.2, c ∈ m := by
  rw [List.mem_flatten]
  constructor
  · rintro ⟨m, hm, hc⟩
    obtain ⟨x, hx, v, h⟩ := (Syn.mem_walk [] [] root).mp hm
    exact ⟨x, hx, v, m, h, hc⟩
  · rintro ⟨x, hx, v, m, h, hc⟩
    exact ⟨m, (Syn.mem_walk [] [] root).mpr ⟨x, hx, v, h⟩, hc⟩

/-- the parent of a place -/
theorem place_parent {root p : Syn} {l : List Syn} {up : List Above} {x : Place} (h : x ∈ Syn.places [] [] root)
    (hu : x.1 = (p, l) :: up) : (up, l, p) ∈ Syn.places [] [] root ∧ ∃ b, p.children = x.2.1 ++ x.2.2 :: b := by
  rcases Syn.places_inv [] [] root h with rfl | ⟨y, hy, b, h1, h2⟩
  · cases hu
  · rw [hu] at h2
    injection h2 with h2 h3
    injection h2 with h2 h4
    subst h2 h3 h4
    exact ⟨hy, b, h1⟩

theorem place_flat {root : Syn} {x : Place} (h : x ∈ Syn.places [] [] root) : x.2.2 ∈ root.flat :=
  (Syn.mem_flat_iff [] [] root).mpr ⟨x, h, rfl⟩

theorem eqText_iff {n : Syn} {s : Str} : eqText n s = true ↔ n.text = some s := by simp [eqText]

theorem anyText_two {n : Syn} {a b : Str} : anyText n [a, b] = true ↔ n.text = some a ∨ n.text = some b := by
  unfold anyText
  cases n.text <;> simp

theorem hasText_iff {n : Syn} {p : Str} : hasText n p = true ↔ ∃ t, n.text = some t ∧ p <:+: t := by
  unfold hasText
  cases h : n.text with
  | none => simp
  | some t =>
    simp only [containsSub_iff]
    constructor
    · rintro ⟨a, b, rfl⟩; exact ⟨_, rfl, a, b, rfl⟩
    · rintro ⟨_, h, a, b, e⟩; cases h; exact ⟨a, b, e.symm⟩

theorem mem_single {b : Bool} {cn : CapName} {up : List Above} {n : Syn} {m : List Capture} {c : Capture} (h : m ∈ single b cn up n)
    (hc : c ∈ m) : b = true ∧ c = n.cap cn up := by
  unfold single at h
  split at h
  · rename_i hb
    cases List.mem_singleton.mp h
    exact ⟨hb, List.mem_singleton.mp hc⟩
  · cases h

theorem mem_repeated {cn : CapName} {up : List Above} {left : List Syn} {n : Syn} {k : SKind} {c : Capture} :
    c ∈ repeated cn up left n k ↔ ∃ s ∈ n.children, s.kind = k ∧ c = s.cap cn ((n, left) :: up) := by
  unfold repeated
  rw [List.mem_map]
  constructor
  · rintro ⟨s, hs, rfl⟩
    exact ⟨s, (List.mem_filter.mp hs).1, by simpa using (List.mem_filter.mp hs).2, rfl⟩
  · rintro ⟨s, hs, hk, rfl⟩
    exact ⟨s, List.mem_filter.mpr ⟨hs, by simpa using hk⟩, rfl⟩

theorem declares_keyId {n : Syn} {up : List Above} (h : n.text ≠ none) : Spec.declares (n.cap .keyId up) = some n.info := by
  cases ht : n.text with
  | none => exact absurd ht h
  | some t => simp [Spec.declares, Syn.cap, ht, Syn.info]

theorem declares_name {n : Syn} {up : List Above} (h : n.text ≠ none) : Spec.declares (n.cap .name up) = some n.unquoted := by
  cases ht : n.text with
  | none => exact absurd ht h
  | some t => simp [Spec.declares, Syn.cap, ht, Syn.unquoted]

/-! ### Rust -/

theorem isAdd_iff {fe : Syn} : IsAdd fe ↔ fe.kind = .fieldExpression ∧
    ∃ m ∈ picks [fun c => c.kind = .identifier, fun c => c.kind = .fieldIdentifier] fe.children, ∃ o k, m = [o, k] ∧ eqText o c!"jinja" = true ∧
      (hasText k c!"add_global" || hasText k c!"add_filter" || hasText k c!"add_function") = true := by
  unfold IsAdd
  refine and_congr Iff.rfl ?_
  constructor
  · rintro ⟨x, o, y, m, z, h, ho, ht, hm, t, hmt, hh⟩
    refine ⟨_, mem_picks_two.mpr ⟨x, o, y, m, z, h, by simpa using ho, by simpa using hm, rfl⟩, o, m, rfl, eqText_iff.mpr ht, ?_⟩
    simp only [Bool.or_eq_true, hasText_iff]
    rcases hh with hh | hh | hh
    · exact .inl (.inl ⟨t, hmt, hh⟩)
    · exact .inl (.inr ⟨t, hmt, hh⟩)
    · exact .inr ⟨t, hmt, hh⟩
  · rintro ⟨m, hm, o, k, rfl, ho, hk⟩
    obtain ⟨x, o', y, k', z, h, h1, h2, e⟩ := mem_picks_two.mp hm
    injection e with e1 e2
    injection e2 with e2 _
    subst e1 e2
    refine ⟨x, o, y, k, z, h, by simpa using h1, eqText_iff.mp ho, by simpa using h2, ?_⟩
    simp only [Bool.or_eq_true, hasText_iff] at hk
    rcases hk with (⟨t, h1, h2⟩ | ⟨t, h1, h2⟩) | ⟨t, h1, h2⟩
    · exact ⟨t, h1, .inl h2⟩
    · exact ⟨t, h1, .inr (.inl h2)⟩
    · exact ⟨t, h1, .inr (.inr h2)⟩

/-- what the walk reports when it leaves the arguments of a call -/
theorem rust_leave {up : List Above} {left : List Syn} {n : Syn} {m : List Capture} :
    m ∈ qRustDefinitions .leave up left n ↔ n.kind = .arguments ∧ repeated .name up left n .stringLiteral ≠ [] ∧
      (∃ fe ∈ left, IsAdd fe) ∧ m = repeated .name up left n .stringLiteral := by
  simp only [qRustDefinitions]
  constructor
  · intro h
    split at h
    · rename_i hc
      obtain ⟨l, hl, h⟩ := List.mem_flatMap.mp h
      obtain ⟨fe, hfe, hk, rfl⟩ := mem_picks_one.mp hl
      obtain ⟨fe', e, h⟩ := List.mem_flatMap.mp h
      cases List.mem_singleton.mp e
      obtain ⟨om, hom, h⟩ := List.mem_flatMap.mp h
      obtain ⟨x, o, y, k, z, _, _, _, rfl⟩ := mem_picks_two.mp hom
      simp only [] at h
      split at h
      · rename_i hh
        simp only [Bool.and_eq_true] at hh
        exact ⟨hc.1, hc.2, ⟨fe, hfe, isAdd_iff.mpr ⟨by simpa using hk, _, hom, o, k, rfl, hh.1, hh.2⟩⟩, List.mem_singleton.mp h⟩
      · cases h
    · cases h
  · rintro ⟨h1, h2, ⟨fe, hfe, hadd⟩, rfl⟩
    obtain ⟨hk, om, hom, o, k, rfl, ho, hm⟩ := isAdd_iff.mp hadd
    rw [if_pos ⟨h1, h2⟩]
    refine List.mem_flatMap.mpr ⟨[fe], mem_picks_one.mpr ⟨fe, hfe, by simpa using hk, rfl⟩, List.mem_flatMap.mpr ⟨fe, by simp,
      List.mem_flatMap.mpr ⟨_, hom, ?_⟩⟩⟩
    simp only [ho, hm, Bool.and_self, if_true]
    exact List.mem_singleton.mpr rfl

/-- the declarations of a Rust file -/
theorem rust_declares {root : Syn} (hl : Legible root) (d : Str × Point × Point) :
    d ∈ (Syn.walk qRustDefinitions [] [] root).flatten.filterMap Spec.declares ↔
      (∃ n, InMacro root n ∧ n.text ≠ some c!"context" ∧ d = n.info) ∨ (∃ n, Registered root n ∧ d = n.unquoted) := by
  rw [List.mem_filterMap]
  constructor
  · rintro ⟨c, hc, hd⟩
    obtain ⟨x, hx, v, m, hm, hc⟩ := mem_captures.mp hc
    cases v with
    | leave =>
      obtain ⟨h1, _, ⟨fe, hfe, hadd⟩, rfl⟩ := rust_leave.mp hm
      obtain ⟨s, hs, hk, rfl⟩ := mem_repeated.mp hc
      right
      have hs' : s ∈ root.flat := Syn.flat_children root (place_flat hx) hs
      rw [declares_name (hl s hs')] at hd
      refine ⟨s, ⟨hk, ?_⟩, (Option.some.inj hd).symm⟩
      rcases Syn.places_inv [] [] root hx with rfl | ⟨y, hy, b, h2, _⟩
      · cases hfe
      · obtain ⟨p, q, e⟩ := List.append_of_mem hfe
        refine ⟨y.2.2, place_flat hy, p, fe, q, x.2.2, b, ?_, hadd, h1, hs⟩
        rw [h2, e]; simp
    | enter =>
      simp only [qRustDefinitions] at hm
      split at hm
      · rename_i hk
        split at hm
        · rename_i p l above hup
          rcases List.mem_append.mp hm with hm | hm
          · split at hm
            · cases List.mem_singleton.mp hm
              rcases List.mem_cons.mp hc with rfl | hc
              · simp [Spec.declares, Syn.cap] at hd
              · cases List.mem_singleton.mp hc
                simp [Spec.declares, Syn.cap] at hd
            · cases hm
          · obtain ⟨hb, rfl⟩ := mem_single hm hc
            simp only [Bool.and_eq_true, decide_eq_true_eq, Bool.not_eq_true', ] at hb
            obtain ⟨hp, b, hch⟩ := place_parent hx hup
            left
            rw [declares_keyId (hl _ (place_flat hx))] at hd
            refine ⟨x.2.2, ⟨hk, p, place_flat hp, hb.1, by rw [hch]; simp⟩, ?_, (Option.some.inj hd).symm⟩
            intro ht
            rw [eqText_iff.mpr ht] at hb
            cases hb.2
        · cases hm
      · obtain ⟨_, rfl⟩ := mem_single hm hc
        simp [Spec.declares, Syn.cap] at hd
      · cases hm
  · rintro (⟨n, ⟨hk, p, hp, hpk, hn⟩, ht, rfl⟩ | ⟨n, ⟨hk, p, hp, a, fe, b, args, c, hch, hadd, hak, hn⟩, rfl⟩)
    · obtain ⟨y, hy, rfl⟩ := (Syn.mem_flat_iff [] [] root).mp hp
      obtain ⟨as, bs, hs⟩ := List.append_of_mem hn
      have hx := Syn.places_child [] [] root hy hs
      refine ⟨_, mem_captures.mpr ⟨_, hx, .enter, [n.cap .keyId ((y.2.2, y.2.1) :: y.1)], ?_, List.mem_singleton.mpr rfl⟩,
        declares_keyId (hl n (Syn.flat_children root hp hn))⟩
      simp only [qRustDefinitions, hk]
      refine List.mem_append_right _ ?_
      have : eqText n c!"context" = false := by
        cases h : eqText n c!"context" with
        | false => rfl
        | true => exact absurd (eqText_iff.mp h) ht
      simp [single, hpk, this]
    · obtain ⟨y, hy, rfl⟩ := (Syn.mem_flat_iff [] [] root).mp hp
      have hx := Syn.places_child (as := a ++ fe :: b) (c := args) (bs := c) [] [] root hy (by rw [hch]; simp)
      have harg : args ∈ root.flat := Syn.flat_children root hp (by rw [hch]; simp)
      have hin : n.cap .name ((args, a ++ fe :: b) :: (y.2.2, y.2.1) :: y.1) ∈
          repeated .name ((y.2.2, y.2.1) :: y.1) (a ++ fe :: b) args .stringLiteral := mem_repeated.mpr ⟨n, hn, hk, rfl⟩
      refine ⟨_, mem_captures.mpr ⟨_, hx, .leave, _, rust_leave.mpr ⟨hak, List.ne_nil_of_mem hin, ⟨fe, by simp, hadd⟩, rfl⟩, hin⟩,
        declares_name (hl n (Syn.flat_children root harg hn))⟩

/-- only error nodes end the analysis of a Rust file -/
theorem rust_noError {root : Syn} (h : ¬ HasError root) : ∀ c ∈ (Syn.walk qRustDefinitions [] [] root).flatten, c.name ≠ .error := by
  intro c hc hn
  obtain ⟨x, hx, v, m, hm, hc⟩ := mem_captures.mp hc
  cases v with
  | leave =>
    obtain ⟨_, _, _, rfl⟩ := rust_leave.mp hm
    obtain ⟨s, _, _, rfl⟩ := mem_repeated.mp hc
    cases hn
  | enter =>
    simp only [qRustDefinitions] at hm
    split at hm
    · split at hm
      · rcases List.mem_append.mp hm with hm | hm
        · split at hm
          · cases List.mem_singleton.mp hm
            rcases List.mem_cons.mp hc with rfl | hc
            · cases hn
            · cases List.mem_singleton.mp hc; cases hn
          · cases hm
        · obtain ⟨_, rfl⟩ := mem_single hm hc; cases hn
      · cases hm
    · rename_i hk
      exact h ⟨_, place_flat hx, hk⟩
    · cases hm

/-- every capture is a node of the tree -/
theorem rust_legible {root : Syn} (hl : Legible root) : ∀ c ∈ (Syn.walk qRustDefinitions [] [] root).flatten, c.text ≠ none := by
  intro c hc
  obtain ⟨x, hx, v, m, hm, hc⟩ := mem_captures.mp hc
  cases v with
  | leave =>
    obtain ⟨_, _, _, rfl⟩ := rust_leave.mp hm
    obtain ⟨s, hs, _, rfl⟩ := mem_repeated.mp hc
    exact hl s (Syn.flat_children root (place_flat hx) hs)
  | enter =>
    simp only [qRustDefinitions] at hm
    split at hm
    · split at hm
      · rename_i hup
        rcases List.mem_append.mp hm with hm | hm
        · split at hm
          · cases List.mem_singleton.mp hm
            rcases List.mem_cons.mp hc with rfl | hc
            · exact hl _ (place_flat (place_parent hx hup).1)
            · cases List.mem_singleton.mp hc; exact hl _ (place_flat hx)
          · cases hm
        · obtain ⟨_, rfl⟩ := mem_single hm hc; exact hl _ (place_flat hx)
      · cases hm
    · obtain ⟨_, rfl⟩ := mem_single hm hc; exact hl _ (place_flat hx)
    · cases hm

/-! ### Python -/

/-- the attributes that make a table, as the query counts them -/
theorem isTable_iff {t : Syn} : IsTable t ↔ t.kind = .attribute ∧
    ((t.children.filter fun c => decide (c.kind = .identifier ∧ c.field = some .object)).all (eqText · c!"jinja_env") = true) ∧
      ∃ f ∈ t.children, decide (f.kind = .identifier ∧ f.field = some .attribute) && anyText f [c!"globals", c!"filters"] := by
  unfold IsTable
  refine and_congr Iff.rfl (and_congr ?_ ?_)
  · simp only [List.all_eq_true, List.mem_filter, decide_eq_true_eq, eqText_iff]
    exact ⟨fun h o ho => h o ho.1 ho.2.1 ho.2.2, fun h o ho h1 h2 => h o ⟨ho, h1, h2⟩⟩
  · simp only [Bool.and_eq_true, decide_eq_true_eq, anyText_two, and_assoc]

theorem mem_flatMap_const {α β : Type} {l : List α} {p : α → Bool} {g : α → List β} {b : β} :
    b ∈ (l.filter p).flatMap g ↔ ∃ a ∈ l, p a = true ∧ b ∈ g a := by
  rw [List.mem_flatMap]
  constructor
  · rintro ⟨a, ha, h⟩; exact ⟨a, (List.mem_filter.mp ha).1, (List.mem_filter.mp ha).2, h⟩
  · rintro ⟨a, ha, hp, h⟩; exact ⟨a, List.mem_filter.mpr ⟨ha, hp⟩, h⟩

theorem mem_map_const {α β : Type} {l : List α} {p : α → Bool} {x b : β} :
    b ∈ (l.filter p).map (fun _ => x) ↔ (∃ a ∈ l, p a = true) ∧ b = x := by
  rw [List.mem_map]
  constructor
  · rintro ⟨a, ha, rfl⟩; exact ⟨⟨a, (List.mem_filter.mp ha).1, (List.mem_filter.mp ha).2⟩, rfl⟩
  · rintro ⟨⟨a, ha, hp⟩, rfl⟩; exact ⟨a, List.mem_filter.mpr ⟨ha, hp⟩, rfl⟩

theorem isRenderer_iff {f : Syn} : IsRenderer f ↔
    (decide (f.kind = .identifier) && anyText f [c!"render_template", c!"render"]) = true ∨
      (f.kind = .attribute ∧ (f.children.any fun o => decide (o.kind = .identifier ∧ o.field = some .object)) = true ∧
        ∃ m ∈ f.children, (decide (m.kind = .identifier ∧ m.field = some .attribute) && anyText m [c!"render_template", c!"render"]) = true) := by
  unfold IsRenderer IsRender
  refine or_congr ?_ (and_congr Iff.rfl (and_congr ?_ ?_))
  · simp only [Bool.and_eq_true, decide_eq_true_eq, anyText_two]
  · simp only [List.any_eq_true, decide_eq_true_eq]
  · simp only [Bool.and_eq_true, decide_eq_true_eq, anyText_two]
    constructor
    · rintro ⟨m, h1, h2, h3, h4⟩; exact ⟨m, h1, ⟨h3, h2⟩, h4⟩
    · rintro ⟨m, h1, ⟨h3, h2⟩, h4⟩; exact ⟨m, h1, h2, h3, h4⟩

/-- what the walk reports at a node of a Python file -/
theorem python_enter {root : Syn} {x : Place} (_hx : x ∈ Syn.places [] [] root) {m : List Capture} :
    m ∈ qPythonDefinitions .enter x.1 x.2.1 x.2.2 ↔
      (x.2.2.kind = .error ∧ m = [x.2.2.cap .error x.1]) ∨
      (m = [x.2.2.cap .keyId x.1] ∧ ((x.2.2.kind = .stringContent ∧ ∃ str l sub l' up, x.1 = (str, l) :: (sub, l') :: up ∧
          str.kind = .string ∧ sub.kind = .subscript ∧ ∃ t ∈ l, IsTable t) ∨
        (x.2.2.kind = .identifier ∧ x.2.2.field = some .name ∧ ∃ k l0 args l c l' up, x.1 = (k, l0) :: (args, l) :: (c, l') :: up ∧
          k.kind = .keywordArgument ∧ args.kind = .argumentList ∧ args.field = some .arguments ∧ c.kind = .call ∧
          ∃ f ∈ l, f.field = some .function ∧ IsRenderer f))) := by
  simp only [qPythonDefinitions]
  split
  · rename_i hk
    simp only [hk, reduceCtorEq, false_and, false_or, or_false, true_and]
    split
    · rename_i str l sub l' up hup
      split
      · rename_i hc
        rw [mem_flatMap_const]
        constructor
        · rintro ⟨t, ht, htk, h⟩
          split at h
          · rename_i hall
            obtain ⟨hf, rfl⟩ := mem_map_const.mp h
            exact ⟨rfl, str, l, sub, l', up, hup, hc.1, hc.2, t, ht, isTable_iff.mpr ⟨by simpa using htk, hall, hf⟩⟩
          · cases h
        · rintro ⟨rfl, str', l1, sub', l1', up', hup', _, _, t, ht, htab⟩
          rw [hup] at hup'
          cases hup'
          obtain ⟨h1, h2, h3⟩ := isTable_iff.mp htab
          refine ⟨t, ht, by simpa using h1, ?_⟩
          rw [if_pos h2]
          exact mem_map_const.mpr ⟨h3, rfl⟩
      · rename_i hc
        constructor
        · intro h; cases h
        · rintro ⟨_, str', l1, sub', l1', up', hup', h1, h2, _⟩
          rw [hup] at hup'
          cases hup'
          exact absurd ⟨h1, h2⟩ hc
    · rename_i hno
      constructor
      · intro h; cases h
      · rintro ⟨_, str', l1, sub', l1', up', hup', _⟩
        exact absurd hup' (hno _ _ _ _ _)
  · rename_i hk
    simp only [hk, reduceCtorEq, false_and, false_or, true_and]
    split
    · rename_i k l0 args l c l' up hup
      split
      · rename_i hc
        rw [mem_flatMap_const]
        constructor
        · rintro ⟨f, hf, hff, h⟩
          have hff' : f.field = some .function := by simpa using hff
          split at h
          · rename_i hr
            refine ⟨List.mem_singleton.mp h, hc.1, k, l0, args, l, c, l', up, hup, hc.2.1, hc.2.2.1, hc.2.2.2.1, hc.2.2.2.2, f, hf, hff',
              isRenderer_iff.mpr (.inl hr)⟩
          · split at h
            · rename_i hr
              simp only [Bool.and_eq_true, decide_eq_true_eq] at hr
              obtain ⟨hm, rfl⟩ := mem_map_const.mp h
              exact ⟨rfl, hc.1, k, l0, args, l, c, l', up, hup, hc.2.1, hc.2.2.1, hc.2.2.2.1, hc.2.2.2.2, f, hf, hff',
                isRenderer_iff.mpr (.inr ⟨hr.1, hr.2, hm⟩)⟩
            · cases h
        · rintro ⟨rfl, h0, k', l0', args', l1, c', l1', up', hup', h1, h2, h3, h4, f, hf, hff, hr⟩
          rw [hup] at hup'
          cases hup'
          refine ⟨f, hf, by simpa using hff, ?_⟩
          rcases isRenderer_iff.mp hr with hr | ⟨hr1, hr2, hr3⟩
          · rw [if_pos hr]; exact List.mem_singleton.mpr rfl
          · rw [if_neg (by simp [hr1]), if_pos (by simp only [hr1, decide_true, Bool.true_and]; exact hr2)]
            exact mem_map_const.mpr ⟨hr3, rfl⟩
      · rename_i hc
        constructor
        · intro h; cases h
        · rintro ⟨_, h0, k', l0', args', l1, c', l1', up', hup', h1, h2, h3, h4, _⟩
          rw [hup] at hup'
          cases hup'
          exact absurd ⟨h0, h1, h2, h3, h4⟩ hc
    · rename_i hno
      constructor
      · intro h; cases h
      · rintro ⟨_, h0, k', l0', args', l1, c', l1', up', hup', _⟩
        exact absurd hup' (hno _ _ _ _ _ _ _)
  · rename_i hk
    simp only [hk, reduceCtorEq, false_and, or_false, and_false, true_and, single, if_true, List.mem_singleton]
  · rename_i h1 h2 h3
    constructor
    · intro h; cases h
    · rintro (⟨h, _⟩ | ⟨_, ⟨h, _⟩ | ⟨h, _⟩⟩)
      · exact absurd h h3
      · exact absurd h h1
      · exact absurd h h2

/-- the declarations of a Python file -/
theorem python_declares {root : Syn} (hl : Legible root) (d : Str × Point × Point) :
    d ∈ (Syn.walk qPythonDefinitions [] [] root).flatten.filterMap Spec.declares ↔
      ∃ n, (TableKey root n ∨ Keyword root n) ∧ d = n.info := by
  rw [List.mem_filterMap]
  constructor
  · rintro ⟨c, hc, hd⟩
    obtain ⟨x, hx, v, m, hm, hc⟩ := mem_captures.mp hc
    cases v with
    | leave => cases hm
    | enter =>
      rcases (python_enter hx).mp hm with ⟨_, rfl⟩ | ⟨rfl, h⟩
      · cases List.mem_singleton.mp hc
        simp [Spec.declares, Syn.cap] at hd
      · cases List.mem_singleton.mp hc
        rw [declares_keyId (hl _ (place_flat hx))] at hd
        refine ⟨x.2.2, ?_, (Option.some.inj hd).symm⟩
        rcases h with ⟨hk, str, l, sub, l', up, hup, h1, h2, t, ht, htab⟩ |
          ⟨hk, hf, k, l0, args, l, c, l', up, hup, h1, h2, h3, h4, f, hf', hff, hr⟩
        · left
          obtain ⟨hp, b, hch⟩ := place_parent hx hup
          obtain ⟨hp2, b2, hch2⟩ := place_parent hp rfl
          obtain ⟨p, q, e⟩ := List.append_of_mem ht
          refine ⟨hk, sub, place_flat hp2, p, t, q, str, b2, ?_, h2, htab, h1, by rw [hch]; simp⟩
          rw [hch2, e]; simp
        · right
          obtain ⟨hp, b, hch⟩ := place_parent hx hup
          obtain ⟨hp2, b2, hch2⟩ := place_parent hp rfl
          obtain ⟨hp3, b3, hch3⟩ := place_parent hp2 rfl
          obtain ⟨p, q, e⟩ := List.append_of_mem hf'
          refine ⟨⟨hk, hf⟩, c, place_flat hp3, p, f, q, args, b3, k, ?_, h4, hff, hr, h2, h3, ?_, h1, by rw [hch]; simp⟩
          · rw [hch3, e]; simp
          · rw [hch2]; simp
  · rintro ⟨n, h, rfl⟩
    rcases h with ⟨hk, p, hp, a, t, b, str, c, hch, hpk, htab, hsk, hn⟩ |
      ⟨⟨hk, hf⟩, p, hp, a, f, b, args, c, k, hch, hpk, hff, hr, hak, haf, hkin, hkk, hn⟩
    · obtain ⟨y, hy, rfl⟩ := (Syn.mem_flat_iff [] [] root).mp hp
      have hx1 := Syn.places_child (as := a ++ t :: b) (c := str) (bs := c) [] [] root hy (by rw [hch]; simp)
      obtain ⟨as, bs, hs⟩ := List.append_of_mem hn
      have hx2 := Syn.places_child [] [] root hx1 hs
      exact ⟨_, mem_captures.mpr ⟨_, hx2, .enter, [n.cap .keyId _], (python_enter hx2).mpr (.inr ⟨rfl, .inl ⟨hk, _, _, _, _, _, rfl, hsk, hpk, t,
        by simp, htab⟩⟩), List.mem_singleton.mpr rfl⟩, declares_keyId (hl n (place_flat hx2))⟩
    · obtain ⟨y, hy, rfl⟩ := (Syn.mem_flat_iff [] [] root).mp hp
      have hx1 := Syn.places_child (as := a ++ f :: b) (c := args) (bs := c) [] [] root hy (by rw [hch]; simp)
      obtain ⟨as, bs, hs⟩ := List.append_of_mem hkin
      have hx2 := Syn.places_child [] [] root hx1 hs
      obtain ⟨as', bs', hs'⟩ := List.append_of_mem hn
      have hx3 := Syn.places_child [] [] root hx2 hs'
      exact ⟨_, mem_captures.mpr ⟨_, hx3, .enter, [n.cap .keyId _], (python_enter hx3).mpr (.inr ⟨rfl, .inr ⟨hk, hf, _, _, _, _, _, _, _, rfl, hkk,
        hak, haf, hpk, f, by simp, hff, hr⟩⟩), List.mem_singleton.mpr rfl⟩, declares_keyId (hl n (place_flat hx3))⟩

theorem python_noError {root : Syn} (h : ¬ HasError root) : ∀ c ∈ (Syn.walk qPythonDefinitions [] [] root).flatten, c.name ≠ .error := by
  intro c hc hn
  obtain ⟨x, hx, v, m, hm, hc⟩ := mem_captures.mp hc
  cases v with
  | leave => cases hm
  | enter =>
    rcases (python_enter hx).mp hm with ⟨hk, rfl⟩ | ⟨rfl, _⟩
    · exact h ⟨_, place_flat hx, hk⟩
    · cases List.mem_singleton.mp hc; cases hn

theorem python_legible {root : Syn} (hl : Legible root) : ∀ c ∈ (Syn.walk qPythonDefinitions [] [] root).flatten, c.text ≠ none := by
  intro c hc
  obtain ⟨x, hx, v, m, hm, hc⟩ := mem_captures.mp hc
  cases v with
  | leave => cases hm
  | enter =>
    rcases (python_enter hx).mp hm with ⟨hk, rfl⟩ | ⟨rfl, _⟩ <;>
    · cases List.mem_singleton.mp hc; exact hl _ (place_flat hx)

/-! ### Template names -/

/-- a match: a call, then its strings -/
def CallMatch (m : List Capture) : Prop :=
  ∃ meth t ts, m = meth :: t :: ts ∧ Spec.isCall meth = true ∧ ∀ c ∈ t :: ts, c.name = .templateName

theorem callArgs_names : ∀ {ts : List Capture} (rest : List Capture), (∀ c ∈ ts, c.name = .templateName) →
    callArgs false (ts ++ rest) = callArgs false rest
  | [], _, _ => rfl
  | t :: ts, rest, h => by
    rw [List.cons_append, callArgs, if_pos (h t (by simp))]
    simp only [Bool.false_eq_true, if_false]
    exact callArgs_names rest fun c hc => h c (List.mem_cons_of_mem _ hc)

/-- the first string of a match that looked at the callee -/
def firstString (m : List Capture) : Option Capture := if ∀ c ∈ m, c.name = .templateName then none else m[1]?

theorem callArgs_matches : ∀ {ms : List (List Capture)}, (∀ m ∈ ms, CallMatch m ∨ ∀ c ∈ m, c.name = .templateName) →
    callArgs false ms.flatten = ms.filterMap firstString
  | [], _ => rfl
  | m :: ms, h => by
    rcases h m (List.mem_cons_self ..) with ⟨meth, t, ts, rfl, h1, h2⟩ | h1
    case inr =>
      rw [List.flatten_cons, List.filterMap_cons, callArgs_names _ h1, callArgs_matches fun m hm => h m (List.mem_cons_of_mem _ hm)]
      simp only [firstString, if_pos h1]
    have hm : meth.name ≠ .templateName := by
      intro e
      simp [Spec.isCall, e] at h1
    rw [List.flatten_cons, List.filterMap_cons]
    have hf : firstString (meth :: t :: ts) = some t := by
      unfold firstString
      rw [if_neg fun e => hm (e meth (by simp))]
      rfl
    rw [hf]
    simp only [List.cons_append, callArgs, hm, h1, h2 t (by simp), if_false, if_true]
    rw [callArgs_names _ (fun c hc => h2 c (List.mem_cons_of_mem _ hc)), callArgs_matches fun m hm => h m (List.mem_cons_of_mem _ hm)]

theorem not_templateName {c : Capture} (h : Spec.isCall c = true) : c.name ≠ .templateName := by
  intro e
  simp [Spec.isCall, e] at h

theorem mem_callees {via part : SKind} {up : List Above} {left : List Syn} {l : List Capture} :
    l ∈ callees .identifier via part up left → ∃ m ∈ left, IsLoader via part m ∧ ∃ c, l = [c] ∧ Spec.isCall c = true ∧
      (∃ k, c.text = k.text ∧ (k = m ∨ k ∈ m.children)) := by
  intro h
  unfold callees at h
  obtain ⟨m, hm, h⟩ := List.mem_flatMap.mp h
  have hcall : ∀ {k : Syn} {u : List Above}, anyText k templateMethods = true → Spec.isCall (k.cap .methodName u) = true := by
    intro k u hk
    unfold templateMethods at hk
    rcases anyText_two.mp hk with h | h <;> simp [Spec.isCall, Syn.cap, h]
  split at h
  · rename_i hk
    obtain ⟨k, hk', rfl⟩ := List.mem_map.mp h
    obtain ⟨h1, h2⟩ := List.mem_filter.mp hk'
    simp only [Bool.and_eq_true, decide_eq_true_eq] at h2
    refine ⟨m, hm, .inl ⟨hk, k, h1, h2.1, ?_⟩, _, rfl, hcall h2.2, k, rfl, .inr h1⟩
    exact anyText_two.mp h2.2
  · split at h
    · rename_i h2
      simp only [Bool.and_eq_true, decide_eq_true_eq] at h2
      cases List.mem_singleton.mp h
      exact ⟨m, hm, .inr ⟨h2.1, anyText_two.mp h2.2⟩, _, rfl, hcall h2.2, m, rfl, .inl rfl⟩
    · cases h

theorem callees_ne {via part : SKind} (hv : via ≠ .identifier) {up : List Above} {left : List Syn} {m : Syn} (hm : m ∈ left)
    (h : IsLoader via part m) : ∃ l, l ∈ callees .identifier via part up left := by
  unfold callees
  rcases h with ⟨hk, c, hc, hcp, ht⟩ | ⟨hk, ht⟩
  · refine ⟨[c.cap .methodName ((m, []) :: up)], List.mem_flatMap.mpr ⟨m, hm, ?_⟩⟩
    rw [if_pos hk]
    refine List.mem_map.mpr ⟨c, List.mem_filter.mpr ⟨hc, ?_⟩, rfl⟩
    simp only [Bool.and_eq_true, decide_eq_true_eq]
    exact ⟨hcp, anyText_two.mpr ht⟩
  · refine ⟨[m.cap .methodName up], List.mem_flatMap.mpr ⟨m, hm, ?_⟩⟩
    rw [if_neg (by rw [hk]; exact fun e => hv e.symm), if_pos]
    · exact List.mem_singleton.mpr rfl
    · simp only [Bool.and_eq_true, decide_eq_true_eq]
      exact ⟨hk, anyText_two.mpr ht⟩

/-- the first element of a filtered list -/
theorem filter_first {p : Syn → Bool} : ∀ {l : List Syn} {n : Syn} {r : List Syn}, l.filter p = n :: r →
    ∃ x y, l = x ++ n :: y ∧ p n = true ∧ ∀ k ∈ x, p k = false
  | [], _, _, h => by cases h
  | a :: l, n, r, h => by
    rw [List.filter_cons] at h
    split at h
    · rename_i ha
      injection h with h1 h2
      subst h1
      exact ⟨[], l, rfl, ha, fun k hk => by cases hk⟩
    · rename_i ha
      obtain ⟨x, y, rfl, h1, h2⟩ := filter_first h
      refine ⟨a :: x, y, rfl, h1, fun k hk => ?_⟩
      rcases List.mem_cons.mp hk with rfl | hk
      · simpa using ha
      · exact h2 k hk

theorem filter_of_first {p : Syn → Bool} : ∀ {x y : List Syn} {n : Syn}, p n = true → (∀ k ∈ x, p k = false) →
    (x ++ n :: y).filter p = n :: y.filter p
  | [], y, n, h, _ => by rw [List.nil_append, List.filter_cons, if_pos h]
  | a :: x, y, n, h, hx => by
    rw [List.cons_append, List.filter_cons, if_neg (by rw [hx a (by simp)]; simp)]
    exact filter_of_first h fun k hk => hx k (List.mem_cons_of_mem _ hk)

/-- the matches of the query for template names -/
theorem templates_matches {loose : Syn → Bool} {callKind argsKind via part literal : SKind} {root : Syn} :
    ∀ m ∈ Syn.walk (qTemplates loose callKind argsKind via part literal) [] [] root, CallMatch m ∨ ∀ c ∈ m, c.name = .templateName := by
  intro m hm
  obtain ⟨x, hx, v, hm⟩ := (Syn.mem_walk [] [] root).mp hm
  cases v with
  | enter => cases hm
  | leave =>
    simp only [qTemplates] at hm
    split at hm
    · split at hm
      · rename_i hc
        have hnames : ∀ c ∈ repeated .templateName x.1 x.2.1 x.2.2 literal, c.name = .templateName := by
          intro c hc
          obtain ⟨s, _, _, rfl⟩ := mem_repeated.mp hc
          rfl
        rcases List.mem_append.mp hm with hm | hm
        · obtain ⟨l, hl, rfl⟩ := List.mem_map.mp hm
          obtain ⟨k, _, _, c, rfl, hcall, _⟩ := mem_callees hl
          obtain ⟨t, ts, e⟩ := List.exists_cons_of_ne_nil hc.2.2
          exact .inl ⟨c, t, ts, by rw [e]; rfl, hcall, e ▸ hnames⟩
        · split at hm
          · cases List.mem_singleton.mp hm
            exact .inr hnames
          · cases hm
      · cases hm
    · cases hm

/-- the template names a query finds -/
theorem templates_refs {loose : Syn → Bool} {callKind argsKind via part literal : SKind} (hv : via ≠ .identifier) {root : Syn} (d : Str × Point × Point) :
    d ∈ (callArgs false (Syn.walk (qTemplates loose callKind argsKind via part literal) [] [] root).flatten).map Spec.refers ↔
      ∃ n, TemplateArgument callKind argsKind via part literal root n ∧ d = n.unquoted := by
  rw [callArgs_matches templates_matches, List.mem_map]
  constructor
  · rintro ⟨c, hc, rfl⟩
    obtain ⟨m, hm, h1⟩ := List.mem_filterMap.mp hc
    obtain ⟨x, hx, v, hm⟩ := (Syn.mem_walk [] [] root).mp hm
    cases v with
    | enter => cases hm
    | leave =>
      simp only [qTemplates] at hm
      split at hm
      · rename_i p l up hup
        split at hm
        · rename_i hcond
          rcases List.mem_append.mp hm with hm | hm
          case inr =>
            split at hm
            · cases List.mem_singleton.mp hm
              rw [firstString, if_pos] at h1
              · cases h1
              · intro c hc
                obtain ⟨s, _, _, rfl⟩ := mem_repeated.mp hc
                rfl
            · cases hm
          obtain ⟨l, hl, rfl⟩ := List.mem_map.mp hm
          obtain ⟨k, hk, hload, c', rfl, hcall, _⟩ := mem_callees hl
          rw [firstString, if_neg (fun e => not_templateName hcall (e c' (by simp)))] at h1
          obtain ⟨hp, b, hch⟩ := place_parent hx hup
          obtain ⟨q, r, e⟩ := List.append_of_mem hk
          -- the first string
          have h1' : (repeated .templateName x.1 x.2.1 x.2.2 literal)[0]? = some c := by simpa using h1
          unfold repeated at h1'
          cases hf : x.2.2.children.filter (fun c => decide (c.kind = literal)) with
          | nil => rw [hf] at h1'; cases h1'
          | cons n rest =>
            rw [hf] at h1'
            have hn : c = n.cap .templateName ((x.2.2, x.2.1) :: x.1) := by simpa using h1'.symm
            obtain ⟨xs, ys, hs, hlit, hbef⟩ := filter_first hf
            refine ⟨n, ⟨p, place_flat hp, q, k, r, x.2.2, b, xs, ys, ?_, hcond.1, hload, hcond.2.1, hs, by simpa using hlit,
              fun k hk => by simpa using hbef k hk⟩, by rw [hn]; rfl⟩
            rw [hch, e]; simp
        · cases hm
      · cases hm
  · rintro ⟨n, ⟨p, hp, a, m, b, l, c, xs, ys, hch, hpk, hload, hlk, hs, hlit, hbef⟩, rfl⟩
    obtain ⟨y, hy, rfl⟩ := (Syn.mem_flat_iff [] [] root).mp hp
    have hx := Syn.places_child (as := a ++ m :: b) (c := l) (bs := c) [] [] root hy (by rw [hch]; simp)
    obtain ⟨cl, hcl⟩ := callees_ne (up := (y.2.2, y.2.1) :: y.1) hv (show m ∈ a ++ m :: b by simp) hload
    obtain ⟨_, _, _, c', rfl, hcall, _⟩ := mem_callees hcl
    have hrep : repeated .templateName ((y.2.2, y.2.1) :: y.1) (a ++ m :: b) l literal =
        n.cap .templateName ((l, a ++ m :: b) :: (y.2.2, y.2.1) :: y.1) ::
          (ys.filter fun c => decide (c.kind = literal)).map (Syn.cap .templateName ((l, a ++ m :: b) :: (y.2.2, y.2.1) :: y.1)) := by
      unfold repeated
      rw [hs, filter_of_first (by simpa using hlit) (fun k hk => by simpa using hbef k hk)]
      rfl
    refine ⟨n.cap .templateName ((l, a ++ m :: b) :: (y.2.2, y.2.1) :: y.1), List.mem_filterMap.mpr
      ⟨[c'] ++ repeated .templateName ((y.2.2, y.2.1) :: y.1) (a ++ m :: b) l literal,
        (Syn.mem_walk [] [] root).mpr ⟨_, hx, .leave, ?_⟩, ?_⟩, rfl⟩
    · simp only [qTemplates]
      rw [if_pos ⟨hpk, hlk, by rw [hrep]; simp⟩]
      exact List.mem_append_left _ (List.mem_map.mpr ⟨_, hcl, rfl⟩)
    · rw [firstString, if_neg (fun e => not_templateName hcall (e c' (by simp))), hrep]; rfl

theorem templates_legible {loose : Syn → Bool} {callKind argsKind via part literal : SKind} {root : Syn} (hl : Legible root) :
    ∀ c ∈ (Syn.walk (qTemplates loose callKind argsKind via part literal) [] [] root).flatten, c.text ≠ none := by
  intro c hc
  obtain ⟨x, hx, v, m, hm, hc⟩ := mem_captures.mp hc
  cases v with
  | enter => cases hm
  | leave =>
    simp only [qTemplates] at hm
    split at hm
    · rename_i p l up hup
      split at hm
      · rcases List.mem_append.mp hm with hm | hm
        case inr =>
          split at hm
          · cases List.mem_singleton.mp hm
            obtain ⟨s, hs, _, rfl⟩ := mem_repeated.mp hc
            exact hl s (Syn.flat_children root (place_flat hx) hs)
          · cases hm
        obtain ⟨l, hl', rfl⟩ := List.mem_map.mp hm
        obtain ⟨k, hk, _, c', rfl, _, n, hn, hin⟩ := mem_callees hl'
        rcases List.mem_append.mp hc with hc | hc
        · cases List.mem_singleton.mp hc
          rw [hn]
          obtain ⟨hp, b, hch⟩ := place_parent hx hup
          have hk' : k ∈ root.flat := Syn.flat_children root (place_flat hp) (by rw [hch]; exact List.mem_append_left _ hk)
          rcases hin with rfl | hin
          · exact hl _ hk'
          · exact hl _ (Syn.flat_children root hk' hin)
        · obtain ⟨s, hs, _, rfl⟩ := mem_repeated.mp hc
          exact hl s (Syn.flat_children root (place_flat hx) hs)
      · cases hm
    · cases hm

end JinjaLsp
