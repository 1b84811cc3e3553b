import Verif.Spec.Jinja
import Verif.Lemmas.Items
import Verif.Lemmas.Point
/-
  Jinja's scoping rules and the bindings of bracket matching.
-/

namespace JinjaLsp
open Spec

theorem names_append (a b : List HTok) : names (a ++ b) = names a ++ names b := by
  induction a with
  | nil => rfl
  | cons h a ih => cases h <;> simp [names, ih]

theorem names_toks {ts : List HTok} {t : Tok} (h : t ∈ names ts) : t ∈ ts.map HTok.tok := by
  induction ts with
  | nil => cases h
  | cons x ts ih =>
    cases x with
    | name u =>
      rcases List.mem_cons.mp h with rfl | h
      · exact List.mem_cons_self
      · exact List.mem_cons_of_mem _ (ih h)
    | eq u => exact List.mem_cons_of_mem _ (ih h)

theorem mem_names {ts : List HTok} {t : Tok} : t ∈ names ts ↔ .name t ∈ ts := by
  induction ts with
  | nil => simp [names]
  | cons x ts ih => cases x <;> simp [names, ih]

theorem names_target {as : List Assign} {a : Assign} (h : a ∈ as) : a.target ∈ names (as.flatMap Assign.toks) :=
  mem_names.mpr (List.mem_flatMap.mpr ⟨a, h, List.mem_cons_self⟩)

theorem names_param {ps : List Param} {a : Param} (h : a ∈ ps) : a.name ∈ names (ps.flatMap Param.toks) := by
  refine mem_names.mpr (List.mem_flatMap.mpr ⟨a, h, ?_⟩)
  unfold Param.toks
  split <;> exact List.mem_cons_self

theorem closing_toks {p : Program} {e : EndTag} (h : .closing e ∈ p.items) : e.d.opening ∈ p.toks := by
  have he : ∀ e : EndTag, e.d.opening ∈ e.toks := fun e => List.mem_cons_self
  induction p with
  | done => cases h
  | out ts parts r ih => simp [Program.items] at h; simp [Program.toks, ih h]
  | stmt d ts r ih => simp [Program.items] at h; simp [Program.toks, ih h]
  | import_ d ts b r ih => simp [Program.items] at h; simp [Program.toks, ih h]
  | set d kw x ts r ih => simp [Program.items] at h; simp [Program.toks, ih h]
  | branch d kw ts r ih => simp [Program.items] at h; simp [Program.toks, ih h]
  | _ =>
    rename_i ih1 ih2
    simp [Program.items] at h
    rcases h with h | rfl | h
    · simp [Program.toks, ih1 h]
    · simp [Program.toks, he]
    · simp [Program.toks, ih2 h]

theorem matchEnd_inlines (parts : List (Tok × List HTok)) (k : Nat) (r : List Item) :
    matchEnd k (parts.map (fun q => Item.inline q.1 q.2) ++ r) = matchEnd (k + parts.length) r := by
  induction parts generalizing k with
  | nil => rfl
  | cons q parts ih =>
    simp only [List.map_cons, List.cons_append, matchEnd, ih, List.length_cons]
    congr 1; omega

theorem bindings_inlines (last : Point) (parts : List (Tok × List HTok)) (k : Nat) (r : List Item) :
    Items.bindings last k (parts.map (fun q => Item.inline q.1 q.2) ++ r) = Items.bindings last (k + parts.length) r := by
  induction parts generalizing k with
  | nil => rfl
  | cons q parts ih =>
    simp only [List.map_cons, List.cons_append, Items.bindings, ih, List.length_cons]
    congr 1; omega

/-- bracket matching skips a template, but for the brackets it leaves open -/
theorem matchEnd_program {p : Program} (hp : p.Paired) : ∀ (k : Nat) (r : List Item), matchEnd k (p.items ++ r) = matchEnd (k + p.forks) r := by
  induction p with
  | done => intro k r; rfl
  | out ts parts q ih =>
    intro k r
    simp only [Program.items, List.cons_append, List.append_assoc, matchEnd, matchEnd_inlines, ih hp, Program.forks]
    congr 1; omega
  | stmt d ts q ih => intro k r; exact ih hp k r
  | import_ d ts b q ih => intro k r; exact ih hp k r
  | set d kw x ts q ih => intro k r; exact ih hp k r
  | branch d kw ts q ih =>
    intro k r
    simp only [Program.items, List.cons_append, matchEnd, ih hp, Program.forks]
    congr 1; omega
  | setBlock => exact hp.elim
  | call => exact hp.elim
  | _ =>
    rename_i body e q ih1 ih2
    intro k r
    simp only [Program.items, List.cons_append, List.append_assoc, matchEnd, ih1 hp.1, Program.forks]
    rw [show k + 1 + body.forks = (k + body.forks) + 1 by omega]
    simp only [matchEnd, ih2 hp.2]
    congr 1; omega

theorem matchEnd_ge {q last : Point} (hl : q ≤ last) : ∀ (is : List Item) (k : Nat), (∀ e, .closing e ∈ is → q ≤ e.start) →
    q ≤ (matchEnd k is).getD last
  | [], k, _ => by cases k <;> exact hl
  | .leaf _ :: r, k, h => by
    have := matchEnd_ge hl r k fun e he => h e (List.mem_cons_of_mem _ he)
    cases k <;> exact this
  | .opening _ _ :: r, k, h => by
    have := matchEnd_ge hl r (k + 1) fun e he => h e (List.mem_cons_of_mem _ he)
    cases k <;> exact this
  | .inline _ _ :: r, k, h => by
    have := matchEnd_ge hl r (k + 1) fun e he => h e (List.mem_cons_of_mem _ he)
    cases k <;> exact this
  | .closing e :: r, 0, h => h e List.mem_cons_self
  | .closing _ :: r, k + 1, h => matchEnd_ge hl r k fun e he => h e (List.mem_cons_of_mem _ he)

/-- what is bound after a template is bound in the whole -/
theorem bindings_after (last : Point) {p : Program} (hp : p.Paired) : ∀ (d : Nat) (r : List Item),
    ∃ bs, Items.bindings last d (p.items ++ r) = bs ++ Items.bindings last (d + p.forks) r := by
  induction p with
  | done => intro d r; exact ⟨[], rfl⟩
  | out ts parts q ih =>
    intro d r
    obtain ⟨bs, h⟩ := ih hp (d + parts.length) r
    refine ⟨bs, ?_⟩
    simp only [Program.items, List.cons_append, List.append_assoc, Items.bindings, bindings_inlines, h, Program.forks, Nat.add_assoc]
  | stmt d ts q ih => intro k r; exact ih hp k r
  | import_ d ts b q ih => intro k r; exact ih hp k r
  | set d kw x ts q ih =>
    intro k r
    obtain ⟨bs, h⟩ := ih hp k r
    refine ⟨x.bind .setVariable (if k = 0 then last else (matchEnd 0 (q.items ++ r)).getD last) :: bs, ?_⟩
    simp only [Program.items, List.cons_append, Items.bindings, h, Program.forks]
  | branch d kw ts q ih =>
    intro k r
    obtain ⟨bs, h⟩ := ih hp (k + 1) r
    exact ⟨bs, by simp only [Program.items, List.cons_append, Items.bindings, h, Program.forks, Head.bindings, List.nil_append, Nat.add_assoc]⟩
  | setBlock => exact hp.elim
  | call => exact hp.elim
  | _ =>
    rename_i body e q ih1 ih2
    intro k r
    obtain ⟨b1, h1⟩ := ih1 hp.1 (k + 1) (.closing e :: (q.items ++ r))
    obtain ⟨b2, h2⟩ := ih2 hp.2 (k + body.forks) r
    simp only [Program.items, List.cons_append, List.append_assoc, Items.bindings, h1, Program.forks]
    rw [show k + 1 + body.forks - 1 = k + body.forks by omega, h2, ← Nat.add_assoc]
    generalize Head.bindings _ _ _ = hd
    exact ⟨hd ++ (b1 ++ b2), by simp⟩

/-- the bindings include that of `x`, and the name `t` lies behind it and in its scope -/
def InScope (bs : List Binding) (x : Bound) (t : Tok) : Prop :=
  ∃ e, x.tok.bind x.kind e ∈ bs ∧ x.kind ≠ .templateBlock ∧ (x.tok.start < x.tok.stop ∧ x.tok.stop ≤ t.start) ∧ t.stop ≤ e

theorem InScope.mono {bs bs' : List Binding} {x : Bound} {t : Tok} (h : InScope bs x t) (hs : ∀ b ∈ bs, b ∈ bs') : InScope bs' x t := by
  obtain ⟨e, h1, h2⟩ := h
  exact ⟨e, hs _ h1, h2⟩

theorem mem_evaluated {ρ : List Bound} {us : List Tok} {t : Tok} {env : List Bound} : (t, env) ∈ evaluated ρ us ↔ t ∈ us ∧ env = ρ := by
  simp only [evaluated, List.mem_map, Prod.mk.injEq]
  exact ⟨fun ⟨a, h, e1, e2⟩ => ⟨e1 ▸ h, e2.symm⟩, fun ⟨h, e⟩ => ⟨t, h, rfl, e.symm⟩⟩

theorem Spec.InOrder.left {last : Point} {a b : List Tok} (h : InOrder last (a ++ b)) : InOrder last a :=
  ⟨(List.pairwise_append.mp h.order).1, fun t ht => h.spans t (List.mem_append_left _ ht), fun t ht => h.last t (List.mem_append_left _ ht)⟩

theorem Spec.InOrder.right {last : Point} {a b : List Tok} (h : InOrder last (a ++ b)) : InOrder last b :=
  ⟨(List.pairwise_append.mp h.order).2.1, fun t ht => h.spans t (List.mem_append_right _ ht), fun t ht => h.last t (List.mem_append_right _ ht)⟩

theorem Spec.InOrder.cross {last : Point} {a b : List Tok} (h : InOrder last (a ++ b)) {s t : Tok} (hs : s ∈ a) (ht : t ∈ b) : s.stop ≤ t.start :=
  (List.pairwise_append.mp h.order).2.2 s hs t ht

/-- evaluated names are tokens of the template -/
theorem sees_toks {p : Program} : ∀ {σ ρ : List Bound} {t : Tok} {env : List Bound}, (t, env) ∈ p.sees σ ρ → t ∈ p.toks := by
  have hn : ∀ {ts : List HTok} {t : Tok}, t ∈ names ts → ∃ a ∈ ts, a.tok = t := fun h => by simpa using names_toks h
  induction p with
  | done => intro σ ρ t env h; cases h
  | out ts parts r ih =>
    intro σ ρ t env h
    simp only [Program.sees, List.mem_append, mem_evaluated, List.mem_flatMap] at h
    simp only [Program.toks, List.mem_append, List.mem_flatMap, List.mem_cons]
    rcases h with (⟨h, _⟩ | ⟨q, hq, h, _⟩) | h
    · exact .inl (names_toks h)
    · exact .inr (.inl ⟨q, hq, .inr (names_toks h)⟩)
    · exact .inr (.inr (ih h))
  | stmt d ts r ih =>
    intro σ ρ t env h
    simp only [Program.sees, List.mem_append, mem_evaluated] at h
    rcases h with ⟨h, _⟩ | h
    · have := hn h; simp [Program.toks, tagToks, this]
    · simp [Program.toks, ih h]
  | import_ d ts b r ih => intro σ ρ t env h; simp [Program.toks, ih h]
  | set d kw x ts r ih =>
    intro σ ρ t env h
    simp only [Program.sees, List.mem_append, mem_evaluated] at h
    rcases h with ⟨h, _⟩ | h
    · have := hn h; simp [Program.toks, tagToks, this]
    · simp [Program.toks, ih h]
  | branch d kw ts r ih =>
    intro σ ρ t env h
    simp only [Program.sees, List.mem_append, mem_evaluated] at h
    rcases h with ⟨h, _⟩ | h
    · have := hn h; simp [Program.toks, tagToks, this]
    · simp [Program.toks, ih h]
  | setBlock d kw x body e r ih1 ih2 =>
    intro σ ρ t env h
    simp only [Program.sees, List.mem_append] at h
    rcases h with h | h
    · simp [Program.toks, ih1 h]
    · simp [Program.toks, ih2 h]
  | block d kw x body e r ih1 ih2 =>
    intro σ ρ t env h
    simp only [Program.sees, List.mem_append] at h
    rcases h with h | h
    · simp [Program.toks, ih1 h]
    · simp [Program.toks, ih2 h]
  | area d kw ts body e r ih1 ih2 =>
    intro σ ρ t env h
    simp only [Program.sees, List.mem_append] at h
    rcases h with h | h
    · simp [Program.toks, ih1 h]
    · simp [Program.toks, ih2 h]
  | with_ d kw as body e r ih1 ih2 =>
    intro σ ρ t env h
    simp only [Program.sees, List.mem_append, mem_evaluated, List.mem_flatMap] at h
    rcases h with (⟨⟨a, ha, h⟩, _⟩ | h) | h
    · have : t ∈ (as.flatMap Assign.toks).map HTok.tok := by
        refine List.mem_map.mpr ⟨.name t, List.mem_flatMap.mpr ⟨a, ha, ?_⟩, rfl⟩
        simp [Assign.toks, h]
      simp only [Program.toks, tagToks, List.mem_append, List.mem_cons, this, true_or, or_true]
    · simp [Program.toks, ih1 h]
    · simp [Program.toks, ih2 h]
  | macro_ d kw nm ps body e r ih1 ih2 =>
    intro σ ρ t env h
    simp only [Program.sees, List.mem_append, mem_evaluated, List.mem_flatMap] at h
    rcases h with (⟨⟨a, ha, h⟩, _⟩ | h) | h
    · have : t ∈ (ps.flatMap Param.toks).map HTok.tok := by
        refine List.mem_map.mpr ⟨.name t, List.mem_flatMap.mpr ⟨a, ha, ?_⟩, rfl⟩
        obtain ⟨an, ad⟩ := a
        cases ad with
        | none => cases h
        | some q => simp only [Param.rhs] at h; simp [Param.toks, h]
      simp only [Program.toks, tagToks, List.mem_append, List.mem_cons, this, true_or, or_true]
    · simp [Program.toks, ih1 h]
    · simp [Program.toks, ih2 h]
  | _ =>
    rename_i ih1 ih2
    intro σ ρ t env h
    simp only [Program.sees, List.mem_append, mem_evaluated] at h
    rcases h with (⟨h, _⟩ | h) | h
    · have := hn h; simp [Program.toks, tagToks, this]
    · simp [Program.toks, ih1 h]
    · simp [Program.toks, ih2 h]

/-- the scope of something bound before a template does not end before it -/
theorem scope_ge {p : Program} (hp : p.Paired) {last : Point} {t : Tok} {r : List Item} (hl : t.stop ≤ last)
    (hr : ∀ e, .closing e ∈ r → t.stop ≤ e.start) (k : Nat) : t.stop ≤ (matchEnd k (p.items ++ r)).getD last := by
  rw [matchEnd_program hp]
  exact matchEnd_ge hl r _ hr

/-- end tags behind the body of a block -/
theorem after_body {last : Point} {pre : List Tok} {body q : Program} {e : EndTag} {r : List Item}
    (ho : InOrder last (pre ++ (body.toks ++ (e.toks ++ q.toks))))
    (hr : ∀ e', .closing e' ∈ r → ∀ t ∈ pre ++ (body.toks ++ (e.toks ++ q.toks)), t.stop ≤ e'.start) :
    ∀ e', .closing e' ∈ .closing e :: (q.items ++ r) → ∀ t ∈ body.toks, t.stop ≤ e'.start := by
  intro e' h t ht
  rcases List.mem_cons.mp h with h | h
  · cases h
    exact ho.right.cross ht (List.mem_append_left _ List.mem_cons_self)
  · rcases List.mem_append.mp h with h | h
    · exact ho.right.cross ht (List.mem_append_right _ (closing_toks h))
    · exact hr e' h t (by simp [ht])

theorem Spec.InOrder.body {last : Point} {pre bs es qs : List Tok} (h : InOrder last (pre ++ (bs ++ (es ++ qs)))) : InOrder last bs := h.right.left

theorem Spec.InOrder.rest {last : Point} {pre bs es qs : List Tok} (h : InOrder last (pre ++ (bs ++ (es ++ qs)))) : InOrder last qs := h.right.right.right

theorem Spec.InOrder.head_body {last : Point} {pre bs es qs : List Tok} (h : InOrder last (pre ++ (bs ++ (es ++ qs)))) {s t : Tok} (hs : s ∈ pre)
    (ht : t ∈ bs) : s.stop ≤ t.start := h.cross hs (List.mem_append_left _ ht)

theorem Spec.InOrder.head_rest {last : Point} {pre bs es qs : List Tok} (h : InOrder last (pre ++ (bs ++ (es ++ qs)))) {s t : Tok} (hs : s ∈ pre)
    (ht : t ∈ qs) : s.stop ≤ t.start := h.cross hs (by simp [ht])

theorem Spec.InOrder.cross' {last : Point} {a b : List Tok} (h : InOrder last (a ++ b)) {s t : Tok} (hs : s ∈ a) (ht : t ∈ b) :
    s.start < s.stop ∧ s.stop ≤ t.start := ⟨h.spans s (List.mem_append_left _ hs), h.cross hs ht⟩

theorem Spec.InOrder.head_body' {last : Point} {pre bs es qs : List Tok} (h : InOrder last (pre ++ (bs ++ (es ++ qs)))) {s t : Tok} (hs : s ∈ pre)
    (ht : t ∈ bs) : s.start < s.stop ∧ s.stop ≤ t.start := h.cross' hs (List.mem_append_left _ ht)

theorem Spec.InOrder.head_rest' {last : Point} {pre bs es qs : List Tok} (h : InOrder last (pre ++ (bs ++ (es ++ qs)))) {s t : Tok} (hs : s ∈ pre)
    (ht : t ∈ qs) : s.start < s.stop ∧ s.stop ≤ t.start := h.cross' hs (by simp [ht])

/-- the statements of a block: what its body and what follows it bind is bound -/
theorem block_parts (last : Point) {body q : Program} (hb : body.Paired) (d : Delims) (h : Head) (e : EndTag) (r : List Item) (k : Nat) :
    (∀ b ∈ h.bindings ((matchEnd 0 (body.items ++ .closing e :: (q.items ++ r))).getD last)
        (if k = 0 then last else (matchEnd 1 (body.items ++ .closing e :: (q.items ++ r))).getD last),
      b ∈ Items.bindings last k (.opening d h :: (body.items ++ .closing e :: (q.items ++ r)))) ∧
    (∀ b ∈ Items.bindings last (k + 1) (body.items ++ .closing e :: (q.items ++ r)),
      b ∈ Items.bindings last k (.opening d h :: (body.items ++ .closing e :: (q.items ++ r)))) ∧
    (∀ b ∈ Items.bindings last (k + body.forks) (q.items ++ r),
      b ∈ Items.bindings last k (.opening d h :: (body.items ++ .closing e :: (q.items ++ r)))) := by
  refine ⟨fun b hb => ?_, fun b hb => ?_, fun b hb' => ?_⟩
  · simp only [Items.bindings]; exact List.mem_append_left _ hb
  · simp only [Items.bindings]; exact List.mem_append_right _ hb
  · obtain ⟨bs, h1⟩ := bindings_after last hb (k + 1) (.closing e :: (q.items ++ r))
    simp only [Items.bindings, h1]
    rw [show k + 1 + body.forks - 1 = k + body.forks by omega]
    exact List.mem_append_right _ (List.mem_append_right _ hb')

/-- Bindings visible under Jinja's rules are recorded with a scope that covers the place. -/
theorem sees_inScope {last : Point} {p : Program} : ∀ (_ : p.Paired) (σ ρ : List Bound) (k : Nat) (r : List Item) (_ : InOrder last p.toks)
    (_ : ∀ e, .closing e ∈ r → ∀ t ∈ p.toks, t.stop ≤ e.start) {t : Tok} {env : List Bound} (_ : (t, env) ∈ p.sees σ ρ) {x : Bound} (_ : x.Lexical) (_ : x ∈ env),
    x ∈ ρ ∨ x ∈ σ ∨ InScope (Items.bindings last k (p.items ++ r)) x t := by
  induction p with
  | done => intro _ _ _ _ _ _ _ _ _ h; cases h
  | out ts parts q ih =>
    intro hp σ ρ k r ho hr t env h x hl hx
    simp only [Program.sees, List.mem_append, mem_evaluated, List.mem_flatMap] at h
    rcases h with (⟨_, rfl⟩ | ⟨_, _, _, rfl⟩) | h
    · exact .inl hx
    · exact .inl hx
    · simp only [Program.items, List.cons_append, List.append_assoc, Items.bindings, bindings_inlines]
      exact ih hp σ ρ _ r ho.right.right (fun e he t ht => hr e he t (by simp [Program.toks, ht])) h hl hx
  | stmt d ts q ih =>
    intro hp σ ρ k r ho hr t env h x hl hx
    simp only [Program.sees, List.mem_append, mem_evaluated] at h
    rcases h with ⟨_, rfl⟩ | h
    · exact .inl hx
    · simp only [Program.items, List.cons_append, Items.bindings]
      exact ih hp σ ρ _ r ho.right (fun e he t ht => hr e he t (by simp [Program.toks, ht])) h hl hx
  | import_ d ts b q ih =>
    intro hp σ ρ k r ho hr t env h x hl hx
    simp only [Program.items, List.cons_append, Items.bindings]
    rcases ih hp σ _ _ r ho.right (fun e he t ht => hr e he t (by simp [Program.toks, ht])) h hl hx with hx | hx
    · rcases List.mem_append.mp hx with hx | hx
      · obtain ⟨_, _, rfl⟩ := List.mem_map.mp hx
        exact (hl.2.1 rfl).elim
      · exact .inl hx
    · exact .inr hx
  | set d kw y ts q ih =>
    intro hp σ ρ k r ho hr t env h x hl hx
    simp only [Program.sees, List.mem_append, mem_evaluated] at h
    rcases h with ⟨_, rfl⟩ | h
    · exact .inl hx
    · simp only [Program.items, List.cons_append, Items.bindings]
      have ht := sees_toks h
      rcases ih hp σ _ k r ho.right (fun e he t ht => hr e he t (by simp [Program.toks, ht])) h hl hx with hx | hx | hx
      · rcases List.mem_cons.mp hx with rfl | hx
        · refine .inr (.inr ⟨_, List.mem_cons_self, (by intro h; cases h), ho.cross' (s := y) (by simp [tagToks]) ht, ?_⟩)
          split
          · exact ho.right.last t ht
          · exact scope_ge hp (ho.right.last t ht) (fun e he => hr e he t (by simp [Program.toks, ht])) 0
        · exact .inl hx
      · exact .inr (.inl hx)
      · exact .inr (.inr (hx.mono fun b hb => List.mem_cons_of_mem _ hb))
  | branch d kw ts q ih =>
    intro hp σ ρ k r ho hr t env h x hl hx
    simp only [Program.sees, List.mem_append, mem_evaluated] at h
    rcases h with ⟨_, rfl⟩ | h
    · exact .inr (.inl hx)
    · simp only [Program.items, List.cons_append, Items.bindings, Head.bindings, List.nil_append]
      rcases ih hp σ σ _ r ho.right (fun e he t ht => hr e he t (by simp [Program.toks, ht])) h hl hx with hx | hx | hx
      · exact .inr (.inl hx)
      · exact .inr (.inl hx)
      · exact .inr (.inr hx)
  | setBlock => intro hp; exact hp.elim
  | call => intro hp; exact hp.elim
  | loop d kw y more ts body e q ih1 ih2 =>
    intro hp σ ρ k r ho hr t env h x hl hx
    obtain ⟨hb, hq⟩ := hp
    have hr' := after_body ho hr
    have hrq : ∀ e, .closing e ∈ r → ∀ t ∈ q.toks, t.stop ≤ e.start := fun e he t ht => hr e he t (by simp [Program.toks, ht])
    simp only [Program.sees, List.mem_append, mem_evaluated] at h
    simp only [Program.items, List.cons_append, List.append_assoc]
    obtain ⟨b1, b2, b3⟩ := block_parts last (q := q) hb d (.for_ kw y (more.map .name ++ ts)) e r k
    rcases h with (⟨_, rfl⟩ | h) | h
    · exact .inl hx
    · have ht := sees_toks h
      rcases ih1 hb _ _ (k + 1) _ ho.body hr' h hl hx with hx | hx | hx
      · rcases List.mem_append.mp hx with hx | hx
        · obtain ⟨_, _, rfl⟩ := List.mem_map.mp hx
          exact (hl.2.2 rfl).elim
        rcases List.mem_cons.mp hx with rfl | hx
        · exact .inr (.inr ⟨_, b1 _ (List.mem_cons_self ..), (by intro h; cases h), ho.head_body' (s := y) (by simp [tagToks]) ht,
            scope_ge hb (ho.body.last t ht) (fun e he => hr' e he t ht) 0⟩)
        · exact .inl hx
      · exact .inl hx
      · exact .inr (.inr (hx.mono b2))
    · rcases ih2 hq _ _ _ r ho.rest hrq h hl hx with hx | hx | hx
      · exact .inl hx
      · exact .inr (.inl hx)
      · exact .inr (.inr (hx.mono b3))
  | with_ d kw as body e q ih1 ih2 =>
    intro hp σ ρ k r ho hr t env h x hl hx
    obtain ⟨hb, hq⟩ := hp
    have hr' := after_body ho hr
    have hrq : ∀ e, .closing e ∈ r → ∀ t ∈ q.toks, t.stop ≤ e.start := fun e he t ht => hr e he t (by simp [Program.toks, ht])
    simp only [Program.sees, List.mem_append, mem_evaluated] at h
    simp only [Program.items, List.cons_append, List.append_assoc]
    obtain ⟨b1, b2, b3⟩ := block_parts last (q := q) hb d (.with_ kw (as.flatMap Assign.toks)) e r k
    rcases h with (⟨_, rfl⟩ | h) | h
    · exact .inl hx
    · have ht := sees_toks h
      rcases ih1 hb _ _ (k + 1) _ ho.body hr' h hl hx with hx | hx | hx
      · rcases List.mem_append.mp hx with hx | hx
        · obtain ⟨a, ha, rfl⟩ := List.mem_map.mp hx
          have ha : a.target ∈ names (as.flatMap Assign.toks) := names_target (List.mem_reverse.mp ha)
          refine .inr (.inr ⟨_, b1 _ (List.mem_map_of_mem ha), (by intro h; cases h), ho.head_body' (s := a.target) ?_ ht,
            scope_ge hb (ho.body.last t ht) (fun e he => hr' e he t ht) 0⟩)
          have := names_toks ha
          simp only [tagToks, List.mem_cons, List.mem_append, this, true_or, or_true]
        · exact .inl hx
      · exact .inl hx
      · exact .inr (.inr (hx.mono b2))
    · rcases ih2 hq _ _ _ r ho.rest hrq h hl hx with hx | hx | hx
      · exact .inl hx
      · exact .inr (.inl hx)
      · exact .inr (.inr (hx.mono b3))
  | macro_ d kw y ps body e q ih1 ih2 =>
    intro hp σ ρ k r ho hr t env h x hl hx
    obtain ⟨hb, hq⟩ := hp
    have hr' := after_body ho hr
    have hrq : ∀ e, .closing e ∈ r → ∀ t ∈ q.toks, t.stop ≤ e.start := fun e he t ht => hr e he t (by simp [Program.toks, ht])
    simp only [Program.sees, List.mem_append, mem_evaluated] at h
    simp only [Program.items, List.cons_append, List.append_assoc]
    obtain ⟨b1, b2, b3⟩ := block_parts last (q := q) hb d (.macro_ kw y (ps.flatMap Param.toks)) e r k
    rcases h with (⟨_, rfl⟩ | h) | h
    · exact .inl hx
    · have ht := sees_toks h
      rcases ih1 hb _ _ (k + 1) _ ho.body hr' h hl hx with hx | hx | hx
      · rcases List.mem_append.mp hx with hx | hx
        · obtain ⟨a, ha, rfl⟩ := List.mem_map.mp hx
          have ha : a.name ∈ names (ps.flatMap Param.toks) := names_param (List.mem_reverse.mp ha)
          refine .inr (.inr ⟨_, b1 _ (List.mem_cons_of_mem _ (List.mem_map_of_mem ha)), (by intro h; cases h), ho.head_body' (s := a.name) ?_ ht,
            scope_ge hb (ho.body.last t ht) (fun e he => hr' e he t ht) 0⟩)
          have := names_toks ha
          simp only [tagToks, List.mem_cons, List.mem_append, this, true_or, or_true]
        · rcases List.mem_cons.mp hx with rfl | hx
          · refine .inr (.inr ⟨_, b1 _ List.mem_cons_self, (by intro h; cases h), ho.head_body' (s := y) (by simp [tagToks]) ht, ?_⟩)
            split
            · exact ho.body.last t ht
            · exact scope_ge hb (ho.body.last t ht) (fun e he => hr' e he t ht) 1
          · exact .inl hx
      · exact .inl hx
      · exact .inr (.inr (hx.mono b2))
    · have ht := sees_toks h
      rcases ih2 hq _ _ _ r ho.rest hrq h hl hx with hx | hx | hx
      · rcases List.mem_cons.mp hx with rfl | hx
        · refine .inr (.inr ⟨_, b1 _ List.mem_cons_self, (by intro h; cases h), ho.head_rest' (s := y) (by simp [tagToks]) ht, ?_⟩)
          split
          · exact ho.rest.last t ht
          · rw [matchEnd_program hb, Nat.add_comm 1]
            simp only [matchEnd]
            exact scope_ge hq (ho.rest.last t ht) (fun e he => hrq e he t ht) _
        · exact .inl hx
      · exact .inr (.inl hx)
      · exact .inr (.inr (hx.mono b3))
  | cond d kw ts body e q ih1 ih2 =>
    intro hp σ ρ k r ho hr t env h x hl hx
    obtain ⟨hb, hq⟩ := hp
    have hr' := after_body ho hr
    have hrq : ∀ e, .closing e ∈ r → ∀ t ∈ q.toks, t.stop ≤ e.start := fun e he t ht => hr e he t (by simp [Program.toks, ht])
    simp only [Program.sees, List.mem_append, mem_evaluated] at h
    simp only [Program.items, List.cons_append, List.append_assoc]
    obtain ⟨_, b2, b3⟩ := block_parts last (q := q) hb d (.plain kw ts) e r k
    rcases h with (⟨_, rfl⟩ | h) | h
    · exact .inl hx
    · rcases ih1 hb _ _ (k + 1) _ ho.body hr' h hl hx with hx | hx | hx
      · exact .inl hx
      · exact .inl hx
      · exact .inr (.inr (hx.mono b2))
    · rcases ih2 hq _ _ _ r ho.rest hrq h hl hx with hx | hx | hx
      · rcases List.mem_append.mp hx with hx | hx
        · obtain ⟨_, _, rfl⟩ := List.mem_map.mp hx
          cases hl.1
        · exact .inl hx
      · exact .inr (.inl hx)
      · exact .inr (.inr (hx.mono b3))
  | block d kw y body e q ih1 ih2 =>
    intro hp σ ρ k r ho hr t env h x hl hx
    obtain ⟨hb, hq⟩ := hp
    have hr' := after_body ho hr
    have hrq : ∀ e, .closing e ∈ r → ∀ t ∈ q.toks, t.stop ≤ e.start := fun e he t ht => hr e he t (by simp [Program.toks, ht])
    simp only [Program.sees, List.mem_append] at h
    simp only [Program.items, List.cons_append, List.append_assoc]
    obtain ⟨_, b2, b3⟩ := block_parts last (q := q) hb d (.block kw y []) e r k
    rcases h with h | h
    · rcases ih1 hb _ _ (k + 1) _ ho.body hr' h hl hx with hx | hx | hx
      · exact .inl hx
      · exact .inl hx
      · exact .inr (.inr (hx.mono b2))
    · rcases ih2 hq _ _ _ r ho.rest hrq h hl hx with hx | hx | hx
      · exact .inl hx
      · exact .inr (.inl hx)
      · exact .inr (.inr (hx.mono b3))
  | area d kw ts body e q ih1 ih2 =>
    intro hp σ ρ k r ho hr t env h x hl hx
    obtain ⟨hb, hq⟩ := hp
    have hr' := after_body ho hr
    have hrq : ∀ e, .closing e ∈ r → ∀ t ∈ q.toks, t.stop ≤ e.start := fun e he t ht => hr e he t (by simp [Program.toks, ht])
    simp only [Program.sees, List.mem_append] at h
    simp only [Program.items, List.cons_append, List.append_assoc]
    obtain ⟨_, b2, b3⟩ := block_parts last (q := q) hb d (.plain kw ts) e r k
    rcases h with h | h
    · rcases ih1 hb _ _ (k + 1) _ ho.body hr' h hl hx with hx | hx | hx
      · exact .inl hx
      · exact .inl hx
      · exact .inr (.inr (hx.mono b2))
    · rcases ih2 hq _ _ _ r ho.rest hrq h hl hx with hx | hx | hx
      · exact .inl hx
      · exact .inr (.inl hx)
      · exact .inr (.inr (hx.mono b3))

/-! ### Templates without branches -/

/-- no `else`, no inline `if`, no block-form `set`, no `call`; no header evaluates a name it binds, and those of `with` and of macros
evaluate no names -/
def Spec.Program.Flat : Program → Prop
  | .done => True
  | .out _ parts r => parts = [] ∧ r.Flat
  | .stmt _ _ r | .import_ _ _ _ r => r.Flat
  | .set _ _ x ts r => (∀ t ∈ names ts, t.text ≠ x.text) ∧ r.Flat
  | .setBlock .. | .call .. | .branch .. => False
  | .loop _ _ x _ ts body _ r => (∀ t ∈ names ts, t.text ≠ x.text) ∧ body.Flat ∧ r.Flat
  | .with_ _ _ as body _ r => (∀ a ∈ as, a.rhs = []) ∧ body.Flat ∧ r.Flat
  | .macro_ _ _ _ ps body _ r => (∀ p ∈ ps, p.rhs = []) ∧ body.Flat ∧ r.Flat
  | .block _ _ _ body _ r | .cond _ _ _ body _ r | .area _ _ _ body _ r => body.Flat ∧ r.Flat

/-- a template without branches, as a well-nested one -/
def Spec.Program.tpl : Program → Tpl
  | .done => .nil
  | .out ts _ r => .leaf (.expr ts) r.tpl
  | .stmt d ts r | .import_ d ts _ r => .leaf (.stmt d ts) r.tpl
  | .set d kw x ts r => .leaf (.set d kw x ts) r.tpl
  | .setBlock _ _ _ _ _ r | .call _ _ _ _ r | .branch _ _ _ r => r.tpl
  | .loop d kw x more ts body e r => .blk d (.for_ kw x (more.map .name ++ ts)) body.tpl e.d e.kw e.ts r.tpl
  | .with_ d kw as body e r => .blk d (.with_ kw (as.flatMap Assign.toks)) body.tpl e.d e.kw e.ts r.tpl
  | .macro_ d kw name ps body e r => .blk d (.macro_ kw name (ps.flatMap Param.toks)) body.tpl e.d e.kw e.ts r.tpl
  | .block d kw name body e r => .blk d (.block kw name []) body.tpl e.d e.kw e.ts r.tpl
  | .cond d kw ts body e r | .area d kw ts body e r => .blk d (.plain kw ts) body.tpl e.d e.kw e.ts r.tpl

theorem tpl_items {p : Program} (hp : p.Flat) : p.tpl.items = p.items := by
  induction p with
  | done => rfl
  | out ts parts r ih => obtain ⟨rfl, hp⟩ := hp; simp [Program.tpl, Program.items, Tpl.items, ih hp]
  | stmt d ts r ih => simp [Program.tpl, Program.items, Tpl.items, ih hp]
  | import_ d ts b r ih => simp [Program.tpl, Program.items, Tpl.items, ih hp]
  | set d kw x ts r ih => simp [Program.tpl, Program.items, Tpl.items, ih hp.2]
  | setBlock => exact hp.elim
  | call => exact hp.elim
  | branch => exact hp.elim
  | loop d kw x more ts body e q ih1 ih2 => simp [Program.tpl, Program.items, Tpl.items, ih1 hp.2.1, ih2 hp.2.2]
  | with_ d kw as body e q ih1 ih2 => simp [Program.tpl, Program.items, Tpl.items, ih1 hp.2.1, ih2 hp.2.2]
  | macro_ d kw y ps body e q ih1 ih2 => simp [Program.tpl, Program.items, Tpl.items, ih1 hp.2.1, ih2 hp.2.2]
  | _ => rename_i ih1 ih2; simp [Program.tpl, Program.items, Tpl.items, ih1 hp.1, ih2 hp.2]

/-- the body of a block ends before its end tag -/
theorem Spec.InOrder.inner {last : Point} {pre bs qs : List Tok} {e : EndTag} (h : InOrder last (pre ++ (bs ++ (e.toks ++ qs)))) :
    InOrder e.d.opening.start bs :=
  ⟨h.body.order, h.body.spans, fun _ ht => h.right.cross ht (List.mem_append_left _ List.mem_cons_self)⟩

theorem Point.ne_zero_of_lt {a b : Point} (h : a < b) : b ≠ ⟨0, 0⟩ := by
  intro e; subst e; exact Point.not_lt_zero _ h

/-- Where the bindings of an opening tag lie. -/
theorem head_binding {last inner outer : Point} {d : Delims} {h : Head} {b : Binding} {kw : Tok} {ts qs : List Tok}
    (ho : InOrder last (tagToks d (kw :: ts) ++ qs)) (hn : ∀ t ∈ (h.bindings inner outer).map (·.start), ∃ x ∈ ts, x.start = t)
    (hb : b ∈ h.bindings inner outer) : ∃ k ∈ tagToks d (kw :: ts) ++ qs, k.start < b.start := by
  obtain ⟨x, hx, e⟩ := hn _ (List.mem_map_of_mem hb)
  refine ⟨kw, by simp [tagToks], ?_⟩
  have h1 := ho.spans kw (by simp [tagToks])
  have h2 : kw.stop ≤ x.start := by
    have := ho.left.order
    simp only [tagToks, List.cons_append, List.pairwise_cons] at this
    exact this.2.1 x (by simp [hx])
  rw [← e]
  exact Point.lt_of_lt_of_le h1 h2

theorem head_ends {inner outer : Point} {h : Head} {b : Binding} (hb : b ∈ h.bindings inner outer) : b.visibleTo = inner ∨ b.visibleTo = outer := by
  cases h <;> simp only [Head.bindings, List.mem_cons, List.mem_map, List.not_mem_nil, or_false] at hb
  · subst hb; exact .inl rfl
  · obtain ⟨_, _, rfl⟩ := hb; exact .inl rfl
  · rcases hb with rfl | ⟨_, _, rfl⟩
    · exact .inr rfl
    · exact .inl rfl
  · subst hb; exact .inl rfl

/-- every binding is preceded by a token of its template, and its scope ends inside the template or with it -/
theorem tpl_binding {p : Program} : ∀ (_ : p.Flat) (outer : Point) (_ : InOrder outer p.toks), ∀ b ∈ p.tpl.bindings outer,
    (∃ k ∈ p.toks, k.start < b.start) ∧ b.visibleTo ≤ outer ∧ b.visibleTo ≠ ⟨0, 0⟩ := by
  have blk : ∀ (d : Delims) (h : Head) (kw : Tok) (ts : List Tok) (body q : Program) (e : EndTag) (outer : Point),
      InOrder outer (tagToks d (kw :: ts) ++ (body.toks ++ (e.toks ++ q.toks))) →
      (∀ t ∈ (h.bindings e.d.opening.start outer).map (·.start), ∃ x ∈ ts, x.start = t) →
      (∀ b ∈ body.tpl.bindings e.d.opening.start, (∃ k ∈ body.toks, k.start < b.start) ∧ b.visibleTo ≤ e.d.opening.start ∧ b.visibleTo ≠ ⟨0, 0⟩) →
      (∀ b ∈ q.tpl.bindings outer, (∃ k ∈ q.toks, k.start < b.start) ∧ b.visibleTo ≤ outer ∧ b.visibleTo ≠ ⟨0, 0⟩) →
      ∀ b ∈ h.bindings e.d.opening.start outer ++ body.tpl.bindings e.d.opening.start ++ q.tpl.bindings outer,
      (∃ k ∈ tagToks d (kw :: ts) ++ (body.toks ++ (e.toks ++ q.toks)), k.start < b.start) ∧ b.visibleTo ≤ outer ∧ b.visibleTo ≠ ⟨0, 0⟩ := by
    intro d h kw ts body q e outer ho hn hb hq b hm
    have hk : kw ∈ tagToks d (kw :: ts) := by simp [tagToks]
    have he : e.d.opening ∈ e.toks := List.mem_cons_self
    have h1 : kw.stop ≤ e.d.opening.start := ho.cross hk (by simp [he])
    have h2 : kw.start < kw.stop := ho.spans kw (by simp [tagToks])
    have h3 : e.d.opening.start ≤ outer :=
      Point.le_trans (Point.le_of_lt (ho.spans e.d.opening (by simp [he]))) (ho.last e.d.opening (by simp [he]))
    have h4 : e.d.opening.start ≠ ⟨0, 0⟩ := Point.ne_zero_of_lt (Point.lt_of_lt_of_le h2 h1)
    have h5 : outer ≠ ⟨0, 0⟩ := Point.ne_zero_of_lt (Point.lt_of_lt_of_le (Point.lt_of_lt_of_le h2 h1) h3)
    rcases List.mem_append.mp hm with hm | hm
    · rcases List.mem_append.mp hm with hm | hm
      · refine ⟨head_binding ho hn hm, ?_⟩
        rcases head_ends hm with e | e <;> rw [e]
        · exact ⟨h3, h4⟩
        · exact ⟨Point.le_refl _, h5⟩
      · obtain ⟨⟨k, hk, hlt⟩, h6, h7⟩ := hb b hm
        exact ⟨⟨k, by simp [hk], hlt⟩, Point.le_trans h6 h3, h7⟩
    · obtain ⟨⟨k, hk, hlt⟩, h6, h7⟩ := hq b hm
      exact ⟨⟨k, by simp [hk], hlt⟩, h6, h7⟩
  induction p with
  | done => intro _ _ _ b hb; cases hb
  | out ts parts r ih =>
    intro hp outer ho b hb
    obtain ⟨rfl, hp⟩ := hp
    obtain ⟨⟨k, hk, h⟩, h'⟩ := ih hp outer ho.right.right b hb
    exact ⟨⟨k, by simp [Program.toks, hk], h⟩, h'⟩
  | stmt d ts r ih =>
    intro hp outer ho b hb
    obtain ⟨⟨k, hk, h⟩, h'⟩ := ih hp outer ho.right b hb
    exact ⟨⟨k, by simp [Program.toks, hk], h⟩, h'⟩
  | import_ d ts _ r ih =>
    intro hp outer ho b hb
    obtain ⟨⟨k, hk, h⟩, h'⟩ := ih hp outer ho.right b hb
    exact ⟨⟨k, by simp [Program.toks, hk], h⟩, h'⟩
  | set d kw x ts r ih =>
    intro hp outer ho b hb
    rcases List.mem_cons.mp hb with rfl | hb
    · have h1 := ho.spans kw (by simp [Program.toks, tagToks])
      have h2 : kw.stop ≤ x.start := by
        have := ho.left.order
        simp only [tagToks, List.cons_append, List.pairwise_cons] at this
        exact this.2.1 x (by simp)
      refine ⟨⟨kw, by simp [Program.toks, tagToks], Point.lt_of_lt_of_le h1 h2⟩, Point.le_refl _, ?_⟩
      exact Point.ne_zero_of_lt (Point.lt_of_lt_of_le h1 (ho.last kw (by simp [Program.toks, tagToks])))
    · obtain ⟨⟨k, hk, h⟩, h'⟩ := ih hp.2 outer ho.right b hb
      exact ⟨⟨k, by simp [Program.toks, hk], h⟩, h'⟩
  | setBlock => intro hp; exact hp.elim
  | call => intro hp; exact hp.elim
  | branch => intro hp; exact hp.elim
  | loop d kw x more ts body e q ih1 ih2 =>
    intro hp outer ho
    exact blk d _ kw _ body q e outer ho (by simp [Head.bindings, Tok.bind]) (ih1 hp.2.1 _ ho.inner) (ih2 hp.2.2 _ ho.rest)
  | with_ d kw as body e q ih1 ih2 =>
    intro hp outer ho
    refine blk d _ kw _ body q e outer ho ?_ (ih1 hp.2.1 _ ho.inner) (ih2 hp.2.2 _ ho.rest)
    intro t ht
    simp only [Head.bindings, List.map_map, List.mem_map, Function.comp, Tok.bind] at ht
    obtain ⟨x, hx, rfl⟩ := ht
    exact ⟨x, names_toks hx, rfl⟩
  | macro_ d kw y ps body e q ih1 ih2 =>
    intro hp outer ho
    refine blk d _ kw _ body q e outer ho ?_ (ih1 hp.2.1 _ ho.inner) (ih2 hp.2.2 _ ho.rest)
    intro t ht
    simp only [Head.bindings, List.map_cons, List.map_map, List.mem_cons, List.mem_map, Function.comp, Tok.bind] at ht
    rcases ht with rfl | ⟨x, hx, rfl⟩
    · exact ⟨y, by simp, rfl⟩
    · exact ⟨x, List.mem_cons_of_mem _ (names_toks hx), rfl⟩
  | block d kw y body e q ih1 ih2 =>
    intro hp outer ho
    exact blk d _ kw _ body q e outer ho (by simp [Head.bindings, Tok.bind]) (ih1 hp.1 _ ho.inner) (ih2 hp.2 _ ho.rest)
  | cond d kw ts body e q ih1 ih2 =>
    intro hp outer ho
    exact blk d _ kw _ body q e outer ho (by simp [Head.bindings]) (ih1 hp.1 _ ho.inner) (ih2 hp.2 _ ho.rest)
  | area d kw ts body e q ih1 ih2 =>
    intro hp outer ho
    exact blk d _ kw _ body q e outer ho (by simp [Head.bindings]) (ih1 hp.1 _ ho.inner) (ih2 hp.2 _ ho.rest)

/-- the scope of the binding touches `t` -/
structure Near (b : Binding) (t : Tok) : Prop where
  start : b.start ≤ t.stop
  scope : t.start ≤ b.visibleTo ∨ b.visibleTo = ⟨0, 0⟩

theorem tpl_late {q : Program} (hq : q.Flat) {outer : Point} (ho : InOrder outer q.toks) {t : Tok} (ht : ∀ k ∈ q.toks, t.stop ≤ k.start)
    {b : Binding} (hb : b ∈ q.tpl.bindings outer) (h : Near b t) : False := by
  obtain ⟨⟨k, hk, h1⟩, _⟩ := tpl_binding hq outer ho b hb
  exact Point.lt_irrefl _ (Point.lt_of_le_of_lt (ht k hk) (Point.lt_of_lt_of_le h1 h.start))

theorem ended {outer : Point} {t : Tok} (ht : outer < t.start) {b : Binding} (h1 : b.visibleTo ≤ outer) (h2 : b.visibleTo ≠ ⟨0, 0⟩)
    (h : Near b t) : False := by
  rcases h.scope with h | h
  · exact Point.lt_irrefl _ (Point.lt_of_lt_of_le ht (Point.le_trans h h1))
  · exact h2 h

theorem targets_only {as : List Assign} (h : ∀ a ∈ as, a.rhs = []) {t : Tok} (ht : t ∈ names (as.flatMap Assign.toks)) : ∃ a ∈ as, a.target = t := by
  obtain ⟨a, ha, hm⟩ := List.mem_flatMap.mp (mem_names.mp ht)
  simp only [Assign.toks, h a ha, List.map_nil, List.mem_cons, List.not_mem_nil, or_false, HTok.name.injEq, reduceCtorEq] at hm
  exact ⟨a, ha, hm.symm⟩

theorem params_only {ps : List Param} (h : ∀ a ∈ ps, a.rhs = []) {t : Tok} (ht : t ∈ names (ps.flatMap Param.toks)) : ∃ a ∈ ps, a.name = t := by
  obtain ⟨a, ha, hm⟩ := List.mem_flatMap.mp (mem_names.mp ht)
  have hr := h a ha
  obtain ⟨an, ad⟩ := a
  cases ad with
  | none => simp only [Param.toks, List.mem_singleton, HTok.name.injEq] at hm; exact ⟨_, ha, hm.symm⟩
  | some q =>
    obtain ⟨o, us⟩ := q
    simp only [Param.rhs] at hr
    subst hr
    simp only [Param.toks, List.map_nil, List.mem_cons, List.not_mem_nil, or_false, HTok.name.injEq, reduceCtorEq] at hm
    exact ⟨_, ha, hm.symm⟩

/-- the binding is a block, or visible under Jinja's rules, or has another name and `t` is in a tag -/
def Seen (T : Tok → Prop) (env : List Bound) (b : Binding) (t : Tok) : Prop :=
  b.kind = .templateBlock ∨ (∃ x ∈ env, x.Lexical ∧ b = x.tok.bind x.kind b.visibleTo) ∨ (b.name ≠ t.text ∧ T t)

/-- Where no header evaluates a name it binds, a binding whose scope touches an evaluated name is visible to it under Jinja's rules. -/
theorem near_sees {p : Program} (T : Tok → Prop) : ∀ (_ : p.Flat) (_ : ∀ t ∈ p.tagged, T t) (outer : Point) (_ : InOrder outer p.toks) (σ ρ : List Bound) {t : Tok} {env : List Bound}
    (_ : (t, env) ∈ p.sees σ ρ), (∀ x ∈ ρ, x ∈ env) ∧ ∀ b ∈ p.tpl.bindings outer, Near b t →
      Seen T env b t := by
  have blk : ∀ (d : Delims) (h : Head) (ts : List Tok) (body q : Program) (e : EndTag) (outer : Point) (ρ env : List Bound) (t : Tok),
      InOrder outer (tagToks d ts ++ (body.toks ++ (e.toks ++ q.toks))) → body.Flat → q.Flat → t ∈ body.toks → (∀ x ∈ ρ, x ∈ env) →
      (∀ b ∈ h.bindings e.d.opening.start outer, b.kind = .templateBlock ∨ ∃ x ∈ ρ, x.Lexical ∧ b = x.tok.bind x.kind b.visibleTo) →
      (∀ b ∈ body.tpl.bindings e.d.opening.start, Near b t → Seen T env b t) →
      ∀ b ∈ h.bindings e.d.opening.start outer ++ body.tpl.bindings e.d.opening.start ++ q.tpl.bindings outer, Near b t →
        Seen T env b t := by
    intro d h ts body q e outer ρ env t ho hb hq ht hsub hh hbody b hm htch
    rcases List.mem_append.mp hm with hm | hm
    · rcases List.mem_append.mp hm with hm | hm
      · rcases hh b hm with h | ⟨x, hx, h⟩
        · exact .inl h
        · exact .inr (.inl ⟨x, hsub x hx, h⟩)
      · exact hbody b hm htch
    · exact (tpl_late hq ho.rest (fun k hk => ho.right.cross ht (List.mem_append_right _ hk)) hm htch).elim
  have aft : ∀ (d : Delims) (h : Head) (ts : List Tok) (body q : Program) (e : EndTag) (outer : Point) (ρ env : List Bound) (t : Tok),
      InOrder outer (tagToks d ts ++ (body.toks ++ (e.toks ++ q.toks))) → body.Flat → q.Flat → t ∈ q.toks → (∀ x ∈ ρ, x ∈ env) →
      (∀ b ∈ h.bindings e.d.opening.start outer, b.visibleTo = e.d.opening.start ∨ ∃ x ∈ ρ, x.Lexical ∧ b = x.tok.bind x.kind b.visibleTo) →
      (∀ b ∈ q.tpl.bindings outer, Near b t → Seen T env b t) →
      ∀ b ∈ h.bindings e.d.opening.start outer ++ body.tpl.bindings e.d.opening.start ++ q.tpl.bindings outer, Near b t →
        Seen T env b t := by
    intro d h ts body q e outer ρ env t ho hb hq ht hsub hh hrest b hm htch
    have he : e.d.opening ∈ e.toks := List.mem_cons_self
    have h0 := ho.spans e.d.opening (by simp [he])
    have h1 : e.d.opening.start < t.start :=
      Point.lt_of_lt_of_le h0 (ho.right.right.cross he ht)
    have h2 : e.d.opening.start ≠ ⟨0, 0⟩ := by
      have hd : d.opening ∈ tagToks d ts := List.mem_cons_self
      exact Point.ne_zero_of_lt (Point.lt_of_lt_of_le (ho.spans d.opening (by simp [hd])) (ho.cross hd (by simp [he])))
    rcases List.mem_append.mp hm with hm | hm
    · rcases List.mem_append.mp hm with hm | hm
      · rcases hh b hm with h | ⟨x, hx, h⟩
        · exact (ended h1 (h ▸ Point.le_refl _) (h ▸ h2) htch).elim
        · exact .inr (.inl ⟨x, hsub x hx, h⟩)
      · obtain ⟨_, h3, h4⟩ := tpl_binding hb _ ho.inner b hm
        exact (ended h1 h3 h4 htch).elim
    · exact hrest b hm htch
  have hdr : ∀ (d : Delims) (h : Head) (ts : List Tok) (body q : Program) (e : EndTag) (outer : Point) (env : List Bound) (t : Tok),
      InOrder outer (tagToks d ts ++ (body.toks ++ (e.toks ++ q.toks))) → body.Flat → q.Flat → t ∈ ts → T t →
      (∀ b ∈ h.bindings e.d.opening.start outer, b.name ≠ t.text) →
      ∀ b ∈ h.bindings e.d.opening.start outer ++ body.tpl.bindings e.d.opening.start ++ q.tpl.bindings outer, Near b t →
        Seen T env b t := by
    intro d h ts body q e outer env t ho hb hq ht hT hh b hm htch
    have ht' : t ∈ tagToks d ts := by simp [tagToks, ht]
    rcases List.mem_append.mp hm with hm | hm
    · rcases List.mem_append.mp hm with hm | hm
      · exact .inr (.inr ⟨hh b hm, hT⟩)
      · exact (tpl_late hb ho.inner (fun k hk => ho.head_body ht' hk) hm htch).elim
    · exact (tpl_late hq ho.rest (fun k hk => ho.head_rest ht' hk) hm htch).elim
  induction p with
  | done => intro _ _ _ _ _ _ _ _ h; cases h
  | out ts parts q ih =>
    intro hp hT outer ho σ ρ t env h
    have hTq : ∀ t ∈ q.tagged, T t := fun t h => hT t (by simp only [Program.tagged, List.mem_append, h, or_true])
    obtain ⟨rfl, hp⟩ := hp
    simp only [Program.sees, List.mem_append, mem_evaluated, List.flatMap_nil, List.append_nil] at h
    rcases h with ⟨h, rfl⟩ | h
    · exact ⟨fun x hx => hx, fun b hb htch => (tpl_late hp ho.right.right (fun k hk => ho.cross (names_toks h) (by simp [hk])) hb htch).elim⟩
    · exact ih hp hTq outer ho.right.right σ ρ h
  | stmt d ts q ih =>
    intro hp hT outer ho σ ρ t env h
    have hTq : ∀ t ∈ q.tagged, T t := fun t h => hT t (by simp only [Program.tagged, List.mem_append, h, or_true])
    simp only [Program.sees, List.mem_append, mem_evaluated] at h
    rcases h with ⟨h, rfl⟩ | h
    · refine ⟨fun x hx => hx, fun b hb htch => (tpl_late (q := q) hp ho.right (fun k hk => ho.cross ?_ hk) hb htch).elim⟩
      have := names_toks h
      simp only [tagToks, List.mem_cons, List.mem_append, this, true_or, or_true]
    · exact ih hp hTq outer ho.right σ ρ h
  | import_ d ts bd q ih =>
    intro hp hT outer ho σ ρ t env h
    have hTq : ∀ t ∈ q.tagged, T t := fun t h => hT t (by simp only [Program.tagged, List.mem_append, h, or_true])
    obtain ⟨h1, h2⟩ := ih hp hTq outer ho.right σ _ h
    exact ⟨fun x hx => h1 x (List.mem_append_right _ hx), h2⟩
  | set d kw y ts q ih =>
    intro hp hT outer ho σ ρ t env h
    have hTq : ∀ t ∈ q.tagged, T t := fun t h => hT t (by simp only [Program.tagged, List.mem_append, h, or_true])
    simp only [Program.sees, List.mem_append, mem_evaluated] at h
    rcases h with ⟨h, rfl⟩ | h
    · refine ⟨fun x hx => hx, fun b hb htch => ?_⟩
      rcases List.mem_cons.mp hb with rfl | hb
      · refine .inr (.inr ⟨fun e => hp.1 t h e.symm, hT t ?_⟩)
        have := names_toks h
        simp only [Program.tagged, tagToks, List.mem_cons, List.mem_append, this, true_or, or_true]
      · refine (tpl_late hp.2 ho.right (fun k hk => ho.cross ?_ hk) hb htch).elim
        have := names_toks h
        simp only [tagToks, List.mem_cons, List.mem_append, this, true_or, or_true]
    · obtain ⟨h1, h2⟩ := ih hp.2 hTq outer ho.right σ _ h
      refine ⟨fun x hx => h1 x (List.mem_cons_of_mem _ hx), fun b hb htch => ?_⟩
      rcases List.mem_cons.mp hb with rfl | hb
      · exact .inr (.inl ⟨_, h1 _ List.mem_cons_self, by simp [Bound.Lexical], rfl⟩)
      · exact h2 b hb htch
  | setBlock => intro hp; exact hp.elim
  | call => intro hp; exact hp.elim
  | branch => intro hp; exact hp.elim
  | loop d kw y more ts body e q ih1 ih2 =>
    intro hp hT outer ho σ ρ t env h
    have hTq : ∀ t ∈ q.tagged, T t := fun t h => hT t (by simp only [Program.tagged, List.mem_append, h, or_true])
    have hTb : ∀ t ∈ body.tagged, T t := fun t h => hT t (by simp only [Program.tagged, List.mem_append, h, true_or, or_true])
    obtain ⟨hn, hb, hq⟩ := hp
    simp only [Program.sees, List.mem_append, mem_evaluated] at h
    rcases h with (⟨h, rfl⟩ | h) | h
    · refine ⟨fun x hx => hx, hdr d (.for_ kw y (more.map .name ++ ts)) _ body q e outer env t ho hb hq ?_ (hT t ?_) ?_⟩
      · have := names_toks h
        simp only [List.mem_cons, List.mem_append, this, or_true]
      · have := names_toks h
        simp only [Program.tagged, tagToks, List.mem_cons, List.mem_append, this, true_or, or_true]
      · intro b hb; cases List.mem_singleton.mp hb; exact fun e => hn t h e.symm
    · obtain ⟨h1, h2⟩ := ih1 hb hTb _ ho.inner _ _ h
      refine ⟨fun x hx => h1 x (by simp [hx]), blk d (.for_ kw y (more.map .name ++ ts)) _ body q e outer _ env t ho hb hq (sees_toks h) h1 ?_ h2⟩
      intro b hb; cases List.mem_singleton.mp hb; exact .inr ⟨⟨y, .forLoopKey, false⟩, by simp, by simp [Bound.Lexical], rfl⟩
    · obtain ⟨h1, h2⟩ := ih2 hq hTq _ ho.rest _ _ h
      refine ⟨h1, aft d (.for_ kw y (more.map .name ++ ts)) _ body q e outer _ env t ho hb hq (sees_toks h) h1 ?_ h2⟩
      intro b hb; cases List.mem_singleton.mp hb; exact .inl rfl
  | with_ d kw as body e q ih1 ih2 =>
    intro hp hT outer ho σ ρ t env h
    have hTq : ∀ t ∈ q.tagged, T t := fun t h => hT t (by simp only [Program.tagged, List.mem_append, h, or_true])
    have hTb : ∀ t ∈ body.tagged, T t := fun t h => hT t (by simp only [Program.tagged, List.mem_append, h, true_or, or_true])
    obtain ⟨hn, hb, hq⟩ := hp
    simp only [Program.sees, List.mem_append, mem_evaluated] at h
    rcases h with (⟨h, rfl⟩ | h) | h
    · obtain ⟨a, ha, h⟩ := List.mem_flatMap.mp h
      rw [hn a ha] at h; cases h
    · obtain ⟨h1, h2⟩ := ih1 hb hTb _ ho.inner _ _ h
      refine ⟨fun x hx => h1 x (by simp [hx]), blk d (.with_ kw (as.flatMap Assign.toks)) _ body q e outer _ env t ho hb hq (sees_toks h) h1 ?_ h2⟩
      intro b hb
      obtain ⟨n, hnm, rfl⟩ := List.mem_map.mp hb
      obtain ⟨a, ha, rfl⟩ := targets_only hn hnm
      exact .inr ⟨⟨a.target, .withVariable, false⟩, List.mem_append_left _ (List.mem_map.mpr ⟨a, List.mem_reverse.mpr ha, rfl⟩), by simp [Bound.Lexical], rfl⟩
    · obtain ⟨h1, h2⟩ := ih2 hq hTq _ ho.rest _ _ h
      refine ⟨h1, aft d (.with_ kw (as.flatMap Assign.toks)) _ body q e outer _ env t ho hb hq (sees_toks h) h1 ?_ h2⟩
      intro b hb
      obtain ⟨n, hnm, rfl⟩ := List.mem_map.mp hb
      exact .inl rfl
  | macro_ d kw y ps body e q ih1 ih2 =>
    intro hp hT outer ho σ ρ t env h
    have hTq : ∀ t ∈ q.tagged, T t := fun t h => hT t (by simp only [Program.tagged, List.mem_append, h, or_true])
    have hTb : ∀ t ∈ body.tagged, T t := fun t h => hT t (by simp only [Program.tagged, List.mem_append, h, true_or, or_true])
    obtain ⟨hn, hb, hq⟩ := hp
    simp only [Program.sees, List.mem_append, mem_evaluated] at h
    rcases h with (⟨h, rfl⟩ | h) | h
    · obtain ⟨a, ha, h⟩ := List.mem_flatMap.mp h
      rw [hn a ha] at h; cases h
    · obtain ⟨h1, h2⟩ := ih1 hb hTb _ ho.inner _ _ h
      refine ⟨fun x hx => h1 x (by simp [hx]), blk d (.macro_ kw y (ps.flatMap Param.toks)) _ body q e outer _ env t ho hb hq (sees_toks h) h1 ?_ h2⟩
      intro b hb
      rcases List.mem_cons.mp hb with rfl | hb
      · exact .inr ⟨⟨y, .macroName, false⟩, by simp, by simp [Bound.Lexical], rfl⟩
      · obtain ⟨n, hnm, rfl⟩ := List.mem_map.mp hb
        obtain ⟨a, ha, rfl⟩ := params_only hn hnm
        exact .inr ⟨⟨a.name, .macroParameter, false⟩, List.mem_append_left _ (List.mem_map.mpr ⟨a, List.mem_reverse.mpr ha, rfl⟩), by simp [Bound.Lexical], rfl⟩
    · obtain ⟨h1, h2⟩ := ih2 hq hTq _ ho.rest _ _ h
      refine ⟨fun x hx => h1 x (by simp [hx]), aft d (.macro_ kw y (ps.flatMap Param.toks)) _ body q e outer _ env t ho hb hq (sees_toks h) h1 ?_ h2⟩
      intro b hb
      rcases List.mem_cons.mp hb with rfl | hb
      · exact .inr ⟨⟨y, .macroName, false⟩, by simp, by simp [Bound.Lexical], rfl⟩
      · obtain ⟨n, hnm, rfl⟩ := List.mem_map.mp hb
        exact .inl rfl
  | block d kw y body e q ih1 ih2 =>
    intro hp hT outer ho σ ρ t env h
    have hTq : ∀ t ∈ q.tagged, T t := fun t h => hT t (by simp only [Program.tagged, List.mem_append, h, or_true])
    have hTb : ∀ t ∈ body.tagged, T t := fun t h => hT t (by simp only [Program.tagged, List.mem_append, h, true_or, or_true])
    obtain ⟨hb, hq⟩ := hp
    simp only [Program.sees, List.mem_append] at h
    rcases h with h | h
    · obtain ⟨h1, h2⟩ := ih1 hb hTb _ ho.inner _ _ h
      refine ⟨h1, blk d (.block kw y []) _ body q e outer _ env t ho hb hq (sees_toks h) h1 ?_ h2⟩
      intro b hb; cases List.mem_singleton.mp hb; exact .inl rfl
    · obtain ⟨h1, h2⟩ := ih2 hq hTq _ ho.rest _ _ h
      refine ⟨h1, aft d (.block kw y []) _ body q e outer _ env t ho hb hq (sees_toks h) h1 ?_ h2⟩
      intro b hb; cases List.mem_singleton.mp hb; exact .inl rfl
  | cond d kw ts body e q ih1 ih2 =>
    intro hp hT outer ho σ ρ t env h
    have hTq : ∀ t ∈ q.tagged, T t := fun t h => hT t (by simp only [Program.tagged, List.mem_append, h, or_true])
    have hTb : ∀ t ∈ body.tagged, T t := fun t h => hT t (by simp only [Program.tagged, List.mem_append, h, true_or, or_true])
    obtain ⟨hb, hq⟩ := hp
    simp only [Program.sees, List.mem_append, mem_evaluated] at h
    rcases h with (⟨h, rfl⟩ | h) | h
    · refine ⟨fun x hx => hx, hdr d (.plain kw ts) _ body q e outer env t ho hb hq ?_ (hT t ?_) (fun b hb => by cases hb)⟩
      all_goals have := names_toks h
      all_goals simp only [Program.tagged, tagToks, List.mem_cons, List.mem_append, this, true_or, or_true]
    · obtain ⟨h1, h2⟩ := ih1 hb hTb _ ho.inner _ _ h
      exact ⟨h1, blk d (.plain kw ts) _ body q e outer _ env t ho hb hq (sees_toks h) h1 (fun b hb => by cases hb) h2⟩
    · obtain ⟨h1, h2⟩ := ih2 hq hTq _ ho.rest _ _ h
      exact ⟨fun x hx => h1 x (List.mem_append_right _ hx), aft d (.plain kw ts) _ body q e outer _ env t ho hb hq (sees_toks h) h1
        (fun b hb => by cases hb) h2⟩
  | area d kw ts body e q ih1 ih2 =>
    intro hp hT outer ho σ ρ t env h
    have hTq : ∀ t ∈ q.tagged, T t := fun t h => hT t (by simp only [Program.tagged, List.mem_append, h, or_true])
    have hTb : ∀ t ∈ body.tagged, T t := fun t h => hT t (by simp only [Program.tagged, List.mem_append, h, true_or, or_true])
    obtain ⟨hb, hq⟩ := hp
    simp only [Program.sees, List.mem_append] at h
    rcases h with h | h
    · obtain ⟨h1, h2⟩ := ih1 hb hTb _ ho.inner _ _ h
      exact ⟨h1, blk d (.plain kw ts) _ body q e outer _ env t ho hb hq (sees_toks h) h1 (fun b hb => by cases hb) h2⟩
    · obtain ⟨h1, h2⟩ := ih2 hq hTq _ ho.rest _ _ h
      exact ⟨h1, aft d (.plain kw ts) _ body q e outer _ env t ho hb hq (sees_toks h) h1 (fun b hb => by cases hb) h2⟩

/-! ### The order of the visible bindings -/

/-- latest first -/
def Latest (ρ : List Bound) : Prop := (ρ.filter fun x => decide x.Lexical).Pairwise fun a b => b.tok.start < a.tok.start

/-- the bindings lie before the tokens -/
def Before (ρ : List Bound) (ts : List Tok) : Prop := ∀ x ∈ ρ, x.Lexical → ∀ t ∈ ts, x.tok.start < t.start

theorem Latest.push {ρ : List Bound} {xs : List Tok} {k : IdType} (h : Latest ρ) (hx : xs.Pairwise fun a b => a.start < b.start)
    (hb : Before ρ xs) : Latest ((xs.reverse.map fun t => ⟨t, k, false⟩) ++ ρ) := by
  unfold Latest
  rw [List.filter_append]
  refine List.pairwise_append.mpr ⟨List.Pairwise.sublist List.filter_sublist ?_, h, ?_⟩
  · rw [List.pairwise_map]
    exact List.pairwise_reverse.mpr hx
  · intro a ha b hb'
    obtain ⟨t, ht, rfl⟩ := List.mem_map.mp (List.mem_filter.mp ha).1
    obtain ⟨h1, h2⟩ := List.mem_filter.mp hb'
    exact hb b h1 (of_decide_eq_true h2) t (List.mem_reverse.mp ht)

theorem Latest.skip {ρ xs : List Bound} (h : Latest ρ) (hx : ∀ x ∈ xs, ¬ x.Lexical) : Latest (xs ++ ρ) := by
  unfold Latest
  rw [List.filter_append, List.filter_eq_nil_iff.mpr (by simpa using hx)]
  exact h

theorem Before.skip {ρ xs : List Bound} {ts : List Tok} (h : Before ρ ts) (hx : ∀ x ∈ xs, ¬ x.Lexical) : Before (xs ++ ρ) ts := by
  intro x hm hl
  rcases List.mem_append.mp hm with hm | hm
  · exact (hx x hm hl).elim
  · exact h x hm hl

theorem imports_not_lexical (xs : List Tok) : ∀ x ∈ xs.map fun t => (⟨t, .jinjaTemplate, false⟩ : Bound), ¬ x.Lexical := by
  intro x hx
  obtain ⟨_, _, rfl⟩ := List.mem_map.mp hx
  simp [Bound.Lexical]

theorem targets_not_lexical (xs : List Tok) : ∀ x ∈ xs.map fun t => (⟨t, .forLoopValue, false⟩ : Bound), ¬ x.Lexical := by
  intro x hx
  obtain ⟨_, _, rfl⟩ := List.mem_map.mp hx
  simp [Bound.Lexical]

theorem left_not_lexical (xs : List Bound) : ∀ x ∈ xs.map fun x => { x with left := true }, ¬ x.Lexical := by
  intro x hx
  obtain ⟨_, _, rfl⟩ := List.mem_map.mp hx
  simp [Bound.Lexical]

theorem Spec.InOrder.starts {last : Point} {ts : List Tok} (h : InOrder last ts) : ts.Pairwise fun a b => a.start < b.start := by
  refine List.Pairwise.imp_of_mem ?_ h.order
  intro a b ha _ hab
  exact Point.lt_of_lt_of_le (h.spans a ha) hab

theorem targets_sublist (as : List Assign) : (as.map Assign.target).Sublist ((as.flatMap Assign.toks).map HTok.tok) := by
  induction as with
  | nil => exact .slnil
  | cons a as ih =>
    simp only [List.map_cons, List.flatMap_cons, Assign.toks, List.cons_append, HTok.tok]
    refine .cons_cons _ (.cons _ ?_)
    rw [List.map_append]
    exact List.Sublist.trans ih (List.sublist_append_right _ _)

theorem params_sublist (ps : List Param) : (ps.map Param.name).Sublist ((ps.flatMap Param.toks).map HTok.tok) := by
  induction ps with
  | nil => exact .slnil
  | cons a ps ih =>
    simp only [List.map_cons, List.flatMap_cons, List.map_append]
    have : [a.name].Sublist (a.toks.map HTok.tok) := by
      unfold Param.toks
      split <;> simp [HTok.tok]
    exact List.Sublist.append this ih

/-- the visible bindings are listed latest first -/
theorem sees_latest {last : Point} {p : Program} : ∀ (_ : p.Paired) (_ : InOrder last p.toks) (σ ρ : List Bound) (_ : Latest σ) (_ : Latest ρ)
    (_ : Before σ p.toks) (_ : Before ρ p.toks) {t : Tok} {env : List Bound} (_ : (t, env) ∈ p.sees σ ρ), Latest env := by
  have app : ∀ {ρ ρ' : List Bound} {ts : List Tok}, Before ρ ts → Before ρ' ts → Before (ρ ++ ρ') ts := by
    intro ρ ρ' ts h h' x hx
    rcases List.mem_append.mp hx with hx | hx
    · exact h x hx
    · exact h' x hx
  have sub : ∀ {ρ : List Bound} {ts ts' : List Tok}, Before ρ ts → (∀ t ∈ ts', t ∈ ts) → Before ρ ts' := fun h hs x hx hl t ht => h x hx hl t (hs t ht)
  have mk : ∀ {xs ts : List Tok} {k : IdType} {pre post : List Tok}, InOrder last (pre ++ post) → (∀ t ∈ ts, t ∈ post) → (∀ x ∈ xs, x ∈ pre) →
      Before (xs.reverse.map fun t => ⟨t, k, false⟩) ts := by
    intro xs ts k pre post ho hs hx y hy _ t ht
    obtain ⟨x, h, rfl⟩ := List.mem_map.mp hy
    have := hx x (List.mem_reverse.mp h)
    exact Point.lt_of_lt_of_le (ho.spans x (List.mem_append_left _ this)) (ho.cross this (hs t ht))
  induction p with
  | done => intro _ _ _ _ _ _ _ _ _ _ h; cases h
  | out ts parts q ih =>
    intro hp ho σ ρ h1 h2 h3 h4 t env h
    simp only [Program.sees, List.mem_append, mem_evaluated, List.mem_flatMap] at h
    rcases h with (⟨_, rfl⟩ | ⟨_, _, _, rfl⟩) | h
    · exact h2
    · exact h2
    · exact ih hp ho.right.right σ ρ h1 h2 (sub h3 (by simp +contextual [Program.toks])) (sub h4 (by simp +contextual [Program.toks])) h
  | stmt d ts q ih =>
    intro hp ho σ ρ h1 h2 h3 h4 t env h
    simp only [Program.sees, List.mem_append, mem_evaluated] at h
    rcases h with ⟨_, rfl⟩ | h
    · exact h2
    · exact ih hp ho.right σ ρ h1 h2 (sub h3 (by simp +contextual [Program.toks])) (sub h4 (by simp +contextual [Program.toks])) h
  | import_ d ts b q ih =>
    intro hp ho σ ρ h1 h2 h3 h4 t env h
    exact ih hp ho.right σ _ h1 (h2.skip (imports_not_lexical _)) (sub h3 (by simp +contextual [Program.toks]))
      ((sub h4 (by simp +contextual [Program.toks]) : Before ρ q.toks).skip (imports_not_lexical _)) h
  | set d kw y ts q ih =>
    intro hp ho σ ρ h1 h2 h3 h4 t env h
    simp only [Program.sees, List.mem_append, mem_evaluated] at h
    rcases h with ⟨_, rfl⟩ | h
    · exact h2
    · refine ih hp ho.right σ _ h1 (h2.push (xs := [y]) (by simp) (sub h4 (by simp [Program.toks, tagToks])))
        (sub h3 (by simp +contextual [Program.toks])) (app (mk (xs := [y]) ho (fun t ht => ht) (by simp [tagToks])) ?_) h
      exact sub h4 (by simp +contextual [Program.toks])
  | branch d kw ts q ih =>
    intro hp ho σ ρ h1 h2 h3 h4 t env h
    simp only [Program.sees, List.mem_append, mem_evaluated] at h
    rcases h with ⟨_, rfl⟩ | h
    · exact h1
    · exact ih hp ho.right σ σ h1 h1 (sub h3 (by simp +contextual [Program.toks])) (sub h3 (by simp +contextual [Program.toks])) h
  | setBlock => intro hp; exact hp.elim
  | call => intro hp; exact hp.elim
  | loop d kw y more ts body e q ih1 ih2 =>
    intro hp ho σ ρ h1 h2 h3 h4 t env h
    obtain ⟨hb, hq⟩ := hp
    have hbd : ∀ {ρ}, Before ρ (Program.loop d kw y more ts body e q).toks → Before ρ body.toks := fun h => sub h (by simp +contextual [Program.toks])
    have hqt : ∀ {ρ}, Before ρ (Program.loop d kw y more ts body e q).toks → Before ρ q.toks := fun h => sub h (by simp +contextual [Program.toks])
    simp only [Program.sees, List.mem_append, mem_evaluated] at h
    rcases h with (⟨_, rfl⟩ | h) | h
    · exact h2
    · refine ih1 hb ho.body ρ _ h2 ((h2.push (xs := [y]) (by simp) (sub h4 (by simp [Program.toks, tagToks]))).skip (targets_not_lexical _)) (hbd h4)
        ((app (mk (xs := [y]) ho (by simp +contextual) (by simp [tagToks])) (hbd h4)).skip (targets_not_lexical _)) h
    · exact ih2 hq ho.rest σ ρ h1 h2 (hqt h3) (hqt h4) h
  | with_ d kw as body e q ih1 ih2 =>
    intro hp ho σ ρ h1 h2 h3 h4 t env h
    obtain ⟨hb, hq⟩ := hp
    have hbd : ∀ {ρ}, Before ρ (Program.with_ d kw as body e q).toks → Before ρ body.toks := fun h => sub h (by simp +contextual [Program.toks])
    have hqt : ∀ {ρ}, Before ρ (Program.with_ d kw as body e q).toks → Before ρ q.toks := fun h => sub h (by simp +contextual [Program.toks])
    have hin : ∀ x ∈ as.map Assign.target, x ∈ tagToks d (kw :: (as.flatMap Assign.toks).map HTok.tok) := fun x hx =>
      List.mem_cons_of_mem _ (List.mem_append_left _ (List.mem_cons_of_mem _ ((targets_sublist as).subset hx)))
    have hst : (as.map Assign.target).Pairwise fun a b => a.start < b.start :=
      List.Pairwise.sublist (targets_sublist as) (List.Pairwise.sublist
        ((List.Sublist.cons _ (List.Sublist.refl _)).trans ((List.sublist_append_left _ _).trans (List.Sublist.cons _ (List.Sublist.refl _)))) ho.left.starts)
    simp only [Program.sees, List.mem_append, mem_evaluated] at h
    rcases h with (⟨_, rfl⟩ | h) | h
    · exact h2
    · have he : (as.reverse.map fun a => (⟨a.target, .withVariable, false⟩ : Bound)) = (as.map Assign.target).reverse.map fun t => ⟨t, .withVariable, false⟩ := by
        rw [← List.map_reverse, List.map_map]; rfl
      rw [he] at h
      refine ih1 hb ho.body ρ _ h2 (h2.push hst (sub h4 fun x hx => List.mem_append_left _ (hin x hx))) (hbd h4)
        (app (mk ho (by simp +contextual) hin) (hbd h4)) h
    · exact ih2 hq ho.rest σ ρ h1 h2 (hqt h3) (hqt h4) h
  | macro_ d kw y ps body e q ih1 ih2 =>
    intro hp ho σ ρ h1 h2 h3 h4 t env h
    obtain ⟨hb, hq⟩ := hp
    have hbd : ∀ {ρ}, Before ρ (Program.macro_ d kw y ps body e q).toks → Before ρ body.toks := fun h => sub h (by simp +contextual [Program.toks])
    have hqt : ∀ {ρ}, Before ρ (Program.macro_ d kw y ps body e q).toks → Before ρ q.toks := fun h => sub h (by simp +contextual [Program.toks])
    have hin : ∀ x ∈ y :: ps.map Param.name, x ∈ tagToks d (kw :: y :: (ps.flatMap Param.toks).map HTok.tok) := by
      intro x hx
      refine List.mem_cons_of_mem _ (List.mem_append_left _ (List.mem_cons_of_mem _ ?_))
      rcases List.mem_cons.mp hx with rfl | hx
      · exact List.mem_cons_self
      · exact List.mem_cons_of_mem _ ((params_sublist ps).subset hx)
    have hst : (y :: ps.map Param.name).Pairwise fun a b => a.start < b.start :=
      List.Pairwise.sublist (List.Sublist.cons_cons _ (params_sublist ps)) (List.Pairwise.sublist
        ((List.Sublist.cons _ (List.Sublist.refl _)).trans ((List.sublist_append_left _ _).trans (List.Sublist.cons _ (List.Sublist.refl _)))) ho.left.starts)
    have hy : Latest (⟨y, .macroName, false⟩ :: ρ) := h2.push (xs := [y]) (by simp) (sub h4 (by simp [Program.toks, tagToks]))
    simp only [Program.sees, List.mem_append, mem_evaluated] at h
    rcases h with (⟨_, rfl⟩ | h) | h
    · exact h2
    · have he : (ps.reverse.map fun a => (⟨a.name, .macroParameter, false⟩ : Bound)) = (ps.map Param.name).reverse.map fun t => ⟨t, .macroParameter, false⟩ := by
        rw [← List.map_reverse, List.map_map]; rfl
      rw [he] at h
      refine ih1 hb ho.body ρ _ h2 (hy.push (List.pairwise_cons.mp hst).2 ?_) (hbd h4)
        (app (mk ho (by simp +contextual) fun x hx => hin x (List.mem_cons_of_mem _ hx))
          (app (mk (xs := [y]) ho (by simp +contextual) (by simp [tagToks])) (hbd h4))) h
      intro x hx hl z hz
      rcases List.mem_cons.mp hx with rfl | hx
      · exact (List.pairwise_cons.mp hst).1 z hz
      · exact h4 x hx hl z (List.mem_append_left _ (hin z (List.mem_cons_of_mem _ hz)))
    · exact ih2 hq ho.rest σ _ h1 hy (hqt h3) (app (mk (xs := [y]) ho (by simp +contextual) (by simp [tagToks])) (hqt h4)) h
  | cond d kw ts body e q ih1 ih2 =>
    intro hp ho σ ρ h1 h2 h3 h4 t env h
    obtain ⟨hb, hq⟩ := hp
    have hbd : ∀ {ρ}, Before ρ (Program.cond d kw ts body e q).toks → Before ρ body.toks := fun h => sub h (by simp +contextual [Program.toks])
    have hqt : ∀ {ρ}, Before ρ (Program.cond d kw ts body e q).toks → Before ρ q.toks := fun h => sub h (by simp +contextual [Program.toks])
    simp only [Program.sees, List.mem_append, mem_evaluated] at h
    rcases h with (⟨_, rfl⟩ | h) | h
    · exact h2
    · exact ih1 hb ho.body ρ ρ h2 h2 (hbd h4) (hbd h4) h
    · exact ih2 hq ho.rest σ _ h1 (h2.skip (left_not_lexical _)) (hqt h3) ((hqt h4).skip (left_not_lexical _)) h
  | block d kw y body e q ih1 ih2 =>
    intro hp ho σ ρ h1 h2 h3 h4 t env h
    obtain ⟨hb, hq⟩ := hp
    have hbd : ∀ {ρ}, Before ρ (Program.block d kw y body e q).toks → Before ρ body.toks := fun h => sub h (by simp +contextual [Program.toks])
    have hqt : ∀ {ρ}, Before ρ (Program.block d kw y body e q).toks → Before ρ q.toks := fun h => sub h (by simp +contextual [Program.toks])
    simp only [Program.sees, List.mem_append] at h
    rcases h with h | h
    · exact ih1 hb ho.body ρ ρ h2 h2 (hbd h4) (hbd h4) h
    · exact ih2 hq ho.rest σ ρ h1 h2 (hqt h3) (hqt h4) h
  | area d kw ts body e q ih1 ih2 =>
    intro hp ho σ ρ h1 h2 h3 h4 t env h
    obtain ⟨hb, hq⟩ := hp
    have hbd : ∀ {ρ}, Before ρ (Program.area d kw ts body e q).toks → Before ρ body.toks := fun h => sub h (by simp +contextual [Program.toks])
    have hqt : ∀ {ρ}, Before ρ (Program.area d kw ts body e q).toks → Before ρ q.toks := fun h => sub h (by simp +contextual [Program.toks])
    simp only [Program.sees, List.mem_append] at h
    rcases h with h | h
    · exact ih1 hb ho.body ρ ρ h2 h2 (hbd h4) (hbd h4) h
    · exact ih2 hq ho.rest σ ρ h1 h2 (hqt h3) (hqt h4) h

/-- what a tag binds, apart from blocks -/
def Spec.Item.heads : Item → List Tok
  | .leaf (.set _ _ x _) => [x]
  | .opening _ (.for_ _ x _) => [x]
  | .opening _ (.with_ _ ts) => names ts
  | .opening _ (.macro_ _ name ts) => name :: names ts
  | _ => []

/-- the name of a block -/
def Spec.Item.block : Item → List Tok
  | .opening _ (.block _ name _) => [name]
  | _ => []

/-- every binding lies where a token of the template lies -/
theorem bindings_tok {last : Point} : ∀ {is : List Item} {n : Nat} {b : Binding}, b ∈ Items.bindings last n is →
    ∃ i ∈ is, ∃ t ∈ i.heads ++ i.block, b.start = t.start ∧ b.stop = t.stop ∧ b.name = t.text ∧ (b.kind = .templateBlock → t ∈ i.block)
  | [], _, _, h => by cases h
  | .leaf l :: r, n, b, h => by
    have tl (h : b ∈ Items.bindings last n r) : ∃ i ∈ Item.leaf l :: r, ∃ t ∈ i.heads ++ i.block,
        b.start = t.start ∧ b.stop = t.stop ∧ b.name = t.text ∧ (b.kind = .templateBlock → t ∈ i.block) := by
      obtain ⟨i, hi, h⟩ := bindings_tok h
      exact ⟨i, List.mem_cons_of_mem _ hi, h⟩
    cases l with
    | set d kw x ts =>
      rcases List.mem_cons.mp h with rfl | h
      · exact ⟨_, List.mem_cons_self, x, by simp [Item.heads], rfl, rfl, rfl, fun h => by cases h⟩
      · exact tl h
    | expr ts => exact tl h
    | stmt d ts => exact tl h
  | .opening d hd :: r, n, b, h => by
    rcases List.mem_append.mp h with h | h
    · refine ⟨_, List.mem_cons_self, ?_⟩
      cases hd <;> simp only [Head.bindings, List.mem_cons, List.mem_map, List.not_mem_nil, or_false] at h
      · subst h; exact ⟨_, by simp [Item.heads], rfl, rfl, rfl, fun h => by cases h⟩
      · obtain ⟨x, hx, rfl⟩ := h
        exact ⟨x, by simp [Item.heads, hx], rfl, rfl, rfl, fun h => by cases h⟩
      · rcases h with rfl | ⟨x, hx, rfl⟩
        · exact ⟨_, by simp [Item.heads], rfl, rfl, rfl, fun h => by cases h⟩
        · exact ⟨x, by simp [Item.heads, hx], rfl, rfl, rfl, fun h => by cases h⟩
      · subst h; exact ⟨_, by simp [Item.block], rfl, rfl, rfl, fun _ => by simp [Item.block]⟩
    · obtain ⟨i, hi, h⟩ := bindings_tok h
      exact ⟨i, List.mem_cons_of_mem _ hi, h⟩
  | .inline _ _ :: r, n, b, h => by
    obtain ⟨i, hi, h⟩ := bindings_tok (is := r) h
    exact ⟨i, List.mem_cons_of_mem _ hi, h⟩
  | .closing _ :: r, n, b, h => by
    obtain ⟨i, hi, h⟩ := bindings_tok (is := r) h
    exact ⟨i, List.mem_cons_of_mem _ hi, h⟩

/-- a scope ends with the document or at an end tag -/
theorem bindings_scope {last : Point} : ∀ {is : List Item} {n : Nat} {b : Binding}, b ∈ Items.bindings last n is →
    b.visibleTo = last ∨ ∃ e, .closing e ∈ is ∧ b.visibleTo = e.start := by
  have me : ∀ (is : List Item) (k : Nat), (matchEnd k is).getD last = last ∨ ∃ e, .closing e ∈ is ∧ (matchEnd k is).getD last = e.start := by
    intro is
    induction is with
    | nil => intro k; exact .inl rfl
    | cons i is ih =>
      intro k
      have up : ∀ k, (matchEnd k is).getD last = last ∨ ∃ e, Item.closing e ∈ i :: is ∧ (matchEnd k is).getD last = e.start := fun k =>
        (ih k).imp id fun ⟨e, h1, h2⟩ => ⟨e, List.mem_cons_of_mem _ h1, h2⟩
      cases i with
      | leaf => simp only [matchEnd]; exact up k
      | opening => simp only [matchEnd]; exact up _
      | inline => simp only [matchEnd]; exact up _
      | closing e =>
        cases k with
        | zero => exact .inr ⟨e, List.mem_cons_self, rfl⟩
        | succ k => exact up k
  have up : ∀ {i : Item} {is : List Item} {q : Point}, (q = last ∨ ∃ e, Item.closing e ∈ is ∧ q = e.start) →
      q = last ∨ ∃ e, Item.closing e ∈ i :: is ∧ q = e.start := fun h => h.imp id fun ⟨e, h1, h2⟩ => ⟨e, List.mem_cons_of_mem _ h1, h2⟩
  intro is
  induction is with
  | nil => intro n b h; cases h
  | cons i is ih =>
    intro n b h
    cases i with
    | leaf l =>
      cases l with
      | set d kw x ts =>
        rcases List.mem_cons.mp h with rfl | h
        · simp only [Tok.bind]
          split
          · exact .inl rfl
          · exact up (me is 0)
        · exact up (ih h)
      | expr ts => exact up (ih h)
      | stmt d ts => exact up (ih h)
    | inline => exact up (ih (n := n + 1) h)
    | closing => exact up (ih (n := n - 1) h)
    | opening d hd =>
      rcases List.mem_append.mp h with h | h
      · rcases head_ends h with e | e <;> rw [e]
        · exact up (me is 0)
        · split
          · exact .inl rfl
          · exact up (me is 1)
      · exact up (ih h)

/-- the tokens of a template that can be bound -/
theorem items_toks {p : Program} {i : Item} (hi : i ∈ p.items) {t : Tok} (ht : t ∈ i.heads ++ i.block) : t ∈ p.toks := by
  have blk : ∀ (d : Delims) (h : Head) (ts : List Tok) (body q : Program) (e : EndTag),
      i ∈ Item.opening d h :: (body.items ++ .closing e :: q.items) → (t ∈ (Item.opening d h).heads ++ (Item.opening d h).block → t ∈ ts) →
      (i ∈ body.items → t ∈ body.toks) → (i ∈ q.items → t ∈ q.toks) → t ∈ tagToks d ts ++ (body.toks ++ (e.toks ++ q.toks)) := by
    intro d h ts body q e hi hh h1 h2
    rcases List.mem_cons.mp hi with rfl | hi
    · simp [tagToks, hh ht]
    · rcases List.mem_append.mp hi with hi | hi
      · simp [h1 hi]
      · rcases List.mem_cons.mp hi with rfl | hi
        · simp [Item.heads, Item.block] at ht
        · simp [h2 hi]
  induction p with
  | done => cases hi
  | out ts parts r ih =>
    rcases List.mem_cons.mp hi with rfl | hi
    · simp [Item.heads, Item.block] at ht
    · rcases List.mem_append.mp hi with hi | hi
      · obtain ⟨q, _, rfl⟩ := List.mem_map.mp hi
        simp [Item.heads, Item.block] at ht
      · simp [Program.toks, ih hi]
  | stmt d ts r ih =>
    rcases List.mem_cons.mp hi with rfl | hi
    · simp [Item.heads, Item.block] at ht
    · simp [Program.toks, ih hi]
  | import_ d ts b r ih =>
    rcases List.mem_cons.mp hi with rfl | hi
    · simp [Item.heads, Item.block] at ht
    · simp [Program.toks, ih hi]
  | set d kw x ts r ih =>
    rcases List.mem_cons.mp hi with rfl | hi
    · simp [Item.heads, Item.block] at ht
      simp [Program.toks, tagToks, ht]
    · simp [Program.toks, ih hi]
  | branch d kw ts r ih =>
    rcases List.mem_cons.mp hi with rfl | hi
    · simp [Item.heads, Item.block] at ht
    · simp [Program.toks, ih hi]
  | setBlock d kw x body e q ih1 ih2 =>
    rcases List.mem_cons.mp hi with rfl | hi
    · simp [Item.heads, Item.block] at ht
      simp [Program.toks, tagToks, ht]
    · rcases List.mem_append.mp hi with hi | hi
      · simp [Program.toks, ih1 hi]
      · rcases List.mem_cons.mp hi with rfl | hi
        · simp [Item.heads, Item.block] at ht
        · simp [Program.toks, ih2 hi]
  | call d ts body e q ih1 ih2 =>
    rcases List.mem_cons.mp hi with rfl | hi
    · simp [Item.heads, Item.block] at ht
    · rcases List.mem_append.mp hi with hi | hi
      · simp [Program.toks, ih1 hi]
      · rcases List.mem_cons.mp hi with rfl | hi
        · simp [Item.heads, Item.block] at ht
        · simp [Program.toks, ih2 hi]
  | loop d kw x more ts body e q ih1 ih2 => exact blk _ _ _ _ _ _ hi (by simp +contextual [Item.heads, Item.block]) ih1 ih2
  | with_ d kw as body e q ih1 ih2 =>
    refine blk _ _ _ _ _ _ hi (fun h => ?_) ih1 ih2
    simp only [Item.heads, Item.block, List.append_nil] at h
    exact List.mem_cons_of_mem _ (names_toks h)
  | macro_ d kw y ps body e q ih1 ih2 =>
    refine blk _ _ _ _ _ _ hi (fun h => ?_) ih1 ih2
    simp only [Item.heads, Item.block, List.append_nil] at h
    rcases List.mem_cons.mp h with rfl | h
    · simp
    · exact List.mem_cons_of_mem _ (List.mem_cons_of_mem _ (names_toks h))
  | block d kw name body e q ih1 ih2 => exact blk _ _ _ _ _ _ hi (by simp +contextual [Item.heads, Item.block]) ih1 ih2
  | cond d kw ts body e q ih1 ih2 => exact blk _ _ _ _ _ _ hi (by simp [Item.heads, Item.block]) ih1 ih2
  | area d kw ts body e q ih1 ih2 => exact blk _ _ _ _ _ _ hi (by simp [Item.heads, Item.block]) ih1 ih2

/-- the names of blocks -/
theorem items_blocks {p : Program} {i : Item} (hi : i ∈ p.items) {t : Tok} (ht : t ∈ i.block) : t.text ∈ p.blocks := by
  induction p with
  | done => cases hi
  | out ts parts r ih =>
    rcases List.mem_cons.mp hi with rfl | hi
    · simp [Item.block] at ht
    · rcases List.mem_append.mp hi with hi | hi
      · obtain ⟨q, _, rfl⟩ := List.mem_map.mp hi
        simp [Item.block] at ht
      · exact ih hi
  | stmt d ts r ih => rcases List.mem_cons.mp hi with rfl | hi; simp [Item.block] at ht; exact ih hi
  | import_ d ts b r ih => rcases List.mem_cons.mp hi with rfl | hi; simp [Item.block] at ht; exact ih hi
  | set d kw x ts r ih => rcases List.mem_cons.mp hi with rfl | hi; simp [Item.block] at ht; exact ih hi
  | branch d kw ts r ih => rcases List.mem_cons.mp hi with rfl | hi; simp [Item.block] at ht; exact ih hi
  | block d kw name body e q ih1 ih2 =>
    rcases List.mem_cons.mp hi with rfl | hi
    · simp [Item.block] at ht
      simp [Program.blocks, ht]
    · rcases List.mem_append.mp hi with hi | hi
      · simp [Program.blocks, ih1 hi]
      · rcases List.mem_cons.mp hi with rfl | hi
        · simp [Item.block] at ht
        · simp [Program.blocks, ih2 hi]
  | _ =>
    rename_i ih1 ih2
    rcases List.mem_cons.mp hi with rfl | hi
    · simp [Item.block] at ht
    · rcases List.mem_append.mp hi with hi | hi
      · simp [Program.blocks, ih1 hi]
      · rcases List.mem_cons.mp hi with rfl | hi
        · simp [Item.block] at ht
        · simp [Program.blocks, ih2 hi]

theorem Spec.InOrder.apart {last : Point} {ts : List Tok} (h : InOrder last ts) {a b : Tok} (ha : a ∈ ts) (hb : b ∈ ts) :
    a = b ∨ a.stop ≤ b.start ∨ b.stop ≤ a.start := by
  replace h := h.order
  induction ts with
  | nil => cases ha
  | cons c ts ih =>
    obtain ⟨h1, h2⟩ := List.pairwise_cons.mp h
    rcases List.mem_cons.mp ha with ea | ha' <;> rcases List.mem_cons.mp hb with eb | hb'
    · exact .inl (ea.trans eb.symm)
    · exact .inr (.inl (ea ▸ h1 b hb'))
    · exact .inr (.inr (eb ▸ h1 a ha'))
    · exact ih ha' hb' h2

/-- no header binds the name of a template -/
theorem binding_kind {last : Point} : ∀ {is : List Item} {n : Nat} {b : Binding}, b ∈ Items.bindings last n is → b.kind ≠ .jinjaTemplate
  | [], _, _, h => by cases h
  | .leaf l :: is, n, b, h => by
    cases l <;> simp only [Items.bindings, List.mem_cons] at h
    case set =>
      rcases h with rfl | h
      · exact IdType.noConfusion
      · exact binding_kind h
    all_goals exact binding_kind h
  | .opening d hd :: is, n, b, h => by
    rcases List.mem_append.mp h with h | h
    · cases hd <;> simp only [Head.bindings, List.mem_cons, List.mem_map, List.not_mem_nil, or_false] at h
      · subst h; exact IdType.noConfusion
      · obtain ⟨_, _, rfl⟩ := h; exact IdType.noConfusion
      · rcases h with rfl | ⟨_, _, rfl⟩ <;> exact IdType.noConfusion
      · subst h; exact IdType.noConfusion
    · exact binding_kind h
  | .inline _ _ :: is, n, b, h => binding_kind (is := is) h
  | .closing _ :: is, n, b, h => binding_kind (is := is) h


theorem bindings_heads {last : Point} : ∀ {is : List Item} {n : Nat} {b : Binding}, b ∈ Items.bindings last n is →
    b.kind = .templateBlock ∨ ∃ x ∈ is.flatMap Item.heads, b.name = x.text
  | [], _, _, h => by cases h
  | .leaf l :: is, n, b, h => by
    cases l <;> simp only [Items.bindings, List.mem_cons] at h
    case set =>
      rcases h with rfl | h
      · exact .inr ⟨_, List.mem_cons_self, rfl⟩
      · exact (bindings_heads h).imp id fun ⟨x, hx, he⟩ => ⟨x, List.mem_append_right _ hx, he⟩
    all_goals exact (bindings_heads h).imp id fun ⟨x, hx, he⟩ => ⟨x, List.mem_append_right _ hx, he⟩
  | .opening d hd :: is, n, b, h => by
    rcases List.mem_append.mp h with h | h
    · cases hd <;> simp only [Head.bindings, List.mem_cons, List.mem_map, List.not_mem_nil, or_false] at h
      · subst h; exact .inr ⟨_, List.mem_cons_self, rfl⟩
      · obtain ⟨x, hx, rfl⟩ := h; exact .inr ⟨x, List.mem_append_left _ hx, rfl⟩
      · rcases h with rfl | ⟨x, hx, rfl⟩
        · exact .inr ⟨_, List.mem_cons_self, rfl⟩
        · exact .inr ⟨x, List.mem_append_left _ (List.mem_cons_of_mem _ hx), rfl⟩
      · subst h; exact .inl rfl
    · exact (bindings_heads h).imp id fun ⟨x, hx, he⟩ => ⟨x, List.mem_append_right _ hx, he⟩
  | .inline _ _ :: is, n, b, h => bindings_heads (is := is) h
  | .closing _ :: is, n, b, h => bindings_heads (is := is) h

theorem items_heads (p : Program) : p.items.flatMap Item.heads = p.heads := by
  have inl : ∀ l : List (Tok × List HTok), (l.map fun q => Item.inline q.1 q.2).flatMap Item.heads = [] := by
    intro l; induction l with
    | nil => rfl
    | cons a l ih => exact ih
  induction p with
  | out ts parts r ih => rw [Program.items, List.flatMap_cons, List.flatMap_append, inl, ih]; rfl
  | _ => clear inl; simp_all [Program.items, Program.heads, Item.heads]

/-! ### Templates with branches -/

/-- A template followed by another, without the blocks that contain branches: their tags become statements. -/
def Spec.Program.flat : Program → Program → Program
  | .done, k => k
  | .out ts parts r, k => .out (ts ++ parts.flatMap fun q => .eq q.1 :: q.2) [] (r.flat k)
  | .stmt d ts r, k => .stmt d ts (r.flat k)
  | .import_ d ts b r, k => .import_ d ts b (r.flat k)
  | .set d kw x ts r, k => .set d kw x ts (r.flat k)
  | .branch d kw ts r, k => .stmt d (.eq kw :: ts) (r.flat k)
  | .setBlock d kw x body e r, k => .setBlock d kw x body e (r.flat k)
  | .call d ts body e r, k => .call d ts body e (r.flat k)
  | .loop d kw x more ts body e r, k => .loop d kw x more ts body e (r.flat k)
  | .with_ d kw as body e r, k => .with_ d kw as body e (r.flat k)
  | .macro_ d kw y ps body e r, k => .macro_ d kw y ps body e (r.flat k)
  | .block d kw name body e r, k =>
    if body.forks = 0 then .block d kw name body e (r.flat k)
    else .stmt d [.eq kw, .eq name] (body.flat (.stmt e.d (.eq e.kw :: e.ts) (r.flat k)))
  | .cond d kw ts body e r, k =>
    if body.forks = 0 then .cond d kw ts body e (r.flat k)
    else .stmt d (.eq kw :: ts) (body.flat (.stmt e.d (.eq e.kw :: e.ts) (r.flat k)))
  | .area d kw ts body e r, k =>
    if body.forks = 0 then .area d kw ts body e (r.flat k)
    else .stmt d (.eq kw :: ts) (body.flat (.stmt e.d (.eq e.kw :: e.ts) (r.flat k)))

theorem flat_toks (p : Program) : ∀ k : Program, (p.flat k).toks = p.toks ++ k.toks := by
  have inl : ∀ l : List (Tok × List HTok), (l.flatMap fun q => HTok.eq q.1 :: q.2).map HTok.tok = l.flatMap fun q => q.1 :: q.2.map HTok.tok := by
    intro l; induction l with
    | nil => rfl
    | cons a l ih => simp [ih, HTok.tok]
  induction p with
  | done => intro k; rfl
  | out ts parts r ih => intro k; simp [Program.flat, Program.toks, ih, inl]
  | block d kw name body e r ih1 ih2 =>
    intro k
    unfold Program.flat
    split <;> simp [Program.toks, ih1, ih2, EndTag.toks, HTok.tok]
  | cond d kw ts body e r ih1 ih2 =>
    intro k
    unfold Program.flat
    split <;> simp [Program.toks, ih1, ih2, EndTag.toks, HTok.tok]
  | area d kw ts body e r ih1 ih2 =>
    intro k
    unfold Program.flat
    split <;> simp [Program.toks, ih1, ih2, EndTag.toks, HTok.tok]
  | _ => intro k; simp [Program.flat, Program.toks, HTok.tok, *]

theorem flat_tagged (p : Program) : ∀ k : Program, (p.flat k).tagged = p.tagged ++ k.tagged := by
  induction p with
  | done => intro k; rfl
  | block d kw name body e r ih1 ih2 =>
    intro k
    unfold Program.flat
    split <;> simp [Program.tagged, ih1, ih2, EndTag.toks, HTok.tok]
  | cond d kw ts body e r ih1 ih2 =>
    intro k
    unfold Program.flat
    split <;> simp [Program.tagged, ih1, ih2, EndTag.toks, HTok.tok]
  | area d kw ts body e r ih1 ih2 =>
    intro k
    unfold Program.flat
    split <;> simp [Program.tagged, ih1, ih2, EndTag.toks, HTok.tok]
  | _ => intro k; simp [Program.flat, Program.tagged, HTok.tok, *]

theorem simple_paired {p : Program} : ∀ {f : Bool}, p.SimpleIn f → p.Paired := by
  induction p with
  | done => intro f _; trivial
  | out ts parts r ih => intro f h; exact ih h
  | stmt d ts r ih => intro f h; exact ih h
  | import_ d ts b r ih => intro f h; exact ih h
  | set d kw x ts r ih => intro f h; exact ih h.2
  | branch d kw ts r ih => intro f h; exact ih h.2
  | setBlock => intro f h; exact h.elim
  | call => intro f h; exact h.elim
  | loop d kw x more ts body e r ih1 ih2 => intro f h; exact ⟨ih1 h.2.2.1, ih2 h.2.2.2⟩
  | with_ d kw as body e r ih1 ih2 => intro f h; exact ⟨ih1 h.2.2.1, ih2 h.2.2.2⟩
  | macro_ d kw y ps body e r ih1 ih2 => intro f h; exact ⟨ih1 h.2.2.1, ih2 h.2.2.2⟩
  | _ => rename_i ih1 ih2; intro f h; exact ⟨ih1 h.2.1, ih2 h.2.2⟩

theorem simple_flat {p : Program} : ∀ {f : Bool}, p.SimpleIn f → p.forks = 0 → p.Flat := by
  induction p with
  | done => intro f _ _; trivial
  | out ts parts r ih =>
    intro f h h0
    simp only [Program.forks, Nat.add_eq_zero_iff, List.length_eq_zero_iff] at h0
    exact ⟨h0.1, ih h h0.2⟩
  | stmt d ts r ih => intro f h h0; exact ih h h0
  | import_ d ts b r ih => intro f h h0; exact ih h h0
  | set d kw x ts r ih => intro f h h0; exact ⟨h.1, ih h.2 h0⟩
  | branch d kw ts r ih => intro f h h0; simp [Program.forks] at h0
  | setBlock => intro f h; exact h.elim
  | call => intro f h; exact h.elim
  | loop d kw x more ts body e r ih1 ih2 =>
    intro f h h0
    have := Nat.add_eq_zero_iff.mp h0
    exact ⟨h.1, ih1 h.2.2.1 this.1, ih2 h.2.2.2 this.2⟩
  | with_ d kw as body e r ih1 ih2 =>
    intro f h h0
    have := Nat.add_eq_zero_iff.mp h0
    exact ⟨h.1, ih1 h.2.2.1 this.1, ih2 h.2.2.2 this.2⟩
  | macro_ d kw y ps body e r ih1 ih2 =>
    intro f h h0
    have := Nat.add_eq_zero_iff.mp h0
    exact ⟨h.1, ih1 h.2.2.1 this.1, ih2 h.2.2.2 this.2⟩
  | _ =>
    rename_i ih1 ih2
    intro f h h0
    have := Nat.add_eq_zero_iff.mp h0
    exact ⟨ih1 h.2.1 this.1, ih2 h.2.2 this.2⟩

theorem flat_flat {p : Program} : ∀ {f : Bool} (_ : p.SimpleIn f) {k : Program} (_ : k.Flat), (p.flat k).Flat := by
  induction p with
  | done => intro f _ k hk; exact hk
  | out ts parts r ih => intro f h k hk; exact ⟨rfl, ih h hk⟩
  | stmt d ts r ih => intro f h k hk; exact ih h hk
  | import_ d ts b r ih => intro f h k hk; exact ih h hk
  | set d kw x ts r ih => intro f h k hk; exact ⟨h.1, ih h.2 hk⟩
  | branch d kw ts r ih => intro f h k hk; exact ih h.2 hk
  | setBlock => intro f h; exact h.elim
  | call => intro f h; exact h.elim
  | loop d kw x more ts body e r ih1 ih2 => intro f h k hk; exact ⟨h.1, simple_flat h.2.2.1 h.2.1, ih2 h.2.2.2 hk⟩
  | with_ d kw as body e r ih1 ih2 => intro f h k hk; exact ⟨h.1, simple_flat h.2.2.1 h.2.1, ih2 h.2.2.2 hk⟩
  | macro_ d kw y ps body e r ih1 ih2 => intro f h k hk; exact ⟨h.1, simple_flat h.2.2.1 h.2.1, ih2 h.2.2.2 hk⟩
  | block d kw name body e r ih1 ih2 =>
    intro f h k hk
    unfold Program.flat
    split
    · exact ⟨simple_flat h.2.1 ‹_›, ih2 h.2.2 hk⟩
    · exact ih1 (k := .stmt _ _ _) h.2.1 (ih2 h.2.2 hk)
  | cond d kw ts body e r ih1 ih2 =>
    intro f h k hk
    unfold Program.flat
    split
    · exact ⟨simple_flat h.2.1 ‹_›, ih2 h.2.2 hk⟩
    · exact ih1 (k := .stmt _ _ _) h.2.1 (ih2 h.2.2 hk)
  | area d kw ts body e r ih1 ih2 =>
    intro f h k hk
    unfold Program.flat
    split
    · exact ⟨simple_flat h.2.1 ‹_›, ih2 h.2.2 hk⟩
    · exact ih1 (k := .stmt _ _ _) h.2.1 (ih2 h.2.2 hk)

theorem names_inlines (ts : List HTok) (parts : List (Tok × List HTok)) :
    names (ts ++ parts.flatMap fun q => .eq q.1 :: q.2) = names ts ++ parts.flatMap fun q => names q.2 := by
  rw [names_append]
  congr 1
  induction parts with
  | nil => rfl
  | cons a l ih =>
    rw [List.flatMap_cons, List.flatMap_cons, names_append, ih]
    rfl

/-- flattening keeps what is evaluated and what is visible there -/
theorem flat_sees {p : Program} : ∀ {f : Bool} (_ : p.SimpleIn f) {k : Program} {σ σ' ρ : List Bound} (_ : f = true → p.binds = [] ∧ σ = ρ) {x : Tok × List Bound}
    (_ : x ∈ p.sees σ ρ ∨ x ∈ k.sees σ' (p.binds ++ ρ)), x ∈ (p.flat k).sees σ' ρ := by
  have big : ∀ (ts : List HTok) (us : List Tok) (d : Delims) (body r k : Program) (e : EndTag) (σ σ' ρ : List Bound) (x : Tok × List Bound)
      (_ : ∀ t ∈ us, t ∈ names ts) (_ : ∀ {k : Program}, x ∈ body.sees ρ ρ ∨ x ∈ k.sees σ' (body.binds ++ ρ) → x ∈ (body.flat k).sees σ' ρ)
      (_ : x ∈ r.sees σ ρ ∨ x ∈ k.sees σ' (r.binds ++ ρ) → x ∈ (r.flat k).sees σ' ρ) (_ : body.binds = [])
      (_ : x ∈ evaluated ρ us ++ body.sees ρ ρ ++ r.sees σ ρ ∨ x ∈ k.sees σ' (r.binds ++ ρ)),
      x ∈ (Program.stmt d ts (body.flat (.stmt e.d (.eq e.kw :: e.ts) (r.flat k)))).sees σ' ρ := by
    intro ts us d body r k e σ σ' ρ x hu h1 h2 h3 h
    simp only [Program.sees, List.mem_append]
    have hr : x ∈ r.sees σ ρ ∨ x ∈ k.sees σ' (r.binds ++ ρ) → x ∈ (body.flat (.stmt e.d (.eq e.kw :: e.ts) (r.flat k))).sees σ' ρ := by
      intro h
      refine h1 (.inr ?_)
      rw [h3, Program.sees]
      exact List.mem_append_right _ (h2 h)
    rcases h with h | h
    · rcases List.mem_append.mp h with h | h
      · rcases List.mem_append.mp h with h | h
        · obtain ⟨t, v⟩ := x
          obtain ⟨ht, rfl⟩ := mem_evaluated.mp h
          exact .inl (mem_evaluated.mpr ⟨hu t ht, rfl⟩)
        · exact .inr (h1 (.inl h))
      · exact .inr (hr (.inl h))
    · exact .inr (hr (.inr h))
  induction p with
  | done =>
    intro f _ k σ σ' ρ _ x h
    rcases h with h | h
    · cases h
    · exact h
  | out ts parts r ih =>
    intro f hp k σ σ' ρ hf x h
    simp only [Program.flat, Program.sees, List.flatMap_nil, List.append_nil, names_inlines, List.mem_append] at h ⊢
    rcases h with (((h | h) | h) | h)
    · obtain ⟨t, v⟩ := x
      obtain ⟨ht, rfl⟩ := mem_evaluated.mp h
      exact .inl (mem_evaluated.mpr ⟨List.mem_append_left _ ht, rfl⟩)
    · obtain ⟨t, v⟩ := x
      obtain ⟨q, hq, h⟩ := List.mem_flatMap.mp h
      obtain ⟨ht, rfl⟩ := mem_evaluated.mp h
      exact .inl (mem_evaluated.mpr ⟨List.mem_append_right _ (List.mem_flatMap.mpr ⟨q, hq, ht⟩), rfl⟩)
    · exact .inr (ih hp hf (.inl h))
    · exact .inr (ih hp hf (.inr h))
  | stmt d ts r ih =>
    intro f hp k σ σ' ρ hf x h
    simp only [Program.flat, Program.sees, List.mem_append] at h ⊢
    rcases h with ((h | h) | h)
    · exact .inl h
    · exact .inr (ih hp hf (.inl h))
    · exact .inr (ih hp hf (.inr h))
  | import_ d ts b r ih =>
    intro f hp k σ σ' ρ hf x h
    simp only [Program.flat, Program.sees] at h ⊢
    refine ih hp (fun e => ?_) (h.imp id fun h => by simpa [Program.binds] using h)
    have := hf e
    simp only [Program.binds, List.append_eq_nil_iff, List.map_eq_nil_iff] at this
    rw [this.1.2]
    exact ⟨this.1.1, this.2⟩
  | set d kw y ts r ih =>
    intro f hp k σ σ' ρ hf x h
    simp only [Program.flat, Program.sees, List.mem_append] at h ⊢
    have hn : f = true → r.binds = [] ∧ σ = ⟨y, .setVariable, false⟩ :: ρ := fun e => by
      have := (hf e).1
      simp [Program.binds] at this
    rcases h with ((h | h) | h)
    · exact .inl h
    · exact .inr (ih hp.2 hn (.inl h))
    · exact .inr (ih hp.2 hn (.inr (by simpa [Program.binds] using h)))
  | branch d kw ts r ih =>
    intro f hp k σ σ' ρ hf x h
    obtain ⟨h1, rfl⟩ := hf hp.1
    simp only [Program.flat, Program.sees, List.mem_append] at h ⊢
    rcases h with ((h | h) | h)
    · exact .inl h
    · exact .inr (ih hp.2 hf (.inl h))
    · exact .inr (ih hp.2 hf (.inr h))
  | setBlock => intro f h; exact h.elim
  | call => intro f h; exact h.elim
  | loop d kw y more ts body e r ih1 ih2 =>
    intro f hp k σ σ' ρ hf x h
    simp only [Program.flat, Program.sees, List.mem_append] at h ⊢
    rcases h with (((h | h) | h) | h)
    · exact .inl (.inl h)
    · exact .inl (.inr h)
    · exact .inr (ih2 hp.2.2.2 hf (.inl h))
    · exact .inr (ih2 hp.2.2.2 hf (.inr h))
  | with_ d kw as body e r ih1 ih2 =>
    intro f hp k σ σ' ρ hf x h
    simp only [Program.flat, Program.sees, List.mem_append] at h ⊢
    rcases h with (((h | h) | h) | h)
    · exact .inl (.inl h)
    · exact .inl (.inr h)
    · exact .inr (ih2 hp.2.2.2 hf (.inl h))
    · exact .inr (ih2 hp.2.2.2 hf (.inr h))
  | macro_ d kw y ps body e r ih1 ih2 =>
    intro f hp k σ σ' ρ hf x h
    simp only [Program.flat, Program.sees, List.mem_append] at h ⊢
    have hn : f = true → r.binds = [] ∧ σ = ⟨y, .macroName, false⟩ :: ρ := fun e => by
      have := (hf e).1
      simp [Program.binds] at this
    rcases h with (((h | h) | h) | h)
    · exact .inl (.inl h)
    · exact .inl (.inr h)
    · exact .inr (ih2 hp.2.2.2 hn (.inl h))
    · exact .inr (ih2 hp.2.2.2 hn (.inr (by simpa [Program.binds] using h)))
  | block d kw name body e r ih1 ih2 =>
    intro f hp k σ σ' ρ hf x h
    unfold Program.flat
    split
    · simp only [Program.sees, List.mem_append] at h ⊢
      rcases h with ((h | h) | h)
      · exact .inl h
      · exact .inr (ih2 hp.2.2 hf (.inl h))
      · exact .inr (ih2 hp.2.2 hf (.inr h))
    · have hb := hp.1.resolve_left ‹_›
      exact big _ [] _ _ _ _ _ σ σ' ρ x (by simp) (ih1 hp.2.1 fun _ => ⟨hb, rfl⟩) (ih2 hp.2.2 hf) hb h
  | cond d kw ts body e r ih1 ih2 =>
    intro f hp k σ σ' ρ hf x h
    have hn : f = true → r.binds = [] ∧ σ = (body.binds.map fun x => { x with left := true }) ++ ρ := fun e => by
      have := hf e
      simp only [Program.binds, List.append_eq_nil_iff] at this
      rw [this.1.2]
      exact ⟨this.1.1, this.2⟩
    unfold Program.flat
    split
    · simp only [Program.sees, List.mem_append] at h ⊢
      rcases h with (((h | h) | h) | h)
      · exact .inl (.inl h)
      · exact .inl (.inr h)
      · exact .inr (ih2 hp.2.2 hn (.inl h))
      · exact .inr (ih2 hp.2.2 hn (.inr (by simpa [Program.binds] using h)))
    · have hb := hp.1.resolve_left ‹_›
      rw [hb] at hn
      simp only [Program.sees, Program.binds, hb, List.map_nil, List.nil_append, List.append_nil] at h
      exact big _ (names ts) _ _ _ _ _ σ σ' ρ x (fun t h => h) (ih1 hp.2.1 fun _ => ⟨hb, rfl⟩) (ih2 hp.2.2 hn) hb h
  | area d kw ts body e r ih1 ih2 =>
    intro f hp k σ σ' ρ hf x h
    unfold Program.flat
    split
    · simp only [Program.sees, List.mem_append] at h ⊢
      rcases h with ((h | h) | h)
      · exact .inl h
      · exact .inr (ih2 hp.2.2 hf (.inl h))
      · exact .inr (ih2 hp.2.2 hf (.inr h))
    · have hb := hp.1.resolve_left ‹_›
      exact big _ [] _ _ _ _ _ σ σ' ρ x (by simp) (ih1 hp.2.1 fun _ => ⟨hb, rfl⟩) (ih2 hp.2.2 hf) hb h

theorem matchEnd_nil (k : Nat) : matchEnd k [] = none := by cases k <;> rfl

/-- flattening keeps the bindings, apart from blocks -/
theorem flat_bindings {last : Point} {p : Program} : ∀ {f : Bool} (_ : p.SimpleIn f) {k : Program} {d : Nat} {R : List Item}
    (_ : f = true → p.binds = []) (_ : f = false → R = [])
    (_ : ∀ b ∈ Items.bindings last (d + p.forks) R, b.kind = .templateBlock ∨ b ∈ k.tpl.bindings last),
    ∀ b ∈ Items.bindings last d (p.items ++ R), b.kind = .templateBlock ∨ b ∈ (p.flat k).tpl.bindings last := by
  have small : ∀ (dl : Delims) (h : Head) (body r k : Program) (e : EndTag) (d : Nat) (R : List Item), body.Flat →
      (∀ b ∈ h.bindings e.d.opening.start (if d = 0 then last else (matchEnd 1 (body.items ++ .closing e :: (r.items ++ R))).getD last),
        b.kind = .templateBlock ∨ b ∈ h.bindings e.d.opening.start last) →
      (∀ b ∈ Items.bindings last d (r.items ++ R), b.kind = .templateBlock ∨ b ∈ k.tpl.bindings last) →
      ∀ b ∈ Items.bindings last d ((Item.opening dl h :: (body.items ++ .closing e :: r.items)) ++ R), b.kind = .templateBlock ∨
        b ∈ h.bindings e.d.opening.start last ++ body.tpl.bindings e.d.opening.start ++ k.tpl.bindings last := by
    intro dl h body r k e d R hb hh hr b hm
    simp only [List.cons_append, List.append_assoc, Items.bindings] at hm
    have hme : (matchEnd 0 (body.items ++ Item.closing e :: (r.items ++ R))).getD last = e.d.opening.start := by
      rw [← tpl_items hb, JinjaDefinitions.matchEnd_tpl]; rfl
    rw [hme] at hm
    rcases List.mem_append.mp hm with hm | hm
    · rcases hh b hm with h | h
      · exact .inl h
      · exact .inr (by simp [h])
    · rw [← tpl_items hb, JinjaDefinitions.bindings_tpl] at hm
      rcases List.mem_append.mp hm with hm | hm
      · rw [if_neg (by omega)] at hm
        exact .inr (List.mem_append_left _ (List.mem_append_right _ hm))
      · rcases hr b hm with h | h
        · exact .inl h
        · exact .inr (by simp [h])
  have big : ∀ (dl : Delims) (h : Head) (body r k : Program) (e : EndTag) (d : Nat) (R : List Item),
      (∀ i o, ∀ b ∈ h.bindings i o, b.kind = .templateBlock) →
      (∀ {k : Program}, (∀ b ∈ Items.bindings last (d + 1 + body.forks) (.closing e :: (r.items ++ R)), b.kind = .templateBlock ∨ b ∈ k.tpl.bindings last) →
        ∀ b ∈ Items.bindings last (d + 1) (body.items ++ .closing e :: (r.items ++ R)), b.kind = .templateBlock ∨ b ∈ (body.flat k).tpl.bindings last) →
      (∀ b ∈ Items.bindings last (d + body.forks) (r.items ++ R), b.kind = .templateBlock ∨ b ∈ k.tpl.bindings last) →
      ∀ b ∈ Items.bindings last d ((Item.opening dl h :: (body.items ++ .closing e :: r.items)) ++ R), b.kind = .templateBlock ∨
        b ∈ (body.flat (.stmt e.d (.eq e.kw :: e.ts) k)).tpl.bindings last := by
    intro dl h body r k e d R hh hb hr b hm
    simp only [List.cons_append, List.append_assoc, Items.bindings] at hm
    rcases List.mem_append.mp hm with hm | hm
    · exact .inl (hh _ _ b hm)
    · refine hb (fun b hm => ?_) b hm
      rw [Items.bindings, show d + 1 + body.forks - 1 = d + body.forks by omega] at hm
      exact hr b hm
  induction p with
  | done => intro f _ k d R _ _ hk; exact hk
  | out ts parts r ih =>
    intro f hp k d R hf hR hk
    simp only [Program.items, List.cons_append, List.append_assoc, Items.bindings, bindings_inlines]
    exact ih hp hf hR (by simpa only [Program.forks, Nat.add_assoc] using hk)
  | stmt dl ts r ih => intro f hp k d R hf hR hk; exact ih hp hf hR hk
  | import_ dl ts b r ih =>
    intro f hp k d R hf hR hk
    refine ih hp (fun e => ?_) hR hk
    have := hf e
    simp only [Program.binds, List.append_eq_nil_iff] at this
    exact this.1
  | set dl kw x ts r ih =>
    intro f hp k d R hf hR hk b hm
    have h0 : f = false := by
      cases f with
      | false => rfl
      | true => simp [Program.binds] at hf
    obtain rfl := hR h0
    rw [List.append_nil, Program.items, Items.bindings] at hm
    rcases List.mem_cons.mp hm with rfl | hm
    · have := matchEnd_program (simple_paired hp.2) 0 []
      rw [List.append_nil] at this
      rw [this, matchEnd_nil]
      right
      simp [Program.flat, Program.tpl, Tpl.bindings]
    · rw [← List.append_nil r.items] at hm
      rcases ih hp.2 (fun e => by simp [h0] at e) hR hk b hm with h | h
      · exact .inl h
      · exact .inr (List.mem_cons_of_mem _ h)
  | branch dl kw ts r ih =>
    intro f hp k d R hf hR hk
    simp only [Program.items, List.cons_append, Items.bindings, Head.bindings, List.nil_append]
    exact ih hp.2 hf hR (by simpa only [Program.forks, Nat.add_assoc] using hk)
  | setBlock => intro f h; exact h.elim
  | call => intro f h; exact h.elim
  | loop dl kw y more ts body e r ih1 ih2 =>
    intro f hp k d R hf hR hk
    simp only [Program.forks, hp.2.1, Nat.zero_add] at hk
    exact small dl _ body r _ e d R (simple_flat hp.2.2.1 hp.2.1) (fun b h => .inr h) (ih2 hp.2.2.2 hf hR hk)
  | with_ dl kw as body e r ih1 ih2 =>
    intro f hp k d R hf hR hk
    simp only [Program.forks, hp.2.1, Nat.zero_add] at hk
    exact small dl _ body r _ e d R (simple_flat hp.2.2.1 hp.2.1) (fun b h => .inr h) (ih2 hp.2.2.2 hf hR hk)
  | macro_ dl kw y ps body e r ih1 ih2 =>
    intro f hp k d R hf hR hk
    have h0 : f = false := by
      cases f with
      | false => rfl
      | true => simp [Program.binds] at hf
    obtain rfl := hR h0
    simp only [Program.forks, hp.2.1, Nat.zero_add] at hk
    refine small dl _ body r _ e d [] (simple_flat hp.2.2.1 hp.2.1) (fun b h => .inr ?_) (ih2 hp.2.2.2 (fun e => by simp [h0] at e) hR hk)
    have h1 : matchEnd 1 (body.items ++ .closing e :: (r.items ++ [])) = none := by
      rw [matchEnd_program (simple_paired hp.2.2.1), hp.2.1]
      show matchEnd 0 _ = _
      rw [matchEnd_program (simple_paired hp.2.2.2), matchEnd_nil]
    rw [h1] at h
    simpa using h
  | block dl kw name body e r ih1 ih2 =>
    intro f hp k d R hf hR hk
    have hh : ∀ i o, ∀ b ∈ (Head.block kw name []).bindings i o, b.kind = .templateBlock := by
      intro i o b hb
      simp only [Head.bindings, List.mem_singleton] at hb
      rw [hb]; rfl
    unfold Program.flat
    split
    · rename_i h0
      simp only [Program.forks, h0, Nat.zero_add] at hk
      exact small dl _ body r _ e d R (simple_flat hp.2.1 h0) (fun b h => .inl (hh _ _ b h)) (ih2 hp.2.2 hf hR hk)
    · have hb := hp.1.resolve_left ‹_›
      exact big dl _ body r _ e d R hh (ih1 hp.2.1 (fun _ => hb) (fun e => by cases e))
        (ih2 hp.2.2 hf hR (by simpa only [Program.forks, Nat.add_assoc] using hk))
  | cond dl kw ts body e r ih1 ih2 =>
    intro f hp k d R hf hR hk
    have hn : f = true → r.binds = [] := fun e => by
      have := hf e
      simp only [Program.binds, List.append_eq_nil_iff] at this
      exact this.1
    unfold Program.flat
    split
    · rename_i h0
      simp only [Program.forks, h0, Nat.zero_add] at hk
      exact small dl _ body r _ e d R (simple_flat hp.2.1 h0) (fun b h => .inr h) (ih2 hp.2.2 hn hR hk)
    · have hb := hp.1.resolve_left ‹_›
      exact big dl _ body r _ e d R (by simp [Head.bindings]) (ih1 hp.2.1 (fun _ => hb) (fun e => by cases e))
        (ih2 hp.2.2 hn hR (by simpa only [Program.forks, Nat.add_assoc] using hk))
  | area dl kw ts body e r ih1 ih2 =>
    intro f hp k d R hf hR hk
    unfold Program.flat
    split
    · rename_i h0
      simp only [Program.forks, h0, Nat.zero_add] at hk
      exact small dl _ body r _ e d R (simple_flat hp.2.1 h0) (fun b h => .inr h) (ih2 hp.2.2 hf hR hk)
    · have hb := hp.1.resolve_left ‹_›
      exact big dl _ body r _ e d R (by simp [Head.bindings]) (ih1 hp.2.1 (fun _ => hb) (fun e => by cases e))
        (ih2 hp.2.2 hf hR (by simpa only [Program.forks, Nat.add_assoc] using hk))

/-- Where no header evaluates a name it binds and blocks with branches bind nothing, a binding whose scope touches an evaluated name is
visible to it under Jinja's rules. -/
theorem simple_sees {p : Program} (T : Tok → Prop) (hp : p.Simple) (hT : ∀ t ∈ p.tagged, T t) {last : Point} (ho : InOrder last p.toks) {t : Tok}
    {env : List Bound} (ht : (t, env) ∈ p.sees [] []) {b : Binding} (hb : b ∈ Items.bindings last 0 p.items) (hn : Near b t) : Seen T env b t := by
  have h1 := flat_bindings (k := .done) (d := 0) (R := []) (last := last) hp (fun e => by cases e) (fun _ => rfl) (by simp [Items.bindings])
  rw [List.append_nil] at h1
  rcases h1 b hb with h | h
  · exact .inl h
  · refine (near_sees T (flat_flat (k := .done) hp trivial) ?_ last ?_ [] [] (flat_sees hp (fun e => by cases e) (.inl ht))).2 b h hn
    · rw [flat_tagged]
      simpa [Program.tagged] using hT
    · rw [flat_toks]
      simpa [Program.toks] using ho

end JinjaLsp
