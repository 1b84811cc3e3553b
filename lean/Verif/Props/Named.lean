import Verif.Props.Lookup
import Verif.Props.Displayed
import Verif.Props.Actions
/-
  C84: the names of other templates, in terms of the syntax tree.
-/

namespace JinjaLsp
open Spec

namespace Spec

/-- imported names come after the name of the template -/
def ExtrasAfter (ss : List ImpStmt) : Prop := ∀ i ∈ ss, ∀ t ∈ i.names, ∀ m ∈ i.extras, ∀ c ∈ m, t.stop ≤ c.start

end Spec

/-! ### The captures of names and operators -/

/-- names and operators are captured where their nodes are -/
theorem objects_nodes {env : Env} {sx : Syntax} {tree : Tree} {text : Str} {c : Capture}
    (h : c ∈ ((env.over sx).queryMatches .jinjaObjects tree text).flatten) :
    (c.name = .justId → ∃ n ∈ (sx.root tree text).flat, n.kind = .identifier ∧ c.start = n.start ∧ c.stop = n.stop) ∧
    (c.name = .pipe → ∃ n ∈ (sx.root tree text).flat, n.kind = .operator ∧ c.start = n.start ∧ c.stop = n.stop) := by
  obtain ⟨m, hm, hc⟩ := List.mem_flatten.mp h
  obtain ⟨x, hx, v, hm⟩ := (Syn.mem_walk [] [] (sx.root tree text)).mp hm
  have hflat : x.2.2 ∈ (sx.root tree text).flat := (Syn.mem_flat_iff [] [] _).mpr ⟨x, hx, rfl⟩
  have key : ∀ {b : Bool} {cn : CapName}, m ∈ single b cn x.1 x.2.2 → c.name = cn ∧ c.start = x.2.2.start ∧ c.stop = x.2.2.stop := by
    intro b cn hm
    unfold single at hm
    split at hm
    · cases List.mem_singleton.mp hm
      cases List.mem_singleton.mp hc
      unfold Syn.cap
      split <;> exact ⟨rfl, rfl, rfl⟩
    · cases hm
  cases v with
  | leave => cases hm
  | enter =>
    have hm' : m ∈ qObjects sx.digit .enter x.1 x.2.1 x.2.2 := hm
    simp only [qObjects] at hm'
    split at hm'
    · rename_i hk
      rcases List.mem_append.mp hm' with hm' | hm'
      · obtain ⟨h1, h2⟩ := key hm'
        exact ⟨fun h => by rw [h] at h1; (cases h1), fun _ => ⟨x.2.2, hflat, hk, h2⟩⟩
      · have := key hm'
        constructor <;> intro h <;> rw [h] at this <;> cases this.1
    · rename_i hk
      obtain ⟨h1, h2⟩ := key hm'
      exact ⟨fun _ => ⟨x.2.2, hflat, hk, h2⟩, fun h => by rw [h] at h1; (cases h1)⟩
    · have := key hm'
      constructor <;> intro h <;> rw [h] at this <;> cases this.1
    · have := key hm'
      constructor <;> intro h <;> rw [h] at this <;> cases this.1
    · have := key hm'
      constructor <;> intro h <;> rw [h] at this <;> cases this.1
    · cases hm'

/-- inside a string there is no name -/
theorem string_quiet {env : Env} {sx : Syntax} {tree : Tree} {text : Str} {n : Syn} {p : Point} (hs : WellFormed (sx.root tree text))
    (hl : Laid (sx.root tree text)) (hn : n ∈ (sx.root tree text).flat) (hk : n.kind = .string) (h1 : n.start < p) (h2 : p < n.stop) :
    ∃ o, objectsQuery (env.over sx) tree p text false = .ok o ∧ o.isIdent p = none := by
  obtain ⟨o, ho⟩ := JinjaObjects.query_ok (env.over sx) tree p text false (by
    rintro ⟨c, hc, hcn, _, hz⟩
    obtain ⟨m, hm, hmk, e, _⟩ := (objects_nodes hc).2 hcn
    exact hl.inside m hm hmk (e ▸ hz))
  refine ⟨o, ho, ?_⟩
  have hcov : ¬ (o.ident.1 ≤ p ∧ p ≤ o.ident.2) := by
    rcases (JinjaObjects.from_query ho).ident with e | ⟨c, hc, hcn, e⟩
    · rw [e]
      rintro ⟨_, h⟩
      exact Point.not_lt_zero _ (Point.lt_of_lt_of_le h1 h)
    · obtain ⟨m, hm, hmk, e1, e2⟩ := (objects_nodes hc).1 hcn
      rw [e, e1, e2]
      rintro ⟨h3, h4⟩
      rcases pairwise_either (laid_leaves hs hl) hm hn with rfl | h | h
      · rw [hk] at hmk; cases hmk
      · exact Point.lt_irrefl _ (Point.lt_of_lt_of_le h1 (Point.le_trans h4 (h.2 (.inl hmk))))
      · exact Point.lt_irrefl _ (Point.lt_of_lt_of_le h2 (Point.le_trans (h.2 (.inr hk)) h3))
  unfold JinjaObjects.isIdent
  rw [if_neg hcov]

/-! ### The reference under the cursor -/

/-- the statement of a reference: its node, its keyword and the strings that are its names -/
structure RefNode (n : Syn) (i : ImpStmt) (parts : List Syn) : Prop where
  head : i.head = tokOf n
  statement : n.kind = .statement
  within : ∀ s ∈ parts, s ∈ n.children ∧ s.kind = .string
  names : i.names = parts.map tokOf
  caps : ∀ c ∈ i.caps, (c.name ≠ .error ∧ c.text ≠ none ∧ ∃ m ∈ n.flat, c.start = m.start) ∨ ∃ m ∈ i.extras, c ∈ m
  stmts : ∀ c ∈ i.caps, isStmt c → c.id = n.id ∨ ∃ m ∈ i.extras, c ∈ m

theorem refNode_of {n b kw e : Syn} {rest : List Syn} {i : ImpStmt} (hst : IsStmt n b (kw :: rest) e)
    (parts : List Syn) (hparts : ∀ s ∈ parts, s ∈ strings rest)
    (hi : (∃ s, parts = [s] ∧ (i = .extends (tokOf n) (tokOf kw) (tokOf s) ∨ (∃ ms, i = .from_ (tokOf n) (tokOf kw) (tokOf s) ms) ∨
      ∃ ms, i = .import_ (tokOf n) (tokOf kw) (tokOf s) ms)) ∨ i = .include (tokOf n) (tokOf kw) (parts.map tokOf)) : RefNode n i parts := by
  have hkw : kw ∈ n.flat := by
    rw [flat_eq]; exact List.mem_cons_of_mem _ (flatAll_self (by rw [hst.parts]; simp))
  have hsub : ∀ s ∈ parts, s ∈ n.children ∧ s.kind = .string := by
    intro s hs
    have h1 := mem_strings (hparts s hs)
    have h2 : s.kind = .string := by have := hparts s hs; unfold strings at this; simpa using (List.mem_filter.mp this).2
    exact ⟨by rw [hst.parts]; simp [h1], h2⟩
  have hfl : ∀ s ∈ parts, s ∈ n.flat := fun s hs => by
    rw [flat_eq]; exact List.mem_cons_of_mem _ (flatAll_self (hsub s hs).1)
  have hcap : ∀ (m : Syn) (cn : CapName), ((tokOf m).cap cn).start = m.start ∧ ((tokOf m).cap cn).text ≠ none := fun m cn => ⟨rfl, by simp [Tok.cap]⟩
  rcases hi with ⟨s, rfl, rfl | ⟨ms, rfl⟩ | ⟨ms, rfl⟩⟩ | rfl
  · refine ⟨rfl, hst.kind, hsub, rfl, ?_, ?_⟩
    · intro c hc
      simp only [ImpStmt.caps, List.mem_cons, List.not_mem_nil, or_false] at hc
      left
      rcases hc with rfl | rfl | rfl
      · exact ⟨by simp [Tok.cap], (hcap n _).2, n, flat_self n, rfl⟩
      · exact ⟨by simp [Tok.cap], (hcap kw _).2, kw, hkw, rfl⟩
      · exact ⟨by simp [Tok.cap], (hcap s _).2, s, hfl s (by simp), rfl⟩
    · intro c hc hsc
      simp only [ImpStmt.caps, List.mem_cons, List.not_mem_nil, or_false] at hc
      rcases hc with rfl | rfl | rfl
      · exact Or.inl rfl
      · simp [isStmt, Tok.cap] at hsc
      · simp [isStmt, Tok.cap] at hsc
  · refine ⟨rfl, hst.kind, hsub, rfl, ?_, ?_⟩
    · intro c hc
      simp only [ImpStmt.caps, List.mem_flatMap, List.mem_append, List.mem_cons, List.not_mem_nil, or_false] at hc
      obtain ⟨m, hm, (rfl | rfl | rfl) | hc⟩ := hc
      · exact Or.inl ⟨by simp [Tok.cap], (hcap n _).2, n, flat_self n, rfl⟩
      · exact Or.inl ⟨by simp [Tok.cap], (hcap kw _).2, kw, hkw, rfl⟩
      · exact Or.inl ⟨by simp [Tok.cap], (hcap s _).2, s, hfl s (by simp), rfl⟩
      · exact Or.inr ⟨m, hm, hc⟩
    · intro c hc hsc
      simp only [ImpStmt.caps, List.mem_flatMap, List.mem_append, List.mem_cons, List.not_mem_nil, or_false] at hc
      obtain ⟨m, hm, (rfl | rfl | rfl) | hc⟩ := hc
      · exact Or.inl rfl
      · simp [isStmt, Tok.cap] at hsc
      · simp [isStmt, Tok.cap] at hsc
      · exact Or.inr ⟨m, hm, hc⟩
  · refine ⟨rfl, hst.kind, hsub, rfl, ?_, ?_⟩
    · intro c hc
      simp only [ImpStmt.caps, List.mem_flatMap, List.mem_append, List.mem_cons, List.not_mem_nil, or_false] at hc
      obtain ⟨m, hm, (rfl | rfl | rfl) | hc⟩ := hc
      · exact Or.inl ⟨by simp [Tok.cap], (hcap n _).2, n, flat_self n, rfl⟩
      · exact Or.inl ⟨by simp [Tok.cap], (hcap kw _).2, kw, hkw, rfl⟩
      · exact Or.inl ⟨by simp [Tok.cap], (hcap s _).2, s, hfl s (by simp), rfl⟩
      · exact Or.inr ⟨m, hm, hc⟩
    · intro c hc hsc
      simp only [ImpStmt.caps, List.mem_flatMap, List.mem_append, List.mem_cons, List.not_mem_nil, or_false] at hc
      obtain ⟨m, hm, (rfl | rfl | rfl) | hc⟩ := hc
      · exact Or.inl rfl
      · simp [isStmt, Tok.cap] at hsc
      · simp [isStmt, Tok.cap] at hsc
      · exact Or.inr ⟨m, hm, hc⟩
  · refine ⟨rfl, hst.kind, hsub, rfl, ?_, ?_⟩
    · intro c hc
      simp only [ImpStmt.caps, List.mem_flatMap, List.mem_map, List.mem_cons, List.not_mem_nil, or_false] at hc
      obtain ⟨t, ⟨s, hs, rfl⟩, rfl | rfl | rfl⟩ := hc
      · exact Or.inl ⟨by simp [Tok.cap], (hcap n _).2, n, flat_self n, rfl⟩
      · exact Or.inl ⟨by simp [Tok.cap], (hcap kw _).2, kw, hkw, rfl⟩
      · exact Or.inl ⟨by simp [Tok.cap], (hcap s _).2, s, hfl s hs, rfl⟩
    · intro c hc hsc
      simp only [ImpStmt.caps, List.mem_flatMap, List.mem_map, List.mem_cons, List.not_mem_nil, or_false] at hc
      obtain ⟨t, ⟨s, hs, rfl⟩, rfl | rfl | rfl⟩ := hc
      · exact Or.inl rfl
      · simp [isStmt, Tok.cap] at hsc
      · simp [isStmt, Tok.cap] at hsc

/-- every reference belongs to a statement, in order -/
theorem refs_split {options : Syn → Syn → List (List Capture)} {ns : List Syn} {ss : List ImpStmt} (h : Refs options ns ss) :
    ∀ {pre post : List ImpStmt} {i : ImpStmt}, ss = pre ++ i :: post → ∃ n1 n n2 parts, ns = n1 ++ n :: n2 ∧ Refs options n1 pre ∧ RefNode n i parts ∧
      Refs options n2 post := by
  induction h with
  | nil => intro pre post i e; cases pre <;> cases e
  | @other n ns ss hk hc hr ih =>
    intro pre post i e
    obtain ⟨n1, m, n2, parts, rfl, h1, h2⟩ := ih e
    exact ⟨n :: n1, m, n2, parts, rfl, .other hk hc h1, h2⟩
  | @stmt n b e' inner ns ss hst hno hr ih =>
    intro pre post i e
    obtain ⟨n1, m, n2, parts, rfl, h1, h2⟩ := ih e
    exact ⟨n :: n1, m, n2, parts, rfl, .stmt hst hno h1, h2⟩
  | @«extends» n b kw e' s rest ns ss hst ht hk hkt hstr hno hr ih =>
    intro pre post i e
    cases pre with
    | nil =>
      injection e with e1 e2
      subst e2
      exact ⟨[], n, ns, [s], rfl, .nil, refNode_of hst [s] (by simp [hstr]) (.inl ⟨s, rfl, .inl e1.symm⟩), hr⟩
    | cons x pre =>
      injection e with e1 e2
      obtain ⟨n1, m, n2, parts, rfl, h1, h2⟩ := ih e2
      exact ⟨n :: n1, m, n2, parts, rfl, e1 ▸ .extends hst ht hk hkt hstr hno h1, h2⟩
  | @«include» n b kw e' rest ns ss hst ht hk hkt hno hr ih =>
    intro pre post i e
    cases pre with
    | nil =>
      injection e with e1 e2
      subst e2
      exact ⟨[], n, ns, strings rest, rfl, .nil, refNode_of hst _ (fun s h => h) (.inr e1.symm), hr⟩
    | cons x pre =>
      injection e with e1 e2
      obtain ⟨n1, m, n2, parts, rfl, h1, h2⟩ := ih e2
      exact ⟨n :: n1, m, n2, parts, rfl, e1 ▸ .include hst ht hk hkt hno h1, h2⟩
  | @from_ n b kw e' s rest ns ss hst ht hk hkt hstr hno hr ih =>
    intro pre post i e
    cases pre with
    | nil =>
      injection e with e1 e2
      subst e2
      exact ⟨[], n, ns, [s], rfl, .nil, refNode_of hst [s] (by simp [hstr]) (.inl ⟨s, rfl, .inr (.inl ⟨_, e1.symm⟩)⟩), hr⟩
    | cons x pre =>
      injection e with e1 e2
      obtain ⟨n1, m, n2, parts, rfl, h1, h2⟩ := ih e2
      exact ⟨n :: n1, m, n2, parts, rfl, e1 ▸ .from_ hst ht hk hkt hstr hno h1, h2⟩
  | @import_ n b kw e' s rest ns ss hst ht hk hkt hstr hno hr ih =>
    intro pre post i e
    cases pre with
    | nil =>
      injection e with e1 e2
      subst e2
      exact ⟨[], n, ns, [s], rfl, .nil, refNode_of hst [s] (by simp [hstr]) (.inl ⟨s, rfl, .inr (.inr ⟨_, e1.symm⟩)⟩), hr⟩
    | cons x pre =>
      injection e with e1 e2
      obtain ⟨n1, m, n2, parts, rfl, h1, h2⟩ := ih e2
      exact ⟨n :: n1, m, n2, parts, rfl, e1 ▸ .import_ hst ht hk hkt hstr hno h1, h2⟩

theorem refs_node {options : Syn → Syn → List (List Capture)} {ns : List Syn} {ss : List ImpStmt} (h : Refs options ns ss) {i : ImpStmt} (hi : i ∈ ss) :
    ∃ n ∈ ns, ∃ parts, RefNode n i parts := by
  obtain ⟨pre, post, rfl⟩ := List.append_of_mem hi
  obtain ⟨n1, n, n2, parts, rfl, _, h2, _⟩ := refs_split h rfl
  exact ⟨n, by simp, parts, h2⟩

/-- the cursor strictly inside a name of a reference of the tree -/
theorem onName_tree {env : Env} {sx : Syntax} {tree : Tree} {text : Str} {ss : List ImpStmt} {i : ImpStmt} {t : Tok} {p : Point}
    (hs : WellFormed (sx.root tree text)) (hl : Laid (sx.root tree text)) (hk : (sx.root tree text).kind = .other)
    (hr : Refs sx.options (sx.root tree text).children ss) (hw : ImpStmt.Wf ss) (hx : ExtrasAfter ss) (hi : i ∈ ss) (ht : t ∈ i.names)
    (h1 : t.start < p) (h2 : p < t.stop) :
    (∃ n ∈ (sx.root tree text).flat, n.kind = .string ∧ n.start = t.start ∧ n.stop = t.stop) ∧
    ∃ before rest, OnName ((env.over sx).queryMatches .jinjaImports tree text).flatten before i t rest p := by
  have hcaps := over_imports (env := env) hk hr
  generalize hroot : sx.root tree text = root at *
  obtain ⟨pre, post, rfl⟩ := List.append_of_mem hi
  obtain ⟨n1, n, n2, parts, hns, hr1, hn, hr2⟩ := refs_split hr rfl
  have hleaf := laid_leaves hs hl
  have hnr : n ∈ root.flat := by rw [flat_eq, hns]; exact List.mem_cons_of_mem _ (flatAll_self (by simp))
  rw [hn.names] at ht
  obtain ⟨s, hsp, rfl⟩ := List.mem_map.mp ht
  have hsub := hn.within s hsp
  have hsn : s ∈ n.flat := by rw [flat_eq]; exact List.mem_cons_of_mem _ (flatAll_self hsub.1)
  have hsr : s ∈ root.flat := Syn.flat_children root hnr hsub.1
  have hpart : ∀ s' ∈ parts, s' ∈ root.flat ∧ s'.kind = .string := fun s' h => ⟨Syn.flat_children root hnr (hn.within s' h).1, (hn.within s' h).2⟩
  -- nodes of later statements
  have hlater : ∀ m ∈ Syn.flatAll n2, s.stop ≤ m.start := by
    intro m hm
    have hsl : [s, m].Sublist root.flat := by
      rw [flat_eq, hns, flatAll_append]
      refine List.Sublist.cons _ ?_
      refine List.Sublist.trans ?_ (List.sublist_append_right _ _)
      show [s, m].Sublist (n.flat ++ Syn.flatAll n2)
      exact (List.singleton_sublist.mpr hsn).append (List.singleton_sublist.mpr hm)
    exact (pairwise_before hleaf hsl).2 (.inr hsub.2)
  refine ⟨⟨s, hsr, hsub.2, rfl, rfl⟩, pre.flatMap ImpStmt.caps, post.flatMap ImpStmt.caps, ?_⟩
  have hspans := hl.spans
  refine ⟨by rw [hcaps]; simp [List.flatMap_append], ?_, by rw [hn.names]; exact ht, ?_, Point.le_of_lt h1, Point.le_of_lt h2, ?_,
    hw.some_match i hi, ?_, ?_⟩
  · intro c hc
    obtain ⟨j, hj, hcj⟩ := List.mem_flatMap.mp hc
    have hjs : j ∈ pre ++ i :: post := List.mem_append_left _ hj
    obtain ⟨m, hm, ps, hrn⟩ := refs_node hr1 hj
    have hex := hw.extras j hjs
    have hne : j.head.node ≠ i.head.node := by
      have := hw.nodes
      rw [List.map_append, List.nodup_append] at this
      exact this.2.2 _ (List.mem_map_of_mem hj) _ (by simp)
    refine ⟨?_, ?_, ?_⟩
    · rcases hrn.caps c hcj with h | ⟨x, hx1, hx2⟩
      · exact h.1
      · rcases (hex x hx1 c hx2).1 with e | e <;> rw [e] <;> simp
    · rcases hrn.caps c hcj with h | ⟨x, hx1, hx2⟩
      · exact h.2.1
      · exact (hex x hx1 c hx2).2
    · intro hst
      rcases hrn.stmts c hcj hst with e | ⟨x, hx1, hx2⟩
      · rw [e]
        rw [hrn.head] at hne
        exact hne
      · rcases (hex x hx1 c hx2).1 with e | e <;> simp [isStmt, e] at hst
  · rw [hn.head]
    exact Point.le_trans (pairwise_before hleaf (child_after hnr hsub.1)).1 (Point.le_of_lt h1)
  · intro t' ht' h3 h4
    rw [hn.names] at ht'
    obtain ⟨s', hs', rfl⟩ := List.mem_map.mp ht'
    obtain ⟨h5, h6⟩ := hpart s' hs'
    have e1 : (tokOf s').start = s'.start := rfl
    have e2 : (tokOf s').stop = s'.stop := rfl
    have e3 : (tokOf s).start = s.start := rfl
    have e4 : (tokOf s).stop = s.stop := rfl
    rw [e1] at h3; rw [e2] at h4; rw [e3] at h1; rw [e4] at h2
    rcases pairwise_either hleaf hsr h5 with e | h | h
    · rw [e]
    · exact absurd (Point.lt_of_lt_of_le h2 (Point.le_trans (h.2 (.inr hsub.2)) h3)) (Point.lt_irrefl _)
    · exact absurd (Point.lt_of_lt_of_le h1 (Point.le_trans h4 (h.2 (.inr h6)))) (Point.lt_irrefl _)
  · intro m hm c hc
    exact Point.lt_of_lt_of_le h2 (hx i hi _ (by rw [hn.names]; exact ht) m hm c hc)
  · intro c hc
    obtain ⟨j, hj, hcj⟩ := List.mem_flatMap.mp hc
    have hjs : j ∈ pre ++ i :: post := by simp [hj]
    obtain ⟨m, hm, ps, hrn⟩ := refs_node hr2 hj
    rcases hrn.caps c hcj with ⟨_, _, k, hk1, e⟩ | ⟨x, hx1, hx2⟩
    · rw [e]
      exact Point.lt_of_lt_of_le h2 (hlater k (mem_flatAll.mpr ⟨m, hm, hk1⟩))
    · -- an imported name of a later statement
      have hex := (hw.some_match j hjs)
      have hnames : j.names ≠ [] ∨ j.extras = [[]] := by
        cases j with
        | «extends» => exact Or.inr rfl
        | «include» => exact Or.inr rfl
        | from_ => exact Or.inl (by simp [ImpStmt.names])
        | import_ => exact Or.inl (by simp [ImpStmt.names])
      rcases hnames with hnm | he
      · obtain ⟨t', ht'⟩ := List.exists_mem_of_ne_nil _ hnm
        have h5 := hx j hjs t' ht' x hx1 c hx2
        rw [hrn.names] at ht'
        obtain ⟨s', hs', rfl⟩ := List.mem_map.mp ht'
        have hm' : s' ∈ m.flat := by rw [flat_eq]; exact List.mem_cons_of_mem _ (flatAll_self (hrn.within s' hs').1)
        have hfa : s' ∈ Syn.flatAll n2 := mem_flatAll.mpr ⟨m, hm, hm'⟩
        have hroot' : s' ∈ root.flat := by
          rw [flat_eq, hns, flatAll_append]
          simp only [Syn.flatAll]
          exact List.mem_cons_of_mem _ (List.mem_append_right _ (List.mem_append_right _ hfa))
        exact Point.lt_of_lt_of_le h2 (Point.le_trans (hlater s' hfa) (Point.le_trans (hspans s' hroot') h5))
      · rw [he] at hx1
        cases List.mem_singleton.mp hx1
        cases hx2

/-- what the server answers with the cursor strictly inside the string of a reference -/
theorem goto_inside (env : Env) (sx : Syntax) (w : World) (s : Server) (uri text : Str) (tree : Tree) (ss : List ImpStmt) (i : ImpStmt) (t : Tok)
    (pos : Position) (hx : fileExt uri = some .template) (hd : s.files.documents.get? uri = some text)
    (ht : (s.files.trees .template).get? uri = some tree) (hs : WellFormed (sx.root tree text)) (hl : Laid (sx.root tree text))
    (hk : (sx.root tree text).kind = .other) (hr : Refs sx.options (sx.root tree text).children ss) (hw : ImpStmt.Wf ss) (he : ExtrasAfter ss)
    (hi : i ∈ ss) (htn : t ∈ i.names) (h1 : t.start < toPoint pos) (h2 : toPoint pos < t.stop) (name : Str) (hraw : Quoted t.text name) :
    s.files.gotoDefinition (env.over sx) w uri pos = match s.files.templateLocation env w (stripQuotes name) with
      | some r => .ok (some r)
      | none => match LspFiles.collectFiles env uri [] (w.order.shuffle 2 s.files.variables.entries) with
        | .error e => .error e
        | .ok all => .ok (some (.array all)) := by
  obtain ⟨⟨n, hn, hnk, e1, e2⟩, before, rest, hon⟩ := onName_tree (env := env) hs hl hk hr hw he hi htn h1 h2
  obtain ⟨o, k1, k2⟩ := string_quiet (env := env) hs hl hn hnk (e1 ▸ h1) (e2 ▸ h2)
  obtain ⟨x, hx1, hn, _⟩ := name_under_cursor hon
  rw [stripQuotes_quoted hraw] at hn
  have hloc : s.files.templateLocation (env.over sx) w x.name = s.files.templateLocation env w (stripQuotes name) := by rw [hn]; rfl
  have hcol : ∀ fs, LspFiles.collectFiles (env.over sx) uri [] fs = LspFiles.collectFiles env uri [] fs := by
    intro fs
    have hcl : ∀ file vs, LspFiles.collectLocations (env.over sx) file vs = LspFiles.collectLocations env file vs := by
      intro file vs
      induction vs with
      | nil => rfl
      | cons v vs ih => simp only [LspFiles.collectLocations, ih]; rfl
    induction fs with
    | nil => rfl
    | cons f fs ih => simp only [LspFiles.collectFiles, ih, hcl]
  simp only [LspFiles.gotoDefinition, hx, ht, hd, k1, k2, Option.bind_none, hx1, Option.bind_some, hloc, Option.getD_none, hcol]
  rfl

/-- **C84** (the file exists) With the cursor strictly inside the quotes of the name of an extends, include, from or import statement,
goto-definition opens the file of that name. -/
theorem C84_goto (env : Env) (sx : Syntax) (w : World) (s : Server) (uri text : Str) (tree : Tree) (ss : List ImpStmt) (i : ImpStmt) (t : Tok)
    (pos : Position) (hx : fileExt uri = some .template) (hd : s.files.documents.get? uri = some text)
    (ht : (s.files.trees .template).get? uri = some tree) (hs : WellFormed (sx.root tree text)) (hl : Laid (sx.root tree text))
    (hk : (sx.root tree text).kind = .other) (hr : Refs sx.options (sx.root tree text).children ss) (hw : ImpStmt.Wf ss) (he : ExtrasAfter ss)
    (hi : i ∈ ss) (htn : t ∈ i.names) (h1 : t.start < toPoint pos) (h2 : toPoint pos < t.stop) (name target url : Str)
    (hraw : Quoted t.text name) (hq : ∀ c ∈ name, c ≠ '"' ∧ c ≠ '\'')
    (hfile : w.canonicalize (pathPush s.files.config.templates name) = .ok target) (hurl : env.urlParse (c!"file://" ++ target) = some url) :
    s.handle (env.over sx) w (.goto uri pos) = .ok (s, [], .goto (some (.scalar ⟨url, ⟨⟨0, 0⟩, ⟨0, 0⟩⟩⟩))) := by
  have h := goto_inside env sx w s uri text tree ss i t pos hx hd ht hs hl hk hr hw he hi htn h1 h2 name hraw
  have hloc : s.files.templateLocation env w (stripQuotes name) = some (.scalar ⟨url, Range.zero⟩) := by
    unfold LspFiles.templateLocation
    rw [stripQuotes_of_plain hq, hfile]
    simp only [hurl]
  rw [hloc] at h
  simp only [Server.handle, h]
  rfl

/-- **C84** (the file does not exist) With the cursor strictly inside the name of a file that cannot be found, goto-definition leads to the
entries of other files whose name is empty or starts with a dot, such as a template `./x.html` a backend file refers to; otherwise nowhere. -/
theorem C84_goto_missing (env : Env) (sx : Syntax) (w : World) (s : Server) (uri text : Str) (tree : Tree) (ss : List ImpStmt) (i : ImpStmt) (t : Tok)
    (pos : Position) (hx : fileExt uri = some .template) (hd : s.files.documents.get? uri = some text)
    (ht : (s.files.trees .template).get? uri = some tree) (hs : WellFormed (sx.root tree text)) (hl : Laid (sx.root tree text))
    (hk : (sx.root tree text).kind = .other) (hr : Refs sx.options (sx.root tree text).children ss) (hw : ImpStmt.Wf ss) (he : ExtrasAfter ss)
    (hi : i ∈ ss) (htn : t ∈ i.names) (h1 : t.start < toPoint pos) (h2 : toPoint pos < t.stop) (name : Str)
    (hraw : Quoted t.text name) (hq : ∀ c ∈ name, c ≠ '"' ∧ c ≠ '\'') (e : IoErr)
    (hfile : w.canonicalize (pathPush s.files.config.templates name) = .error e)
    (hurl : ∀ file v, Elsewhere s.files uri [] file v → env.urlParse (targetOf file v) ≠ none ∧ Fits v) :
    ∃ ls, s.handle (env.over sx) w (.goto uri pos) = .ok (s, [], .goto (some (.array ls))) ∧
      ∀ l, l ∈ ls ↔ ∃ file v, Elsewhere s.files uri [] file v ∧ l = placeOf env file v := by
  have h := goto_inside env sx w s uri text tree ss i t pos hx hd ht hs hl hk hr hw he hi htn h1 h2 name hraw
  have hloc : s.files.templateLocation env w (stripQuotes name) = none := by
    unfold LspFiles.templateLocation
    rw [stripQuotes_of_plain hq, hfile]
  have hcol := collectFiles_ok (env := env) (uri := uri) (n := []) (w.order.shuffle 2 s.files.variables.entries)
    (fun e he hne v hv hs => hurl e.1 v ⟨hne, e.2, mem_entries.mp he, hv, hs⟩)
  rw [hloc, hcol] at h
  refine ⟨places env uri [] (w.order.shuffle 2 s.files.variables.entries), by simp only [Server.handle, h], ?_⟩
  intro l
  unfold places
  simp only [List.mem_flatMap, List.mem_filter, List.mem_map, decide_eq_true_eq, decide_not, Bool.not_eq_true', decide_eq_false_iff_not]
  constructor
  · rintro ⟨e, ⟨he, hne⟩, v, ⟨hv, hs⟩, rfl⟩
    exact ⟨e.1, v, ⟨hne, e.2, mem_entries.mp he, hv, hs⟩, rfl⟩
  · rintro ⟨file, v, ⟨hne, vs, hg, hv, hs⟩, rfl⟩
    exact ⟨(file, vs), ⟨mem_entries.mpr hg, hne⟩, v, ⟨hv, hs⟩, rfl⟩

/-- **C84** (what is shown) Typing has stopped and nothing is left to do.  Inside every name of the text shown that is written as a plain relative
path and is not shown as missing, goto-definition leads to the file – provided the file system is as it was at the last analysis and the look-up
does not fail otherwise than with "not found". -/
theorem C84_rest {W : World → Prop} (hO : ∀ w, W w → Orderly w) (env : Env) (sx : Syntax) (he : Sound (env.over sx))
    (hu : NormalUrls env) (cs : List Msg) (as : List (HMap Str Diags)) (σ : Sys) (s : Server) (h : Execution W (env.over sx) cs as σ)
    (hs : SmallResults as) (u : Str) (E : Editor) (ht : StoppedTyping (env.over sx) cs u E) (hi : AtRest σ s) (hm : s.files.mainChannel = true)
    (hx : fileExt u = some .template) :
    ∃ text old w ds, E u = some text ∧ W w ∧ (σ.published.filter fun p => p.1 = u).getLast? = some (u, (ds.map report).map shown) ∧
      ∀ (root : Syn) (ss : List ImpStmt) (i : ImpStmt) (t : Tok) (pos : Position) (name : Str), root = sx.root (.parsed .jinja text old) text →
        WellFormed root → Laid root → root.kind = .other → ¬ HasError root → Refs sx.options root.children ss → ImpStmt.Wf ss → ExtrasAfter ss →
        i ∈ ss → t ∈ i.names → t.start < toPoint pos → toPoint pos < t.stop → Quoted t.text name → (∀ c ∈ name, c ≠ '"' ∧ c ≠ '\'') → Plain name →
        (∀ d ∈ missingDiags ds, d.name ≠ name) → w.canonicalize (lookupPath s.files.config.templates name) ≠ .error .other →
        ∃ target, w.canonicalize (lookupPath s.files.config.templates name) = .ok target ∧
          ∀ url, env.urlParse (c!"file://" ++ target) = some url →
            s.handle (env.over sx) w (.goto u pos) = .ok (s, [], .goto (some (.scalar ⟨url, ⟨⟨0, 0⟩, ⟨0, 0⟩⟩⟩))) := by
  obtain ⟨text, old, w, s1, s2, r, ds, e1, e2, e4, k1, k2, k3, hf, k4⟩ :=
    quiet_saved hO (env.over sx) he ⟨hu.same⟩ cs as σ s h hs u E ht hi hm hx
  refine ⟨text, old, w, ds, e1, k1, k4, ?_⟩
  rintro root ss i t pos name rfl hwf hl hk hne hr hw hxa hin htn h1 h2 hraw hq hplain hnot hother
  have hno : ¬ SyntaxError (env.over sx) (.parsed .jinja text old) text := fun h => hne ((over_error ..).mp h)
  have hd2 := e2
  have ht2 := e4
  rw [k3.documents] at hd2
  rw [k3.trees] at ht2
  obtain ⟨defs, _, hv⟩ := (analyses_records .saved hx k2 hd2 ht2).1 hno
  obtain ⟨ds', j1, j2⟩ := C28_template_partial (env.over sx) w s1 s2 (.didSave u) u _ r text _ _ ss .saved hx k2 hd2 ht2 hv hw (over_imports hk hr)
  have hds : ds' = ds := by
    simp only [List.cons.injEq, Send.diag.injEq, and_true] at j1
    have := congrArg (fun x => x.get? u) j1
    simpa using this.symm
  subst hds
  have hconf : s1.files.config = s.files.config := by rw [← hf.conf.conf, ← k3.conf.conf]
  rw [hconf] at j2
  have hname : t.ref.name = name := by
    have e := stripQuotes_quoted hraw
    rw [stripQuotes_of_plain hq] at e
    exact e
  have hex : ¬ Absent w s.files.config.templates name := by
    intro ha
    have : (⟨.templateNotFound, t.ref.name, t.ref.start, t.ref.stop⟩ : Report) ∈ refReports w s.files.config.templates true (ImpStmt.refs ss) := by
      unfold refReports
      refine List.mem_map.mpr ⟨t.ref, List.mem_filter.mpr ⟨?_, ?_⟩, rfl⟩
      · unfold ImpStmt.refs
        exact List.mem_flatMap.mpr ⟨i, hin, List.mem_map.mpr ⟨t, htn, rfl⟩⟩
      · simp only [Bool.true_and, Bool.or_eq_true, decide_eq_true_eq]
        rw [hname]; exact Or.inr ha
    exact hnot _ (j2.mem_iff.mpr this) hname
  cases hcan : w.canonicalize (lookupPath s.files.config.templates name) with
  | error e =>
    cases e with
    | notFound => exact absurd hcan hex
    | other => exact absurd hcan hother
  | ok target =>
    refine ⟨target, rfl, fun url hurl => ?_⟩
    refine C84_goto env sx w s u text _ ss i t pos hx e2 e4 hwf hl hk hr hw hxa hin htn h1 h2 name target url hraw hq ?_ hurl
    rw [pathPush_plain _ hplain]
    exact hcan

/-! ### An instance -/

namespace Fix

theorem root_laid : Laid root := ⟨by decide, by decide, by decide, by decide⟩

end Fix

/-- the hypotheses of C84: the cursor is in `x.html` of the first line -/
example : WellFormed Fix.root ∧ Laid Fix.root ∧ ¬ HasError Fix.root ∧ Refs Fix.syn.options Fix.root.children Fix.refs ∧ ImpStmt.Wf Fix.refs ∧
    ExtrasAfter Fix.refs ∧ (∃ i ∈ Fix.refs, ∃ t ∈ i.names, t.start < toPoint ⟨0, 13⟩ ∧ toPoint ⟨0, 13⟩ < t.stop ∧ Quoted t.text c!"x.html") ∧
    (∀ c ∈ c!"x.html", c ≠ '"' ∧ c ≠ '\'') ∧ Plain c!"x.html" ∧
    (∃ target, Fix.world.canonicalize (pathPush [] c!"x.html") = .ok target) ∧
    (∃ e, Fix.emptyWorld.canonicalize (pathPush [] c!"x.html") = .error e) ∧
    ∃ s' out r, Fix.server.handle (Fix.env.over Fix.syn) Fix.emptyWorld (.didOpen Fix.uriA []) = .ok (s', out, r) ∧
      s'.files.documents.get? Fix.uriA = some [] ∧
      (s'.files.trees .template).get? Fix.uriA = some (.parsed .jinja [] (some (.parsed .jinja c!"aaa" none))) := by
  refine ⟨⟨by decide, by decide, by decide⟩, Fix.root_laid, tags_no_error rfl Fix.tags_read, Fix.refs_read _, Fix.refs_wf, ?_, ?_, by decide, ?_, ⟨_, rfl⟩, ⟨_, rfl⟩,
    _, _, _, rfl, rfl, rfl⟩
  · unfold ExtrasAfter; decide
  · exact ⟨_, by simp [Fix.refs]; rfl, Fix.tok 0 11 19 c!"\"x.html\"" 12, by simp [ImpStmt.names], by decide, by decide, '"', .inl rfl, rfl⟩
  · unfold Plain; decide

end JinjaLsp
