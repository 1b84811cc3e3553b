import Verif.Lemmas.Template
/- The definition analysis on arbitrary sequences of tags. -/

namespace JinjaLsp
open Spec

namespace JinjaDefinitions

/-- an end tag without an open scope -/
theorem runs_end_empty (e : EndTag) (s : JinjaDefinitions) (ha : s.canAddId = false) (hst : s.view.stack = []) :
    ∃ s', Runs s e.caps s' ∧ s'.view = s.view ∧ s'.allIds = s.allIds ∧ Idle s' := by
  let s1 : JinjaDefinitions := { s with isEnd := true, canCloseScope := true, canOpenScope := false }
  obtain ⟨s2, hr2, hs2⟩ := runs_idle e.ts s1 ha
  have hv2 : s2.view = s.view := hs2.view
  have hc2 : s2.canCloseScope = true := hs2.close
  have he2 : s2.isEnd = true := hs2.isEnd
  have hcur : s2.currentScope = [] := by
    have h : s2.view.stack = [] := by rw [hv2]; exact hst
    simpa [JinjaDefinitions.view] using h
  let s3 : JinjaDefinitions := { s2 with canCloseScope := false, canAddId := false, isEnd := false }
  have h3 : s2.check (e.d.opening.cap .scopeEnd) = .ok (some s3) := by
    simp [check, Tok.cap, hc2, he2, hcur, s3]
  have hcur3 : s3.currentScope = [] := hcur
  have hlast : ∃ s4, Runs s3 [e.d.closing.cap .scopeStart] s4 ∧ s4.view = s3.view ∧ s4.allIds = s3.allIds ∧ Idle s4 := by
    by_cases ho : s3.canOpenScope = true
    · refine ⟨{ s3 with canOpenScope := false, canAddId := false }, Runs.cons ?_ (Runs.nil _), ?_, rfl, rfl, rfl⟩
      · simp [check, Tok.cap, ho, hcur3]
      · simp [JinjaDefinitions.view]
    · refine ⟨s3, Runs.cons ?_ (Runs.nil _), rfl, rfl, rfl, rfl⟩
      simp [check, Tok.cap, ho]
  obtain ⟨s4, hr4, hv4, hi4, hid4⟩ := hlast
  refine ⟨s4, ?_, hv4.trans hv2, hi4.trans hs2.seen, hid4⟩
  exact Runs.append (t := s2) (Runs.cons (t := s1) rfl hr2) (Runs.cons h3 hr4)

/-- definitions recorded for a sequence of tags while the scopes `st` are open -/
def rawItems : List Nat → List Item → List Definition
  | _, [] => []
  | st, .leaf l :: r => leafDefs (st.headD 0) l ++ rawItems st r
  | st, .opening _ h :: r => headDefs (st.headD 0) h ++ rawItems (h.kw.node :: st) r
  | st, .inline kw _ :: r => rawItems (kw.node :: st) r
  | st, .closing _ :: r => rawItems st.tail r

def closedItems : List Nat → List Item → List (Nat × Point)
  | _, [] => []
  | st, .leaf _ :: r => closedItems st r
  | st, .opening _ h :: r => closedItems (h.kw.node :: st) r
  | st, .inline kw _ :: r => closedItems (kw.node :: st) r
  | [], .closing _ :: r => closedItems [] r
  | n :: st, .closing e :: r => (n, e.start) :: closedItems st r

theorem runs_items : ∀ (is : List Item) (s : JinjaDefinitions), (∀ i ∈ is, i.Ok) → (is.flatMap Item.nodes).Nodup → Idle s →
    (∀ n ∈ is.flatMap Item.nodes, n ∉ s.allIds) →
    ∃ s', Runs s (is.flatMap Item.caps) s' ∧ s'.view.defs = s.view.defs ++ rawItems s.view.stack is ∧
      s'.view.closed = s.view.closed ++ closedItems s.view.stack is
  | [], s, _, _, _, _ => ⟨s, Runs.nil s, by simp [rawItems], by simp [closedItems]⟩
  | i :: is, s, hok, hnd, hi, hn => by
    simp only [List.flatMap_cons, List.nodup_append, List.mem_append] at hnd hn
    have hok' : ∀ i ∈ is, i.Ok := fun j hj => hok j (by simp [hj])
    have hoki : i.Ok := hok i (by simp)
    -- one item: a step whose new node ids are among those of the item
    have step : ∀ (s1 : JinjaDefinitions), Runs s i.caps s1 → Idle s1 →
        (∀ n ∈ s1.allIds, n ∈ s.allIds ∨ n ∈ i.nodes) →
        ∃ s', Runs s ((i :: is).flatMap Item.caps) s' ∧ s'.view.defs = s1.view.defs ++ rawItems s1.view.stack is ∧
          s'.view.closed = s1.view.closed ++ closedItems s1.view.stack is := by
      intro s1 hr1 hi1 hs1
      obtain ⟨s2, hr2, h1, h2⟩ := runs_items is s1 hok' hnd.2.1 hi1 (by
        intro n h h'
        rcases hs1 n h' with h'' | h''
        · exact hn n (Or.inr h) h''
        · exact hnd.2.2 n h'' n h rfl)
      exact ⟨s2, Runs.append hr1 hr2, h1, h2⟩
    cases i with
    | leaf l =>
      obtain ⟨s1, hr1, hi1, hv1, hs1⟩ := runs_leaf l hoki s hi (fun n h => hn n (Or.inl h))
      obtain ⟨s2, hr2, h1, h2⟩ := step s1 hr1 hi1 hs1
      refine ⟨s2, hr2, ?_, ?_⟩
      · rw [h1, hv1]; simp [rawItems]
      · rw [h2, hv1]; simp [closedItems]
    | opening d h =>
      obtain ⟨s1, hr1, hi1, hv1, hs1⟩ := runs_head d h hoki s hi (hn _ (Or.inl (by simp [Item.nodes])))
      obtain ⟨s2, hr2, h1, h2⟩ := step s1 hr1 hi1 (fun n h => by simpa [Item.nodes] using hs1 n h)
      refine ⟨s2, hr2, ?_, ?_⟩
      · rw [h1, hv1]; simp [rawItems]
      · rw [h2, hv1]; simp [closedItems]
    | inline kw ts =>
      let s0 : JinjaDefinitions := { s with
        currentScope := ⟨kw.node, Point.zero, Point.zero⟩ :: s.currentScope
        canCloseScope := false, canOpenScope := true, isEnd := false, canAddId := false }
      have h0 : s.check (kw.cap .scope) = .ok (some s0) := rfl
      obtain ⟨s1, hr1, hs1⟩ := runs_idle ts s0 rfl
      have hv1 : s1.view = ⟨s.view.defs, kw.node :: s.view.stack, s.view.closed⟩ := by
        rw [hs1.view]; simp [JinjaDefinitions.view, s0]
      obtain ⟨s2, hr2, h1, h2⟩ := step s1 (Runs.cons h0 hr1) ⟨hs1.addId, by rw [hs1.close]; rfl⟩
        (fun n h => by rw [hs1.seen] at h; exact Or.inl h)
      refine ⟨s2, hr2, ?_, ?_⟩
      · rw [h1, hv1]; simp [rawItems]
      · rw [h2, hv1]; simp [closedItems]
    | closing e =>
      cases hst : s.view.stack with
      | nil =>
        obtain ⟨s1, hr1, hv1, hs1, hi1⟩ := runs_end_empty e s hi.addId hst
        obtain ⟨s2, hr2, h1, h2⟩ := step s1 hr1 hi1 (fun n h => by rw [hs1] at h; exact Or.inl h)
        refine ⟨s2, hr2, ?_, ?_⟩
        · rw [h1, hv1, hst]; simp [rawItems]
        · rw [h2, hv1, hst]; simp [closedItems]
      | cons n st =>
        obtain ⟨s1, hr1, hv1, hs1, hi1⟩ := runs_end e.d e.kw e.ts s hi.addId s.view.defs n st s.view.closed (by rw [← hst])
        obtain ⟨s2, hr2, h1, h2⟩ := step s1 hr1 hi1 (fun n h => by rw [hs1] at h; exact Or.inl h)
        refine ⟨s2, hr2, ?_, ?_⟩
        · rw [h1, hv1]; simp [rawItems]
        · rw [h2, hv1]; simp [closedItems, EndTag.start]

/-- lookups that ignore ids absent from a prefix -/
theorem lookupEnd_append {cl0 cl : List (Nat × Point)} (last : Point) {n : Nat} (h : n ∉ cl0.map Prod.fst) :
    lookupEnd (cl0 ++ cl) last n = lookupEnd cl last n := by
  induction cl0 with
  | nil => rfl
  | cons a l ih =>
    simp only [List.map_cons, List.mem_cons, not_or] at h
    have := ih h.2
    unfold lookupEnd at this ⊢
    rw [List.cons_append, List.find?_cons]
    have hne : decide (a.1 = n) = false := by simp; exact fun e => h.1 e.symm
    rw [hne]; exact this

theorem closedItems_mem : ∀ (is : List Item) (st : List Nat) (e : Nat × Point), e ∈ closedItems st is →
    e.1 ∈ st ∨ e.1 ∈ is.flatMap Item.nodes
  | [], _, _, h => by simp [closedItems] at h
  | .leaf l :: r, st, e, h => by
    rcases closedItems_mem r st e h with h | h
    · exact Or.inl h
    · right; simp only [List.flatMap_cons, List.mem_append]; exact Or.inr h
  | .opening d hd :: r, st, e, h => by
    rcases closedItems_mem r _ e h with h | h
    · rcases List.mem_cons.mp h with h | h
      · right; simp [Item.nodes, h]
      · exact Or.inl h
    · right; simp only [List.flatMap_cons, List.mem_append]; exact Or.inr h
  | .inline kw ts :: r, st, e, h => by
    rcases closedItems_mem r _ e h with h | h
    · rcases List.mem_cons.mp h with h | h
      · right; simp [Item.nodes, h]
      · exact Or.inl h
    · right; simp only [List.flatMap_cons, List.mem_append]; exact Or.inr h
  | .closing c :: r, [], e, h => by
    rcases closedItems_mem r _ e h with h | h
    · cases h
    · right; simp only [List.flatMap_cons, List.mem_append]; exact Or.inr h
  | .closing c :: r, n :: st, e, h => by
    simp only [closedItems, List.mem_cons] at h
    rcases h with h | h
    · subst h; left; simp
    · rcases closedItems_mem r _ e h with h | h
      · left; simp [h]
      · right; simp only [List.flatMap_cons, List.mem_append]; exact Or.inr h

/-- the recorded end of an open scope is the one of bracket matching -/
theorem lookup_closedItems (last : Point) : ∀ (is : List Item) (st : List Nat) (k n : Nat),
    (st ++ is.flatMap Item.nodes).Nodup → st[k]? = some n →
    lookupEnd (closedItems st is) last n = (matchEnd k is).getD last
  | [], st, k, n, _, _ => by simp [closedItems, matchEnd, lookupEnd]
  | .leaf l :: r, st, k, n, hnd, hk => by
    refine lookup_closedItems last r st k n ?_ hk
    simp only [List.flatMap_cons] at hnd
    rw [List.nodup_append] at hnd ⊢
    refine ⟨hnd.1, (List.nodup_append.mp hnd.2.1).2.1, fun a ha b hb => hnd.2.2 a ha b (List.mem_append.mpr (Or.inr hb))⟩
  | .opening d h :: r, st, k, n, hnd, hk => by
    refine lookup_closedItems last r (h.kw.node :: st) (k + 1) n ?_ (by simpa using hk)
    simp only [List.flatMap_cons, Item.nodes] at hnd
    exact (List.perm_middle.nodup_iff).mp hnd
  | .inline kw ts :: r, st, k, n, hnd, hk => by
    refine lookup_closedItems last r (kw.node :: st) (k + 1) n ?_ (by simpa using hk)
    simp only [List.flatMap_cons, Item.nodes] at hnd
    exact (List.perm_middle.nodup_iff).mp hnd
  | .closing e :: r, [], k, n, hnd, hk => by simp at hk
  | .closing e :: r, m :: st, 0, n, hnd, hk => by
    simp at hk; subst hk
    simp [closedItems, matchEnd, lookupEnd]
  | .closing e :: r, m :: st, k + 1, n, hnd, hk => by
    simp only [List.getElem?_cons_succ] at hk
    simp only [List.flatMap_cons, Item.nodes, List.nil_append, List.cons_append, List.nodup_cons] at hnd
    have hne : n ≠ m := by
      rintro rfl
      exact hnd.1 (List.mem_append.mpr (Or.inl (List.mem_of_getElem? hk)))
    have := lookupEnd_append (cl0 := [(m, e.start)]) (cl := closedItems st r) last (n := n) (by simpa using hne)
    simp only [closedItems, matchEnd]
    exact this.trans (lookup_closedItems last r st k n hnd.2 hk)

/-- the scope recorded for an opening tag, as bindings -/
theorem resolve_head (L : Nat → Point) (cur : Nat) (h : Head) :
    (headDefs cur h).flatMap (resolve L) = h.bindings (L h.kw.node) (L cur) := by
  cases h <;> simp [headDefs, resolve, Head.bindings, tokIdent, Tok.bind, Head.kw]

theorem resolve_items (last : Point) : ∀ (is : List Item) (st : List Nat) (cl0 : List (Nat × Point)),
    (st ++ is.flatMap Item.nodes).Nodup → 0 ∉ cl0.map Prod.fst → 0 ∉ st → 0 ∉ is.flatMap Item.nodes →
    (∀ n ∈ st ++ is.flatMap Item.nodes, n ∉ cl0.map Prod.fst) →
    (rawItems st is).flatMap (resolve (lookupEnd (cl0 ++ closedItems st is) last)) = Items.bindings last st.length is
  | [], _, _, _, _, _, _, _ => rfl
  | i :: r, st, cl0, hnd, h00, h0s, h0n, hcl => by
    simp only [List.flatMap_cons, List.mem_append, not_or] at hnd h0n hcl
    have hnd' : (st ++ r.flatMap Item.nodes).Nodup := by
      rw [List.nodup_append] at hnd ⊢
      exact ⟨hnd.1, (List.nodup_append.mp hnd.2.1).2.1,
        fun a ha b hb => hnd.2.2 a ha b (List.mem_append.mpr (Or.inr hb))⟩
    have hcl' : ∀ n ∈ st ++ r.flatMap Item.nodes, n ∉ cl0.map Prod.fst := fun n hn => hcl n (by
      rcases List.mem_append.mp hn with h | h
      · exact Or.inl h
      · exact Or.inr (Or.inr h))
    -- the scope around the item
    have hcur : ∀ (st' : List Nat) (is : List Item) (j : Nat),
        (st' ++ is.flatMap Item.nodes).Nodup → (∀ n ∈ st' ++ is.flatMap Item.nodes, n ∉ cl0.map Prod.fst) →
        (0 ∉ st') → (0 ∉ is.flatMap Item.nodes) → j = st'.length - st.length → st'.drop j = st → j ≤ st'.length →
        lookupEnd (cl0 ++ closedItems st' is) last (st.headD 0) =
          if st.length = 0 then last else (matchEnd j is).getD last := by
      intro st' is j hnd1 hcl1 hz1 hz2 _ hdrop _
      cases hst : st with
      | nil =>
        simp only [List.headD_nil, List.length_nil, if_true]
        apply lookupEnd_not_mem
        simp only [List.map_append, List.mem_append, not_or]
        refine ⟨h00, ?_⟩
        intro h
        obtain ⟨e, he, e0⟩ := List.mem_map.mp h
        rcases closedItems_mem is st' e he with h | h
        · exact hz1 (e0 ▸ h)
        · exact hz2 (e0 ▸ h)
      | cons m st2 =>
        simp only [List.headD_cons, List.length_cons, Nat.add_one_ne_zero, if_false]
        have hmem : st'[j]? = some m := by
          have : (st'.drop j)[0]? = some m := by rw [hdrop, hst]; rfl
          simpa using this
        rw [lookupEnd_append last (hcl1 m (List.mem_append.mpr (Or.inl (List.mem_of_getElem? hmem))))]
        exact lookup_closedItems last is st' j m hnd1 hmem
    cases i with
    | leaf l =>
      have ih := resolve_items last r st cl0 hnd' h00 h0s h0n.2 hcl'
      simp only [rawItems, closedItems, List.flatMap_append, ih]
      cases l with
      | expr ts => rfl
      | stmt d ts => rfl
      | set d kw target ts =>
        have := hcur st r 0 hnd' hcl' h0s h0n.2 (by simp) (by simp) (by simp)
        simp only [leafDefs, resolve, List.flatMap_cons, List.flatMap_nil, tokIdent, this]
        simp [Items.bindings, Tok.bind]
    | opening d h =>
      simp only [Item.nodes] at hnd h0n hcl
      have hnd1 : ((h.kw.node :: st) ++ r.flatMap Item.nodes).Nodup := (List.perm_middle.nodup_iff).mp hnd
      have hcl1 : ∀ n ∈ (h.kw.node :: st) ++ r.flatMap Item.nodes, n ∉ cl0.map Prod.fst := by
        intro n hn
        simp only [List.cons_append, List.mem_cons, List.mem_append] at hn
        refine hcl n ?_
        rcases hn with h | h | h
        · exact Or.inr (Or.inl (by simp [h]))
        · exact Or.inl h
        · exact Or.inr (Or.inr h)
      have h0s1 : 0 ∉ h.kw.node :: st := by
        intro h'
        rcases List.mem_cons.mp h' with h' | h'
        · exact h0n.1 (by simp [h'])
        · exact h0s h'
      have ih := resolve_items last r (h.kw.node :: st) cl0 hnd1 h00 h0s1 h0n.2 hcl1
      simp only [rawItems, closedItems, List.flatMap_append, ih, resolve_head]
      have hout := hcur (h.kw.node :: st) r 1 hnd1 hcl1 h0s1 h0n.2 (by simp) (by simp) (by simp)
      have hin : lookupEnd (cl0 ++ closedItems (h.kw.node :: st) r) last h.kw.node = (matchEnd 0 r).getD last := by
        rw [lookupEnd_append last (hcl1 _ (by simp))]
        exact lookup_closedItems last r _ 0 _ hnd1 rfl
      rw [hout, hin]
      simp [Items.bindings]
    | inline kw ts =>
      simp only [Item.nodes] at hnd h0n hcl
      have hnd1 : ((kw.node :: st) ++ r.flatMap Item.nodes).Nodup := (List.perm_middle.nodup_iff).mp hnd
      have hcl1 : ∀ n ∈ (kw.node :: st) ++ r.flatMap Item.nodes, n ∉ cl0.map Prod.fst := by
        intro n hn
        simp only [List.cons_append, List.mem_cons, List.mem_append] at hn
        refine hcl n ?_
        rcases hn with h | h | h
        · exact Or.inr (Or.inl (by simp [h]))
        · exact Or.inl h
        · exact Or.inr (Or.inr h)
      have h0s1 : 0 ∉ kw.node :: st := by
        intro h'
        rcases List.mem_cons.mp h' with h' | h'
        · exact h0n.1 (by simp [h'])
        · exact h0s h'
      have ih := resolve_items last r (kw.node :: st) cl0 hnd1 h00 h0s1 h0n.2 hcl1
      simp only [rawItems, closedItems, ih]
      simp [Items.bindings]
    | closing e =>
      cases st with
      | nil =>
        have ih := resolve_items last r [] cl0 hnd' h00 h0s h0n.2 hcl'
        simpa [rawItems, closedItems, Items.bindings] using ih
      | cons m st =>
        simp only [List.cons_append, List.nodup_cons] at hnd'
        have ih := resolve_items last r st (cl0 ++ [(m, e.start)]) hnd'.2 (by
            simp only [List.map_append, List.mem_append, not_or]
            refine ⟨h00, ?_⟩
            intro h; simp at h; exact h0s (by simp [h]))
          (fun h => h0s (List.mem_cons_of_mem _ h)) h0n.2 (by
            intro n hn
            simp only [List.map_append, List.mem_append, not_or]
            refine ⟨hcl' n (List.mem_cons_of_mem _ hn), ?_⟩
            intro h; simp at h; subst h; exact hnd'.1 hn)
        simpa [rawItems, closedItems, Items.bindings] using ih

/-! ### Bracket matching over well-nested pieces -/

theorem matchEnd_tpl : ∀ (t : Tpl) (k : Nat) (r : List Item), matchEnd k (t.items ++ r) = matchEnd k r
  | .nil, _, _ => rfl
  | .leaf l rest, k, r => by simp only [Tpl.items, List.cons_append, matchEnd]; exact matchEnd_tpl rest k r
  | .blk d h body de kwEnd te rest, k, r => by
    simp only [Tpl.items, List.cons_append, List.append_assoc, matchEnd]
    rw [matchEnd_tpl body, matchEnd]
    exact matchEnd_tpl rest k r

theorem matchEnd_branches : ∀ (bs : List Branch) (k : Nat) (r : List Item),
    matchEnd k (bs.flatMap Branch.items ++ r) = matchEnd (k + bs.length) r
  | [], _, _ => rfl
  | b :: bs, k, r => by
    simp only [List.flatMap_cons, Branch.items, List.cons_append, List.append_assoc, matchEnd]
    rw [matchEnd_tpl, matchEnd_branches bs]
    simp [Nat.add_comm, Nat.add_left_comm]

/-- a well-nested piece contributes its own bindings -/
theorem bindings_tpl (last : Point) : ∀ (t : Tpl) (depth : Nat) (r : List Item),
    Items.bindings last depth (t.items ++ r) =
      t.bindings (if depth = 0 then last else (matchEnd 0 r).getD last) ++ Items.bindings last depth r
  | .nil, _, _ => rfl
  | .leaf l rest, depth, r => by
    have ih := bindings_tpl last rest depth r
    cases l <;> simp [Tpl.items, Items.bindings, Tpl.bindings, ih, matchEnd_tpl]
  | .blk d h body de kwEnd te rest, depth, r => by
    have ih1 := bindings_tpl last body (depth + 1) (.closing ⟨kwEnd, te, de⟩ :: (rest.items ++ r))
    have ih2 := bindings_tpl last rest depth r
    simp only [Tpl.items, List.cons_append, List.append_assoc, Items.bindings, ih1, matchEnd_tpl, matchEnd, Tpl.bindings,
      Nat.add_one_ne_zero, if_false, Option.getD_some, Nat.add_sub_cancel, ih2, EndTag.start]

theorem items_caps : ∀ (t : Tpl), t.items.flatMap Item.caps = t.caps
  | .nil => rfl
  | .leaf l rest => by simp [Tpl.items, Item.caps, Tpl.caps, items_caps rest]
  | .blk d h body de kwEnd te rest => by
    simp [Tpl.items, Item.caps, Tpl.caps, items_caps rest, items_caps body, EndTag.caps]

theorem items_nodes : ∀ (t : Tpl), t.items.flatMap Item.nodes = t.nodes
  | .nil => rfl
  | .leaf l rest => by simp [Tpl.items, Item.nodes, Tpl.nodes, items_nodes rest]
  | .blk d h body de kwEnd te rest => by
    simp [Tpl.items, Item.nodes, Tpl.nodes, items_nodes rest, items_nodes body]

theorem items_ok : ∀ (t : Tpl), t.Ok → ∀ i ∈ t.items, i.Ok
  | .nil, _, _, h => by cases h
  | .leaf l rest, ho, i, h => by
    rcases List.mem_cons.mp h with rfl | h
    · exact ho.1
    · exact items_ok rest ho.2 i h
  | .blk d hd body de kwEnd te rest, ho, i, h => by
    simp only [Tpl.items, List.mem_cons, List.mem_append] at h
    rcases h with rfl | h | rfl | h
    · exact ho.1
    · exact items_ok body ho.2.1 i h
    · exact trivial
    · exact items_ok rest ho.2.2 i h

end JinjaDefinitions
end JinjaLsp
