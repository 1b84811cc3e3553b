import Verif.Props.Pieces
/-
  C135: putting a block around a part of a template.
-/

namespace JinjaLsp
open Spec

namespace Spec

/-- The template with the block `o … e` around the part `seg`. -/
def Items.around (d : Delims) (h : Head) (seg : List Item) (e : EndTag) (post : List Item) : List Item :=
  .opening d h :: (seg ++ .closing e :: post)

/-- the block does not bind the name, or behind the place only -/
def Head.Spares (d : Delims) (h : Head) (n : Str) (q : Point) : Prop :=
  ∀ t ∈ (Item.opening d h).heads ++ (Item.opening d h).block, t.text = n → q < t.start ∧ q < t.stop

/-- The place lies before the end of the block and everything that ends behind it. -/
structure Items.Inside (q : Point) (e : EndTag) (post : List Item) (last last' : Point) : Prop where
  tag : q < e.start
  closes : ∀ c, .closing c ∈ post → q < c.start
  file : q < last ∧ q < last'

/-- The place lies behind the block: its end tag, and the end tags in it, are in front. -/
def Items.Past (q : Point) (seg : List Item) (e : EndTag) : Prop := Items.InFront q (seg ++ [.closing e])

end Spec

/-- what a block binds -/
theorem head_bindings_tok {d : Delims} {h : Head} {i o : Point} {b : Binding} (hb : b ∈ h.bindings i o) :
    (∃ t ∈ (Item.opening d h).heads ++ (Item.opening d h).block, b.start = t.start ∧ b.stop = t.stop ∧ b.name = t.text) ∧
      (b.visibleTo = i ∨ b.name ∈ Items.leaves 0 [.opening d h]) := by
  cases h <;> simp only [Head.bindings, List.mem_cons, List.mem_map, List.not_mem_nil, or_false] at hb
  · subst hb; exact ⟨⟨_, by simp [Item.heads], rfl, rfl, rfl⟩, .inl rfl⟩
  · obtain ⟨t, ht, rfl⟩ := hb
    exact ⟨⟨t, by simp [Item.heads, ht], rfl, rfl, rfl⟩, .inl rfl⟩
  · rcases hb with rfl | ⟨t, ht, rfl⟩
    · exact ⟨⟨_, by simp [Item.heads], rfl, rfl, rfl⟩, .inr (by simp [Items.leaves, Tok.bind])⟩
    · exact ⟨⟨t, by simp [Item.heads, ht], rfl, rfl, rfl⟩, .inl rfl⟩
  · subst hb; exact ⟨⟨_, by simp [Item.block], rfl, rfl, rfl⟩, .inl rfl⟩

/-- the bindings of a part, one level deeper, are the same but for the ends of the scopes that end behind it -/
theorem bindings_inside {R : Point → Point → Prop} {last last' : Point} {x x' : List Item} (same : ∀ p, R p p)
    (hx : ∀ k, R ((matchEnd k x).getD last) ((matchEnd k x').getD last')) (h0 : ∀ k, R last ((matchEnd k x').getD last')) (j : Nat) :
    ∀ {is : List Item} {k : Nat}, Items.level k is = some 0 →
    ∃ old old', Items.bindings last (k + j) (is ++ x) = old ++ Items.bindings last j x ∧
      Items.bindings last' (k + j + 1) (is ++ x') = old' ++ Items.bindings last' (j + 1) x' ∧ Zip (Binding.SameBut R) old old' := by
  have hm : ∀ (r : List Item) (m : Nat), R ((matchEnd m (r ++ x)).getD last) ((matchEnd m (r ++ x')).getD last') := by
    intro r m
    rcases matchEnd_before x r m with ⟨p, h⟩ | ⟨j, h⟩
    · rw [h, h]; exact same p
    · rw [h, h]; exact hx j
  have hd : ∀ (r : List Item) (k m : Nat), (k = 0 → Items.level m r = some 0) →
      R (if k + j = 0 then last else (matchEnd m (r ++ x)).getD last) ((matchEnd m (r ++ x')).getD last') := by
    intro r k m h
    split
    · rw [level_matchEnd (h (by omega)) x']; exact h0 0
    · exact hm r m
  intro is
  induction is with
  | nil =>
    intro k h
    cases h
    exact ⟨[], [], by simp, by simp, .nil⟩
  | cons i r ih =>
    intro k h
    cases i with
    | leaf l =>
      obtain ⟨old, old', h1, h2, h3⟩ := ih (k := k) h
      cases l with
      | set dl kw t ts =>
        refine ⟨t.bind .setVariable (if k + j = 0 then last else (matchEnd 0 (r ++ x)).getD last) :: old,
          t.bind .setVariable ((matchEnd 0 (r ++ x')).getD last') :: old', ?_, ?_,
          .cons ⟨rfl, rfl, rfl, rfl, hd r k 0 (fun e => e ▸ h)⟩ h3⟩
        · simp only [List.cons_append, Items.bindings, h1]
        · simp only [List.cons_append, Items.bindings, h2, Nat.add_one_ne_zero, if_false]
      | expr ts => exact ⟨old, old', h1, h2, h3⟩
      | stmt dl ts => exact ⟨old, old', h1, h2, h3⟩
    | opening dl g =>
      obtain ⟨old, old', h1, h2, h3⟩ := ih (k := k + 1) h
      have e1 : k + j + 1 = k + 1 + j := by omega
      refine ⟨_ ++ old, _ ++ old', ?_, ?_, zip_append (head_bindings_same (h := g) (hm r 0) (hd r k 1 (fun e => by subst e; exact h))) h3⟩
      · simp only [List.cons_append, Items.bindings, List.append_assoc]
        rw [e1, h1]
      · simp only [List.cons_append, Items.bindings, List.append_assoc, Nat.add_one_ne_zero, if_false]
        rw [e1, h2]
    | inline kw ts =>
      obtain ⟨old, old', h1, h2, h3⟩ := ih (k := k + 1) h
      have e1 : k + j + 1 = k + 1 + j := by omega
      refine ⟨old, old', ?_, ?_, h3⟩
      · simp only [List.cons_append, Items.bindings]
        rw [e1, h1]
      · simp only [List.cons_append, Items.bindings]
        rw [e1, h2]
    | closing e =>
      cases k with
      | zero => cases h
      | succ k =>
        obtain ⟨old, old', h1, h2, h3⟩ := ih (k := k) h
        refine ⟨old, old', ?_, ?_, h3⟩
        · simp only [List.cons_append, Items.bindings]
          rw [show k + 1 + j - 1 = k + j by omega, h1]
        · simp only [List.cons_append, Items.bindings]
          rw [show k + 1 + j + 1 - 1 = k + j + 1 by omega, h2]

/-- a block around a part does not matter: before its end but for the names it binds, behind it but for the names the part leaves behind -/
theorem concur_wrapped {n : Str} {q1 q2 last last' : Point} {pre seg post : List Item} {d : Delims} {h : Head} {e : EndTag}
    (hl : last' = last ∨ q2 < last ∧ q2 < last') (hc : Items.Complete seg)
    (hb : Items.Inside q2 e post last last' ∧ h.Spares d n q2 ∨
      Items.Past q1 seg e ∧ n ∉ Items.leaves 0 seg ∧ n ∉ Items.leaves 0 [.opening d h]) :
    Concur n q1 q2 (Items.bindings last 0 (pre ++ (seg ++ post))) (Items.bindings last' 0 (pre ++ Items.around d h seg e post)) := by
  have hp : ∀ k x, matchEnd k (seg ++ x) = matchEnd k x := fun k x => by
    have := level_add hc k
    rw [Nat.zero_add] at this
    exact level_matchEnd this x
  have hx : ∀ k, BothBehind q2 ((matchEnd k post).getD last) ((matchEnd k post).getD last') := by
    intro k
    cases matchEnd k post with
    | none => exact hl
    | some p => exact .inl rfl
  obtain ⟨old, old', h1, h2, h3⟩ := bindings_before (R := BothBehind q2) (last := last) (last' := last') (x := seg ++ post)
    (x' := Items.around d h seg e post) (fun _ => .inl rfl) hl (fun k => by
      unfold Items.around
      simp only [matchEnd, hp]
      exact hx k) pre 0
  obtain ⟨end_, end', h6, h7, h8⟩ := bindings_before (R := BothBehind q2) (last := last) (last' := last') (x := []) (x' := [])
    (fun _ => .inl rfl) hl (fun _ => hl) post (Items.after 0 pre)
  simp only [List.append_nil, Items.bindings] at h6 h7
  obtain ⟨k1, k2⟩ := zip_mem h3
  obtain ⟨k3, k4⟩ := zip_mem h8
  obtain ⟨new, m1, m2⟩ := bindings_piece last post (Items.after 0 pre) (is := seg) (k := 0) hc
  obtain ⟨new', m3, m4⟩ := bindings_piece last' (.closing e :: post) (Items.after 0 pre + 1) (is := seg) (k := 0) hc
  rw [Nat.zero_add] at m1 m3
  simp only [Items.bindings, Nat.add_sub_cancel] at m3
  have key : (∀ b ∈ new, b.Away n q1 q2 ∨ ∃ b' ∈ new', b.SameBut (BothBehind q2) b') ∧
      ∀ b' ∈ new', b'.Away n q1 q2 ∨ ∃ b ∈ new, b.SameBut (BothBehind q2) b' := by
    rcases hb with ⟨hb, _⟩ | ⟨hb, hn, _⟩
    · have behind : ∀ k l, (q2 < l) → q2 < (matchEnd k post).getD l := by
        intro k l hl
        rcases hm : matchEnd k post with _ | p
        · exact hl
        · obtain ⟨c, hc, rfl⟩ := matchEnd_closing hm
          exact hb.closes c hc
      have behind' : ∀ k, q2 < (matchEnd k (.closing e :: post)).getD last' := by
        intro k
        cases k with
        | zero => exact hb.tag
        | succ k => exact behind k last' hb.file.2
      obtain ⟨a, a', n1, n2, n3⟩ := bindings_inside (R := BothBehind q2) (last := last) (last' := last') (x := post) (x' := .closing e :: post)
        (fun _ => .inl rfl) (fun k => .inr ⟨behind k last hb.file.1, behind' k⟩) (fun k => .inr ⟨hb.file.1, behind' k⟩) (Items.after 0 pre) (is := seg)
        (k := 0) hc
      rw [Nat.zero_add] at n1 n2
      simp only [Items.bindings, Nat.add_sub_cancel] at n2
      have e1 : new = a := List.append_cancel_right (m1.symm.trans n1)
      have e2 : new' = a' := List.append_cancel_right (m3.symm.trans n2)
      subst e1 e2
      obtain ⟨z1, z2⟩ := zip_mem n3
      exact ⟨fun b hb => .inr (z1 b hb), fun b hb => .inr (z2 b hb)⟩
    · have away : ∀ b, OfPiece 0 seg b → b.Away n q1 q2 := by
        rintro b ⟨_, ⟨c, hc, h9⟩ | h9⟩
        · obtain ⟨h10, h11⟩ := hb c (List.mem_append_left _ hc)
          exact .inr (.inr ⟨h9 ▸ h10, h9 ▸ h11⟩)
        · exact .inl fun e => hn (e ▸ h9)
      exact ⟨fun b h => .inl (away b (m2 b h)), fun b h => .inl (away b (m4 b h))⟩
  have own : ∀ b ∈ h.bindings ((matchEnd 0 (seg ++ .closing e :: post)).getD last')
      (if Items.after 0 pre = 0 then last' else (matchEnd 1 (seg ++ .closing e :: post)).getD last'), b.Away n q1 q2 := by
    intro b hm
    obtain ⟨⟨t, ht, e1, e2, e3⟩, h9⟩ := head_bindings_tok (d := d) hm
    rcases hb with ⟨_, hn⟩ | ⟨hb, _, hn⟩
    · by_cases e : t.text = n
      · exact .inr (.inl ⟨e1 ▸ (hn t ht e).1, e2 ▸ (hn t ht e).2⟩)
      · exact .inl fun h => e (e3.symm.trans h)
    · rcases h9 with h9 | h9
      · rw [hp] at h9
        obtain ⟨h10, h11⟩ := hb e (List.mem_append_right _ (List.mem_singleton.mpr rfl))
        have h9 : b.visibleTo = e.start := h9
        exact .inr (.inr ⟨h9 ▸ h10, h9 ▸ h11⟩)
      · exact .inl fun e => hn (e ▸ h9)
  rw [h1, h2, m1, h6]
  unfold Items.around
  simp only [Items.bindings]
  rw [m3, h7]
  refine ⟨fun b hm => ?_, fun b hm => ?_⟩
  · rcases List.mem_append.mp hm with hm | hm
    · obtain ⟨b', h9, h10⟩ := k1 b hm
      exact .inr ⟨b', List.mem_append_left _ h9, h10⟩
    rcases List.mem_append.mp hm with hm | hm
    · rcases key.1 b hm with h9 | ⟨b', h9, h10⟩
      · exact .inl h9
      · exact .inr ⟨b', List.mem_append_right _ (List.mem_append_right _ (List.mem_append_left _ h9)), h10⟩
    · obtain ⟨b', h9, h10⟩ := k3 b hm
      exact .inr ⟨b', List.mem_append_right _ (List.mem_append_right _ (List.mem_append_right _ h9)), h10⟩
  · rcases List.mem_append.mp hm with hm | hm
    · obtain ⟨b', h9, h10⟩ := k2 b hm
      exact .inr ⟨b', List.mem_append_left _ h9, h10⟩
    rcases List.mem_append.mp hm with hm | hm
    · exact .inl (own b hm)
    rcases List.mem_append.mp hm with hm | hm
    · rcases key.2 b hm with h9 | ⟨b', h9, h10⟩
      · exact .inl h9
      · exact .inr ⟨b', List.mem_append_right _ (List.mem_append_left _ h9), h10⟩
    · obtain ⟨b', h9, h10⟩ := k4 b hm
      exact .inr ⟨b', List.mem_append_right _ (List.mem_append_right _ h9), h10⟩

/-! ## C135 -/

/-- **C135** (outline) A block around a part of a template adds entries for what the block binds to the outline, the others stay as they are. -/
theorem C135_outline_partial (env e : Env) (w w' : World) (s t : Server) (uri uri' text text' : Str) (tree tree' : Tree) (pre seg post : List Item)
    (d : Delims) (hd : Head) (c : EndTag) (hc : Items.Complete seg)
    (h : Spec.Analysed env s.files uri text tree (pre ++ (seg ++ post)))
    (h' : Spec.Analysed env t.files uri' text' tree' (pre ++ Items.around d hd seg c post)) :
    ∃ before new after, s.handle e w (.documentSymbol uri) = .ok (s, [], .symbols (some (before ++ after))) ∧
      t.handle e w' (.documentSymbol uri') = .ok (t, [], .symbols (some (before ++ (new ++ after)))) ∧
      ∀ n, n ∈ new.map (·.name) ↔ ∃ t ∈ (Item.opening d hd).heads ++ (Item.opening d hd).block, t.text = n := by
  obtain ⟨old, old', h1, h2, h3⟩ := bindings_before (R := fun _ _ => True) (last := env.rootEnd tree) (last' := env.rootEnd tree') (x := seg ++ post)
    (x' := Items.around d hd seg c post) (fun _ => trivial) trivial (fun _ => trivial) pre 0
  obtain ⟨a, a', n1, n2, n3⟩ := bindings_inside (R := fun _ _ => True) (last := env.rootEnd tree) (last' := env.rootEnd tree') (x := post)
    (x' := .closing c :: post) (fun _ => trivial) (fun _ => trivial) (fun _ => trivial) (Items.after 0 pre) (is := seg) (k := 0) hc
  obtain ⟨tail, tail', h6, h7, h8⟩ := bindings_before (R := fun _ _ => True) (last := env.rootEnd tree) (last' := env.rootEnd tree') (x := []) (x' := [])
    (fun _ => trivial) trivial (fun _ => trivial) post (Items.after 0 pre)
  simp only [List.append_nil, Items.bindings] at h6 h7
  rw [Nat.zero_add] at n1 n2
  simp only [Items.bindings, Nat.add_sub_cancel] at n2
  rw [n1, h6] at h1
  unfold Items.around at h2 h'
  simp only [Items.bindings] at h2
  rw [n2, h7] at h2
  refine ⟨_, _, _, by rw [outline_analysed h, h1, List.map_append], by
    rw [outline_analysed h', h2, List.map_append, List.map_append, outline_same h3, outline_same (zip_append n3 h8)], ?_⟩
  intro n
  rw [List.map_map]
  cases hd <;> simp [Head.bindings, Item.heads, Item.block, Tok.bind, eq_comm]

/-- **C135** (reports) A block can be put around a part of a template, or removed: a use of a name in front of the end of the block is reported
exactly if it was, unless the block binds that name in front of it; a use behind the block, unless the part leaves that name behind (or the block
is the macro of that name).  Missing: parts with `else`, `elif` or an inline `if`, see below. -/
theorem C135_reports_partial (env : Env) (sx : Syntax) (w w' : World) (s s' t t' : Server) (uri uri' text text' : Str)
    (tree tree' : Tree) (out out' : List Send) (es es' : List Elem) (pre seg post : List Item) (d : Delims) (hd : Head) (c : EndTag)
    (hk : (sx.root tree text).kind = .other) (hk' : (sx.root tree' text').kind = .other)
    (hs : WellFormed (sx.root tree text)) (hs' : WellFormed (sx.root tree' text'))
    (ht : Tags sx.digit (sx.root tree text).children (pre ++ (seg ++ post)))
    (ht' : Tags sx.digit (sx.root tree' text').children (pre ++ Items.around d hd seg c post))
    (hr : ReadsTree sx.digit (sx.root tree text) es) (hw : Elems.Wf es) (hr' : ReadsTree sx.digit (sx.root tree' text') es') (hw' : Elems.Wf es')
    (h : Analysed (env.over sx) w s uri text tree s' out) (h' : Analysed (env.over sx) w' t uri' text' tree' t' out')
    (hi : s.files.ignoreGlobals = false) (hi' : t.files.ignoreGlobals = false)
    (u : Use) (hu : .use u ∈ es) (hu' : .use u ∈ es') (hc : Items.Complete seg)
    (he : env.rootEnd tree' = env.rootEnd tree ∨ u.root.stop < env.rootEnd tree ∧ u.root.stop < env.rootEnd tree')
    (hb : Items.Inside u.root.stop c post (env.rootEnd tree) (env.rootEnd tree') ∧ hd.Spares d u.root.text u.root.stop ∨
      Items.Past u.root.start seg c ∧ u.root.text ∉ Items.leaves 0 seg ∧ u.root.text ∉ Items.leaves 0 [.opening d hd]) :
    Reported uri out u.root ↔ Reported uri' out' u.root :=
  reported_concurs hk hs ht hr hw hi h hk' hs' ht' hr' hw' hi' h' hu hu' (concur_wrapped he hc hb)

/-- **C135** (goto-definition) … goto-definition leads to the same place. -/
theorem C135_goto_partial (env : Env) (sx : Syntax) (w w' : World) (s t : Server) (uri uri' text text' : Str)
    (tree tree' : Tree) (es es' : List Elem) (pre seg post : List Item) (d : Delims) (hd : Head) (c : EndTag)
    (hx : fileExt uri = some .template) (hx' : fileExt uri' = some .template)
    (h : Spec.Analysed env s.files uri text tree (pre ++ (seg ++ post)))
    (h' : Spec.Analysed env t.files uri' text' tree' (pre ++ Items.around d hd seg c post))
    (hs : WellFormed (sx.root tree text)) (hl : Laid (sx.root tree text)) (hr : ReadsTree sx.digit (sx.root tree text) es) (hw : Elems.Wf es)
    (hs' : WellFormed (sx.root tree' text')) (hl' : Laid (sx.root tree' text')) (hr' : ReadsTree sx.digit (sx.root tree' text') es') (hw' : Elems.Wf es')
    (u : Use) (hu : .use u ∈ es) (hu' : .use u ∈ es') (hc : Items.Complete seg)
    (he : env.rootEnd tree' = env.rootEnd tree ∨ u.root.stop < env.rootEnd tree ∧ u.root.stop < env.rootEnd tree')
    (hb : Items.Inside u.root.stop c post (env.rootEnd tree) (env.rootEnd tree') ∧ hd.Spares d u.root.text u.root.stop ∨
      Items.Past u.root.start seg c ∧ u.root.text ∉ Items.leaves 0 seg ∧ u.root.text ∉ Items.leaves 0 [.opening d hd])
    (pos : Position) (h1 : u.root.start ≤ toPoint pos) (h2 : toPoint pos < u.root.stop)
    (hf : ∀ b ∈ Items.bindings (env.rootEnd tree) 0 (pre ++ (seg ++ post)), Short b)
    (hf' : ∀ b ∈ Items.bindings (env.rootEnd tree') 0 (pre ++ Items.around d hd seg c post), Short b)
    (ha : StartsApart (Items.bindings (env.rootEnd tree) 0 (pre ++ (seg ++ post))))
    (hex : ∃ b ∈ Items.bindings (env.rootEnd tree) 0 (pre ++ (seg ++ post)), Reaches u.root.text (toPoint pos) b) :
    ∃ b ∈ Items.bindings (env.rootEnd tree) 0 (pre ++ (seg ++ post)), Reaches u.root.text (toPoint pos) b ∧
      (∀ b' ∈ Items.bindings (env.rootEnd tree) 0 (pre ++ (seg ++ post)), Reaches u.root.text (toPoint pos) b' → b'.start ≤ b.start) ∧
      s.handle (env.over sx) w (.goto uri pos) = .ok (s, [], .goto (some (.scalar
        ⟨uri, ⟨⟨b.start.row, b.start.column⟩, ⟨b.stop.row, b.stop.column⟩⟩⟩))) ∧
      t.handle (env.over sx) w' (.goto uri' pos) = .ok (t, [], .goto (some (.scalar
        ⟨uri', ⟨⟨b.start.row, b.start.column⟩, ⟨b.stop.row, b.stop.column⟩⟩⟩))) :=
  goto_concurs hx hx' h h' hs hl hr hw hs' hl' hr' hw' hu hu' h1 h2 hf hf' ha (concur_wrapped he hc hb) hex

/-- **C135** (hover) … hovering a variable shows the same kind. -/
theorem C135_hover_partial (env : Env) (sx : Syntax) (w w' : World) (s t : Server) (uri uri' text text' : Str)
    (tree tree' : Tree) (es es' : List Elem) (pre seg post : List Item) (d : Delims) (hd : Head) (c : EndTag)
    (hx : fileExt uri = some .template) (hx' : fileExt uri' = some .template)
    (h : Spec.Analysed env s.files uri text tree (pre ++ (seg ++ post)))
    (h' : Spec.Analysed env t.files uri' text' tree' (pre ++ Items.around d hd seg c post))
    (hs : WellFormed (sx.root tree text)) (hl : Laid (sx.root tree text)) (hr : ReadsTree sx.digit (sx.root tree text) es) (hw : Elems.Wf es)
    (hs' : WellFormed (sx.root tree' text')) (hl' : Laid (sx.root tree' text')) (hr' : ReadsTree sx.digit (sx.root tree' text') es') (hw' : Elems.Wf es')
    (u : Use) (hu : .use u ∈ es) (hu' : .use u ∈ es') (hc : Items.Complete seg)
    (he : env.rootEnd tree' = env.rootEnd tree ∨ u.root.stop < env.rootEnd tree ∧ u.root.stop < env.rootEnd tree')
    (hb : Items.Inside u.root.stop c post (env.rootEnd tree) (env.rootEnd tree') ∧ hd.Spares d u.root.text u.root.stop ∨
      Items.Past u.root.start seg c ∧ u.root.text ∉ Items.leaves 0 seg ∧ u.root.text ∉ Items.leaves 0 [.opening d hd])
    (hv : u.mark = .variable) (pos : Position) (h1 : u.root.start ≤ toPoint pos) (h2 : toPoint pos < u.root.stop)
    (ha : StartsApart (Items.bindings (env.rootEnd tree) 0 (pre ++ (seg ++ post))))
    (hex : ∃ b ∈ Items.bindings (env.rootEnd tree) 0 (pre ++ (seg ++ post)), InForce u.root.text u.root.start b) :
    ∃ b ∈ Items.bindings (env.rootEnd tree) 0 (pre ++ (seg ++ post)), InForce u.root.text u.root.start b ∧
      (∀ b' ∈ Items.bindings (env.rootEnd tree) 0 (pre ++ (seg ++ post)), InForce u.root.text u.root.start b' → b'.start ≤ b.start) ∧
      s.handle (env.over sx) w (.hover uri pos) = .ok (s, [], .hover (some (kindText b.kind))) ∧
      t.handle (env.over sx) w' (.hover uri' pos) = .ok (t, [], .hover (some (kindText b.kind))) :=
  hover_concurs hx hx' h h' hs hl hr hw hs' hl' hr' hw' hu hu' hv h1 h2 ha (concur_wrapped he hc hb) hex

/-- **C135** (completion) … and the same names are offered: in front of the end of the block but for those the block binds, behind it but for
those the part leaves behind. -/
theorem C135_offered_partial (env : Env) (sx : Syntax) (w w' : World) (s t : Server) (uri uri' text text' : Str)
    (tree tree' : Tree) (pre seg post : List Item) (d : Delims) (hd : Head) (c : EndTag)
    (pos : Position) (tr : TriggerKind) (htr : Requested tr) (hx : fileExt uri = some .template) (hx' : fileExt uri' = some .template)
    (h : Spec.Analysed env s.files uri text tree (pre ++ (seg ++ post)))
    (h' : Spec.Analysed env t.files uri' text' tree' (pre ++ Items.around d hd seg c post))
    (hr : Regular (sx.root tree text)) (hb : Beside sx.digit (sx.root tree text) (toPoint pos))
    (hp : ∀ k ∈ (sx.root tree text).flat, IsPipe k → ¬ Touches (toPoint pos) k) (hin : ∃ e ∈ (sx.root tree text).flat, Within (toPoint pos) e)
    (hr' : Regular (sx.root tree' text')) (hb' : Beside sx.digit (sx.root tree' text') (toPoint pos))
    (hp' : ∀ k ∈ (sx.root tree' text').flat, IsPipe k → ¬ Touches (toPoint pos) k) (hin' : ∃ e ∈ (sx.root tree' text').flat, Within (toPoint pos) e)
    (hc : Items.Complete seg)
    (he : env.rootEnd tree' = env.rootEnd tree ∨ toPoint pos < env.rootEnd tree ∧ toPoint pos < env.rootEnd tree') :
    ∃ own rest own' rest', s.handle (env.over sx) w (.completion uri pos tr) = .ok (s, [], .completion (some (own ++ rest))) ∧
      t.handle (env.over sx) w' (.completion uri' pos tr) = .ok (t, [], .completion (some (own' ++ rest'))) ∧
      (∀ n, n ∈ rest.map (·.label) ↔ BackendName s.files n) ∧ (∀ n, n ∈ rest'.map (·.label) ↔ BackendName t.files n) ∧
      ∀ n, (Items.Inside (toPoint pos) c post (env.rootEnd tree) (env.rootEnd tree') ∧ hd.Spares d n (toPoint pos) ∨
          Items.Past (toPoint pos) seg c ∧ n ∉ Items.leaves 0 seg ∧ n ∉ Items.leaves 0 [.opening d hd]) →
        (n ∈ own'.map (·.label) ↔ n ∈ own.map (·.label)) :=
  offered_concurs (w := w) (w' := w') htr hx hx' h h' hr hb hp hin hr' hb' hp' hin'
    (fun n => Items.Inside (toPoint pos) c post (env.rootEnd tree) (env.rootEnd tree') ∧ hd.Spares d n (toPoint pos) ∨
      Items.Past (toPoint pos) seg c ∧ n ∉ Items.leaves 0 seg ∧ n ∉ Items.leaves 0 [.opening d hd])
    (fun n hn => concur_wrapped he hc hn)

/-- **C135** is false for a part with `else`: once the loop `{% for x in … %}` is put around `{% if c %}{% else %}{% endif %}`, the report about
`x` behind the loop is gone. -/
theorem C135_else_refuted (env : Env) (sx sx' : Syntax) (w w' : World) (s s' t t' : Server) (m m' : Msg) (uri text text' : Str) (tree tree' : Tree)
    (out out' : List Send) (r r' : Reply) (es es' : List Elem) (ss ss' : List ImpStmt) (d d1 d2 : Delims) (kw kw1 kw2 x y : Tok) (ts us vs : List HTok)
    (e e1 : EndTag)
    (h : Shown env sx w s s' m uri text tree out r (.cond d1 kw1 us (.branch d2 kw2 vs .done) e1 (.out [.name y] [] .done)) es ss)
    (h' : Shown env sx' w' t t' m' uri text' tree' out' r'
      (.loop d kw x [] ts (.cond d1 kw1 us (.branch d2 kw2 vs .done) e1 .done) e (.out [.name y] [] .done)) es' ss')
    (hu : .use ⟨.variable, y, []⟩ ∈ es) (hu' : .use ⟨.variable, y, []⟩ ∈ es') (hn : x.text = y.text) :
    Reported uri out y ∧ Unreported uri out' y := by
  refine ⟨(h.reports hu rfl).2 ?_, (h'.reports hu' rfl).1 ⟨x.bind .forLoopKey (env.rootEnd tree'), .head _, hn, by simp [Tok.bind], ?_, .inl ?_⟩⟩
  · rintro ⟨b, hb, _⟩
    have hb : b ∈ ([] : List Binding) := hb
    cases hb
  · exact Point.le_of_lt (Point.lt_of_lt_of_le (h'.laid.spans x (by simp [Program.toks, tagToks, HTok.tok])) (Point.le_trans
      (h'.laid.head_rest (s := x) (t := y) (by simp [tagToks]) (by simp [Program.toks, HTok.tok]))
      (Point.le_of_lt (h'.laid.spans y (by simp [Program.toks, tagToks, HTok.tok])))))
  · exact Point.lt_of_lt_of_le (h'.laid.spans y (by simp [Program.toks, tagToks, HTok.tok])) (h'.laid.last y (by simp [Program.toks, tagToks, HTok.tok]))

/-! ### Examples -/

local macro "drawn" : term =>
  `(Fix.shown ⟨by decide +kernel, by decide +kernel, by decide +kernel⟩ rfl rfl (by decide +kernel) rfl ⟨by decide +kernel, by decide +kernel, by decide +kernel⟩
    ⟨by decide +kernel, by decide +kernel, by decide +kernel⟩ ⟨_, _, _, rfl, rfl, rfl⟩)

local macro "regular" : term =>
  `((⟨⟨by decide +kernel, by decide +kernel, by decide +kernel⟩, ⟨by decide +kernel, by decide +kernel, by decide +kernel, by decide +kernel⟩,
    by unfold Legible; decide +kernel, by unfold HasError; decide +kernel, by decide +kernel, by decide +kernel, by decide +kernel⟩ : Regular _))

local macro "both" : term =>
  `((⟨regular, regular, Fix.readTags_sound rfl, Fix.readTags_sound rfl, ⟨Fix.plainElems_read rfl, Fix.elems_wf_of (by decide +kernel)⟩,
    ⟨Fix.plainElems_read rfl, Fix.elems_wf_of (by decide +kernel)⟩, Fix.uses_mem (by decide +kernel), Fix.uses_mem (by decide +kernel), _, _, _, _,
    ⟨⟨.didOpen Fix.uriA [], _, .opened _, rfl⟩, by decide, rfl, rfl⟩, ⟨⟨.didOpen Fix.uriA c!"n", _, .opened _, rfl⟩, by decide, rfl, rfl⟩⟩ : Fix.Both _ _ _))

example : Fix.Opens (.cond (Fix.tagOn 1) (Fix.tk 1 1 c!"if") [.name (Fix.tk 1 2 c!"c")] (.branch (Fix.tagOn 2) (Fix.tk 2 1 c!"else") [] .done)
      (Fix.endOn 3 c!"endif") (Fix.outOn 5 c!"x" .done)) [] (Fix.tk 5 1 c!"x") ∧
    Fix.Opens (.loop (Fix.tagOn 0) (Fix.tk 0 1 c!"for") (Fix.tk 0 2 c!"x") [] [.name (Fix.tk 0 5 c!"y")]
      (.cond (Fix.tagOn 1) (Fix.tk 1 1 c!"if") [.name (Fix.tk 1 2 c!"c")] (.branch (Fix.tagOn 2) (Fix.tk 2 1 c!"else") [] .done) (Fix.endOn 3 c!"endif") .done)
      (Fix.endOn 4 c!"endfor") (Fix.outOn 5 c!"x" .done)) [] (Fix.tk 5 1 c!"x") :=
  ⟨⟨drawn, Fix.uses_mem (by decide +kernel)⟩, ⟨drawn, Fix.uses_mem (by decide +kernel)⟩⟩

namespace Fix

/-- ```
{% set b = 1 %}

{% set c = 1 %}
{{ b }} {{ c }} {{ x }}

{{ b }} {{ x }}
``` -/
def looseP : Program :=
  .set (tagOn 0) (tk 0 1 c!"set") (tk 0 2 c!"b") [.eq (tk 0 3 c!"=")]
    (.set (tagOn 2) (tk 2 1 c!"set") (tk 2 2 c!"c") [.eq (tk 2 3 c!"=")]
      (.out [.name (tk 3 1 c!"b"), .name (tk 3 2 c!"c"), .name (tk 3 3 c!"z")] []
        (.out [.name (tk 5 1 c!"b"), .name (tk 5 2 c!"x")] [] .done)))

/-- with `{% for x in b %}` and `{% endfor %}` in the empty lines -/
def loopedP : Program :=
  .set (tagOn 0) (tk 0 1 c!"set") (tk 0 2 c!"b") [.eq (tk 0 3 c!"=")]
    (.loop (tagOn 1) (tk 1 1 c!"for") (tk 1 2 c!"x") [] [.name (tk 1 4 c!"b")]
      (.set (tagOn 2) (tk 2 1 c!"set") (tk 2 2 c!"c") [.eq (tk 2 3 c!"=")]
        (.out [.name (tk 3 1 c!"b"), .name (tk 3 2 c!"c"), .name (tk 3 3 c!"z")] [] .done))
      (endOn 4 c!"endfor") (.out [.name (tk 5 1 c!"b"), .name (tk 5 2 c!"x")] [] .done))

end Fix

/-- the hypotheses of C135 hold: in the loop `c` leads to its `set` and `z` is reported, with or without the loop; so is `x` behind it -/
example : Fix.Both Fix.looseP Fix.loopedP ⟨.variable, Fix.tk 3 2 c!"c", []⟩ ∧ Fix.Both Fix.looseP Fix.loopedP ⟨.variable, Fix.tk 3 3 c!"z", []⟩ ∧
    Fix.Both Fix.looseP Fix.loopedP ⟨.variable, Fix.tk 5 2 c!"x", []⟩ ∧
    ∃ pre seg post d hd c, Fix.looseP.items = pre ++ (seg ++ post) ∧ Fix.loopedP.items = pre ++ Items.around d hd seg c post ∧ seg.length = 2 ∧
      Items.Complete seg ∧ Items.leaves 0 seg = [c!"c"] ∧ Items.leaves 0 [.opening d hd] = [] ∧
      Items.Inside (Fix.tk 3 3 c!"z").stop c post (Fix.envTwo.rootEnd Fix.treeOne) (Fix.envTwo.rootEnd Fix.treeTwo) ∧
      hd.Spares d c!"c" (Fix.tk 3 2 c!"c").stop ∧ hd.Spares d c!"z" (Fix.tk 3 3 c!"z").stop ∧ ¬ hd.Spares d c!"x" (Fix.tk 3 3 c!"z").stop ∧
      Items.Past (Fix.tk 5 2 c!"x").start seg c ∧
      StartsApart (Items.bindings (Fix.envTwo.rootEnd Fix.treeOne) 0 (pre ++ (seg ++ post))) ∧
      (∀ b ∈ Items.bindings (Fix.envTwo.rootEnd Fix.treeOne) 0 (pre ++ (seg ++ post)), Short b) ∧
      (∀ b ∈ Items.bindings (Fix.envTwo.rootEnd Fix.treeTwo) 0 (pre ++ Items.around d hd seg c post), Short b) ∧
      (∃ b ∈ Items.bindings (Fix.envTwo.rootEnd Fix.treeOne) 0 (pre ++ (seg ++ post)), Reaches c!"c" (Fix.tk 3 2 c!"c").start b) ∧
      ∃ b ∈ Items.bindings (Fix.envTwo.rootEnd Fix.treeOne) 0 (pre ++ (seg ++ post)), InForce c!"c" (Fix.tk 3 2 c!"c").start b := by
  refine ⟨both, both, both, [Fix.looseP.items[0]], [Fix.looseP.items[1], Fix.looseP.items[2]], [Fix.looseP.items[3]], Fix.tagOn 1,
    .for_ (Fix.tk 1 1 c!"for") (Fix.tk 1 2 c!"x") [.name (Fix.tk 1 4 c!"b")], Fix.endOn 4 c!"endfor", rfl, rfl, rfl, rfl, rfl, rfl,
    ⟨by decide, ?_, by decide, by decide⟩, by unfold Head.Spares; decide +kernel, by unfold Head.Spares; decide +kernel,
    by unfold Head.Spares; decide +kernel, ?_, by unfold StartsApart; decide +kernel, by unfold Short; decide +kernel, by unfold Short; decide +kernel,
    by unfold Reaches; decide +kernel, by unfold InForce; decide +kernel⟩
  · intro c h
    cases List.mem_singleton.mp h
  · intro e h
    have h : Item.closing e ∈ [Fix.looseP.items[1], Fix.looseP.items[2], .closing (Fix.endOn 4 c!"endfor")] := h
    simp only [List.mem_cons, List.not_mem_nil, or_false] at h
    rcases h with h | h | h
    · cases h
    · cases h
    · cases h; decide

end JinjaLsp
