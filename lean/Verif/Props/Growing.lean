import Verif.Props.Pieces
/-
  C131: tags that end no block of their surroundings take nothing away from the tags around them.
-/

namespace JinjaLsp
open Spec

namespace Spec

/-- where blocks end -/
def Items.ends : List Item → List Point
  | [] => []
  | .closing e :: r => e.start :: Items.ends r
  | .leaf _ :: r => Items.ends r
  | .opening _ _ :: r => Items.ends r
  | .inline _ _ :: r => Items.ends r

/-- the end tags follow one another in the file (and are not at its very beginning) -/
structure Items.Downwards (is : List Item) : Prop where
  sorted : (Items.ends is).Pairwise (· ≤ ·)
  later : ∀ p ∈ Items.ends is, p ≠ ⟨0, 0⟩

/-- no end tag without a tag it ends -/
def Items.NoStray (is : List Item) : Prop := ∃ j, Items.level 0 is = some j

end Spec

/-- behind the place, or not before -/
def Longer (q p p' : Point) : Prop := q < p' ∨ p' = p ∨ p ≠ ⟨0, 0⟩ ∧ p ≤ p'

/-- every binding is still there, and its scope is not shorter -/
def Extends (q : Point) (bs bs' : List Binding) : Prop := ∀ b ∈ bs, ∃ b' ∈ bs', b.SameBut (Longer q) b'

theorem level_append : ∀ {is x : List Item} {k j : Nat}, Items.level k (is ++ x) = some j →
    Items.level k is = some (Items.after k is) ∧ Items.level (Items.after k is) x = some j
  | [], _, _, _, h => ⟨rfl, h⟩
  | .leaf _ :: r, x, k, j, h => level_append (is := r) h
  | .opening _ _ :: r, x, k, j, h => level_append (is := r) h
  | .inline _ _ :: r, x, k, j, h => level_append (is := r) h
  | .closing _ :: r, x, 0, j, h => by cases h
  | .closing _ :: r, x, k + 1, j, h => level_append (is := r) (k := k) h

/-- nothing ends a block from before -/
theorem level_open : ∀ {is : List Item} {k j : Nat}, Items.level k is = some j → ∀ i, k ≤ i → matchEnd i is = none
  | [], _, _, _, _, _ => rfl
  | .leaf _ :: r, k, j, h, i, hi => level_open (is := r) h i hi
  | .opening _ _ :: r, k, j, h, i, hi => level_open (is := r) h (i + 1) (by omega)
  | .inline _ _ :: r, k, j, h, i, hi => level_open (is := r) h (i + 1) (by omega)
  | .closing _ :: r, 0, j, h, i, hi => by cases h
  | .closing _ :: r, k + 1, j, h, 0, hi => by omega
  | .closing _ :: r, k + 1, j, h, i + 1, hi => level_open (is := r) (k := k) h i (by omega)

theorem matchEnd_ends : ∀ {is : List Item} {k : Nat} {p : Point}, matchEnd k is = some p → p ∈ Items.ends is
  | [], _, _, h => by cases h
  | .leaf _ :: r, k, p, h => matchEnd_ends (is := r) h
  | .opening _ _ :: r, k, p, h => matchEnd_ends (is := r) h
  | .inline _ _ :: r, k, p, h => matchEnd_ends (is := r) h
  | .closing e :: r, 0, p, h => by
    rw [← Option.some.inj h]
    exact List.mem_cons_self
  | .closing _ :: r, k + 1, p, h => List.mem_cons_of_mem _ (matchEnd_ends (is := r) (k := k) h)

/-- outer blocks end later -/
theorem matchEnd_outer : ∀ {is : List Item} {k m : Nat} {p' : Point}, (Items.ends is).Pairwise (· ≤ ·) → matchEnd (k + m) is = some p' →
    ∃ p, matchEnd k is = some p ∧ p ≤ p'
  | [], _, _, _, _, h => by cases h
  | .leaf _ :: r, k, m, p', hs, h => matchEnd_outer (is := r) hs h
  | .opening _ _ :: r, k, m, p', hs, h => matchEnd_outer (is := r) (k := k + 1) hs (by
      rw [show k + 1 + m = k + m + 1 by omega]; exact h)
  | .inline _ _ :: r, k, m, p', hs, h => matchEnd_outer (is := r) (k := k + 1) hs (by
      rw [show k + 1 + m = k + m + 1 by omega]; exact h)
  | .closing e :: r, 0, 0, p', hs, h => ⟨_, h, Point.le_refl _⟩
  | .closing e :: r, 0, m + 1, p', hs, h => by
    refine ⟨e.start, rfl, (List.pairwise_cons.mp hs).1 _ ?_⟩
    rw [Nat.zero_add] at h
    exact matchEnd_ends (is := r) (k := m) h
  | .closing e :: r, k + 1, m, p', hs, h => matchEnd_outer (is := r) (k := k) (List.pairwise_cons.mp hs).2 (by
      rw [show k + 1 + m = k + m + 1 by omega] at h; exact h)

section
variable {q last last' : Point}

theorem longer_outer {is : List Item} (hd : Items.Downwards is) (hl : q < last') (k m : Nat) :
    Longer q ((matchEnd k is).getD last) ((matchEnd (k + m) is).getD last') := by
  cases h : matchEnd (k + m) is with
  | none => exact .inl hl
  | some p' =>
    obtain ⟨p, h1, h2⟩ := matchEnd_outer hd.sorted h
    rw [h1]
    exact .inr (.inr ⟨hd.later p (matchEnd_ends h1), h2⟩)

/-- with more blocks open around them, tags bind the same, no shorter -/
theorem bindings_deeper (hl : q < last') (m : Nat) : ∀ {is : List Item} {d j : Nat}, Items.level d is = some j →
    Zip (Binding.SameBut (Longer q)) (Items.bindings last d is) (Items.bindings last' (d + m) is) := by
  have hm : ∀ (r : List Item) (k : Nat), Longer q ((matchEnd k r).getD last) ((matchEnd k r).getD last') := by
    intro r k
    cases matchEnd k r with
    | none => exact .inl hl
    | some p => exact .inr (.inl rfl)
  have hd : ∀ (r : List Item) (d k j : Nat), Items.level (d + k) r = some j →
      Longer q (if d = 0 then last else (matchEnd k r).getD last) (if d + m = 0 then last' else (matchEnd k r).getD last') := by
    intro r d k j h
    by_cases h0 : d = 0
    · subst h0
      rw [level_open h k (by omega)]
      exact .inl (by split <;> exact hl)
    · rw [if_neg h0, if_neg (by omega)]
      exact hm r k
  intro is
  induction is with
  | nil => exact fun _ => .nil
  | cons i r ih =>
    intro d j h
    cases i with
    | leaf l =>
      cases l with
      | set dl kw t ts => exact .cons ⟨rfl, rfl, rfl, rfl, hd r d 0 j h⟩ (ih h)
      | expr ts => exact ih (j := j) h
      | stmt dl ts => exact ih (j := j) h
    | opening dl h' =>
      have := ih (d := d + 1) (j := j) h
      rw [show d + 1 + m = d + m + 1 by omega] at this
      exact zip_append (head_bindings_same (h := h') (hm r 0) (hd r d 1 j h)) this
    | inline kw ts =>
      have := ih (d := d + 1) (j := j) h
      rw [show d + 1 + m = d + m + 1 by omega] at this
      exact this
    | closing e =>
      cases d with
      | zero => cases h
      | succ d =>
        have := ih (d := d) (j := j) h
        show Zip _ (Items.bindings last d r) (Items.bindings last' (d + 1 + m - 1) r)
        rw [show d + 1 + m - 1 = d + m by omega]
        exact this

/-- the bindings of a piece come before those of what follows -/
theorem bindings_split (last : Point) : ∀ (is x : List Item) (d : Nat),
    ∃ new, Items.bindings last d (is ++ x) = new ++ Items.bindings last (Items.after d is) x := by
  intro is x d
  obtain ⟨old, _, h, _, _⟩ := bindings_before (R := fun _ _ => True) (last := last) (last' := last) (x := x) (x' := x) (fun _ => trivial) trivial
    (fun _ => trivial) is d
  exact ⟨old, h⟩

theorem after_level : ∀ {is : List Item} {k m : Nat}, Items.level k is = some m → Items.after k is = m := by
  intro is k m h
  have := level_append (is := is) (x := []) (j := m) (by rw [List.append_nil]; exact h)
  rw [this.1] at h
  exact Option.some.inj h

/-- tags that end no block of their surroundings take nothing away -/
theorem extends_added {pre seg post : List Item} (hl : q < last') (h : Items.NoStray (pre ++ post)) (hs : Items.NoStray seg)
    (hd : Items.Downwards post) : Extends q (Items.bindings last 0 (pre ++ post)) (Items.bindings last' 0 (pre ++ (seg ++ post))) := by
  obtain ⟨j, h⟩ := h
  obtain ⟨m, hs⟩ := hs
  obtain ⟨_, hp⟩ := level_append h
  obtain ⟨old, old', h1, h2, h3⟩ := bindings_before (R := Longer q) (last := last) (last' := last') (x := post) (x' := seg ++ post)
    (fun _ => .inr (.inl rfl)) (.inl hl) (fun k => by
      have := level_add hs k
      rw [Nat.zero_add] at this
      rw [level_matchEnd this post, show m + k = k + m by omega]
      exact longer_outer hd hl k m) pre 0
  obtain ⟨new, h4⟩ := bindings_split last' seg post (Items.after 0 pre)
  have ha := after_level (level_add hs (Items.after 0 pre))
  rw [Nat.zero_add, show m + Items.after 0 pre = Items.after 0 pre + m by omega] at ha
  rw [ha] at h4
  rw [h1, h2, h4]
  intro b hb
  rcases List.mem_append.mp hb with hb | hb
  · obtain ⟨b', h5, h6⟩ := (zip_mem h3).1 b hb
    exact ⟨b', List.mem_append_left _ h5, h6⟩
  · obtain ⟨b', h5, h6⟩ := (zip_mem (bindings_deeper (last := last) hl m hp)).1 b hb
    exact ⟨b', List.mem_append_right _ (List.mem_append_right _ h5), h6⟩

end

/-- what was visible at a use still is -/
theorem Extends.visible {bs bs' : List Binding} {u : UseInfo} (h : Extends u.range.2 bs bs') (hq : u.range.1 ≤ u.range.2)
    (hb : ∃ b ∈ bs, b.VisibleAt u) : ∃ b ∈ bs', b.VisibleAt u := by
  obtain ⟨b, hb, k1, k2, k3, k4⟩ := hb
  obtain ⟨b', hb', e1, e2, e3, e4, e5⟩ := h b hb
  refine ⟨b', hb', e1.trans k1, e4 ▸ k2, e2 ▸ k3, ?_⟩
  rcases e5 with e5 | e5 | ⟨e5, e6⟩
  · exact .inl (Point.lt_of_le_of_lt hq e5)
  · rw [e5]; exact k4
  · rcases k4 with k4 | k4
    · exact .inl (Point.lt_of_lt_of_le k4 e6)
    · exact (e5 k4).elim

/-! ## C131 -/

/-- **C131** (reports) When tags are added that end no block of their surroundings, no use of a name elsewhere in the file is reported that was not
reported before. -/
theorem C131_reports (env : Env) (sx : Syntax) (w w' : World) (s s' t t' : Server) (uri uri' text text' : Str)
    (tree tree' : Tree) (out out' : List Send) (es es' : List Elem) (pre seg post : List Item)
    (hk : (sx.root tree text).kind = .other) (hk' : (sx.root tree' text').kind = .other)
    (hs : WellFormed (sx.root tree text)) (hs' : WellFormed (sx.root tree' text'))
    (ht : Tags sx.digit (sx.root tree text).children (pre ++ post)) (ht' : Tags sx.digit (sx.root tree' text').children (pre ++ (seg ++ post)))
    (hr : ReadsTree sx.digit (sx.root tree text) es) (hw : Elems.Wf es) (hr' : ReadsTree sx.digit (sx.root tree' text') es') (hw' : Elems.Wf es')
    (h : Analysed (env.over sx) w s uri text tree s' out) (h' : Analysed (env.over sx) w' t uri' text' tree' t' out')
    (hi : s.files.ignoreGlobals = false) (hi' : t.files.ignoreGlobals = false)
    (u : Use) (hu : .use u ∈ es) (hu' : .use u ∈ es') (hn : Items.NoStray (pre ++ post)) (hc : Items.NoStray seg) (hd : Items.Downwards post)
    (he : u.root.stop < env.rootEnd tree') :
    Reported uri' out' u.root → Reported uri out u.root := by
  rw [reported_unless hk hs ht hr hw hi h hu, reported_unless hk' hs' ht' hr' hw' hi' h' hu']
  exact fun ⟨h1, h2⟩ => ⟨h1, fun hb => h2 ((extends_added he hn hc hd).visible (Point.le_of_lt (use_spans hw hu)) hb)⟩

theorem Longer.keeps {q p p' x : Point} (h : Longer q p p') (hq : x ≤ q) (hx : x ≤ p) : x ≤ p' := by
  rcases h with h | h | ⟨_, h⟩
  · exact Point.le_trans hq (Point.le_of_lt h)
  · rw [h]; exact hx
  · exact Point.le_trans hx h

/-- **C131** (goto-definition) … where goto-definition led to a definition in the file, it leads to the same or to a later one. -/
theorem C131_goto (env : Env) (sx : Syntax) (w w' : World) (s t : Server) (uri uri' text text' : Str)
    (tree tree' : Tree) (es es' : List Elem) (pre seg post : List Item)
    (hx : fileExt uri = some .template) (hx' : fileExt uri' = some .template)
    (h : Spec.Analysed env s.files uri text tree (pre ++ post)) (h' : Spec.Analysed env t.files uri' text' tree' (pre ++ (seg ++ post)))
    (hs : WellFormed (sx.root tree text)) (hl : Laid (sx.root tree text)) (hr : ReadsTree sx.digit (sx.root tree text) es) (hw : Elems.Wf es)
    (hs' : WellFormed (sx.root tree' text')) (hl' : Laid (sx.root tree' text')) (hr' : ReadsTree sx.digit (sx.root tree' text') es') (hw' : Elems.Wf es')
    (u : Use) (hu : .use u ∈ es) (hu' : .use u ∈ es') (hn : Items.NoStray (pre ++ post)) (hc : Items.NoStray seg) (hd : Items.Downwards post)
    (he : u.root.stop < env.rootEnd tree')
    (pos : Position) (h1 : u.root.start ≤ toPoint pos) (h2 : toPoint pos < u.root.stop)
    (hf : ∀ b ∈ Items.bindings (env.rootEnd tree) 0 (pre ++ post), Short b) (hf' : ∀ b ∈ Items.bindings (env.rootEnd tree') 0 (pre ++ (seg ++ post)), Short b)
    (hex : ∃ b ∈ Items.bindings (env.rootEnd tree) 0 (pre ++ post), Reaches u.root.text (toPoint pos) b) :
    ∃ b ∈ Items.bindings (env.rootEnd tree) 0 (pre ++ post), ∃ b' ∈ Items.bindings (env.rootEnd tree') 0 (pre ++ (seg ++ post)),
      b.name = u.root.text ∧ b'.name = u.root.text ∧ b.start ≤ b'.start ∧ b'.start ≤ toPoint pos ∧
      s.handle (env.over sx) w (.goto uri pos) = .ok (s, [], .goto (some (.scalar
        ⟨uri, ⟨⟨b.start.row, b.start.column⟩, ⟨b.stop.row, b.stop.column⟩⟩⟩))) ∧
      t.handle (env.over sx) w' (.goto uri' pos) = .ok (t, [], .goto (some (.scalar
        ⟨uri', ⟨⟨b'.start.row, b'.start.column⟩, ⟨b'.stop.row, b'.stop.column⟩⟩⟩))) := by
  have hk : ∀ b ∈ Items.bindings (env.rootEnd tree) 0 (pre ++ post), Reaches u.root.text (toPoint pos) b →
      ∃ b' ∈ Items.bindings (env.rootEnd tree') 0 (pre ++ (seg ++ post)), Reaches u.root.text (toPoint pos) b' ∧ b'.start = b.start := by
    rintro b hb ⟨k1, k2, k3⟩
    obtain ⟨b', hb', e1, e2, e3, e4, e5⟩ := extends_added (last := env.rootEnd tree) he hn hc hd b hb
    exact ⟨b', hb', ⟨e1.trans k1, e2 ▸ k2, e5.keeps (Point.le_of_lt h2) k3⟩, e2⟩
  obtain ⟨b, k1, k2, k3, k4⟩ := C83_goto env sx w s uri text tree _ es u pos hx h hs hl hr hw hu h1 h2 hf hex
  obtain ⟨c, l1, l2, l3⟩ := hk b k1 k2
  obtain ⟨b', m1, m2, m3, m4⟩ := C83_goto env sx w' t uri' text' tree' _ es' u pos hx' h' hs' hl' hr' hw' hu' h1 h2 hf' ⟨c, l1, l2⟩
  exact ⟨b, k1, b', m1, k2.1, m2.1, l3 ▸ m3 c l1 l2, m2.2.1, k4, m4⟩

/-- **C131** (completion) … and every name of the file that was offered elsewhere in it is still offered. -/
theorem C131_offered (env : Env) (sx : Syntax) (w w' : World) (s t : Server) (uri uri' text text' : Str)
    (tree tree' : Tree) (pre seg post : List Item)
    (pos : Position) (tr : TriggerKind) (htr : Requested tr) (hx : fileExt uri = some .template) (hx' : fileExt uri' = some .template)
    (h : Spec.Analysed env s.files uri text tree (pre ++ post)) (h' : Spec.Analysed env t.files uri' text' tree' (pre ++ (seg ++ post)))
    (hr : Regular (sx.root tree text)) (hb : Beside sx.digit (sx.root tree text) (toPoint pos))
    (hp : ∀ k ∈ (sx.root tree text).flat, IsPipe k → ¬ Touches (toPoint pos) k) (hin : ∃ e ∈ (sx.root tree text).flat, Within (toPoint pos) e)
    (hr' : Regular (sx.root tree' text')) (hb' : Beside sx.digit (sx.root tree' text') (toPoint pos))
    (hp' : ∀ k ∈ (sx.root tree' text').flat, IsPipe k → ¬ Touches (toPoint pos) k) (hin' : ∃ e ∈ (sx.root tree' text').flat, Within (toPoint pos) e)
    (hn : Items.NoStray (pre ++ post)) (hc : Items.NoStray seg) (hd : Items.Downwards post) (he : toPoint pos < env.rootEnd tree') :
    ∃ own rest own' rest', s.handle (env.over sx) w (.completion uri pos tr) = .ok (s, [], .completion (some (own ++ rest))) ∧
      t.handle (env.over sx) w' (.completion uri' pos tr) = .ok (t, [], .completion (some (own' ++ rest'))) ∧
      (∀ n, n ∈ rest.map (·.label) ↔ BackendName s.files n) ∧ (∀ n, n ∈ rest'.map (·.label) ↔ BackendName t.files n) ∧
      ∀ n, n ∈ own.map (·.label) → n ∈ own'.map (·.label) := by
  obtain ⟨own, rest, k1, _, k2, k3⟩ := C86_names env sx w s uri text tree _ pos tr htr hx h hr hb hp hin
  obtain ⟨own', rest', l1, _, l2, l3⟩ := C86_names env sx w' t uri' text' tree' _ pos tr htr hx' h' hr' hb' hp' hin'
  refine ⟨own, rest, own', rest', k1, l1, k3, l3, fun n hn => ?_⟩
  rw [l2]
  obtain ⟨b, hb, ⟨m1, m2, m3, m4⟩, m5⟩ := (k2 n).mp hn
  obtain ⟨b', hb', e1, e2, e3, e4, e5⟩ := extends_added (last := env.rootEnd tree) he ‹_› hc hd b hb
  exact ⟨b', hb', ⟨e4 ▸ m1, e1.trans m2, e3 ▸ m3, e5.keeps (Point.le_refl _) m4⟩, e4 ▸ m5⟩

/-! ### Example -/

namespace Fix

/-- ```
{% set b = 1 %}
{% for x in b %}
…
{{ b }} {{ y }}
{% endfor %}
{{ x }}
``` -/
def roomP (piece : Program → Program) : Program :=
  .set (tagOn 0) (tk 0 1 c!"set") (tk 0 2 c!"b") [.eq (tk 0 3 c!"=")]
    (.loop (tagOn 1) (tk 1 1 c!"for") (tk 1 2 c!"x") [] [.name (tk 1 4 c!"b")]
      (piece (.out [.name (tk 6 1 c!"b"), .name (tk 6 2 c!"y")] [] .done)) (endOn 7 c!"endfor") (outOn 8 c!"x" .done))

/-- `{% if b %}{% else %}{% set x = 1 %}{% endif %}` in the loop -/
def filledP : Program :=
  roomP (.cond (tagOn 2) (tk 2 1 c!"if") [.name (tk 2 2 c!"b")] (.branch (tagOn 3) (tk 3 1 c!"else") []
    (.set (tagOn 4) (tk 4 1 c!"set") (tk 4 2 c!"x") [.eq (tk 4 3 c!"=")] .done)) (endOn 5 c!"endif"))

end Fix

local macro "regular" : term =>
  `((⟨⟨by decide +kernel, by decide +kernel, by decide +kernel⟩, ⟨by decide +kernel, by decide +kernel, by decide +kernel, by decide +kernel⟩,
    by unfold Legible; decide +kernel, by unfold HasError; decide +kernel, by decide +kernel, by decide +kernel, by decide +kernel⟩ : Regular _))

local macro "both" : term =>
  `((⟨regular, regular, Fix.readTags_sound rfl, Fix.readTags_sound rfl, ⟨Fix.plainElems_read rfl, Fix.elems_wf_of (by decide +kernel)⟩,
    ⟨Fix.plainElems_read rfl, Fix.elems_wf_of (by decide +kernel)⟩, Fix.uses_mem (by decide +kernel), Fix.uses_mem (by decide +kernel), _, _, _, _,
    ⟨⟨.didOpen Fix.uriA [], _, .opened _, rfl⟩, by decide, rfl, rfl⟩, ⟨⟨.didOpen Fix.uriA c!"n", _, .opened _, rfl⟩, by decide, rfl, rfl⟩⟩ : Fix.Both _ _ _))

/-- the hypotheses hold: `y` is reported before and after; `x` below the loop only before, since the loop does not seem to end at its end any more -/
example : Fix.Both (Fix.roomP id) Fix.filledP ⟨.variable, Fix.tk 6 2 c!"y", []⟩ ∧ Fix.Both (Fix.roomP id) Fix.filledP ⟨.variable, Fix.tk 8 1 c!"x", []⟩ ∧
    Fix.Both (Fix.roomP id) Fix.filledP ⟨.variable, Fix.tk 6 1 c!"b", []⟩ ∧
    ∃ pre seg post, (Fix.roomP id).items = pre ++ post ∧ Fix.filledP.items = pre ++ (seg ++ post) ∧ seg.length = 4 ∧ ¬ Items.Complete seg ∧
      Items.NoStray (pre ++ post) ∧ Items.NoStray seg ∧ Items.Downwards post ∧ (Items.ends post).length = 1 ∧
      (Fix.tk 8 1 c!"x").stop < Fix.envTwo.rootEnd Fix.treeTwo ∧
      (∀ b ∈ Items.bindings (Fix.envTwo.rootEnd Fix.treeOne) 0 (pre ++ post), Short b) ∧
      (∀ b ∈ Items.bindings (Fix.envTwo.rootEnd Fix.treeTwo) 0 (pre ++ (seg ++ post)), Short b) ∧
      (∃ b ∈ Items.bindings (Fix.envTwo.rootEnd Fix.treeOne) 0 (pre ++ post), Reaches c!"b" (toPoint ⟨6, 13⟩) b) ∧
      (¬ ∃ b ∈ Items.bindings (Fix.envTwo.rootEnd Fix.treeOne) 0 (pre ++ post), b.VisibleAt (Use.info ⟨.variable, Fix.tk 8 1 c!"x", []⟩)) ∧
      ∃ b ∈ Items.bindings (Fix.envTwo.rootEnd Fix.treeTwo) 0 (pre ++ (seg ++ post)), b.VisibleAt (Use.info ⟨.variable, Fix.tk 8 1 c!"x", []⟩) := by
  refine ⟨both, both, both, (Fix.roomP id).items.take 2, (Fix.filledP.items.drop 2).take 4, (Fix.roomP id).items.drop 2, rfl, rfl, rfl, by unfold Items.Complete; decide +kernel,
    ⟨0, rfl⟩, ⟨1, rfl⟩, ⟨by decide +kernel, by decide +kernel⟩, rfl, by decide, by unfold Short; decide +kernel, by unfold Short; decide +kernel,
    by unfold Reaches; decide +kernel, by decide +kernel, by decide +kernel⟩

/-- … and between `b` and `y` names are offered -/
example : Beside Fix.digit (Fix.drawRoot (Fix.roomP id)) (toPoint ⟨6, 20⟩) ∧ Beside Fix.digit (Fix.drawRoot Fix.filledP) (toPoint ⟨6, 20⟩) ∧
    (∀ k ∈ (Fix.drawRoot (Fix.roomP id)).flat, IsPipe k → ¬ Touches (toPoint ⟨6, 20⟩) k) ∧
    (∀ k ∈ (Fix.drawRoot Fix.filledP).flat, IsPipe k → ¬ Touches (toPoint ⟨6, 20⟩) k) ∧
    (∃ e ∈ (Fix.drawRoot (Fix.roomP id)).flat, Within (toPoint ⟨6, 20⟩) e) ∧ ∃ e ∈ (Fix.drawRoot Fix.filledP).flat, Within (toPoint ⟨6, 20⟩) e := by
  refine ⟨⟨by decide, ?_⟩, ⟨by decide, ?_⟩, ?_, ?_, by unfold Within; decide +kernel, by unfold Within; decide +kernel⟩
  · intro n hn h
    replace h := h.kind
    revert h; revert n
    unfold Touches; decide +kernel
  · intro n hn h
    replace h := h.kind
    revert h; revert n
    unfold Touches; decide +kernel
  · intro n hn h
    replace h := h.1
    revert h; revert n
    unfold Touches; decide +kernel
  · intro n hn h
    replace h := h.1
    revert h; revert n
    unfold Touches; decide +kernel

end JinjaLsp
