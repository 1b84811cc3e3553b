import Verif.Props.Settles
/-
  C140: a name is in scope where it is bound, and not reported there.
-/

namespace JinjaLsp
open Spec

/-- a name of a tag is a node of it -/
theorem header_tok {digit : Char → Bool} {ns : List Syn} {ts : List HTok} (h : Header digit ns ts) :
    ∀ t, .name t ∈ ts → ∃ n ∈ ns, Token n ∧ t = tokOf n := by
  induction h with
  | nil => intro t ht; cases ht
  | cons h1 h2 _ ih =>
    intro t ht
    rcases List.mem_append.mp ht with ht | ht
    · cases h2 with
      | name _ _ =>
        cases List.mem_singleton.mp ht
        exact ⟨_, List.mem_cons_self .., h1, rfl⟩
      | eq => cases List.mem_singleton.mp ht
      | numeral => cases ht
      | op => cases ht
      | word => cases ht
      | string => cases ht
      | other => cases ht
    · obtain ⟨n, hn, hk⟩ := ih t ht
      exact ⟨n, List.mem_cons_of_mem _ hn, hk⟩

/-- what a tag binds are nodes of it -/
theorem tag_tok {digit : Char → Bool} {d : Delims} {ns : List Syn} {i : Item} (h : Tag digit d ns i) :
    ∀ t ∈ i.heads ++ i.block, ∃ n ∈ ns, Token n ∧ t = tokOf n := by
  have key : ∀ {kw : Syn} {ms : List Syn} {ts : List HTok} {t : Tok}, Header digit ms ts → .name t ∈ ts → ∃ n ∈ kw :: ms, Token n ∧ t = tokOf n := by
    intro kw ms ts t h ht
    obtain ⟨n, hn, hk⟩ := header_tok h t ht
    exact ⟨n, List.mem_cons_of_mem _ hn, hk⟩
  intro t ht
  cases h with
  | plain h => simp [Item.heads, Item.block] at ht
  | set _ _ _ h3 =>
    simp only [Item.heads, Item.block, List.append_nil, List.mem_singleton] at ht
    exact key h3 (ht ▸ List.mem_cons_self)
  | for_ _ _ _ h3 =>
    simp only [Item.heads, Item.block, List.append_nil, List.mem_singleton] at ht
    exact key h3 (ht ▸ List.mem_cons_self)
  | with_ _ _ _ h3 =>
    simp only [Item.heads, Item.block, List.append_nil] at ht
    exact key h3 (mem_names.mp ht)
  | macro_ _ _ _ h3 =>
    simp only [Item.heads, Item.block, List.append_nil, List.mem_cons] at ht
    rcases ht with rfl | ht
    · exact key h3 List.mem_cons_self
    · exact key h3 (List.mem_cons_of_mem _ (mem_names.mp ht))
  | block _ _ _ h3 =>
    simp only [Item.heads, Item.block, List.nil_append, List.mem_singleton] at ht
    exact key h3 (ht ▸ List.mem_cons_self)
  | open_ => simp [Item.heads, Item.block] at ht
  | close => simp [Item.heads, Item.block] at ht

/-- an end tag begins with a node -/
theorem tags_closing {digit : Char → Bool} {ns : List Syn} {is : List Item} (h : Tags digit ns is) :
    ∀ e, .closing e ∈ is → ∃ n ∈ Syn.flatAll ns, n.start = e.start := by
  induction h with
  | nil => intro e he; cases he
  | text _ _ _ ih =>
    intro e he
    obtain ⟨n, hn, h1⟩ := ih e he
    exact ⟨n, by rw [Syn.flatAll]; exact List.mem_append_right _ hn, h1⟩
  | expr _ h2 _ ih =>
    intro e he
    rw [List.cons_append] at he
    rcases List.mem_cons.mp he with he | he
    · cases he
    rcases List.mem_append.mp he with he | he
    · have : ∀ {ns : List Syn} {ts : List HTok} {is : List Item}, Inline digit ns ts is → .closing e ∉ is := by
        intro ns ts is h
        induction h with
        | nil => simp
        | tok _ _ _ ih => exact ih
        | branch _ _ _ _ ih => simpa using ih
      exact (this h2 he).elim
    · obtain ⟨n, hn, h1⟩ := ih e he
      exact ⟨n, by rw [Syn.flatAll]; exact List.mem_append_right _ hn, h1⟩
  | @stmt n b _ _ _ _ _ _ h2 hb _ _ _ h3 _ ih =>
    intro e he
    rcases List.mem_cons.mp he with he | he
    · refine ⟨b, ?_, ?_⟩
      · rw [Syn.flatAll, flat_eq]
        refine List.mem_append_left _ (List.mem_cons_of_mem _ (flatAll_self ?_))
        rw [h2]; simp
      · subst he
        cases h3
        rfl
    · obtain ⟨n, hn, h1⟩ := ih e he
      exact ⟨n, by rw [Syn.flatAll]; exact List.mem_append_right _ hn, h1⟩

/-- the scopes of what is bound do not end in front of it -/
theorem bindings_reach {digit : Char → Bool} {last : Point} {ns : List Syn} {is : List Item} (h : Tags digit ns is) (hid : ((Syn.flatAll ns).map Syn.id).Nodup)
    (ho : (Syn.flatAll ns).Pairwise fun a b => a.start ≤ b.start ∧ (b.id ∈ a.flat.map Syn.id ∨ a.stop ≤ b.start))
    (hl : ∀ n ∈ Syn.flatAll ns, n.stop ≤ last) : ∀ k, ∀ b ∈ Items.bindings last k is, b.stop ≤ b.visibleTo := by
  induction h with
  | nil => intro k b hb; cases hb
  | text _ _ _ ih =>
    rw [Syn.flatAll] at hid ho hl
    rw [List.map_append] at hid
    exact ih (List.nodup_append.mp hid).2.1 (List.pairwise_append.mp ho).2.1 fun n hn => hl n (List.mem_append_right _ hn)
  | @expr _ _ _ _ rest _ h2 _ ih =>
    rw [Syn.flatAll] at hid ho hl
    rw [List.map_append] at hid
    have ih := ih (List.nodup_append.mp hid).2.1 (List.pairwise_append.mp ho).2.1 fun n hn => hl n (List.mem_append_right _ hn)
    have : ∀ {ns : List Syn} {ts : List HTok} {is : List Item}, Inline digit ns ts is → ∀ k, ∃ j, Items.bindings last k (is ++ rest) = Items.bindings last j rest := by
      intro ns ts is h
      induction h with
      | nil => exact fun k => ⟨k, rfl⟩
      | tok _ _ _ ih => exact ih
      | branch _ _ _ _ ih => exact fun k => ih (k + 1)
    intro k b hb
    obtain ⟨j, hj⟩ := this h2 k
    rw [List.cons_append] at hb
    simp only [Items.bindings] at hb
    rw [hj] at hb
    exact ih j b hb
  | @stmt n _ _ _ ns i rest _ h2 _ _ _ _ h3 hrest ih =>
    rw [Syn.flatAll] at hid ho hl
    rw [List.map_append] at hid
    have ih := ih (List.nodup_append.mp hid).2.1 (List.pairwise_append.mp ho).2.1 fun n hn => hl n (List.mem_append_right _ hn)
    have own : ∀ t ∈ i.heads ++ i.block, (∀ k, t.stop ≤ (matchEnd k rest).getD last) ∧ t.stop ≤ last := by
      intro t ht
      obtain ⟨m, hm, hleaf, rfl⟩ := tag_tok h3 t ht
      have hm' : m ∈ n.flat := by
        rw [flat_eq]
        refine List.mem_cons_of_mem _ (flatAll_self ?_)
        rw [h2]; exact List.mem_append_left _ (List.mem_cons_of_mem _ hm)
      have hend : m.stop ≤ last := hl m (List.mem_append_left _ hm')
      refine ⟨fun k => ?_, hend⟩
      rcases e : matchEnd k rest with _ | p
      · exact hend
      · obtain ⟨c, hc, rfl⟩ := matchEnd_closing e
        obtain ⟨x, hx, hs⟩ := tags_closing hrest c hc
        show m.stop ≤ c.start
        rw [← hs]
        rcases ((List.pairwise_append.mp ho).2.2 m hm' x hx).2 with h4 | h4
        · rw [flat_eq, hleaf.leaf, Syn.flatAll] at h4
          simp only [List.map_cons, List.map_nil, List.mem_singleton] at h4
          exact ((List.nodup_append.mp hid).2.2 m.id (List.mem_map_of_mem hm') x.id (List.mem_map_of_mem hx) h4.symm).elim
        · exact h4
    intro k b hb
    cases i with
    | leaf l =>
      cases l with
      | set dl kw t ts =>
        simp only [Items.bindings, List.mem_cons] at hb
        rcases hb with rfl | hb
        · obtain ⟨h5, h6⟩ := own t (by simp [Item.heads])
          simp only [Tok.bind]
          split
          · exact h6
          · exact h5 0
        · exact ih k b hb
      | expr ts => exact ih k b hb
      | stmt dl ts => exact ih k b hb
    | opening dl g =>
      simp only [Items.bindings, List.mem_append] at hb
      rcases hb with hb | hb
      · obtain ⟨⟨t, ht, _, e2, _⟩, _⟩ := head_bindings_tok (d := dl) hb
        obtain ⟨h5, h6⟩ := own t ht
        rw [e2]
        rcases head_ends hb with e | e <;> rw [e]
        · exact h5 0
        · split
          · exact h6
          · exact h5 1
      · exact ih (k + 1) b hb
    | inline kw ts => exact ih (k + 1) b hb
    | closing e => exact ih (k - 1) b hb

/-! ## C140 -/

/-- **C140** (scopes) In a template whose syntax tree ends with its text, whatever its tags are, nested or not: a binding is visible from its name on; no
scope ends in front of the name that is bound. -/
theorem C140_scope (env : Env) (sx : Syntax) (text : Str) (tree : Tree) (is : List Item) (hs : WellFormed (sx.root tree text)) (hl : Laid (sx.root tree text))
    (ht : Tags sx.digit (sx.root tree text).children is) (he : ∀ n ∈ (sx.root tree text).flat, n.stop ≤ env.rootEnd tree) :
    ∀ b ∈ Items.bindings (env.rootEnd tree) 0 is, b.stop ≤ b.visibleTo := by
  have hid := hs.ids
  have ho := hl.order
  rw [flat_eq] at hid ho he
  rw [List.map_cons] at hid
  exact bindings_reach ht (List.nodup_cons.mp hid).2 (List.pairwise_cons.mp ho).2 (fun n hn => he n (List.mem_cons_of_mem _ hn)) 0

theorem binding_visible {u : Use} {b : Binding} (hsp : u.root.start < u.root.stop) (hn : NameOf u b) (hk : b.kind ≠ .templateBlock) (hv : b.stop ≤ b.visibleTo) :
    b.VisibleAt u.info := by
  obtain ⟨n1, n2, n3⟩ := hn
  refine ⟨n1.symm, hk, ?_, .inl ?_⟩
  · show b.start ≤ u.root.stop
    rw [← n2]; exact Point.le_of_lt hsp
  · show u.root.start < b.visibleTo
    exact Point.lt_of_lt_of_le hsp (n3 ▸ hv)

/-- **C140** (reports) A name is not reported where it is bound: as target of a `set`, first target of a loop, in a `with`, as macro or parameter of one.
Missing: other targets of loops, and the names of blocks, see below. -/
theorem C140_unreported_partial (env : Env) (sx : Syntax) (w : World) (s s' : Server) (uri text : Str) (tree : Tree) (out : List Send) (is : List Item)
    (es : List Elem) (hk : (sx.root tree text).kind = .other) (hs : WellFormed (sx.root tree text)) (hl : Laid (sx.root tree text))
    (ht : Tags sx.digit (sx.root tree text).children is) (he : ∀ n ∈ (sx.root tree text).flat, n.stop ≤ env.rootEnd tree)
    (hr : ReadsTree sx.digit (sx.root tree text) es) (hw : Elems.Wf es) (hi : s.files.ignoreGlobals = false)
    (h : Analysed (env.over sx) w s uri text tree s' out) (u : Use) (hu : .use u ∈ es) (b : Binding) (hb : b ∈ Items.bindings (env.rootEnd tree) 0 is)
    (hn : NameOf u b) (hkind : b.kind ≠ .templateBlock) : ¬ Reported uri out u.root := by
  rw [reported_unless hk hs ht hr hw hi h hu]
  exact fun h' => h'.2 ⟨b, hb, binding_visible (use_spans hw hu) hn hkind (C140_scope env sx text tree is hs hl ht he b hb)⟩

/-- **C140** (at rest; part) When typing has stopped and the server has come to rest, no such name is underlined in the text in the editor, and
goto-definition leads from it to itself.  Missing: as above. -/
theorem C140_rest_partial {W : World → Prop} (hO : ∀ w, W w → Orderly w) (env : Env) (sx : Syntax) (he : Sound (env.over sx)) (hu : NormalUrls env)
    (cs : List Msg) (as : List (HMap Str Diags)) (σ : Sys) (s : Server) (u : Str) (E : Editor) (h : Calm W env sx cs as σ s u E) :
    ∃ text ds, E u = some text ∧ Displays σ u ds ∧ ∀ tree is es, TextReads sx s u text tree is es → Laid (sx.root tree text) →
      (∀ n ∈ (sx.root tree text).flat, n.stop ≤ env.rootEnd tree) →
      ∀ v : Use, .use v ∈ es → ∀ b ∈ Items.bindings (env.rootEnd tree) 0 is, NameOf v b →
        (b.kind ≠ .templateBlock → ¬ Underlined ds v.root) ∧
        ((∀ b ∈ Items.bindings (env.rootEnd tree) 0 is, Short b) → Separate b (Items.bindings (env.rootEnd tree) 0 is) →
          ∀ pos w, v.root.start ≤ toPoint pos → toPoint pos < v.root.stop →
            s.handle (env.over sx) w (.goto u pos) = .ok (s, [], .goto (some (.scalar ⟨u, b.range⟩)))) := by
  obtain ⟨text, ds, e1, e2, e3⟩ := calm_shown hO he hu h
  refine ⟨text, ds, e1, e2, fun tree is es hr hl hend v hv b hb hn => ?_⟩
  have hsc := C140_scope env sx text tree is hr.formed hl hr.tags hend b hb
  refine ⟨fun hk => ?_, fun hf ha pos w h1 h2 => ?_⟩
  · rw [(e3 _ _ _ hr).2 v hv]
    exact fun h' => h'.2 ⟨b, hb, binding_visible (use_spans hr.wf hv) hn hk hsc⟩
  · exact C138_self env sx w s u text tree is es v pos h.template (e3 _ _ _ hr).1 hr.formed hl hr.reads hr.wf hv h1 h2 hf b hb hn
      (Point.le_trans (Point.le_of_lt h2) (hn.2.2 ▸ hsc)) ha

/-- **C140** is false for blocks: their names are reported where they are given, unless something else of that name is visible there. -/
theorem C140_block_refuted (env : Env) (sx : Syntax) (w : World) (s s' : Server) (uri text : Str) (tree : Tree) (out : List Send) (is : List Item)
    (es : List Elem) (hk : (sx.root tree text).kind = .other) (hs : WellFormed (sx.root tree text)) (ht : Tags sx.digit (sx.root tree text).children is)
    (hr : ReadsTree sx.digit (sx.root tree text) es) (hw : Elems.Wf es) (hi : s.files.ignoreGlobals = false)
    (h : Analysed (env.over sx) w s uri text tree s' out) (d : Delims) (kw name : Tok) (ts : List HTok) (_hm : .opening d (.block kw name ts) ∈ is)
    (hu : .use ⟨.variable, name, []⟩ ∈ es)
    (hb : ∀ b ∈ Items.bindings (env.rootEnd tree) 0 is, b.name = name.text → b.kind = .templateBlock) : Reported uri out name := by
  refine (reported_unless hk hs ht hr hw hi h hu).mpr ⟨by simp [Use.info], ?_⟩
  rintro ⟨b, h1, h2, h3, _⟩
  exact h3 (hb b h1 h2)

/-- **C140** is false for the second target of a loop, `v` in `{% for k, v in d %}`: it is reported where the loop binds it. -/
theorem C140_target_refuted (env : Env) (sx : Syntax) (w : World) (s s' : Server) (uri text : Str) (tree : Tree) (out : List Send) (is : List Item)
    (es : List Elem) (hk : (sx.root tree text).kind = .other) (hs : WellFormed (sx.root tree text)) (ht : Tags sx.digit (sx.root tree text).children is)
    (hr : ReadsTree sx.digit (sx.root tree text) es) (hw : Elems.Wf es) (hi : s.files.ignoreGlobals = false)
    (h : Analysed (env.over sx) w s uri text tree s' out) (d : Delims) (kw k v : Tok) (ts : List HTok) (_hm : .opening d (.for_ kw k (.name v :: ts)) ∈ is)
    (hu : .use ⟨.variable, v, []⟩ ∈ es)
    (hb : ∀ i ∈ is, ∀ t ∈ i.heads, t.text ≠ v.text) : Reported uri out v := by
  refine (reported_unless hk hs ht hr hw hi h hu).mpr ⟨by simp [Use.info], ?_⟩
  rintro ⟨b, h1, h2, h3, _⟩
  have : ∀ {is : List Item} {k : Nat}, b ∈ Items.bindings (env.rootEnd tree) k is → ∃ i ∈ is, ∃ t ∈ i.heads, t.text = b.name := by
    intro is
    induction is with
    | nil => intro k h; cases h
    | cons i r ih =>
      intro k h
      have up : (∃ i ∈ r, ∃ t ∈ i.heads, t.text = b.name) → ∃ i' ∈ i :: r, ∃ t ∈ i'.heads, t.text = b.name :=
        fun ⟨i', h1, h2⟩ => ⟨i', List.mem_cons_of_mem _ h1, h2⟩
      cases i with
      | leaf l =>
        cases l with
        | set dl kw t ts =>
          simp only [Items.bindings, List.mem_cons] at h
          rcases h with rfl | h
          · exact ⟨_, List.mem_cons_self, t, by simp [Item.heads], rfl⟩
          · exact up (ih h)
        | expr ts => exact up (ih (k := k) h)
        | stmt dl ts => exact up (ih (k := k) h)
      | opening dl g =>
        simp only [Items.bindings, List.mem_append] at h
        rcases h with h | h
        · obtain ⟨⟨t, ht, _, _, e3⟩, _⟩ := head_bindings_tok (d := dl) h
          rcases List.mem_append.mp ht with ht | ht
          · exact ⟨_, List.mem_cons_self, t, ht, e3.symm⟩
          · cases g with
            | block kw x ts =>
              simp only [Head.bindings, List.mem_singleton] at h
              exact (h3 (by rw [h]; rfl)).elim
            | for_ => simp [Item.block] at ht
            | with_ => simp [Item.block] at ht
            | macro_ => simp [Item.block] at ht
            | plain => simp [Item.block] at ht
        · exact up (ih h)
      | inline kw ts => exact up (ih (k := k + 1) h)
      | closing e => exact up (ih (k := k - 1) h)
  obtain ⟨i, h4, t, h5, h6⟩ := this h1
  exact hb i h4 t h5 (h6.trans h2)

local macro "regular" : term =>
  `((⟨⟨by decide +kernel, by decide +kernel, by decide +kernel⟩, ⟨by decide +kernel, by decide +kernel, by decide +kernel, by decide +kernel⟩,
    by unfold Legible; decide +kernel, by unfold HasError; decide +kernel, by decide +kernel, by decide +kernel, by decide +kernel⟩ : Regular _))

local macro "both" : term =>
  `((⟨regular, regular, Fix.readTags_sound rfl, Fix.readTags_sound rfl, ⟨Fix.plainElems_read rfl, Fix.elems_wf_of (by decide +kernel)⟩,
    ⟨Fix.plainElems_read rfl, Fix.elems_wf_of (by decide +kernel)⟩, Fix.uses_mem (by decide +kernel), Fix.uses_mem (by decide +kernel), _, _, _, _,
    ⟨⟨.didOpen Fix.uriA [], _, .opened _, rfl⟩, by decide, rfl, rfl⟩, ⟨⟨.didOpen Fix.uriA c!"n", _, .opened _, rfl⟩, by decide, rfl, rfl⟩⟩ : Fix.Both _ _ _))

namespace Fix

/-- ```
{% block c %}
{% for k, v in d %}
{% set s = 1 %}
{% endfor %}
{% endblock %}
``` -/
def homeP : Program :=
  .block (tagOn 0) (tk 0 1 c!"block") (tk 0 2 c!"c")
    (.loop (tagOn 1) (tk 1 1 c!"for") (tk 1 2 c!"k") [tk 1 3 c!"v"] [.name (tk 1 5 c!"d")] (.set (tagOn 2) (tk 2 1 c!"set") (tk 2 2 c!"s") [.eq (tk 2 3 c!"=")] .done)
      (endOn 3 c!"endfor") .done)
    (endOn 4 c!"endblock") .done

end Fix

/-- where they are bound, `k` and `s` are not reported, `c` and `v` are -/
example : ∃ s' out, Analysed (Fix.envTwo.over (Fix.synOf Fix.homeP Fix.homeP)) Fix.emptyWorld Fix.server Fix.uriA [] Fix.treeOne s' out ∧
    (∀ b ∈ Items.bindings (Fix.envTwo.rootEnd Fix.treeOne) 0 Fix.homeP.items, b.stop ≤ b.visibleTo) ∧
    ¬ Reported Fix.uriA out (Fix.tk 1 2 c!"k") ∧ ¬ Reported Fix.uriA out (Fix.tk 2 2 c!"s") ∧
    Reported Fix.uriA out (Fix.tk 0 2 c!"c") ∧ Reported Fix.uriA out (Fix.tk 1 3 c!"v") := by
  have K : Fix.Both Fix.homeP Fix.homeP ⟨.variable, Fix.tk 1 2 c!"k", []⟩ := both
  obtain ⟨s', out, _, _, ha, _⟩ := K.handled
  have hend : ∀ n ∈ (Fix.drawRoot Fix.homeP).flat, n.stop ≤ Fix.envTwo.rootEnd Fix.treeOne := by decide +kernel
  have free := fun u hu b hb hn hk => C140_unreported_partial Fix.envTwo (Fix.synOf Fix.homeP Fix.homeP) Fix.emptyWorld Fix.server s' Fix.uriA [] Fix.treeOne out
    Fix.homeP.items (Fix.plainElems (Fix.drawRoot Fix.homeP)) rfl K.one.formed K.one.laid K.tags hend K.reads.1 K.reads.2 rfl ha u hu b hb hn hk
  refine ⟨s', out, ha, C140_scope Fix.envTwo (Fix.synOf Fix.homeP Fix.homeP) [] Fix.treeOne _ K.one.formed K.one.laid K.tags hend, ?_, ?_, ?_, ?_⟩
  · exact free ⟨.variable, Fix.tk 1 2 c!"k", []⟩ K.use ((Fix.tk 1 2 c!"k").bind .forLoopKey ⟨3, 1⟩) (by decide +kernel) ⟨rfl, rfl, rfl⟩ (by decide)
  · exact free ⟨.variable, Fix.tk 2 2 c!"s", []⟩ (Fix.uses_mem (by decide +kernel)) ((Fix.tk 2 2 c!"s").bind .setVariable ⟨3, 1⟩) (by decide +kernel) ⟨rfl, rfl, rfl⟩ (by decide)
  · exact C140_block_refuted Fix.envTwo (Fix.synOf Fix.homeP Fix.homeP) Fix.emptyWorld Fix.server s' Fix.uriA [] Fix.treeOne out
      Fix.homeP.items (Fix.plainElems (Fix.drawRoot Fix.homeP)) rfl K.one.formed K.tags K.reads.1 K.reads.2 rfl ha (Fix.tagOn 0) (Fix.tk 0 1 c!"block") (Fix.tk 0 2 c!"c")
      [] List.mem_cons_self (Fix.uses_mem (by decide +kernel)) (by decide +kernel)
  · exact C140_target_refuted Fix.envTwo (Fix.synOf Fix.homeP Fix.homeP) Fix.emptyWorld Fix.server s' Fix.uriA [] Fix.treeOne out
      Fix.homeP.items (Fix.plainElems (Fix.drawRoot Fix.homeP)) rfl K.one.formed K.tags K.reads.1 K.reads.2 rfl ha (Fix.tagOn 1) (Fix.tk 1 1 c!"for") (Fix.tk 1 2 c!"k")
      (Fix.tk 1 3 c!"v") [.name (Fix.tk 1 5 c!"d")] (List.mem_cons_of_mem _ List.mem_cons_self) (Fix.uses_mem (by decide +kernel)) (by decide +kernel)

/-- the hypotheses of C140 hold at rest: `customer` at its `set` -/
example : (∃ as σ s E text tree, Calm (· = Fix.rootWorld) Fix.showing Fix.synOn Fix.typing as σ s Fix.uriT E ∧ E Fix.uriT = some text ∧
      TextReads Fix.synOn s Fix.uriT text tree Fix.smallP.items (Fix.plainElems (Fix.drawRoot Fix.smallP)) ∧ Laid (Fix.synOn.root tree text) ∧
      ∀ n ∈ (Fix.synOn.root tree text).flat, n.stop ≤ Fix.showing.rootEnd tree) ∧
    Sound (Fix.showing.over Fix.synOn) ∧ .use ⟨.variable, Fix.tk 0 2 c!"customer", []⟩ ∈ Fix.plainElems (Fix.drawRoot Fix.smallP) ∧
    ∀ tree, (∃ b ∈ Items.bindings (Fix.showing.rootEnd tree) 0 Fix.smallP.items, NameOf ⟨.variable, Fix.tk 0 2 c!"customer", []⟩ b ∧ b.kind ≠ .templateBlock) ∧
      ∀ b ∈ Items.bindings (Fix.showing.rootEnd tree) 0 Fix.smallP.items, Short b ∧ Separate b (Items.bindings (Fix.showing.rootEnd tree) 0 Fix.smallP.items) := by
  refine ⟨?_, Fix.on_sound, Fix.uses_mem (by decide +kernel), fun tree => ?_⟩
  · obtain ⟨as, σ, s, E, tree, h1, h2, h3⟩ := Fix.on_first
    exact ⟨as, σ, s, E, _, tree, h1, h2, ⟨h3, (⟨by decide +kernel, by decide +kernel, by decide +kernel⟩ : WellFormed (Fix.drawRoot Fix.smallP)), rfl,
      (Fix.readTags_sound rfl : Tags Fix.digit (Fix.draw Fix.smallP) Fix.smallP.items),
      (Fix.plainElems_read rfl : ReadsTree Fix.digit (Fix.drawRoot Fix.smallP) _), Fix.elems_wf_of (by decide +kernel)⟩,
      (⟨by decide +kernel, by decide +kernel, by decide +kernel, by decide +kernel⟩ : Laid (Fix.drawRoot Fix.smallP)),
      show ∀ n ∈ (Fix.drawRoot Fix.smallP).flat, n.stop ≤ ⟨9, 9⟩ by decide +kernel⟩
  · show (∃ b ∈ Items.bindings ⟨9, 9⟩ 0 _, NameOf _ b ∧ _) ∧ ∀ b ∈ Items.bindings ⟨9, 9⟩ 0 _, Short b ∧ Separate b (Items.bindings ⟨9, 9⟩ 0 _)
    unfold NameOf Short Separate
    decide +kernel

end JinjaLsp
