import Verif.Props.InOrder
import Verif.Props.Squiggles
import Verif.Props.Attributes
/-
  C146: where a name is bound, the server takes it for that name.
-/

namespace JinjaLsp
open Spec

namespace Spec

/-- the place of the binding is read as an attribute (`b` in `{% with a = x.b %}`) -/
def AsAttribute (es : List Elem) (b : Binding) : Prop := ∃ v : Use, .use v ∈ es ∧ ∃ f ∈ v.fields, f.2.text = b.name ∧ f.2.start = b.start ∧ f.2.stop = b.stop

end Spec

/-- the names of a tag are nodes of it -/
theorem header_node {digit : Char → Bool} {ns : List Syn} {ts : List HTok} (h : Header digit ns ts) {t : Tok} (ht : t ∈ names ts) :
    ∃ n ∈ ns, IsName digit n ∧ t = tokOf n := by
  induction h with
  | nil => cases ht
  | @cons n ns hs ts h1 h2 _ ih =>
    have up : t ∈ names ts → ∃ m ∈ n :: ns, IsName digit m ∧ t = tokOf m := fun h => by
      obtain ⟨m, k1, k2⟩ := ih h
      exact ⟨m, List.mem_cons_of_mem _ k1, k2⟩
    cases h2 with
    | name hk hn =>
      rcases List.mem_cons.mp ht with rfl | h
      · exact ⟨n, List.mem_cons_self, ⟨hk, h1.text, hn⟩, rfl⟩
      · exact up h
    | _ => exact up ht

/-- what a tag binds are names of it -/
theorem tag_node {digit : Char → Bool} {d : Delims} {ns : List Syn} {i : Item} (h : Tag digit d ns i) {t : Tok} (ht : t ∈ i.heads ++ i.block) :
    ∃ n ∈ ns, IsName digit n ∧ t = tokOf n := by
  have up : ∀ {kw : Syn} {ms : List Syn} {ts : List HTok}, Header digit ms ts → t ∈ names ts → ∃ n ∈ kw :: ms, IsName digit n ∧ t = tokOf n := by
    intro kw ms ts h ht
    obtain ⟨n, k1, k2⟩ := header_node h ht
    exact ⟨n, List.mem_cons_of_mem _ k1, k2⟩
  cases h with
  | plain => simp [Item.heads, Item.block] at ht
  | set _ _ _ h => exact up h (by simp [Item.heads, Item.block] at ht; subst ht; exact List.mem_cons_self)
  | for_ _ _ _ h => exact up h (by simp [Item.heads, Item.block] at ht; subst ht; exact List.mem_cons_self)
  | with_ _ _ _ h => exact up h (by simpa [Item.heads, Item.block] using ht)
  | macro_ _ _ _ h => exact up h (by simpa [Item.heads, Item.block, names] using ht)
  | block _ _ _ h => exact up h (by simp [Item.heads, Item.block] at ht; subst ht; exact List.mem_cons_self)
  | open_ => simp [Item.heads, Item.block] at ht
  | close => simp [Item.heads, Item.block] at ht

/-- every binding of a template stands at a name of its tree -/
theorem binding_node {digit : Char → Bool} {last : Point} {ns : List Syn} {is : List Item} (h : Tags digit ns is) {b : Binding} :
    ∀ {k : Nat}, b ∈ Items.bindings last k is → ∃ n ∈ Syn.flatAll ns, IsName digit n ∧ (tokOf n).text = b.name ∧ n.start = b.start ∧ n.stop = b.stop := by
  have right : ∀ {n : Syn} {ns : List Syn}, (∃ m ∈ Syn.flatAll ns, IsName digit m ∧ (tokOf m).text = b.name ∧ m.start = b.start ∧ m.stop = b.stop) →
      ∃ m ∈ Syn.flatAll (n :: ns), IsName digit m ∧ (tokOf m).text = b.name ∧ m.start = b.start ∧ m.stop = b.stop := by
    rintro n ns ⟨m, k1, k2⟩
    exact ⟨m, by rw [Syn.flatAll]; exact List.mem_append_right _ k1, k2⟩
  induction h with
  | nil => intro k hb; cases hb
  | text _ _ _ ih => exact fun hb => right (ih hb)
  | @expr _ _ _ _ rest _ h2 _ ih =>
    intro k hb
    have : ∀ {ns : List Syn} {ts : List HTok} {is : List Item}, Inline digit ns ts is → ∀ k, ∃ j, Items.bindings last k (is ++ rest) = Items.bindings last j rest := by
      intro ns ts is h
      induction h with
      | nil => exact fun k => ⟨k, rfl⟩
      | tok _ _ _ ih => exact ih
      | branch _ _ _ _ ih => exact fun k => ih (k + 1)
    obtain ⟨j, hj⟩ := this h2 k
    rw [List.cons_append] at hb
    simp only [Items.bindings] at hb
    rw [hj] at hb
    exact right (ih hb)
  | @stmt n o e inner ns i rest _ h2 _ _ _ _ h3 _ ih =>
    intro k hb
    have here : (∃ t ∈ i.heads ++ i.block, t.text = b.name ∧ t.start = b.start ∧ t.stop = b.stop) →
        ∃ m ∈ Syn.flatAll (n :: ns), IsName digit m ∧ (tokOf m).text = b.name ∧ m.start = b.start ∧ m.stop = b.stop := by
      rintro ⟨t, ht, e1, e2, e3⟩
      obtain ⟨m, k1, k2, rfl⟩ := tag_node h3 ht
      refine ⟨m, ?_, k2, e1, e2, e3⟩
      rw [Syn.flatAll, flat_eq, h2]
      exact List.mem_append_left _ (List.mem_cons_of_mem _ ((children_sub _).subset (List.mem_append_left _ (List.mem_cons_of_mem _ k1))))
    cases i with
    | leaf l =>
      cases l with
      | set dl kw t ts =>
        simp only [Items.bindings, List.mem_cons] at hb
        rcases hb with rfl | hb
        · exact here ⟨t, by simp [Item.heads], rfl, rfl, rfl⟩
        · exact right (ih hb)
      | expr ts => exact right (ih hb)
      | stmt dl ts => exact right (ih hb)
    | opening dl g =>
      simp only [Items.bindings, List.mem_append] at hb
      rcases hb with hb | hb
      · refine here ?_
        cases g <;> simp only [Head.bindings, Item.heads, Item.block, Tok.bind, List.mem_cons, List.mem_map, List.not_mem_nil, or_false, List.append_nil,
          List.nil_append] at hb ⊢
        · subst hb; exact ⟨_, rfl, rfl, rfl, rfl⟩
        · obtain ⟨t, ht, rfl⟩ := hb; exact ⟨t, ht, rfl, rfl, rfl⟩
        · rcases hb with rfl | ⟨t, ht, rfl⟩
          · exact ⟨_, .inl rfl, rfl, rfl, rfl⟩
          · exact ⟨t, .inr ht, rfl, rfl, rfl⟩
        · subst hb; exact ⟨_, rfl, rfl, rfl, rfl⟩
      · exact right (ih hb)
    | inline kw ts => exact right (ih hb)
    | closing e => exact right (ih hb)

/-- the names among attributes -/
theorem attrs_name {digit : Char → Bool} {ns : List Syn} {as : List (Tok × Tok)} (h : Attrs digit ns as) {n : Syn} (hn : n ∈ ns) (hk : n.kind = .identifier) :
    ∃ f ∈ as, f.2 = tokOf n := by
  induction h with
  | nil => cases hn
  | cons d1 d2 _ ih =>
    rcases List.mem_cons.mp hn with rfl | hn
    · rw [d1.kind] at hk; cases hk
    · rcases List.mem_cons.mp hn with rfl | hn
      · exact ⟨_, List.mem_cons_self, rfl⟩
      · obtain ⟨f, k1, k2⟩ := ih hn
        exact ⟨f, List.mem_cons_of_mem _ k1, k2⟩

/-- every name of a sequence is read: as a name, as an attribute, or as a reserved word -/
theorem reads_name {digit : Char → Bool} {ns : List Syn} {es : List Elem} (h : ReadsOff digit ns es) (hok : ∀ e ∈ es, e.Ok) {n : Syn} (hn : n ∈ ns)
    (hk : n.kind = .identifier) :
    (∃ v : Use, .use v ∈ es ∧ v.root = tokOf n) ∨ (∃ v : Use, .use v ∈ es ∧ ∃ f ∈ v.fields, f.2 = tokOf n) ∨ (tokOf n).text ∈ reserved := by
  have up : ∀ {e : Elem} {es : List Elem},
      ((∃ v : Use, .use v ∈ es ∧ v.root = tokOf n) ∨ (∃ v : Use, .use v ∈ es ∧ ∃ f ∈ v.fields, f.2 = tokOf n) ∨ (tokOf n).text ∈ reserved) →
      (∃ v : Use, .use v ∈ e :: es ∧ v.root = tokOf n) ∨ (∃ v : Use, .use v ∈ e :: es ∧ ∃ f ∈ v.fields, f.2 = tokOf n) ∨ (tokOf n).text ∈ reserved := by
    rintro e es (⟨v, h1, h2⟩ | ⟨v, h1, h2⟩ | h)
    · exact .inl ⟨v, List.mem_cons_of_mem _ h1, h2⟩
    · exact .inr (.inl ⟨v, List.mem_cons_of_mem _ h1, h2⟩)
    · exact .inr (.inr h)
  induction h with
  | nil => cases hn
  | expr h1 _ ih =>
    rcases List.mem_cons.mp hn with rfl | hn
    · rw [hk] at h1; cases h1
    · exact up (ih (fun e he => hok e (List.mem_cons_of_mem _ he)) hn)
  | op h1 _ ih =>
    rcases List.mem_cons.mp hn with rfl | hn
    · rw [h1.kind] at hk; cases hk
    · exact up (ih (fun e he => hok e (List.mem_cons_of_mem _ he)) hn)
  | word h1 _ ih =>
    rcases List.mem_cons.mp hn with rfl | hn
    · exact .inr (.inr (hok _ List.mem_cons_self))
    · exact up (ih (fun e he => hok e (List.mem_cons_of_mem _ he)) hn)
  | @use ms fs ns r m as es h1 h2 h3 _ ih =>
    have ok := hok _ List.mem_cons_self
    rcases List.mem_append.mp hn with hn | hn
    · rcases List.mem_append.mp hn with hn | hn
      · cases h1 with
        | «variable» => cases hn
        | filter h => rw [List.mem_singleton.mp hn, h.kind] at hk; cases hk
        | test k1 k2 k3 =>
          rcases List.mem_cons.mp hn with rfl | hn
          · rw [k1] at hk; cases hk
          · exact .inr (.inr (ok.1 _ (List.mem_map_of_mem hn)))
      · rcases List.mem_cons.mp hn with rfl | hn
        · exact .inl ⟨_, List.mem_cons_self, rfl⟩
        · refine .inr (.inl ⟨_, List.mem_cons_self, ?_⟩)
          exact attrs_name h3 hn hk
    · exact up (ih (fun e he => hok e (List.mem_cons_of_mem _ he)) hn)

/-- the name of a use is a node -/
theorem use_node {digit : Char → Bool} {ns : List Syn} {es : List Elem} (h : ReadsOff digit ns es) {u : Use} (hu : .use u ∈ es) :
    ∃ n ∈ ns, n.kind = .identifier ∧ u.root = tokOf n := by
  induction h with
  | nil => cases hu
  | expr _ _ ih =>
    rcases List.mem_cons.mp hu with h | h
    · cases h
    · obtain ⟨n, k1, k2⟩ := ih h; exact ⟨n, List.mem_cons_of_mem _ k1, k2⟩
  | op _ _ ih =>
    rcases List.mem_cons.mp hu with h | h
    · cases h
    · obtain ⟨n, k1, k2⟩ := ih h; exact ⟨n, List.mem_cons_of_mem _ k1, k2⟩
  | word _ _ ih =>
    rcases List.mem_cons.mp hu with h | h
    · cases h
    · obtain ⟨n, k1, k2⟩ := ih h; exact ⟨n, List.mem_cons_of_mem _ k1, k2⟩
  | @use ms fs ns r m as es _ h2 _ _ ih =>
    rcases List.mem_cons.mp hu with h | h
    · injection h with h
      subst h
      exact ⟨r, by simp, h2.kind, rfl⟩
    · obtain ⟨n, k1, k2⟩ := ih h; exact ⟨n, List.mem_append_right _ k1, k2⟩

/-! ## C146 -/

/-- **C146** (reading) Where the template binds a name, that name is read as such, unless it is an attribute or a reserved word. -/
theorem C146_read (digit : Char → Bool) (root : Syn) (last : Point) (is : List Item) (es : List Elem) (ht : Tags digit root.children is)
    (hr : ReadsTree digit root es) (hw : Elems.Wf es) (b : Binding) (hb : b ∈ Items.bindings last 0 is) :
    (∃ v, .use v ∈ es ∧ NameOf v b) ∨ AsAttribute es b ∨ b.name ∈ reserved := by
  obtain ⟨n, k1, k2, k3, k4, k5⟩ := binding_node ht hb
  obtain ⟨p, hp, hr⟩ := hr
  have mem : n ∈ root.flat.filter p := List.mem_filter.mpr ⟨by rw [flat_eq]; exact List.mem_cons_of_mem _ k1, (hp n).mpr (.inr (.inl ⟨k2.kind, k2.name⟩))⟩
  rcases reads_name hr hw.ok mem k2.kind with ⟨v, h1, h2⟩ | ⟨v, h1, f, h2, h3⟩ | h
  · exact .inl ⟨v, h1, by rw [h2]; exact k3, by rw [h2]; exact k4, by rw [h2]; exact k5⟩
  · exact .inr (.inl ⟨v, h1, f, h2, by rw [h3]; exact k3, by rw [h3]; exact k4, by rw [h3]; exact k5⟩)
  · exact .inr (.inr (k3 ▸ h))

/-- what is read as a name where a name is bound is that name -/
theorem same_site {digit : Char → Bool} {root : Syn} {last : Point} {is : List Item} {es : List Elem} (hs : WellFormed root) (hl : Laid root) (hf : Filled root)
    (ht : Tags digit root.children is) (hr : ReadsTree digit root es) {u : Use} (hu : .use u ∈ es) {b : Binding} (hb : b ∈ Items.bindings last 0 is)
    (e : u.root.start = b.start) : NameOf u b := by
  obtain ⟨n, k1, k2, k3, k4, k5⟩ := binding_node ht hb
  have k1 : n ∈ root.flat := by rw [flat_eq]; exact List.mem_cons_of_mem _ k1
  obtain ⟨p, _, hr⟩ := hr
  obtain ⟨m, l1, l2, l3⟩ := use_node hr hu
  have l1 : m ∈ root.flat := (List.mem_filter.mp l1).1
  have e' : m.start = n.start := by
    have : m.start = u.root.start := by rw [l3]; rfl
    rw [this, e, k4]
  by_cases h : m = n
  · subst h
    exact ⟨by rw [l3]; exact k3, e, by rw [l3]; exact k5⟩
  · rcases nodes_clear hs hl l1 k1 (.inl l2) (.inl k2.kind) h with h | h
    · exact (Point.lt_irrefl _ (Point.lt_of_lt_of_le (hf m l1 l2) (e' ▸ h))).elim
    · exact (Point.lt_irrefl _ (Point.lt_of_lt_of_le (hf n k1 k2.kind) (e' ▸ h))).elim

/-- no use is reported where a name is bound, but for blocks -/
theorem site_quiet {digit : Char → Bool} {root : Syn} {last : Point} {is : List Item} {es : List Elem} {known : List Str} (hs : WellFormed root) (hl : Laid root)
    (hf : Filled root) (ht : Tags digit root.children is) (hr : ReadsTree digit root es) (hw : Elems.Wf es) (he : ∀ n ∈ root.flat, n.stop ≤ last)
    {b : Binding} (hb : b ∈ Items.bindings last 0 is) (hk : b.kind ≠ .templateBlock) :
    ∀ rep ∈ useReports (Items.bindings last 0 is) known (Elems.uses es), rep.start ≠ b.start := by
  intro rep hrep e
  unfold useReports at hrep
  obtain ⟨i, hi, h1⟩ := List.mem_filterMap.mp hrep
  obtain ⟨el, he1, he2⟩ := List.mem_filterMap.mp hi
  have sc : b.stop ≤ b.visibleTo := by
    have hid := hs.ids
    have ho := hl.order
    rw [flat_eq] at hid ho he
    rw [List.map_cons] at hid
    exact bindings_reach ht (List.nodup_cons.mp hid).2 (List.pairwise_cons.mp ho).2 (fun n hn => he n (List.mem_cons_of_mem _ hn)) 0 b hb
  cases el with
  | use u =>
    cases he2
    cases hv : verdict (Items.bindings last 0 is) known u.info with
    | none => rw [hv] at h1; cases h1
    | some k =>
      rw [hv] at h1
      cases h1
      have nm := same_site hs hl hf ht hr he1 hb e
      unfold verdict at hv
      split at hv
      · cases hv
      split at hv
      · cases hv
      · rename_i hno
        exact (hno ⟨b, hb, binding_visible (use_spans hw he1) nm hk sc⟩).elim
  | _ => cases he2

/-- **C146** (reports) Opening or saving a template reports no name where the template binds one (as an attribute or reserved word included).
Missing: the names of blocks, which are reported (`C140_block_refuted`). -/
theorem C146_quiet_partial (env : Env) (sx : Syntax) (w : World) (s s' : Server) (m : Msg) (uri text : Str) (tree : Tree) (out : List Send) (r : Reply)
    (is : List Item) (es : List Elem) (hm : m.Analyses uri) (hx : fileExt uri = some .template) (hi : s.files.ignoreGlobals = false)
    (h : s.handle (env.over sx) w m = .ok (s', out, r)) (hd : s'.files.documents.get? uri = some text) (hp : (s'.files.trees .template).get? uri = some tree)
    (hs : WellFormed (sx.root tree text)) (hk : (sx.root tree text).kind = .other) (hl : Laid (sx.root tree text)) (hf : Filled (sx.root tree text))
    (ht : Tags sx.digit (sx.root tree text).children is) (he : ∀ n ∈ (sx.root tree text).flat, n.stop ≤ env.rootEnd tree)
    (hr : ReadsTree sx.digit (sx.root tree text) es) (hw : Elems.Wf es) :
    ∃ ds, out = [.diag (HMap.empty.insert uri ds)] ∧
      ∀ b ∈ Items.bindings (env.rootEnd tree) 0 is, b.kind ≠ .templateBlock → ∀ rep ∈ useDiags ds, rep.start ≠ b.start := by
  obtain ⟨_, _, vs, k1, k2⟩ := C83_analysed env sx w s s' m uri text tree out r is hm hx h hd hp hs hk ht
  obtain ⟨ds, k3, k4⟩ := C25_reports_partial _ w s s' m uri out r _ _ hm hx hi h (readObjects_eq hx hd hp) k1
  rw [usesIn_elems hw (over_objects hr), k2] at k4
  exact ⟨ds, k3, fun b hb hb' => k4 ▸ site_quiet hs hl hf ht hr hw he hb hb'⟩

/-- **C146** (goto) With the cursor anywhere on a name where the template binds it, goto-definition leads to that name.
Missing: names read as attributes and reserved words. -/
theorem C146_goto_partial (env : Env) (sx : Syntax) (w : World) (s : Server) (uri text : Str) (tree : Tree) (is : List Item) (es : List Elem) (pos : Position)
    (hx : fileExt uri = some .template) (h : Spec.Analysed env s.files uri text tree is) (hs : WellFormed (sx.root tree text))
    (hl : Laid (sx.root tree text)) (hf : Filled (sx.root tree text)) (ht : Tags sx.digit (sx.root tree text).children is)
    (he : ∀ n ∈ (sx.root tree text).flat, n.stop ≤ env.rootEnd tree) (hr : ReadsTree sx.digit (sx.root tree text) es) (hw : Elems.Wf es)
    (hfit : ∀ b ∈ Items.bindings (env.rootEnd tree) 0 is, Short b) (b : Binding) (hb : b ∈ Items.bindings (env.rootEnd tree) 0 is)
    (h1 : b.start ≤ toPoint pos) (h2 : toPoint pos < b.stop) (ha : ¬ AsAttribute es b) (hn : b.name ∉ reserved) :
    s.handle (env.over sx) w (.goto uri pos) = .ok (s, [], .goto (some (.scalar ⟨uri, b.range⟩))) := by
  rcases C146_read sx.digit _ _ is es ht hr hw b hb with ⟨v, k1, k2⟩ | k | k
  · exact C143_home env sx w s uri text tree is es v pos hx h hs hl hf ht he hr hw k1 (k2.2.1 ▸ h1) (k2.2.2 ▸ h2) hfit b hb k2
  · exact (ha k).elim
  · exact (hn k).elim

/-- **C146** (twice) Goto-definition from a use of a variable of the template leads to a place from where it leads to that same place again.
Missing: variables bound where an attribute is read. -/
theorem C146_twice_partial (env : Env) (sx : Syntax) (w w' : World) (s : Server) (uri text : Str) (tree : Tree) (is : List Item) (es : List Elem) (u : Use)
    (pos : Position) (hx : fileExt uri = some .template) (h : Spec.Analysed env s.files uri text tree is) (hs : WellFormed (sx.root tree text))
    (hl : Laid (sx.root tree text)) (hf : Filled (sx.root tree text)) (ht : Tags sx.digit (sx.root tree text).children is)
    (he : ∀ n ∈ (sx.root tree text).flat, n.stop ≤ env.rootEnd tree) (hr : ReadsTree sx.digit (sx.root tree text) es) (hw : Elems.Wf es)
    (hfit : ∀ b ∈ Items.bindings (env.rootEnd tree) 0 is, Short b) (hu : .use u ∈ es) (h1 : u.root.start ≤ toPoint pos) (h2 : toPoint pos < u.root.stop)
    (hex : ∃ b ∈ Items.bindings (env.rootEnd tree) 0 is, Reaches u.root.text (toPoint pos) b)
    (ha : ∀ b ∈ Items.bindings (env.rootEnd tree) 0 is, b.name = u.root.text → ¬ AsAttribute es b) :
    ∃ r : Range, s.handle (env.over sx) w (.goto uri pos) = .ok (s, [], .goto (some (.scalar ⟨uri, r⟩))) ∧
      s.handle (env.over sx) w' (.goto uri r.start) = .ok (s, [], .goto (some (.scalar ⟨uri, r⟩))) := by
  obtain ⟨b, k1, k2, _, k3⟩ := C83_goto env sx w s uri text tree is es u pos hx h hs hl hr hw hu h1 h2 hfit hex
  have hres : b.name ∉ reserved := by rw [k2.1]; exact (hw.ok _ hu).2.1
  refine ⟨b.range, k3, C146_goto_partial env sx w' s uri text tree is es b.range.start hx h hs hl hf ht he hr hw hfit b k1 (Point.le_refl _) ?_ (ha b k1 k2.1) hres⟩
  exact (bindings_apart (last := env.rootEnd tree) hs hl hf ht 0).1 b k1

/-- **C146** (at rest) When typing has stopped and the server has come to rest, this holds for the text in the editor. -/
theorem C146_rest_partial {W : World → Prop} (hO : ∀ w, W w → Orderly w) (env : Env) (sx : Syntax) (he : Sound (env.over sx)) (hu : NormalUrls env)
    (cs : List Msg) (as : List (HMap Str Diags)) (σ : Sys) (s : Server) (u : Str) (E : Editor) (h : Calm W env sx cs as σ s u E) :
    ∃ text ds, E u = some text ∧ Displays σ u ds ∧ ∀ tree is es, TextReads sx s u text tree is es → Laid (sx.root tree text) → Filled (sx.root tree text) →
      (∀ n ∈ (sx.root tree text).flat, n.stop ≤ env.rootEnd tree) →
      ∀ b ∈ Items.bindings (env.rootEnd tree) 0 is,
        (b.kind ≠ .templateBlock → ∀ d ∈ ds, AboutName d → toPoint d.range.start ≠ b.start) ∧
        ((∀ b ∈ Items.bindings (env.rootEnd tree) 0 is, Short b) → ¬ AsAttribute es b → b.name ∉ reserved →
          ∀ pos w, b.start ≤ toPoint pos → toPoint pos < b.stop →
            s.handle (env.over sx) w (.goto u pos) = .ok (s, [], .goto (some (.scalar ⟨u, b.range⟩)))) := by
  obtain ⟨text, old, w, s1, s2, r, ds, e1, e2, e4, k1, k2, k3, hf, k4⟩ :=
    quiet_saved hO (env.over sx) he ⟨hu.same⟩ cs as σ s h.run h.small u E h.stopped h.rest h.channel h.template
  refine ⟨text, _, e1, k4, fun tree is es hr hl hfi hend b hb => ⟨fun hk => ?_, fun hfit ha hn pos w h1 h2 => ?_⟩⟩
  · have : tree = .parsed .jinja text old := by
      have := hr.held
      rw [e4] at this
      exact (Option.some.inj this).symm
    subst this
    have hig : s1.files.ignoreGlobals = false := by rw [← hf.conf.ign, ← k3.conf.ign]; exact h.globals
    obtain ⟨d, o, h4⟩ := C146_quiet_partial env sx w s1 s2 (.didSave u) u text _ _ r is es .saved h.template hig k2 (k3.documents ▸ e2) (k3.trees ▸ e4)
      hr.formed hr.kind hl hfi hr.tags hend hr.reads hr.wf
    have hd : d = ds := by
      simp only [List.cons.injEq, Send.diag.injEq, and_true] at o
      have := congrArg (fun x => x.get? u) o
      simpa using this.symm
    subst hd
    intro x hx ha
    obtain ⟨rep, hrep, rfl⟩ := List.mem_map.mp hx
    obtain ⟨e, hem, rfl⟩ := List.mem_map.mp hrep
    refine h4 b hb hk (report e) (List.mem_map_of_mem (List.mem_filter.mpr ⟨hem, ?_⟩))
    obtain ⟨k, i⟩ := e
    cases k <;> simp_all [AboutName, shown, report]
  · obtain ⟨text', _, l1, _, l3⟩ := calm_shown hO he hu h
    rw [e1] at l1
    cases l1
    exact C146_goto_partial env sx w s u text tree is es pos h.template (l3 _ _ _ hr).1 hr.formed hl hfi hr.tags hend hr.reads hr.wf hfit b hb h1 h2 ha hn

/-- **C146** is false for attributes: `{% with a = x.b %}` also binds `b`, and on it goto-definition leads to `x`. -/
theorem C146_attribute_refuted (env : Env) (sx : Syntax) (w : World) (s : Server) (uri text : Str) (tree : Tree) (is : List Item) (pre post : List Elem)
    (m : Mark) (root d n : Tok) (fs gs : List (Tok × Tok)) (pos : Position) (hx : fileExt uri = some .template)
    (h : Spec.Analysed env s.files uri text tree is) (hs : WellFormed (sx.root tree text)) (hl : Laid (sx.root tree text)) (hf : Filled (sx.root tree text))
    (ht : Tags sx.digit (sx.root tree text).children is)
    (hr : ReadsTree sx.digit (sx.root tree text) (pre ++ .use ⟨m, root, fs ++ (d, n) :: gs⟩ :: post))
    (hw : Elems.Wf (pre ++ .use ⟨m, root, fs ++ (d, n) :: gs⟩ :: post))
    (hsm : ∀ t ∈ (pre ++ .use ⟨m, root, fs ++ (d, n) :: gs⟩ :: post).flatMap Elem.toks, SmallPoint t.stop)
    (h1 : n.start ≤ toPoint pos) (h2 : toPoint pos < n.stop) (hfit : ∀ b ∈ Items.bindings (env.rootEnd tree) 0 is, Short b)
    (hno : ∀ c cs, capsAfter gs post = c :: cs → c.name = .expr ∨ ¬ NameFollows cs)
    (hex : ∃ b ∈ Items.bindings (env.rootEnd tree) 0 is, Reaches root.text (toPoint pos) b)
    (b : Binding) (hb : b ∈ Items.bindings (env.rootEnd tree) 0 is) (e1 : b.name = n.text) (_e2 : b.start = n.start) (_e3 : b.stop = n.stop)
    (hne : root.text ≠ n.text) :
    ∃ r : Range, r.start ≠ b.range.start ∧ s.handle (env.over sx) w (.goto uri pos) = .ok (s, [], .goto (some (.scalar ⟨uri, r⟩))) := by
  obtain ⟨c, k1, k2, _, k3⟩ := C108_goto_partial env sx w s uri text tree is pre post m root d n fs gs pos hx h hs hl hr hw hsm h1 h2 hfit hno hex
  refine ⟨c.range, fun e => hne ?_, k3⟩
  obtain ⟨a1, a2⟩ := bindings_apart (last := env.rootEnd tree) hs hl hf ht 0
  have : c = b := starts_of a1 a2 c k1 b hb (by
    simp only [Binding.range, Position.mk.injEq] at e
    exact Point.ext e.1 e.2)
  rw [← e1, ← this, k2.1]

/-! ### Examples -/

local macro "regular" : term =>
  `((⟨⟨by decide +kernel, by decide +kernel, by decide +kernel⟩, ⟨by decide +kernel, by decide +kernel, by decide +kernel, by decide +kernel⟩,
    by unfold Legible; decide +kernel, by unfold HasError; decide +kernel, by decide +kernel, by decide +kernel, by decide +kernel⟩ : Regular _))

local macro "both" : term =>
  `((⟨regular, regular, Fix.readTags_sound rfl, Fix.readTags_sound rfl, ⟨Fix.plainElems_read rfl, Fix.elems_wf_of (by decide +kernel)⟩,
    ⟨Fix.plainElems_read rfl, Fix.elems_wf_of (by decide +kernel)⟩, Fix.uses_mem (by decide +kernel), Fix.uses_mem (by decide +kernel), _, _, _, _,
    ⟨⟨.didOpen Fix.uriA [], _, .opened _, rfl⟩, by decide, rfl, rfl⟩, ⟨⟨.didOpen Fix.uriA c!"n", _, .opened _, rfl⟩, by decide, rfl, rfl⟩⟩ : Fix.Both _ _ _))

namespace Fix

theorem plainElems_fields (root : Syn) (b : Binding) : ¬ AsAttribute (plainElems root) b := by
  rintro ⟨v, h1, f, h2, _⟩
  unfold plainElems at h1
  simp at h1
  obtain ⟨n, _, e⟩ := h1
  unfold plainElem at e
  split at e
  all_goals first | cases e | skip
  all_goals cases h2

end Fix

/-- on the `s` of a `set` in a loop in a block, goto-definition leads to itself -/
example : ∃ s : Server, s.handle (Fix.envTwo.over (Fix.synOf Fix.homeP Fix.homeP)) Fix.emptyWorld (.goto Fix.uriA ⟨2, 22⟩) =
      .ok (s, [], .goto (some (.scalar ⟨Fix.uriA, ⟨⟨2, 21⟩, ⟨2, 29⟩⟩⟩))) := by
  have K : Fix.Both Fix.homeP Fix.homeP ⟨.variable, Fix.tk 1 2 c!"k", []⟩ := both
  obtain ⟨s, _, hs, _⟩ := K.recorded
  exact ⟨s, C146_goto_partial Fix.envTwo (Fix.synOf Fix.homeP Fix.homeP) Fix.emptyWorld s Fix.uriA [] Fix.treeOne Fix.homeP.items
    (Fix.plainElems (Fix.drawRoot Fix.homeP)) ⟨2, 22⟩ (by decide) hs K.one.formed K.one.laid
    (by unfold Filled; decide +kernel : Filled (Fix.drawRoot Fix.homeP)) K.tags (by decide +kernel : ∀ n ∈ (Fix.drawRoot Fix.homeP).flat, n.stop ≤ ⟨9, 9⟩) K.reads.1 K.reads.2
    (by unfold Short; decide +kernel) ((Fix.tk 2 2 c!"s").bind .setVariable ⟨3, 1⟩) (by decide +kernel) (by decide) (by decide) (Fix.plainElems_fields _ _) (by decide)⟩

namespace Fix

/-- ```
{% set x = 1 %}
{% with a = x.b %}
{% endwith %}
``` -/
def viaNodes : List Syn :=
  [st 3 0 15 [lf .keyword 15 0 3 6 c!"set", lf .identifier 16 0 7 8 c!"x", lf .operator 17 0 9 10 c!"=", lf .identifier 18 0 11 12 c!"1"],
   st 4 1 18 [lf .keyword 20 1 3 7 c!"with", lf .identifier 21 1 8 9 c!"a", lf .operator 22 1 10 11 c!"=", lf .identifier 23 1 12 13 c!"x",
     lf .operator 24 1 13 14 c!".", lf .identifier 25 1 14 15 c!"b"],
   st 5 2 13 [lf .keyword 30 2 3 10 c!"endwith"]]

def viaRoot : Syn := .node .other none 900 ⟨0, 0⟩ ⟨2, 13⟩ (some []) viaNodes

def viaSyn : Syntax := ⟨fun _ _ => viaRoot, digit, fun _ _ => [[]], fun _ => true⟩

def viaTags : List Item :=
  [.leaf (.set (dst 3 0 15) (tok 0 3 6 c!"set" 15) (tok 0 7 8 c!"x" 16) [.eq (tok 0 9 10 c!"=" 17)]),
   .opening (dst 4 1 18) (.with_ (tok 1 3 7 c!"with" 20) [.name (tok 1 8 9 c!"a" 21), .eq (tok 1 10 11 c!"=" 22), .name (tok 1 12 13 c!"x" 23),
     .name (tok 1 14 15 c!"b" 25)]),
   .closing ⟨tok 2 3 10 c!"endwith" 30, [], dst 5 2 13⟩]

def useVia : Use := ⟨.variable, tok 1 12 13 c!"x" 23, [(tok 1 13 14 c!"." 24, tok 1 14 15 c!"b" 25)]⟩

def viaElems : List Elem :=
  [.use ⟨.variable, tok 0 7 8 c!"x" 16, []⟩, .op (tok 0 9 10 c!"=" 17), .use ⟨.variable, tok 1 8 9 c!"a" 21, []⟩, .op (tok 1 10 11 c!"=" 22), .use useVia]

theorem viaTags_read : Tags digit viaNodes viaTags := by
  refine Tags.stmt rfl rfl (token_lf ..) rfl (token_lf ..) rfl (.set (token_lf ..) rfl rfl ?_) ?_
  · exact Header.cons (hs := [_]) (token_lf ..) (.name rfl (by decide)) (Header.cons (hs := [_]) (token_lf ..) (.eq rfl (by decide))
      (Header.cons (hs := []) (token_lf ..) (.numeral rfl (by decide)) .nil))
  refine Tags.stmt rfl rfl (token_lf ..) rfl (token_lf ..) rfl (.with_ (token_lf ..) rfl rfl ?_) ?_
  · exact Header.cons (hs := [_]) (token_lf ..) (.name rfl (by decide)) (Header.cons (hs := [_]) (token_lf ..) (.eq rfl (by decide))
      (Header.cons (hs := [_]) (token_lf ..) (.name rfl (by decide)) (Header.cons (hs := []) (token_lf ..) (.op rfl (by decide))
        (Header.cons (hs := [_]) (token_lf ..) (.name rfl (by decide)) .nil))))
  exact Tags.stmt rfl rfl (token_lf ..) rfl (token_lf ..) rfl (.close (token_lf ..) rfl ⟨c!"with", rfl⟩ .nil) .nil

theorem viaElems_read : ReadsTree digit viaRoot viaElems := by
  refine ⟨relevant, fun n => by simp [relevant, Relevant], ?_⟩
  have hf : viaRoot.flat.filter relevant = [lf .identifier 16 0 7 8 c!"x", lf .operator 17 0 9 10 c!"=", lf .identifier 21 1 8 9 c!"a",
      lf .operator 22 1 10 11 c!"=", lf .identifier 23 1 12 13 c!"x", lf .operator 24 1 13 14 c!".", lf .identifier 25 1 14 15 c!"b"] := rfl
  rw [hf]
  have nm : ∀ (i l a b : Nat) (t : Str), ¬ IsNumeral digit t → IsName digit (lf .identifier i l a b t) :=
    fun i l a b t h => ⟨rfl, by simp [lf, Syn.text], h⟩
  refine ReadsOff.use (ms := []) (fs := []) .variable (nm _ _ _ _ _ (by decide)) .nil (.op ⟨rfl, by simp [lf, Syn.text], by simp [lf, Syn.text]⟩ ?_)
  refine ReadsOff.use (ms := []) (fs := []) .variable (nm _ _ _ _ _ (by decide)) .nil (.op ⟨rfl, by simp [lf, Syn.text], by simp [lf, Syn.text]⟩ ?_)
  exact ReadsOff.use (ms := []) (fs := [_, _]) (ns := []) .variable (nm _ _ _ _ _ (by decide)) (.cons ⟨rfl, rfl⟩ (nm _ _ _ _ _ (by decide)) .nil) .nil

theorem viaElems_wf : Elems.Wf viaElems := by
  refine ⟨?_, ⟨⟨0, 2⟩, by decide, ?_⟩⟩
  · simp [viaElems, useVia, Elem.Ok, Mark.Ok, reserved, tok]
  · simp [viaElems, useVia, Elem.toks, Use.toks, Mark.toks, Ordered, tok, Point.lt_def, Point.le_def]

theorem via_opened : ∃ s' out r tree, server.handle (env.over viaSyn) emptyWorld (.didOpen uriA []) = .ok (s', out, r) ∧
    Spec.Analysed env s'.files uriA [] tree viaTags ∧ viaSyn.root tree [] = viaRoot := by
  have : ∃ s' out r, server.handle (env.over viaSyn) emptyWorld (.didOpen uriA []) = .ok (s', out, r) ∧
      s'.files.documents.get? uriA = some [] ∧
      (s'.files.trees .template).get? uriA = some (.parsed .jinja [] (some (.parsed .jinja c!"aaa" none))) := ⟨_, _, _, rfl, rfl, rfl⟩
  obtain ⟨s', out, r, h, h1, h2⟩ := this
  exact ⟨s', out, r, _, h, C83_analysed env viaSyn emptyWorld server s' (.didOpen uriA []) uriA [] _ out r _ (.opened _) rfl h h1 h2
    (⟨by decide, by decide, by decide⟩ : WellFormed viaRoot) rfl viaTags_read, rfl⟩

end Fix

/-- `b` is bound at 1:14, and goto-definition leads from there elsewhere; where `a` is bound, to itself; from `x.b` at `x`, twice to the same place -/
example : ∃ s : Server, (∃ b ∈ Items.bindings ⟨9, 9⟩ 0 Fix.viaTags, b.name = c!"b" ∧ b.start = ⟨1, 14⟩) ∧
    (∃ r : Range, r.start ≠ ⟨1, 14⟩ ∧ s.handle (Fix.env.over Fix.viaSyn) Fix.emptyWorld (.goto Fix.uriA ⟨1, 14⟩) = .ok (s, [], .goto (some (.scalar ⟨Fix.uriA, r⟩)))) ∧
    s.handle (Fix.env.over Fix.viaSyn) Fix.emptyWorld (.goto Fix.uriA ⟨1, 8⟩) = .ok (s, [], .goto (some (.scalar ⟨Fix.uriA, ⟨⟨1, 8⟩, ⟨1, 9⟩⟩⟩))) := by
  obtain ⟨s, out, r, tree, h, ha, hr⟩ := Fix.via_opened
  have wf : WellFormed Fix.viaRoot := ⟨by decide, by decide, by decide⟩
  have laid : Laid Fix.viaRoot := ⟨by decide, by decide, by decide, by decide⟩
  have filled : Filled Fix.viaRoot := by unfold Filled; decide
  have short : ∀ b ∈ Items.bindings ⟨9, 9⟩ 0 Fix.viaTags, Short b := by unfold Short; decide
  refine ⟨s, by decide, ?_, ?_⟩
  · exact C146_attribute_refuted Fix.env Fix.viaSyn Fix.emptyWorld s Fix.uriA [] tree Fix.viaTags (Fix.viaElems.take 4) [] .variable (Fix.tok 1 12 13 c!"x" 23)
      (Fix.tok 1 13 14 c!"." 24) (Fix.tok 1 14 15 c!"b" 25) [] [] ⟨1, 14⟩ rfl ha wf laid filled Fix.viaTags_read Fix.viaElems_read Fix.viaElems_wf
      (by simp [Fix.viaElems, Elem.toks, Use.toks, Mark.toks, Fix.tok, SmallPoint]) (by decide) (by decide) short (fun c cs hc => by cases hc)
      ⟨⟨c!"x", ⟨0, 7⟩, ⟨0, 8⟩, .setVariable, ⟨9, 9⟩⟩, (by decide : _ ∈ Items.bindings ⟨9, 9⟩ 0 Fix.viaTags), by unfold Reaches; decide⟩
      ⟨c!"b", ⟨1, 14⟩, ⟨1, 15⟩, .withVariable, ⟨2, 0⟩⟩ (by decide : _ ∈ Items.bindings ⟨9, 9⟩ 0 Fix.viaTags) rfl rfl rfl (by decide)
  · exact C146_goto_partial Fix.env Fix.viaSyn Fix.emptyWorld s Fix.uriA [] tree Fix.viaTags Fix.viaElems ⟨1, 8⟩ rfl ha wf laid filled Fix.viaTags_read
      (by decide : ∀ n ∈ Fix.viaRoot.flat, n.stop ≤ ⟨9, 9⟩) Fix.viaElems_read Fix.viaElems_wf short ⟨c!"a", ⟨1, 8⟩, ⟨1, 9⟩, .withVariable, ⟨2, 0⟩⟩
      (by decide : _ ∈ Items.bindings ⟨9, 9⟩ 0 Fix.viaTags) (by decide) (by decide)
      (by simp [AsAttribute, Fix.viaElems, Fix.useVia, Fix.tok]) (by decide)

/-- opening that template reports nothing where `x`, `a` and `b` are bound; goto-definition from the second `x` settles -/
example : ∃ s out ds, (∃ r, Fix.server.handle (Fix.env.over Fix.viaSyn) Fix.emptyWorld (.didOpen Fix.uriA []) = .ok (s, out, r)) ∧
    out = [.diag (HMap.empty.insert Fix.uriA ds)] ∧ (∀ b ∈ Items.bindings ⟨9, 9⟩ 0 Fix.viaTags, ∀ rep ∈ useDiags ds, rep.start ≠ b.start) ∧
    ∃ r : Range, s.handle (Fix.env.over Fix.viaSyn) Fix.emptyWorld (.goto Fix.uriA ⟨1, 12⟩) = .ok (s, [], .goto (some (.scalar ⟨Fix.uriA, r⟩))) ∧
      s.handle (Fix.env.over Fix.viaSyn) Fix.emptyWorld (.goto Fix.uriA r.start) = .ok (s, [], .goto (some (.scalar ⟨Fix.uriA, r⟩))) := by
  obtain ⟨s, out, r, tree, h, ha, hr⟩ := Fix.via_opened
  have wf : WellFormed Fix.viaRoot := ⟨by decide, by decide, by decide⟩
  have laid : Laid Fix.viaRoot := ⟨by decide, by decide, by decide, by decide⟩
  have filled : Filled Fix.viaRoot := by unfold Filled; decide
  have short : ∀ b ∈ Items.bindings ⟨9, 9⟩ 0 Fix.viaTags, Short b := by unfold Short; decide
  have ends : ∀ n ∈ Fix.viaRoot.flat, n.stop ≤ ⟨9, 9⟩ := by decide
  obtain ⟨ds, k1, k2⟩ := C146_quiet_partial Fix.env Fix.viaSyn Fix.emptyWorld Fix.server s _ Fix.uriA [] tree out r Fix.viaTags Fix.viaElems (.opened _) rfl rfl h
    ha.doc ha.held wf rfl laid filled Fix.viaTags_read ends Fix.viaElems_read Fix.viaElems_wf
  refine ⟨s, out, ds, ⟨r, h⟩, k1, fun b hb => k2 b hb ((by decide : ∀ b ∈ Items.bindings ⟨9, 9⟩ 0 Fix.viaTags, b.kind ≠ .templateBlock) b hb), ?_⟩
  refine C146_twice_partial Fix.env Fix.viaSyn Fix.emptyWorld Fix.emptyWorld s Fix.uriA [] tree Fix.viaTags Fix.viaElems Fix.useVia ⟨1, 12⟩ rfl ha wf laid filled
    Fix.viaTags_read ends Fix.viaElems_read Fix.viaElems_wf short (by simp [Fix.viaElems]) (by decide) (by decide)
    ⟨⟨c!"x", ⟨0, 7⟩, ⟨0, 8⟩, .setVariable, ⟨9, 9⟩⟩, (by decide : _ ∈ Items.bindings ⟨9, 9⟩ 0 Fix.viaTags), by unfold Reaches; decide⟩ ?_
  rintro b _ hb ⟨v, h1, f, h2, h3, _⟩
  rw [hb] at h3
  simp [Fix.viaElems] at h1
  rcases h1 with rfl | rfl | rfl
  · cases h2
  · cases h2
  · cases List.mem_singleton.mp h2
    exact absurd h3 (by decide)

/-- the hypotheses hold at rest -/
example : ∃ as σ s E text tree, Calm (· = Fix.rootWorld) Fix.showing Fix.synOn Fix.typing as σ s Fix.uriT E ∧ E Fix.uriT = some text ∧
      TextReads Fix.synOn s Fix.uriT text tree Fix.smallP.items (Fix.plainElems (Fix.drawRoot Fix.smallP)) ∧ Laid (Fix.synOn.root tree text) ∧
      Filled (Fix.synOn.root tree text) ∧ (∀ n ∈ (Fix.synOn.root tree text).flat, n.stop ≤ Fix.showing.rootEnd tree) ∧
      (∀ b ∈ Items.bindings (Fix.showing.rootEnd tree) 0 Fix.smallP.items, Short b ∧ ¬ AsAttribute (Fix.plainElems (Fix.drawRoot Fix.smallP)) b ∧ b.name ∉ reserved) ∧
      (Items.bindings (Fix.showing.rootEnd tree) 0 Fix.smallP.items).length = 1 := by
  obtain ⟨as, σ, s, E, tree, h1, h2, h3⟩ := Fix.on_first
  refine ⟨as, σ, s, E, _, tree, h1, h2, ⟨h3, (⟨by decide +kernel, by decide +kernel, by decide +kernel⟩ : WellFormed (Fix.drawRoot Fix.smallP)), rfl,
      (Fix.readTags_sound rfl : Tags Fix.digit (Fix.draw Fix.smallP) Fix.smallP.items),
      (Fix.plainElems_read rfl : ReadsTree Fix.digit (Fix.drawRoot Fix.smallP) _), Fix.elems_wf_of (by decide +kernel)⟩,
      (⟨by decide +kernel, by decide +kernel, by decide +kernel, by decide +kernel⟩ : Laid (Fix.drawRoot Fix.smallP)),
      (by unfold Filled; decide +kernel : Filled (Fix.drawRoot Fix.smallP)),
      (by decide +kernel : ∀ n ∈ (Fix.drawRoot Fix.smallP).flat, n.stop ≤ ⟨9, 9⟩), ?_, (by decide +kernel : (Items.bindings ⟨9, 9⟩ 0 Fix.smallP.items).length = 1)⟩
  intro b hb
  have : ∀ b ∈ Items.bindings ⟨9, 9⟩ 0 Fix.smallP.items, Short b ∧ b.name ∉ reserved := by unfold Short; decide +kernel
  exact ⟨(this b hb).1, Fix.plainElems_fields _ _, (this b hb).2⟩

end JinjaLsp
