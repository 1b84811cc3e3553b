import Verif.Props.AtHome
import Verif.Props.NodeListed
/-
  C143: definitions are listed in the order of the text, and do not overlap.
-/

namespace JinjaLsp
open Node Spec NodeFiles

namespace Spec

/-- names have an extent -/
def Filled (root : Syn) : Prop := ∀ n ∈ root.flat, n.kind = .identifier → n.start < n.stop

end Spec

/-- the names of a tag are some of its nodes, in their order -/
theorem header_sub {digit : Char → Bool} {ns : List Syn} {ts : List HTok} (h : Header digit ns ts) :
    ∃ ms : List Syn, ms.Sublist ns ∧ (∀ m ∈ ms, Token m ∧ m.kind = .identifier) ∧ names ts = ms.map tokOf := by
  induction h with
  | nil => exact ⟨[], .slnil, by simp, rfl⟩
  | @cons n ns hs ts h1 h2 _ ih =>
    obtain ⟨ms, k1, k2, k3⟩ := ih
    cases h2 with
    | name hk _ =>
      refine ⟨n :: ms, k1.cons_cons _, fun m hm => ?_, ?_⟩
      · rcases List.mem_cons.mp hm with rfl | hm
        · exact ⟨h1, hk⟩
        · exact k2 m hm
      · show tokOf n :: names ts = _
        rw [k3]; rfl
    | eq => exact ⟨ms, k1.cons _, k2, k3⟩
    | numeral => exact ⟨ms, k1.cons _, k2, k3⟩
    | op => exact ⟨ms, k1.cons _, k2, k3⟩
    | word => exact ⟨ms, k1.cons _, k2, k3⟩
    | string => exact ⟨ms, k1.cons _, k2, k3⟩
    | other => exact ⟨ms, k1.cons _, k2, k3⟩

theorem header_first {digit : Char → Bool} {ns : List Syn} {t : Tok} {ts : List HTok} (h : Header digit ns (.name t :: ts)) :
    ∃ m ms, (m :: ms).Sublist ns ∧ (∀ x ∈ m :: ms, Token x ∧ x.kind = .identifier) ∧ t = tokOf m ∧ names ts = ms.map tokOf := by
  obtain ⟨ms, k1, k2, k3⟩ := header_sub h
  cases ms with
  | nil => cases k3
  | cons m ms =>
    have k3 : t :: names ts = tokOf m :: ms.map tokOf := k3
    injection k3 with e1 e2
    exact ⟨m, ms, k1, k2, e1, e2⟩

/-- what a tag binds are some of its nodes, in their order -/
theorem tag_sub {digit : Char → Bool} {d : Delims} {ns : List Syn} {i : Item} (h : Tag digit d ns i) :
    ∃ ms : List Syn, ms.Sublist ns ∧ (∀ m ∈ ms, Token m ∧ m.kind = .identifier) ∧ i.heads ++ i.block = ms.map tokOf := by
  have one : ∀ {kw : Syn} {ms : List Syn} {t : Tok} {ts : List HTok}, Header digit ms (.name t :: ts) →
      ∃ xs : List Syn, xs.Sublist (kw :: ms) ∧ (∀ m ∈ xs, Token m ∧ m.kind = .identifier) ∧ [t] = xs.map tokOf := by
    intro kw ms t ts h
    obtain ⟨m, rest, k1, k2, rfl, _⟩ := header_first h
    refine ⟨[m], ((List.singleton_sublist.mpr (k1.subset List.mem_cons_self))).cons _, fun x hx => ?_, rfl⟩
    cases List.mem_singleton.mp hx
    exact k2 _ List.mem_cons_self
  cases h with
  | plain h => exact ⟨[], List.nil_sublist _, by simp, rfl⟩
  | set _ _ _ h3 => exact one h3
  | for_ _ _ _ h3 => exact one h3
  | with_ _ _ _ h3 =>
    obtain ⟨ms, k1, k2, k3⟩ := header_sub h3
    exact ⟨ms, k1.cons _, k2, (List.append_nil _).trans k3⟩
  | macro_ _ _ _ h3 =>
    obtain ⟨m, ms, k1, k2, rfl, k3⟩ := header_first h3
    refine ⟨m :: ms, k1.cons _, k2, ?_⟩
    show tokOf m :: _ ++ [] = _
    rw [List.append_nil, k3]; rfl
  | block _ _ _ h3 => exact one h3
  | open_ => exact ⟨[], List.nil_sublist _, by simp, rfl⟩
  | close => exact ⟨[], List.nil_sublist _, by simp, rfl⟩

theorem head_extents {d : Delims} (inner outer : Point) (g : Head) :
    (g.bindings inner outer).map (fun b => (b.start, b.stop)) = ((Item.opening d g).heads ++ (Item.opening d g).block).map (fun t => (t.start, t.stop)) := by
  cases g <;> simp [Head.bindings, Item.heads, Item.block, Tok.bind, Function.comp_def]

theorem children_sub (ns : List Syn) : ns.Sublist (Syn.flatAll ns) := by
  induction ns with
  | nil => exact List.nil_sublist _
  | cons n ns ih =>
    rw [Syn.flatAll, flat_eq, List.cons_append]
    exact (ih.trans (List.sublist_append_right _ _)).cons_cons _

/-- the extents of the bindings of a template are those of some of its names, in their order -/
theorem bindings_leaves {digit : Char → Bool} {last : Point} {ns : List Syn} {is : List Item} (h : Tags digit ns is) :
    ∃ ms : List Syn, ms.Sublist (Syn.flatAll ns) ∧ (∀ m ∈ ms, Token m ∧ m.kind = .identifier) ∧
      ∀ k, (Items.bindings last k is).map (fun b => (b.start, b.stop)) = ms.map fun m => (m.start, m.stop) := by
  induction h with
  | nil => exact ⟨[], List.nil_sublist _, by simp, fun _ => rfl⟩
  | text _ _ _ ih =>
    obtain ⟨ms, k1, k2, k3⟩ := ih
    exact ⟨ms, by rw [Syn.flatAll]; exact k1.trans (List.sublist_append_right _ _), k2, k3⟩
  | @expr _ _ _ _ rest _ h2 _ ih =>
    obtain ⟨ms, k1, k2, k3⟩ := ih
    refine ⟨ms, by rw [Syn.flatAll]; exact k1.trans (List.sublist_append_right _ _), k2, fun k => ?_⟩
    have : ∀ {ns : List Syn} {ts : List HTok} {is : List Item}, Inline digit ns ts is → ∀ k, ∃ j, Items.bindings last k (is ++ rest) = Items.bindings last j rest := by
      intro ns ts is h
      induction h with
      | nil => exact fun k => ⟨k, rfl⟩
      | tok _ _ _ ih => exact ih
      | branch _ _ _ _ ih => exact fun k => ih (k + 1)
    obtain ⟨j, hj⟩ := this h2 k
    rw [List.cons_append]
    simp only [Items.bindings]
    rw [hj]
    exact k3 j
  | @stmt n b e inner ns i rest _ h2 _ _ _ _ h3 _ ih =>
    obtain ⟨ms, k1, k2, k3⟩ := ih
    obtain ⟨xs, l1, l2, l3⟩ := tag_sub h3
    have hext : xs.map (fun m => (m.start, m.stop)) = (i.heads ++ i.block).map fun t => (t.start, t.stop) := by
      rw [l3, List.map_map]; rfl
    refine ⟨xs ++ ms, ?_, fun m hm => (List.mem_append.mp hm).elim (l2 m) (k2 m), fun k => ?_⟩
    · rw [Syn.flatAll, flat_eq, h2]
      refine List.Sublist.append ?_ k1
      exact (((l1.trans (List.sublist_append_left _ _)).cons _).trans (children_sub _)).cons _
    · rw [List.map_append, hext]
      cases i with
      | leaf l =>
        cases l with
        | set dl kw t ts => simp only [Items.bindings, List.map_cons, k3 k]; rfl
        | expr ts => exact k3 k
        | stmt dl ts => exact k3 k
      | opening dl g =>
        simp only [Items.bindings, List.map_append, k3 (k + 1)]
        rw [head_extents (d := dl), List.map_append]
      | inline kw ts => exact k3 (k + 1)
      | closing e => exact k3 (k - 1)

/-- bindings do not overlap and are in the order of the text -/
theorem bindings_apart {digit : Char → Bool} {last : Point} {root : Syn} {is : List Item} (hs : WellFormed root) (hl : Laid root) (hf : Filled root)
    (ht : Tags digit root.children is) (k : Nat) :
    (∀ b ∈ Items.bindings last k is, b.start < b.stop) ∧ (Items.bindings last k is).Pairwise fun a b => a.stop ≤ b.start := by
  obtain ⟨ms, k1, k2, k3⟩ := bindings_leaves (last := last) ht
  have hsub : ms.Sublist root.flat := by rw [flat_eq]; exact k1.cons _
  have hpw : ms.Pairwise fun a b => a.stop ≤ b.start := by
    have h1 := hl.order.sublist hsub
    have h2 : ms.Pairwise fun a b => a.id ≠ b.id := List.pairwise_map.mp (hs.ids.sublist (hsub.map _))
    refine (List.Pairwise.imp_of_mem (fun {a b} ha hb h => ?_) (h1.and h2))
    obtain ⟨⟨_, h4⟩, h5⟩ := h
    rcases h4 with h4 | h4
    · rw [flat_eq, (k2 a ha).1.leaf, Syn.flatAll] at h4
      simp only [List.map_cons, List.map_nil, List.mem_singleton] at h4
      exact (h5 h4.symm).elim
    · exact h4
  constructor
  · intro b hb
    have : (b.start, b.stop) ∈ ms.map fun m => (m.start, m.stop) := k3 k ▸ List.mem_map_of_mem hb
    obtain ⟨m, hm, e⟩ := List.mem_map.mp this
    have := hf m (hsub.subset hm) (k2 m hm).2
    rw [Prod.mk.injEq] at e
    rw [← e.1, ← e.2]
    exact this
  · have : (ms.map fun m => (m.start, m.stop)).Pairwise fun a b => a.2 ≤ b.1 := List.pairwise_map.mpr hpw
    rw [← k3 k] at this
    exact List.pairwise_map.mp this

theorem separate_of {bs : List Binding} (h1 : ∀ b ∈ bs, b.start < b.stop) (h2 : bs.Pairwise fun a b => a.stop ≤ b.start) : ∀ b ∈ bs, Separate b bs := by
  intro b hb c hc
  obtain ⟨i, hi, rfl⟩ := List.getElem_of_mem hb
  obtain ⟨j, hj, rfl⟩ := List.getElem_of_mem hc
  have hp := List.pairwise_iff_getElem.mp h2
  rcases Nat.lt_trichotomy i j with h | h | h
  · exact .inr (.inr (hp i j hi hj h))
  · subst h; exact .inl rfl
  · exact .inr (.inl (Point.lt_of_lt_of_le (h1 _ hc) (hp j i hj hi h)))

theorem starts_of {bs : List Binding} (h1 : ∀ b ∈ bs, b.start < b.stop) (h2 : bs.Pairwise fun a b => a.stop ≤ b.start) : StartsApart bs := by
  intro a ha b hb e
  rcases separate_of h1 h2 a ha b hb with h | h | h
  · exact h.symm
  · exact (Point.lt_irrefl _ (e ▸ h)).elim
  · exact (Point.lt_irrefl _ (Point.lt_of_lt_of_le (e ▸ h1 a ha) h)).elim

/-! ## C143 -/

/-- **C143** The outline of an analysed template has an entry for each definition, in the order of the text: each range has an extent, and ends before the
next ones begin. -/
theorem C143_outline (env : Env) (sx : Syntax) (w : World) (s : Server) (uri text : Str) (tree : Tree) (is : List Item)
    (h : Spec.Analysed env s.files uri text tree is) (hs : WellFormed (sx.root tree text)) (hl : Laid (sx.root tree text)) (hf : Filled (sx.root tree text))
    (ht : Tags sx.digit (sx.root tree text).children is) (hfit : ∀ b ∈ Items.bindings (env.rootEnd tree) 0 is, Short b) :
    ∃ ds, s.handle (env.over sx) w (.documentSymbol uri) = .ok (s, [], .symbols (some ds)) ∧
      ds.map (fun d => (d.name, d.range)) = (Items.bindings (env.rootEnd tree) 0 is).map (fun b => (b.name, b.range)) ∧
      (∀ d ∈ ds, toPoint d.range.start < toPoint d.range.stop) ∧ ds.Pairwise fun a b => toPoint a.range.stop ≤ toPoint b.range.start := by
  obtain ⟨_, _, vs, hv, hvs⟩ := h
  obtain ⟨k1, k2⟩ := bindings_apart (last := env.rootEnd tree) hs hl hf ht 0
  rw [← hvs] at k1 k2 hfit ⊢
  have hr : ∀ v ∈ vs, toRange (v.start, v.stop) = v.binding.range := by
    intro v hm
    have := hfit _ (List.mem_map_of_mem hm)
    simp only [Short, Identifier.binding] at this
    simp only [toRange, toU32, Binding.range, Identifier.binding]
    rw [Nat.mod_eq_of_lt (by omega), Nat.mod_eq_of_lt (by omega), Nat.mod_eq_of_lt (by omega), Nat.mod_eq_of_lt (by omega)]
  refine ⟨_, by simp only [Server.handle, LspFiles.documentSymbols, hv]; rfl, ?_, ?_, ?_⟩
  · rw [List.map_map, List.map_map]
    exact List.map_congr_left fun v hm => by simp only [Function.comp_def, hr v hm]; rfl
  · intro d hd
    obtain ⟨v, hm, rfl⟩ := List.mem_map.mp hd
    show toPoint (toRange (v.start, v.stop)).start < toPoint (toRange (v.start, v.stop)).stop
    rw [hr v hm]
    exact k1 _ (List.mem_map_of_mem hm)
  · refine List.pairwise_map.mpr (List.Pairwise.imp_of_mem (fun {a b} ha hb h => ?_) (List.pairwise_map.mp k2))
    show toPoint (toRange (a.start, a.stop)).stop ≤ toPoint (toRange (b.start, b.stop)).start
    rw [hr a ha, hr b hb]
    exact h

/-- **C143** (at rest) When typing has stopped and the server has come to rest, this holds for the text in the editor. -/
theorem C143_rest {W : World → Prop} (hO : ∀ w, W w → Orderly w) (env : Env) (sx : Syntax) (he : Sound (env.over sx)) (hu : NormalUrls env)
    (cs : List Msg) (as : List (HMap Str Diags)) (σ : Sys) (s : Server) (u : Str) (E : Editor) (h : Calm W env sx cs as σ s u E) :
    ∃ text, E u = some text ∧ ∀ tree is es, TextReads sx s u text tree is es → Laid (sx.root tree text) → Filled (sx.root tree text) →
      (∀ b ∈ Items.bindings (env.rootEnd tree) 0 is, Short b) → ∀ w,
        ∃ ds, s.handle (env.over sx) w (.documentSymbol u) = .ok (s, [], .symbols (some ds)) ∧
          ds.map (fun d => (d.name, d.range)) = (Items.bindings (env.rootEnd tree) 0 is).map (fun b => (b.name, b.range)) ∧
          (∀ d ∈ ds, toPoint d.range.start < toPoint d.range.stop) ∧ ds.Pairwise fun a b => toPoint a.range.stop ≤ toPoint b.range.start := by
  obtain ⟨text, _, e1, _, e3⟩ := calm_shown hO he hu h
  exact ⟨text, e1, fun tree is es hr hl hf hfit w => C143_outline env sx w s u text tree is (e3 _ _ _ hr).1 hr.formed hl hf hr.tags hfit⟩

/-- **C143** (definitions) Goto-definition from any definition of a template leads to that definition itself. -/
theorem C143_home (env : Env) (sx : Syntax) (w : World) (s : Server) (uri text : Str) (tree : Tree) (is : List Item) (es : List Elem) (u : Use)
    (pos : Position) (hx : fileExt uri = some .template) (h : Spec.Analysed env s.files uri text tree is) (hs : WellFormed (sx.root tree text))
    (hl : Laid (sx.root tree text)) (hf : Filled (sx.root tree text)) (ht : Tags sx.digit (sx.root tree text).children is)
    (he : ∀ n ∈ (sx.root tree text).flat, n.stop ≤ env.rootEnd tree) (hr : ReadsTree sx.digit (sx.root tree text) es) (hw : Elems.Wf es) (hu : .use u ∈ es)
    (h1 : u.root.start ≤ toPoint pos) (h2 : toPoint pos < u.root.stop) (hfit : ∀ b ∈ Items.bindings (env.rootEnd tree) 0 is, Short b)
    (b : Binding) (hb : b ∈ Items.bindings (env.rootEnd tree) 0 is) (hn : NameOf u b) :
    s.handle (env.over sx) w (.goto uri pos) = .ok (s, [], .goto (some (.scalar ⟨uri, b.range⟩))) := by
  obtain ⟨k1, k2⟩ := bindings_apart (last := env.rootEnd tree) hs hl hf ht 0
  exact C138_self env sx w s uri text tree is es u pos hx h hs hl hr hw hu h1 h2 hfit b hb hn
    (Point.le_trans (Point.le_of_lt h2) (hn.2.2 ▸ C140_scope env sx text tree is hs hl ht he b hb)) (separate_of k1 k2 b hb)

/-- variables that fit are listed with their lines moved -/
theorem shiftAll_fit {prof : Profile} {line : Nat} : ∀ {vs : List Identifier}, (∀ v ∈ vs, v.start.row + line < 4294967296 ∧ v.start.column < 4294967296 ∧
      v.stop.row + line < 4294967296 ∧ v.stop.column < 4294967296) →
    ∃ js, shiftAll prof line vs = .ok js ∧ js.map (fun j => (j.name, (⟨j.start, j.stop⟩ : Range))) = vs.map fun v => (v.name, hostPlace line v.binding)
  | [], _ => ⟨[], rfl, rfl⟩
  | v :: vs, h => by
    obtain ⟨js, k1, k2⟩ := shiftAll_fit (prof := prof) fun v hv => h v (List.mem_cons_of_mem _ hv)
    obtain ⟨a1, a2, a3, a4⟩ := h v List.mem_cons_self
    have fit : ∀ p : Point, p.row + line < 4294967296 → p.column < 4294967296 → shiftPos prof (toPosition2 p) line = .ok ⟨p.row + line, p.column⟩ := by
      intro p h1 h2
      have e : toPosition2 p = ⟨p.row, p.column⟩ := by
        simp only [toPosition2, toU32]
        rw [Nat.mod_eq_of_lt (by omega), Nat.mod_eq_of_lt h2]
      rw [e]
      simp [shiftPos, uadd32, h1]
    refine ⟨_, by simp only [shiftAll, fit _ a1 a2, fit _ a3 a4, k1]; rfl, ?_⟩
    rw [List.map_cons, List.map_cons, k2]
    rfl

/-- **C143** (Node API) get_variables lists the definitions of an embedded template where the host document has them, in the order of the text: each range
has an extent, and ends before the next ones begin. -/
theorem C143_node {env : Env} {sx : Syntax} {w : World} {calls : List Call} {n : NodeFiles} {id : Nat} {fn uri host above margin content below : Str}
    {line : Nat} {col : Option Nat} {root : Syn} {last : Point} {is : List Item} {es : List Elem}
    (h : HostedItems env sx w calls n id fn uri host above margin content below line col root last is es) (hf : Filled root) :
    ∃ js, n.getVariables (env.over sx) uri line = .ok (some js) ∧
      js.map (fun j => (j.name, (⟨j.start, j.stop⟩ : Range))) = (Items.bindings last 0 is).map (fun b => (b.name, hostPlace line b)) ∧
      (∀ j ∈ js, toPoint j.start < toPoint j.stop) ∧ js.Pairwise fun a b => toPoint a.stop ≤ toPoint b.start := by
  obtain ⟨old, _, _, vs, hv, hvs⟩ := h.analysed
  rw [h.ends] at hvs
  have hline := h.line_small
  obtain ⟨js, k1, k2⟩ := shiftAll_fit (prof := (env.over sx).profile) (line := line) (vs := vs) (by
    intro v hm
    rcases h.occurs hv v hm with ⟨_, e1, e2⟩ | ⟨pre, ho⟩
    · simp only [e1, e2, Point.zero]; omega
    · have := h.fits ho; omega)
  obtain ⟨l1, l2⟩ := bindings_apart (last := last) h.wf h.nodes hf h.tags 0
  have hmap : js.map (fun j => (j.name, (⟨j.start, j.stop⟩ : Range))) = (Items.bindings last 0 is).map (fun b => (b.name, hostPlace line b)) := by
    rw [k2, ← hvs, List.map_map]; rfl
  have lt : ∀ {p q : Point}, p < q → (⟨p.row + line, p.column⟩ : Point) < ⟨q.row + line, q.column⟩ := by
    intro p q h
    simp only [Point.lt_def] at h ⊢
    omega
  have le : ∀ {p q : Point}, p ≤ q → (⟨p.row + line, p.column⟩ : Point) ≤ ⟨q.row + line, q.column⟩ := by
    intro p q h
    simp only [Point.le_def] at h ⊢
    omega
  refine ⟨js, by simp only [getVariables, hv, k1], hmap, fun j hj => ?_, ?_⟩
  · have : (j.name, (⟨j.start, j.stop⟩ : Range)) ∈ (Items.bindings last 0 is).map (fun b => (b.name, hostPlace line b)) := hmap ▸ List.mem_map_of_mem hj
    obtain ⟨b, hb, e⟩ := List.mem_map.mp this
    simp only [Prod.mk.injEq, hostPlace, Range.mk.injEq] at e
    rw [← e.2.1, ← e.2.2]
    exact lt (l1 b hb)
  · have : ((Items.bindings last 0 is).map (fun b => (b.name, hostPlace line b))).Pairwise fun a b => toPoint a.2.stop ≤ toPoint b.2.start :=
      List.pairwise_map.mpr (l2.imp fun h => le h)
    rw [← hmap] at this
    exact List.pairwise_map.mp this

/-- **C143** (definitions; Node API) goto_definition from any definition of an embedded template leads to that definition itself. -/
theorem C143_node_home {env : Env} {sx : Syntax} {w : World} {calls : List Call} {n : NodeFiles} {id : Nat} {fn uri host above margin content below : Str}
    {line : Nat} {col : Option Nat} {root : Syn} {last : Point} {is : List Item} {es : List Elem}
    (h : HostedItems env sx w calls n id fn uri host above margin content below line col root last is es) (hf : Filled root)
    (he : ∀ m ∈ root.flat, m.stop ≤ last) (u : Use) (hu : .use u ∈ es) (pos : Position) (before after url : Str)
    (hc : InName host above margin content below col u.root pos before after) (hin : PartOf fn uri) (hurl : env.urlParse fn = some url)
    (b : Binding) (hb : b ∈ Items.bindings last 0 is) (hn : NameOf u b) :
    n.gotoDefinition (env.over sx) w id fn line pos = .ok (some [⟨url, hostPlace line b, false⟩]) := by
  obtain ⟨k1, k2⟩ := bindings_apart (last := last) h.wf h.nodes hf h.tags 0
  obtain ⟨l, _, _, _, h2, heq, _⟩ := h.cursor hu hc
  have hid := h.wf.ids
  have ho := h.nodes.order
  rw [flat_eq] at hid ho he
  rw [List.map_cons] at hid
  have hfin := bindings_reach h.tags (List.nodup_cons.mp hid).2 (List.pairwise_cons.mp ho).2 (fun m hm => he m (List.mem_cons_of_mem _ hm)) 0 b hb
  exact C139_self_partial h u hu pos before after url hc hin hurl b hb hn
    (Point.le_trans (Point.le_of_lt (heq ▸ h2)) (hn.2.2 ▸ hfin)) (separate_of k1 k2 b hb)

/-! ### Examples -/

local macro "regular" : term =>
  `((⟨⟨by decide +kernel, by decide +kernel, by decide +kernel⟩, ⟨by decide +kernel, by decide +kernel, by decide +kernel, by decide +kernel⟩,
    by unfold Legible; decide +kernel, by unfold HasError; decide +kernel, by decide +kernel, by decide +kernel, by decide +kernel⟩ : Regular _))

local macro "both" : term =>
  `((⟨regular, regular, Fix.readTags_sound rfl, Fix.readTags_sound rfl, ⟨Fix.plainElems_read rfl, Fix.elems_wf_of (by decide +kernel)⟩,
    ⟨Fix.plainElems_read rfl, Fix.elems_wf_of (by decide +kernel)⟩, Fix.uses_mem (by decide +kernel), Fix.uses_mem (by decide +kernel), _, _, _, _,
    ⟨⟨.didOpen Fix.uriA [], _, .opened _, rfl⟩, by decide, rfl, rfl⟩, ⟨⟨.didOpen Fix.uriA c!"n", _, .opened _, rfl⟩, by decide, rfl, rfl⟩⟩ : Fix.Both _ _ _))

/-- the outline of a block with a loop with a `set` lists three definitions, and goto-definition on `s` leads to itself -/
example : ∃ (s : Server) (ds : List DocSymbol), s.handle (Fix.envTwo.over (Fix.synOf Fix.homeP Fix.homeP)) Fix.emptyWorld (.documentSymbol Fix.uriA) =
      .ok (s, [], .symbols (some ds)) ∧ ds.map (·.name) = [c!"c", c!"k", c!"s"] ∧
    (ds.Pairwise fun a b => toPoint a.range.stop ≤ toPoint b.range.start) ∧
    s.handle (Fix.envTwo.over (Fix.synOf Fix.homeP Fix.homeP)) Fix.emptyWorld (.goto Fix.uriA ⟨2, 22⟩) =
      .ok (s, [], .goto (some (.scalar ⟨Fix.uriA, ⟨⟨2, 21⟩, ⟨2, 29⟩⟩⟩))) := by
  have K : Fix.Both Fix.homeP Fix.homeP ⟨.variable, Fix.tk 1 2 c!"k", []⟩ := both
  obtain ⟨s, _, hs, _⟩ := K.recorded
  have short : ∀ b ∈ Items.bindings (Fix.envTwo.rootEnd Fix.treeOne) 0 Fix.homeP.items, Short b := by unfold Short; decide +kernel
  have filled : Filled (Fix.drawRoot Fix.homeP) := by unfold Filled; decide +kernel
  have hend : ∀ n ∈ (Fix.drawRoot Fix.homeP).flat, n.stop ≤ Fix.envTwo.rootEnd Fix.treeOne := by decide +kernel
  obtain ⟨ds, k1, k2, _, k4⟩ := C143_outline Fix.envTwo (Fix.synOf Fix.homeP Fix.homeP) Fix.emptyWorld s Fix.uriA [] Fix.treeOne Fix.homeP.items hs K.one.formed
    K.one.laid filled K.tags short
  refine ⟨s, ds, k1, ?_, k4, C143_home Fix.envTwo (Fix.synOf Fix.homeP Fix.homeP) Fix.emptyWorld s Fix.uriA [] Fix.treeOne Fix.homeP.items
    (Fix.plainElems (Fix.drawRoot Fix.homeP)) ⟨.variable, Fix.tk 2 2 c!"s", []⟩ ⟨2, 22⟩ (by decide) hs K.one.formed K.one.laid filled K.tags hend K.reads.1 K.reads.2
    (Fix.uses_mem (by decide +kernel)) (by decide) (by decide) short ((Fix.tk 2 2 c!"s").bind .setVariable ⟨3, 1⟩) (by decide +kernel) ⟨rfl, rfl, rfl⟩⟩
  have := congrArg (List.map Prod.fst) k2
  rw [List.map_map, List.map_map] at this
  exact this.trans (by decide +kernel)

/-- the hypotheses hold at rest -/
example : ∃ as σ s E text tree, Calm (· = Fix.rootWorld) Fix.showing Fix.synOn Fix.typing as σ s Fix.uriT E ∧ E Fix.uriT = some text ∧
      TextReads Fix.synOn s Fix.uriT text tree Fix.smallP.items (Fix.plainElems (Fix.drawRoot Fix.smallP)) ∧ Laid (Fix.synOn.root tree text) ∧
      Filled (Fix.synOn.root tree text) ∧ ∀ b ∈ Items.bindings (Fix.showing.rootEnd tree) 0 Fix.smallP.items, Short b := by
  obtain ⟨as, σ, s, E, tree, h1, h2, h3⟩ := Fix.on_first
  refine ⟨as, σ, s, E, _, tree, h1, h2, ⟨h3, (⟨by decide +kernel, by decide +kernel, by decide +kernel⟩ : WellFormed (Fix.drawRoot Fix.smallP)), rfl,
      (Fix.readTags_sound rfl : Tags Fix.digit (Fix.draw Fix.smallP) Fix.smallP.items),
      (Fix.plainElems_read rfl : ReadsTree Fix.digit (Fix.drawRoot Fix.smallP) _), Fix.elems_wf_of (by decide +kernel)⟩,
      (⟨by decide +kernel, by decide +kernel, by decide +kernel, by decide +kernel⟩ : Laid (Fix.drawRoot Fix.smallP)),
      (by unfold Filled; decide +kernel : Filled (Fix.drawRoot Fix.smallP)), ?_⟩
  show ∀ b ∈ Items.bindings ⟨9, 9⟩ 0 _, Short b
  unfold Short
  decide +kernel

/-- of the two variables of an embedded template, the first is listed first; the second leads to itself -/
example : ∃ (n : NodeFiles) (js : List JsIdentifier), n.getVariables (Fix.env.over Fix.piecesSyn) Fix.offsetUri 1 = .ok (some js) ∧ js.length = 2 ∧
    (js.Pairwise fun a b => toPoint a.stop ≤ toPoint b.start) ∧
    n.gotoDefinition (Fix.env.over Fix.piecesSyn) Fix.world 7 c!"f" 1 ⟨4, 7⟩ = .ok (some [⟨c!"f", ⟨⟨4, 7⟩, ⟨4, 8⟩⟩, false⟩]) := by
  obtain ⟨n, h⟩ := Fix.long_hosted
  obtain ⟨js, k1, k2, _, k4⟩ := C143_node h (by unfold Filled; decide +kernel)
  refine ⟨n, js, k1, ?_, k4, C143_node_home h (by unfold Filled; decide +kernel) (by decide +kernel) Fix.againUse Fix.long_set.2 _ _ _ c!"f" Fix.long_inAgain
    ⟨c!"file:///home/", c!".7.jinja", by decide⟩ rfl ((Fix.tok 3 7 8 c!"a" 62).bind .setVariable ⟨9, 9⟩) (by decide +kernel) ⟨rfl, rfl, rfl⟩⟩
  have := congrArg List.length k2
  rw [List.length_map, List.length_map] at this
  exact this.trans (by decide +kernel)

end JinjaLsp
