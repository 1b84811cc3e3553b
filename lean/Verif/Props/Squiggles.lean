import Verif.Props.Named
import Verif.Props.InOrder
/-
  C144: what is underlined in a template does not overlap.
-/

namespace JinjaLsp
open Spec

namespace Spec

/-- names and strings have an extent -/
def Solid (root : Syn) : Prop := ∀ n ∈ root.flat, n.kind = .identifier ∨ n.kind = .string → n.start < n.stop

/-- one ends before the other begins -/
def Clears (a b : Point × Point) : Prop := a.2 ≤ b.1 ∨ b.2 ≤ a.1

end Spec

theorem Spec.Clears.symm {a b : Point × Point} (h : Clears a b) : Clears b a := Or.symm h

/-- the uses of a sequence are some of its names, in their order -/
theorem uses_nodes {digit : Char → Bool} {ns : List Syn} {es : List Elem} (h : ReadsOff digit ns es) :
    ∃ ms : List Syn, ms.Sublist ns ∧ (∀ m ∈ ms, m.kind = .identifier) ∧ (Elems.uses es).map (·.range) = ms.map fun m => (m.start, m.stop) := by
  induction h with
  | nil => exact ⟨[], .slnil, by simp, rfl⟩
  | expr _ _ ih => obtain ⟨ms, k1, k2, k3⟩ := ih; exact ⟨ms, k1.cons _, k2, k3⟩
  | op _ _ ih => obtain ⟨ms, k1, k2, k3⟩ := ih; exact ⟨ms, k1.cons _, k2, k3⟩
  | word _ _ ih => obtain ⟨ms, k1, k2, k3⟩ := ih; exact ⟨ms, k1.cons _, k2, k3⟩
  | @use xs fs ns r m as es _ h2 _ _ ih =>
    obtain ⟨ms, k1, k2, k3⟩ := ih
    refine ⟨r :: ms, ?_, fun m hm => ?_, ?_⟩
    · rw [List.append_assoc, List.cons_append]
      exact ((k1.trans (List.sublist_append_right _ _)).cons_cons _).trans (List.sublist_append_right _ _)
    · rcases List.mem_cons.mp hm with rfl | hm
      · exact h2.kind
      · exact k2 m hm
    · show _ :: (Elems.uses es).map (·.range) = _
      rw [k3]
      rfl

theorem strings_in {n b kw e : Syn} {rest : List Syn} (h : IsStmt n b (kw :: rest) e) : (strings rest).Sublist n.flat := by
  rw [flat_eq, h.parts]
  exact ((((List.filter_sublist.cons _).trans (List.sublist_append_left _ _)).cons _).trans (children_sub _)).cons _

/-- the references of a template are some of its strings, in their order -/
theorem refs_nodes {options : Syn → Syn → List (List Capture)} {ns : List Syn} {ss : List ImpStmt} (h : Refs options ns ss) :
    ∃ ms : List Syn, ms.Sublist (Syn.flatAll ns) ∧ (∀ m ∈ ms, m.kind = .string) ∧
      (ImpStmt.refs ss).map (fun r => (r.start, r.stop)) = ms.map fun m => (m.start, m.stop) := by
  have skip : ∀ {n : Syn} {ns : List Syn} {ss : List ImpStmt}, (∃ ms : List Syn, ms.Sublist (Syn.flatAll ns) ∧ (∀ m ∈ ms, m.kind = .string) ∧
      (ImpStmt.refs ss).map (fun r => (r.start, r.stop)) = ms.map fun m => (m.start, m.stop)) → ∃ ms : List Syn, ms.Sublist (Syn.flatAll (n :: ns)) ∧
      (∀ m ∈ ms, m.kind = .string) ∧ (ImpStmt.refs ss).map (fun r => (r.start, r.stop)) = ms.map fun m => (m.start, m.stop) := by
    rintro n ns ss ⟨ms, k1, k2, k3⟩
    exact ⟨ms, by rw [Syn.flatAll]; exact k1.trans (List.sublist_append_right _ _), k2, k3⟩
  have more : ∀ {n b kw e : Syn} {rest ns : List Syn} {ss : List ImpStmt} {i : ImpStmt}, IsStmt n b (kw :: rest) e → i.names = (strings rest).map tokOf →
      (∃ ms : List Syn, ms.Sublist (Syn.flatAll ns) ∧ (∀ m ∈ ms, m.kind = .string) ∧
      (ImpStmt.refs ss).map (fun r => (r.start, r.stop)) = ms.map fun m => (m.start, m.stop)) → ∃ ms : List Syn, ms.Sublist (Syn.flatAll (n :: ns)) ∧
      (∀ m ∈ ms, m.kind = .string) ∧ (ImpStmt.refs (i :: ss)).map (fun r => (r.start, r.stop)) = ms.map fun m => (m.start, m.stop) := by
    rintro n b kw e rest ns ss i h hi ⟨ms, k1, k2, k3⟩
    refine ⟨strings rest ++ ms, by rw [Syn.flatAll]; exact (strings_in h).append k1, fun m hm => ?_, ?_⟩
    · rcases List.mem_append.mp hm with hm | hm
      · exact of_decide_eq_true (List.mem_filter.mp hm).2
      · exact k2 m hm
    · show ((i.names.map Tok.ref) ++ ImpStmt.refs ss).map _ = _
      rw [List.map_append, List.map_append, k3, hi, List.map_map, List.map_map]
      rfl
  induction h with
  | nil => exact ⟨[], List.nil_sublist _, by simp, rfl⟩
  | other _ _ _ ih => exact skip ih
  | stmt _ _ _ ih => exact skip ih
  | «extends» h1 _ _ _ h5 _ _ ih => exact more h1 (by rw [h5]; rfl) ih
  | «include» h1 _ _ _ _ _ ih => exact more h1 rfl ih
  | from_ h1 _ _ _ h5 _ _ ih => exact more h1 (by rw [h5]; rfl) ih
  | import_ h1 _ _ _ h5 _ _ ih => exact more h1 (by rw [h5]; rfl) ih

/-- different names and strings do not overlap -/
theorem nodes_clear {root : Syn} (hs : WellFormed root) (hl : Laid root) {a b : Syn} (ha : a ∈ root.flat) (hb : b ∈ root.flat)
    (ka : a.kind = .identifier ∨ a.kind = .string) (kb : b.kind = .identifier ∨ b.kind = .string) (hne : a ≠ b) :
    Clears (a.start, a.stop) (b.start, b.stop) := by
  have ho := List.pairwise_iff_getElem.mp (hl.order.and (List.pairwise_map.mp hs.ids))
  have key : ∀ {x y : Syn}, x ∈ root.flat → x.kind = .identifier ∨ x.kind = .string →
      (x.start ≤ y.start ∧ (y.id ∈ x.flat.map Syn.id ∨ x.stop ≤ y.start)) ∧ x.id ≠ y.id → x.stop ≤ y.start := by
    rintro x y hx kx ⟨⟨_, h | h⟩, h'⟩
    · rw [flat_eq, hl.leaves x hx kx, Syn.flatAll] at h
      exact (h' (List.mem_singleton.mp h).symm).elim
    · exact h
  obtain ⟨i, hi, rfl⟩ := List.getElem_of_mem ha
  obtain ⟨j, hj, rfl⟩ := List.getElem_of_mem hb
  rcases Nat.lt_trichotomy i j with h | h | h
  · exact .inl (key ha ka (ho i j hi hj h))
  · subst h; exact (hne rfl).elim
  · exact .inr (key hb kb (ho j i hj hi h))

theorem nodes_pairwise {root : Syn} (hs : WellFormed root) (hl : Laid root) {ms : List Syn} (h : ms.Sublist root.flat)
    (hk : ∀ m ∈ ms, m.kind = .identifier ∨ m.kind = .string) : (ms.map fun m => (m.start, m.stop)).Pairwise Clears := by
  refine List.pairwise_map.mpr (List.Pairwise.imp_of_mem (fun {a b} ha hb hne => ?_) (List.pairwise_map.mp (hs.ids.sublist (h.map _))))
  exact nodes_clear hs hl (h.subset ha) (h.subset hb) (hk a ha) (hk b hb) fun e => hne (e ▸ rfl)

/-- two parts of a list and what is between them -/
theorem pairwise_parts {α : Type} {R : α → α → Prop} (symm : ∀ {a b}, R a b → R b a) (q : α → Bool) :
    ∀ {l : List α}, (l.filter q).Pairwise R → (l.filter fun x => !q x).Pairwise R → (∀ a ∈ l.filter q, ∀ b ∈ l.filter fun x => !q x, R a b) → l.Pairwise R
  | [], _, _, _ => .nil
  | x :: l, h1, h2, h3 => by
    have mem : ∀ y ∈ l, y ∈ l.filter q ∨ y ∈ l.filter fun x => !q x := by
      intro y hy
      cases e : q y with
      | true => exact .inl (List.mem_filter.mpr ⟨hy, e⟩)
      | false => exact .inr (List.mem_filter.mpr ⟨hy, by rw [e]; rfl⟩)
    cases hx : q x with
    | true =>
      rw [List.filter_cons_of_pos hx] at h1 h3
      rw [List.filter_cons_of_neg (by simp [hx])] at h2 h3
      obtain ⟨h4, h5⟩ := List.pairwise_cons.mp h1
      refine List.pairwise_cons.mpr ⟨fun y hy => ?_, pairwise_parts symm q h5 h2 fun a ha => h3 a (List.mem_cons_of_mem _ ha)⟩
      exact (mem y hy).elim (h4 y) (h3 x List.mem_cons_self y)
    | false =>
      rw [List.filter_cons_of_neg (by simp [hx])] at h1 h3
      rw [List.filter_cons_of_pos (by simp [hx])] at h2 h3
      obtain ⟨h4, h5⟩ := List.pairwise_cons.mp h2
      refine List.pairwise_cons.mpr ⟨fun y hy => ?_, pairwise_parts symm q h1 h5 fun a ha b hb => h3 a ha b (List.mem_cons_of_mem _ hb)⟩
      exact (mem y hy).elim (fun h => symm (h3 y h x List.mem_cons_self)) (h4 y)

/-- reports about names and strings of a tree -/
theorem reports_clear {sx : Syntax} {root : Syn} {es : List Elem} {ss : List ImpStmt} {ds : Diags} {bs : List Binding} {known : List Str} {w : World} {dir : Str}
    {empty : Bool} (hs : WellFormed root) (hl : Laid root) (hu : ReadsTree sx.digit root es) (hi : Refs sx.options root.children ss)
    (h1 : useDiags ds = useReports bs known (Elems.uses es)) (h2 : (missingDiags ds).Perm (refReports w dir empty (ImpStmt.refs ss))) :
    (∀ r ∈ ds.map report, ∃ n ∈ root.flat, (n.kind = .identifier ∨ n.kind = .string) ∧ r.start = n.start ∧ r.stop = n.stop) ∧
      (ds.map report).Pairwise fun a b => Clears (a.start, a.stop) (b.start, b.stop) := by
  obtain ⟨p, _, hp⟩ := hu
  obtain ⟨xs, x1, x2, x3⟩ := uses_nodes hp
  obtain ⟨ys, y1, y2, y3⟩ := refs_nodes hi
  have x1 : xs.Sublist root.flat := x1.trans List.filter_sublist
  have y1 : ys.Sublist root.flat := by rw [flat_eq]; exact y1.cons _
  have u1 : ((useDiags ds).map fun r => (r.start, r.stop)).Sublist (xs.map fun m => (m.start, m.stop)) := by
    rw [h1, ← x3]
    unfold useReports
    generalize Elems.uses es = us
    induction us with
    | nil => exact .slnil
    | cons u us ih =>
      rw [List.filterMap_cons]
      cases verdict bs known u with
      | none => exact ih.cons _
      | some k => exact ih.cons_cons _
  have m1 : ∃ zs : List Syn, zs.Sublist ys ∧ ((missingDiags ds).map fun r => (r.start, r.stop)).Perm (zs.map fun m => (m.start, m.stop)) := by
    have : ((refReports w dir empty (ImpStmt.refs ss)).map fun r => (r.start, r.stop)).Sublist (ys.map fun m => (m.start, m.stop)) := by
      rw [← y3]
      unfold refReports
      rw [List.map_map]
      exact List.filter_sublist.map _
    obtain ⟨zs, z1, z2⟩ := List.sublist_map_iff.mp this
    exact ⟨zs, z1, z2 ▸ h2.map _⟩
  obtain ⟨zs, z1, z2⟩ := m1
  have z1 : zs.Sublist root.flat ∧ ∀ m ∈ zs, m.kind = .string := ⟨z1.trans y1, fun m hm => y2 m (z1.subset hm)⟩
  have useOf : ∀ r ∈ useDiags ds, ∃ n ∈ root.flat, n.kind = .identifier ∧ r.start = n.start ∧ r.stop = n.stop := by
    intro r hr
    obtain ⟨n, hn, e⟩ := List.mem_map.mp (u1.subset (List.mem_map_of_mem hr))
    rw [Prod.mk.injEq] at e
    exact ⟨n, x1.subset hn, x2 n hn, e.1.symm, e.2.symm⟩
  have missOf : ∀ r ∈ missingDiags ds, ∃ n ∈ root.flat, n.kind = .string ∧ r.start = n.start ∧ r.stop = n.stop := by
    intro r hr
    obtain ⟨n, hn, e⟩ := List.mem_map.mp (z2.subset (List.mem_map_of_mem hr))
    rw [Prod.mk.injEq] at e
    exact ⟨n, z1.1.subset hn, z1.2 n hn, e.1.symm, e.2.symm⟩
  have p1 : (useDiags ds).Pairwise fun a b => Clears (a.start, a.stop) (b.start, b.stop) :=
    List.pairwise_map.mp ((nodes_pairwise hs hl x1 fun m hm => .inl (x2 m hm)).sublist u1)
  have p2 : (missingDiags ds).Pairwise fun a b => Clears (a.start, a.stop) (b.start, b.stop) :=
    List.pairwise_map.mp ((z2.pairwise_iff fun h => Clears.symm h).mpr (nodes_pairwise hs hl z1.1 fun m hm => .inr (z1.2 m hm)))
  constructor
  · intro r hr
    obtain ⟨d, hd, rfl⟩ := List.mem_map.mp hr
    by_cases e : d.1 = .templateNotFound
    · obtain ⟨n, k1, k2, k3⟩ := missOf _ (List.mem_map_of_mem (List.mem_filter.mpr ⟨hd, by simp [e]⟩))
      exact ⟨n, k1, .inr k2, k3⟩
    · obtain ⟨n, k1, k2, k3⟩ := useOf _ (List.mem_map_of_mem (List.mem_filter.mpr ⟨hd, by simp [e]⟩))
      exact ⟨n, k1, .inl k2, k3⟩
  · have e : ds.filter (fun d => !decide (d.1 ≠ .templateNotFound)) = ds.filter fun d => d.1 = .templateNotFound :=
      List.filter_congr fun d _ => by simp
    unfold useDiags at p1
    unfold missingDiags at p2
    have p1 := List.pairwise_map.mp p1
    have p2 := List.pairwise_map.mp p2
    refine List.pairwise_map.mpr (pairwise_parts (fun h => Clears.symm h) (fun d => decide (d.1 ≠ .templateNotFound)) p1 ?_ ?_)
    · rw [e]; exact p2
    · rw [e]
      intro a ha b hb
      obtain ⟨n, k1, k2, k3, k4⟩ := useOf _ (List.mem_map_of_mem ha)
      obtain ⟨m, l1, l2, l3, l4⟩ := missOf _ (List.mem_map_of_mem hb)
      rw [k3, k4, l3, l4]
      exact nodes_clear hs hl k1 l1 (.inl k2) (.inr l2) fun h => by rw [h, l2] at k2; cases k2

/-! ## C144 -/

/-- **C144** Opening or saving a template reports places that have an extent and do not overlap; in particular, nothing is reported twice. -/
theorem C144_reports (env : Env) (sx : Syntax) (w : World) (s s' : Server) (m : Msg) (uri text : Str) (tree : Tree) (out : List Send)
    (r : Reply) (is : List Item) (es : List Elem) (ss : List ImpStmt) (hm : m.Analyses uri) (he : fileExt uri = some .template)
    (hig : s.files.ignoreGlobals = false) (h : s.handle (env.over sx) w m = .ok (s', out, r))
    (hd : s'.files.documents.get? uri = some text) (ht : (s'.files.trees .template).get? uri = some tree)
    (hs : WellFormed (sx.root tree text)) (hl : Laid (sx.root tree text)) (hf : Solid (sx.root tree text)) (hk : (sx.root tree text).kind = .other)
    (hr : Tags sx.digit (sx.root tree text).children is) (hu : ReadsTree sx.digit (sx.root tree text) es) (hes : Elems.Wf es)
    (hi : Refs sx.options (sx.root tree text).children ss) (hss : ImpStmt.Wf ss) :
    ∃ ds, out = [.diag (HMap.empty.insert uri ds)] ∧ (∀ r ∈ ds.map report, r.start < r.stop) ∧
      (ds.map report).Pairwise fun a b => a.stop ≤ b.start ∨ b.stop ≤ a.start := by
  obtain ⟨ds, h1, h2, h3⟩ := C71_diagnostics env sx w s s' m uri text tree out r is es ss hm he hig h hd ht hs hk hr hu hes hi hss
  obtain ⟨k1, k2⟩ := reports_clear hs hl hu hi h2 h3
  refine ⟨ds, h1, fun r hr => ?_, k2⟩
  obtain ⟨n, l1, l2, l3, l4⟩ := k1 r hr
  rw [l3, l4]
  exact hf n l1 l2

/-- **C144** (at rest) When typing has stopped and the server has come to rest, the squiggles in the editor do not overlap. -/
theorem C144_rest {W : World → Prop} (hO : ∀ w, W w → Orderly w) (env : Env) (sx : Syntax) (he : Sound (env.over sx))
    (hu : NormalUrls env) (cs : List Msg) (as : List (HMap Str Diags)) (σ : Sys) (s : Server) (u : Str) (E : Editor) (h : Calm W env sx cs as σ s u E) :
    ∃ text tree ds, E u = some text ∧ (s.files.trees .template).get? u = some tree ∧ Displays σ u ds ∧
      ∀ (is : List Item) (es : List Elem) (ss : List ImpStmt), TextReads sx s u text tree is es → Laid (sx.root tree text) → Solid (sx.root tree text) →
        Refs sx.options (sx.root tree text).children ss → ImpStmt.Wf ss →
        (∀ d ∈ ds, toPoint d.range.start < toPoint d.range.stop) ∧
        ds.Pairwise fun a b => toPoint a.range.stop ≤ toPoint b.range.start ∨ toPoint b.range.stop ≤ toPoint a.range.start := by
  obtain ⟨text, old, w, ds, e1, e2, e3, _, e4, e5⟩ := C82_displayed hO env sx he hu cs as σ s h.run h.small u E h.stopped h.rest h.channel h.template h.globals
  refine ⟨text, _, _, e1, e3, e4, fun is es ss hr hl hf hi hss => ?_⟩
  obtain ⟨h2, h3⟩ := e5 _ is es ss rfl hr.formed hr.kind hr.tags hr.reads hr.wf hi hss
  obtain ⟨k1, k2⟩ := reports_clear hr.formed hl hr.reads hi h2 h3
  constructor
  · intro d hd
    obtain ⟨r, hr, rfl⟩ := List.mem_map.mp hd
    obtain ⟨n, l1, l2, l3, l4⟩ := k1 r hr
    show r.start < r.stop
    rw [l3, l4]
    exact hf n l1 l2
  · exact List.pairwise_map.mpr k2

/-! ### Examples -/

namespace Fix

theorem root_solid : Solid root := by unfold Solid; decide

end Fix

/-- four places are reported in the template of C71: three names and the missing include -/
example : ∃ ds, (∃ s' r, Fix.server.handle (Fix.env.over Fix.syn) Fix.emptyWorld (.didOpen Fix.uriA []) = .ok (s', [.diag (HMap.empty.insert Fix.uriA ds)], r)) ∧
    ds.length = 4 ∧ (ds.map report).Pairwise fun a b => a.stop ≤ b.start ∨ b.stop ≤ a.start := by
  have main : ∃ s' out r, Fix.server.handle (Fix.env.over Fix.syn) Fix.emptyWorld (.didOpen Fix.uriA []) = .ok (s', out, r) ∧
      s'.files.documents.get? Fix.uriA = some [] ∧
      (s'.files.trees .template).get? Fix.uriA = some (.parsed .jinja [] (some (.parsed .jinja c!"aaa" none))) ∧
      (match out with | [.diag m] => ((m.get? Fix.uriA).getD []).length | _ => 0) = 4 := ⟨_, _, _, rfl, rfl, rfl, by decide +kernel⟩
  obtain ⟨s', out, r, h1, h2, h3, h4⟩ := main
  obtain ⟨ds, k1, _, k3⟩ := C144_reports Fix.env Fix.syn Fix.emptyWorld Fix.server s' _ Fix.uriA [] _ out r Fix.tags Fix.elems Fix.refs (.opened _) (by decide) rfl h1 h2 h3
    ⟨by decide, by decide, by decide⟩ Fix.root_laid Fix.root_solid rfl Fix.tags_read Fix.elems_read Fix.elems_wf (Fix.refs_read _) Fix.refs_wf
  subst k1
  refine ⟨ds, ⟨s', r, h1⟩, ?_, k3⟩
  dsimp only at h4
  rw [HMap.get?_insert_self] at h4
  exact h4

/-- at rest, three squiggles -/
example : ∃ as σ s E text tree ds, Calm (· = Fix.rootWorld) Fix.showing Fix.syn Fix.typing as σ s Fix.uriT E ∧ E Fix.uriT = some text ∧
    (s.files.trees .template).get? Fix.uriT = some tree ∧ Displays σ Fix.uriT ds ∧ ds.length = 3 ∧
    ds.Pairwise fun a b => toPoint a.range.stop ≤ toPoint b.range.start ∨ toPoint b.range.stop ≤ toPoint a.range.start := by
  obtain ⟨as, σ, s, E, h1, h2, h3, h4, h5, h6, h7⟩ := Fix.comesToRest
  have c : Calm (· = Fix.rootWorld) Fix.showing Fix.syn Fix.typing as σ s Fix.uriT E := ⟨h1, h2, h3, h4, h5, by decide, h6⟩
  obtain ⟨text, tree, ds, k1, k2, k3, k4⟩ := C144_rest (W := (· = Fix.rootWorld)) (fun _ h => h ▸ Fix.rootWorld_orderly) Fix.showing Fix.syn Fix.showing_sound
    ⟨fun n u h => by simp [Fix.showing, Fix.env] at h; exact h.symm⟩ Fix.typing as σ s Fix.uriT E c
  have k3' := k3
  unfold Displays at k3'
  rw [k3'] at h7
  have := k4 Fix.tags Fix.elems Fix.refs ⟨k2, (⟨by decide, by decide, by decide⟩ : WellFormed Fix.root), rfl, Fix.tags_read, Fix.elems_read, Fix.elems_wf⟩ Fix.root_laid Fix.root_solid
    (Fix.refs_read _) Fix.refs_wf
  refine ⟨as, σ, s, E, text, tree, ds, c, k1, k2, k3, ?_, this.2⟩
  have := congrArg List.length (Option.some.inj h7)
  rwa [List.length_map] at this

end JinjaLsp
