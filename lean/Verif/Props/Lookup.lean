import Verif.Props.Displayed
import Verif.Props.Hover
import Verif.Lemmas.Layout
/-
  C83: goto-definition and hover in terms of the syntax tree.
-/

namespace JinjaLsp
open Spec

namespace Spec

/-- the server holds `text` with its tree, and has recorded the bindings of its tags -/
structure Analysed (env : Env) (f : LspFiles) (uri text : Str) (tree : Tree) (is : List Item) : Prop where
  doc : f.documents.get? uri = some text
  held : (f.trees .template).get? uri = some tree
  vars : ∃ vs, f.variables.get? uri = some vs ∧ vs.map Identifier.binding = Items.bindings (env.rootEnd tree) 0 is

/-- a binding of `n` that starts at or before `p` and is visible there -/
def Reaches (n : Str) (p : Point) (b : Binding) : Prop := b.name = n ∧ b.start ≤ p ∧ p ≤ b.visibleTo

/-- a binding of a variable `n` that ends at or before `p` and is visible there -/
def InForce (n : Str) (p : Point) (b : Binding) : Prop := b.kind ≠ .templateBlock ∧ b.name = n ∧ b.stop ≤ p ∧ p ≤ b.visibleTo

/-- positions are 32-bit numbers -/
def Short (b : Binding) : Prop :=
  (b.start.row < 4294967296 ∧ b.start.column < 4294967296) ∧ b.stop.row < 4294967296 ∧ b.stop.column < 4294967296

end Spec

/-! ### The use under the cursor -/

theorem marks_nodes {digit : Char → Bool} {ms : List Syn} {m : Mark} (h : Marks digit ms m) : ∀ c ∈ m.caps, ∃ n ∈ ms, c.start = n.start := by
  cases h with
  | «variable» => intro c hc; cases hc
  | @filter p _ => intro c hc; cases List.mem_singleton.mp hc; exact ⟨p, List.mem_singleton.mpr rfl, rfl⟩
  | @test k ws _ _ _ =>
    intro c hc
    simp only [Mark.caps, List.mem_cons, List.mem_map] at hc
    rcases hc with rfl | ⟨t, ⟨w, hw, rfl⟩, rfl⟩
    · exact ⟨k, List.mem_cons_self, rfl⟩
    · exact ⟨w, List.mem_cons_of_mem _ hw, rfl⟩

theorem attrs_nodes {digit : Char → Bool} {ns : List Syn} {fs : List (Tok × Tok)} (h : Attrs digit ns fs) :
    ∀ c ∈ fs.flatMap fun f => dotCaps f.1 ++ [f.2.cap .justId], ∃ n ∈ ns, c.start = n.start := by
  induction h with
  | nil => intro c hc; cases hc
  | @cons d n ns fs _ _ _ ih =>
    intro c hc
    simp only [List.flatMap_cons, List.mem_append, dotCaps, List.mem_cons, List.not_mem_nil, or_false] at hc
    rcases hc with ((rfl | rfl) | rfl) | hc
    · exact ⟨d, by simp, rfl⟩
    · exact ⟨d, by simp, rfl⟩
    · exact ⟨n, by simp, rfl⟩
    · obtain ⟨m, hm, e⟩ := ih c hc
      exact ⟨m, by simp [hm], e⟩

/-- every capture of a reading starts where one of its nodes starts -/
theorem readsOff_nodes {digit : Char → Bool} {ns : List Syn} {es : List Elem} (h : ReadsOff digit ns es) :
    ∀ c ∈ es.flatMap Elem.caps, ∃ n ∈ ns, c.start = n.start := by
  induction h with
  | nil => intro c hc; cases hc
  | @expr n ns es _ _ ih =>
    intro c hc
    simp only [List.flatMap_cons, List.mem_append, Elem.caps, List.mem_singleton] at hc
    rcases hc with rfl | hc
    · exact ⟨n, List.mem_cons_self, rfl⟩
    · obtain ⟨m, hm, e⟩ := ih c hc; exact ⟨m, List.mem_cons_of_mem _ hm, e⟩
  | @op n ns es _ _ ih =>
    intro c hc
    simp only [List.flatMap_cons, List.mem_append, Elem.caps, List.mem_singleton] at hc
    rcases hc with rfl | hc
    · exact ⟨n, List.mem_cons_self, rfl⟩
    · obtain ⟨m, hm, e⟩ := ih c hc; exact ⟨m, List.mem_cons_of_mem _ hm, e⟩
  | @word n ns es _ _ ih =>
    intro c hc
    simp only [List.flatMap_cons, List.mem_append, Elem.caps, List.mem_singleton] at hc
    rcases hc with rfl | hc
    · exact ⟨n, List.mem_cons_self, rfl⟩
    · obtain ⟨m, hm, e⟩ := ih c hc; exact ⟨m, List.mem_cons_of_mem _ hm, e⟩
  | @use ms fs ns r m as es hm _ ha _ ih =>
    intro c hc
    simp only [List.flatMap_cons, List.mem_append, Elem.caps, Use.caps, List.mem_cons] at hc
    rcases hc with (hc | rfl | hc) | hc
    · obtain ⟨n, hn, e⟩ := marks_nodes hm c hc; exact ⟨n, by simp [hn], e⟩
    · exact ⟨r, by simp, rfl⟩
    · obtain ⟨n, hn, e⟩ := attrs_nodes ha c hc; exact ⟨n, by simp [hn], e⟩
    · obtain ⟨n, hn, e⟩ := ih c hc; exact ⟨n, by simp [hn], e⟩

/-- the nodes of a use and those around it -/
theorem readsOff_split {digit : Char → Bool} {ns : List Syn} {es : List Elem} (h : ReadsOff digit ns es) : ∀ {pre post : List Elem} {u : Use},
    es = pre ++ .use u :: post → ∃ (n1 ms fs n2 : List Syn) (r : Syn), ns = n1 ++ (ms ++ r :: (fs ++ n2)) ∧ ReadsOff digit n1 pre ∧
      Marks digit ms u.mark ∧ IsName digit r ∧ tokOf r = u.root ∧ Attrs digit fs u.fields ∧ ReadsOff digit n2 post := by
  induction h with
  | nil => intro pre post u e; cases pre <;> cases e
  | @expr n ns es hn hr ih =>
    intro pre post u e
    cases pre with
    | nil => cases e
    | cons x pre =>
      injection e with e1 e2
      obtain ⟨n1, ms, fs, n2, r, rfl, h1, h2⟩ := ih e2
      exact ⟨n :: n1, ms, fs, n2, r, rfl, e1 ▸ .expr hn h1, h2⟩
  | @op n ns es hn hr ih =>
    intro pre post u e
    cases pre with
    | nil => cases e
    | cons x pre =>
      injection e with e1 e2
      obtain ⟨n1, ms, fs, n2, r, rfl, h1, h2⟩ := ih e2
      exact ⟨n :: n1, ms, fs, n2, r, rfl, e1 ▸ .op hn h1, h2⟩
  | @word n ns es hn hr ih =>
    intro pre post u e
    cases pre with
    | nil => cases e
    | cons x pre =>
      injection e with e1 e2
      obtain ⟨n1, ms, fs, n2, r, rfl, h1, h2⟩ := ih e2
      exact ⟨n :: n1, ms, fs, n2, r, rfl, e1 ▸ .word hn h1, h2⟩
  | @use ms fs ns r m as es hm hn ha hr ih =>
    intro pre post u e
    cases pre with
    | nil =>
      injection e with e1 e2
      cases e1
      subst e2
      exact ⟨[], ms, fs, ns, r, by simp, .nil, hm, hn, rfl, ha, hr⟩
    | cons x pre =>
      injection e with e1 e2
      obtain ⟨n1, ms', fs', n2, r', rfl, h1, h2⟩ := ih e2
      exact ⟨ms ++ r :: fs ++ n1, ms', fs', n2, r', by simp, e1 ▸ .use hm hn ha h1, h2⟩

theorem ordered_append {p : Point} : ∀ {a b : List Tok}, Ordered p (a ++ b) → Ordered p a
  | [], _, _ => trivial
  | _ :: _, _, h => ⟨h.1, h.2.1, ordered_append h.2.2⟩

/-- the cursor on the name of a use of the tree -/
theorem onUse_tree {env : Env} {sx : Syntax} {tree : Tree} {text : Str} {es : List Elem} {u : Use} {p : Point}
    (hs : WellFormed (sx.root tree text)) (hl : Laid (sx.root tree text)) (hr : ReadsTree sx.digit (sx.root tree text) es) (hw : Elems.Wf es)
    (hu : .use u ∈ es) (h1 : u.root.start ≤ p) (h2 : p < u.root.stop) :
    ∃ pre rest, OnUse ((env.over sx).queryMatches .jinjaObjects tree text).flatten pre u rest p := by
  have hcaps := over_objects (env := env) hr
  obtain ⟨q, hq, hro⟩ := hr
  obtain ⟨pre, post, rfl⟩ := List.append_of_mem hu
  obtain ⟨n1, ms, fs, n2, r, hns, hr1, hm, hn, ht, ha, hr2⟩ := readsOff_split hro rfl
  have hp : (n1 ++ (ms ++ r :: (fs ++ n2))).Pairwise fun a b => a.start ≤ b.start ∧ (a.kind = .identifier ∨ a.kind = .string → a.stop ≤ b.start) := by
    rw [← hns]; exact (laid_leaves hs hl).sublist List.filter_sublist
  rw [List.pairwise_append] at hp
  obtain ⟨_, hp2, hp3⟩ := hp
  rw [List.pairwise_append] at hp2
  obtain ⟨_, hp4, _⟩ := hp2
  rw [List.pairwise_cons] at hp4
  obtain ⟨hp4, _⟩ := hp4
  have hstart : r.start = u.root.start := by rw [← ht]; rfl
  have hstop : r.stop = u.root.stop := by rw [← ht]; rfl
  refine ⟨pre, (u.fields.flatMap fun f => dotCaps f.1 ++ [f.2.cap .justId]) ++ post.flatMap Elem.caps, ?_⟩
  have hok := hw.ok (.use u) hu
  refine ⟨?_, fun e he => hw.ok e (List.mem_append_left _ he), hok.1, hok.2.1, ?_, ?_, h1, Point.le_of_lt h2, ?_⟩
  · rw [hcaps]
    simp [List.flatMap_append, Elem.caps, Use.caps]
  · obtain ⟨z, hz, ho⟩ := hw.ordered
    refine ⟨z, hz, ?_⟩
    rw [List.flatMap_append, List.flatMap_cons] at ho
    refine ordered_append (b := (u.fields.flatMap fun f => [f.1, f.2]) ++ post.flatMap Elem.toks) ?_
    simpa [Elem.toks, Use.toks] using ho
  · intro n a b f l he
    obtain ⟨m, hm1, e⟩ := readsOff_nodes hr1 { name := .expr, id := n, start := a, stop := b, text := some [], firstChild := f, lastChild := l }
      (List.mem_flatMap.mpr ⟨_, he, List.mem_singleton.mpr rfl⟩)
    rw [show a = m.start from e, ← hstart]
    exact (hp3 m hm1 r (by simp)).1
  · intro c hc
    have : ∃ n ∈ fs ++ n2, c.start = n.start := by
      rcases List.mem_append.mp hc with hc | hc
      · obtain ⟨n, hn, e⟩ := attrs_nodes ha c hc; exact ⟨n, List.mem_append_left _ hn, e⟩
      · obtain ⟨n, hn, e⟩ := readsOff_nodes hr2 c hc; exact ⟨n, List.mem_append_right _ hn, e⟩
    obtain ⟨n, hn', e⟩ := this
    rw [e]
    exact Point.lt_of_lt_of_le h2 (hstop ▸ (hp4 n hn').2 (.inl hn.kind))

/-- **C83** Opening or saving a template whose tree reads as tags records their bindings. -/
theorem C83_analysed (env : Env) (sx : Syntax) (w : World) (s s' : Server) (m : Msg) (uri text : Str) (tree : Tree) (out : List Send)
    (r : Reply) (is : List Item) (hm : m.Analyses uri) (he : fileExt uri = some .template) (h : s.handle (env.over sx) w m = .ok (s', out, r))
    (hd : s'.files.documents.get? uri = some text) (ht : (s'.files.trees .template).get? uri = some tree)
    (hs : WellFormed (sx.root tree text)) (hk : (sx.root tree text).kind = .other)
    (hr : Tags sx.digit (sx.root tree text).children is) : Analysed env s'.files uri text tree is := by
  have hno : ¬ SyntaxError (env.over sx) tree text := fun h => tags_no_error hk hr ((over_error ..).mp h)
  obtain ⟨defs, h1, hv⟩ := (analyses_records hm he h hd ht).1 hno
  obtain ⟨defs', h2, h3⟩ := C64_bracket_matching (env.over sx) tree Point.zero text is (tags_wf hs hr) (over_definitions hk hr)
  rw [h1] at h2
  cases h2
  exact ⟨hd, ht, _, hv, h3⟩

/-- **C83** So it is at rest, for the text in the editor. -/
theorem C83_rest {W : World → Prop} (hO : ∀ w, W w → Orderly w) (env : Env) (sx : Syntax) (he : Sound (env.over sx))
    (hu : NormalUrls env) (cs : List Msg) (as : List (HMap Str Diags)) (σ : Sys) (s : Server) (h : Execution W (env.over sx) cs as σ)
    (hs : SmallResults as) (u : Str) (E : Editor) (ht : StoppedTyping (env.over sx) cs u E) (hi : AtRest σ s) (hm : s.files.mainChannel = true)
    (hx : fileExt u = some .template) :
    ∃ text old, E u = some text ∧ ∀ is, WellFormed (sx.root (.parsed .jinja text old) text) →
      (sx.root (.parsed .jinja text old) text).kind = .other → Tags sx.digit (sx.root (.parsed .jinja text old) text).children is →
      Analysed env s.files u text (.parsed .jinja text old) is := by
  obtain ⟨text, old, w, s1, s2, r, ds, e1, e2, e4, k1, k2, k3, hf, k4⟩ :=
    quiet_saved hO (env.over sx) he ⟨hu.same⟩ cs as σ s h hs u E ht hi hm hx
  refine ⟨text, old, e1, fun is hwf hk hr => ?_⟩
  obtain ⟨_, _, vs, h1, h2⟩ := C83_analysed env sx w s1 s2 (.didSave u) u text _ _ r is .saved hx k2 (k3.documents ▸ e2) (k3.trees ▸ e4) hwf hk hr
  exact ⟨e2, e4, vs, k3.variables ▸ h1, h2⟩

/-- **C83** (goto-definition, binding in the file) With the cursor on a name used in the text, goto-definition leads to the binding of that name
that starts last among those that reach the cursor. -/
theorem C83_goto (env : Env) (sx : Syntax) (w : World) (s : Server) (uri text : Str) (tree : Tree) (is : List Item) (es : List Elem) (u : Use)
    (pos : Position) (hx : fileExt uri = some .template) (h : Analysed env s.files uri text tree is) (hs : WellFormed (sx.root tree text))
    (hl : Laid (sx.root tree text)) (hr : ReadsTree sx.digit (sx.root tree text) es) (hw : Elems.Wf es) (hu : .use u ∈ es)
    (h1 : u.root.start ≤ toPoint pos) (h2 : toPoint pos < u.root.stop) (hfit : ∀ b ∈ Items.bindings (env.rootEnd tree) 0 is, Short b)
    (hex : ∃ b ∈ Items.bindings (env.rootEnd tree) 0 is, Reaches u.root.text (toPoint pos) b) :
    ∃ b ∈ Items.bindings (env.rootEnd tree) 0 is, Reaches u.root.text (toPoint pos) b ∧
      (∀ b' ∈ Items.bindings (env.rootEnd tree) 0 is, Reaches u.root.text (toPoint pos) b' → b'.start ≤ b.start) ∧
      s.handle (env.over sx) w (.goto uri pos) = .ok (s, [], .goto (some (.scalar
        ⟨uri, ⟨⟨b.start.row, b.start.column⟩, ⟨b.stop.row, b.stop.column⟩⟩⟩))) := by
  obtain ⟨hd, ht, vs, hv, hb⟩ := h
  obtain ⟨pre, rest, hon⟩ := onUse_tree (env := env) hs hl hr hw hu h1 h2
  rw [← hb] at hfit hex ⊢
  have hm : ∀ d ∈ vs, d.binding ∈ vs.map Identifier.binding := fun d hd => List.mem_map_of_mem hd
  obtain ⟨d, k1, k2, k3, k4⟩ := C35_latest (env.over sx) w s.files uri tree text pos hx hd ht pre u rest hon vs hv
    (fun d hd => hfit _ (hm d hd)) (by
      obtain ⟨b, hb1, hb2⟩ := hex
      obtain ⟨d, hd, rfl⟩ := List.mem_map.mp hb1
      exact ⟨d, hd, hb2⟩)
  refine ⟨d.binding, hm d k1, k2, ?_, ?_⟩
  · intro b' hb' hc
    obtain ⟨e, he, rfl⟩ := List.mem_map.mp hb'
    exact k3 e he hc
  · simp only [Server.handle, k4]
    rfl

/-- the names of the references are the template names the imports query finds -/
theorem noTemplate_refs {env : Env} {sx : Syntax} {tree : Tree} {text : Str} {ss : List ImpStmt} {p : Point}
    (hk : (sx.root tree text).kind = .other) (h : Refs sx.options (sx.root tree text).children ss) (hw : ImpStmt.Wf ss)
    (hn : ∀ i ∈ ss, ∀ t ∈ i.names, ¬ (t.start ≤ p ∧ p ≤ t.stop)) :
    NoTemplate ((env.over sx).queryMatches .jinjaImports tree text).flatten p := by
  rw [over_imports hk h]
  intro c hc ht
  obtain ⟨i, hi, hc⟩ := List.mem_flatMap.mp hc
  have hext := hw.extras i hi
  have key : ∀ {m : List Capture}, m ∈ i.extras → c ∈ m → False := by
    intro m hm hcm
    rcases (hext m hm c hcm).1 with e | e <;> rw [e] at ht <;> cases ht
  have := hn i hi
  cases i with
  | «extends» hd k t =>
    simp only [ImpStmt.caps, List.mem_cons, List.not_mem_nil, or_false] at hc
    rcases hc with rfl | rfl | rfl
    · cases ht
    · cases ht
    · exact this t (by simp [ImpStmt.names])
  | «include» hd k ts =>
    simp only [ImpStmt.caps, List.mem_flatMap, List.mem_cons, List.not_mem_nil, or_false] at hc
    obtain ⟨t, hts, rfl | rfl | rfl⟩ := hc
    · cases ht
    · cases ht
    · exact this t hts
  | from_ hd k t ms =>
    simp only [ImpStmt.caps, List.mem_flatMap, List.mem_append, List.mem_cons, List.not_mem_nil, or_false] at hc
    obtain ⟨m, hm, (rfl | rfl | rfl) | hc⟩ := hc
    · cases ht
    · cases ht
    · exact this t (by simp [ImpStmt.names])
    · exact (key hm hc).elim
  | import_ hd k t ms =>
    simp only [ImpStmt.caps, List.mem_flatMap, List.mem_append, List.mem_cons, List.not_mem_nil, or_false] at hc
    obtain ⟨m, hm, (rfl | rfl | rfl) | hc⟩ := hc
    · cases ht
    · cases ht
    · exact this t (by simp [ImpStmt.names])
    · exact (key hm hc).elim

/-- **C83** (goto-definition, other files) If no binding of the text reaches the cursor, goto-definition leads to the entries of all other files
whose first dotted segment is the name, each once. -/
theorem C83_goto_elsewhere (env : Env) (sx : Syntax) (w : World) (s : Server) (uri text : Str) (tree : Tree) (is : List Item) (es : List Elem)
    (ss : List ImpStmt) (u : Use) (pos : Position) (hx : fileExt uri = some .template) (h : Analysed env s.files uri text tree is)
    (hs : WellFormed (sx.root tree text)) (hl : Laid (sx.root tree text)) (hr : ReadsTree sx.digit (sx.root tree text) es) (hw : Elems.Wf es) (hu : .use u ∈ es)
    (h1 : u.root.start ≤ toPoint pos) (h2 : toPoint pos < u.root.stop) (hk : (sx.root tree text).kind = .other)
    (hi : Refs sx.options (sx.root tree text).children ss) (hss : ImpStmt.Wf ss)
    (hn : ∀ i ∈ ss, ∀ t ∈ i.names, ¬ (t.start ≤ toPoint pos ∧ toPoint pos ≤ t.stop))
    (hno : ∀ b ∈ Items.bindings (env.rootEnd tree) 0 is, ¬ Reaches u.root.text (toPoint pos) b)
    (hurl : ∀ file v, Elsewhere s.files uri u.root.text file v → env.urlParse (targetOf file v) ≠ none ∧ Fits v) :
    ∃ ls, s.handle (env.over sx) w (.goto uri pos) = .ok (s, [], .goto (some (.array ls))) ∧
      ls.Perm (places env uri u.root.text s.files.variables.entries) ∧
      ∀ l, l ∈ ls ↔ ∃ file v, Elsewhere s.files uri u.root.text file v ∧ l = placeOf env file v := by
  obtain ⟨hd, ht, vs, hv, hb⟩ := h
  obtain ⟨pre, rest, hon⟩ := onUse_tree (env := env) hs hl hr hw hu h1 h2
  obtain ⟨ls, k1, k2, k3⟩ := C36_cross_file_partial (env.over sx) w s.files uri tree text pos hx hd ht pre u rest hon (by
    intro vars hv' d hd hbd
    rw [hv] at hv'
    cases hv'
    exact hno d.binding (hb ▸ List.mem_map_of_mem hd) hbd) (noTemplate_refs hk hi hss hn) hurl
  refine ⟨ls, ?_, k2, k3⟩
  simp only [Server.handle, k1]

/-- **C83** (hover) Hovering a variable shows the kind of the binding in force that starts last. -/
theorem C83_hover (env : Env) (sx : Syntax) (w : World) (s : Server) (uri text : Str) (tree : Tree) (is : List Item) (es : List Elem) (u : Use)
    (pos : Position) (hx : fileExt uri = some .template) (h : Analysed env s.files uri text tree is) (hs : WellFormed (sx.root tree text))
    (hl : Laid (sx.root tree text)) (hr : ReadsTree sx.digit (sx.root tree text) es) (hw : Elems.Wf es) (hu : .use u ∈ es) (hvar : u.mark = .variable)
    (h1 : u.root.start ≤ toPoint pos) (h2 : toPoint pos < u.root.stop)
    (hex : ∃ b ∈ Items.bindings (env.rootEnd tree) 0 is, InForce u.root.text u.root.start b) :
    ∃ b ∈ Items.bindings (env.rootEnd tree) 0 is, InForce u.root.text u.root.start b ∧
      (∀ b' ∈ Items.bindings (env.rootEnd tree) 0 is, InForce u.root.text u.root.start b' → b'.start ≤ b.start) ∧
      s.handle (env.over sx) w (.hover uri pos) = .ok (s, [], .hover (some (kindText b.kind))) := by
  obtain ⟨hd, ht, vs, hv, hb⟩ := h
  obtain ⟨pre, rest, hon⟩ := onUse_tree (env := env) hs hl hr hw hu h1 h2
  rw [← hb] at hex ⊢
  have hm : ∀ d ∈ vs, d.binding ∈ vs.map Identifier.binding := fun d hd => List.mem_map_of_mem hd
  obtain ⟨d, k1, k2, k3, k4⟩ := C43_local_partial (env.over sx) w s uri tree text pos hx hd ht pre u rest hon
    (by obtain ⟨m, _, _⟩ := u; cases hvar; exact ⟨rfl, rfl⟩) vs hv (by
      obtain ⟨b, hb1, hb2⟩ := hex
      obtain ⟨d, hd, rfl⟩ := List.mem_map.mp hb1
      exact ⟨d, hd, hb2⟩)
  refine ⟨d.binding, hm d k1, k2, ?_, k4⟩
  intro b' hb' hc
  obtain ⟨e, he, rfl⟩ := List.mem_map.mp hb'
  exact k3 e he hc

open Classical in
/-- **C83** (hover) Without one, hover shows `Backend variable` if another file has an entry whose first dotted segment is the name, and
otherwise nothing. -/
theorem C83_hover_elsewhere (env : Env) (sx : Syntax) (w : World) (s : Server) (uri text : Str) (tree : Tree) (is : List Item) (es : List Elem)
    (u : Use) (pos : Position) (hx : fileExt uri = some .template) (h : Analysed env s.files uri text tree is) (hs : WellFormed (sx.root tree text))
    (hl : Laid (sx.root tree text)) (hr : ReadsTree sx.digit (sx.root tree text) es) (hw : Elems.Wf es) (hu : .use u ∈ es) (hvar : u.mark = .variable)
    (h1 : u.root.start ≤ toPoint pos) (h2 : toPoint pos < u.root.stop)
    (hno : ∀ b ∈ Items.bindings (env.rootEnd tree) 0 is, ¬ InForce u.root.text u.root.start b) :
    s.handle (env.over sx) w (.hover uri pos) = .ok (s, [], .hover
      (if ∃ file v, Elsewhere s.files uri u.root.text file v then some c!"Backend variable" else none)) := by
  obtain ⟨hd, ht, vs, hv, hb⟩ := h
  obtain ⟨pre, rest, hon⟩ := onUse_tree (env := env) hs hl hr hw hu h1 h2
  refine C43_elsewhere_partial (env.over sx) w s uri tree text pos hx hd ht pre u rest hon
    (by obtain ⟨m, _, _⟩ := u; cases hvar; exact ⟨rfl, rfl⟩) vs hv fun d hd hbd => ?_
  exact hno d.binding (hb ▸ List.mem_map_of_mem hd) hbd

/-- **C83** (hover) Hovering a filter, or a test, shows the documentation of that very name; nothing if there is none. -/
theorem C83_hover_documented (env : Env) (sx : Syntax) (w : World) (s : Server) (uri text : Str) (tree : Tree) (es : List Elem)
    (u : Use) (pos : Position) (hx : fileExt uri = some .template) (hd : s.files.documents.get? uri = some text)
    (ht : (s.files.trees .template).get? uri = some tree) (hs : WellFormed (sx.root tree text))
    (hl : Laid (sx.root tree text)) (hr : ReadsTree sx.digit (sx.root tree text) es) (hw : Elems.Wf es) (hu : .use u ∈ es) (table : List (Str × Str))
    (hm : (∃ k, u.mark = .filter k ∧ table = filterTable) ∨ (∃ k ws, u.mark = .test k ws ∧ table = testTable))
    (h1 : u.root.start ≤ toPoint pos) (h2 : toPoint pos < u.root.stop) :
    (∀ d, (u.root.text, d) ∈ table → s.handle (env.over sx) w (.hover uri pos) = .ok (s, [], .hover (some d))) ∧
    ((∀ d, (u.root.text, d) ∉ table) → s.handle (env.over sx) w (.hover uri pos) = .ok (s, [], .hover none)) := by
  obtain ⟨pre, rest, hon⟩ := onUse_tree (env := env) hs hl hr hw hu h1 h2
  rcases hm with ⟨k, hm, rfl⟩ | ⟨k, ws, hm, rfl⟩
  · exact C44_filter (env.over sx) w s uri tree text pos hx hd ht pre u rest hon (by obtain ⟨m, _, _⟩ := u; cases hm; rfl)
  · exact C44_test_partial (env.over sx) w s uri tree text pos hx hd ht pre u rest hon (by obtain ⟨m, _, _⟩ := u; cases hm; rfl)

namespace Fix

/-- ```
{% set a = 1 %}
{{ a }}{{ b |upper }}
``` -/
def flatNodes : List Syn :=
  [st 3 0 15 [lf .keyword 15 0 3 6 c!"set", lf .identifier 16 0 7 8 c!"a", lf .operator 17 0 9 10 c!"=", lf .identifier 18 0 11 12 c!"1"],
   ex 6 1 0 7 [lf .identifier 20 1 3 4 c!"a"],
   ex 7 1 7 21 [lf .identifier 21 1 10 11 c!"b", lf .operator 22 1 12 13 c!"|", lf .identifier 23 1 13 18 c!"upper"]]

def flatRoot : Syn := .node .other none 900 ⟨0, 0⟩ ⟨1, 21⟩ (some []) flatNodes

def flatSyn : Syntax := ⟨fun _ _ => flatRoot, digit, fun _ _ => [[]], fun _ => true⟩

def flatTags : List Item :=
  [.leaf (.set (dst 3 0 15) (tok 0 3 6 c!"set" 15) (tok 0 7 8 c!"a" 16) [.eq (tok 0 9 10 c!"=" 17)]),
   .leaf (.expr [.name (tok 1 3 4 c!"a" 20)]), .leaf (.expr [.name (tok 1 10 11 c!"b" 21), .name (tok 1 13 18 c!"upper" 23)])]

def useA : Use := ⟨.variable, tok 1 3 4 c!"a" 20, []⟩
def useB : Use := ⟨.variable, tok 1 10 11 c!"b" 21, []⟩
def useUpper : Use := ⟨.filter (tok 1 12 13 c!"|" 22), tok 1 13 18 c!"upper" 23, []⟩

def flatElems : List Elem :=
  [.use ⟨.variable, tok 0 7 8 c!"a" 16, []⟩, .op (tok 0 9 10 c!"=" 17),
   .expr 6 ⟨1, 0⟩ ⟨1, 7⟩ (⟨1, 0⟩, ⟨1, 2⟩) (⟨1, 5⟩, ⟨1, 7⟩), .use useA,
   .expr 7 ⟨1, 7⟩ ⟨1, 21⟩ (⟨1, 7⟩, ⟨1, 9⟩) (⟨1, 19⟩, ⟨1, 21⟩), .use useB, .use useUpper]

theorem flatTags_read : Tags digit flatNodes flatTags := by
  refine Tags.stmt rfl rfl (token_lf ..) rfl (token_lf ..) rfl (.set (token_lf ..) rfl rfl ?_) ?_
  · exact Header.cons (hs := [_]) (token_lf ..) (.name rfl (by decide)) (Header.cons (hs := [_]) (token_lf ..) (.eq rfl (by decide))
      (Header.cons (hs := []) (token_lf ..) (.numeral rfl (by decide)) .nil))
  refine Tags.expr (is := []) rfl ?_ ?_
  · exact Inline.tok (hs := []) (token_lf ..) (.other rfl) (Inline.tok (hs := [_]) (token_lf ..) (.name rfl (by decide))
      (Inline.tok (hs := []) (token_lf ..) (.other rfl) .nil))
  refine Tags.expr (is := []) rfl ?_ .nil
  exact Inline.tok (hs := []) (token_lf ..) (.other rfl) (Inline.tok (hs := [_]) (token_lf ..) (.name rfl (by decide))
    (Inline.tok (hs := []) (token_lf ..) (.op rfl (by decide)) (Inline.tok (hs := [_]) (token_lf ..) (.name rfl (by decide))
      (Inline.tok (hs := []) (token_lf ..) (.other rfl) .nil))))

theorem flatElems_read : ReadsTree digit flatRoot flatElems := by
  refine ⟨relevant, fun n => by simp [relevant, Relevant], ?_⟩
  have hf : flatRoot.flat.filter relevant = [lf .identifier 16 0 7 8 c!"a", lf .operator 17 0 9 10 c!"=",
      ex 6 1 0 7 [lf .identifier 20 1 3 4 c!"a"], lf .identifier 20 1 3 4 c!"a",
      ex 7 1 7 21 [lf .identifier 21 1 10 11 c!"b", lf .operator 22 1 12 13 c!"|", lf .identifier 23 1 13 18 c!"upper"],
      lf .identifier 21 1 10 11 c!"b", lf .operator 22 1 12 13 c!"|", lf .identifier 23 1 13 18 c!"upper"] := rfl
  rw [hf]
  have nm : ∀ (i l a b : Nat) (t : Str), ¬ IsNumeral digit t → IsName digit (lf .identifier i l a b t) :=
    fun i l a b t h => ⟨rfl, by simp [lf, Syn.text], h⟩
  have op : ∀ (i l a b : Nat) (t : Str), t ≠ c!"." → IsOp (lf .operator i l a b t) :=
    fun i l a b t h => ⟨rfl, by simp [lf, Syn.text], by simpa [lf, Syn.text] using h⟩
  have use : ∀ (i l a b : Nat) (t : Str) {ns : List Syn} {es : List Elem}, ¬ IsNumeral digit t → ReadsOff digit ns es →
      ReadsOff digit (lf .identifier i l a b t :: ns) (.use ⟨.variable, tokOf (lf .identifier i l a b t), []⟩ :: es) :=
    fun i l a b t ns es h hr => ReadsOff.use (ms := []) (fs := []) .variable (nm i l a b t h) .nil hr
  refine use _ _ _ _ _ (by decide) (.op (op _ _ _ _ _ (by decide)) (.expr rfl (use _ _ _ _ _ (by decide)
    (.expr rfl (use _ _ _ _ _ (by decide) ?_)))))
  exact ReadsOff.use (ms := [_]) (fs := []) (.filter (op _ _ _ _ _ (by decide))) (nm _ _ _ _ _ (by decide)) .nil .nil

theorem flatElems_wf : Elems.Wf flatElems := by
  refine ⟨?_, ⟨⟨0, 2⟩, by decide, ?_⟩⟩
  · simp [flatElems, useA, useB, useUpper, Elem.Ok, Mark.Ok, reserved, tok]
  · simp [flatElems, useA, useB, useUpper, Elem.toks, Use.toks, Mark.toks, Ordered, tok, Point.lt_def, Point.le_def]

theorem flat_laid : Laid flatRoot := ⟨by decide, by decide, by decide, by decide⟩

theorem flat_wellFormed : WellFormed flatRoot := ⟨by decide, by decide, by decide⟩

end Fix

/-- the hypotheses of C83 hold after opening a template: `a` is bound above, `b` is not, `upper` is documented -/
example : WellFormed Fix.flatRoot ∧ Laid Fix.flatRoot ∧ ReadsTree Fix.digit Fix.flatRoot Fix.flatElems ∧ Elems.Wf Fix.flatElems ∧
    Refs Fix.flatSyn.options Fix.flatRoot.children [] ∧
    (.use Fix.useA ∈ Fix.flatElems ∧ .use Fix.useB ∈ Fix.flatElems ∧ .use Fix.useUpper ∈ Fix.flatElems) ∧
    (∃ b ∈ Items.bindings ⟨9, 9⟩ 0 Fix.flatTags, Reaches c!"a" ⟨1, 3⟩ b) ∧ (∃ b ∈ Items.bindings ⟨9, 9⟩ 0 Fix.flatTags, InForce c!"a" ⟨1, 3⟩ b) ∧
    (∀ b ∈ Items.bindings ⟨9, 9⟩ 0 Fix.flatTags, Short b ∧ ¬ Reaches c!"b" ⟨1, 10⟩ b ∧ ¬ InForce c!"b" ⟨1, 10⟩ b) ∧
    (∃ d, (c!"upper", d) ∈ filterTable) ∧
    ∃ s' out r tree, Fix.server.handle (Fix.env.over Fix.flatSyn) Fix.emptyWorld (.didOpen Fix.uriA []) = .ok (s', out, r) ∧
      Analysed Fix.env s'.files Fix.uriA [] tree Fix.flatTags ∧ Fix.flatSyn.root tree [] = Fix.flatRoot := by
  refine ⟨Fix.flat_wellFormed, Fix.flat_laid, Fix.flatElems_read, Fix.flatElems_wf, ?_, by simp [Fix.flatElems], ?_, ?_, ?_, ?_, ?_⟩
  · refine Refs.stmt (b := Fix.lf .statementBegin 103 0 0 2 c!"{%") (e := Fix.lf .statementEnd 203 0 13 15 c!"%}") ⟨rfl, rfl, ⟨Fix.token_lf .., rfl⟩, ⟨Fix.token_lf .., rfl⟩, ?_⟩
      (by simp [NoRef, strings, Fix.lf, Syn.kind]) (Refs.other (.inr rfl) ?_ (Refs.other (.inr rfl) ?_ .nil))
    · simp [Fix.lf, Syn.kind]; exact ⟨Fix.token_lf .., Fix.token_lf .., Fix.token_lf .., Fix.token_lf ..⟩
    · simp [Fix.ex, Fix.lf, Syn.children, Syn.kind]
    · simp [Fix.ex, Fix.lf, Syn.children, Syn.kind]
  · exact ⟨⟨c!"a", ⟨0, 7⟩, ⟨0, 8⟩, .setVariable, ⟨9, 9⟩⟩, by decide, by unfold Reaches; decide⟩
  · exact ⟨⟨c!"a", ⟨0, 7⟩, ⟨0, 8⟩, .setVariable, ⟨9, 9⟩⟩, by decide, by unfold InForce; decide⟩
  · unfold Short Reaches InForce; decide
  · exact ⟨c!"md/filters/upper.md", by decide⟩
  · have : ∃ s' out r, Fix.server.handle (Fix.env.over Fix.flatSyn) Fix.emptyWorld (.didOpen Fix.uriA []) = .ok (s', out, r) ∧
        s'.files.documents.get? Fix.uriA = some [] ∧
        (s'.files.trees .template).get? Fix.uriA = some (.parsed .jinja [] (some (.parsed .jinja c!"aaa" none))) := ⟨_, _, _, rfl, rfl, rfl⟩
    obtain ⟨s', out, r, h1, h2, h3⟩ := this
    exact ⟨s', out, r, _, h1, C83_analysed Fix.env Fix.flatSyn Fix.emptyWorld Fix.server s' (.didOpen Fix.uriA []) Fix.uriA [] _ out r _ (.opened _) rfl h1 h2 h3
      Fix.flat_wellFormed rfl Fix.flatTags_read, rfl⟩

end JinjaLsp
