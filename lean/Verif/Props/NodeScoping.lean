import Verif.Props.NodePlaces
import Verif.Props.ScopedCompletion
/-
  C126: goto-definition, hover and completion in embedded templates against Jinja's scoping rules (Spec/Jinja.lean).
-/

namespace JinjaLsp
open Node Spec NodeFiles Rope

namespace Spec

/-- The embedded template is written as the program `p` with the uses `es` and the references `ss`. -/
structure HostedProgram (env : Env) (sx : Syntax) (w : World) (calls : List Call) (n : NodeFiles) (id : Nat)
    (fn uri host above margin content below : Str) (line : Nat) (col : Option Nat) (root : Syn) (p : Program) (es : List Elem) (ss : List ImpStmt) : Prop
    extends Hosted env sx w calls n id fn uri host above margin content below line col root where
  reads : ∀ old, AsProgram env sx (padded (col.getD 0) content) (.parsed .jinja (padded (col.getD 0) content) old) p es ss
  nodes : Laid root

/-- The cursor of the host document is in the name `t` of the embedded template; `before` and `after` are the text of the template around that
name, and the line before it is ASCII. -/
structure InName (host above margin content below : Str) (col : Option Nat) (t : Tok) (pos : Position) (before after : Str) : Prop where
  occurs : Occurs (padded (col.getD 0) content) t.start t.stop (padded (col.getD 0) before) t.text
  text : content = before ++ t.text ++ after
  word : PlainWord t.text
  cursor : ∃ x y, t.text = x ++ y ∧ y ≠ [] ∧ Stands host pos (above ++ margin ++ (before ++ x)) (y ++ (after ++ below))
  ascii : AsciiLine before

/-- the place of the token in the host document, where the template begins on line `line` -/
def hostRange (line : Nat) (t : Tok) : Range := ⟨⟨t.start.row + line, t.start.column⟩, ⟨t.stop.row + line, t.stop.column⟩⟩

end Spec

/-- the latest recorded binding that reaches a variable is the one Jinja resolves it to -/
theorem Spec.AsProgram.reached {env : Env} {sx : Syntax} {text : Str} {tree : Tree} {p : Program} {es : List Elem} {ss : List ImpStmt}
    (h : AsProgram env sx text tree p es ss) (hq : p.Simple) {t : Tok} {visible : List Bound} (hs : (t, visible) ∈ p.sees [] []) {x : Bound}
    (hx : resolve visible t.text = some x) (hxl : x.Lexical) (hb : t.text ∉ p.blocks) {q : Point} (h1 : t.start ≤ q) (h2 : q < t.stop) :
    (∃ b ∈ Items.bindings (env.rootEnd tree) 0 p.items, Reaches t.text q b) ∧
    ∀ b ∈ Items.bindings (env.rootEnd tree) 0 p.items, Reaches t.text q b →
      (∀ b' ∈ Items.bindings (env.rootEnd tree) 0 p.items, Reaches t.text q b' → b'.start ≤ b.start) → b = x.tok.bind x.kind b.visibleTo := by
  obtain ⟨hxm, hxn⟩ := resolve_mem hx
  obtain ⟨e, hb1, hb2, ⟨hb3, hb4⟩, hb5⟩ := h.recorded (simple_paired hq) hs hxl hxm
  have hreach : Reaches t.text q (x.tok.bind x.kind e) :=
    ⟨hxn, Point.le_trans (Point.le_of_lt hb3) (Point.le_trans hb4 h1), Point.le_of_lt (Point.lt_of_lt_of_le h2 hb5)⟩
  refine ⟨⟨_, hb1, hreach⟩, fun b k1 ⟨k2, k3, k4⟩ k5 => ?_⟩
  have hmax := k5 _ hb1 hreach
  rcases h.touching hq hs k1 k2 ⟨Point.le_trans k3 (Point.le_of_lt h2), .inl (Point.le_trans h1 k4)⟩ with ⟨_, hbl⟩ | ⟨y, hy, hyl, hbe⟩
  · exact (hb (k2 ▸ hbl)).elim
  · have hyn : y.tok.text = t.text := by rw [hbe] at k2; exact k2
    have hle : x.tok.start ≤ y.tok.start := by rw [hbe] at hmax; exact hmax
    have := latest_first (sees_latest (simple_paired hq) h.laid [] [] .nil .nil (fun _ h => by cases h) (fun _ h => by cases h) hs) hx hxl hy hyl hyn hle
    subst this
    exact hbe

/-- likewise for the bindings in force before it -/
theorem Spec.AsProgram.forced {env : Env} {sx : Syntax} {text : Str} {tree : Tree} {p : Program} {es : List Elem} {ss : List ImpStmt}
    (h : AsProgram env sx text tree p es ss) (hq : p.Simple) {t : Tok} {visible : List Bound} (hs : (t, visible) ∈ p.sees [] []) {x : Bound}
    (hx : resolve visible t.text = some x) (hxl : x.Lexical) :
    (∃ b ∈ Items.bindings (env.rootEnd tree) 0 p.items, InForce t.text t.start b) ∧
    ∀ b ∈ Items.bindings (env.rootEnd tree) 0 p.items, InForce t.text t.start b →
      (∀ b' ∈ Items.bindings (env.rootEnd tree) 0 p.items, InForce t.text t.start b' → b'.start ≤ b.start) → b = x.tok.bind x.kind b.visibleTo := by
  obtain ⟨hxm, hxn⟩ := resolve_mem hx
  obtain ⟨e, hb1, hb2, ⟨hb3, hb4⟩, hb5⟩ := h.recorded (simple_paired hq) hs hxl hxm
  have hforce : InForce t.text t.start (x.tok.bind x.kind e) := ⟨hb2, hxn, hb4, Point.le_of_lt (Point.lt_of_lt_of_le (h.spans hs) hb5)⟩
  refine ⟨⟨_, hb1, hforce⟩, fun b k1 k2 k5 => ?_⟩
  have hmax := k5 _ hb1 hforce
  obtain ⟨y, hy, hyl, hbe⟩ := h.touching_before hq hs k1 k2
  have hyn : y.tok.text = t.text := by have := k2.2.1; rw [hbe] at this; exact this
  have hle : x.tok.start ≤ y.tok.start := by rw [hbe] at hmax; exact hmax
  have := latest_first (sees_latest (simple_paired hq) h.laid [] [] .nil .nil (fun _ h => by cases h) (fun _ h => by cases h) hs) hx hxl hy hyl hyn hle
  subst this
  exact hbe

namespace Spec.HostedProgram
variable {env : Env} {sx : Syntax} {w : World} {calls : List Call} {n : NodeFiles} {id : Nat} {fn uri host above margin content below : Str}
  {line : Nat} {col : Option Nat} {root : Syn} {p : Program} {es : List Elem} {ss : List ImpStmt}

/-- what is recorded of the template -/
theorem analysed (h : HostedProgram env sx w calls n id fn uri host above margin content below line col root p es ss) :
    ∃ old, Spec.Analysed env n.files uri (padded (col.getD 0) content) (.parsed .jinja (padded (col.getD 0) content) old) p.items := by
  obtain ⟨old, defs, hd, ht, hdq, hv⟩ := h.recorded
  have ha := h.reads old
  obtain ⟨defs', h2, h3⟩ := C64_bracket_matching (env.over sx) (.parsed .jinja (padded (col.getD 0) content) old) Point.zero (padded (col.getD 0) content)
    p.items (tags_wf ha.wf ha.tags) (over_definitions ha.kind ha.tags)
  rw [hdq] at h2
  cases h2
  exact ⟨old, hd, ht, _, hv, h3⟩

/-- the cursor, in the template -/
theorem cursor (h : HostedProgram env sx w calls n id fn uri host above margin content below line col root p es ss) {u : Use} (hu : .use u ∈ es)
    {pos : Position} {before after : Str} (hc : InName host above margin content below col u.root pos before after) :
    ∃ l vars, pos = ⟨l + line, pos.character⟩ ∧ u.root.start ≤ ⟨l, pos.character⟩ ∧ (⟨l, pos.character⟩ : Point) < u.root.stop ∧
      OnEmbedded (env.over sx) w calls n id fn uri line l pos.character u vars := by
  obtain ⟨x, y, hxy, hy, hst⟩ := hc.cursor
  have ha := h.reads none
  have hroot := (h.parses none).2
  obtain ⟨hle, hpt, vars, hon⟩ := h.onUse (hroot ▸ ha.wf) h.nodes (hroot ▸ ha.uses) ha.usesWf hu hc.occurs hc.text hc.word.1 hxy hy hst hc.ascii
  refine ⟨pos.line - line, vars, by rw [Nat.sub_add_cancel hle], ?_, ?_, hon⟩
  · rw [hc.occurs.start, hpt, padded, padded, ← List.append_assoc, advance_append _ (_ ++ before)]; exact advance_le _ _
  · rw [hc.occurs.stop, hpt, hxy, padded, padded, ← List.append_assoc, ← List.append_assoc, advance_append _ (_ ++ before ++ x)]; exact advance_lt _ _ hy

end Spec.HostedProgram

/-! ## C126 -/

/-- **C126** (goto-definition, part) With the cursor of the host document in a variable of an embedded template that is bound where Jinja evaluates
it, goto-definition leads to the binding that Jinja resolves it to, at its place in the host document; the range covers that occurrence exactly
if the line of the template before it is ASCII.  Missing: as in C121, and file names that are no URLs or are written differently in one (C102). -/
theorem C126_goto_partial (env : Env) (sx : Syntax) (w : World) (calls : List Call) (n : NodeFiles) (id : Nat)
    (fn uri host above margin content below url : Str) (line : Nat) (col : Option Nat) (root : Syn) (p : Program) (es : List Elem) (ss : List ImpStmt)
    (h : HostedProgram env sx w calls n id fn uri host above margin content below line col root p es ss) (hq : p.Simple)
    (u : Use) (hu : .use u ∈ es) (visible : List Bound) (hs : (u.root, visible) ∈ p.sees [] []) (x : Bound)
    (hx : resolve visible u.root.text = some x) (hxl : x.Lexical) (hb : u.root.text ∉ p.blocks) (pos : Position) (before after : Str)
    (hc : InName host above margin content below col u.root pos before after) (hin : PartOf fn uri) (hurl : env.urlParse fn = some url) :
    n.gotoDefinition (env.over sx) w id fn line pos = .ok (some [⟨url, hostRange line x.tok, false⟩]) ∧
    ∃ before' after', content = before' ++ x.tok.text ++ after' ∧
      Occurs (padded (col.getD 0) content) x.tok.start x.tok.stop (padded (col.getD 0) before') x.tok.text ∧
      (Selects host (hostRange line x.tok) (above ++ margin ++ before') x.tok.text ↔ AsciiLine before') := by
  obtain ⟨l, vars, hpos, h1, h2, hon⟩ := h.cursor hu hc
  obtain ⟨old, hd, ht, vs, hv, hvs⟩ := h.analysed
  have ha := h.reads old
  rw [hon.read] at hv
  cases hv
  have hocc := h.occurs hon.read
  have hline := h.line_small
  obtain ⟨⟨b, hb1, hb2⟩, hlast⟩ := ha.reached hq hs hx hxl hb h1 h2
  obtain ⟨d, k1, k2, k3, k4⟩ := C102_local_partial (env.over sx) w calls n id fn uri url line l pos.character u vars hon
    (by
      intro v hvm
      rcases hocc v hvm with ⟨_, e1, e2⟩ | ⟨pre, ho'⟩
      · simp only [Fits, RangeFits, rangeOf, e1, e2, Point.zero]; omega
      · have := h.fits ho'
        simp only [Fits, RangeFits, rangeOf]; omega)
    (by
      rw [← hvs] at hb1
      obtain ⟨d, hd, rfl⟩ := List.mem_map.mp hb1
      exact ⟨d, hd, hb2⟩) hin hurl
  have hbe := hlast d.binding (hvs ▸ List.mem_map_of_mem k1) k2 (fun b' hb' hr => by
    rw [← hvs] at hb'
    obtain ⟨e, he, rfl⟩ := List.mem_map.mp hb'
    exact k3 e he hr)
  have e1 : d.name = x.tok.text := congrArg Binding.name hbe
  have e2 : d.start = x.tok.start := congrArg Binding.start hbe
  have e3 : d.stop = x.tok.stop := congrArg Binding.stop hbe
  have hname : d.name = u.root.text := k2.1
  rw [← hpos] at k4
  have hr : downRange line (rangeOf d) = hostRange line x.tok := by
    simp only [downRange, downPos, rangeOf, hostRange, e2, e3]
  refine ⟨by rw [k4, hr], ?_⟩
  rcases hocc d k1 with ⟨e0, _⟩ | ⟨pre, ho⟩
  · exact absurd (hname ▸ e0) hc.word.1.1
  · rw [e1, e2, e3] at ho
    have hw : PlainWord x.tok.text := by rw [← e1, hname]; exact hc.word
    obtain ⟨p', post', rfl, hp'⟩ := Embedded.within ho hw.1.1 hw.2
    exact ⟨p', post', hp', ho, h.place.selects_iff h.noCR ho hp' hw.1⟩

/-- **C126** (hover, part) Hovering it, while no hint for a name that begins with it is in force, shows by what kind of statement that binding is
made, for the range of the name in the host document.  Missing: as in C121. -/
theorem C126_hover_partial (env : Env) (sx : Syntax) (w : World) (calls : List Call) (n : NodeFiles) (id : Nat)
    (fn uri host above margin content below : Str) (line : Nat) (col : Option Nat) (root : Syn) (p : Program) (es : List Elem) (ss : List ImpStmt)
    (h : HostedProgram env sx w calls n id fn uri host above margin content below line col root p es ss) (hq : p.Simple)
    (u : Use) (hu : .use u ∈ es) (hvar : u.mark = .variable) (visible : List Bound) (hs : (u.root, visible) ∈ p.sees [] []) (x : Bound)
    (hx : resolve visible u.root.text = some x) (hxl : x.Lexical) (pos : Position) (before after : Str)
    (hc : InName host above margin content below col u.root pos before after)
    (hhint : ∀ b ∈ (toldUnder c!"temp" none calls).getD [], ¬ u.root.text <+: b.name) :
    ∃ r, n.hover (env.over sx) w id fn line pos = .ok (some ⟨kindText x.kind ++ c!"\n\n---\n**" ++ u.root.text ++ c!"**", r⟩) ∧
      Selects host r (above ++ margin ++ before) u.root.text := by
  obtain ⟨l, vars, hpos, h1, h2, hon⟩ := h.cursor hu hc
  obtain ⟨old, hd, ht, vs, hv, hvs⟩ := h.analysed
  have ha := h.reads old
  rw [hon.read] at hv
  cases hv
  obtain ⟨⟨b, hb1, hb2⟩, hlast⟩ := ha.forced hq hs hx hxl
  have hex : ∃ d ∈ vars, DefinesAt u.root.text u.root.start d := by
    rw [← hvs] at hb1
    obtain ⟨d, hd, rfl⟩ := List.mem_map.mp hb1
    exact ⟨d, hd, hb2⟩
  obtain ⟨t, hk, hans⟩ := C94_kind (env.over sx) w calls n id fn uri line l pos.character u vars hon (by simp [Use.info, hvar])
    (fun hun => by obtain ⟨d, h3, h4⟩ := hex; exact hun.1 d h3 h4) hhint
  rw [← hpos] at hans
  have hkt : t = x.kind := by
    rcases hk with ⟨d, k1, k2, k3, rfl⟩ | ⟨k1, _⟩
    · have := hlast d.binding (hvs ▸ List.mem_map_of_mem k1) k2 (fun b' hb' hr => by
        rw [← hvs] at hb'
        obtain ⟨e, he, rfl⟩ := List.mem_map.mp hb'
        exact k3 e he hr)
      exact congrArg Binding.kind this
    · obtain ⟨d, h3, h4⟩ := hex
      exact absurd h4 (k1 d h3)
  rw [hkt] at hans
  refine ⟨_, hans, ?_⟩
  have hf := h.fits hc.occurs
  have hrange : downRange line (toRange (u.root.start, u.root.stop)) = hostRange line u.root := by
    simp only [downRange, downPos, toRange, toU32, hostRange]
    rw [Nat.mod_eq_of_lt (by omega), Nat.mod_eq_of_lt (by omega), Nat.mod_eq_of_lt (by omega), Nat.mod_eq_of_lt (by omega)]
  rw [hrange]
  exact (h.place.selects_iff h.noCR hc.occurs hc.text hc.word.1).mpr hc.ascii

/-- **C126** (unbound names, part) Hovering a variable that is imported or not bound where Jinja evaluates it shows nothing if no other file has an
entry of that name, and goto-definition then leads nowhere.  Missing: as in C121. -/
theorem C126_unbound_partial (env : Env) (sx : Syntax) (w : World) (calls : List Call) (n : NodeFiles) (id : Nat)
    (fn uri host above margin content below : Str) (line : Nat) (col : Option Nat) (root : Syn) (p : Program) (es : List Elem) (ss : List ImpStmt)
    (h : HostedProgram env sx w calls n id fn uri host above margin content below line col root p es ss) (hq : p.Simple)
    (u : Use) (hu : .use u ∈ es) (hvar : u.mark = .variable) (visible : List Bound) (hs : (u.root, visible) ∈ p.sees [] [])
    (hx : ¬ LexicallyBound visible u.root) (hb : u.root.text ∉ p.blocks) (pos : Position) (before after : Str)
    (hc : InName host above margin content below col u.root pos before after)
    (hn : ∀ i ∈ ss, ∀ t ∈ i.names, t.stop < u.root.start ∨ u.root.stop ≤ t.start)
    (hel : ¬ ∃ file v, Elsewhere n.files uri u.root.text file v) :
    n.hover (env.over sx) w id fn line pos = .ok none ∧ n.gotoDefinition (env.over sx) w id fn line pos = .ok (some []) := by
  obtain ⟨l, vars, hpos, h1, h2, hon⟩ := h.cursor hu hc
  obtain ⟨old, hd, ht, vs, hv, hvs⟩ := h.analysed
  have ha := h.reads old
  rw [hon.read] at hv
  cases hv
  have hm : ∀ d ∈ vars, d.binding ∈ Items.bindings (env.rootEnd (.parsed .jinja (padded (col.getD 0) content) old)) 0 p.items :=
    fun d hd => hvs ▸ List.mem_map_of_mem hd
  have hno : ∀ d ∈ vars, ¬ Binds u.root.text ⟨l, pos.character⟩ d := by
    rintro d hd ⟨k2, k3, k4⟩
    rcases ha.touching hq hs (hm d hd) k2 ⟨Point.le_trans k3 (Point.le_of_lt h2), .inl (Point.le_trans h1 k4)⟩ with ⟨_, hbl⟩ | ⟨y, hy, hyl, hbe⟩
    · exact hb (k2 ▸ hbl)
    · exact hx ⟨y, hy, hyl, (congrArg Binding.name hbe).symm.trans k2⟩
  constructor
  · rw [hpos]
    refine C94_unknown_refuted (env.over sx) w calls n id fn uri line l pos.character u vars hon (by simp [Use.info, hvar]) ⟨fun d hd hf => ?_, hel⟩
    obtain ⟨y, hy, hyl, hbe⟩ := ha.touching_before hq hs (hm d hd) hf
    exact hx ⟨y, hy, hyl, (congrArg Binding.name hbe).symm.trans hf.2.1⟩
  · have htp : ∀ tree text, (n.files.trees .template).get? uri = some tree → n.files.documents.get? uri = some text →
        NoTemplate ((env.over sx).queryMatches .jinjaImports tree text).flatten ⟨l, pos.character⟩ := by
      intro tree text k1 k2
      rw [ht] at k1; rw [hd] at k2
      cases k1; cases k2
      refine noTemplate_refs ha.kind ha.refs ha.refsWf fun i hi t hti ⟨k3, k4⟩ => ?_
      rcases hn i hi t hti with k5 | k5
      · exact Point.lt_irrefl _ (Point.lt_of_le_of_lt (Point.le_trans h1 k4) k5)
      · exact Point.lt_irrefl _ (Point.lt_of_lt_of_le h2 (Point.le_trans k5 k3))
    rw [hpos, hon.goto_others hno htp, collectFiles_ok (env := env.over sx) (uri := uri) (n := u.root.text) (w.order.shuffle 2 n.files.variables.entries)
      (fun e he hne v hv hs => absurd ⟨e.1, v, hne, e.2, mem_entries.mp he, hv, hs⟩ hel)]
    have hnil : places (env.over sx) uri u.root.text (w.order.shuffle 2 n.files.variables.entries) = [] := by
      cases hp : places (env.over sx) uri u.root.text (w.order.shuffle 2 n.files.variables.entries) with
      | nil => rfl
      | cons q qs =>
        have hmem : q ∈ places (env.over sx) uri u.root.text (w.order.shuffle 2 n.files.variables.entries) := by rw [hp]; exact List.mem_cons_self
        unfold places at hmem
        simp only [List.mem_flatMap, List.mem_filter, List.mem_map, decide_eq_true_eq, decide_not, Bool.not_eq_true', decide_eq_false_iff_not] at hmem
        obtain ⟨e, ⟨he, hne⟩, v, ⟨hv, hs⟩, _⟩ := hmem
        exact absurd ⟨e.1, v, hne, e.2, mem_entries.mp he, hv, hs⟩ hel
    rw [hnil]
    rfl

/-- **C126** (completion, part) With the cursor at line `l` and column `ch` of the template, behind an evaluated name in an expression and beside all names
and pipes, with no token in between, the names that are bound where Jinja evaluates that one are offered, besides the variables of backend files and
the hints told for `temp_`.  Missing: as in C122, and cursors in names (`C126_typed_refuted`). -/
theorem C126_complete_partial (env : Env) (sx : Syntax) (w : World) (calls : List Call) (n : NodeFiles) (id : Nat)
    (fn uri host above margin content below : Str) (line : Nat) (col : Option Nat) (root : Syn) (p : Program) (es : List Elem) (ss : List ImpStmt)
    (h : HostedProgram env sx w calls n id fn uri host above margin content below line col root p es ss) (hq : p.Simple) (hr : Regular root)
    (t : Tok) (visible : List Bound) (hs : (t, visible) ∈ p.sees [] []) (l ch : Nat) (hf : Follows p t ⟨l, ch⟩)
    (hl : ∀ old, ⟨l, ch⟩ ≤ env.rootEnd (.parsed .jinja (padded (col.getD 0) content) old)) (hb : Beside sx.digit root ⟨l, ch⟩)
    (hpipe : ∀ k ∈ root.flat, IsPipe k → ¬ Touches ⟨l, ch⟩ k) (hin : ∃ e ∈ root.flat, Within ⟨l, ch⟩ e) :
    ∃ items, n.complete (env.over sx) w id fn line ⟨l + line, ch⟩ = .ok (some items) ∧
      ∀ name, name ∈ items.map (·.label) ↔ (∃ x ∈ visible, x.Lexical ∧ x.tok.text = name) ∨ BackendName n.files name ∨
        ∃ a ∈ (toldUnder c!"temp_" none calls).getD [], a.name = name := by
  obtain ⟨old, han⟩ := h.analysed
  have ha := h.reads old
  have hroot := (h.parses old).2
  rw [← hroot] at hr hb hpipe hin
  obtain ⟨own, rest, k1, _, k3, k4⟩ := ha.behind (s' := { Server.init with files := n.files }) h.template han w hq hr t visible hs ⟨l, ch⟩ hf (hl old)
    .triggerCharacter (.inr rfl) hb hpipe hin
  obtain ⟨hd, ht, vs, hv, _⟩ := han
  obtain ⟨o, ho, hof, hfrom⟩ := beside_query (env := env) hr hb
  have h1 : o.inPipe ⟨l, ch⟩ = false := by
    cases h : o.inPipe ⟨l, ch⟩ with
    | false => rfl
    | true => obtain ⟨k, hk, h2, h3⟩ := (beside_pipe hr hb hof).mp h; exact absurd h3 (hpipe k hk h2)
  have h2 := (beside_expr hr hb hof hfrom).mpr hin
  have h3 := (beside_ident hr hb hfrom).2
  have hk := kind_of_objects (env := env.over sx) (pos := ⟨l, ch⟩) (tr := .triggerCharacter) (c := (.identifier, o.shouldAutoclose)) (.inr rfl) h.template hd ht
    (regular_intact hr.correct) ho (by simp only [toPoint]; simp [JinjaObjects.completion, h1, h2, h3])
  have htold := actions_told (h := c!"temp_") calls h.run
  rw [show NodeFiles.new.actions.get? c!"temp_" = none from rfl] at htold
  have hvars : ∃ items, n.files.readVariables w uri ⟨l, ch⟩ none none = some items := by
    simp only [LspFiles.readVariables, hv]; exact ⟨_, rfl⟩
  obtain ⟨items, hitems⟩ := hvars
  have hreply : items = own ++ rest := by
    simp only [Server.handle, Server.onCompletion, hk, completionItems, hitems] at k1
    cases k1
    rfl
  refine ⟨_, by unfold complete; simp only [usub32_add, h.uri_eq, hk, hitems]; rfl, fun name => ?_⟩
  rw [htold, List.map_append, List.mem_append, List.map_map, List.map_map]
  have hlab : name ∈ items.map (·.label) ↔ (∃ x ∈ visible, x.Lexical ∧ x.tok.text = name) ∨ BackendName n.files name := by
    rw [hreply, List.map_append, List.mem_append]
    exact or_congr (k3 name) (k4 name)
  rw [← or_assoc, ← hlab, or_comm]
  exact or_congr_right List.mem_map

/-- **C126** is false while a name is typed: then nothing is offered at all, unless variables are stored under the bare name of the host file – whatever
is bound where Jinja evaluates the name. -/
theorem C126_typed_refuted (env : Env) (sx : Syntax) (w : World) (calls : List Call) (n : NodeFiles) (id : Nat)
    (fn uri host above margin content below : Str) (line : Nat) (col : Option Nat) (root : Syn) (p : Program) (es : List Elem) (ss : List ImpStmt)
    (h : HostedProgram env sx w calls n id fn uri host above margin content below line col root p es ss) (hr : Regular root)
    (u : Use) (hu : .use u ∈ es) (l ch : Nat) (typed : Str) (ht : TypedUse sx.digit root u ⟨l, ch⟩ typed)
    (hfn : n.files.variables.get? fn = none) : ∀ items, n.complete (env.over sx) w id fn line ⟨l + line, ch⟩ ≠ .ok (some items) := by
  obtain ⟨old, hd, htr, vs, hv, _⟩ := h.analysed
  have ha := h.reads old
  have hroot := (h.parses old).2
  rw [← hroot] at hr ht
  obtain ⟨untyped, hn⟩ := ht.part
  obtain ⟨e, he, hek, he1, he2, he3⟩ := ht.inside
  obtain ⟨h1, h2⟩ := ht.from
  obtain ⟨pre, rest, hon, hlast⟩ := typed_use (env := env) hr ha.uses ha.usesWf hu (Point.le_of_lt h1) h2 ht.next
  replace hlast := hlast e he hek he2 he3
  obtain ⟨r, b, _, hk⟩ := typed_kind (env.over sx) n.files uri _ _ ⟨l, ch⟩ h.template hd htr (regular_intact hr.correct) pre u rest hon typed untyped hn.symm
    ht.started (by rw [ht.span]) (by have := congrArg Point.column ht.cursor; exact this) (by have := congrArg Point.row ht.cursor; exact this)
    (by rw [hlast]; exact ⟨Point.le_trans he2 (Point.le_of_lt h1), he3⟩) (by rw [hlast]; exact he1)
  rw [← requested (.inr rfl : Requested .triggerCharacter)] at hk
  intro items
  unfold complete
  simp only [usub32_add, h.uri_eq, hk, LspFiles.getVariable, hfn]
  split <;> simp

/-! ### Example -/

namespace Fix

/-- `hostContent` -/
def hostP : Program :=
  .set ⟨tok 0 7 9 c!"{%" 103, tok 0 20 22 c!"%}" 203⟩ (tok 0 10 13 c!"set" 15) (tok 0 14 15 c!"a" 16) [.eq (tok 0 16 17 c!"=" 17)]
    (.out [.name (tok 1 5 6 c!"a" 20)] [] (.out [.name (tok 1 12 16 c!"user" 21), .name (tok 1 17 21 c!"name" 23)] [] .done))

def hostUser : Use := ⟨.variable, tok 1 12 16 c!"user" 21, [(tok 1 16 17 c!"." 22, tok 1 17 21 c!"name" 23)]⟩

theorem host_reads (text : Str) (tree : Tree) : AsProgram env hostSyn text tree hostP hostElems [] :=
  have h1 : InOrder ⟨9, 9⟩ hostP.toks := ⟨by decide, by decide, by decide⟩
  have h2 : ImpStmt.Wf [] := ⟨by decide, by decide, by decide⟩
  ⟨host_wellFormed, rfl, hostTags_read, hostElems_read, hostElems_wf, readRefs_sound rfl, h2, h1⟩

theorem host_simple : hostP.Simple := ⟨by decide, trivial⟩

/-- only the template has been added -/
def plainCalls : List Call := [.addOne 7 c!"f" hostContent 1 c!"jinja" (some 7)]

theorem hosted_plain : ∃ n, HostedProgram env hostSyn world plainCalls n 7 c!"f" offsetUri hostText hostAbove hostMargin hostContent hostBelow 1 (some 7) hostRoot
    hostP hostElems [] := by
  have : ∃ n, Call.run (env.over hostSyn) world NodeFiles.new plainCalls = .ok n := ⟨_, rfl⟩
  obtain ⟨n, hn⟩ := this
  exact ⟨n, ⟨hn, ⟨[], [], 1, rfl, by simp⟩, rfl, by decide, host_embedded, host_cr, by decide +kernel, fun _ => ⟨rfl, rfl⟩,
    tags_no_error rfl hostTags_read, host_spelled⟩, fun _ => host_reads _ _, host_laid⟩

/-- the cursor before `a` in `{{ a }}` -/
theorem host_inName : InName hostText hostAbove hostMargin hostContent hostBelow (some 7) hostA.root ⟨2, 5⟩ c!"{% set a = 1 %}\n  {{ " c!" }}{{ user.name }}" :=
  ⟨⟨⟨c!" }}{{ user.name }}", by decide +kernel⟩, by decide +kernel, by decide +kernel⟩, by decide +kernel, by unfold PlainWord AsciiWord; decide,
    ⟨[], c!"a", rfl, by simp, host_stands⟩, by unfold AsciiLine; decide +kernel⟩

/-- the cursor after `us` in `{{ user.name }}` -/
theorem host_inUser : InName hostText hostAbove hostMargin hostContent hostBelow (some 7) hostUser.root ⟨2, 14⟩ c!"{% set a = 1 %}\n  {{ a }}{{ " c!".name }}" :=
  ⟨⟨⟨c!".name }}", by decide +kernel⟩, by decide +kernel, by decide +kernel⟩, by decide +kernel, by unfold PlainWord AsciiWord; decide,
    ⟨c!"us", c!"er", rfl, by simp, by decide +kernel, c!"import jinja2\né = '''{% set a = 1 %}\n", c!"  {{ a }}{{ us", by decide +kernel, by decide +kernel,
      by decide, by decide +kernel⟩, by unfold AsciiLine; decide +kernel⟩

end Fix

/-- `{{ a }}` leads to `{% set a = 1 %}`; its column is off, since the host line has `é` before it.  `{{ user.name }}` is unknown. -/
example : ∃ n, Call.run (Fix.env.over Fix.hostSyn) Fix.world NodeFiles.new Fix.plainCalls = .ok n ∧
    n.gotoDefinition (Fix.env.over Fix.hostSyn) Fix.world 7 c!"f" 1 ⟨2, 5⟩ = .ok (some [⟨c!"f", ⟨⟨1, 14⟩, ⟨1, 15⟩⟩, false⟩]) ∧
    (∃ r, n.hover (Fix.env.over Fix.hostSyn) Fix.world 7 c!"f" 1 ⟨2, 5⟩ = .ok (some ⟨kindText .setVariable ++ c!"\n\n---\n**a**", r⟩)) ∧
    n.hover (Fix.env.over Fix.hostSyn) Fix.world 7 c!"f" 1 ⟨2, 14⟩ = .ok none ∧
    n.gotoDefinition (Fix.env.over Fix.hostSyn) Fix.world 7 c!"f" 1 ⟨2, 14⟩ = .ok (some []) := by
  obtain ⟨n, h⟩ := Fix.hosted_plain
  have hs : (Fix.hostA.root, [⟨Fix.tok 0 14 15 c!"a" 16, .setVariable, false⟩]) ∈ Fix.hostP.sees [] [] := by decide
  have hsu : (Fix.hostUser.root, [⟨Fix.tok 0 14 15 c!"a" 16, .setVariable, false⟩]) ∈ Fix.hostP.sees [] [] := by decide
  obtain ⟨g1, _⟩ := C126_goto_partial _ _ _ _ _ _ _ _ _ _ _ _ _ c!"f" _ _ _ _ _ _ h Fix.host_simple Fix.hostA (by simp [Fix.hostElems]) _ hs
    ⟨Fix.tok 0 14 15 c!"a" 16, .setVariable, false⟩ (by decide) (by decide) (by decide) _ _ _ Fix.host_inName ⟨c!"file:///home/", c!".7.jinja", by decide⟩ rfl
  obtain ⟨r, g2, _⟩ := C126_hover_partial _ _ _ _ _ _ _ _ _ _ _ _ _ _ _ _ _ _ _ h Fix.host_simple Fix.hostA (by simp [Fix.hostElems]) rfl _ hs
    ⟨Fix.tok 0 14 15 c!"a" 16, .setVariable, false⟩ (by decide) (by decide) _ _ _ Fix.host_inName (by decide)
  have hel : ¬ ∃ file v, Elsewhere n.files Fix.offsetUri Fix.hostUser.root.text file v := by
    have : ∃ n, Call.run (Fix.env.over Fix.hostSyn) Fix.world NodeFiles.new Fix.plainCalls = .ok n ∧
        n.files.variables.entries.map Prod.fst = [Fix.offsetUri] := ⟨_, rfl, rfl⟩
    obtain ⟨n', e1, e2⟩ := this
    rw [h.run] at e1
    cases e1
    rintro ⟨file, v, hne, vs, hv, _⟩
    have hm : (file, vs) ∈ n.files.variables.entries := (HMap.get?_eq_some_iff _ _ _).mp hv
    have := List.mem_map_of_mem (f := Prod.fst) hm
    rw [e2] at this
    exact hne (List.mem_singleton.mp this)
  obtain ⟨g3, g4⟩ := C126_unbound_partial _ _ _ _ _ _ _ _ _ _ _ _ _ _ _ _ _ _ _ h Fix.host_simple Fix.hostUser (by simp [Fix.hostElems, Fix.hostUser]) rfl _ hsu
    (by rintro ⟨x, hx, _, hn⟩; cases List.mem_singleton.mp hx; revert hn; decide) (by decide) _ _ _ Fix.host_inUser (by simp) hel
  exact ⟨n, h.run, g1, ⟨r, g2⟩, g3, g4⟩

namespace Fix

theorem host_regular : Regular hostRoot :=
  ⟨host_wellFormed, host_laid, by unfold Legible; decide +kernel, tags_no_error rfl hostTags_read, by decide +kernel, by decide +kernel, by decide +kernel⟩

end Fix

/-- behind `{{ a` the variable `a` is offered; while `a` is typed nothing is -/
example : ∃ n items, Call.run (Fix.env.over Fix.hostSyn) Fix.world NodeFiles.new Fix.plainCalls = .ok n ∧
    n.complete (Fix.env.over Fix.hostSyn) Fix.world 7 c!"f" 1 ⟨1 + 1, 7⟩ = .ok (some items) ∧ c!"a" ∈ items.map (·.label) ∧
    ∀ items, n.complete (Fix.env.over Fix.hostSyn) Fix.world 7 c!"f" 1 ⟨1 + 1, 6⟩ ≠ .ok (some items) := by
  obtain ⟨n, h⟩ := Fix.hosted_plain
  have hs : (Fix.hostA.root, [⟨Fix.tok 0 14 15 c!"a" 16, .setVariable, false⟩]) ∈ Fix.hostP.sees [] [] := by decide
  have touch : ∀ n ∈ Fix.hostRoot.flat, n.kind = .identifier ∨ n.kind = .operator → ¬ Touches ⟨1, 7⟩ n := by unfold Touches; decide +kernel
  have next : ∀ n ∈ Fix.hostRoot.flat, Fix.hostA.root.stop ≤ n.start → toPoint ⟨1, 6⟩ < n.start := by decide +kernel
  obtain ⟨items, g1, g2⟩ := C126_complete_partial _ _ _ _ _ _ _ _ _ _ _ _ _ _ _ _ _ _ _ h Fix.host_simple Fix.host_regular _ _ hs 1 7
    ⟨by decide, by decide, by decide⟩ (fun _ => show (⟨1, 7⟩ : Point) ≤ ⟨9, 9⟩ by decide) ⟨by decide, fun n hn hk => touch n hn (.inl hk.1)⟩
    (fun k hk hp => touch k hk (.inr hp.1)) (by unfold Within; decide +kernel)
  have hfn : n.files.variables.get? c!"f" = none := by
    have : ∃ n, Call.run (Fix.env.over Fix.hostSyn) Fix.world NodeFiles.new Fix.plainCalls = .ok n ∧ n.files.variables.get? c!"f" = none := ⟨_, rfl, rfl⟩
    obtain ⟨n', e1, e2⟩ := this
    rw [h.run] at e1
    cases e1
    exact e2
  exact ⟨n, items, h.run, g1, (g2 c!"a").mpr (.inl ⟨_, List.mem_cons_self, by decide, rfl⟩),
    C126_typed_refuted _ _ _ _ _ _ _ _ _ _ _ _ _ _ _ _ _ _ _ h Fix.host_regular Fix.hostA (by simp [Fix.hostElems]) 1 6 c!"a"
      ⟨by decide, by decide, by decide, by decide, fun n hn _ h => next n hn h, by decide +kernel⟩ hfn⟩

end JinjaLsp
