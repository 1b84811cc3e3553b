import Verif.Props.NodeScoping
import Verif.Props.Pieces
/-
  C133: what is said about a name in an embedded template, when tags are written at the end of that template or a complete piece is put in elsewhere.
-/

namespace JinjaLsp
open Node Spec NodeFiles Rope

namespace Spec

/-- The embedded template consists of the tags `is` with the uses `es`; the syntax tree ends at `fin`. -/
structure HostedItems (env : Env) (sx : Syntax) (w : World) (calls : List Call) (n : NodeFiles) (id : Nat)
    (fn uri host above margin content below : Str) (line : Nat) (col : Option Nat) (root : Syn) (fin : Point) (is : List Item) (es : List Elem) : Prop
    extends Hosted env sx w calls n id fn uri host above margin content below line col root where
  kind : root.kind = .other
  wf : WellFormed root
  nodes : Laid root
  tags : Tags sx.digit root.children is
  uses : ReadsTree sx.digit root es
  usesWf : Elems.Wf es
  ends : ∀ old, env.rootEnd (.parsed .jinja (padded (col.getD 0) content) old) = fin

/-- the place of the binding in the host document, where the template begins on line `line` -/
def hostPlace (line : Nat) (b : Binding) : Range := ⟨⟨b.start.row + line, b.start.column⟩, ⟨b.stop.row + line, b.stop.column⟩⟩

end Spec

namespace Spec.HostedItems
variable {env : Env} {sx : Syntax} {w : World} {calls : List Call} {n : NodeFiles} {id : Nat} {fn uri host above margin content below : Str}
  {line : Nat} {col : Option Nat} {root : Syn} {last : Point} {is : List Item} {es : List Elem}

/-- what is recorded of the template -/
theorem analysed (h : HostedItems env sx w calls n id fn uri host above margin content below line col root last is es) :
    ∃ old, Spec.Analysed env n.files uri (padded (col.getD 0) content) (.parsed .jinja (padded (col.getD 0) content) old) is := by
  obtain ⟨old, defs, hd, ht, hdq, hv⟩ := h.recorded
  have hroot := (h.parses old).2
  obtain ⟨defs', h2, h3⟩ := C64_bracket_matching (env.over sx) (.parsed .jinja (padded (col.getD 0) content) old) Point.zero (padded (col.getD 0) content)
    is (tags_wf h.wf h.tags) (over_definitions (hroot ▸ h.kind) (hroot ▸ h.tags))
  rw [hdq] at h2
  cases h2
  exact ⟨old, hd, ht, _, hv, h3⟩

/-- the cursor, in the template -/
theorem cursor (h : HostedItems env sx w calls n id fn uri host above margin content below line col root last is es) {u : Use} (hu : .use u ∈ es)
    {pos : Position} {before after : Str} (hc : InName host above margin content below col u.root pos before after) :
    ∃ l vars, pos = ⟨l + line, pos.character⟩ ∧ u.root.start ≤ ⟨l, pos.character⟩ ∧ (⟨l, pos.character⟩ : Point) < u.root.stop ∧
      (⟨l, pos.character⟩ : Point) = ⟨pos.line - line, pos.character⟩ ∧
      OnEmbedded (env.over sx) w calls n id fn uri line l pos.character u vars := by
  obtain ⟨x, y, hxy, hy, hst⟩ := hc.cursor
  obtain ⟨hle, hpt, vars, hon⟩ := h.onUse h.wf h.nodes h.uses h.usesWf hu hc.occurs hc.text hc.word.1 hxy hy hst hc.ascii
  refine ⟨pos.line - line, vars, by rw [Nat.sub_add_cancel hle], ?_, ?_, rfl, hon⟩
  · rw [hc.occurs.start, hpt, padded, padded, ← List.append_assoc, advance_append _ (_ ++ before)]; exact advance_le _ _
  · rw [hc.occurs.stop, hpt, hxy, padded, padded, ← List.append_assoc, ← List.append_assoc, advance_append _ (_ ++ before ++ x)]; exact advance_lt _ _ hy

/-- goto-definition, by the bindings of the tags -/
theorem goto (h : HostedItems env sx w calls n id fn uri host above margin content below line col root last is es) {u : Use} (hu : .use u ∈ es)
    {pos : Position} {before after url : Str} (hc : InName host above margin content below col u.root pos before after)
    (hex : ∃ b ∈ Items.bindings last 0 is, Reaches u.root.text ⟨pos.line - line, pos.character⟩ b)
    (hin : PartOf fn uri) (hurl : env.urlParse fn = some url) :
    u.root.start ≤ ⟨pos.line - line, pos.character⟩ ∧ (⟨pos.line - line, pos.character⟩ : Point) < u.root.stop ∧
    ∃ b ∈ Items.bindings last 0 is, Reaches u.root.text ⟨pos.line - line, pos.character⟩ b ∧
      (∀ b' ∈ Items.bindings last 0 is, Reaches u.root.text ⟨pos.line - line, pos.character⟩ b' → b'.start ≤ b.start) ∧
      n.gotoDefinition (env.over sx) w id fn line pos = .ok (some [⟨url, hostPlace line b, false⟩]) := by
  obtain ⟨l, vars, hpos, h1, h2, heq, hon⟩ := h.cursor hu hc
  obtain ⟨old, hd, ht, vs, hv, hvs⟩ := h.analysed
  rw [h.ends] at hvs
  rw [hon.read] at hv
  cases hv
  rw [← heq] at hex ⊢
  refine ⟨h1, h2, ?_⟩
  have hocc := h.occurs hon.read
  have hline := h.line_small
  obtain ⟨b, hb1, hb2⟩ := hex
  obtain ⟨d, k1, k2, k3, k4⟩ := C102_local_partial (env.over sx) w calls n id fn uri url line l pos.character u vars hon
    (by
      intro v hvm
      rcases hocc v hvm with ⟨_, e1, e2⟩ | ⟨pre, ho'⟩
      · simp only [Fits, RangeFits, rangeOf, e1, e2, Point.zero]; omega
      · have := h.fits ho'
        simp only [Fits, RangeFits, rangeOf]; omega)
    (by
      rw [← hvs] at hb1
      obtain ⟨d, hd, rfl⟩ := List.mem_map.mp hb1
      exact ⟨d, hd, hb2⟩) hin hurl
  rw [← hpos] at k4
  refine ⟨d.binding, hvs ▸ List.mem_map_of_mem k1, k2, fun b' hb' hr => ?_, k4⟩
  rw [← hvs] at hb'
  obtain ⟨e, he, rfl⟩ := List.mem_map.mp hb'
  exact k3 e he hr

/-- hover, by the bindings of the tags -/
theorem hover (h : HostedItems env sx w calls n id fn uri host above margin content below line col root last is es) {u : Use} (hu : .use u ∈ es)
    (hvar : u.mark = .variable) {pos : Position} {before after : Str} (hc : InName host above margin content below col u.root pos before after)
    (hhint : ∀ b ∈ (toldUnder c!"temp" none calls).getD [], ¬ u.root.text <+: b.name)
    (hex : ∃ b ∈ Items.bindings last 0 is, InForce u.root.text u.root.start b) :
    ∃ b ∈ Items.bindings last 0 is, InForce u.root.text u.root.start b ∧
      (∀ b' ∈ Items.bindings last 0 is, InForce u.root.text u.root.start b' → b'.start ≤ b.start) ∧
      n.hover (env.over sx) w id fn line pos = .ok (some ⟨kindText b.kind ++ c!"\n\n---\n**" ++ u.root.text ++ c!"**", hostRange line u.root⟩) := by
  obtain ⟨l, vars, hpos, h1, h2, heq, hon⟩ := h.cursor hu hc
  obtain ⟨old, hd, ht, vs, hv, hvs⟩ := h.analysed
  rw [h.ends] at hvs
  rw [hon.read] at hv
  cases hv
  obtain ⟨b, hb1, hb2⟩ := hex
  have hex : ∃ d ∈ vars, DefinesAt u.root.text u.root.start d := by
    rw [← hvs] at hb1
    obtain ⟨d, hd, rfl⟩ := List.mem_map.mp hb1
    exact ⟨d, hd, hb2⟩
  obtain ⟨t, hk, hans⟩ := C94_kind (env.over sx) w calls n id fn uri line l pos.character u vars hon (by simp [Use.info, hvar])
    (fun hun => by obtain ⟨d, h3, h4⟩ := hex; exact hun.1 d h3 h4) hhint
  rw [← hpos] at hans
  have hf := h.fits hc.occurs
  have hrange : downRange line (toRange (u.root.start, u.root.stop)) = hostRange line u.root := by
    simp only [downRange, downPos, toRange, toU32, hostRange]
    rw [Nat.mod_eq_of_lt (by omega), Nat.mod_eq_of_lt (by omega), Nat.mod_eq_of_lt (by omega), Nat.mod_eq_of_lt (by omega)]
  rw [hrange] at hans
  rcases hk with ⟨d, k1, k2, k3, rfl⟩ | ⟨k1, _⟩
  · refine ⟨d.binding, hvs ▸ List.mem_map_of_mem k1, k2, fun b' hb' hr => ?_, hans⟩
    rw [← hvs] at hb'
    obtain ⟨e, he, rfl⟩ := List.mem_map.mp hb'
    exact k3 e he hr
  · obtain ⟨d, h3, h4⟩ := hex
    exact absurd h4 (k1 d h3)

/-- completion, by the bindings of the tags -/
theorem complete (h : HostedItems env sx w calls n id fn uri host above margin content below line col root last is es) (hr : Regular root)
    {l ch : Nat} (hb : Beside sx.digit root ⟨l, ch⟩) (hpipe : ∀ k ∈ root.flat, IsPipe k → ¬ Touches ⟨l, ch⟩ k) (hin : ∃ e ∈ root.flat, Within ⟨l, ch⟩ e) :
    ∃ items, n.complete (env.over sx) w id fn line ⟨l + line, ch⟩ = .ok (some items) ∧
      ∀ name, name ∈ items.map (·.label) ↔ (∃ b ∈ Items.bindings last 0 is, InForce name ⟨l, ch⟩ b ∧ b.kind ≠ .jinjaTemplate) ∨
        BackendName n.files name ∨ ∃ a ∈ (toldUnder c!"temp_" none calls).getD [], a.name = name := by
  obtain ⟨old, han⟩ := h.analysed
  have hroot := (h.parses old).2
  rw [← hroot] at hr hb hpipe hin
  obtain ⟨own, rest, k1, _, k3, k4⟩ := C86_names env sx w { Server.init with files := n.files } uri _ _ is ⟨l, ch⟩ .triggerCharacter (.inr rfl) h.template han
    hr hb hpipe hin
  rw [h.ends] at k3
  obtain ⟨hd, ht, vs, hv, _⟩ := han
  obtain ⟨o, ho, hof, hfrom⟩ := beside_query (env := env) hr hb
  have h1 : o.inPipe ⟨l, ch⟩ = false := by
    cases h : o.inPipe ⟨l, ch⟩ with
    | false => rfl
    | true => obtain ⟨k, hk, h2, h3⟩ := (beside_pipe hr hb hof).mp h; exact absurd h3 (hpipe k hk h2)
  have h2 := (beside_expr hr hb hof hfrom).mpr hin
  have h3 := (beside_ident hr hb hfrom).2
  have hk := kind_of_objects (env := env.over sx) (pos := ⟨l, ch⟩) (tr := .triggerCharacter) (c := (.identifier, o.shouldAutoclose)) (.inr rfl) h.template hd ht
    (regular_intact hr.correct) ho (by simp only [toPoint]; simp [JinjaObjects.completion, h1, h2, h3])
  have htold := actions_told (h := c!"temp_") calls h.run
  rw [show NodeFiles.new.actions.get? c!"temp_" = none from rfl] at htold
  have hvars : ∃ items, n.files.readVariables w uri ⟨l, ch⟩ none none = some items := by
    simp only [LspFiles.readVariables, hv]; exact ⟨_, rfl⟩
  obtain ⟨items, hitems⟩ := hvars
  have hreply : items = own ++ rest := by
    simp only [Server.handle, Server.onCompletion, hk, completionItems, hitems] at k1
    cases k1
    rfl
  refine ⟨_, by unfold NodeFiles.complete; simp only [usub32_add, h.uri_eq, hk, hitems]; rfl, fun name => ?_⟩
  rw [htold, List.map_append, List.mem_append, List.map_map, List.map_map]
  have hlab : name ∈ items.map (·.label) ↔ (∃ b ∈ Items.bindings last 0 is, InForce name ⟨l, ch⟩ b ∧ b.kind ≠ .jinjaTemplate) ∨ BackendName n.files name := by
    rw [hreply, List.map_append, List.mem_append]
    exact or_congr (k3 name) (k4 name)
  rw [← or_assoc, ← hlab, or_comm]
  exact or_congr_right List.mem_map

end Spec.HostedItems

/-! ### Two templates that concur -/

section
variable {env : Env} {sx : Syntax} {w w' : World} {calls calls' : List Call} {n n' : NodeFiles} {id id' : Nat}
  {fn uri host above margin content below fn' uri' host' above' margin' content' below' : Str} {line line' : Nat} {col col' : Option Nat}
  {root root' : Syn} {last last' : Point} {is is' : List Item} {es es' : List Elem}

/-- from the same name, goto-definition leads to the same binding -/
theorem hosted_goto (h : HostedItems env sx w calls n id fn uri host above margin content below line col root last is es)
    (h' : HostedItems env sx w' calls' n' id' fn' uri' host' above' margin' content' below' line' col' root' last' is' es')
    {u : Use} (hu : .use u ∈ es) (hu' : .use u ∈ es') {pos pos' : Position} {before after before' after' url url' : Str}
    (hcu : InName host above margin content below col u.root pos before after)
    (hcu' : InName host' above' margin' content' below' col' u.root pos' before' after')
    (heq : (⟨pos'.line - line', pos'.character⟩ : Point) = ⟨pos.line - line, pos.character⟩)
    (hin : PartOf fn uri) (hurl : env.urlParse fn = some url) (hin' : PartOf fn' uri') (hurl' : env.urlParse fn' = some url')
    (ha : StartsApart (Items.bindings last 0 is))
    (hc : Concur u.root.text u.root.start u.root.stop (Items.bindings last 0 is) (Items.bindings last' 0 is'))
    (hex : ∃ b ∈ Items.bindings last 0 is, Reaches u.root.text ⟨pos.line - line, pos.character⟩ b) :
    ∃ b ∈ Items.bindings last 0 is, Reaches u.root.text ⟨pos.line - line, pos.character⟩ b ∧
      (∀ b' ∈ Items.bindings last 0 is, Reaches u.root.text ⟨pos.line - line, pos.character⟩ b' → b'.start ≤ b.start) ∧
      n.gotoDefinition (env.over sx) w id fn line pos = .ok (some [⟨url, hostPlace line b, false⟩]) ∧
      n'.gotoDefinition (env.over sx) w' id' fn' line' pos' = .ok (some [⟨url', hostPlace line' b, false⟩]) := by
  obtain ⟨h1, h2, b, k1, k2, k3, k4⟩ := h.goto hu hcu hex hin hurl
  have h2' := Point.le_of_lt h2
  have hex' := (hc.exists_iff (P := Reaches u.root.text ⟨pos.line - line, pos.character⟩) (fun b hb => Concur.not_reaches hb h1 h2')
    (fun b b' hb => Concur.same_reaches hb h2')).mp hex
  rw [← heq] at hex'
  obtain ⟨_, _, c, l1, l2, l3, l4⟩ := h'.goto hu' hcu' hex' hin' hurl'
  rw [heq] at l2 l3
  refine ⟨b, k1, k2, k3, k4, ?_⟩
  rcases hc.there b k1 with hb | ⟨b', hb', sb⟩
  · exact (Concur.not_reaches hb h1 h2' k2).elim
  rcases hc.back c l1 with hb | ⟨c', hc', sc⟩
  · exact (Concur.not_reaches hb h1 h2' l2).elim
  have e1 := k3 c' hc' ((Concur.same_reaches sc h2').mpr l2)
  have e2 := l3 b' hb' ((Concur.same_reaches sb h2').mp k2)
  rw [sb.2.1, sc.2.1] at e2
  have e : c' = b := ha c' hc' b k1 (Point.le_antisymm e1 e2)
  rw [e] at sc
  rw [l4, hostPlace, hostPlace, sc.2.1, sc.2.2.1]

/-- hovering shows the same kind -/
theorem hosted_hover (h : HostedItems env sx w calls n id fn uri host above margin content below line col root last is es)
    (h' : HostedItems env sx w' calls' n' id' fn' uri' host' above' margin' content' below' line' col' root' last' is' es')
    {u : Use} (hu : .use u ∈ es) (hu' : .use u ∈ es') (hvar : u.mark = .variable) {pos pos' : Position} {before after before' after' : Str}
    (hcu : InName host above margin content below col u.root pos before after)
    (hcu' : InName host' above' margin' content' below' col' u.root pos' before' after')
    (hhint : ∀ b ∈ (toldUnder c!"temp" none calls).getD [], ¬ u.root.text <+: b.name)
    (hhint' : ∀ b ∈ (toldUnder c!"temp" none calls').getD [], ¬ u.root.text <+: b.name)
    (ha : StartsApart (Items.bindings last 0 is))
    (hc : Concur u.root.text u.root.start u.root.stop (Items.bindings last 0 is) (Items.bindings last' 0 is'))
    (hex : ∃ b ∈ Items.bindings last 0 is, InForce u.root.text u.root.start b) :
    ∃ b ∈ Items.bindings last 0 is, InForce u.root.text u.root.start b ∧
      (∀ b' ∈ Items.bindings last 0 is, InForce u.root.text u.root.start b' → b'.start ≤ b.start) ∧
      n.hover (env.over sx) w id fn line pos = .ok (some ⟨kindText b.kind ++ c!"\n\n---\n**" ++ u.root.text ++ c!"**", hostRange line u.root⟩) ∧
      n'.hover (env.over sx) w' id' fn' line' pos' = .ok (some ⟨kindText b.kind ++ c!"\n\n---\n**" ++ u.root.text ++ c!"**", hostRange line' u.root⟩) := by
  have h0 := Point.le_refl u.root.start
  have h2' := Point.le_of_lt (use_spans h.usesWf hu)
  have hex' := (hc.exists_iff (P := InForce u.root.text u.root.start) (fun b hb => Concur.not_inForce hb h0 h2')
    (fun b b' hb => Concur.same_inForce hb h2')).mp hex
  obtain ⟨b, k1, k2, k3, k4⟩ := h.hover hu hvar hcu hhint hex
  obtain ⟨c, l1, l2, l3, l4⟩ := h'.hover hu' hvar hcu' hhint' hex'
  refine ⟨b, k1, k2, k3, k4, ?_⟩
  rcases hc.there b k1 with hb | ⟨b', hb', sb⟩
  · exact (Concur.not_inForce hb h0 h2' k2).elim
  rcases hc.back c l1 with hb | ⟨c', hc', sc⟩
  · exact (Concur.not_inForce hb h0 h2' l2).elim
  have e1 := k3 c' hc' ((Concur.same_inForce sc h2').mpr l2)
  have e2 := l3 b' hb' ((Concur.same_inForce sb h2').mp k2)
  rw [sb.2.1, sc.2.1] at e2
  have e : c' = b := ha c' hc' b k1 (Point.le_antisymm e1 e2)
  rw [e] at sc
  rw [l4, sc.2.2.2.1]

/-- the same names are offered, but for those of backend files and hints -/
theorem hosted_offered (h : HostedItems env sx w calls n id fn uri host above margin content below line col root last is es)
    (h' : HostedItems env sx w' calls' n' id' fn' uri' host' above' margin' content' below' line' col' root' last' is' es')
    (hr : Regular root) (hr' : Regular root') {l ch : Nat} (hb : Beside sx.digit root ⟨l, ch⟩) (hb' : Beside sx.digit root' ⟨l, ch⟩)
    (hpipe : ∀ k ∈ root.flat, IsPipe k → ¬ Touches ⟨l, ch⟩ k) (hin : ∃ e ∈ root.flat, Within ⟨l, ch⟩ e)
    (hpipe' : ∀ k ∈ root'.flat, IsPipe k → ¬ Touches ⟨l, ch⟩ k) (hin' : ∃ e ∈ root'.flat, Within ⟨l, ch⟩ e) (N : Str → Prop)
    (hc : ∀ m, N m → Concur m ⟨l, ch⟩ ⟨l, ch⟩ (Items.bindings last 0 is) (Items.bindings last' 0 is')) :
    ∃ items items', n.complete (env.over sx) w id fn line ⟨l + line, ch⟩ = .ok (some items) ∧
      n'.complete (env.over sx) w' id' fn' line' ⟨l + line', ch⟩ = .ok (some items') ∧
      ∀ m, N m → ¬ BackendName n.files m → ¬ BackendName n'.files m → (∀ a ∈ (toldUnder c!"temp_" none calls).getD [], a.name ≠ m) →
        (∀ a ∈ (toldUnder c!"temp_" none calls').getD [], a.name ≠ m) → (m ∈ items'.map (·.label) ↔ m ∈ items.map (·.label)) := by
  obtain ⟨items, k1, k2⟩ := h.complete hr hb hpipe hin
  obtain ⟨items', l1, l2⟩ := h'.complete hr' hb' hpipe' hin'
  refine ⟨items, items', k1, l1, fun m hm h1 h2 h3 h4 => ?_⟩
  rw [k2, l2, (hc m hm).exists_iff (P := fun b => InForce m ⟨l, ch⟩ b ∧ b.kind ≠ .jinjaTemplate)
    (fun b hb h => Concur.not_inForce hb (Point.le_refl _) (Point.le_refl _) h.1)
    (fun b b' hb => by rw [Concur.same_inForce hb (Point.le_refl _), hb.2.2.2.1])]
  refine or_congr_right ⟨?_, ?_⟩
  · rintro (h | ⟨a, ha, e⟩)
    · exact (h2 h).elim
    · exact (h4 a ha e).elim
  · rintro (h | ⟨a, ha, e⟩)
    · exact (h1 h).elim
    · exact (h3 a ha e).elim

/-! ## C133 -/

/-- **C133** (goto-definition, tags at the end; part) When tags are written at the end of an embedded template, goto-definition leads from a name in the
part before to the binding it led to, at the place where it now is in the host document.  Missing: file names that are no URLs (C102). -/
theorem C133_goto_end_partial (js : List Item)
    (h : HostedItems env sx w calls n id fn uri host above margin content below line col root last is es)
    (h' : HostedItems env sx w' calls' n' id' fn' uri' host' above' margin' content' below' line' col' root' last' (is ++ js) es')
    (u : Use) (hu : .use u ∈ es) (hu' : .use u ∈ es') (hb : Items.Behind u.root.stop js) (he : u.root.stop < last) (he' : u.root.stop < last')
    (pos pos' : Position) (before after before' after' url url' : Str)
    (hcu : InName host above margin content below col u.root pos before after)
    (hcu' : InName host' above' margin' content' below' col' u.root pos' before' after')
    (heq : (⟨pos'.line - line', pos'.character⟩ : Point) = ⟨pos.line - line, pos.character⟩)
    (hin : PartOf fn uri) (hurl : env.urlParse fn = some url) (hin' : PartOf fn' uri') (hurl' : env.urlParse fn' = some url')
    (ha : StartsApart (Items.bindings last 0 is))
    (hex : ∃ b ∈ Items.bindings last 0 is, Reaches u.root.text ⟨pos.line - line, pos.character⟩ b) :
    ∃ b ∈ Items.bindings last 0 is, Reaches u.root.text ⟨pos.line - line, pos.character⟩ b ∧
      (∀ b' ∈ Items.bindings last 0 is, Reaches u.root.text ⟨pos.line - line, pos.character⟩ b' → b'.start ≤ b.start) ∧
      n.gotoDefinition (env.over sx) w id fn line pos = .ok (some [⟨url, hostPlace line b, false⟩]) ∧
      n'.gotoDefinition (env.over sx) w' id' fn' line' pos' = .ok (some [⟨url', hostPlace line' b, false⟩]) :=
  hosted_goto h h' hu hu' hcu hcu' heq hin hurl hin' hurl' ha (concur_appended he he' hb) hex

/-- **C133** (goto-definition, a complete piece; part) … and when a complete piece is put in, unless the name follows and the piece leaves it behind.
Missing: as above, and pieces with `else`, `elif` or an inline `if` (C130). -/
theorem C133_goto_partial (pre seg post : List Item)
    (h : HostedItems env sx w calls n id fn uri host above margin content below line col root last (pre ++ post) es)
    (h' : HostedItems env sx w' calls' n' id' fn' uri' host' above' margin' content' below' line' col' root' last' (pre ++ (seg ++ post)) es')
    (u : Use) (hu : .use u ∈ es) (hu' : .use u ∈ es') (hc : Items.Complete seg) (he : last' = last ∨ u.root.stop < last ∧ u.root.stop < last')
    (hb : Items.Behind u.root.stop seg ∨ Items.InFront u.root.start seg ∧ u.root.text ∉ Items.leaves 0 seg)
    (pos pos' : Position) (before after before' after' url url' : Str)
    (hcu : InName host above margin content below col u.root pos before after)
    (hcu' : InName host' above' margin' content' below' col' u.root pos' before' after')
    (heq : (⟨pos'.line - line', pos'.character⟩ : Point) = ⟨pos.line - line, pos.character⟩)
    (hin : PartOf fn uri) (hurl : env.urlParse fn = some url) (hin' : PartOf fn' uri') (hurl' : env.urlParse fn' = some url')
    (ha : StartsApart (Items.bindings last 0 (pre ++ post)))
    (hex : ∃ b ∈ Items.bindings last 0 (pre ++ post), Reaches u.root.text ⟨pos.line - line, pos.character⟩ b) :
    ∃ b ∈ Items.bindings last 0 (pre ++ post), Reaches u.root.text ⟨pos.line - line, pos.character⟩ b ∧
      (∀ b' ∈ Items.bindings last 0 (pre ++ post), Reaches u.root.text ⟨pos.line - line, pos.character⟩ b' → b'.start ≤ b.start) ∧
      n.gotoDefinition (env.over sx) w id fn line pos = .ok (some [⟨url, hostPlace line b, false⟩]) ∧
      n'.gotoDefinition (env.over sx) w' id' fn' line' pos' = .ok (some [⟨url', hostPlace line' b, false⟩]) :=
  hosted_goto h h' hu hu' hcu hcu' heq hin hurl hin' hurl' ha (concur_piece he hc hb) hex

/-- **C133** (hover, tags at the end; part) … hovering it shows the same kind of variable, for the range of the name where it now is.
Missing: names that a hint in force begins with. -/
theorem C133_hover_end_partial (js : List Item)
    (h : HostedItems env sx w calls n id fn uri host above margin content below line col root last is es)
    (h' : HostedItems env sx w' calls' n' id' fn' uri' host' above' margin' content' below' line' col' root' last' (is ++ js) es')
    (u : Use) (hu : .use u ∈ es) (hu' : .use u ∈ es') (hb : Items.Behind u.root.stop js) (he : u.root.stop < last) (he' : u.root.stop < last')
    (hvar : u.mark = .variable) (pos pos' : Position) (before after before' after' : Str)
    (hcu : InName host above margin content below col u.root pos before after)
    (hcu' : InName host' above' margin' content' below' col' u.root pos' before' after')
    (hhint : ∀ b ∈ (toldUnder c!"temp" none calls).getD [], ¬ u.root.text <+: b.name)
    (hhint' : ∀ b ∈ (toldUnder c!"temp" none calls').getD [], ¬ u.root.text <+: b.name)
    (ha : StartsApart (Items.bindings last 0 is)) (hex : ∃ b ∈ Items.bindings last 0 is, InForce u.root.text u.root.start b) :
    ∃ b ∈ Items.bindings last 0 is, InForce u.root.text u.root.start b ∧
      (∀ b' ∈ Items.bindings last 0 is, InForce u.root.text u.root.start b' → b'.start ≤ b.start) ∧
      n.hover (env.over sx) w id fn line pos = .ok (some ⟨kindText b.kind ++ c!"\n\n---\n**" ++ u.root.text ++ c!"**", hostRange line u.root⟩) ∧
      n'.hover (env.over sx) w' id' fn' line' pos' = .ok (some ⟨kindText b.kind ++ c!"\n\n---\n**" ++ u.root.text ++ c!"**", hostRange line' u.root⟩) :=
  hosted_hover h h' hu hu' hvar hcu hcu' hhint hhint' ha (concur_appended he he' hb) hex

/-- **C133** (hover, a complete piece; part) … and when a complete piece is put in.  Missing: as above, and pieces with `else`, `elif` or an inline `if`. -/
theorem C133_hover_partial (pre seg post : List Item)
    (h : HostedItems env sx w calls n id fn uri host above margin content below line col root last (pre ++ post) es)
    (h' : HostedItems env sx w' calls' n' id' fn' uri' host' above' margin' content' below' line' col' root' last' (pre ++ (seg ++ post)) es')
    (u : Use) (hu : .use u ∈ es) (hu' : .use u ∈ es') (hc : Items.Complete seg) (he : last' = last ∨ u.root.stop < last ∧ u.root.stop < last')
    (hb : Items.Behind u.root.stop seg ∨ Items.InFront u.root.start seg ∧ u.root.text ∉ Items.leaves 0 seg)
    (hvar : u.mark = .variable) (pos pos' : Position) (before after before' after' : Str)
    (hcu : InName host above margin content below col u.root pos before after)
    (hcu' : InName host' above' margin' content' below' col' u.root pos' before' after')
    (hhint : ∀ b ∈ (toldUnder c!"temp" none calls).getD [], ¬ u.root.text <+: b.name)
    (hhint' : ∀ b ∈ (toldUnder c!"temp" none calls').getD [], ¬ u.root.text <+: b.name)
    (ha : StartsApart (Items.bindings last 0 (pre ++ post))) (hex : ∃ b ∈ Items.bindings last 0 (pre ++ post), InForce u.root.text u.root.start b) :
    ∃ b ∈ Items.bindings last 0 (pre ++ post), InForce u.root.text u.root.start b ∧
      (∀ b' ∈ Items.bindings last 0 (pre ++ post), InForce u.root.text u.root.start b' → b'.start ≤ b.start) ∧
      n.hover (env.over sx) w id fn line pos = .ok (some ⟨kindText b.kind ++ c!"\n\n---\n**" ++ u.root.text ++ c!"**", hostRange line u.root⟩) ∧
      n'.hover (env.over sx) w' id' fn' line' pos' = .ok (some ⟨kindText b.kind ++ c!"\n\n---\n**" ++ u.root.text ++ c!"**", hostRange line' u.root⟩) :=
  hosted_hover h h' hu hu' hvar hcu hcu' hhint hhint' ha (concur_piece he hc hb) hex

/-- **C133** (completion, tags at the end; part) … and the same names are offered there, besides the variables of backend files and the hints.
Missing: cursors in names (C126). -/
theorem C133_offered_end_partial (js : List Item)
    (h : HostedItems env sx w calls n id fn uri host above margin content below line col root last is es)
    (h' : HostedItems env sx w' calls' n' id' fn' uri' host' above' margin' content' below' line' col' root' last' (is ++ js) es')
    (hr : Regular root) (hr' : Regular root') (l ch : Nat) (hb : Beside sx.digit root ⟨l, ch⟩) (hb' : Beside sx.digit root' ⟨l, ch⟩)
    (hpipe : ∀ k ∈ root.flat, IsPipe k → ¬ Touches ⟨l, ch⟩ k) (hin : ∃ e ∈ root.flat, Within ⟨l, ch⟩ e)
    (hpipe' : ∀ k ∈ root'.flat, IsPipe k → ¬ Touches ⟨l, ch⟩ k) (hin' : ∃ e ∈ root'.flat, Within ⟨l, ch⟩ e)
    (hj : Items.Behind ⟨l, ch⟩ js) (he : ⟨l, ch⟩ < last) (he' : ⟨l, ch⟩ < last') :
    ∃ items items', n.complete (env.over sx) w id fn line ⟨l + line, ch⟩ = .ok (some items) ∧
      n'.complete (env.over sx) w' id' fn' line' ⟨l + line', ch⟩ = .ok (some items') ∧
      ∀ m, ¬ BackendName n.files m → ¬ BackendName n'.files m → (∀ a ∈ (toldUnder c!"temp_" none calls).getD [], a.name ≠ m) →
        (∀ a ∈ (toldUnder c!"temp_" none calls').getD [], a.name ≠ m) → (m ∈ items'.map (·.label) ↔ m ∈ items.map (·.label)) := by
  obtain ⟨items, items', k1, k2, k3⟩ := hosted_offered h h' hr hr' hb hb' hpipe hin hpipe' hin' (fun _ => True) (fun m _ => concur_appended he he' hj)
  exact ⟨items, items', k1, k2, fun m => k3 m trivial⟩

/-- **C133** (completion, a complete piece; part) … and when a complete piece is put in, but for the names it leaves behind.  Missing: as above, and
pieces with `else`, `elif` or an inline `if`. -/
theorem C133_offered_partial (pre seg post : List Item)
    (h : HostedItems env sx w calls n id fn uri host above margin content below line col root last (pre ++ post) es)
    (h' : HostedItems env sx w' calls' n' id' fn' uri' host' above' margin' content' below' line' col' root' last' (pre ++ (seg ++ post)) es')
    (hr : Regular root) (hr' : Regular root') (l ch : Nat) (hb : Beside sx.digit root ⟨l, ch⟩) (hb' : Beside sx.digit root' ⟨l, ch⟩)
    (hpipe : ∀ k ∈ root.flat, IsPipe k → ¬ Touches ⟨l, ch⟩ k) (hin : ∃ e ∈ root.flat, Within ⟨l, ch⟩ e)
    (hpipe' : ∀ k ∈ root'.flat, IsPipe k → ¬ Touches ⟨l, ch⟩ k) (hin' : ∃ e ∈ root'.flat, Within ⟨l, ch⟩ e)
    (hc : Items.Complete seg) (he : last' = last ∨ ⟨l, ch⟩ < last ∧ ⟨l, ch⟩ < last') (hj : Items.Behind ⟨l, ch⟩ seg ∨ Items.InFront ⟨l, ch⟩ seg) :
    ∃ items items', n.complete (env.over sx) w id fn line ⟨l + line, ch⟩ = .ok (some items) ∧
      n'.complete (env.over sx) w' id' fn' line' ⟨l + line', ch⟩ = .ok (some items') ∧
      ∀ m, m ∉ Items.leaves 0 seg → ¬ BackendName n.files m → ¬ BackendName n'.files m → (∀ a ∈ (toldUnder c!"temp_" none calls).getD [], a.name ≠ m) →
        (∀ a ∈ (toldUnder c!"temp_" none calls').getD [], a.name ≠ m) → (m ∈ items'.map (·.label) ↔ m ∈ items.map (·.label)) :=
  hosted_offered h h' hr hr' hb hb' hpipe hin hpipe' hin' (fun m => m ∉ Items.leaves 0 seg)
    (fun _ hn => concur_piece he hc (hj.imp (fun h => h) fun h => ⟨h, hn⟩))

end

/-! ### Examples -/

namespace Fix

/-- a statement from column `a` to column `b` of line `l` -/
def stAt (i l a b : Nat) (inner : List Syn) : Syn :=
  .node .statement none i ⟨l, a⟩ ⟨l, b⟩ (some []) (lf .statementBegin (100 + i) l a (a + 2) c!"{%" :: inner ++ [lf .statementEnd (200 + i) l (b - 2) b c!"%}"])

/-- ```
{% set a = 1 %}

  {{ a }}
``` -/
def shortContent : Str := c!"{% set a = 1 %}\n\n  {{ a }}"
/-- with `{% for b in a %}{% endfor %}` on its second line -/
def filledContent : Str := c!"{% set a = 1 %}\n{% for b in a %}{% endfor %}\n  {{ a }}"
/-- with `{% set a = 2 %}` behind it -/
def longContent : Str := c!"{% set a = 1 %}\n\n  {{ a }}\n{% set a = 2 %}"

def setNode : Syn := stAt 3 0 7 22 [lf .keyword 15 0 10 13 c!"set", lf .identifier 16 0 14 15 c!"a", lf .operator 17 0 16 17 c!"=", lf .identifier 18 0 18 19 c!"1"]
def outNode : Syn := ex 6 2 2 9 [lf .identifier 20 2 5 6 c!"a"]
def forNode : Syn := stAt 40 1 0 16 [lf .keyword 41 1 3 6 c!"for", lf .identifier 42 1 7 8 c!"b", lf .keyword 43 1 9 11 c!"in", lf .identifier 44 1 12 13 c!"a"]
def endNode : Syn := stAt 50 1 16 28 [lf .keyword 51 1 19 25 c!"endfor"]
def againNode : Syn := stAt 60 3 0 15 [lf .keyword 61 3 3 6 c!"set", lf .identifier 62 3 7 8 c!"a", lf .operator 63 3 9 10 c!"=", lf .identifier 64 3 11 12 c!"2"]

def rootOf (ns : List Syn) : Syn := .node .other none 900 ⟨0, 0⟩ ⟨9, 9⟩ (some []) ns

def piecesSyn : Syntax :=
  ⟨fun _ text => if text = padded 7 filledContent then rootOf [setNode, forNode, endNode, outNode] else
    if text = padded 7 longContent then rootOf [setNode, outNode, againNode] else rootOf [setNode, outNode], digit, fun _ _ => [[]], fun _ => true⟩

def aTok : Tok := tok 2 5 6 c!"a" 20
def aUse : Use := ⟨.variable, aTok, []⟩

def setItem : Item := .leaf (.set ⟨tok 0 7 9 c!"{%" 103, tok 0 20 22 c!"%}" 203⟩ (tok 0 10 13 c!"set" 15) (tok 0 14 15 c!"a" 16) [.eq (tok 0 16 17 c!"=" 17)])
def outItem : Item := .leaf (.expr [.name aTok])

def forItem : Item := .opening ⟨tok 1 0 2 c!"{%" 140, tok 1 14 16 c!"%}" 240⟩ (.for_ (tok 1 3 6 c!"for" 41) (tok 1 7 8 c!"b" 42) [.name (tok 1 12 13 c!"a" 44)])
def endItem : Item := .closing ⟨tok 1 19 25 c!"endfor" 51, [], ⟨tok 1 16 18 c!"{%" 150, tok 1 26 28 c!"%}" 250⟩⟩
def againItem : Item :=
  .leaf (.set ⟨tok 3 0 2 c!"{%" 160, tok 3 13 15 c!"%}" 260⟩ (tok 3 3 6 c!"set" 61) (tok 3 7 8 c!"a" 62) [.eq (tok 3 9 10 c!"=" 63)])

def piecesText (content : Str) : Str := hostAbove ++ hostMargin ++ content ++ hostBelow

def piecesCalls (content : Str) : List Call := [.addOne 7 c!"f" content 1 c!"jinja" (some 7)]

theorem pieces_hosted {content : Str} {ns : List Syn} {is : List Item} (h1 : ∃ n, Call.run (env.over piecesSyn) world NodeFiles.new (piecesCalls content) = .ok n)
    (h2 : Embedded (piecesText content) hostAbove hostMargin content hostBelow 1 7) (h3 : NoLoneCR (piecesText content))
    (h4 : utf8Len (piecesText content) < 4294967296) (h5 : ∀ t, piecesSyn.root t (padded 7 content) = rootOf ns)
    (h6 : readTags ns = some is) (h7 : Spelled (padded 7 content) (rootOf ns)) (h8 : WellFormed (rootOf ns)) (h9 : Laid (rootOf ns))
    (h10 : ((rootOf ns).flat.filter relevant).all isPlain = true)
    (h11 : (∀ e ∈ plainElems (rootOf ns), e.Ok) ∧ Ordered ⟨0, 1⟩ ((plainElems (rootOf ns)).flatMap Elem.toks)) :
    ∃ n, HostedItems env piecesSyn world (piecesCalls content) n 7 c!"f" offsetUri (piecesText content) hostAbove hostMargin content hostBelow 1 (some 7)
      (rootOf ns) ⟨9, 9⟩ is (plainElems (rootOf ns)) := by
  obtain ⟨n, hn⟩ := h1
  exact ⟨n, ⟨hn, ⟨[], [], 1, rfl, by simp⟩, rfl, by decide, h2, h3, h4, fun _ => ⟨rfl, h5 _⟩, tags_no_error rfl (readTags_sound h6), h7⟩, rfl, h8, h9,
    readTags_sound h6, plainElems_read h10, elems_wf_of h11, fun _ => rfl⟩

theorem short_hosted : ∃ n, HostedItems env piecesSyn world (piecesCalls shortContent) n 7 c!"f" offsetUri (piecesText shortContent) hostAbove hostMargin
    shortContent hostBelow 1 (some 7) (rootOf [setNode, outNode]) ⟨9, 9⟩ [setItem, outItem] (plainElems (rootOf [setNode, outNode])) :=
  pieces_hosted ⟨_, rfl⟩ ⟨by decide +kernel, by decide +kernel, by decide +kernel, by decide +kernel⟩ (noLoneCR_of (by decide +kernel)) (by decide +kernel)
    (fun _ => rfl) rfl (spelled_of (by decide +kernel)) ⟨by decide, by decide, by decide⟩ ⟨by decide, by decide, by decide, by decide⟩ rfl (by decide +kernel)

theorem filled_hosted : ∃ n, HostedItems env piecesSyn world (piecesCalls filledContent) n 7 c!"f" offsetUri (piecesText filledContent) hostAbove hostMargin
    filledContent hostBelow 1 (some 7) (rootOf [setNode, forNode, endNode, outNode]) ⟨9, 9⟩ [setItem, forItem, endItem, outItem]
    (plainElems (rootOf [setNode, forNode, endNode, outNode])) :=
  pieces_hosted ⟨_, rfl⟩ ⟨by decide +kernel, by decide +kernel, by decide +kernel, by decide +kernel⟩ (noLoneCR_of (by decide +kernel)) (by decide +kernel)
    (fun _ => rfl) rfl (spelled_of (by decide +kernel)) ⟨by decide, by decide, by decide⟩ ⟨by decide, by decide, by decide, by decide⟩ rfl (by decide +kernel)

theorem long_hosted : ∃ n, HostedItems env piecesSyn world (piecesCalls longContent) n 7 c!"f" offsetUri (piecesText longContent) hostAbove hostMargin
    longContent hostBelow 1 (some 7) (rootOf [setNode, outNode, againNode]) ⟨9, 9⟩ [setItem, outItem, againItem]
    (plainElems (rootOf [setNode, outNode, againNode])) :=
  pieces_hosted ⟨_, rfl⟩ ⟨by decide +kernel, by decide +kernel, by decide +kernel, by decide +kernel⟩ (noLoneCR_of (by decide +kernel)) (by decide +kernel)
    (fun _ => rfl) rfl (spelled_of (by decide +kernel)) ⟨by decide, by decide, by decide⟩ ⟨by decide, by decide, by decide, by decide⟩ rfl (by decide +kernel)

/-! the cursor before `a` in `{{ a }}` -/

theorem short_inName : InName (piecesText shortContent) hostAbove hostMargin shortContent hostBelow (some 7) aUse.root ⟨3, 5⟩ c!"{% set a = 1 %}\n\n  {{ " c!" }}" :=
  ⟨⟨⟨c!" }}", by decide +kernel⟩, by decide +kernel, by decide +kernel⟩, by decide +kernel, by unfold PlainWord AsciiWord; decide,
    ⟨[], c!"a", rfl, by simp, by decide +kernel, c!"import jinja2\né = '''{% set a = 1 %}\n\n", c!"  {{ ", by decide +kernel, by decide +kernel,
      by decide, by decide +kernel⟩, by unfold AsciiLine; decide +kernel⟩

theorem filled_inName : InName (piecesText filledContent) hostAbove hostMargin filledContent hostBelow (some 7) aUse.root ⟨3, 5⟩ c!"{% set a = 1 %}\n{% for b in a %}{% endfor %}\n  {{ " c!" }}" :=
  ⟨⟨⟨c!" }}", by decide +kernel⟩, by decide +kernel, by decide +kernel⟩, by decide +kernel, by unfold PlainWord AsciiWord; decide,
    ⟨[], c!"a", rfl, by simp, by decide +kernel, c!"import jinja2\né = '''{% set a = 1 %}\n{% for b in a %}{% endfor %}\n", c!"  {{ ", by decide +kernel, by decide +kernel,
      by decide, by decide +kernel⟩, by unfold AsciiLine; decide +kernel⟩

theorem long_inName : InName (piecesText longContent) hostAbove hostMargin longContent hostBelow (some 7) aUse.root ⟨3, 5⟩ c!"{% set a = 1 %}\n\n  {{ " c!" }}\n{% set a = 2 %}" :=
  ⟨⟨⟨c!" }}\n{% set a = 2 %}", by decide +kernel⟩, by decide +kernel, by decide +kernel⟩, by decide +kernel, by unfold PlainWord AsciiWord; decide,
    ⟨[], c!"a", rfl, by simp, by decide +kernel, c!"import jinja2\né = '''{% set a = 1 %}\n\n", c!"  {{ ", by decide +kernel, by decide +kernel,
      by decide, by decide +kernel⟩, by unfold AsciiLine; decide +kernel⟩

theorem short_uses : .use aUse ∈ plainElems (rootOf [setNode, outNode]) ∧ .use aUse ∈ plainElems (rootOf [setNode, forNode, endNode, outNode]) ∧
    .use aUse ∈ plainElems (rootOf [setNode, outNode, againNode]) :=
  ⟨uses_mem (by decide +kernel), uses_mem (by decide +kernel), uses_mem (by decide +kernel)⟩

theorem short_bindings : Items.bindings ⟨9, 9⟩ 0 [setItem, outItem] = [(tok 0 14 15 c!"a" 16).bind .setVariable ⟨9, 9⟩] := rfl

theorem short_apart : StartsApart (Items.bindings ⟨9, 9⟩ 0 [setItem, outItem]) := by
  rw [short_bindings]; unfold StartsApart; decide +kernel

theorem again_behind : Items.Behind aUse.root.stop [againItem] ∧ Items.Behind ⟨2, 7⟩ [againItem] := by
  refine ⟨⟨by decide +kernel, ?_⟩, by decide +kernel, ?_⟩ <;> (intro e h; revert h; simp [againItem])

theorem loop_inFront : Items.InFront aUse.root.start [forItem, endItem] ∧ Items.InFront ⟨2, 7⟩ [forItem, endItem] := by
  constructor <;> (intro e h; simp only [List.mem_cons, List.not_mem_nil, or_false, forItem, endItem, reduceCtorEq, false_or] at h; cases h; decide)

end Fix

/-- `{{ a }}` leads to `{% set a = 1 %}`, whether or not there is a loop in between or `{% set a = 2 %}` behind -/
example : ∃ n₁ n₂ n₃ : NodeFiles,
    n₁.gotoDefinition (Fix.env.over Fix.piecesSyn) Fix.world 7 c!"f" 1 ⟨3, 5⟩ = .ok (some [⟨c!"f", ⟨⟨1, 14⟩, ⟨1, 15⟩⟩, false⟩]) ∧
    n₂.gotoDefinition (Fix.env.over Fix.piecesSyn) Fix.world 7 c!"f" 1 ⟨3, 5⟩ = .ok (some [⟨c!"f", ⟨⟨1, 14⟩, ⟨1, 15⟩⟩, false⟩]) ∧
    n₃.gotoDefinition (Fix.env.over Fix.piecesSyn) Fix.world 7 c!"f" 1 ⟨3, 5⟩ = .ok (some [⟨c!"f", ⟨⟨1, 14⟩, ⟨1, 15⟩⟩, false⟩]) ∧
    (∃ r, n₂.hover (Fix.env.over Fix.piecesSyn) Fix.world 7 c!"f" 1 ⟨3, 5⟩ = .ok (some ⟨kindText .setVariable ++ c!"\n\n---\n**a**", r⟩)) ∧
    (∃ r, n₃.hover (Fix.env.over Fix.piecesSyn) Fix.world 7 c!"f" 1 ⟨3, 5⟩ = .ok (some ⟨kindText .setVariable ++ c!"\n\n---\n**a**", r⟩)) ∧
    Call.run (Fix.env.over Fix.piecesSyn) Fix.world NodeFiles.new (Fix.piecesCalls Fix.filledContent) = .ok n₂ ∧
    Call.run (Fix.env.over Fix.piecesSyn) Fix.world NodeFiles.new (Fix.piecesCalls Fix.longContent) = .ok n₃ := by
  obtain ⟨n₁, h₁⟩ := Fix.short_hosted
  obtain ⟨n₂, h₂⟩ := Fix.filled_hosted
  obtain ⟨n₃, h₃⟩ := Fix.long_hosted
  have part : PartOf c!"f" Fix.offsetUri := ⟨c!"file:///home/", c!".7.jinja", by decide⟩
  have hex : ∃ b ∈ Items.bindings ⟨9, 9⟩ 0 [Fix.setItem, Fix.outItem], Reaches Fix.aUse.root.text ⟨3 - 1, 5⟩ b := by
    rw [Fix.short_bindings]; unfold Reaches; decide +kernel
  have hin : ∃ b ∈ Items.bindings ⟨9, 9⟩ 0 [Fix.setItem, Fix.outItem], InForce Fix.aUse.root.text Fix.aUse.root.start b := by
    rw [Fix.short_bindings]; unfold InForce; decide +kernel
  obtain ⟨b, k1, _, _, k2, k3⟩ := C133_goto_partial [Fix.setItem] [Fix.forItem, Fix.endItem] [Fix.outItem] h₁ h₂ Fix.aUse Fix.short_uses.1 Fix.short_uses.2.1
    rfl (.inl rfl) (.inr ⟨Fix.loop_inFront.1, by decide⟩) _ _ _ _ _ _ c!"f" c!"f" Fix.short_inName Fix.filled_inName rfl part rfl part rfl
    Fix.short_apart hex
  obtain ⟨c, l1, _, _, l2, l3⟩ := C133_goto_end_partial [Fix.againItem] h₁ h₃ Fix.aUse Fix.short_uses.1 Fix.short_uses.2.2 Fix.again_behind.1 (by decide)
    (by decide) _ _ _ _ _ _ c!"f" c!"f" Fix.short_inName Fix.long_inName rfl part rfl part rfl Fix.short_apart hex
  obtain ⟨d, m1, _, _, m2, m3⟩ := C133_hover_partial [Fix.setItem] [Fix.forItem, Fix.endItem] [Fix.outItem] h₁ h₂ Fix.aUse Fix.short_uses.1 Fix.short_uses.2.1
    rfl (.inl rfl) (.inr ⟨Fix.loop_inFront.1, by decide⟩) rfl _ _ _ _ _ _ Fix.short_inName Fix.filled_inName (by decide) (by decide)
    Fix.short_apart hin
  obtain ⟨e, p1, _, _, p2, p3⟩ := C133_hover_end_partial [Fix.againItem] h₁ h₃ Fix.aUse Fix.short_uses.1 Fix.short_uses.2.2 Fix.again_behind.1 (by decide)
    (by decide) rfl _ _ _ _ _ _ Fix.short_inName Fix.long_inName (by decide) (by decide) Fix.short_apart hin
  rw [List.singleton_append, Fix.short_bindings, List.mem_singleton] at k1
  rw [Fix.short_bindings, List.mem_singleton] at l1 p1
  rw [List.singleton_append, Fix.short_bindings, List.mem_singleton] at m1
  subst k1 l1 m1 p1
  exact ⟨n₁, n₂, n₃, k2, k3, l3, ⟨_, m3⟩, ⟨_, p3⟩, h₂.run, h₃.run⟩

local macro "regular" : term =>
  `((⟨⟨by decide +kernel, by decide +kernel, by decide +kernel⟩, ⟨by decide +kernel, by decide +kernel, by decide +kernel, by decide +kernel⟩,
    by unfold Legible; decide +kernel, by unfold HasError; decide +kernel, by decide +kernel, by decide +kernel, by decide +kernel⟩ : Regular _))

/-- behind `{{ a` the same is offered in all of them; neither the loop variable `b` nor the second `a` makes a difference -/
example : ∃ (n₁ n₂ n₃ : NodeFiles) (i₁ i₂ i₃ : List JsItem),
    n₁.complete (Fix.env.over Fix.piecesSyn) Fix.world 7 c!"f" 1 ⟨2 + 1, 7⟩ = .ok (some i₁) ∧
    n₂.complete (Fix.env.over Fix.piecesSyn) Fix.world 7 c!"f" 1 ⟨2 + 1, 7⟩ = .ok (some i₂) ∧
    n₃.complete (Fix.env.over Fix.piecesSyn) Fix.world 7 c!"f" 1 ⟨2 + 1, 7⟩ = .ok (some i₃) ∧
    (c!"a" ∈ i₂.map (·.label) ↔ c!"a" ∈ i₁.map (·.label)) ∧ (c!"b" ∈ i₂.map (·.label) ↔ c!"b" ∈ i₁.map (·.label)) ∧
    (c!"a" ∈ i₃.map (·.label) ↔ c!"a" ∈ i₁.map (·.label)) := by
  obtain ⟨n₁, h₁⟩ := Fix.short_hosted
  obtain ⟨n₂, h₂⟩ := Fix.filled_hosted
  obtain ⟨n₃, h₃⟩ := Fix.long_hosted
  have beside : ∀ ns, ns = [Fix.setNode, Fix.outNode] ∨ ns = [Fix.setNode, Fix.forNode, Fix.endNode, Fix.outNode] ∨ ns = [Fix.setNode, Fix.outNode, Fix.againNode] →
      Regular (Fix.rootOf ns) ∧ Beside Fix.digit (Fix.rootOf ns) ⟨2, 7⟩ ∧ (∀ k ∈ (Fix.rootOf ns).flat, IsPipe k → ¬ Touches ⟨2, 7⟩ k) ∧
        ∃ e ∈ (Fix.rootOf ns).flat, Within ⟨2, 7⟩ e := by
    rintro ns (rfl | rfl | rfl)
    all_goals
      refine ⟨regular, ⟨by decide, ?_⟩, ?_, by unfold Within; decide +kernel⟩
      · intro n hn h
        replace h := h.kind
        revert h; revert n
        unfold Touches; decide +kernel
      · intro n hn h
        replace h := h.1
        revert h; revert n
        unfold Touches; decide +kernel
  obtain ⟨r1, b1, p1, w1⟩ := beside _ (.inl rfl)
  obtain ⟨r2, b2, p2, w2⟩ := beside _ (.inr (.inl rfl))
  obtain ⟨r3, b3, p3, w3⟩ := beside _ (.inr (.inr rfl))
  have backend : ∀ (content m : Str) (n : NodeFiles), (∃ n, Call.run (Fix.env.over Fix.piecesSyn) Fix.world NodeFiles.new (Fix.piecesCalls content) = .ok n ∧
      (n.files.variables.entries.all fun e => e.2.all fun v => v.idType ≠ .backendVariable) = true) →
      Call.run (Fix.env.over Fix.piecesSyn) Fix.world NodeFiles.new (Fix.piecesCalls content) = .ok n → ¬ BackendName n.files m := by
    rintro content m n ⟨n', e1, e2⟩ e3 ⟨file, vs, v, k1, k2, k3, _⟩
    rw [e3] at e1
    cases e1
    have hm : (file, vs) ∈ n.files.variables.entries := (HMap.get?_eq_some_iff _ _ _).mp k1
    simp only [List.all_eq_true, decide_eq_true_eq] at e2
    exact e2 _ hm v k2 k3
  have f1 := fun m => backend Fix.shortContent m n₁ ⟨_, rfl, by decide +kernel⟩ h₁.run
  have f2 := fun m => backend Fix.filledContent m n₂ ⟨_, rfl, by decide +kernel⟩ h₂.run
  have f3 := fun m => backend Fix.longContent m n₃ ⟨_, rfl, by decide +kernel⟩ h₃.run
  obtain ⟨i₁, i₂, k1, k2, k3⟩ := C133_offered_partial [Fix.setItem] [Fix.forItem, Fix.endItem] [Fix.outItem] h₁ h₂ r1 r2 2 7 b1 b2 p1 w1 p2 w2 rfl (.inl rfl)
    (.inr Fix.loop_inFront.2)
  obtain ⟨i₁', i₃, l1, l2, l3⟩ := C133_offered_end_partial [Fix.againItem] h₁ h₃ r1 r3 2 7 b1 b3 p1 w1 p3 w3 Fix.again_behind.2 (by decide) (by decide)
  rw [k1] at l1
  cases l1
  exact ⟨n₁, n₂, n₃, i₁, i₂, i₃, k1, k2, l2, k3 _ (by decide) (f1 _) (f2 _) (by decide) (by decide), k3 _ (by decide) (f1 _) (f2 _) (by decide) (by decide),
    l3 _ (f1 _) (f3 _) (by decide) (by decide)⟩

end JinjaLsp
