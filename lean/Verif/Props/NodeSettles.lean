import Verif.Props.Settles
import Verif.Props.NodePieces
/-
  C139: in an embedded template, a definition leads to itself, and following goto-definition twice is following it once.
-/

namespace JinjaLsp
open Node Spec NodeFiles

section
variable {env : Env} {sx : Syntax} {w w' : World} {calls : List Call} {n : NodeFiles} {id : Nat} {fn uri host above margin content below : Str}
  {line : Nat} {col : Option Nat} {root : Syn} {last : Point} {is : List Item} {es : List Elem}

/-! ## C139 -/

/-- **C139** (definitions; part) With the cursor of the host document anywhere on a name where the embedded template binds it, goto-definition leads to
that place.  Missing: file names that are no URLs (C102). -/
theorem C139_self_partial (h : HostedItems env sx w calls n id fn uri host above margin content below line col root last is es)
    (u : Use) (hu : .use u ∈ es) (pos : Position) (before after url : Str) (hc : InName host above margin content below col u.root pos before after)
    (hin : PartOf fn uri) (hurl : env.urlParse fn = some url)
    (b : Binding) (hb : b ∈ Items.bindings last 0 is) (hn : NameOf u b) (hv : (⟨pos.line - line, pos.character⟩ : Point) ≤ b.visibleTo)
    (ha : Separate b (Items.bindings last 0 is)) :
    n.gotoDefinition (env.over sx) w id fn line pos = .ok (some [⟨url, hostPlace line b, false⟩]) := by
  obtain ⟨n1, n2, n3⟩ := hn
  obtain ⟨l, _, _, h1, _, heq, _⟩ := h.cursor hu hc
  rw [heq] at h1
  have hself : Reaches u.root.text ⟨pos.line - line, pos.character⟩ b := ⟨n1.symm, n2 ▸ h1, hv⟩
  obtain ⟨_, h2, c, k1, k2, k3, k4⟩ := h.goto hu hc ⟨b, hb, hself⟩ hin hurl
  have := k3 b hb hself
  rcases ha c k1 with rfl | e | e
  · exact k4
  · exact (Point.lt_irrefl _ (Point.lt_of_lt_of_le e this)).elim
  · exact (Point.lt_irrefl _ (Point.lt_of_lt_of_le (Point.lt_of_le_of_lt k2.2.1 h2) (n3 ▸ e))).elim

/-- **C139** (twice; part) Goto-definition from a use of a variable leads to a place in the host document from where it leads to that same place again.
Missing: as above. -/
theorem C139_twice_partial (h : HostedItems env sx w calls n id fn uri host above margin content below line col root last is es)
    (u : Use) (hu : .use u ∈ es) (pos : Position) (before after url : Str) (hc : InName host above margin content below col u.root pos before after)
    (hin : PartOf fn uri) (hurl : env.urlParse fn = some url)
    (hex : ∃ b ∈ Items.bindings last 0 is, Reaches u.root.text ⟨pos.line - line, pos.character⟩ b)
    (hd : ∀ b ∈ Items.bindings last 0 is, b.name = u.root.text → Separate b (Items.bindings last 0 is) ∧
      ∃ v before' after', .use v ∈ es ∧ NameOf v b ∧ InName host above margin content below col v.root (hostPlace line b).start before' after') :
    ∃ r : Range, n.gotoDefinition (env.over sx) w id fn line pos = .ok (some [⟨url, r, false⟩]) ∧
      n.gotoDefinition (env.over sx) w id fn line r.start = .ok (some [⟨url, r, false⟩]) := by
  obtain ⟨_, _, b, k1, k2, _, k3⟩ := h.goto hu hc hex hin hurl
  obtain ⟨ha, v, before', after', hv, hn, hc'⟩ := hd b k1 k2.1
  refine ⟨hostPlace line b, k3, C139_self_partial h v hv _ before' after' url hc' hin hurl b k1 hn ?_ ha⟩
  have e : (⟨(hostPlace line b).start.line - line, (hostPlace line b).start.character⟩ : Point) = b.start := by
    simp [hostPlace]
  rw [e]
  exact Point.le_trans k2.2.1 k2.2.2

/-- **C139** is false for hover: on the first definition of a name, hover shows nothing (if no other file has the name). -/
theorem C139_hover_refuted (h : HostedItems env sx w calls n id fn uri host above margin content below line col root last is es)
    (u : Use) (hu : .use u ∈ es) (hvar : u.mark = .variable) (pos : Position) (before after : Str)
    (hc : InName host above margin content below col u.root pos before after)
    (hfirst : ∀ b ∈ Items.bindings last 0 is, b.name = u.root.text → u.root.start < b.stop)
    (hel : ¬ ∃ file v, Elsewhere n.files uri u.root.text file v) :
    n.hover (env.over sx) w id fn line pos = .ok none := by
  obtain ⟨l, vars, hpos, h1, h2, heq, hon⟩ := h.cursor hu hc
  obtain ⟨old, hd, ht, vs, hv, hvs⟩ := h.analysed
  rw [h.ends] at hvs
  rw [hon.read] at hv
  cases hv
  rw [hpos]
  refine C94_unknown_refuted (env.over sx) w calls n id fn uri line l pos.character u vars hon (by simp [Use.info, hvar]) ⟨fun d hd hf => ?_, hel⟩
  have hm : d.binding ∈ Items.bindings last 0 is := hvs ▸ List.mem_map_of_mem hd
  exact Point.lt_irrefl _ (Point.lt_of_lt_of_le (hfirst d.binding hm hf.2.1) hf.2.2.1)

/-- … and on a later one it shows the kind of an earlier one: a binding of the name that starts before it. -/
theorem C139_shadowed_refuted (h : HostedItems env sx w calls n id fn uri host above margin content below line col root last is es)
    (u : Use) (hu : .use u ∈ es) (hvar : u.mark = .variable) (pos : Position) (before after : Str)
    (hc : InName host above margin content below col u.root pos before after)
    (hhint : ∀ b ∈ (toldUnder c!"temp" none calls).getD [], ¬ u.root.text <+: b.name) (k : IdType)
    (hk : ∀ b ∈ Items.bindings last 0 is, InForce u.root.text u.root.start b → b.kind = k)
    (hex : ∃ b ∈ Items.bindings last 0 is, InForce u.root.text u.root.start b) :
    n.hover (env.over sx) w id fn line pos = .ok (some ⟨kindText k ++ c!"\n\n---\n**" ++ u.root.text ++ c!"**", hostRange line u.root⟩) ∧
      ∀ b ∈ Items.bindings last 0 is, NameOf u b → ¬ InForce u.root.text u.root.start b := by
  obtain ⟨b, k1, k2, _, k3⟩ := h.hover hu hvar hc hhint hex
  refine ⟨hk b k1 k2 ▸ k3, fun b' _ hn hi => ?_⟩
  exact Point.lt_irrefl _ (Point.lt_of_lt_of_le (use_spans h.usesWf hu) (hn.2.2 ▸ hi.2.2.1))

end

/-! ### Examples -/

namespace Fix

/-- `a` in `{% set a = 1 %}` -/
def setUse : Use := ⟨.variable, tok 0 14 15 c!"a" 16, []⟩
/-- `a` in `{% set a = 2 %}` -/
def againUse : Use := ⟨.variable, tok 3 7 8 c!"a" 62, []⟩

theorem long_set : .use setUse ∈ plainElems (rootOf [setNode, outNode, againNode]) ∧ .use againUse ∈ plainElems (rootOf [setNode, outNode, againNode]) :=
  ⟨uses_mem (by decide +kernel), uses_mem (by decide +kernel)⟩

theorem long_inSet : InName (piecesText longContent) hostAbove hostMargin longContent hostBelow (some 7) setUse.root ⟨1, 14⟩ c!"{% set "
    c!" = 1 %}\n\n  {{ a }}\n{% set a = 2 %}" :=
  ⟨⟨⟨c!" = 1 %}\n\n  {{ a }}\n{% set a = 2 %}", by decide +kernel⟩, by decide +kernel, by decide +kernel⟩, by decide +kernel,
    by unfold PlainWord AsciiWord; decide,
    ⟨[], c!"a", rfl, by simp, by decide +kernel, c!"import jinja2\n", c!"é = '''{% set ", by decide +kernel, by decide +kernel,
      by decide, by decide +kernel⟩, by unfold AsciiLine; decide +kernel⟩

theorem long_inAgain : InName (piecesText longContent) hostAbove hostMargin longContent hostBelow (some 7) againUse.root ⟨4, 7⟩
    c!"{% set a = 1 %}\n\n  {{ a }}\n{% set " c!" = 2 %}" :=
  ⟨⟨⟨c!" = 2 %}", by decide +kernel⟩, by decide +kernel, by decide +kernel⟩, by decide +kernel, by unfold PlainWord AsciiWord; decide,
    ⟨[], c!"a", rfl, by simp, by decide +kernel, c!"import jinja2\né = '''{% set a = 1 %}\n\n  {{ a }}\n", c!"{% set ", by decide +kernel, by decide +kernel,
      by decide, by decide +kernel⟩, by unfold AsciiLine; decide +kernel⟩

end Fix

/-- `a` in `{{ a }}` leads to the first `set`, which leads to itself, as the second one does; hovering shows nothing on the first, and on the second
what is known from the first -/
example : ∃ (n : NodeFiles) (r : Range),
    n.gotoDefinition (Fix.env.over Fix.piecesSyn) Fix.world 7 c!"f" 1 ⟨3, 5⟩ = .ok (some [⟨c!"f", r, false⟩]) ∧
    n.gotoDefinition (Fix.env.over Fix.piecesSyn) Fix.world 7 c!"f" 1 r.start = .ok (some [⟨c!"f", r, false⟩]) ∧
    n.gotoDefinition (Fix.env.over Fix.piecesSyn) Fix.world 7 c!"f" 1 ⟨4, 7⟩ = .ok (some [⟨c!"f", ⟨⟨4, 7⟩, ⟨4, 8⟩⟩, false⟩]) ∧
    n.hover (Fix.env.over Fix.piecesSyn) Fix.world 7 c!"f" 1 ⟨1, 14⟩ = .ok none ∧
    (∃ r, n.hover (Fix.env.over Fix.piecesSyn) Fix.world 7 c!"f" 1 ⟨4, 7⟩ = .ok (some ⟨kindText .setVariable ++ c!"\n\n---\n**a**", r⟩)) := by
  obtain ⟨n, h⟩ := Fix.long_hosted
  have part : PartOf c!"f" Fix.offsetUri := ⟨c!"file:///home/", c!".7.jinja", by decide⟩
  have sep : ∀ b ∈ Items.bindings ⟨9, 9⟩ 0 [Fix.setItem, Fix.outItem, Fix.againItem],
      Separate b (Items.bindings ⟨9, 9⟩ 0 [Fix.setItem, Fix.outItem, Fix.againItem]) := by unfold Separate; decide +kernel
  have two : ∀ b ∈ Items.bindings ⟨9, 9⟩ 0 [Fix.setItem, Fix.outItem, Fix.againItem],
      b = (Fix.tok 0 14 15 c!"a" 16).bind .setVariable ⟨9, 9⟩ ∨ b = (Fix.tok 3 7 8 c!"a" 62).bind .setVariable ⟨9, 9⟩ := by decide +kernel
  obtain ⟨r, k1, k2⟩ := C139_twice_partial h Fix.aUse Fix.short_uses.2.2 _ _ _ c!"f" Fix.long_inName part rfl (by unfold Reaches; decide +kernel) (by
    intro b hb _
    refine ⟨sep b hb, ?_⟩
    rcases two b hb with rfl | rfl
    · exact ⟨_, _, _, Fix.long_set.1, ⟨rfl, rfl, rfl⟩, Fix.long_inSet⟩
    · exact ⟨_, _, _, Fix.long_set.2, ⟨rfl, rfl, rfl⟩, Fix.long_inAgain⟩)
  have k3 := C139_self_partial h Fix.againUse Fix.long_set.2 _ _ _ c!"f" Fix.long_inAgain part rfl ((Fix.tok 3 7 8 c!"a" 62).bind .setVariable ⟨9, 9⟩)
    (by decide +kernel) ⟨rfl, rfl, rfl⟩ (by decide) (sep _ (by decide +kernel))
  have hel : ¬ ∃ file v, Elsewhere n.files Fix.offsetUri c!"a" file v := by
    have hr := h.run
    rintro ⟨file, v, hne, vs, hv, hm, hs⟩
    have main : ∃ m : NodeFiles, Call.run (Fix.env.over Fix.piecesSyn) Fix.world NodeFiles.new (Fix.piecesCalls Fix.longContent) = .ok m ∧
      (m.files.variables.entries.all fun e => e.1 == Fix.offsetUri) = true := ⟨_, rfl, by decide +kernel⟩
    obtain ⟨m, h1, h2⟩ := main
    rw [hr] at h1
    cases h1
    have := List.all_eq_true.mp h2 _ ((HMap.get?_eq_some_iff _ _ _).mp hv)
    exact hne (by simpa using this)
  have k4 := C139_hover_refuted h Fix.setUse Fix.long_set.1 rfl _ _ _ Fix.long_inSet (by decide +kernel) hel
  have k5 := C139_shadowed_refuted h Fix.againUse Fix.long_set.2 rfl _ _ _ Fix.long_inAgain (by decide) .setVariable
    (by unfold InForce; decide +kernel) (by unfold InForce; decide +kernel)
  exact ⟨n, r, k1, k2, k3, k4, ⟨_, k5.1⟩⟩

end JinjaLsp
