import Verif.Props.Reserved
/-
  C148: in embedded templates, every listed variable leads to itself.
-/

namespace JinjaLsp
open Node Spec NodeFiles

namespace Spec

/-- the place a listed variable has in the template, whose host document has `line` lines before it -/
def JsPlace (line : Nat) (j : JsIdentifier) : Tok :=
  ⟨⟨j.start.line - line, j.start.character⟩, ⟨j.stop.line - line, j.stop.character⟩, j.name, 0⟩

/-- the place of the variable is read as an attribute -/
def JsAttribute (line : Nat) (es : List Elem) (j : JsIdentifier) : Prop :=
  ∃ v : Use, .use v ∈ es ∧ ∃ f ∈ v.fields, f.2.text = j.name ∧ f.2.start = (JsPlace line j).start ∧ f.2.stop = (JsPlace line j).stop

end Spec

/-- only the place and the text of a token matter for the cursor in it -/
theorem inName_alike {host above margin content below : Str} {col : Option Nat} {t t' : Tok} {pos : Position} {before after : Str}
    (h : InName host above margin content below col t pos before after) (e1 : t'.text = t.text) (e2 : t'.start = t.start) (e3 : t'.stop = t.stop) :
    InName host above margin content below col t' pos before after := by
  obtain ⟨h1, h2, h3, h4, h5⟩ := h
  exact ⟨by rw [e1, e2, e3]; exact h1, by rw [e1]; exact h2, by rw [e1]; exact h3, by rw [e1]; exact h4, h5⟩

section
variable {env : Env} {sx : Syntax} {w : World} {calls : List Call} {n : NodeFiles} {id : Nat} {fn uri host above margin content below : Str}
  {line : Nat} {col : Option Nat} {root : Syn} {last : Point} {is : List Item} {es : List Elem}

/-- a listed variable is a binding of the template -/
theorem listed_binding (h : HostedItems env sx w calls n id fn uri host above margin content below line col root last is es) (hf : Filled root)
    {js : List JsIdentifier} (hg : n.getVariables (env.over sx) uri line = .ok (some js)) {j : JsIdentifier} (hj : j ∈ js) :
    ∃ b ∈ Items.bindings last 0 is, b.name = j.name ∧ hostPlace line b = ⟨j.start, j.stop⟩ ∧ b.start = (JsPlace line j).start ∧ b.stop = (JsPlace line j).stop := by
  obtain ⟨js', k1, k2, _⟩ := C143_node h hf
  rw [hg] at k1
  cases k1
  have : (j.name, (⟨j.start, j.stop⟩ : Range)) ∈ (Items.bindings last 0 is).map (fun b => (b.name, hostPlace line b)) := k2 ▸ List.mem_map_of_mem hj
  obtain ⟨b, hb, e⟩ := List.mem_map.mp this
  injection e with e1 e2
  refine ⟨b, hb, e1, e2, ?_, ?_⟩
  · have : (hostPlace line b).start = j.start := by rw [e2]
    simp [JsPlace, ← this, hostPlace]
  · have : (hostPlace line b).stop = j.stop := by rw [e2]
    simp [JsPlace, ← this, hostPlace]

/-- **C148** (itself) With the cursor anywhere on a variable that get_variables lists, goto_definition leads to exactly the place it is listed with.
Missing: variables listed where the template has an attribute, and reserved words. -/
theorem C148_itself_partial (h : HostedItems env sx w calls n id fn uri host above margin content below line col root last is es) (hf : Filled root)
    (he : ∀ m ∈ root.flat, m.stop ≤ last) (js : List JsIdentifier) (hg : n.getVariables (env.over sx) uri line = .ok (some js)) (j : JsIdentifier) (hj : j ∈ js)
    (ha : ¬ JsAttribute line es j) (hn : j.name ∉ reserved) (pos : Position) (before after url : Str)
    (hc : InName host above margin content below col (JsPlace line j) pos before after) (hin : PartOf fn uri) (hurl : env.urlParse fn = some url) :
    n.gotoDefinition (env.over sx) w id fn line pos = .ok (some [⟨url, ⟨j.start, j.stop⟩, false⟩]) := by
  obtain ⟨b, hb, e1, e2, e3, e4⟩ := listed_binding h hf hg hj
  rcases C146_read sx.digit root last is es h.tags h.uses h.usesWf b hb with ⟨v, k1, k2⟩ | ⟨v, k1, f, k2, k3, k4, k5⟩ | k
  · rw [← e2]
    exact C143_node_home h hf he v k1 pos before after url (inName_alike hc (k2.1.trans e1) (k2.2.1.trans e3) (k2.2.2.trans e4)) hin hurl b hb k2
  · exact (ha ⟨v, k1, f, k2, k3.trans e1, k4.trans e3, k5.trans e4⟩).elim
  · exact (hn (e1 ▸ k)).elim

/-- **C148** (twice) goto_definition from a use of a variable of the template leads to a place from where it leads to that same place again.
Missing: variables listed where the template has an attribute. -/
theorem C148_twice_partial (h : HostedItems env sx w calls n id fn uri host above margin content below line col root last is es) (hf : Filled root)
    (he : ∀ m ∈ root.flat, m.stop ≤ last) (js : List JsIdentifier) (hg : n.getVariables (env.over sx) uri line = .ok (some js))
    (u : Use) (hu : .use u ∈ es) (pos : Position) (before after url : Str) (hc : InName host above margin content below col u.root pos before after)
    (hin : PartOf fn uri) (hurl : env.urlParse fn = some url)
    (hex : ∃ b ∈ Items.bindings last 0 is, Reaches u.root.text ⟨pos.line - line, pos.character⟩ b)
    (hd : ∀ j ∈ js, j.name = u.root.text → ¬ JsAttribute line es j ∧ ∃ before' after', InName host above margin content below col (JsPlace line j) j.start before' after') :
    ∃ j ∈ js, j.name = u.root.text ∧ n.gotoDefinition (env.over sx) w id fn line pos = .ok (some [⟨url, ⟨j.start, j.stop⟩, false⟩]) ∧
      n.gotoDefinition (env.over sx) w id fn line j.start = .ok (some [⟨url, ⟨j.start, j.stop⟩, false⟩]) := by
  obtain ⟨_, _, b, k1, k2, _, k3⟩ := h.goto hu hc hex hin hurl
  obtain ⟨js', l1, l2, _⟩ := C143_node h hf
  rw [hg] at l1
  cases l1
  have : (b.name, hostPlace line b) ∈ js.map (fun j => (j.name, (⟨j.start, j.stop⟩ : Range))) := l2 ▸ List.mem_map_of_mem k1
  obtain ⟨j, hj, e⟩ := List.mem_map.mp this
  injection e with e1 e2
  have hname : j.name = u.root.text := e1.trans k2.1
  obtain ⟨ha, before', after', hc'⟩ := hd j hj hname
  have hres : j.name ∉ reserved := by rw [hname]; exact (h.usesWf.ok _ hu).2.1
  refine ⟨j, hj, hname, e2 ▸ k3, C148_itself_partial h hf he js hg j hj ha hres _ before' after' url hc' hin hurl⟩

/-- **C148** is false for reserved words: `{% set module = 1 %}` is listed, but goto_definition leads there from nowhere. -/
theorem C148_reserved_refuted (h : HostedItems env sx w calls n id fn uri host above margin content below line col root last is es) (hf : Filled root)
    (js : List JsIdentifier) (hg : n.getVariables (env.over sx) uri line = .ok (some js)) (j : JsIdentifier) (hj : j ∈ js) (hn : j.name ∈ reserved)
    (hu : docUri (env.over sx) fn id c!"jinja" = .ok uri) (w' : World) (pos : Position) (ls : List JsLocation)
    (hgo : n.gotoDefinition (env.over sx) w' id fn line pos = .ok (some ls)) :
    ∀ l ∈ ls, l.isBackend = false → l.range ≠ ⟨j.start, j.stop⟩ := by
  intro l hl hb e
  obtain ⟨js', k1, k2, k3, k4⟩ := C143_node h hf
  rw [hg] at k1
  cases k1
  have sz := k3 j hj
  rcases C147_node _ w' n id line fn uri pos ls h.line_small hu hgo l hl hb with z | ⟨vs, v, l1, l2, l3, l4⟩
  · rw [z] at e
    simp only [Range.mk.injEq] at e
    rw [← e.1, ← e.2] at sz
    exact Point.lt_irrefl _ sz
  · unfold getVariables at hg
    rw [l1] at hg
    dsimp only at hg
    split at hg
    · cases hg
    · rename_i a ha
      cases hg
      obtain ⟨j', hj', m1, m2, m3⟩ := shiftAll_mem l4 ha l2
      rw [e] at m1 m2
      dsimp only at m1 m2
      have hne : j' ≠ j := fun c => l3 (by rw [← m3, c]; exact hn)
      rcases pairwise_either k4 hj' hj with c | c | c
      · exact hne c
      · rw [m2] at c
        exact Point.lt_irrefl _ (Point.lt_of_lt_of_le sz c)
      · rw [m1] at c
        exact Point.lt_irrefl _ (Point.lt_of_lt_of_le sz c)

end

/-! ### Examples -/

namespace Fix

/-- what is listed of the template with two `set` tags -/
theorem long_listed {n : NodeFiles} {js : List JsIdentifier} (h : HostedItems env piecesSyn world (piecesCalls longContent) n 7 c!"f" offsetUri
      (piecesText longContent) hostAbove hostMargin longContent hostBelow 1 (some 7) (rootOf [setNode, outNode, againNode]) ⟨9, 9⟩ [setItem, outItem, againItem]
      (plainElems (rootOf [setNode, outNode, againNode]))) (hg : n.getVariables (env.over piecesSyn) offsetUri 1 = .ok (some js)) :
    js.map (fun j => (j.name, (⟨j.start, j.stop⟩ : Range))) = [(c!"a", ⟨⟨1, 14⟩, ⟨1, 15⟩⟩), (c!"a", ⟨⟨4, 7⟩, ⟨4, 8⟩⟩)] := by
  obtain ⟨js', k1, k2, _⟩ := C143_node h (by unfold Filled; decide +kernel)
  rw [hg] at k1
  cases k1
  exact k2.trans (by decide +kernel)

/-- no attribute occurs among plain names -/
theorem plain_attribute (line : Nat) (root : Syn) (j : JsIdentifier) : ¬ JsAttribute line (plainElems root) j := by
  rintro ⟨v, h1, f, h2, e1, e2, e3⟩
  exact plainElems_fields root ⟨j.name, (JsPlace line j).start, (JsPlace line j).stop, .setVariable, Point.zero⟩ ⟨v, h1, f, h2, e1, e2, e3⟩

def moduleContent : Str := c!"{% set module = 1 %}"

def moduleNode : Syn :=
  stAt 3 0 7 27 [lf .keyword 15 0 10 13 c!"set", lf .identifier 16 0 14 20 c!"module", lf .operator 17 0 21 22 c!"=", lf .identifier 18 0 23 24 c!"1"]

def moduleSyn : Syntax := ⟨fun _ _ => rootOf [moduleNode], digit, fun _ _ => [[]], fun _ => true⟩

theorem module_hosted : ∃ n is es, HostedItems env moduleSyn world (piecesCalls moduleContent) n 7 c!"f" offsetUri (piecesText moduleContent) hostAbove hostMargin
    moduleContent hostBelow 1 (some 7) (rootOf [moduleNode]) ⟨9, 9⟩ is es ∧ (Items.bindings ⟨9, 9⟩ 0 is).map (·.name) = [c!"module"] := by
  have h1 : ∃ n, Call.run (env.over moduleSyn) world NodeFiles.new (piecesCalls moduleContent) = .ok n := ⟨_, rfl⟩
  obtain ⟨n, hn⟩ := h1
  have ht : Tags digit [moduleNode] [.leaf (.set ⟨tok 0 7 9 c!"{%" 103, tok 0 25 27 c!"%}" 203⟩ (tok 0 10 13 c!"set" 15) (tok 0 14 20 c!"module" 16)
      [.eq (tok 0 21 22 c!"=" 17)])] := readTags_sound rfl
  refine ⟨n, _, [.word (tok 0 14 20 c!"module" 16), .op (tok 0 21 22 c!"=" 17)], ⟨⟨hn, ⟨[], [], 1, rfl, by simp⟩, rfl, by decide,
    ⟨by decide +kernel, by decide +kernel, by decide +kernel, by decide +kernel⟩, noLoneCR_of (by decide +kernel), by decide +kernel, fun _ => ⟨rfl, rfl⟩,
    tags_no_error rfl ht, spelled_of (by decide +kernel)⟩, rfl, ⟨by decide, by decide, by decide⟩, ⟨by decide, by decide, by decide, by decide⟩, ht, ?_, ?_,
    fun _ => rfl⟩, by decide⟩
  · refine ⟨relevant, fun n => by simp [relevant, Relevant, moduleSyn], ?_⟩
    have hf : (rootOf [moduleNode]).flat.filter relevant = [lf .identifier 16 0 14 20 c!"module", lf .operator 17 0 21 22 c!"="] := rfl
    rw [hf]
    exact .word ⟨rfl, by simp [lf, Syn.text], by decide⟩ (.op ⟨rfl, by simp [lf, Syn.text], by simp [lf, Syn.text]⟩ .nil)
  · refine ⟨?_, ⟨⟨0, 2⟩, by decide, ?_⟩⟩
    · simp [Elem.Ok, reserved, tok]
    · simp [Elem.toks, Ordered, tok, Point.lt_def, Point.le_def]

end Fix

/-- the use of `a` leads to the first `set`, and from there to itself; the second `set` leads to itself -/
example : ∃ n : NodeFiles, (∃ r : Range, n.gotoDefinition (Fix.env.over Fix.piecesSyn) Fix.world 7 c!"f" 1 ⟨3, 5⟩ = .ok (some [⟨c!"f", r, false⟩]) ∧
      n.gotoDefinition (Fix.env.over Fix.piecesSyn) Fix.world 7 c!"f" 1 r.start = .ok (some [⟨c!"f", r, false⟩])) ∧
    n.gotoDefinition (Fix.env.over Fix.piecesSyn) Fix.world 7 c!"f" 1 ⟨4, 7⟩ = .ok (some [⟨c!"f", ⟨⟨4, 7⟩, ⟨4, 8⟩⟩, false⟩]) := by
  obtain ⟨n, h⟩ := Fix.long_hosted
  have hf : Filled (Fix.rootOf [Fix.setNode, Fix.outNode, Fix.againNode]) := by unfold Filled; decide +kernel
  have he : ∀ m ∈ (Fix.rootOf [Fix.setNode, Fix.outNode, Fix.againNode]).flat, m.stop ≤ ⟨9, 9⟩ := by decide +kernel
  have hp : PartOf c!"f" Fix.offsetUri := ⟨c!"file:///home/", c!".7.jinja", by decide⟩
  obtain ⟨js, hg, _⟩ := C143_node h hf
  have hl := Fix.long_listed h hg
  have place : ∀ j ∈ js, (j.name = c!"a" ∧ j.start = ⟨1, 14⟩ ∧ j.stop = ⟨1, 15⟩) ∨ (j.name = c!"a" ∧ j.start = ⟨4, 7⟩ ∧ j.stop = ⟨4, 8⟩) := by
    intro j hj
    have : (j.name, (⟨j.start, j.stop⟩ : Range)) ∈ [(c!"a", (⟨⟨1, 14⟩, ⟨1, 15⟩⟩ : Range)), (c!"a", ⟨⟨4, 7⟩, ⟨4, 8⟩⟩)] := hl ▸ List.mem_map_of_mem hj
    simpa only [List.mem_cons, Prod.mk.injEq, Range.mk.injEq, List.not_mem_nil, or_false] using this
  refine ⟨n, ?_, ?_⟩
  · obtain ⟨j, _, _, k1, k2⟩ := C148_twice_partial h hf he js hg Fix.aUse Fix.short_uses.2.2 ⟨3, 5⟩ _ _ c!"f" Fix.long_inName hp rfl
      ⟨(Fix.tok 0 14 15 c!"a" 16).bind .setVariable ⟨9, 9⟩, by decide +kernel, rfl, by decide, by decide⟩ (by
        intro j hj _
        refine ⟨Fix.plain_attribute _ _ _, ?_⟩
        rcases place j hj with ⟨e1, e2, e3⟩ | ⟨e1, e2, e3⟩
        · exact ⟨_, _, e2 ▸ inName_alike Fix.long_inSet e1 (by simp [JsPlace, e2, Fix.setUse, Fix.tok]) (by simp [JsPlace, e3, Fix.setUse, Fix.tok])⟩
        · exact ⟨_, _, e2 ▸ inName_alike Fix.long_inAgain e1 (by simp [JsPlace, e2, Fix.againUse, Fix.tok]) (by simp [JsPlace, e3, Fix.againUse, Fix.tok])⟩)
    exact ⟨_, k1, k2⟩
  · have : (c!"a", (⟨⟨4, 7⟩, ⟨4, 8⟩⟩ : Range)) ∈ js.map (fun j => (j.name, (⟨j.start, j.stop⟩ : Range))) := by rw [hl]; decide
    obtain ⟨j, hj, e⟩ := List.mem_map.mp this
    simp only [Prod.mk.injEq, Range.mk.injEq] at e
    obtain ⟨e1, e2, e3⟩ := e
    have := C148_itself_partial h hf he js hg j hj (Fix.plain_attribute _ _ _) (by rw [e1]; decide) ⟨4, 7⟩ _ _ c!"f"
      (inName_alike Fix.long_inAgain e1 (by simp [JsPlace, e2, Fix.againUse, Fix.tok]) (by simp [JsPlace, e3, Fix.againUse, Fix.tok])) hp rfl
    rw [e2, e3] at this
    exact this

/-- `module` is listed, and goto_definition does not lead there -/
example : ∃ (n : NodeFiles) (js : List JsIdentifier) (j : JsIdentifier), n.getVariables (Fix.env.over Fix.moduleSyn) Fix.offsetUri 1 = .ok (some js) ∧ j ∈ js ∧
    j.name = c!"module" ∧ ∀ w pos ls, n.gotoDefinition (Fix.env.over Fix.moduleSyn) w 7 c!"f" 1 pos = .ok (some ls) →
      ∀ l ∈ ls, l.isBackend = false → l.range ≠ ⟨j.start, j.stop⟩ := by
  obtain ⟨n, is, es, h, hb⟩ := Fix.module_hosted
  have hf : Filled (Fix.rootOf [Fix.moduleNode]) := by unfold Filled; decide +kernel
  obtain ⟨js, hg, hm, _⟩ := C143_node h hf
  have hn : js.map (·.name) = [c!"module"] := by
    have := congrArg (List.map Prod.fst) hm
    rw [List.map_map, List.map_map] at this
    exact this.trans hb
  have : c!"module" ∈ js.map (·.name) := by rw [hn]; decide
  obtain ⟨j, hj, e⟩ := List.mem_map.mp this
  exact ⟨n, js, j, hg, hj, e, fun w pos ls hgo => C148_reserved_refuted h hf js hg j hj (by rw [e]; decide) rfl w pos ls hgo⟩

end JinjaLsp
