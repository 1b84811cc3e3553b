import Verif.Props.Edits
/-
  C138: a definition leads to itself, and following goto-definition twice is following it once.
-/

namespace JinjaLsp
open Spec

namespace Spec

/-- the name of the binding is read as a name where it is bound -/
def NameOf (u : Use) (b : Binding) : Prop := u.root.text = b.name ∧ u.root.start = b.start ∧ u.root.stop = b.stop

/-- the other bindings start before the binding, or behind its name -/
def Separate (b : Binding) (bs : List Binding) : Prop := ∀ b' ∈ bs, b' = b ∨ b'.start < b.start ∨ b.stop ≤ b'.start

/-- the range of a binding -/
def Binding.range (b : Binding) : Range := ⟨⟨b.start.row, b.start.column⟩, ⟨b.stop.row, b.stop.column⟩⟩

end Spec

/-! ## C138 -/

/-- **C138** (definitions) With the cursor anywhere on the name where it is bound, goto-definition leads to that place. -/
theorem C138_self (env : Env) (sx : Syntax) (w : World) (s : Server) (uri text : Str) (tree : Tree) (is : List Item) (es : List Elem) (u : Use)
    (pos : Position) (hx : fileExt uri = some .template) (h : Spec.Analysed env s.files uri text tree is) (hs : WellFormed (sx.root tree text))
    (hl : Laid (sx.root tree text)) (hr : ReadsTree sx.digit (sx.root tree text) es) (hw : Elems.Wf es) (hu : .use u ∈ es)
    (h1 : u.root.start ≤ toPoint pos) (h2 : toPoint pos < u.root.stop) (hfit : ∀ b ∈ Items.bindings (env.rootEnd tree) 0 is, Short b)
    (b : Binding) (hb : b ∈ Items.bindings (env.rootEnd tree) 0 is) (hn : NameOf u b) (hv : toPoint pos ≤ b.visibleTo)
    (ha : Separate b (Items.bindings (env.rootEnd tree) 0 is)) :
    s.handle (env.over sx) w (.goto uri pos) = .ok (s, [], .goto (some (.scalar ⟨uri, b.range⟩))) := by
  obtain ⟨n1, n2, n3⟩ := hn
  have hself : Reaches u.root.text (toPoint pos) b := ⟨n1.symm, n2 ▸ h1, hv⟩
  obtain ⟨c, k1, k2, k3, k4⟩ := C83_goto env sx w s uri text tree is es u pos hx h hs hl hr hw hu h1 h2 hfit ⟨b, hb, hself⟩
  have := k3 b hb hself
  rcases ha c k1 with rfl | e | e
  · exact k4
  · exact (Point.lt_irrefl _ (Point.lt_of_lt_of_le e this)).elim
  · exact (Point.lt_irrefl _ (Point.lt_of_lt_of_le (Point.lt_of_le_of_lt k2.2.1 h2) (n3 ▸ e))).elim

/-- **C138** (twice) Goto-definition from a use of a variable of the template leads to a place from where it leads to that same place again. -/
theorem C138_twice (env : Env) (sx : Syntax) (w w' : World) (s : Server) (uri text : Str) (tree : Tree) (is : List Item) (es : List Elem) (u : Use)
    (pos : Position) (hx : fileExt uri = some .template) (h : Spec.Analysed env s.files uri text tree is) (hs : WellFormed (sx.root tree text))
    (hl : Laid (sx.root tree text)) (hr : ReadsTree sx.digit (sx.root tree text) es) (hw : Elems.Wf es) (hu : .use u ∈ es)
    (h1 : u.root.start ≤ toPoint pos) (h2 : toPoint pos < u.root.stop) (hfit : ∀ b ∈ Items.bindings (env.rootEnd tree) 0 is, Short b)
    (hex : ∃ b ∈ Items.bindings (env.rootEnd tree) 0 is, Reaches u.root.text (toPoint pos) b)
    (hd : ∀ b ∈ Items.bindings (env.rootEnd tree) 0 is, b.name = u.root.text → Separate b (Items.bindings (env.rootEnd tree) 0 is) ∧ ∃ v, .use v ∈ es ∧ NameOf v b) :
    ∃ r : Range, s.handle (env.over sx) w (.goto uri pos) = .ok (s, [], .goto (some (.scalar ⟨uri, r⟩))) ∧
      s.handle (env.over sx) w' (.goto uri r.start) = .ok (s, [], .goto (some (.scalar ⟨uri, r⟩))) := by
  obtain ⟨b, k1, k2, _, k3⟩ := C83_goto env sx w s uri text tree is es u pos hx h hs hl hr hw hu h1 h2 hfit hex
  obtain ⟨ha, v, hv, hn⟩ := hd b k1 k2.1
  refine ⟨b.range, k3, C138_self env sx w' s uri text tree is es v b.range.start hx h hs hl hr hw hv ?_ ?_ hfit b k1 hn
    (Point.le_trans k2.2.1 k2.2.2) ha⟩
  · show v.root.start ≤ b.start
    rw [hn.2.1]
    exact Point.le_refl _
  · show b.start < v.root.stop
    rw [← hn.2.1]
    exact use_spans hw hv

/-- **C138** (at rest) When typing has stopped and the server has come to rest, this holds for the text in the editor. -/
theorem C138_rest {W : World → Prop} (hO : ∀ w, W w → Orderly w) (env : Env) (sx : Syntax) (he : Sound (env.over sx)) (hu : NormalUrls env)
    (cs : List Msg) (as : List (HMap Str Diags)) (σ : Sys) (s : Server) (u : Str) (E : Editor) (h : Calm W env sx cs as σ s u E) :
    ∃ text, E u = some text ∧ ∀ tree is es, TextReads sx s u text tree is es → Laid (sx.root tree text) →
      (∀ b ∈ Items.bindings (env.rootEnd tree) 0 is, Short b) →
      ∀ v : Use, .use v ∈ es → ∀ pos, v.root.start ≤ toPoint pos → toPoint pos < v.root.stop →
        (∀ b ∈ Items.bindings (env.rootEnd tree) 0 is, NameOf v b → toPoint pos ≤ b.visibleTo → Separate b (Items.bindings (env.rootEnd tree) 0 is) →
          ∀ w, s.handle (env.over sx) w (.goto u pos) = .ok (s, [], .goto (some (.scalar ⟨u, b.range⟩)))) ∧
        ((∃ b ∈ Items.bindings (env.rootEnd tree) 0 is, Reaches v.root.text (toPoint pos) b) →
          (∀ b ∈ Items.bindings (env.rootEnd tree) 0 is, b.name = v.root.text →
            Separate b (Items.bindings (env.rootEnd tree) 0 is) ∧ ∃ v', .use v' ∈ es ∧ NameOf v' b) →
          ∀ w w', ∃ r : Range, s.handle (env.over sx) w (.goto u pos) = .ok (s, [], .goto (some (.scalar ⟨u, r⟩))) ∧
            s.handle (env.over sx) w' (.goto u r.start) = .ok (s, [], .goto (some (.scalar ⟨u, r⟩)))) := by
  obtain ⟨text, _, e1, _, e3⟩ := calm_shown hO he hu h
  refine ⟨text, e1, fun tree is es hr hl hf v hv pos h1 h2 => ⟨fun b hb hn hc ha w => ?_, fun hex hd w w' => ?_⟩⟩
  · exact C138_self env sx w s u text tree is es v pos h.template (e3 _ _ _ hr).1 hr.formed hl hr.reads hr.wf hv h1 h2 hf b hb hn hc ha
  · exact C138_twice env sx w w' s u text tree is es v pos h.template (e3 _ _ _ hr).1 hr.formed hl hr.reads hr.wf hv h1 h2 hf hex hd

/-- **C138** is false for hover: on the first definition of a name, hover shows nothing (if no other file has the name). -/
theorem C138_hover_refuted (env : Env) (sx : Syntax) (w : World) (s : Server) (uri text : Str) (tree : Tree) (is : List Item) (es : List Elem) (u : Use)
    (pos : Position) (hx : fileExt uri = some .template) (h : Spec.Analysed env s.files uri text tree is) (hs : WellFormed (sx.root tree text))
    (hl : Laid (sx.root tree text)) (hr : ReadsTree sx.digit (sx.root tree text) es) (hw : Elems.Wf es) (hu : .use u ∈ es) (hvar : u.mark = .variable)
    (h1 : u.root.start ≤ toPoint pos) (h2 : toPoint pos < u.root.stop)
    (hfirst : ∀ b ∈ Items.bindings (env.rootEnd tree) 0 is, b.name = u.root.text → u.root.start < b.stop)
    (hel : ∀ file v, ¬ Elsewhere s.files uri u.root.text file v) :
    s.handle (env.over sx) w (.hover uri pos) = .ok (s, [], .hover none) := by
  have := C83_hover_elsewhere env sx w s uri text tree is es u pos hx h hs hl hr hw hu hvar h1 h2 (fun b hb hi =>
    Point.lt_irrefl _ (Point.lt_of_lt_of_le (hfirst b hb hi.2.1) hi.2.2.1))
  rw [if_neg (fun ⟨file, v, hx⟩ => hel file v hx)] at this
  exact this

/-- … and on a later one it shows the kind of an earlier one: a binding of the name that starts before it. -/
theorem C138_shadowed_refuted (env : Env) (sx : Syntax) (w : World) (s : Server) (uri text : Str) (tree : Tree) (is : List Item) (es : List Elem) (u : Use)
    (pos : Position) (hx : fileExt uri = some .template) (h : Spec.Analysed env s.files uri text tree is) (hs : WellFormed (sx.root tree text))
    (hl : Laid (sx.root tree text)) (hr : ReadsTree sx.digit (sx.root tree text) es) (hw : Elems.Wf es) (hu : .use u ∈ es) (hvar : u.mark = .variable)
    (h1 : u.root.start ≤ toPoint pos) (h2 : toPoint pos < u.root.stop) (k : IdType)
    (hk : ∀ b ∈ Items.bindings (env.rootEnd tree) 0 is, InForce u.root.text u.root.start b → b.kind = k)
    (hex : ∃ b ∈ Items.bindings (env.rootEnd tree) 0 is, InForce u.root.text u.root.start b) :
    s.handle (env.over sx) w (.hover uri pos) = .ok (s, [], .hover (some (kindText k))) ∧
      ∀ b ∈ Items.bindings (env.rootEnd tree) 0 is, NameOf u b → ¬ InForce u.root.text u.root.start b := by
  obtain ⟨b, k1, k2, _, k3⟩ := C83_hover env sx w s uri text tree is es u pos hx h hs hl hr hw hu hvar h1 h2 hex
  refine ⟨hk b k1 k2 ▸ k3, fun b' _ hn hi => ?_⟩
  exact Point.lt_irrefl _ (Point.lt_of_lt_of_le (use_spans hw hu) (hn.2.2 ▸ hi.2.2.1))

/-! ### Examples -/

local macro "regular" : term =>
  `((⟨⟨by decide +kernel, by decide +kernel, by decide +kernel⟩, ⟨by decide +kernel, by decide +kernel, by decide +kernel, by decide +kernel⟩,
    by unfold Legible; decide +kernel, by unfold HasError; decide +kernel, by decide +kernel, by decide +kernel, by decide +kernel⟩ : Regular _))

local macro "both" : term =>
  `((⟨regular, regular, Fix.readTags_sound rfl, Fix.readTags_sound rfl, ⟨Fix.plainElems_read rfl, Fix.elems_wf_of (by decide +kernel)⟩,
    ⟨Fix.plainElems_read rfl, Fix.elems_wf_of (by decide +kernel)⟩, Fix.uses_mem (by decide +kernel), Fix.uses_mem (by decide +kernel), _, _, _, _,
    ⟨⟨.didOpen Fix.uriA [], _, .opened _, rfl⟩, by decide, rfl, rfl⟩, ⟨⟨.didOpen Fix.uriA c!"n", _, .opened _, rfl⟩, by decide, rfl, rfl⟩⟩ : Fix.Both _ _ _))

namespace Fix

/-- ```
{% for a in y %}
{% set a = 1 %}
{% endfor %}
``` -/
def againP : Program :=
  .loop (tagOn 0) (tk 0 1 c!"for") (tk 0 2 c!"a") [] [.name (tk 0 4 c!"y")] (.set (tagOn 1) (tk 1 1 c!"set") (tk 1 2 c!"a") [.eq (tk 1 3 c!"=")] .done)
    (endOn 2 c!"endfor") .done

end Fix

/-- `b` in `{{ b }}` leads to `{% set b = 1 %}`, which leads to itself; hovering it there shows nothing -/
example : ∃ s : Server, ∃ r : Range,
    s.handle (Fix.envTwo.over (Fix.synOf Fix.looseP Fix.loopedP)) Fix.emptyWorld (.goto Fix.uriA ⟨5, 11⟩) = .ok (s, [], .goto (some (.scalar ⟨Fix.uriA, r⟩))) ∧
    s.handle (Fix.envTwo.over (Fix.synOf Fix.looseP Fix.loopedP)) Fix.emptyWorld (.goto Fix.uriA r.start) = .ok (s, [], .goto (some (.scalar ⟨Fix.uriA, r⟩))) ∧
    s.handle (Fix.envTwo.over (Fix.synOf Fix.looseP Fix.loopedP)) Fix.emptyWorld (.goto Fix.uriA ⟨0, 24⟩) =
      .ok (s, [], .goto (some (.scalar ⟨Fix.uriA, ⟨⟨0, 21⟩, ⟨0, 29⟩⟩⟩))) := by
  have B : Fix.Both Fix.looseP Fix.loopedP ⟨.variable, Fix.tk 5 1 c!"b", []⟩ := both
  have D : Fix.Both Fix.looseP Fix.loopedP ⟨.variable, Fix.tk 0 2 c!"b", []⟩ := both
  obtain ⟨s, _, hs, _⟩ := B.recorded
  have short : ∀ b ∈ Items.bindings (Fix.envTwo.rootEnd Fix.treeOne) 0 Fix.looseP.items, Short b := by unfold Short; decide +kernel
  have sep : ∀ b ∈ Items.bindings (Fix.envTwo.rootEnd Fix.treeOne) 0 Fix.looseP.items,
      Separate b (Items.bindings (Fix.envTwo.rootEnd Fix.treeOne) 0 Fix.looseP.items) := by unfold Separate; decide +kernel
  have only : ∀ b ∈ Items.bindings (Fix.envTwo.rootEnd Fix.treeOne) 0 Fix.looseP.items, b.name = c!"b" → b.start = ⟨0, 21⟩ ∧ b.stop = ⟨0, 29⟩ := by decide +kernel
  obtain ⟨r, k1, k2⟩ := C138_twice Fix.envTwo (Fix.synOf Fix.looseP Fix.loopedP) Fix.emptyWorld Fix.emptyWorld s Fix.uriA [] Fix.treeOne Fix.looseP.items
    (Fix.plainElems (Fix.drawRoot Fix.looseP)) ⟨.variable, Fix.tk 5 1 c!"b", []⟩ ⟨5, 11⟩ (by decide) hs B.one.formed B.one.laid B.reads.1 B.reads.2 B.use
    (by decide) (by decide) short (by unfold Reaches; decide +kernel)
    (fun b hb hn => ⟨sep b hb, ⟨.variable, Fix.tk 0 2 c!"b", []⟩, D.use, hn.symm, (only b hb hn).1.symm, (only b hb hn).2.symm⟩)
  have := C138_self Fix.envTwo (Fix.synOf Fix.looseP Fix.loopedP) Fix.emptyWorld s Fix.uriA [] Fix.treeOne Fix.looseP.items
    (Fix.plainElems (Fix.drawRoot Fix.looseP)) ⟨.variable, Fix.tk 0 2 c!"b", []⟩ ⟨0, 24⟩ (by decide) hs B.one.formed B.one.laid B.reads.1 B.reads.2 D.use
    (by decide) (by decide) short ((Fix.tk 0 2 c!"b").bind .setVariable (Fix.envTwo.rootEnd Fix.treeOne)) (by decide +kernel) ⟨rfl, rfl, rfl⟩ (by decide)
    (sep _ (by decide +kernel))
  exact ⟨s, r, k1, k2, this⟩

/-- hovering the first `b` where it is set shows nothing; on `a` in `{% set a = 1 %}` the kind of the loop variable is shown -/
example : (∃ s : Server, (∀ file v, ¬ Elsewhere s.files Fix.uriA c!"b" file v) ∧
      s.handle (Fix.envTwo.over (Fix.synOf Fix.looseP Fix.loopedP)) Fix.emptyWorld (.hover Fix.uriA ⟨0, 24⟩) = .ok (s, [], .hover none)) ∧
    ∃ s : Server, s.handle (Fix.envTwo.over (Fix.synOf Fix.againP Fix.againP)) Fix.emptyWorld (.hover Fix.uriA ⟨1, 24⟩) =
      .ok (s, [], .hover (some (kindText .forLoopKey))) := by
  constructor
  · have B : Fix.Both Fix.looseP Fix.loopedP ⟨.variable, Fix.tk 0 2 c!"b", []⟩ := both
    have main : ∃ s' : Server, ∃ out r, Fix.server.handle (Fix.envTwo.over (Fix.synOf Fix.looseP Fix.loopedP)) Fix.emptyWorld (.didOpen Fix.uriA []) = .ok (s', out, r) ∧
        (s'.files.documents.get? Fix.uriA = some [] ∧ (s'.files.trees .template).get? Fix.uriA = some Fix.treeOne) ∧
        (s'.files.variables.entries.all fun e => e.1 == Fix.uriA || e.2.all fun v => v.name.head? != some 'b') = true := ⟨_, _, _, rfl, ⟨rfl, rfl⟩, by decide +kernel⟩
    obtain ⟨s, out, r, h1, h2, h3⟩ := main
    have hs := C83_analysed Fix.envTwo (Fix.synOf Fix.looseP Fix.loopedP) Fix.emptyWorld Fix.server s (.didOpen Fix.uriA []) Fix.uriA [] Fix.treeOne out r
      Fix.looseP.items (.opened _) (by decide) h1 h2.1 h2.2 B.one.formed rfl B.tags
    have hel : ∀ file v, ¬ Elsewhere s.files Fix.uriA c!"b" file v := by
      rintro file v ⟨ne, vs, hv, hm', hf⟩
      have hm : (file, vs) ∈ s.files.variables.entries := (HMap.get?_eq_some_iff _ _ _).mp hv
      have h4 := List.all_eq_true.mp h3 _ hm
      rcases Bool.or_eq_true _ _ |>.mp h4 with h5 | h5
      · exact ne (by simpa using h5)
      · have h6 := List.all_eq_true.mp h5 _ hm'
        have : v.name.head? = some 'b' := by
          rcases hf.2 with e | ⟨t, e⟩ <;> rw [e] <;> rfl
        rw [this] at h6
        simp at h6
    exact ⟨s, hel, C138_hover_refuted Fix.envTwo (Fix.synOf Fix.looseP Fix.loopedP) Fix.emptyWorld s Fix.uriA [] Fix.treeOne Fix.looseP.items _
      ⟨.variable, Fix.tk 0 2 c!"b", []⟩ ⟨0, 24⟩ (by decide) hs B.one.formed B.one.laid B.reads.1 B.reads.2 B.use rfl (by decide) (by decide)
      (by decide +kernel) hel⟩
  · have B : Fix.Both Fix.againP Fix.againP ⟨.variable, Fix.tk 1 2 c!"a", []⟩ := both
    obtain ⟨s, _, hs, _⟩ := B.recorded
    exact ⟨s, (C138_shadowed_refuted Fix.envTwo (Fix.synOf Fix.againP Fix.againP) Fix.emptyWorld s Fix.uriA [] Fix.treeOne Fix.againP.items
      (Fix.plainElems (Fix.drawRoot Fix.againP)) ⟨.variable, Fix.tk 1 2 c!"a", []⟩ ⟨1, 24⟩ (by decide) hs B.one.formed B.one.laid B.reads.1 B.reads.2 B.use rfl
      (by decide) (by decide) .forLoopKey (by unfold InForce; decide +kernel) (by unfold InForce; decide +kernel)).1⟩

/-- the hypotheses of C138 hold at rest: `customer` is used behind its `set` -/
example : (∃ as σ s E text tree, Calm (· = Fix.rootWorld) Fix.showing Fix.synOn Fix.typing as σ s Fix.uriT E ∧ E Fix.uriT = some text ∧
      TextReads Fix.synOn s Fix.uriT text tree Fix.smallP.items (Fix.plainElems (Fix.drawRoot Fix.smallP)) ∧ Laid (Fix.synOn.root tree text)) ∧
    Sound (Fix.showing.over Fix.synOn) ∧ .use ⟨.variable, Fix.tk 1 2 c!"customer", []⟩ ∈ Fix.plainElems (Fix.drawRoot Fix.smallP) ∧
    .use ⟨.variable, Fix.tk 0 2 c!"customer", []⟩ ∈ Fix.plainElems (Fix.drawRoot Fix.smallP) ∧
    ∀ tree, (∃ b ∈ Items.bindings (Fix.showing.rootEnd tree) 0 Fix.smallP.items, Reaches c!"customer" (Fix.tk 1 2 c!"customer").start b) ∧
      (∃ b ∈ Items.bindings (Fix.showing.rootEnd tree) 0 Fix.smallP.items, NameOf ⟨.variable, Fix.tk 0 2 c!"customer", []⟩ b ∧
        (Fix.tk 0 2 c!"customer").start ≤ b.visibleTo) ∧
      ∀ b ∈ Items.bindings (Fix.showing.rootEnd tree) 0 Fix.smallP.items, Short b ∧ Separate b (Items.bindings (Fix.showing.rootEnd tree) 0 Fix.smallP.items) ∧
        (b.name = c!"customer" → NameOf ⟨.variable, Fix.tk 0 2 c!"customer", []⟩ b) := by
  refine ⟨?_, Fix.on_sound, Fix.uses_mem (by decide +kernel), Fix.uses_mem (by decide +kernel), fun tree => ?_⟩
  · obtain ⟨as, σ, s, E, tree, h1, h2, h3⟩ := Fix.on_first
    exact ⟨as, σ, s, E, _, tree, h1, h2, ⟨h3, (⟨by decide +kernel, by decide +kernel, by decide +kernel⟩ : WellFormed (Fix.drawRoot Fix.smallP)), rfl,
      (Fix.readTags_sound rfl : Tags Fix.digit (Fix.draw Fix.smallP) Fix.smallP.items),
      (Fix.plainElems_read rfl : ReadsTree Fix.digit (Fix.drawRoot Fix.smallP) _), Fix.elems_wf_of (by decide +kernel)⟩,
      (⟨by decide +kernel, by decide +kernel, by decide +kernel, by decide +kernel⟩ : Laid (Fix.drawRoot Fix.smallP))⟩
  · show (∃ b ∈ Items.bindings ⟨9, 9⟩ 0 _, Reaches _ _ b) ∧ (∃ b ∈ Items.bindings ⟨9, 9⟩ 0 _, NameOf _ b ∧ _ ≤ b.visibleTo) ∧
      ∀ b ∈ Items.bindings ⟨9, 9⟩ 0 _, Short b ∧ Separate b (Items.bindings ⟨9, 9⟩ 0 _) ∧ (_ → NameOf _ b)
    unfold Reaches NameOf Short Separate
    decide +kernel

end JinjaLsp
