import Verif.Props.Scoping
import Verif.Props.Offered
/-
  C122: completion against Jinja's scoping rules (Spec/Jinja.lean).
-/

namespace JinjaLsp
open Spec

namespace Spec

/-- The cursor is on the evaluated name `t` of an expression `{{ … }}` or behind it, and no token is between them.  -/
structure Follows (p : Program) (t : Tok) (q : Point) : Prop where
  output : t ∉ p.tagged
  after : t.start ≤ q
  next : ∀ k ∈ p.toks, t.stop ≤ k.start → q ≤ k.start

/-- The cursor is in a name that is used inside an expression `{{ … }}`, after the characters `typed`.  (No other name or operator begins at the
cursor.) -/
structure TypedUse (digit : Char → Bool) (root : Syn) (u : Use) (pos : Position) (typed : Str) : Prop where
  started : typed ≠ []
  part : typed <+: u.root.text
  span : u.root.stop = ⟨u.root.start.row, u.root.start.column + utf8Len u.root.text⟩
  cursor : toPoint pos = ⟨u.root.start.row, u.root.start.column + utf8Len typed⟩
  next : ∀ n ∈ root.flat, Relevant digit n → u.root.stop ≤ n.start → toPoint pos < n.start
  inside : ∃ e ∈ root.flat, e.kind = .expression ∧ e.first.2 ≤ u.root.start ∧ e.start ≤ u.root.start ∧ toPoint pos < e.stop

/-- the answer to a completion request, apart from the variables of backend files -/
def Offers (env : Env) (w : World) (s : Server) (uri : Str) (pos : Position) (tr : TriggerKind) (ns : Str → Prop) : Prop :=
  ∃ own rest, s.handle env w (.completion uri pos tr) = .ok (s, [], .completion (some (own ++ rest))) ∧
    (own.map (·.label)).Nodup ∧ (∀ n, n ∈ own.map (·.label) ↔ ns n) ∧ ∀ n, n ∈ rest.map (·.label) ↔ BackendName s.files n

end Spec

/-- the recorded bindings in force at the cursor are those visible under Jinja's rules -/
theorem Spec.AsProgram.in_force {env : Env} {sx : Syntax} {text : Str} {tree : Tree} {p : Program} {es : List Elem} {ss : List ImpStmt}
    (h : AsProgram env sx text tree p es ss) (hq : p.Simple)
    {t : Tok} {v : List Bound} (ht : (t, v) ∈ p.sees [] []) {q : Point} (hf : Follows p t q) (hl : q ≤ env.rootEnd tree) (n : Str) :
    (∃ b ∈ Items.bindings (env.rootEnd tree) 0 p.items, InForce n q b ∧ b.kind ≠ .jinjaTemplate) ↔ ∃ x ∈ v, x.Lexical ∧ x.tok.text = n := by
  constructor
  · rintro ⟨b, hb, ⟨h1, h2, h3, h4⟩, h5⟩
    have hs : b.start ≤ t.stop := by
      obtain ⟨k, hk, e1, e2⟩ := h.token hb
      rw [e1]
      have hk' := h.laid.spans k hk
      rcases h.laid.apart (sees_toks ht) hk with rfl | h6 | h6
      · exact Point.le_of_lt hk'
      · exact absurd (Point.lt_of_lt_of_le (Point.lt_of_le_of_lt (hf.next k hk h6) hk') (e2 ▸ h3)) (Point.lt_irrefl _)
      · exact Point.le_trans (Point.le_of_lt hk') (Point.le_trans h6 (Point.le_of_lt (h.spans ht)))
    rcases simple_sees (· ∈ p.tagged) hq (fun _ h => h) h.laid ht hb ⟨hs, .inl (Point.le_trans hf.after h4)⟩ with h6 | ⟨x, hx, hxl, h6⟩ | ⟨_, h6⟩
    · exact (h1 h6).elim
    · exact ⟨x, hx, hxl, by rw [h6] at h2; exact h2⟩
    · exact (hf.output h6).elim
  · rintro ⟨x, hx, hxl, hn⟩
    obtain ⟨e, h1, h2, ⟨h3, h4⟩, h5⟩ := h.recorded (simple_paired hq) ht hxl hx
    refine ⟨_, h1, ⟨h2, hn, Point.le_trans h4 hf.after, ?_⟩, binding_kind h1⟩
    rcases bindings_scope h1 with h6 | ⟨k, hk, h6⟩
    · rw [h6]; exact hl
    · rw [h6]; exact hf.next k.d.opening (closing_toks hk) (show t.stop ≤ k.start from h6 ▸ h5)

theorem Spec.TypedUse.from {digit : Char → Bool} {root : Syn} {u : Use} {pos : Position} {typed : Str} (h : TypedUse digit root u pos typed) :
    u.root.start < toPoint pos ∧ toPoint pos ≤ u.root.stop := by
  obtain ⟨untyped, hn⟩ := h.part
  have := utf8Len_pos h.started
  rw [h.cursor, h.span, Point.lt_def, Point.le_def]
  refine ⟨.inr ⟨rfl, ?_⟩, .inr ⟨rfl, ?_⟩⟩
  · show u.root.start.column < u.root.start.column + _; omega
  · show u.root.start.column + _ ≤ u.root.start.column + _
    rw [← hn, utf8Len_append]; omega

/-- what is offered while a name is typed: the names of the recorded bindings in force -/
theorem Spec.AsProgram.offers {env : Env} {sx : Syntax} {text : Str} {tree : Tree} {p : Program} {es : List Elem} {ss : List ImpStmt}
    (h : AsProgram env sx text tree p es ss) {uri : Str} {s' : Server}
    (hft : fileExt uri = some .template) (ha : Spec.Analysed env s'.files uri text tree p.items) (hr : Regular (sx.root tree text))
    {u : Use} (hu : .use u ∈ es) {pos : Position} {typed : Str} (ht : TypedUse sx.digit (sx.root tree text) u pos typed) (w' : World) {tr : TriggerKind}
    (htr : Requested tr) : Offers (env.over sx) w' s' uri pos tr fun n =>
      (∃ b ∈ Items.bindings (env.rootEnd tree) 0 p.items, InForce n (toPoint pos) b) ∧ typed <+: n := by
  obtain ⟨untyped, hn⟩ := ht.part
  obtain ⟨e, he, hek, he1, he2, he3⟩ := ht.inside
  obtain ⟨own, rest, k1, k2, k3, k4⟩ := C86_typed env sx w' s' uri text tree p.items es pos tr htr hft ha hr h.uses h.usesWf u hu
    typed untyped hn.symm ht.started ht.span ht.cursor ht.next e he hek he1 he2 he3
  refine ⟨own, rest, k1, k2, fun n => ?_, k4⟩
  rw [k3 n]
  exact and_congr_left fun _ => ⟨fun ⟨b, hb, hf, _⟩ => ⟨b, hb, hf⟩, fun ⟨b, hb, hf⟩ => ⟨b, hb, hf, binding_kind hb⟩⟩

/-! ### Examples -/

namespace Fix

/-- ```
{% set customer = 1 %}
{% for products in customer %}
{{ a customer b  }}
{% endfor %}
``` -/
def typedP : Program :=
  .set (tagOn 0) (tk 0 1 c!"set") (tk 0 2 c!"customer") [.eq (tk 0 3 c!"=")]
    (.loop (tagOn 1) (tk 1 1 c!"for") (tk 1 2 c!"products") [] [.name (tk 1 4 c!"customer")]
      (.out [.name (tk 2 1 c!"a"), .name (tk 2 2 c!"customer"), .name (tk 2 3 c!"b")] [] .done) (endOn 3 c!"endfor") .done)

/-- the cursor in the second name on line `r` -/
theorem typedUse {root : Syn} {r : Nat} {n typed : Str} (h1 : typed ≠ []) (h2 : typed <+: n) (h3 : utf8Len n = 8)
    (h4 : ∀ m ∈ root.flat, (⟨r, 29⟩ : Point) ≤ m.start → (⟨r, 21 + utf8Len typed⟩ : Point) < m.start)
    (h5 : ∃ e ∈ root.flat, e.kind = .expression ∧ e.first.2 ≤ ⟨r, 21⟩ ∧ e.start ≤ ⟨r, 21⟩ ∧ (⟨r, 21 + utf8Len typed⟩ : Point) < e.stop) :
    TypedUse digit root ⟨.variable, tk r 2 n, []⟩ ⟨r, 21 + utf8Len typed⟩ typed :=
  ⟨h1, h2, by show (⟨r, 29⟩ : Point) = ⟨r, 21 + utf8Len n⟩; rw [h3], rfl, fun m hm _ h => h4 m hm h, h5⟩

end Fix

/-- the template of the example, drawn and opened -/
local macro "drawn" : term =>
  `(Fix.shown ⟨by decide +kernel, by decide +kernel, by decide +kernel⟩ rfl rfl (by decide +kernel) rfl ⟨by decide +kernel, by decide +kernel, by decide +kernel⟩
    ⟨by decide +kernel, by decide +kernel, by decide +kernel⟩ ⟨_, _, _, rfl, rfl, rfl⟩)

local macro "regular" : term =>
  `((⟨⟨by decide +kernel, by decide +kernel, by decide +kernel⟩, ⟨by decide +kernel, by decide +kernel, by decide +kernel, by decide +kernel⟩,
    by unfold Legible; decide +kernel, by unfold HasError; decide +kernel, by decide +kernel, by decide +kernel, by decide +kernel⟩ : Regular _))

/-! ## C122 -/

/-- completion in a name, once the template has been analysed -/
theorem Spec.AsProgram.typed {env : Env} {sx : Syntax} {text : Str} {tree : Tree} {p : Program} {es : List Elem} {ss : List ImpStmt}
    (h : AsProgram env sx text tree p es ss) {uri : Str} {s' : Server}
    (hft : fileExt uri = some .template) (ha : Spec.Analysed env s'.files uri text tree p.items) (w' : World)
    (hq : p.Simple) (hr : Regular (sx.root tree text)) (u : Use) (hu : .use u ∈ es) (visible : List Bound)
    (hs : (u.root, visible) ∈ p.sees [] []) (ho : u.root ∉ p.tagged) (pos : Position) (typed : Str)
    (ht : TypedUse sx.digit (sx.root tree text) u pos typed) (tr : TriggerKind) (htr : Requested tr) :
    Offers (env.over sx) w' s' uri pos tr fun n => (∃ x ∈ visible, x.Lexical ∧ x.tok.text = n) ∧ typed <+: n := by
  obtain ⟨own, rest, k1, k2, k3, k4⟩ := h.offers hft ha hr hu ht w' htr
  refine ⟨own, rest, k1, k2, fun n => ?_, k4⟩
  have hf : Follows p u.root (toPoint pos) :=
    ⟨ho, Point.le_of_lt ht.from.1, fun _ _ h => Point.le_trans ht.from.2 h⟩
  show _ ↔ (∃ x ∈ visible, x.Lexical ∧ x.tok.text = n) ∧ typed <+: n
  rw [k3 n, ← h.in_force hq hs hf (Point.le_trans ht.from.2 (h.laid.last _ (sees_toks hs)))]
  exact and_congr_left fun _ => ⟨fun ⟨b, hb, hf⟩ => ⟨b, hb, hf, binding_kind hb⟩, fun ⟨b, hb, hf, _⟩ => ⟨b, hb, hf⟩⟩

/-- **C122** (part) With the cursor after the characters `typed` of a name inside `{{ … }}`, the names that are bound where Jinja evaluates it and begin
with these characters are offered, each once, besides the variables of backend files.  Missing: the bindings and templates excluded in C120, for
which the claim is false (below). -/
theorem C122_typed_partial (env : Env) (sx : Syntax) (w w' : World) (s s' : Server) (m : Msg) (uri text : Str) (tree : Tree) (out : List Send)
    (r : Reply) (p : Program) (es : List Elem) (ss : List ImpStmt) (h : Shown env sx w s s' m uri text tree out r p es ss)
    (hq : p.Simple) (hr : Regular (sx.root tree text)) (u : Use) (hu : .use u ∈ es) (visible : List Bound)
    (hs : (u.root, visible) ∈ p.sees [] []) (ho : u.root ∉ p.tagged) (pos : Position) (typed : Str)
    (ht : TypedUse sx.digit (sx.root tree text) u pos typed) (tr : TriggerKind) (htr : Requested tr) :
    Offers (env.over sx) w' s' uri pos tr fun n => (∃ x ∈ visible, x.Lexical ∧ x.tok.text = n) ∧ typed <+: n :=
  h.typed h.template h.analysed w' hq hr u hu visible hs ho pos typed ht tr htr

/-- `{{ a cust|omer b }}` in the loop: `customer` is offered, `products` is not -/
example : Fix.Opens Fix.typedP [] (Fix.tk 2 2 c!"customer") ∧ Fix.typedP.Simple ∧ Regular (Fix.drawRoot Fix.typedP) ∧
    Fix.tk 2 2 c!"customer" ∉ Fix.typedP.tagged ∧
    TypedUse Fix.digit (Fix.drawRoot Fix.typedP) ⟨.variable, Fix.tk 2 2 c!"customer", []⟩ ⟨2, 21 + utf8Len c!"cust"⟩ c!"cust" ∧
    ∃ v, (Fix.tk 2 2 c!"customer", v) ∈ Fix.typedP.sees [] [] ∧ (∃ x ∈ v, x.Lexical ∧ x.tok.text = c!"customer") ∧ ∃ x ∈ v, x.Lexical ∧ x.tok.text = c!"products" := by
  refine ⟨⟨drawn, Fix.uses_mem (by decide +kernel)⟩, ⟨by decide +kernel, by decide +kernel, rfl, trivial, trivial⟩, regular,
    by decide +kernel, Fix.typedUse (by decide) (by decide) (by decide) (by decide +kernel) (by decide +kernel),
    [⟨Fix.tk 1 2 c!"products", .forLoopKey, false⟩, ⟨Fix.tk 0 2 c!"customer", .setVariable, false⟩], by decide +kernel, by decide +kernel, by decide +kernel⟩

/-- completion behind a name, once the template has been analysed -/
theorem Spec.AsProgram.behind {env : Env} {sx : Syntax} {text : Str} {tree : Tree} {p : Program} {es : List Elem} {ss : List ImpStmt}
    (h : AsProgram env sx text tree p es ss) {uri : Str} {s' : Server}
    (hft : fileExt uri = some .template) (ha : Spec.Analysed env s'.files uri text tree p.items) (w' : World)
    (hq : p.Simple) (hr : Regular (sx.root tree text)) (t : Tok) (visible : List Bound) (hs : (t, visible) ∈ p.sees [] []) (pos : Position)
    (hf : Follows p t (toPoint pos)) (hl : toPoint pos ≤ env.rootEnd tree) (tr : TriggerKind) (htr : Requested tr)
    (hb : Beside sx.digit (sx.root tree text) (toPoint pos)) (hpipe : ∀ k ∈ (sx.root tree text).flat, IsPipe k → ¬ Touches (toPoint pos) k)
    (hin : ∃ e ∈ (sx.root tree text).flat, Within (toPoint pos) e) :
    Offers (env.over sx) w' s' uri pos tr fun n => ∃ x ∈ visible, x.Lexical ∧ x.tok.text = n := by
  obtain ⟨own, rest, k1, k2, k3, k4⟩ := C86_names env sx w' s' uri text tree p.items pos tr htr hft ha hr hb hpipe hin
  exact ⟨own, rest, k1, k2, fun n => by rw [k3 n, h.in_force hq hs hf hl], k4⟩

/-- **C122** (part) With the cursor behind an evaluated name in an expression `{{ … }}`, beside all names and pipes, with no token in between, the
names that are bound where Jinja evaluates it are offered, each once, besides the variables of backend files.  Missing: as above. -/
theorem C122_behind_partial (env : Env) (sx : Syntax) (w w' : World) (s s' : Server) (m : Msg) (uri text : Str) (tree : Tree) (out : List Send)
    (r : Reply) (p : Program) (es : List Elem) (ss : List ImpStmt) (h : Shown env sx w s s' m uri text tree out r p es ss)
    (hq : p.Simple) (hr : Regular (sx.root tree text)) (t : Tok) (visible : List Bound) (hs : (t, visible) ∈ p.sees [] []) (pos : Position)
    (hf : Follows p t (toPoint pos)) (hl : toPoint pos ≤ env.rootEnd tree) (tr : TriggerKind) (htr : Requested tr)
    (hb : Beside sx.digit (sx.root tree text) (toPoint pos)) (hpipe : ∀ k ∈ (sx.root tree text).flat, IsPipe k → ¬ Touches (toPoint pos) k)
    (hin : ∃ e ∈ (sx.root tree text).flat, Within (toPoint pos) e) :
    Offers (env.over sx) w' s' uri pos tr fun n => ∃ x ∈ visible, x.Lexical ∧ x.tok.text = n :=
  h.behind h.template h.analysed w' hq hr t visible hs pos hf hl tr htr hb hpipe hin

/-- `{{ a| customer b }}` in the loop: both are offered -/
example : Fix.Opens Fix.typedP [] (Fix.tk 2 1 c!"a") ∧ Fix.typedP.Simple ∧ Regular (Fix.drawRoot Fix.typedP) ∧
    Follows Fix.typedP (Fix.tk 2 1 c!"a") (toPoint ⟨2, 20⟩) ∧ toPoint ⟨2, 20⟩ ≤ Fix.env.rootEnd Fix.drawTree ∧
    Beside Fix.digit (Fix.drawRoot Fix.typedP) (toPoint ⟨2, 20⟩) ∧ (∀ k ∈ (Fix.drawRoot Fix.typedP).flat, IsPipe k → ¬ Touches (toPoint ⟨2, 20⟩) k) ∧
    (∃ e ∈ (Fix.drawRoot Fix.typedP).flat, Within (toPoint ⟨2, 20⟩) e) ∧
    ∃ v, (Fix.tk 2 1 c!"a", v) ∈ Fix.typedP.sees [] [] ∧ (∃ x ∈ v, x.Lexical ∧ x.tok.text = c!"customer") ∧ ∃ x ∈ v, x.Lexical ∧ x.tok.text = c!"products" := by
  refine ⟨⟨drawn, Fix.uses_mem (by decide +kernel)⟩, ⟨by decide +kernel, by decide +kernel, rfl, trivial, trivial⟩, regular,
    ⟨by decide +kernel, by decide, by decide +kernel⟩, by decide +kernel, ⟨by decide, ?_⟩, ?_, by unfold Within; decide +kernel,
    [⟨Fix.tk 1 2 c!"products", .forLoopKey, false⟩, ⟨Fix.tk 0 2 c!"customer", .setVariable, false⟩], by decide +kernel, by decide +kernel, by decide +kernel⟩
  · intro n hn h
    replace h := h.kind
    revert h
    revert n
    unfold Touches
    decide +kernel
  · intro n hn h
    replace h := h.1
    revert h
    revert n
    unfold Touches
    decide +kernel

/-! ### Names not offered -/

/-- **C122** is false for names bound in an `if`: in `{% if c %}{% set x = 1 %}{% endif %}{{ a x b }}` the name `x` is not offered. -/
theorem C122_if_refuted (env : Env) (sx : Syntax) (w w' : World) (s s' : Server) (m : Msg) (uri text : Str) (tree : Tree) (out : List Send)
    (r : Reply) (es : List Elem) (ss : List ImpStmt) (d d1 : Delims) (kw kw1 x a t b : Tok) (ts us : List HTok) (e : EndTag)
    (h : Shown env sx w s s' m uri text tree out r (.cond d kw ts (.set d1 kw1 x us .done) e (.out [.name a, .name t, .name b] [] .done)) es ss)
    (hr : Regular (sx.root tree text)) (hu : .use ⟨.variable, t, []⟩ ∈ es)
    (pos : Position) (typed : Str) (ht : TypedUse sx.digit (sx.root tree text) ⟨.variable, t, []⟩ pos typed) (tr : TriggerKind) (htr : Requested tr) (hn : x.text = t.text) :
    (∃ v, (t, v) ∈ Program.sees [] [] (.cond d kw ts (.set d1 kw1 x us .done) e (.out [.name a, .name t, .name b] [] .done)) ∧ IsBound v t) ∧
      ∃ ns, Offers (env.over sx) w' s' uri pos tr ns ∧ ¬ ns t.text := by
  refine ⟨⟨[⟨x, .setVariable, true⟩], by simp [Program.sees, evaluated, names, Program.binds], _, List.mem_cons_self, hn⟩, _, h.offers h.template h.analysed hr hu ht w' htr, ?_⟩
  rintro ⟨⟨b, hb, _, _, _, h4⟩, _⟩
  have hb : b ∈ [x.bind .setVariable e.d.opening.start] := hb
  cases List.mem_singleton.mp hb
  exact h.laid.gone (k := d.opening) (t := t) List.mem_cons_self (by simp [Program.toks, HTok.tok]) (.inl (Point.lt_of_lt_of_le ht.from.1 h4))

example : Fix.Opens (.cond (Fix.tagOn 0) (Fix.tk 0 1 c!"if") [.name (Fix.tk 0 2 c!"c")] (.set (Fix.tagOn 1) (Fix.tk 1 1 c!"set") (Fix.tk 1 2 c!"customer") [.eq (Fix.tk 1 3 c!"=")] .done)
      (Fix.endOn 2 c!"endif") (.out [.name (Fix.tk 3 1 c!"a"), .name (Fix.tk 3 2 c!"customer"), .name (Fix.tk 3 3 c!"b")] [] .done))
    [] (Fix.tk 3 2 c!"customer") ∧ Regular (Fix.drawRoot (.cond (Fix.tagOn 0) (Fix.tk 0 1 c!"if") [.name (Fix.tk 0 2 c!"c")] (.set (Fix.tagOn 1) (Fix.tk 1 1 c!"set") (Fix.tk 1 2 c!"customer") [.eq (Fix.tk 1 3 c!"=")] .done)
      (Fix.endOn 2 c!"endif") (.out [.name (Fix.tk 3 1 c!"a"), .name (Fix.tk 3 2 c!"customer"), .name (Fix.tk 3 3 c!"b")] [] .done))) ∧
    TypedUse Fix.digit (Fix.drawRoot (.cond (Fix.tagOn 0) (Fix.tk 0 1 c!"if") [.name (Fix.tk 0 2 c!"c")] (.set (Fix.tagOn 1) (Fix.tk 1 1 c!"set") (Fix.tk 1 2 c!"customer") [.eq (Fix.tk 1 3 c!"=")] .done)
      (Fix.endOn 2 c!"endif") (.out [.name (Fix.tk 3 1 c!"a"), .name (Fix.tk 3 2 c!"customer"), .name (Fix.tk 3 3 c!"b")] [] .done)))
      ⟨.variable, Fix.tk 3 2 c!"customer", []⟩ ⟨3, 21 + utf8Len c!"cust"⟩ c!"cust" :=
  ⟨⟨drawn, Fix.uses_mem (by decide +kernel)⟩, regular, Fix.typedUse (by decide) (by decide) (by decide) (by decide +kernel) (by decide +kernel)⟩

/-- **C122** is false for imported names: in `{% import "m.html" as x %}{{ a x b }}` the name `x` is not offered. -/
theorem C122_import_refuted (env : Env) (sx : Syntax) (w w' : World) (s s' : Server) (m : Msg) (uri text : Str) (tree : Tree) (out : List Send)
    (r : Reply) (es : List Elem) (ss : List ImpStmt) (d : Delims) (x a t b : Tok) (ts : List HTok)
    (h : Shown env sx w s s' m uri text tree out r (.import_ d ts [x] (.out [.name a, .name t, .name b] [] .done)) es ss)
    (hr : Regular (sx.root tree text)) (hu : .use ⟨.variable, t, []⟩ ∈ es)
    (pos : Position) (typed : Str) (ht : TypedUse sx.digit (sx.root tree text) ⟨.variable, t, []⟩ pos typed) (tr : TriggerKind) (htr : Requested tr) (hn : x.text = t.text) :
    (∃ v, (t, v) ∈ Program.sees [] [] (.import_ d ts [x] (.out [.name a, .name t, .name b] [] .done)) ∧ IsBound v t) ∧
      ∃ ns, Offers (env.over sx) w' s' uri pos tr ns ∧ ¬ ns t.text := by
  refine ⟨⟨[⟨x, .jinjaTemplate, false⟩], by simp [Program.sees, evaluated, names, Program.binds], _, List.mem_cons_self, hn⟩, _, h.offers h.template h.analysed hr hu ht w' htr, ?_⟩
  rintro ⟨⟨b, hb, _⟩, _⟩
  cases hb

example : Fix.Opens (.import_ (Fix.tagOn 0) [.name (Fix.tk 0 2 c!"customer")] [Fix.tk 0 2 c!"customer"] (.out [.name (Fix.tk 1 1 c!"a"), .name (Fix.tk 1 2 c!"customer"), .name (Fix.tk 1 3 c!"b")] [] .done))
    [.import_ ⟨⟨0, 1⟩, ⟨0, 209⟩, [], 1001⟩ ⟨⟨0, 9⟩, ⟨0, 10⟩, c!"import", 3001⟩ ⟨⟨0, 10⟩, ⟨0, 11⟩, c!"\"m.html\"", 4001⟩ [[]]] (Fix.tk 1 2 c!"customer") ∧ Regular (Fix.drawRoot (.import_ (Fix.tagOn 0) [.name (Fix.tk 0 2 c!"customer")] [Fix.tk 0 2 c!"customer"] (.out [.name (Fix.tk 1 1 c!"a"), .name (Fix.tk 1 2 c!"customer"), .name (Fix.tk 1 3 c!"b")] [] .done))) ∧
    TypedUse Fix.digit (Fix.drawRoot (.import_ (Fix.tagOn 0) [.name (Fix.tk 0 2 c!"customer")] [Fix.tk 0 2 c!"customer"] (.out [.name (Fix.tk 1 1 c!"a"), .name (Fix.tk 1 2 c!"customer"), .name (Fix.tk 1 3 c!"b")] [] .done)))
      ⟨.variable, Fix.tk 1 2 c!"customer", []⟩ ⟨1, 21 + utf8Len c!"cust"⟩ c!"cust" :=
  ⟨⟨drawn, Fix.uses_mem (by decide +kernel)⟩, regular, Fix.typedUse (by decide) (by decide) (by decide) (by decide +kernel) (by decide +kernel)⟩

/-- **C122** is false for the second target of a loop: in `{% for k, x in y %}{{ a x b }}{% endfor %}` the name `x` is not offered. -/
theorem C122_target_refuted (env : Env) (sx : Syntax) (w w' : World) (s s' : Server) (m : Msg) (uri text : Str) (tree : Tree) (out : List Send)
    (r : Reply) (es : List Elem) (ss : List ImpStmt) (d : Delims) (kw k x a t b : Tok) (ts : List HTok) (e : EndTag)
    (h : Shown env sx w s s' m uri text tree out r (.loop d kw k [x] ts (.out [.name a, .name t, .name b] [] .done) e .done) es ss)
    (hr : Regular (sx.root tree text)) (hu : .use ⟨.variable, t, []⟩ ∈ es)
    (pos : Position) (typed : Str) (ht : TypedUse sx.digit (sx.root tree text) ⟨.variable, t, []⟩ pos typed) (tr : TriggerKind) (htr : Requested tr) (hn : x.text = t.text) (hk : k.text ≠ t.text) :
    (∃ v, (t, v) ∈ Program.sees [] [] (.loop d kw k [x] ts (.out [.name a, .name t, .name b] [] .done) e .done) ∧ IsBound v t) ∧
      ∃ ns, Offers (env.over sx) w' s' uri pos tr ns ∧ ¬ ns t.text := by
  refine ⟨⟨[⟨x, .forLoopValue, false⟩, ⟨k, .forLoopKey, false⟩], by simp [Program.sees, evaluated, names, Program.binds], _, List.mem_cons_self, hn⟩, _, h.offers h.template h.analysed hr hu ht w' htr, ?_⟩
  rintro ⟨⟨b, hb, _, hbn, _⟩, _⟩
  have hb : b ∈ [k.bind .forLoopKey e.d.opening.start] := hb
  cases List.mem_singleton.mp hb
  exact hk hbn

example : Fix.Opens (.loop (Fix.tagOn 0) (Fix.tk 0 1 c!"for") (Fix.tk 0 2 c!"k") [Fix.tk 0 3 c!"customer"] [.name (Fix.tk 0 5 c!"y")] (.out [.name (Fix.tk 1 1 c!"a"), .name (Fix.tk 1 2 c!"customer"), .name (Fix.tk 1 3 c!"b")] [] .done)
      (Fix.endOn 2 c!"endfor") .done)
    [] (Fix.tk 1 2 c!"customer") ∧ Regular (Fix.drawRoot (.loop (Fix.tagOn 0) (Fix.tk 0 1 c!"for") (Fix.tk 0 2 c!"k") [Fix.tk 0 3 c!"customer"] [.name (Fix.tk 0 5 c!"y")] (.out [.name (Fix.tk 1 1 c!"a"), .name (Fix.tk 1 2 c!"customer"), .name (Fix.tk 1 3 c!"b")] [] .done)
      (Fix.endOn 2 c!"endfor") .done)) ∧
    TypedUse Fix.digit (Fix.drawRoot (.loop (Fix.tagOn 0) (Fix.tk 0 1 c!"for") (Fix.tk 0 2 c!"k") [Fix.tk 0 3 c!"customer"] [.name (Fix.tk 0 5 c!"y")] (.out [.name (Fix.tk 1 1 c!"a"), .name (Fix.tk 1 2 c!"customer"), .name (Fix.tk 1 3 c!"b")] [] .done)
      (Fix.endOn 2 c!"endfor") .done))
      ⟨.variable, Fix.tk 1 2 c!"customer", []⟩ ⟨1, 21 + utf8Len c!"cust"⟩ c!"cust" :=
  ⟨⟨drawn, Fix.uses_mem (by decide +kernel)⟩, regular, Fix.typedUse (by decide) (by decide) (by decide) (by decide +kernel) (by decide +kernel)⟩

/-! ### Names offered although they are not bound -/

/-- **C122** is false after a loop with `else`: in `{% for x in y %}{% else %}{% endfor %}{{ a x b }}` the name `x` is offered. -/
theorem C122_else_refuted (env : Env) (sx : Syntax) (w w' : World) (s s' : Server) (m : Msg) (uri text : Str) (tree : Tree) (out : List Send)
    (r : Reply) (es : List Elem) (ss : List ImpStmt) (d d1 : Delims) (kw kw1 x a t b : Tok) (ts us : List HTok) (e : EndTag)
    (h : Shown env sx w s s' m uri text tree out r (.loop d kw x [] ts (.branch d1 kw1 us .done) e (.out [.name a, .name t, .name b] [] .done)) es ss)
    (hr : Regular (sx.root tree text)) (hu : .use ⟨.variable, t, []⟩ ∈ es)
    (pos : Position) (typed : Str) (ht : TypedUse sx.digit (sx.root tree text) ⟨.variable, t, []⟩ pos typed) (tr : TriggerKind) (htr : Requested tr) (hn : x.text = t.text) :
    (∃ v, (t, v) ∈ Program.sees [] [] (.loop d kw x [] ts (.branch d1 kw1 us .done) e (.out [.name a, .name t, .name b] [] .done)) ∧ ¬ IsBound v t) ∧
      ∃ ns, Offers (env.over sx) w' s' uri pos tr ns ∧ ns t.text := by
  refine ⟨⟨[], by simp [Program.sees, evaluated, names, Program.binds], by simp [IsBound]⟩, _, h.offers h.template h.analysed hr hu ht w' htr, ?_⟩
  refine ⟨⟨x.bind .forLoopKey (env.rootEnd tree), .head _, by simp [Tok.bind], hn, ?_, ?_⟩, ht.part⟩
  · exact Point.le_trans (h.laid.head_rest (s := x) (t := t) (by simp [tagToks]) (by simp [Program.toks, HTok.tok])) (Point.le_of_lt ht.from.1)
  · exact Point.le_trans ht.from.2 (h.laid.last t (by simp [Program.toks, tagToks, HTok.tok]))

example : Fix.Opens (.loop (Fix.tagOn 0) (Fix.tk 0 1 c!"for") (Fix.tk 0 2 c!"customer") [] [.name (Fix.tk 0 5 c!"y")] (.branch (Fix.tagOn 1) (Fix.tk 1 1 c!"else") [] .done)
      (Fix.endOn 2 c!"endfor") (.out [.name (Fix.tk 3 1 c!"a"), .name (Fix.tk 3 2 c!"customer"), .name (Fix.tk 3 3 c!"b")] [] .done))
    [] (Fix.tk 3 2 c!"customer") ∧ Regular (Fix.drawRoot (.loop (Fix.tagOn 0) (Fix.tk 0 1 c!"for") (Fix.tk 0 2 c!"customer") [] [.name (Fix.tk 0 5 c!"y")] (.branch (Fix.tagOn 1) (Fix.tk 1 1 c!"else") [] .done)
      (Fix.endOn 2 c!"endfor") (.out [.name (Fix.tk 3 1 c!"a"), .name (Fix.tk 3 2 c!"customer"), .name (Fix.tk 3 3 c!"b")] [] .done))) ∧
    TypedUse Fix.digit (Fix.drawRoot (.loop (Fix.tagOn 0) (Fix.tk 0 1 c!"for") (Fix.tk 0 2 c!"customer") [] [.name (Fix.tk 0 5 c!"y")] (.branch (Fix.tagOn 1) (Fix.tk 1 1 c!"else") [] .done)
      (Fix.endOn 2 c!"endfor") (.out [.name (Fix.tk 3 1 c!"a"), .name (Fix.tk 3 2 c!"customer"), .name (Fix.tk 3 3 c!"b")] [] .done)))
      ⟨.variable, Fix.tk 3 2 c!"customer", []⟩ ⟨3, 21 + utf8Len c!"cust"⟩ c!"cust" :=
  ⟨⟨drawn, Fix.uses_mem (by decide +kernel)⟩, regular, Fix.typedUse (by decide) (by decide) (by decide) (by decide +kernel) (by decide +kernel)⟩

/-- **C122** is false after a loop with an inline `if`: in `{% for x in y %}{{ f if g }}{% endfor %}{{ a x b }}` the name `x` is offered. -/
theorem C122_inline_refuted (env : Env) (sx : Syntax) (w w' : World) (s s' : Server) (m : Msg) (uri text : Str) (tree : Tree) (out : List Send)
    (r : Reply) (es : List Elem) (ss : List ImpStmt) (d : Delims) (kw kw1 x a t b : Tok) (ts fs gs : List HTok) (e : EndTag)
    (h : Shown env sx w s s' m uri text tree out r (.loop d kw x [] ts (.out fs [(kw1, gs)] .done) e (.out [.name a, .name t, .name b] [] .done)) es ss)
    (hr : Regular (sx.root tree text)) (hu : .use ⟨.variable, t, []⟩ ∈ es)
    (pos : Position) (typed : Str) (ht : TypedUse sx.digit (sx.root tree text) ⟨.variable, t, []⟩ pos typed) (tr : TriggerKind) (htr : Requested tr) (hn : x.text = t.text) :
    (∃ v, (t, v) ∈ Program.sees [] [] (.loop d kw x [] ts (.out fs [(kw1, gs)] .done) e (.out [.name a, .name t, .name b] [] .done)) ∧ ¬ IsBound v t) ∧
      ∃ ns, Offers (env.over sx) w' s' uri pos tr ns ∧ ns t.text := by
  refine ⟨⟨[], by simp [Program.sees, evaluated, names, Program.binds], by simp [IsBound]⟩, _, h.offers h.template h.analysed hr hu ht w' htr, ?_⟩
  refine ⟨⟨x.bind .forLoopKey (env.rootEnd tree), .head _, by simp [Tok.bind], hn, ?_, ?_⟩, ht.part⟩
  · exact Point.le_trans (h.laid.head_rest (s := x) (t := t) (by simp [tagToks]) (by simp [Program.toks, HTok.tok])) (Point.le_of_lt ht.from.1)
  · exact Point.le_trans ht.from.2 (h.laid.last t (by simp [Program.toks, tagToks, HTok.tok]))

example : Fix.Opens (.loop (Fix.tagOn 0) (Fix.tk 0 1 c!"for") (Fix.tk 0 2 c!"customer") [] [.name (Fix.tk 0 5 c!"y")]
      (.out [.name (Fix.tk 1 1 c!"f")] [(Fix.tk 1 2 c!"if", [.name (Fix.tk 1 3 c!"g")])] .done) (Fix.endOn 2 c!"endfor") (.out [.name (Fix.tk 3 1 c!"a"), .name (Fix.tk 3 2 c!"customer"), .name (Fix.tk 3 3 c!"b")] [] .done))
    [] (Fix.tk 3 2 c!"customer") ∧ Regular (Fix.drawRoot (.loop (Fix.tagOn 0) (Fix.tk 0 1 c!"for") (Fix.tk 0 2 c!"customer") [] [.name (Fix.tk 0 5 c!"y")]
      (.out [.name (Fix.tk 1 1 c!"f")] [(Fix.tk 1 2 c!"if", [.name (Fix.tk 1 3 c!"g")])] .done) (Fix.endOn 2 c!"endfor") (.out [.name (Fix.tk 3 1 c!"a"), .name (Fix.tk 3 2 c!"customer"), .name (Fix.tk 3 3 c!"b")] [] .done))) ∧
    TypedUse Fix.digit (Fix.drawRoot (.loop (Fix.tagOn 0) (Fix.tk 0 1 c!"for") (Fix.tk 0 2 c!"customer") [] [.name (Fix.tk 0 5 c!"y")]
      (.out [.name (Fix.tk 1 1 c!"f")] [(Fix.tk 1 2 c!"if", [.name (Fix.tk 1 3 c!"g")])] .done) (Fix.endOn 2 c!"endfor") (.out [.name (Fix.tk 3 1 c!"a"), .name (Fix.tk 3 2 c!"customer"), .name (Fix.tk 3 3 c!"b")] [] .done)))
      ⟨.variable, Fix.tk 3 2 c!"customer", []⟩ ⟨3, 21 + utf8Len c!"cust"⟩ c!"cust" :=
  ⟨⟨drawn, Fix.uses_mem (by decide +kernel)⟩, regular, Fix.typedUse (by decide) (by decide) (by decide) (by decide +kernel) (by decide +kernel)⟩

end JinjaLsp
