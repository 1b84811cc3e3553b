import Verif.Lemmas.Jinja
import Verif.Lemmas.Reading
import Verif.Props.Lookup
/-
  C120, C121: diagnostics, goto-definition and hover against Jinja's scoping rules (Spec/Jinja.lean).
-/

namespace JinjaLsp
open Spec

namespace Spec

/-- The syntax tree of a text reads as the template `p`, as the uses `es` and as the references `ss`, and the tokens of `p` lie one behind the
other. -/
structure AsProgram (env : Env) (sx : Syntax) (text : Str) (tree : Tree) (p : Program) (es : List Elem) (ss : List ImpStmt) : Prop where
  wf : WellFormed (sx.root tree text)
  kind : (sx.root tree text).kind = .other
  tags : Tags sx.digit (sx.root tree text).children p.items
  uses : ReadsTree sx.digit (sx.root tree text) es
  usesWf : Elems.Wf es
  refs : Refs sx.options (sx.root tree text).children ss
  refsWf : ImpStmt.Wf ss
  laid : InOrder (env.rootEnd tree) p.toks

/-- A template has been opened or saved: `s` and `s'` are the states before and after, `out` is what was published. -/
structure Shown (env : Env) (sx : Syntax) (w : World) (s s' : Server) (m : Msg) (uri text : Str) (tree : Tree) (out : List Send) (r : Reply)
    (p : Program) (es : List Elem) (ss : List ImpStmt) : Prop extends AsProgram env sx text tree p es ss where
  analyses : m.Analyses uri
  template : fileExt uri = some .template
  globals : s.files.ignoreGlobals = false
  run : s.handle (env.over sx) w m = .ok (s', out, r)
  doc : s'.files.documents.get? uri = some text
  held : (s'.files.trees .template).get? uri = some tree

/-- something is reported at the token: an undefined name, or one defined elsewhere -/
def Reported (uri : Str) (out : List Send) (t : Tok) : Prop :=
  ∃ ds, out = [.diag (HMap.empty.insert uri ds)] ∧ ∃ rep ∈ useDiags ds, rep.name = t.text ∧ rep.start = t.start ∧ rep.stop = t.stop

/-- nothing is reported at the token -/
def Unreported (uri : Str) (out : List Send) (t : Tok) : Prop :=
  ∃ ds, out = [.diag (HMap.empty.insert uri ds)] ∧ ∀ rep ∈ useDiags ds, rep.start ≠ t.start

/-- lines and columns fit into 32 bits -/
def Narrow (p : Program) : Prop := ∀ t ∈ p.toks, t.start.row < 2 ^ 32 ∧ t.start.column < 2 ^ 32 ∧ t.stop.row < 2 ^ 32 ∧ t.stop.column < 2 ^ 32

instance (p : Program) : Decidable (Narrow p) := inferInstanceAs (Decidable (∀ t ∈ p.toks, _))

/-- the name is bound where it is evaluated, by `set`, as first target of a loop, in `with`, or as macro or parameter of one, and not in an `if` that
has ended -/
def LexicallyBound (visible : List Bound) (t : Tok) : Prop := ∃ x ∈ visible, x.Lexical ∧ x.tok.text = t.text

instance (v : List Bound) (t : Tok) : Decidable (LexicallyBound v t) := inferInstanceAs (Decidable (∃ x ∈ v, _))

/-- the name is bound where it is evaluated -/
def IsBound (visible : List Bound) (t : Tok) : Prop := ∃ x ∈ visible, x.tok.text = t.text

instance (v : List Bound) (t : Tok) : Decidable (IsBound v t) := inferInstanceAs (Decidable (∃ x ∈ v, _))

end Spec

/-! ### From uses to reports -/

theorem ordered_starts {p : Point} : ∀ {ts : List Tok}, Ordered p ts → (∀ t ∈ ts, p ≤ t.start) ∧ ts.Pairwise fun a b => a.start < b.start
  | [], _ => ⟨by simp, .nil⟩
  | t :: ts, h => by
    obtain ⟨h1, h2, h3⟩ := h
    obtain ⟨h4, h5⟩ := ordered_starts h3
    refine ⟨?_, List.pairwise_cons.mpr ⟨fun x hx => Point.lt_of_lt_of_le h2 (h4 x hx), h5⟩⟩
    intro x hx
    rcases List.mem_cons.mp hx with rfl | hx
    · exact h1
    · exact Point.le_trans h1 (Point.le_trans (Point.le_of_lt h2) (h4 x hx))

theorem Spec.Shown.analysed {env : Env} {sx : Syntax} {w : World} {s s' : Server} {m : Msg} {uri text : Str} {tree : Tree} {out : List Send} {r : Reply}
    {p : Program} {es : List Elem} {ss : List ImpStmt} (h : Shown env sx w s s' m uri text tree out r p es ss) :
    Spec.Analysed env s'.files uri text tree p.items :=
  C83_analysed env sx w s s' m uri text tree out r p.items h.analyses h.template h.run h.doc h.held h.wf h.kind h.tags

/-- two uses that start at the same place are the same -/
theorem use_unique {es : List Elem} (h : (es.flatMap Elem.toks).Pairwise fun a b => a.start < b.start) {u v : Use} (hu : .use u ∈ es)
    (hv : .use v ∈ es) (he : u.root.start = v.root.start) : u = v := by
  have root : ∀ u : Use, u.root ∈ (Elem.use u).toks := fun u => by simp [Elem.toks, Use.toks]
  induction es with
  | nil => cases hu
  | cons e es ih =>
    rw [List.flatMap_cons, List.pairwise_append] at h
    obtain ⟨_, h2, h3⟩ := h
    have hin : ∀ {u : Use}, .use u ∈ es → u.root ∈ es.flatMap Elem.toks := fun h => List.mem_flatMap.mpr ⟨_, h, root _⟩
    rcases List.mem_cons.mp hu with hu | hu <;> rcases List.mem_cons.mp hv with hv | hv
    · rw [← hu] at hv; injection hv with hv; exact hv.symm
    · have := h3 u.root (hu ▸ root u) v.root (hin hv)
      rw [he] at this
      exact (Point.lt_irrefl _ this).elim
    · have := h3 v.root (hv ▸ root v) u.root (hin hu)
      rw [he] at this
      exact (Point.lt_irrefl _ this).elim
    · exact ih h2 hu hv

/-- What is published about a variable: a report exactly if no recorded binding is visible at it. -/
theorem Spec.Shown.reports {env : Env} {sx : Syntax} {w : World} {s s' : Server} {m : Msg} {uri text : Str} {tree : Tree} {out : List Send} {r : Reply}
    {p : Program} {es : List Elem} {ss : List ImpStmt} (h : Shown env sx w s s' m uri text tree out r p es ss) {u : Use} (hu : .use u ∈ es)
    (hv : u.mark = .variable) :
    ((∃ b ∈ Items.bindings (env.rootEnd tree) 0 p.items, b.VisibleAt u.info) → Unreported uri out u.root) ∧
    ((¬ ∃ b ∈ Items.bindings (env.rootEnd tree) 0 p.items, b.VisibleAt u.info) → Reported uri out u.root) := by
  obtain ⟨ds, h1, h2, _⟩ := C71_diagnostics env sx w s s' m uri text tree out r p.items es ss h.analyses h.template h.globals h.run h.doc h.held h.wf
    h.kind h.tags h.uses h.usesWf h.refs h.refsWf
  have hmem : u.info ∈ Elems.uses es := List.mem_filterMap.mpr ⟨_, hu, rfl⟩
  have hnf : ¬ (u.info.filter = true ∨ u.info.test = true) := by
    obtain ⟨mk, _, _⟩ := u
    cases hv
    simp [Use.info]
  refine ⟨fun hb => ⟨ds, h1, ?_⟩, fun hb => ⟨ds, h1, ?_⟩⟩
  · intro rep hr he
    rw [h2] at hr
    obtain ⟨i, hi, hrep⟩ := List.mem_filterMap.mp hr
    obtain ⟨e, hem, hei⟩ := List.mem_filterMap.mp hi
    cases e with
    | use v =>
      cases hei
      obtain ⟨k, hk, rfl⟩ := Option.map_eq_some_iff.mp hrep
      obtain ⟨_, _, ho⟩ := h.usesWf.ordered
      have : v = u := use_unique (ordered_starts ho).2 hem hu he
      subst this
      unfold verdict at hk
      rw [if_neg hnf, if_pos hb] at hk
      cases hk
    | op => cases hei
    | word => cases hei
    | expr => cases hei
  · have : ∃ k, verdict (Items.bindings (env.rootEnd tree) 0 p.items)
        ((Items.bindings (env.rootEnd tree) 0 p.items).map (·.name) ++ knownElsewhere s.files.variables uri) u.info = some k := by
      unfold verdict
      rw [if_neg hnf, if_neg hb]
      split
      · exact ⟨_, rfl⟩
      · split <;> exact ⟨_, rfl⟩
    obtain ⟨k, hk⟩ := this
    refine ⟨⟨k, u.root.text, u.root.start, u.root.stop⟩, ?_, rfl, rfl, rfl⟩
    rw [h2]
    refine List.mem_filterMap.mpr ⟨u.info, hmem, ?_⟩
    rw [hk]; rfl

theorem Spec.AsProgram.spans {env : Env} {sx : Syntax} {text : Str} {tree : Tree} {p : Program} {es : List Elem} {ss : List ImpStmt}
    (h : AsProgram env sx text tree p es ss) {t : Tok} {σ ρ v : List Bound}
    (ht : (t, v) ∈ p.sees σ ρ) : t.start < t.stop := h.laid.spans t (sees_toks ht)

/-- a binding visible under Jinja's rules is recorded, and the name lies in its scope -/
theorem Spec.AsProgram.recorded {env : Env} {sx : Syntax} {text : Str} {tree : Tree} {p : Program} {es : List Elem} {ss : List ImpStmt}
    (h : AsProgram env sx text tree p es ss) (hp : p.Paired) {t : Tok}
    {v : List Bound} (ht : (t, v) ∈ p.sees [] []) {x : Bound} (hl : x.Lexical) (hx : x ∈ v) : InScope (Items.bindings (env.rootEnd tree) 0 p.items) x t := by
  rcases sees_inScope hp [] [] 0 [] h.laid (fun e he => by cases he) ht hl hx with h | h | h
  · cases h
  · cases h
  · rwa [List.append_nil] at h

/-- a recorded binding that touches the name is visible under Jinja's rules, or a block -/
theorem Spec.AsProgram.touching {env : Env} {sx : Syntax} {text : Str} {tree : Tree} {p : Program} {es : List Elem} {ss : List ImpStmt}
    (h : AsProgram env sx text tree p es ss) (hp : p.Simple) {t : Tok}
    {v : List Bound} (ht : (t, v) ∈ p.sees [] []) {b : Binding} (hb : b ∈ Items.bindings (env.rootEnd tree) 0 p.items) (hn : b.name = t.text)
    (htc : Near b t) :
    (b.kind = .templateBlock ∧ b.name ∈ p.blocks) ∨ ∃ x ∈ v, x.Lexical ∧ b = x.tok.bind x.kind b.visibleTo := by
  rcases simple_sees (fun _ => True) hp (fun _ _ => trivial) h.laid ht hb htc with hk | hx | ⟨hx, _⟩
  · obtain ⟨i, hi, k, _, _, _, e, hk'⟩ := bindings_tok hb
    exact .inl ⟨hk, e ▸ items_blocks hi (hk' hk)⟩
  · exact .inr hx
  · exact (hx hn).elim

theorem Spec.AsProgram.token {env : Env} {sx : Syntax} {text : Str} {tree : Tree} {p : Program} {es : List Elem} {ss : List ImpStmt}
    (_ : AsProgram env sx text tree p es ss) {b : Binding} (hb : b ∈ Items.bindings (env.rootEnd tree) 0 p.items) :
    ∃ k ∈ p.toks, b.start = k.start ∧ b.stop = k.stop := by
  obtain ⟨i, hi, k, hk, e1, e2, _⟩ := bindings_tok hb
  exact ⟨k, items_toks hi hk, e1, e2⟩

theorem Spec.AsProgram.touching_before {env : Env} {sx : Syntax} {text : Str} {tree : Tree} {p : Program} {es : List Elem} {ss : List ImpStmt}
    (h : AsProgram env sx text tree p es ss) (hp : p.Simple) {t : Tok}
    {v : List Bound} (ht : (t, v) ∈ p.sees [] []) {b : Binding} (hb : b ∈ Items.bindings (env.rootEnd tree) 0 p.items)
    (hf : InForce t.text t.start b) : ∃ x ∈ v, x.Lexical ∧ b = x.tok.bind x.kind b.visibleTo := by
  obtain ⟨h1, h2, h3, h4⟩ := hf
  have hle : b.start ≤ b.stop := by
    obtain ⟨k, hk, e1, e2⟩ := h.token hb
    rw [e1, e2]
    exact Point.le_of_lt (h.laid.spans k hk)
  rcases h.touching hp ht hb h2 ⟨Point.le_trans hle (Point.le_trans h3 (Point.le_of_lt (h.spans ht))), .inl h4⟩ with ⟨h5, _⟩ | h5
  · exact (h1 h5).elim
  · exact h5

theorem Spec.AsProgram.short {env : Env} {sx : Syntax} {text : Str} {tree : Tree} {p : Program} {es : List Elem} {ss : List ImpStmt}
    (h : AsProgram env sx text tree p es ss)
    (hfit : Narrow p) :
    ∀ b ∈ Items.bindings (env.rootEnd tree) 0 p.items, Short b := by
  intro b hb
  obtain ⟨k, hk, e1, e2⟩ := h.token hb
  have := hfit k hk
  unfold Short
  rw [e1, e2]
  exact ⟨⟨this.1, this.2.1⟩, this.2.2⟩

theorem Spec.InOrder.before {last : Point} {a b : Tok} {ts : List Tok} (h : InOrder last ts) (hs : [a, b].Sublist ts) : a.start < b.stop := by
  have h1 := (List.pairwise_cons.mp (h.order.sublist hs)).1 b List.mem_cons_self
  have h2 := h.spans a (hs.subset List.mem_cons_self)
  have h3 := h.spans b (hs.subset (List.mem_cons_of_mem _ List.mem_cons_self))
  exact Point.lt_of_lt_of_le h2 (Point.le_trans h1 (Point.le_of_lt h3))

theorem Spec.InOrder.starts_before {last : Point} {a b : Tok} {ts : List Tok} (h : InOrder last ts) (hs : [a, b].Sublist ts) : a.start < b.start :=
  Point.lt_of_lt_of_le (h.spans a (hs.subset List.mem_cons_self)) ((List.pairwise_cons.mp (h.order.sublist hs)).1 b List.mem_cons_self)

/-- a scope that ends with an earlier end tag does not reach -/
theorem Spec.InOrder.gone {last : Point} {pre bs qs : List Tok} {e : EndTag} (h : InOrder last (pre ++ (bs ++ (e.toks ++ qs)))) {k t : Tok} (hk : k ∈ pre)
    (ht : t ∈ qs) : ¬ (t.start < e.d.opening.start ∨ e.d.opening.start = ⟨0, 0⟩) := by
  have he : e.d.opening ∈ e.toks := List.mem_cons_self
  rintro (h1 | h1)
  · exact Point.lt_irrefl _ (Point.lt_of_lt_of_le h1 (Point.le_trans (Point.le_of_lt (h.spans _ (by simp [he]))) (h.right.right.cross he ht)))
  · exact Point.ne_zero_of_lt (Point.lt_of_lt_of_le (h.spans k (by simp [hk])) (h.cross hk (by simp [he]))) h1

/-! ### Examples -/

namespace Fix

theorem uses_mem {root : Syn} {t : Tok} (h : t ∈ ((root.flat.filter relevant).filter fun n => n.kind = .identifier).map tokOf) :
    .use ⟨.variable, t, []⟩ ∈ plainElems root := by
  obtain ⟨n, hn, rfl⟩ := List.mem_map.mp h
  obtain ⟨h1, h2⟩ := List.mem_filter.mp hn
  refine List.mem_map.mpr ⟨n, h1, ?_⟩
  simp only [decide_eq_true_eq] at h2
  simp [plainElem, h2]

/-- the `i`-th token on line `r` -/
def tk (r i : Nat) (t : Str) : Tok := ⟨⟨r, 10 * i + 1⟩, ⟨r, 10 * i + 9⟩, t, 100 * r + i + 1⟩

/-- the delimiters of a tag that fills line `r` -/
def tagOn (r : Nat) : Delims := ⟨tk r 0 c!"{%", tk r 20 c!"%}"⟩

/-- an end tag on line `r` -/
def endOn (r : Nat) (t : Str) : EndTag := ⟨tk r 1 t, [], tagOn r⟩

/-- an expression on line `r` that evaluates one name -/
def outOn (r : Nat) (t : Str) (rest : Program) : Program := .out [.name (tk r 1 t)] [] rest

def drawTree : Tree := .parsed .jinja [] (some (.parsed .jinja c!"aaa" none))

/-- a drawn template is one that has been opened -/
theorem shownIn {p : Program} {ss : List ImpStmt} {s s' : Server} {out : List Send} {r : Reply} (hi : s.files.ignoreGlobals = false)
    (h1 : WellFormed (drawRoot p))
    (h2 : readTags (draw p) = some p.items) (h3 : ((drawRoot p).flat.filter relevant).all isPlain = true)
    (h4 : (∀ e ∈ plainElems (drawRoot p), e.Ok) ∧ Ordered ⟨0, 1⟩ ((plainElems (drawRoot p)).flatMap Elem.toks))
    (h5 : readRefs (fun _ _ => [[]]) (draw p) = some ss) (h6 : ImpStmt.Wf ss) (h7 : InOrder ⟨9, 9⟩ p.toks)
    (k1 : s.handle (env.over (drawSyn p)) emptyWorld (.didOpen uriA []) = .ok (s', out, r))
    (k2 : s'.files.documents.get? uriA = some []) (k3 : (s'.files.trees .template).get? uriA = some drawTree) :
    Shown env (drawSyn p) emptyWorld s s' (.didOpen uriA []) uriA [] drawTree out r p (plainElems (drawRoot p)) ss :=
  ⟨⟨h1, rfl, readTags_sound h2, plainElems_read h3, elems_wf_of h4, readRefs_sound h5, h6, h7⟩, .opened _, rfl, hi, k1, k2, k3⟩

theorem shown {p : Program} {ss : List ImpStmt} (h1 : WellFormed (drawRoot p)) (h2 : readTags (draw p) = some p.items)
    (h3 : ((drawRoot p).flat.filter relevant).all isPlain = true)
    (h4 : (∀ e ∈ plainElems (drawRoot p), e.Ok) ∧ Ordered ⟨0, 1⟩ ((plainElems (drawRoot p)).flatMap Elem.toks))
    (h5 : readRefs (fun _ _ => [[]]) (draw p) = some ss) (h6 : ImpStmt.Wf ss) (h7 : InOrder ⟨9, 9⟩ p.toks)
    (h8 : ∃ s' out r, server.handle (env.over (drawSyn p)) emptyWorld (.didOpen uriA []) = .ok (s', out, r) ∧
      s'.files.documents.get? uriA = some [] ∧ (s'.files.trees .template).get? uriA = some drawTree) :
    ∃ s' out r, Shown env (drawSyn p) emptyWorld server s' (.didOpen uriA []) uriA [] drawTree out r p (plainElems (drawRoot p)) ss := by
  obtain ⟨s', out, r, k1, k2, k3⟩ := h8
  exact ⟨s', out, r, shownIn rfl h1 h2 h3 h4 h5 h6 h7 k1 k2 k3⟩

/-- ```
{% set a = 1 %}
{% for x in a %}
{{ x }} {{ a }} {{ y }}
{% endfor %}
{{ x }}
``` -/
def loopP : Program :=
  .set (tagOn 0) (tk 0 1 c!"set") (tk 0 2 c!"a") [.eq (tk 0 3 c!"=")]
    (.loop (tagOn 1) (tk 1 1 c!"for") (tk 1 2 c!"x") [] [.name (tk 1 4 c!"a")]
      (.out [.name (tk 2 1 c!"x"), .name (tk 2 2 c!"a"), .name (tk 2 3 c!"y")] [] .done) (endOn 3 c!"endfor") (outOn 4 c!"x" .done))

/-- ```
{% set a = 1 %}
{% if a %}
{{ a if b }}
{% else %}
{{ d }}
{% endif %}
{{ a }} {{ d }}
``` -/
def branchP : Program :=
  .set (tagOn 0) (tk 0 1 c!"set") (tk 0 2 c!"a") [.eq (tk 0 3 c!"=")]
    (.cond (tagOn 1) (tk 1 1 c!"if") [.name (tk 1 2 c!"a")]
      (.out [.name (tk 2 1 c!"a")] [(tk 2 2 c!"if", [.name (tk 2 3 c!"b")])]
        (.branch (tagOn 3) (tk 3 1 c!"else") [] (outOn 4 c!"d" .done))) (endOn 5 c!"endif")
      (.out [.name (tk 6 1 c!"a"), .name (tk 6 2 c!"d")] [] .done))

/-- the template can be opened, with `t` among the variables it uses -/
def Opens (p : Program) (ss : List ImpStmt) (t : Tok) : Prop :=
  (∃ s' out r, Shown env (drawSyn p) emptyWorld server s' (.didOpen uriA []) uriA [] drawTree out r p (plainElems (drawRoot p)) ss) ∧
    .use ⟨.variable, t, []⟩ ∈ plainElems (drawRoot p)

end Fix

/-- the template of the example, drawn and opened -/
local macro "drawn" : term =>
  `(Fix.shown ⟨by decide +kernel, by decide +kernel, by decide +kernel⟩ rfl rfl (by decide +kernel) rfl ⟨by decide +kernel, by decide +kernel, by decide +kernel⟩
    ⟨by decide +kernel, by decide +kernel, by decide +kernel⟩ ⟨_, _, _, rfl, rfl, rfl⟩)

/-! ## C120 -/

/-- **C120** (part) Nothing is reported at a variable that is bound where Jinja evaluates it.  Missing: names bound only inside an `if` that has
ended, by an import or as second target of a loop, and templates with block-form `set` or `call`, for which the claim is false (below). -/
theorem C120_bound_partial (env : Env) (sx : Syntax) (w : World) (s s' : Server) (m : Msg) (uri text : Str) (tree : Tree) (out : List Send) (r : Reply)
    (p : Program) (es : List Elem) (ss : List ImpStmt) (h : Shown env sx w s s' m uri text tree out r p es ss) (hp : p.Paired) (u : Use)
    (hu : .use u ∈ es) (hv : u.mark = .variable) (visible : List Bound) (hs : (u.root, visible) ∈ p.sees [] []) (hb : LexicallyBound visible u.root) :
    Unreported uri out u.root := by
  refine (h.reports hu hv).1 ?_
  obtain ⟨x, hx, hl, hn⟩ := hb
  obtain ⟨e, h1, h2, ⟨h3, h3'⟩, h4⟩ := h.recorded hp hs hl hx
  have hsp := h.spans hs
  exact ⟨_, h1, hn, h2, Point.le_trans (Point.le_of_lt h3) (Point.le_trans h3' (Point.le_of_lt hsp)), .inl (Point.lt_of_lt_of_le hsp h4)⟩

/-- `{{ x }}` in the loop -/
example : ∃ s' out r, Shown Fix.env (Fix.drawSyn Fix.loopP) Fix.emptyWorld Fix.server s' (.didOpen Fix.uriA []) Fix.uriA [] Fix.drawTree out r Fix.loopP
      (Fix.plainElems (Fix.drawRoot Fix.loopP)) [] ∧ Fix.loopP.Paired ∧ .use ⟨.variable, Fix.tk 2 1 c!"x", []⟩ ∈ Fix.plainElems (Fix.drawRoot Fix.loopP) ∧
    ∃ v, (Fix.tk 2 1 c!"x", v) ∈ Fix.loopP.sees [] [] ∧ LexicallyBound v (Fix.tk 2 1 c!"x") := by
  obtain ⟨s', out, r, h⟩ : ∃ s' out r, Shown Fix.env (Fix.drawSyn Fix.loopP) Fix.emptyWorld Fix.server s' (.didOpen Fix.uriA []) Fix.uriA [] Fix.drawTree
    out r Fix.loopP _ [] := drawn
  exact ⟨s', out, r, h, ⟨trivial, trivial⟩, Fix.uses_mem (by decide +kernel), [⟨Fix.tk 1 2 c!"x", .forLoopKey, false⟩, ⟨Fix.tk 0 2 c!"a", .setVariable, false⟩],
    by decide +kernel, by decide +kernel⟩

/-- **C120** (part) A variable that is not bound where Jinja evaluates it is reported.  Missing: templates with block-form `set`
or `call`, or with `else` or inline `if` inside a loop, `with`, macro or block that binds a name; and headers that evaluate a name they bind or, for
`with` and macros, any name; for these the claim is false (below). -/
theorem C120_unbound_partial (env : Env) (sx : Syntax) (w : World) (s s' : Server) (m : Msg) (uri text : Str) (tree : Tree) (out : List Send) (r : Reply)
    (p : Program) (es : List Elem) (ss : List ImpStmt) (h : Shown env sx w s s' m uri text tree out r p es ss) (hp : p.Simple) (u : Use)
    (hu : .use u ∈ es) (hv : u.mark = .variable) (visible : List Bound) (hs : (u.root, visible) ∈ p.sees [] []) (hb : ¬ IsBound visible u.root) :
    Reported uri out u.root := by
  refine (h.reports hu hv).2 ?_
  rintro ⟨b, hm, h1, h2, h3, h4⟩
  rcases h.touching hp hs hm h1 ⟨h3, h4.imp Point.le_of_lt id⟩ with ⟨h5, _⟩ | ⟨x, hx, _, h5⟩
  · exact h2 h5
  · refine hb ⟨x, hx, ?_⟩
    have h1' : b.name = u.root.text := h1
    rw [h5] at h1'
    exact h1'

/-- `{{ y }}` in the loop, `{{ x }}` after it -/
example : ∃ s' out r, Shown Fix.env (Fix.drawSyn Fix.loopP) Fix.emptyWorld Fix.server s' (.didOpen Fix.uriA []) Fix.uriA [] Fix.drawTree out r Fix.loopP
      (Fix.plainElems (Fix.drawRoot Fix.loopP)) [] ∧ Fix.loopP.Simple ∧
    (.use ⟨.variable, Fix.tk 2 3 c!"y", []⟩ ∈ Fix.plainElems (Fix.drawRoot Fix.loopP) ∧
      ∃ v, (Fix.tk 2 3 c!"y", v) ∈ Fix.loopP.sees [] [] ∧ ¬ IsBound v (Fix.tk 2 3 c!"y")) ∧
    (.use ⟨.variable, Fix.tk 4 1 c!"x", []⟩ ∈ Fix.plainElems (Fix.drawRoot Fix.loopP) ∧
      ∃ v, (Fix.tk 4 1 c!"x", v) ∈ Fix.loopP.sees [] [] ∧ ¬ IsBound v (Fix.tk 4 1 c!"x")) := by
  obtain ⟨s', out, r, h⟩ : ∃ s' out r, Shown Fix.env (Fix.drawSyn Fix.loopP) Fix.emptyWorld Fix.server s' (.didOpen Fix.uriA []) Fix.uriA [] Fix.drawTree
    out r Fix.loopP _ [] := drawn
  refine ⟨s', out, r, h, ⟨by decide +kernel, by decide +kernel, rfl, trivial, trivial⟩, ⟨Fix.uses_mem (by decide +kernel),
    [⟨Fix.tk 1 2 c!"x", .forLoopKey, false⟩, ⟨Fix.tk 0 2 c!"a", .setVariable, false⟩], by decide +kernel, by decide +kernel⟩, ⟨Fix.uses_mem (by decide +kernel),
    [⟨Fix.tk 0 2 c!"a", .setVariable, false⟩], by decide +kernel, by decide +kernel⟩⟩

/-- `{{ a }}` and `{{ d }}` after an `if` with `else` -/
example : Fix.branchP.Paired ∧ Fix.branchP.Simple ∧
    (Fix.Opens Fix.branchP [] (Fix.tk 6 1 c!"a") ∧ ∃ v, (Fix.tk 6 1 c!"a", v) ∈ Fix.branchP.sees [] [] ∧ LexicallyBound v (Fix.tk 6 1 c!"a")) ∧
    (Fix.Opens Fix.branchP [] (Fix.tk 4 1 c!"d") ∧ ∃ v, (Fix.tk 4 1 c!"d", v) ∈ Fix.branchP.sees [] [] ∧ ¬ IsBound v (Fix.tk 4 1 c!"d")) ∧
    (Fix.Opens Fix.branchP [] (Fix.tk 6 2 c!"d") ∧ ∃ v, (Fix.tk 6 2 c!"d", v) ∈ Fix.branchP.sees [] [] ∧ ¬ IsBound v (Fix.tk 6 2 c!"d")) :=
  ⟨⟨trivial, trivial⟩, ⟨by decide +kernel, .inr rfl, ⟨rfl, trivial⟩, trivial⟩,
    ⟨⟨drawn, Fix.uses_mem (by decide +kernel)⟩, [⟨Fix.tk 0 2 c!"a", .setVariable, false⟩], by decide +kernel, by decide +kernel⟩,
    ⟨⟨drawn, Fix.uses_mem (by decide +kernel)⟩, [⟨Fix.tk 0 2 c!"a", .setVariable, false⟩], by decide +kernel, by decide +kernel⟩,
    ⟨⟨drawn, Fix.uses_mem (by decide +kernel)⟩, [⟨Fix.tk 0 2 c!"a", .setVariable, false⟩], by decide +kernel, by decide +kernel⟩⟩

/-- **C120** (never bound) In any template, a variable is reported whose name is no target of a `set`, no first target of a loop, and in no header of a
`with` or macro. -/
theorem C120_never (env : Env) (sx : Syntax) (w : World) (s s' : Server) (m : Msg) (uri text : Str) (tree : Tree) (out : List Send) (r : Reply)
    (p : Program) (es : List Elem) (ss : List ImpStmt) (h : Shown env sx w s s' m uri text tree out r p es ss) (u : Use)
    (hu : .use u ∈ es) (hv : u.mark = .variable) (hn : u.root.text ∉ p.heads.map (·.text)) : Reported uri out u.root := by
  refine (h.reports hu hv).2 ?_
  rintro ⟨b, hm, h1, h2, _⟩
  rcases bindings_heads hm with h3 | ⟨x, hx, h3⟩
  · exact h2 h3
  · rw [items_heads] at hx
    exact hn (List.mem_map.mpr ⟨x, hx, h3.symm.trans h1⟩)

/-- `{% for x in y %}{% else %}{{ z }}{% endfor %}` -/
example : Fix.Opens (.loop (Fix.tagOn 0) (Fix.tk 0 1 c!"for") (Fix.tk 0 2 c!"x") [] [.name (Fix.tk 0 5 c!"y")] (.branch (Fix.tagOn 1) (Fix.tk 1 1 c!"else") []
      (Fix.outOn 2 c!"z" .done)) (Fix.endOn 3 c!"endfor") .done) [] (Fix.tk 2 1 c!"z") ∧
    c!"z" ∉ (Program.loop (Fix.tagOn 0) (Fix.tk 0 1 c!"for") (Fix.tk 0 2 c!"x") [] [.name (Fix.tk 0 5 c!"y")] (.branch (Fix.tagOn 1) (Fix.tk 1 1 c!"else") []
      (Fix.outOn 2 c!"z" .done)) (Fix.endOn 3 c!"endfor") .done).heads.map (·.text) :=
  ⟨⟨drawn, Fix.uses_mem (by decide +kernel)⟩, by decide +kernel⟩

/-! ### False alarms -/

/-- **C120** is false for names bound in an `if`: `{% if c %}{% set x = 1 %}{% endif %}{{ x }}` is reported. -/
theorem C120_if_refuted (env : Env) (sx : Syntax) (w : World) (s s' : Server) (m : Msg) (uri text : Str) (tree : Tree) (out : List Send) (r : Reply)
    (es : List Elem) (ss : List ImpStmt) (d d1 : Delims) (kw kw1 x t : Tok) (ts us : List HTok) (e : EndTag)
    (h : Shown env sx w s s' m uri text tree out r (.cond d kw ts (.set d1 kw1 x us .done) e (.out [.name t] [] .done)) es ss)
    (hu : .use ⟨.variable, t, []⟩ ∈ es) (hn : x.text = t.text) :
    (∃ v, (t, v) ∈ Program.sees [] [] (.cond d kw ts (.set d1 kw1 x us .done) e (.out [.name t] [] .done)) ∧ IsBound v t) ∧ Reported uri out t := by
  refine ⟨⟨[⟨x, .setVariable, true⟩], by simp [Program.sees, evaluated, names, Program.binds], _, List.mem_cons_self, hn⟩, (h.reports hu rfl).2 ?_⟩
  rintro ⟨b, hb, _, _, _, hv⟩
  have hb : b ∈ [x.bind .setVariable e.d.opening.start] := hb
  cases List.mem_singleton.mp hb
  exact h.laid.gone (k := d.opening) List.mem_cons_self List.mem_cons_self hv

example : Fix.Opens (.cond (Fix.tagOn 0) (Fix.tk 0 1 c!"if") [.name (Fix.tk 0 2 c!"c")] (.set (Fix.tagOn 1) (Fix.tk 1 1 c!"set") (Fix.tk 1 2 c!"x") [.eq (Fix.tk 1 3 c!"=")] .done) (Fix.endOn 2 c!"endif")
    (Fix.outOn 3 c!"x" .done))
    [] (Fix.tk 3 1 c!"x") :=
  ⟨drawn, Fix.uses_mem (by decide +kernel)⟩

/-- **C120** is false for imported names: `{% import "m.html" as x %}{{ x }}` is reported. -/
theorem C120_import_refuted (env : Env) (sx : Syntax) (w : World) (s s' : Server) (m : Msg) (uri text : Str) (tree : Tree) (out : List Send) (r : Reply)
    (es : List Elem) (ss : List ImpStmt) (d : Delims) (x t : Tok) (ts : List HTok)
    (h : Shown env sx w s s' m uri text tree out r (.import_ d ts [x] (.out [.name t] [] .done)) es ss)
    (hu : .use ⟨.variable, t, []⟩ ∈ es) (hn : x.text = t.text) :
    (∃ v, (t, v) ∈ Program.sees [] [] (.import_ d ts [x] (.out [.name t] [] .done)) ∧ IsBound v t) ∧ Reported uri out t := by
  refine ⟨⟨[⟨x, .jinjaTemplate, false⟩], by simp [Program.sees, evaluated, names], _, List.mem_cons_self, hn⟩, (h.reports hu rfl).2 ?_⟩
  rintro ⟨b, hb, _⟩
  cases hb

example : Fix.Opens (.import_ (Fix.tagOn 0) [.name (Fix.tk 0 2 c!"x")] [Fix.tk 0 2 c!"x"] (Fix.outOn 1 c!"x" .done))
    [.import_ ⟨⟨0, 1⟩, ⟨0, 209⟩, [], 1001⟩ ⟨⟨0, 9⟩, ⟨0, 10⟩, c!"import", 3001⟩ ⟨⟨0, 10⟩, ⟨0, 11⟩, c!"\"m.html\"", 4001⟩ [[]]] (Fix.tk 1 1 c!"x") :=
  ⟨drawn, Fix.uses_mem (by decide +kernel)⟩

/-- **C120** is false for the second target of a loop: `{% for k, x in y %}{{ x }}{% endfor %}` is reported. -/
theorem C120_target_refuted (env : Env) (sx : Syntax) (w : World) (s s' : Server) (m : Msg) (uri text : Str) (tree : Tree) (out : List Send) (r : Reply)
    (es : List Elem) (ss : List ImpStmt) (d : Delims) (kw k x t : Tok) (ts : List HTok) (e : EndTag)
    (h : Shown env sx w s s' m uri text tree out r (.loop d kw k [x] ts (.out [.name t] [] .done) e .done) es ss)
    (hu : .use ⟨.variable, t, []⟩ ∈ es) (hn : x.text = t.text) (hk : k.text ≠ t.text) :
    (∃ v, (t, v) ∈ Program.sees [] [] (.loop d kw k [x] ts (.out [.name t] [] .done) e .done) ∧ IsBound v t) ∧ Reported uri out t := by
  refine ⟨⟨[⟨x, .forLoopValue, false⟩, ⟨k, .forLoopKey, false⟩], by simp [Program.sees, evaluated, names], _, List.mem_cons_self, hn⟩, (h.reports hu rfl).2 ?_⟩
  rintro ⟨b, hb, hbn, _⟩
  have hb : b ∈ [k.bind .forLoopKey e.d.opening.start] := hb
  cases List.mem_singleton.mp hb
  exact hk hbn

example : Fix.Opens (.loop (Fix.tagOn 0) (Fix.tk 0 1 c!"for") (Fix.tk 0 2 c!"k") [Fix.tk 0 3 c!"x"] [.name (Fix.tk 0 5 c!"y")] (Fix.outOn 1 c!"x" .done) (Fix.endOn 2 c!"endfor") .done)
    [] (Fix.tk 1 1 c!"x") :=
  ⟨drawn, Fix.uses_mem (by decide +kernel)⟩

/-- **C120** is false after a block-form `set` in a loop: `{% for x in y %}{% set z %}{% endset %}{{ x }}{% endfor %}` is reported. -/
theorem C120_capture_refuted (env : Env) (sx : Syntax) (w : World) (s s' : Server) (m : Msg) (uri text : Str) (tree : Tree) (out : List Send) (r : Reply)
    (es : List Elem) (ss : List ImpStmt) (d d1 : Delims) (kw kw1 x z t : Tok) (ts : List HTok) (e e1 : EndTag)
    (h : Shown env sx w s s' m uri text tree out r (.loop d kw x [] ts (.setBlock d1 kw1 z .done e1 (.out [.name t] [] .done)) e .done) es ss)
    (hu : .use ⟨.variable, t, []⟩ ∈ es) (hn : x.text = t.text) (hz : z.text ≠ t.text) :
    (∃ v, (t, v) ∈ Program.sees [] [] (.loop d kw x [] ts (.setBlock d1 kw1 z .done e1 (.out [.name t] [] .done)) e .done) ∧ IsBound v t) ∧
      Reported uri out t := by
  refine ⟨⟨[⟨z, .setVariable, false⟩, ⟨x, .forLoopKey, false⟩], by simp [Program.sees, evaluated, names], _, List.mem_cons_of_mem _ List.mem_cons_self, hn⟩,
    (h.reports hu rfl).2 ?_⟩
  rintro ⟨b, hb, hbn, _, _, hv⟩
  have hb : b ∈ [x.bind .forLoopKey e1.d.opening.start, z.bind .setVariable e1.d.opening.start] := hb
  rcases List.mem_cons.mp hb with rfl | hb
  · exact h.laid.body.gone (k := d1.opening) List.mem_cons_self List.mem_cons_self hv
  · cases List.mem_singleton.mp hb
    exact hz hbn

example : Fix.Opens (.loop (Fix.tagOn 0) (Fix.tk 0 1 c!"for") (Fix.tk 0 2 c!"x") [] [.name (Fix.tk 0 5 c!"y")] (.setBlock (Fix.tagOn 1) (Fix.tk 1 1 c!"set") (Fix.tk 1 2 c!"z") .done (Fix.endOn 2 c!"endset")
    (Fix.outOn 3 c!"x" .done)) (Fix.endOn 4 c!"endfor") .done)
    [] (Fix.tk 3 1 c!"x") :=
  ⟨drawn, Fix.uses_mem (by decide +kernel)⟩

/-- **C120** is false after a `call` block in a loop: `{% for x in y %}{% call f() %}{% endcall %}{{ x }}{% endfor %}` is reported. -/
theorem C120_call_refuted (env : Env) (sx : Syntax) (w : World) (s s' : Server) (m : Msg) (uri text : Str) (tree : Tree) (out : List Send) (r : Reply)
    (es : List Elem) (ss : List ImpStmt) (d d1 : Delims) (kw x t : Tok) (ts us : List HTok) (e e1 : EndTag)
    (h : Shown env sx w s s' m uri text tree out r (.loop d kw x [] ts (.call d1 us .done e1 (.out [.name t] [] .done)) e .done) es ss)
    (hu : .use ⟨.variable, t, []⟩ ∈ es) (hn : x.text = t.text) :
    (∃ v, (t, v) ∈ Program.sees [] [] (.loop d kw x [] ts (.call d1 us .done e1 (.out [.name t] [] .done)) e .done) ∧ IsBound v t) ∧
      Reported uri out t := by
  refine ⟨⟨[⟨x, .forLoopKey, false⟩], by simp [Program.sees, evaluated, names], _, List.mem_cons_self, hn⟩, (h.reports hu rfl).2 ?_⟩
  rintro ⟨b, hb, hbn, _, _, hv⟩
  have hb : b ∈ [x.bind .forLoopKey e1.d.opening.start] := hb
  cases List.mem_singleton.mp hb
  exact h.laid.body.gone (k := d1.opening) List.mem_cons_self List.mem_cons_self hv

example : Fix.Opens (.loop (Fix.tagOn 0) (Fix.tk 0 1 c!"for") (Fix.tk 0 2 c!"x") [] [.name (Fix.tk 0 5 c!"y")] (.call (Fix.tagOn 1) [.name (Fix.tk 1 2 c!"f")] .done (Fix.endOn 2 c!"endcall")
    (Fix.outOn 3 c!"x" .done)) (Fix.endOn 4 c!"endfor") .done)
    [] (Fix.tk 3 1 c!"x") :=
  ⟨drawn, Fix.uses_mem (by decide +kernel)⟩

/-! ### Misses -/

/-- **C120** is false for a name used to compute its own first value: nothing is reported in `{% set x = x %}`. -/
theorem C120_own_refuted (env : Env) (sx : Syntax) (w : World) (s s' : Server) (m : Msg) (uri text : Str) (tree : Tree) (out : List Send) (r : Reply)
    (es : List Elem) (ss : List ImpStmt) (d : Delims) (kw x q t : Tok)
    (h : Shown env sx w s s' m uri text tree out r (.set d kw x [.eq q, .name t] .done) es ss)
    (hu : .use ⟨.variable, t, []⟩ ∈ es) (hn : x.text = t.text) :
    (∃ v, (t, v) ∈ Program.sees [] [] (.set d kw x [.eq q, .name t] .done) ∧ ¬ IsBound v t) ∧ Unreported uri out t := by
  refine ⟨⟨[], by simp [Program.sees, evaluated, names], by simp [IsBound]⟩, (h.reports hu rfl).1
    ⟨x.bind .setVariable (env.rootEnd tree), List.mem_cons_self, hn, by simp [Tok.bind], ?_, .inl ?_⟩⟩
  · exact Point.le_of_lt (h.laid.before (a := x) (b := t) (by simp [Program.toks, tagToks, HTok.tok]))
  · exact Point.lt_of_lt_of_le (h.laid.spans t (by simp [Program.toks, tagToks, HTok.tok])) (h.laid.last t (by simp [Program.toks, tagToks, HTok.tok]))

example : Fix.Opens (.set (Fix.tagOn 0) (Fix.tk 0 1 c!"set") (Fix.tk 0 2 c!"x") [.eq (Fix.tk 0 3 c!"="), .name (Fix.tk 0 4 c!"x")] .done)
    [] (Fix.tk 0 4 c!"x") :=
  ⟨drawn, Fix.uses_mem (by decide +kernel)⟩

/-- **C120** is false on the right-hand sides of `with`: nothing is reported in `{% with a = t %}{% endwith %}`. -/
theorem C120_with_refuted (env : Env) (sx : Syntax) (w : World) (s s' : Server) (m : Msg) (uri text : Str) (tree : Tree) (out : List Send) (r : Reply)
    (es : List Elem) (ss : List ImpStmt) (d : Delims) (kw a q t : Tok) (e : EndTag)
    (h : Shown env sx w s s' m uri text tree out r (.with_ d kw [⟨a, q, [t]⟩] .done e .done) es ss) (hu : .use ⟨.variable, t, []⟩ ∈ es) :
    (∃ v, (t, v) ∈ Program.sees [] [] (.with_ d kw [⟨a, q, [t]⟩] .done e .done) ∧ ¬ IsBound v t) ∧ Unreported uri out t := by
  refine ⟨⟨[], by simp [Program.sees, evaluated], by simp [IsBound]⟩, (h.reports hu rfl).1
    ⟨t.bind .withVariable e.d.opening.start, .tail _ (.head _), rfl, by simp [Tok.bind], ?_, .inl ?_⟩⟩
  · exact Point.le_of_lt (h.laid.spans t (by simp [Program.toks, tagToks, Assign.toks, HTok.tok]))
  · exact h.laid.starts_before (.cons _ (.cons _ (.cons _ (.cons _ (.cons_cons _ (.cons _ (.cons_cons _ (List.nil_sublist _))))))))

example : Fix.Opens (.with_ (Fix.tagOn 0) (Fix.tk 0 1 c!"with") [⟨Fix.tk 0 2 c!"a", Fix.tk 0 3 c!"=", [Fix.tk 0 4 c!"b"]⟩] .done (Fix.endOn 1 c!"endwith") .done)
    [] (Fix.tk 0 4 c!"b") :=
  ⟨drawn, Fix.uses_mem (by decide +kernel)⟩

/-- **C120** is false after a loop with `else`: nothing is reported in `{% for x in y %}{% else %}{% endfor %}{{ x }}`. -/
theorem C120_else_refuted (env : Env) (sx : Syntax) (w : World) (s s' : Server) (m : Msg) (uri text : Str) (tree : Tree) (out : List Send) (r : Reply)
    (es : List Elem) (ss : List ImpStmt) (d d1 : Delims) (kw kw1 x t : Tok) (ts us : List HTok) (e : EndTag)
    (h : Shown env sx w s s' m uri text tree out r (.loop d kw x [] ts (.branch d1 kw1 us .done) e (.out [.name t] [] .done)) es ss)
    (hu : .use ⟨.variable, t, []⟩ ∈ es) (hn : x.text = t.text) :
    (∃ v, (t, v) ∈ Program.sees [] [] (.loop d kw x [] ts (.branch d1 kw1 us .done) e (.out [.name t] [] .done)) ∧ ¬ IsBound v t) ∧
      Unreported uri out t := by
  refine ⟨⟨[], by simp [Program.sees, evaluated, names], by simp [IsBound]⟩, (h.reports hu rfl).1
    ⟨x.bind .forLoopKey (env.rootEnd tree), .head _, hn, by simp [Tok.bind], ?_, .inl ?_⟩⟩
  · exact Point.le_of_lt (Point.lt_of_lt_of_le (h.laid.spans x (by simp [Program.toks, tagToks, HTok.tok])) (Point.le_trans
      (h.laid.head_rest (s := x) (t := t) (by simp [tagToks]) (by simp [Program.toks, HTok.tok]))
      (Point.le_of_lt (h.laid.spans t (by simp [Program.toks, tagToks, HTok.tok])))))
  · exact Point.lt_of_lt_of_le (h.laid.spans t (by simp [Program.toks, tagToks, HTok.tok])) (h.laid.last t (by simp [Program.toks, tagToks, HTok.tok]))

example : Fix.Opens (.loop (Fix.tagOn 0) (Fix.tk 0 1 c!"for") (Fix.tk 0 2 c!"x") [] [.name (Fix.tk 0 5 c!"y")] (.branch (Fix.tagOn 1) (Fix.tk 1 1 c!"else") [] .done) (Fix.endOn 2 c!"endfor")
    (Fix.outOn 3 c!"x" .done))
    [] (Fix.tk 3 1 c!"x") :=
  ⟨drawn, Fix.uses_mem (by decide +kernel)⟩

/-- **C120** is false after a loop with an inline `if`: nothing is reported in `{% for x in y %}{{ a if b }}{% endfor %}{{ x }}`. -/
theorem C120_inline_refuted (env : Env) (sx : Syntax) (w : World) (s s' : Server) (m : Msg) (uri text : Str) (tree : Tree) (out : List Send) (r : Reply)
    (es : List Elem) (ss : List ImpStmt) (d : Delims) (kw kw1 x t : Tok) (ts as bs : List HTok) (e : EndTag)
    (h : Shown env sx w s s' m uri text tree out r (.loop d kw x [] ts (.out as [(kw1, bs)] .done) e (.out [.name t] [] .done)) es ss)
    (hu : .use ⟨.variable, t, []⟩ ∈ es) (hn : x.text = t.text) :
    (∃ v, (t, v) ∈ Program.sees [] [] (.loop d kw x [] ts (.out as [(kw1, bs)] .done) e (.out [.name t] [] .done)) ∧ ¬ IsBound v t) ∧
      Unreported uri out t := by
  refine ⟨⟨[], by simp [Program.sees, evaluated, names], by simp [IsBound]⟩, (h.reports hu rfl).1
    ⟨x.bind .forLoopKey (env.rootEnd tree), .head _, hn, by simp [Tok.bind], ?_, .inl ?_⟩⟩
  · exact Point.le_of_lt (Point.lt_of_lt_of_le (h.laid.spans x (by simp [Program.toks, tagToks, HTok.tok])) (Point.le_trans
      (h.laid.head_rest (s := x) (t := t) (by simp [tagToks]) (by simp [Program.toks, HTok.tok]))
      (Point.le_of_lt (h.laid.spans t (by simp [Program.toks, tagToks, HTok.tok])))))
  · exact Point.lt_of_lt_of_le (h.laid.spans t (by simp [Program.toks, tagToks, HTok.tok])) (h.laid.last t (by simp [Program.toks, tagToks, HTok.tok]))

example : Fix.Opens (.loop (Fix.tagOn 0) (Fix.tk 0 1 c!"for") (Fix.tk 0 2 c!"x") [] [.name (Fix.tk 0 5 c!"y")] (.out [.name (Fix.tk 1 1 c!"a")] [(Fix.tk 1 2 c!"if", [.name (Fix.tk 1 3 c!"b")])] .done)
    (Fix.endOn 2 c!"endfor") (Fix.outOn 3 c!"x" .done))
    [] (Fix.tk 3 1 c!"x") :=
  ⟨drawn, Fix.uses_mem (by decide +kernel)⟩

/-! ## C121 -/

theorem latest_first {env : List Bound} (h : Latest env) {n : Str} {x y : Bound} (hx : resolve env n = some x) (hxl : x.Lexical) (hy : y ∈ env)
    (hyl : y.Lexical) (hn : y.tok.text = n) (hle : x.tok.start ≤ y.tok.start) : y = x := by
  induction env with
  | nil => cases hy
  | cons z env ih =>
    unfold resolve at hx
    rw [List.find?_cons] at hx
    by_cases hz : (z.tok.text == n) = true
    · rw [hz] at hx
      cases hx
      rcases List.mem_cons.mp hy with rfl | hy
      · rfl
      · unfold Latest at h
        rw [List.filter_cons, if_pos (decide_eq_true hxl)] at h
        exact (Point.lt_irrefl _ (Point.lt_of_lt_of_le
          ((List.pairwise_cons.mp h).1 y (List.mem_filter.mpr ⟨hy, decide_eq_true hyl⟩)) hle)).elim
    · simp only [Bool.not_eq_true] at hz
      rw [hz] at hx
      rcases List.mem_cons.mp hy with rfl | hy
      · rw [hn] at hz; simp at hz
      · exact ih (List.Pairwise.sublist ((List.sublist_cons_self _ _).filter _) h) hx hy

theorem resolve_mem {env : List Bound} {n : Str} {x : Bound} (h : resolve env n = some x) : x ∈ env ∧ x.tok.text = n :=
  ⟨List.mem_of_find?_eq_some h, by simpa using List.find?_some h⟩

/-- goto-definition on a bound variable, once the template has been analysed -/
theorem Spec.AsProgram.goto {env : Env} {sx : Syntax} {text : Str} {tree : Tree} {p : Program} {es : List Elem} {ss : List ImpStmt}
    (h : AsProgram env sx text tree p es ss) {uri : Str} {s' : Server}
    (hft : fileExt uri = some .template) (ha : Spec.Analysed env s'.files uri text tree p.items) (w' : World)
    (hq : p.Simple) (hl : Laid (sx.root tree text)) (hfit : Narrow p) (u : Use) (hu : .use u ∈ es)
    (visible : List Bound) (hs : (u.root, visible) ∈ p.sees [] []) (x : Bound) (hx : resolve visible u.root.text = some x) (hxl : x.Lexical)
    (hb : u.root.text ∉ p.blocks) (pos : Position) (h1 : u.root.start ≤ toPoint pos) (h2 : toPoint pos < u.root.stop) :
    s'.handle (env.over sx) w' (.goto uri pos) = .ok (s', [], .goto (some (.scalar
      ⟨uri, ⟨⟨x.tok.start.row, x.tok.start.column⟩, ⟨x.tok.stop.row, x.tok.stop.column⟩⟩⟩))) := by
  obtain ⟨hxm, hxn⟩ := resolve_mem hx
  obtain ⟨e, hb1, hb2, ⟨hb3, hb4⟩, hb5⟩ := h.recorded (simple_paired hq) hs hxl hxm
  have hreach : Reaches u.root.text (toPoint pos) (x.tok.bind x.kind e) :=
    ⟨hxn, Point.le_trans (Point.le_of_lt hb3) (Point.le_trans hb4 h1), Point.le_of_lt (Point.lt_of_lt_of_le h2 hb5)⟩
  obtain ⟨b, k1, ⟨k2, k3, k4⟩, k5, k6⟩ := C83_goto env sx w' s' uri text tree p.items es u pos hft ha h.wf hl h.uses h.usesWf hu h1 h2 (h.short hfit)
    ⟨_, hb1, hreach⟩
  have hmax := k5 _ hb1 hreach
  rcases h.touching hq hs k1 k2 ⟨Point.le_trans k3 (Point.le_of_lt h2), .inl (Point.le_trans h1 k4)⟩ with ⟨_, hbl⟩ | ⟨y, hy, hyl, hbe⟩
  · exact (hb (k2 ▸ hbl)).elim
  · have hyn : y.tok.text = u.root.text := by rw [hbe] at k2; exact k2
    have hle : x.tok.start ≤ y.tok.start := by rw [hbe] at hmax; exact hmax
    have := latest_first (sees_latest (simple_paired hq) h.laid [] [] .nil .nil (fun _ h => by cases h) (fun _ h => by cases h) hs) hx hxl hy hyl hyn hle
    subst this
    rw [hbe] at k6
    exact k6

/-- **C121** (part) With the cursor on a variable that is bound where Jinja evaluates it, goto-definition leads to the binding that Jinja resolves
it to.  Missing: the bindings and templates excluded in C120, and names that are also names of blocks, for which the claim is false (below). -/
theorem C121_goto_partial (env : Env) (sx : Syntax) (w w' : World) (s s' : Server) (m : Msg) (uri text : Str) (tree : Tree) (out : List Send)
    (r : Reply) (p : Program) (es : List Elem) (ss : List ImpStmt) (h : Shown env sx w s s' m uri text tree out r p es ss)
    (hq : p.Simple) (hl : Laid (sx.root tree text)) (hfit : Narrow p) (u : Use) (hu : .use u ∈ es)
    (visible : List Bound) (hs : (u.root, visible) ∈ p.sees [] []) (x : Bound) (hx : resolve visible u.root.text = some x) (hxl : x.Lexical)
    (hb : u.root.text ∉ p.blocks) (pos : Position) (h1 : u.root.start ≤ toPoint pos) (h2 : toPoint pos < u.root.stop) :
    s'.handle (env.over sx) w' (.goto uri pos) = .ok (s', [], .goto (some (.scalar
      ⟨uri, ⟨⟨x.tok.start.row, x.tok.start.column⟩, ⟨x.tok.stop.row, x.tok.stop.column⟩⟩⟩))) :=
  h.goto h.template h.analysed w' hq hl hfit u hu visible hs x hx hxl hb pos h1 h2

/-- `{{ x }}` and `{{ a }}` in the loop -/
example : Fix.loopP.Simple ∧ Laid (Fix.drawRoot Fix.loopP) ∧
    Narrow Fix.loopP ∧ Fix.loopP.blocks = [] ∧
    (Fix.Opens Fix.loopP [] (Fix.tk 2 1 c!"x") ∧ ∃ v, (Fix.tk 2 1 c!"x", v) ∈ Fix.loopP.sees [] [] ∧
      resolve v c!"x" = some ⟨Fix.tk 1 2 c!"x", .forLoopKey, false⟩ ∧ (⟨Fix.tk 1 2 c!"x", .forLoopKey, false⟩ : Bound).Lexical) ∧
    (Fix.Opens Fix.loopP [] (Fix.tk 2 2 c!"a") ∧ ∃ v, (Fix.tk 2 2 c!"a", v) ∈ Fix.loopP.sees [] [] ∧
      resolve v c!"a" = some ⟨Fix.tk 0 2 c!"a", .setVariable, false⟩) := by
  refine ⟨⟨by decide +kernel, by decide +kernel, rfl, trivial, trivial⟩,
    ⟨by decide +kernel, by decide +kernel, by decide +kernel, by decide +kernel⟩, by decide +kernel, rfl, ?_⟩
  exact ⟨⟨⟨drawn, Fix.uses_mem (by decide +kernel)⟩, [⟨Fix.tk 1 2 c!"x", .forLoopKey, false⟩, ⟨Fix.tk 0 2 c!"a", .setVariable, false⟩], by decide +kernel, rfl, by decide⟩,
    ⟨drawn, Fix.uses_mem (by decide +kernel)⟩, [⟨Fix.tk 1 2 c!"x", .forLoopKey, false⟩, ⟨Fix.tk 0 2 c!"a", .setVariable, false⟩], by decide +kernel, rfl⟩

/-- `{{ a }}` after an `if` with `else` -/
example : Fix.branchP.Simple ∧ Laid (Fix.drawRoot Fix.branchP) ∧ Narrow Fix.branchP ∧ Fix.branchP.blocks = [] ∧
    Fix.Opens Fix.branchP [] (Fix.tk 6 1 c!"a") ∧ ∃ v, (Fix.tk 6 1 c!"a", v) ∈ Fix.branchP.sees [] [] ∧
      resolve v c!"a" = some ⟨Fix.tk 0 2 c!"a", .setVariable, false⟩ :=
  ⟨⟨by decide +kernel, .inr rfl, ⟨rfl, trivial⟩, trivial⟩, ⟨by decide +kernel, by decide +kernel, by decide +kernel, by decide +kernel⟩, by decide +kernel,
    rfl, ⟨drawn, Fix.uses_mem (by decide +kernel)⟩, [⟨Fix.tk 0 2 c!"a", .setVariable, false⟩], by decide +kernel, rfl⟩

/-- **C121** is false for goto-definition where a block has the name of the variable: in `{% set x = 1 %}{% block x %}{{ x }}{% endblock %}` it leads
to the block. -/
theorem C121_block_refuted (env : Env) (sx : Syntax) (w w' : World) (s s' : Server) (m : Msg) (uri text : Str) (tree : Tree) (out : List Send)
    (r : Reply) (es : List Elem) (ss : List ImpStmt) (d d1 : Delims) (kw kw1 x y t : Tok) (e : EndTag)
    (h : Shown env sx w s s' m uri text tree out r (.set d kw x [] (.block d1 kw1 y (.out [.name t] [] .done) e .done)) es ss)
    (hl : Laid (sx.root tree text)) (hfit : Narrow (.set d kw x [] (.block d1 kw1 y (.out [.name t] [] .done) e .done)))
    (hu : .use ⟨.variable, t, []⟩ ∈ es) (hx : x.text = t.text) (hy : y.text = t.text) (pos : Position) (h1 : t.start ≤ toPoint pos)
    (h2 : toPoint pos < t.stop) :
    (∃ v, (t, v) ∈ Program.sees [] [] (.set d kw x [] (.block d1 kw1 y (.out [.name t] [] .done) e .done)) ∧ resolve v t.text = some ⟨x, .setVariable, false⟩) ∧
    x.start < y.start ∧ s'.handle (env.over sx) w' (.goto uri pos) = .ok (s', [], .goto (some (.scalar
      ⟨uri, ⟨⟨y.start.row, y.start.column⟩, ⟨y.stop.row, y.stop.column⟩⟩⟩))) := by
  have ha := h.analysed
  have hord := h.laid
  have hxy : x.start < y.start := Point.lt_of_lt_of_le (hord.spans x (by simp [Program.toks, tagToks]))
    (hord.cross (a := tagToks d [kw, x]) (by simp [tagToks]) (by simp [Program.toks, tagToks]))
  have hyt : y.start ≤ t.start := Point.le_trans (Point.le_of_lt (hord.spans y (by simp [Program.toks, tagToks])))
    (hord.right.head_body (by simp [tagToks]) (by simp [Program.toks, HTok.tok]))
  have hte : t.stop ≤ e.d.opening.start := (hord.right.right).cross (a := [t]) (by simp) (List.mem_append_left _ List.mem_cons_self)
  have hby : y.bind .templateBlock e.d.opening.start ∈ Items.bindings (env.rootEnd tree) 0
      (Program.items (.set d kw x [] (.block d1 kw1 y (.out [.name t] [] .done) e .done))) := .tail _ (.head _)
  have hry : Reaches t.text (toPoint pos) (y.bind .templateBlock e.d.opening.start) :=
    ⟨hy, Point.le_trans hyt h1, Point.le_of_lt (Point.lt_of_lt_of_le h2 hte)⟩
  refine ⟨⟨[⟨x, .setVariable, false⟩], by simp [Program.sees, evaluated, names], by simp [resolve, hx]⟩, hxy, ?_⟩
  obtain ⟨b, k1, k2, k5, k6⟩ := C83_goto env sx w' s' uri text tree _ es ⟨.variable, t, []⟩ pos h.template ha h.wf hl h.uses h.usesWf hu h1 h2
    (h.short hfit) ⟨_, hby, hry⟩
  have k1 : b ∈ [x.bind .setVariable (env.rootEnd tree), y.bind .templateBlock e.d.opening.start] := k1
  rcases List.mem_cons.mp k1 with rfl | k1
  · exact (Point.lt_irrefl _ (Point.lt_of_lt_of_le hxy (k5 _ hby hry))).elim
  · cases List.mem_singleton.mp k1
    exact k6

example : Fix.Opens (.set (Fix.tagOn 0) (Fix.tk 0 1 c!"set") (Fix.tk 0 2 c!"x") [] (.block (Fix.tagOn 1) (Fix.tk 1 1 c!"block") (Fix.tk 1 2 c!"x") (Fix.outOn 2 c!"x" .done) (Fix.endOn 3 c!"endblock") .done))
    [] (Fix.tk 2 1 c!"x") :=
  ⟨drawn, Fix.uses_mem (by decide +kernel)⟩

/-- hover on a bound variable, once the template has been analysed -/
theorem Spec.AsProgram.hover {env : Env} {sx : Syntax} {text : Str} {tree : Tree} {p : Program} {es : List Elem} {ss : List ImpStmt}
    (h : AsProgram env sx text tree p es ss) {uri : Str} {s' : Server}
    (hft : fileExt uri = some .template) (ha : Spec.Analysed env s'.files uri text tree p.items) (w' : World)
    (hq : p.Simple) (hl : Laid (sx.root tree text)) (u : Use) (hu : .use u ∈ es) (hvar : u.mark = .variable)
    (visible : List Bound) (hs : (u.root, visible) ∈ p.sees [] []) (x : Bound) (hx : resolve visible u.root.text = some x) (hxl : x.Lexical)
    (pos : Position) (h1 : u.root.start ≤ toPoint pos) (h2 : toPoint pos < u.root.stop) :
    s'.handle (env.over sx) w' (.hover uri pos) = .ok (s', [], .hover (some (kindText x.kind))) := by
  obtain ⟨hxm, hxn⟩ := resolve_mem hx
  have hsp := h.spans hs
  obtain ⟨e, hb1, hb2, ⟨hb3, hb4⟩, hb5⟩ := h.recorded (simple_paired hq) hs hxl hxm
  have hforce : InForce u.root.text u.root.start (x.tok.bind x.kind e) := ⟨hb2, hxn, hb4, Point.le_of_lt (Point.lt_of_lt_of_le hsp hb5)⟩
  obtain ⟨b, k1, ⟨k2, k3, k4, k5⟩, k6, k7⟩ := C83_hover env sx w' s' uri text tree p.items es u pos hft ha h.wf hl h.uses h.usesWf hu hvar h1 h2
    ⟨_, hb1, hforce⟩
  have hmax := k6 _ hb1 hforce
  rcases h.touching_before hq hs k1 ⟨k2, k3, k4, k5⟩ with ⟨y, hy, hyl, hbe⟩
  have hyn : y.tok.text = u.root.text := by rw [hbe] at k3; exact k3
  have hle : x.tok.start ≤ y.tok.start := by rw [hbe] at hmax; exact hmax
  have := latest_first (sees_latest (simple_paired hq) h.laid [] [] .nil .nil (fun _ h => by cases h) (fun _ h => by cases h) hs) hx hxl hy hyl hyn hle
  subst this
  rw [hbe] at k7
  exact k7

/-- **C121** (part) Hovering it shows by what kind of statement that binding is made.  Missing: the bindings and templates excluded in
C120. -/
theorem C121_hover_partial (env : Env) (sx : Syntax) (w w' : World) (s s' : Server) (m : Msg) (uri text : Str) (tree : Tree) (out : List Send)
    (r : Reply) (p : Program) (es : List Elem) (ss : List ImpStmt) (h : Shown env sx w s s' m uri text tree out r p es ss)
    (hq : p.Simple) (hl : Laid (sx.root tree text)) (u : Use) (hu : .use u ∈ es) (hvar : u.mark = .variable)
    (visible : List Bound) (hs : (u.root, visible) ∈ p.sees [] []) (x : Bound) (hx : resolve visible u.root.text = some x) (hxl : x.Lexical)
    (pos : Position) (h1 : u.root.start ≤ toPoint pos) (h2 : toPoint pos < u.root.stop) :
    s'.handle (env.over sx) w' (.hover uri pos) = .ok (s', [], .hover (some (kindText x.kind))) :=
  h.hover h.template h.analysed w' hq hl u hu hvar visible hs x hx hxl pos h1 h2

/-- goto-definition on an unbound variable, once the template has been analysed -/
theorem Spec.AsProgram.elsewhere {env : Env} {sx : Syntax} {text : Str} {tree : Tree} {p : Program} {es : List Elem} {ss : List ImpStmt}
    (h : AsProgram env sx text tree p es ss) {uri : Str} {s' : Server}
    (hft : fileExt uri = some .template) (ha : Spec.Analysed env s'.files uri text tree p.items) (w' : World)
    (hq : p.Simple) (hl : Laid (sx.root tree text)) (u : Use) (hu : .use u ∈ es)
    (visible : List Bound) (hs : (u.root, visible) ∈ p.sees [] []) (hx : ¬ LexicallyBound visible u.root)
    (hb : u.root.text ∉ p.blocks) (pos : Position) (h1 : u.root.start ≤ toPoint pos) (h2 : toPoint pos < u.root.stop)
    (hn : ∀ i ∈ ss, ∀ t ∈ i.names, ¬ (t.start ≤ toPoint pos ∧ toPoint pos ≤ t.stop))
    (hurl : ∀ file v, Elsewhere s'.files uri u.root.text file v → env.urlParse (targetOf file v) ≠ none ∧ Fits v) :
    ∃ ls, s'.handle (env.over sx) w' (.goto uri pos) = .ok (s', [], .goto (some (.array ls))) ∧
      ∀ l, l ∈ ls ↔ ∃ file v, Elsewhere s'.files uri u.root.text file v ∧ l = placeOf env file v := by
  obtain ⟨ls, k1, _, k2⟩ := C83_goto_elsewhere env sx w' s' uri text tree p.items es ss u pos hft ha h.wf hl h.uses h.usesWf hu h1 h2
    h.kind h.refs h.refsWf hn (fun b hm ⟨k2, k3, k4⟩ => by
      rcases h.touching hq hs hm k2 ⟨Point.le_trans k3 (Point.le_of_lt h2), .inl (Point.le_trans h1 k4)⟩ with ⟨_, hbl⟩ | ⟨y, hy, hyl, hbe⟩
      · exact hb (k2 ▸ hbl)
      · rw [hbe] at k2; exact hx ⟨y, hy, hyl, k2⟩) hurl
  exact ⟨ls, k1, k2⟩

/-- **C121** (part) With the cursor on a variable that is imported or not bound where Jinja evaluates it, goto-definition leads to the entries of other
files with that name, and to nothing else.  Missing: as above. -/
theorem C121_elsewhere_partial (env : Env) (sx : Syntax) (w w' : World) (s s' : Server) (m : Msg) (uri text : Str) (tree : Tree) (out : List Send)
    (r : Reply) (p : Program) (es : List Elem) (ss : List ImpStmt) (h : Shown env sx w s s' m uri text tree out r p es ss)
    (hq : p.Simple) (hl : Laid (sx.root tree text)) (u : Use) (hu : .use u ∈ es)
    (visible : List Bound) (hs : (u.root, visible) ∈ p.sees [] []) (hx : ¬ LexicallyBound visible u.root)
    (hb : u.root.text ∉ p.blocks) (pos : Position) (h1 : u.root.start ≤ toPoint pos) (h2 : toPoint pos < u.root.stop)
    (hn : ∀ i ∈ ss, ∀ t ∈ i.names, ¬ (t.start ≤ toPoint pos ∧ toPoint pos ≤ t.stop))
    (hurl : ∀ file v, Elsewhere s'.files uri u.root.text file v → env.urlParse (targetOf file v) ≠ none ∧ Fits v) :
    ∃ ls, s'.handle (env.over sx) w' (.goto uri pos) = .ok (s', [], .goto (some (.array ls))) ∧
      ∀ l, l ∈ ls ↔ ∃ file v, Elsewhere s'.files uri u.root.text file v ∧ l = placeOf env file v :=
  h.elsewhere h.template h.analysed w' hq hl u hu visible hs hx hb pos h1 h2 hn hurl

/-- `{{ y }}` in the loop, where only a backend file has an entry `y.name` -/
example : ∃ s' out r, Shown Fix.env (Fix.drawSyn Fix.loopP) Fix.emptyWorld
      { Fix.server with files := Fix.gotoFiles c!"file:///m.py" (Identifier.new c!"y.name" ⟨3, 1⟩ ⟨3, 7⟩) } s' (.didOpen Fix.uriA []) Fix.uriA []
      Fix.drawTree out r Fix.loopP (Fix.plainElems (Fix.drawRoot Fix.loopP)) [] ∧
    (∃ file v, Elsewhere s'.files Fix.uriA c!"y" file v) ∧
    (∀ file v, Elsewhere s'.files Fix.uriA c!"y" file v → Fix.env.urlParse (targetOf file v) ≠ none ∧ Fits v) ∧
    .use ⟨.variable, Fix.tk 2 3 c!"y", []⟩ ∈ Fix.plainElems (Fix.drawRoot Fix.loopP) ∧
    ∃ v, (Fix.tk 2 3 c!"y", v) ∈ Fix.loopP.sees [] [] ∧ ¬ LexicallyBound v (Fix.tk 2 3 c!"y") := by
  refine ⟨_, _, _, Fix.shownIn rfl ⟨by decide +kernel, by decide +kernel, by decide +kernel⟩ rfl rfl (by decide +kernel) rfl
    ⟨by decide +kernel, by decide +kernel, by decide +kernel⟩ ⟨by decide +kernel, by decide +kernel, by decide +kernel⟩ rfl rfl rfl,
    ⟨c!"file:///m.py", Identifier.new c!"y.name" ⟨3, 1⟩ ⟨3, 7⟩, by decide, _, rfl, List.mem_cons_self, by decide, Or.inr ⟨c!"name", rfl⟩⟩, ?_,
    Fix.uses_mem (by decide +kernel), [⟨Fix.tk 1 2 c!"x", .forLoopKey, false⟩, ⟨Fix.tk 0 2 c!"a", .setVariable, false⟩], by decide +kernel, by decide +kernel⟩
  rintro file v ⟨hne, vs, hg, hv, _⟩
  refine ⟨by simp [Fix.env], ?_⟩
  have key : ∀ e ∈ (Fix.gotoFiles c!"file:///m.py" (Identifier.new c!"y.name" ⟨3, 1⟩ ⟨3, 7⟩)).variables.entries,
    ∀ v ∈ e.2, v.start.row < 5 ∧ v.start.column < 11 ∧ v.stop.row < 5 ∧ v.stop.column < 11 := by decide
  have hg' : (Fix.gotoFiles c!"file:///m.py" (Identifier.new c!"y.name" ⟨3, 1⟩ ⟨3, 7⟩)).variables.get? file = some vs := by
    rw [← hg]
    exact (HMap.get?_insert_ne _ _ hne).symm
  have := key (file, vs) ((HMap.get?_eq_some_iff ..).mp hg') v hv
  simp only [Fits]
  omega

end JinjaLsp
