import Verif.Lemmas.Visits
import Verif.Props.Definitions
import Verif.Props.Diagnostics
import Verif.Props.References
import Verif.Props.Publish
/-
  C70–C73: from syntax trees to symbols and diagnostics, through the queries of queries.rs.
-/

namespace JinjaLsp
open Spec

/-! ## What the queries report -/

/-- the tree that opening a template produces -/
abbrev openedTree (s : Server) (uri text : Str) : Tree := .parsed .jinja text ((s.files.trees .template).get? uri)

theorem over_definitions {env : Env} {sx : Syntax} {tree : Tree} {text : Str} {is : List Item}
    (hk : (sx.root tree text).kind = .other) (h : Tags sx.digit (sx.root tree text).children is) :
    ((env.over sx).queryMatches .jinjaDefinitions tree text).flatten = is.flatMap Item.caps := by
  show (Syn.walk (qDefinitions sx.digit) [] [] (sx.root tree text)).flatten = _
  rw [Syn.walk_node]
  simp only [qDefinitions, hk, List.nil_append, List.append_nil]
  exact tags_caps h []

theorem over_objects {env : Env} {sx : Syntax} {tree : Tree} {text : Str} {es : List Elem}
    (h : ReadsTree sx.digit (sx.root tree text) es) :
    ((env.over sx).queryMatches .jinjaObjects tree text).flatten = es.flatMap Elem.caps := readsTree_caps h [] []

theorem over_imports {env : Env} {sx : Syntax} {tree : Tree} {text : Str} {ss : List ImpStmt}
    (hk : (sx.root tree text).kind = .other) (h : Refs sx.options (sx.root tree text).children ss) :
    ((env.over sx).queryMatches .jinjaImports tree text).flatten = ss.flatMap ImpStmt.caps := by
  show (Syn.walk (qImports sx.options) [] [] (sx.root tree text)).flatten = _
  rw [Syn.walk_node]
  simp only [qImports, hk, List.nil_append, List.append_nil]
  exact refs_caps h _ []

theorem over_error (env : Env) (sx : Syntax) (tree : Tree) (text : Str) :
    SyntaxError (env.over sx) tree text ↔ HasError (sx.root tree text) := errorBlock_iff _

theorem tags_no_error {digit : Char → Bool} {root : Syn} {is : List Item} (hk : root.kind = .other) (h : Tags digit root.children is) :
    ¬ HasError root := by
  rintro ⟨n, hn, he⟩
  rw [flat_eq] at hn
  rcases List.mem_cons.mp hn with rfl | hn
  · rw [hk] at he; cases he
  · exact tags_noError h n hn he

namespace Fix

/-- a node without parts -/
def lf (k : SKind) (i l a b : Nat) (t : Str) : Syn := .node k none i ⟨l, a⟩ ⟨l, b⟩ (some t) []
/-- a statement on line `l` -/
def st (i l b : Nat) (inner : List Syn) : Syn :=
  .node .statement none i ⟨l, 0⟩ ⟨l, b⟩ (some []) (lf .statementBegin (100 + i) l 0 2 c!"{%" :: inner ++ [lf .statementEnd (200 + i) l (b - 2) b c!"%}"])
/-- an expression on line `l` -/
def ex (i l a b : Nat) (inner : List Syn) : Syn :=
  .node .expression none i ⟨l, a⟩ ⟨l, b⟩ (some []) (lf .other (100 + i) l a (a + 2) c!"{{" :: inner ++ [lf .other (200 + i) l (b - 2) b c!"}}"])

/-- ```
{% include "x.html" %}
{% if c %}
{% set a = 1 %}
{% endif %}
{{ a }}{{ b |upper }}
``` -/
def nodes : List Syn :=
  [st 1 0 22 [lf .keyword 11 0 3 10 c!"include", lf .string 12 0 11 19 c!"\"x.html\""],
   st 2 1 10 [lf .keyword 13 1 3 5 c!"if", lf .identifier 14 1 6 7 c!"c"],
   st 3 2 15 [lf .keyword 15 2 3 6 c!"set", lf .identifier 16 2 7 8 c!"a", lf .operator 17 2 9 10 c!"=", lf .identifier 18 2 11 12 c!"1"],
   st 4 3 11 [lf .keyword 19 3 3 8 c!"endif"],
   lf .other 5 4 0 0 [],
   ex 6 4 0 7 [lf .identifier 20 4 3 4 c!"a"],
   ex 7 4 7 21 [lf .identifier 21 4 10 11 c!"b", lf .operator 22 4 12 13 c!"|", lf .identifier 23 4 13 18 c!"upper"]]

def root : Syn := .node .other none 900 ⟨0, 0⟩ ⟨4, 21⟩ (some []) nodes

def digit (c : Char) : Bool := c.isDigit

def syn : Syntax := ⟨fun _ _ => root, digit, fun _ _ => [[]], fun _ => true⟩

/-- the delimiters of `st i l b` -/
def dst (i l b : Nat) : Delims := ⟨⟨⟨l, 0⟩, ⟨l, 2⟩, c!"{%", 100 + i⟩, ⟨⟨l, b - 2⟩, ⟨l, b⟩, c!"%}", 200 + i⟩⟩

/-- the same template as a sequence of tags -/
def tags : List Item :=
  [.leaf (.stmt (dst 1 0 22) []), .opening (dst 2 1 10) (.plain (tok 1 3 5 c!"if" 13) [.name (tok 1 6 7 c!"c" 14)]),
   .leaf (.set (dst 3 2 15) (tok 2 3 6 c!"set" 15) (tok 2 7 8 c!"a" 16) [.eq (tok 2 9 10 c!"=" 17)]),
   .closing ⟨tok 3 3 8 c!"endif" 19, [], dst 4 3 11⟩,
   .leaf (.expr [.name (tok 4 3 4 c!"a" 20)]), .leaf (.expr [.name (tok 4 10 11 c!"b" 21), .name (tok 4 13 18 c!"upper" 23)])]

theorem token_lf (k : SKind) (i l a b : Nat) (t : Str) : Token (lf k i l a b t) := ⟨rfl, by simp [lf, Syn.text]⟩

theorem tags_read : Tags digit nodes tags := by
  have word : ∀ {k : SKind} (i l a b : Nat) (t : Str) {ns : List Syn} {ts : List HTok}, k = .other ∨ k = .string → Header digit ns ts →
      Header digit (lf k i l a b t :: ns) ts := by
    rintro k i l a b t ns ts (rfl | rfl) h
    · exact Header.cons (hs := []) (token_lf ..) (.other rfl) h
    · exact Header.cons (hs := []) (token_lf ..) (.string rfl) h
  refine Tags.stmt rfl rfl (token_lf ..) rfl (token_lf ..) rfl (.plain ?_) ?_
  · exact Header.cons (hs := []) (token_lf ..) (.word rfl (by simp [Structural, tokOf, lf, Syn.text])) (word _ _ _ _ _ (.inr rfl) .nil)
  refine Tags.stmt rfl rfl (token_lf ..) rfl (token_lf ..) rfl (.open_ (token_lf ..) rfl (by decide) ?_) ?_
  · exact Header.cons (hs := [_]) (token_lf ..) (.name rfl (by decide)) .nil
  refine Tags.stmt rfl rfl (token_lf ..) rfl (token_lf ..) rfl (.set (token_lf ..) rfl rfl ?_) ?_
  · exact Header.cons (hs := [_]) (token_lf ..) (.name rfl (by decide)) (Header.cons (hs := [_]) (token_lf ..) (.eq rfl (by decide))
      (Header.cons (hs := []) (token_lf ..) (.numeral rfl (by decide)) .nil))
  refine Tags.stmt rfl rfl (token_lf ..) rfl (token_lf ..) rfl (.close (token_lf ..) rfl (by decide) .nil) ?_
  refine Tags.text rfl rfl ?_
  refine Tags.expr (is := []) rfl ?_ ?_
  · exact Inline.tok (hs := []) (token_lf ..) (.other rfl) (Inline.tok (hs := [_]) (token_lf ..) (.name rfl (by decide))
      (Inline.tok (hs := []) (token_lf ..) (.other rfl) .nil))
  refine Tags.expr (is := []) rfl ?_ .nil
  exact Inline.tok (hs := []) (token_lf ..) (.other rfl) (Inline.tok (hs := [_]) (token_lf ..) (.name rfl (by decide))
    (Inline.tok (hs := []) (token_lf ..) (.op rfl (by decide)) (Inline.tok (hs := [_]) (token_lf ..) (.name rfl (by decide))
      (Inline.tok (hs := []) (token_lf ..) (.other rfl) .nil))))

theorem root_sound : WellFormed root := ⟨by decide, by decide, by decide⟩

/-- its uses; the target of `set` counts -/
def elems : List Elem :=
  [.use ⟨.variable, tok 1 6 7 c!"c" 14, []⟩, .use ⟨.variable, tok 2 7 8 c!"a" 16, []⟩, .op (tok 2 9 10 c!"=" 17),
   .expr 6 ⟨4, 0⟩ ⟨4, 7⟩ (⟨4, 0⟩, ⟨4, 2⟩) (⟨4, 5⟩, ⟨4, 7⟩), .use ⟨.variable, tok 4 3 4 c!"a" 20, []⟩,
   .expr 7 ⟨4, 7⟩ ⟨4, 21⟩ (⟨4, 7⟩, ⟨4, 9⟩) (⟨4, 19⟩, ⟨4, 21⟩), .use ⟨.variable, tok 4 10 11 c!"b" 21, []⟩,
   .use ⟨.filter (tok 4 12 13 c!"|" 22), tok 4 13 18 c!"upper" 23, []⟩]

/-- the relevant nodes -/
def relevant (n : Syn) : Bool :=
  decide (n.kind = .operator ∨ (n.kind = .identifier ∧ ¬ IsNumeral digit (tokOf n).text) ∨ (n.kind = .keyword ∧ n.text = some c!"is") ∨
    n.kind = .expression ∨ n.kind = .error)

theorem elems_read : ReadsTree digit root elems := by
  refine ⟨relevant, fun n => by simp [relevant, Relevant], ?_⟩
  have hf : root.flat.filter relevant = [lf .identifier 14 1 6 7 c!"c", lf .identifier 16 2 7 8 c!"a", lf .operator 17 2 9 10 c!"=",
      ex 6 4 0 7 [lf .identifier 20 4 3 4 c!"a"], lf .identifier 20 4 3 4 c!"a",
      ex 7 4 7 21 [lf .identifier 21 4 10 11 c!"b", lf .operator 22 4 12 13 c!"|", lf .identifier 23 4 13 18 c!"upper"],
      lf .identifier 21 4 10 11 c!"b", lf .operator 22 4 12 13 c!"|", lf .identifier 23 4 13 18 c!"upper"] := rfl
  rw [hf]
  have nm : ∀ (i l a b : Nat) (t : Str), ¬ IsNumeral digit t → IsName digit (lf .identifier i l a b t) :=
    fun i l a b t h => ⟨rfl, by simp [lf, Syn.text], h⟩
  have op : ∀ (i l a b : Nat) (t : Str), t ≠ c!"." → IsOp (lf .operator i l a b t) :=
    fun i l a b t h => ⟨rfl, by simp [lf, Syn.text], by simpa [lf, Syn.text] using h⟩
  have use : ∀ (i l a b : Nat) (t : Str) {ns : List Syn} {es : List Elem}, ¬ IsNumeral digit t → ReadsOff digit ns es →
      ReadsOff digit (lf .identifier i l a b t :: ns) (.use ⟨.variable, tokOf (lf .identifier i l a b t), []⟩ :: es) :=
    fun i l a b t ns es h hr => ReadsOff.use (ms := []) (fs := []) .variable (nm i l a b t h) .nil hr
  refine use _ _ _ _ _ (by decide) (use _ _ _ _ _ (by decide) (.op (op _ _ _ _ _ (by decide)) (.expr rfl (use _ _ _ _ _ (by decide)
    (.expr rfl (use _ _ _ _ _ (by decide) ?_))))))
  exact ReadsOff.use (ms := [_]) (fs := []) (.filter (op _ _ _ _ _ (by decide))) (nm _ _ _ _ _ (by decide)) .nil .nil

theorem elems_wf : Elems.Wf elems := by
  refine ⟨?_, ⟨⟨0, 2⟩, by decide, ?_⟩⟩
  · simp [elems, Elem.Ok, Mark.Ok, reserved, tok]
  · simp [elems, Elem.toks, Use.toks, Mark.toks, Ordered, tok, Point.lt_def, Point.le_def]

/-- its reference -/
def refs : List ImpStmt :=
  [.include (tok 0 0 22 [] 1) (tok 0 3 10 c!"include" 11) [tok 0 11 19 c!"\"x.html\"" 12]]

theorem refs_read (options : Syn → Syn → List (List Capture)) : Refs options nodes refs := by
  have stm : ∀ (i l b : Nat) (inner : List Syn), (∀ t ∈ inner, Token t ∧ t.kind ≠ .statementBegin ∧ t.kind ≠ .statementEnd ∧ t.kind ≠ .error) →
      IsStmt (st i l b inner) (lf .statementBegin (100 + i) l 0 2 c!"{%") inner (lf .statementEnd (200 + i) l (b - 2) b c!"%}") :=
    fun i l b inner h => ⟨rfl, rfl, ⟨token_lf .., rfl⟩, ⟨token_lf .., rfl⟩, h⟩
  refine Refs.include (rest := [_]) (stm _ _ _ _ ?_) (by simp [st, Syn.text]) rfl rfl (by simp [NoRef, lf, Syn.kind]) ?_
  · simp [lf, Syn.kind]; exact ⟨token_lf .., token_lf ..⟩
  refine Refs.stmt (stm _ _ _ _ ?_) (by simp [NoRef, strings, lf, Syn.kind]) ?_
  · simp [lf, Syn.kind]; exact ⟨token_lf .., token_lf ..⟩
  refine Refs.stmt (stm _ _ _ _ ?_) (by simp [NoRef, strings, lf, Syn.kind]) ?_
  · simp [lf, Syn.kind]; exact ⟨token_lf .., token_lf .., token_lf .., token_lf ..⟩
  refine Refs.stmt (stm _ _ _ _ ?_) (by simp [NoRef, strings, lf, Syn.kind]) ?_
  · simp [lf, Syn.kind]; exact token_lf ..
  refine Refs.other (.inl rfl) (by simp [lf, Syn.children]) (Refs.other (.inr rfl) ?_ (Refs.other (.inr rfl) ?_ .nil))
  · simp [ex, lf, Syn.children, Syn.kind]
  · simp [ex, lf, Syn.children, Syn.kind]

theorem refs_wf : ImpStmt.Wf refs := ⟨by decide, by simp [refs, ImpStmt.extras], by simp [refs, ImpStmt.extras]⟩

/-- the same template, broken: an error node inside an expression -/
def brokenRoot : Syn := .node .other none 900 ⟨0, 0⟩ ⟨0, 9⟩ (some []) [ex 6 0 0 9 [.node .error none 20 ⟨0, 3⟩ ⟨0, 6⟩ (some c!"a +") []]]

end Fix

/-! ## C70 -/

/-- **C70** Let the syntax tree of a template read as a sequence of tags.  After opening it, documentSymbol lists exactly the bindings of
these tags under bracket matching (C64), in document order. -/
theorem C70_symbols (env : Env) (sx : Syntax) (w w' : World) (s s' : Server) (uri text : Str) (out : List Send) (r : Reply)
    (is : List Item) (he : fileExt uri = some .template)
    (hp : env.parseFails .jinja text ((s.files.trees .template).get? uri) = false)
    (hs : WellFormed (sx.root (openedTree s uri text) text)) (hk : (sx.root (openedTree s uri text) text).kind = .other)
    (hr : Tags sx.digit (sx.root (openedTree s uri text) text).children is)
    (h : s.handle (env.over sx) w (.didOpen uri text) = .ok (s', out, r)) :
    s'.handle (env.over sx) w' (.documentSymbol uri) = .ok (s', [], .symbols (some
      ((Items.bindings (env.rootEnd (openedTree s uri text)) 0 is).map fun b =>
        ⟨b.name, b.kind.symbolKind, toRange (b.start, b.stop), toRange (b.start, b.stop)⟩))) := by
  have hno : ¬ SyntaxError (env.over sx) (openedTree s uri text) text := fun h => tags_no_error hk hr ((over_error ..).mp h)
  obtain ⟨defs, hd, hv⟩ := didOpen_records (env.over sx) w s s' uri text out r he hp (isError_false hno _) h
  obtain ⟨d', hd', hb⟩ := C64_bracket_matching (env.over sx) (openedTree s uri text) Point.zero text is (tags_wf hs hr) (over_definitions hk hr)
  rw [hd] at hd'; cases hd'
  have hb' : defs.identifiers.map Identifier.binding = Items.bindings (env.rootEnd (openedTree s uri text)) 0 is := hb
  simp only [Server.handle, LspFiles.documentSymbols, hv, ← hb', List.map_map, Function.comp_def, Identifier.binding]

/-- the hypotheses of `C70_symbols` hold -/
example : WellFormed (Fix.syn.root (openedTree Fix.server Fix.uriA []) []) ∧ Tags Fix.syn.digit Fix.root.children Fix.tags ∧
    ∃ s' out r, Fix.server.handle (Fix.env.over Fix.syn) Fix.world (.didOpen Fix.uriA []) = .ok (s', out, r) :=
  ⟨Fix.root_sound, Fix.tags_read, _, _, _, rfl⟩

/-- the binding found: `a`, visible up to `{% endif %}` -/
example : Items.bindings ⟨9, 9⟩ 0 Fix.tags = [⟨c!"a", ⟨2, 7⟩, ⟨2, 8⟩, .setVariable, ⟨3, 0⟩⟩] := by decide

/-! ## C71 -/

/-- **C71** Let the syntax tree of a template read as a sequence of tags, of uses of names and of references.  Opening or saving it
publishes: for the uses, what the bindings of the tags say; for the references, those that are not found. -/
theorem C71_diagnostics (env : Env) (sx : Syntax) (w : World) (s s' : Server) (m : Msg) (uri text : Str) (tree : Tree) (out : List Send)
    (r : Reply) (is : List Item) (es : List Elem) (ss : List ImpStmt) (hm : m.Analyses uri) (he : fileExt uri = some .template)
    (hig : s.files.ignoreGlobals = false) (h : s.handle (env.over sx) w m = .ok (s', out, r))
    (hd : s'.files.documents.get? uri = some text) (ht : (s'.files.trees .template).get? uri = some tree)
    (hs : WellFormed (sx.root tree text)) (hk : (sx.root tree text).kind = .other)
    (hr : Tags sx.digit (sx.root tree text).children is) (hu : ReadsTree sx.digit (sx.root tree text) es) (hes : Elems.Wf es)
    (hi : Refs sx.options (sx.root tree text).children ss) (hss : ImpStmt.Wf ss) :
    ∃ ds, out = [.diag (HMap.empty.insert uri ds)] ∧
      useDiags ds = useReports (Items.bindings (env.rootEnd tree) 0 is)
        ((Items.bindings (env.rootEnd tree) 0 is).map (·.name) ++ knownElsewhere s.files.variables uri) (Elems.uses es) ∧
      (missingDiags ds).Perm (refReports w s.files.config.templates true (ImpStmt.refs ss)) := by
  have hno : ¬ SyntaxError (env.over sx) tree text := fun h => tags_no_error hk hr ((over_error ..).mp h)
  obtain ⟨defs, h1, hv⟩ := (analyses_records hm he h hd ht).1 hno
  obtain ⟨defs', h2, h3⟩ := C64_bracket_matching (env.over sx) tree Point.zero text is (tags_wf hs hr) (over_definitions hk hr)
  rw [h1] at h2
  cases h2
  have h3' : defs.identifiers.map Identifier.binding = Items.bindings (env.rootEnd tree) 0 is := h3
  obtain ⟨ds, h4, h5⟩ := C25_reports_partial (env.over sx) w s s' m uri out r _ _ hm he hig h (readObjects_eq he hd ht) hv
  obtain ⟨ds', h6, h7⟩ := C28_template_partial (env.over sx) w s s' m uri out r text tree _ ss hm he h hd ht hv hss (over_imports hk hi)
  have hds : ds = ds' := by
    rw [h4] at h6
    have e : (HMap.empty.insert uri ds : HMap Str Diags).get? uri = (HMap.empty.insert uri ds').get? uri := by
      injection h6 with h6 _; injection h6 with h6; rw [h6]
    rw [HMap.get?_insert_self, HMap.get?_insert_self] at e
    exact Option.some.inj e
  subst hds
  refine ⟨ds, h4, ?_, h7⟩
  rw [h5, h3', usesIn_elems hes (over_objects hu)]

/-- the hypotheses of `C71_diagnostics` hold -/
example : Tags Fix.syn.digit Fix.root.children Fix.tags ∧ ReadsTree Fix.syn.digit Fix.root Fix.elems ∧ Elems.Wf Fix.elems ∧
    Refs Fix.syn.options Fix.root.children Fix.refs ∧ ImpStmt.Wf Fix.refs ∧
    ∃ s' out r, Fix.server.handle (Fix.env.over Fix.syn) Fix.emptyWorld (.didOpen Fix.uriA []) = .ok (s', out, r) ∧
      s'.files.documents.get? Fix.uriA = some [] ∧
      (s'.files.trees .template).get? Fix.uriA = some (.parsed .jinja [] (some (.parsed .jinja c!"aaa" none))) :=
  ⟨Fix.tags_read, Fix.elems_read, Fix.elems_wf, Fix.refs_read _, Fix.refs_wf, _, _, _, rfl, rfl, rfl⟩

/-- what is reported: `c`, `b`, and `a` after its scope; the missing include -/
example : useReports (Items.bindings ⟨9, 9⟩ 0 Fix.tags) [c!"a"] (Elems.uses Fix.elems) =
      [⟨.undefined, c!"c", ⟨1, 6⟩, ⟨1, 7⟩⟩, ⟨.undefined, c!"a", ⟨4, 3⟩, ⟨4, 4⟩⟩, ⟨.undefined, c!"b", ⟨4, 10⟩, ⟨4, 11⟩⟩] ∧
    refReports Fix.emptyWorld [] true (ImpStmt.refs Fix.refs) = [⟨.templateNotFound, c!"x.html", ⟨0, 11⟩, ⟨0, 19⟩⟩] := by decide

/-! ## C72 -/

/-- **C72** Opening or saving a template whose syntax tree has an error node anywhere clears what was recorded for it and records
nothing; otherwise everything the definitions query finds is recorded. -/
theorem C72_analysed_iff (env : Env) (sx : Syntax) (w w' : World) (s s' : Server) (m : Msg) (uri text : Str) (tree : Tree)
    (out : List Send) (r : Reply) (hm : m.Analyses uri) (he : fileExt uri = some .template)
    (h : s.handle (env.over sx) w m = .ok (s', out, r))
    (hd : s'.files.documents.get? uri = some text) (ht : (s'.files.trees .template).get? uri = some tree) :
    (HasError (sx.root tree text) → s'.handle (env.over sx) w' (.documentSymbol uri) =
      .ok (s', [], .symbols ((s.files.variables.get? uri).map fun _ => []))) ∧
    (¬ HasError (sx.root tree text) → ∃ defs, definitionQuery (env.over sx) tree Point.zero text true = .ok defs ∧
      s'.files.variables.get? uri = some defs.identifiers) := by
  obtain ⟨h1, h2⟩ := analyses_records hm he h hd ht
  refine ⟨fun hh => ?_, fun hh => h1 fun h => hh ((over_error ..).mp h)⟩
  have hv := h2 ((over_error ..).mpr hh)
  cases ho : s.files.variables.get? uri with
  | none => rw [ho] at hv; simp only [Server.handle, LspFiles.documentSymbols, hv, Option.map_none]
  | some l => rw [ho] at hv; simp only [Server.handle, LspFiles.documentSymbols, hv, Option.map_some, List.map_nil]

/-- both cases occur -/
example : HasError Fix.brokenRoot ∧ ¬ HasError Fix.root := by
  constructor
  · exact ⟨.node .error none 20 ⟨0, 3⟩ ⟨0, 6⟩ (some c!"a +") [], by simp [Fix.brokenRoot, Fix.ex, Syn.flat, Syn.flatAll], rfl⟩
  · exact tags_no_error rfl Fix.tags_read

/-! ## C73 -/

/-- names that are captured are not numerals -/
theorem definitions_names {digit : Char → Bool} {root : Syn} {c : Capture} (h : c ∈ (Syn.walk (qDefinitions digit) [] [] root).flatten)
    (hn : c.name = .id) : ∃ n ∈ root.flat, n.kind = .identifier ∧ n.text = c.text ∧ n.start = c.start ∧ n.stop = c.stop ∧
      ∀ t, c.text = some t → ¬ IsNumeral digit t := by
  obtain ⟨m, hm, hc⟩ := List.mem_flatten.mp h
  obtain ⟨x, hx, v, hm⟩ := (Syn.mem_walk [] [] root).mp hm
  cases v with
  | leave => cases hm
  | enter =>
    have key : ∀ {b : Bool} {cn : CapName} {m : List Capture}, m ∈ single b cn x.1 x.2.2 → c ∈ m → cn ≠ .expr → cn ≠ .identifier →
        cn = .id ∧ b = true := by
      intro b cn m hm hc h1 h2
      unfold single at hm
      split at hm
      · rename_i hb
        cases List.mem_singleton.mp hm
        cases List.mem_singleton.mp hc
        cases cn <;> first | exact ⟨rfl, hb⟩ | cases hn
      · cases hm
    simp only [qDefinitions] at hm
    split at hm
    · split at hm
      · split at hm
        · obtain ⟨p, _, rfl⟩ := List.mem_map.mp hm
          rcases List.mem_append.mp hc with hc | hc
          · obtain ⟨q, _, rfl⟩ := List.mem_map.mp hc
            cases hn
          · cases List.mem_singleton.mp hc; cases hn
        · cases hm
      · cases hm
    · rename_i hk
      have hb := (key hm hc (by simp) (by simp)).2
      rw [hb] at hm
      cases List.mem_singleton.mp (show m ∈ [[x.2.2.cap .id x.1]] from hm)
      cases List.mem_singleton.mp hc
      refine ⟨x.2.2, (Syn.mem_flat_iff [] [] root).mpr ⟨x, hx, rfl⟩, hk, rfl, rfl, rfl, ?_⟩
      intro t ht hnum
      have e : x.2.2.text = some t := ht
      have : (tokOf x.2.2).text = t := by simp [tokOf, e]
      rw [← this] at hnum
      rw [numeral_of_isNumeral hnum] at hb
      cases hb
    · rcases List.mem_append.mp hm with hm | hm
      · rcases List.mem_append.mp hm with hm | hm <;> cases (key hm hc (by simp) (by simp)).1
      · cases (key hm hc (by simp) (by simp)).1
    · cases (key hm hc (by simp) (by simp)).1
    · cases (key hm hc (by simp) (by simp)).1
    · cases hm

theorem objects_names {digit : Char → Bool} {root : Syn} {c : Capture} (h : c ∈ (Syn.walk (qObjects digit) [] [] root).flatten)
    (hn : c.name = .justId) : ∃ n ∈ root.flat, n.kind = .identifier ∧ n.text = c.text ∧ n.start = c.start ∧ n.stop = c.stop ∧
      ∀ t, c.text = some t → ¬ IsNumeral digit t := by
  obtain ⟨m, hm, hc⟩ := List.mem_flatten.mp h
  obtain ⟨x, hx, v, hm⟩ := (Syn.mem_walk [] [] root).mp hm
  cases v with
  | leave => cases hm
  | enter =>
    have key : ∀ {b : Bool} {cn : CapName} {m : List Capture}, m ∈ single b cn x.1 x.2.2 → c ∈ m → cn = .justId ∧ b = true := by
      intro b cn m hm hc
      unfold single at hm
      split at hm
      · rename_i hb
        cases List.mem_singleton.mp hm
        cases List.mem_singleton.mp hc
        cases cn <;> first | exact ⟨rfl, hb⟩ | cases hn
      · cases hm
    simp only [qObjects] at hm
    split at hm
    · rcases List.mem_append.mp hm with hm | hm <;> cases (key hm hc).1
    · rename_i hk
      have hb := (key hm hc).2
      rw [hb] at hm
      cases List.mem_singleton.mp (show m ∈ [[x.2.2.cap .justId x.1]] from hm)
      cases List.mem_singleton.mp hc
      refine ⟨x.2.2, (Syn.mem_flat_iff [] [] root).mpr ⟨x, hx, rfl⟩, hk, rfl, rfl, rfl, ?_⟩
      intro t ht hnum
      have e : x.2.2.text = some t := ht
      have : (tokOf x.2.2).text = t := by simp [tokOf, e]
      rw [← this] at hnum
      rw [numeral_of_isNumeral hnum] at hb
      cases hb
    · cases (key hm hc).1
    · cases (key hm hc).1
    · cases (key hm hc).1
    · cases hm

/-- **C73** (symbols) Whatever the syntax tree, after opening or saving a template documentSymbol lists no numeral. -/
theorem C73_symbols (env : Env) (sx : Syntax) (w w' : World) (s s' : Server) (m : Msg) (uri text : Str) (tree : Tree)
    (out : List Send) (r : Reply) (hm : m.Analyses uri) (he : fileExt uri = some .template)
    (h : s.handle (env.over sx) w m = .ok (s', out, r))
    (hd : s'.files.documents.get? uri = some text) (ht : (s'.files.trees .template).get? uri = some tree) :
    ∃ l, s'.handle (env.over sx) w' (.documentSymbol uri) = .ok (s', [], .symbols l) ∧
      ∀ syms, l = some syms → ∀ y ∈ syms, ¬ IsNumeral sx.digit y.name := by
  obtain ⟨h1, h2⟩ := analyses_records hm he h hd ht
  by_cases hh : SyntaxError (env.over sx) tree text
  · have hv := h2 hh
    cases ho : s.files.variables.get? uri with
    | none =>
      rw [ho] at hv
      exact ⟨none, by simp only [Server.handle, LspFiles.documentSymbols, hv, Option.map_none], by intro _ h; cases h⟩
    | some l =>
      rw [ho] at hv
      exact ⟨some [], by simp only [Server.handle, LspFiles.documentSymbols, hv, Option.map_some, List.map_nil], by
        intro _ h; cases h; intro y hy; cases hy⟩
  · obtain ⟨defs, hq, hv⟩ := h1 hh
    refine ⟨some (defs.identifiers.map fun v => ⟨v.name, v.idType.symbolKind, toRange (v.start, v.stop), toRange (v.start, v.stop)⟩),
      by simp only [Server.handle, LspFiles.documentSymbols, hv], ?_⟩
    rintro _ ⟨⟩ y hy hnum
    obtain ⟨i, hi, rfl⟩ := List.mem_map.mp hy
    rcases C14_from_text _ _ _ _ _ _ hq i hi with ⟨h0, _, _⟩ | ⟨c, hc, hn, ht', _⟩
    · have hnum : IsNumeral sx.digit i.name := hnum
      exact hnum.1 h0
    · obtain ⟨_, _, _, _, _, _, h3⟩ := definitions_names hc hn
      exact h3 _ ht' hnum

/-- **C73** (uses) Whatever the syntax tree, no numeral is reported as a use of a name or as an attribute. -/
theorem C73_uses (env : Env) (sx : Syntax) (f : LspFiles) (uri : Str) (uses : List JinjaObject)
    (h : f.readObjects (env.over sx) uri = .ok (some uses)) :
    ∀ u ∈ uses, ¬ IsNumeral sx.digit u.name ∧ ∀ a ∈ u.fields, ¬ IsNumeral sx.digit a.1 := by
  unfold LspFiles.readObjects at h
  split at h
  · split at h
    · cases h
    · split at h
      · cases h
      · rename_i o ho
        cases h
        have hf := JinjaObjects.from_query ho
        intro u hu
        refine ⟨?_, fun a ha => ?_⟩
        · obtain ⟨c, hc, hn, ht, _⟩ := hf.objects u hu
          obtain ⟨_, _, _, _, _, _, h3⟩ := objects_names hc hn
          exact h3 _ ht
        · obtain ⟨c, hc, hn, ht, _⟩ := hf.fields u hu a ha
          obtain ⟨_, _, _, _, _, _, h3⟩ := objects_names hc hn
          exact h3 _ ht
  · cases h

/-- the numeral of the template above is a name of the tree that neither query reports -/
example : (Fix.lf .identifier 18 2 11 12 c!"1") ∈ Fix.root.flat ∧ IsNumeral Fix.digit c!"1" ∧
    ∃ s' out r, Fix.server.handle (Fix.env.over Fix.syn) Fix.world (.didOpen Fix.uriA []) = .ok (s', out, r) ∧
      ∃ uses, s'.files.readObjects (Fix.env.over Fix.syn) Fix.uriA = .ok (some uses) ∧ uses.length = 5 :=
  ⟨by simp [Fix.root, Fix.nodes, Syn.flat, Syn.flatAll, Fix.st, Fix.ex, Fix.lf], by decide, _, _, _, rfl, _, rfl, rfl⟩

end JinjaLsp
