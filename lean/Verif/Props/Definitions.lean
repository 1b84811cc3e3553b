import Verif.Lemmas.Items
import Verif.Lemmas.Open
import Verif.Props.Fixtures
/-
  C11–C16: what the server records as definitions of a template.
-/

namespace JinjaLsp
open Spec JinjaDefinitions

/-! ## C11 -/

/-- the recorded bindings after running over a stream, when the state reached is known -/
theorem definitionQuery_of_run {env : Env} {tree : Tree} {p : Point} {text : Str} {cs : List Capture}
    {s : JinjaDefinitions} (hc : (env.queryMatches .jinjaDefinitions tree text).flatten = cs)
    (hr : run JinjaDefinitions.default cs = .ok s) :
    definitionQuery env tree p text true = .ok (s.fixEnd (env.rootEnd tree)) ∧
    (s.fixEnd (env.rootEnd tree)).identifiers.map Identifier.binding =
      s.view.defs.flatMap (resolve (lookupEnd s.view.closed (env.rootEnd tree))) := by
  constructor
  · unfold definitionQuery; rw [selectCaptures_all, hc, hr]
  · rw [bindings_fixEnd]
    congr 1
    funext d
    congr 1
    funext n
    exact scopeEndOf_eq _ _ _

theorem closed_nodup {t : Tpl} (h : t.nodes.Nodup) : ((closedBy t).map Prod.fst).Nodup :=
  (closedBy_sublist t).resolve_right (fun h' => h' h)

/-- **C11** For every well-nested template of any depth, the definitions recorded are exactly its bindings, in order, each
visible up to the start of the end tag of the enclosing block or to the end of the document. -/
theorem C11_scopes (env : Env) (tree : Tree) (p : Point) (text : Str) (t : Tpl) (hw : t.Wf)
    (hc : (env.queryMatches .jinjaDefinitions tree text).flatten = t.caps) :
    ∃ s, definitionQuery env tree p text true = .ok s ∧
      s.identifiers.map Identifier.binding = t.bindings (env.rootEnd tree) := by
  obtain ⟨s, hr, _, hv, _⟩ := runs_tpl t JinjaDefinitions.default hw.ok hw.nodup idle_default (by intro n _ h; cases h)
  obtain ⟨h1, h2⟩ := definitionQuery_of_run (p := p) hc hr.eq
  refine ⟨_, h1, ?_⟩
  rw [h2, hv, view_default]
  simp only [List.nil_append, List.headD_nil]
  apply resolve_tpl
  · apply lookupEnd_not_mem
    intro h
    obtain ⟨e, he, e0⟩ := List.mem_map.mp h
    exact hw.nonzero (e0 ▸ closedBy_subset t e he)
  · intro e he
    exact lookupEnd_mem (closed_nodup hw.nodup) _ he

/-- opening a template without syntax error records its definitions -/
theorem didOpen_records (env : Env) (w : World) (s s' : Server) (uri text : Str) (out : List Send) (r : Reply)
    (he : fileExt uri = some .template)
    (hp : env.parseFails .jinja text ((s.files.trees .template).get? uri) = false)
    (hsn : (snippetsQuery env (.parsed .jinja text ((s.files.trees .template).get? uri)) Point.zero text true).isError = false)
    (h : s.handle env w (.didOpen uri text) = .ok (s', out, r)) :
    ∃ defs, definitionQuery env (.parsed .jinja text ((s.files.trees .template).get? uri)) Point.zero text true = .ok defs ∧
      s'.files.variables.get? uri = some defs.identifiers := by
  simp only [Server.handle] at h
  split at h
  · cases h
  · rename_i f m hf
    cases h
    obtain ⟨h1, _⟩ := LspFiles.didOpen_inv he hf
    obtain ⟨defs, hd, rfl⟩ := LspFiles.addVariables_template (LspFiles.openBase_tree hp) hsn h1
    exact ⟨defs, hd, HMap.get?_insert_self ..⟩

/-- **C11** at the interface: after opening a well-nested template, documentSymbol lists exactly its bindings -/
theorem C11_symbols (env : Env) (w w' : World) (s s' : Server) (uri text : Str) (out : List Send) (r : Reply) (t : Tpl)
    (hw : t.Wf) (he : fileExt uri = some .template)
    (hp : env.parseFails .jinja text ((s.files.trees .template).get? uri) = false)
    (hsn : (snippetsQuery env (.parsed .jinja text ((s.files.trees .template).get? uri)) Point.zero text true).isError = false)
    (hc : (env.queryMatches .jinjaDefinitions (.parsed .jinja text ((s.files.trees .template).get? uri)) text).flatten = t.caps)
    (h : s.handle env w (.didOpen uri text) = .ok (s', out, r)) :
    s'.handle env w' (.documentSymbol uri) = .ok (s', [], .symbols (some
      ((t.bindings (env.rootEnd (.parsed .jinja text ((s.files.trees .template).get? uri)))).map fun b =>
        ⟨b.name, b.kind.symbolKind, toRange (b.start, b.stop), toRange (b.start, b.stop)⟩))) := by
  obtain ⟨defs, hd, hv⟩ := didOpen_records env w s s' uri text out r he hp hsn h
  obtain ⟨d', hd', hb⟩ := C11_scopes env _ Point.zero text t hw hc
  rw [hd] at hd'; cases hd'
  simp only [Server.handle, LspFiles.documentSymbols, hv, ← hb, List.map_map, Function.comp_def, Identifier.binding]

namespace Fix

/-- a token on line `l`, columns `a`–`b` -/
def tok (l a b : Nat) (t : Str) (n : Nat) : Tok := ⟨⟨l, a⟩, ⟨l, b⟩, t, n⟩
/-- statement delimiters on line `l` -/
def dl (l a b : Nat) : Delims := ⟨tok l a (a + 2) c!"{%" (1000 + l), tok l b (b + 2) c!"%}" (2000 + l)⟩

/-- ```
{% macro m(p) %}
  {% set a = x %}
  {% for i in p %}
    {{ i }}
  {% endfor %}
{% endmacro %}
{% set b = 1 %}
``` -/
def tpl : Tpl :=
  .blk (dl 0 0 14) (.macro_ (tok 0 3 8 c!"macro" 1) (tok 0 9 10 c!"m" 2) [.name (tok 0 11 12 c!"p" 3)])
    (.leaf (.set (dl 1 2 15) (tok 1 5 8 c!"set" 4) (tok 1 9 10 c!"a" 5) [.eq (tok 1 11 12 c!"=" 6), .name (tok 1 13 14 c!"x" 7)])
      (.blk (dl 2 2 16) (.for_ (tok 2 5 8 c!"for" 8) (tok 2 9 10 c!"i" 9) [.name (tok 2 14 15 c!"p" 10)])
        (.leaf (.expr [.name (tok 3 7 8 c!"i" 11)]) .nil)
        (dl 4 2 12) (tok 4 5 11 c!"endfor" 12) [] .nil))
    (dl 5 0 12) (tok 5 3 11 c!"endmacro" 13) []
    (.leaf (.set (dl 6 0 12) (tok 6 3 6 c!"set" 14) (tok 6 7 8 c!"b" 15) [.eq (tok 6 9 10 c!"=" 16)]) .nil)

theorem tpl_wf : tpl.Wf :=
  ⟨by simp [Tpl.Ok, tpl, Head.Ok, Leaf.Ok, tok], by decide, by decide⟩

/-- the expected result, in full -/
theorem tpl_bindings : tpl.bindings ⟨9, 9⟩ =
    [⟨c!"m", ⟨0, 9⟩, ⟨0, 10⟩, .macroName, ⟨9, 9⟩⟩, ⟨c!"p", ⟨0, 11⟩, ⟨0, 12⟩, .macroParameter, ⟨5, 0⟩⟩,
     ⟨c!"a", ⟨1, 9⟩, ⟨1, 10⟩, .setVariable, ⟨5, 0⟩⟩, ⟨c!"i", ⟨2, 9⟩, ⟨2, 10⟩, .forLoopKey, ⟨4, 2⟩⟩,
     ⟨c!"b", ⟨6, 7⟩, ⟨6, 8⟩, .setVariable, ⟨9, 9⟩⟩] := by decide

theorem flatten_singletons {α : Type} (l : List α) : (l.map fun c => [c]).flatten = l := by
  induction l with
  | nil => rfl
  | cons a l ih => simp [ih]

/-- `envWith` delivers exactly the given captures -/
theorem envWith_caps (q : QueryId) (cs : List Capture) (tree : Tree) (text : Str) :
    ((envWith q cs).queryMatches q tree text).flatten = cs := by
  simp [envWith, flatten_singletons]

end Fix

example : ((Fix.envWith .jinjaDefinitions Fix.tpl.caps).queryMatches .jinjaDefinitions (.parsed .jinja [] none) []).flatten =
    Fix.tpl.caps := Fix.envWith_caps ..

/-- the hypotheses of `C11_symbols` hold for the macro template above -/
example : (snippetsQuery (Fix.envWith .jinjaDefinitions Fix.tpl.caps) (.parsed .jinja [] none) Point.zero [] true).isError = false ∧
    ∃ s' out r, Fix.server.handle (Fix.envWith .jinjaDefinitions Fix.tpl.caps) Fix.world (.didOpen c!"file:///n.html" []) =
      .ok (s', out, r) := ⟨by decide, _, _, _, rfl⟩

/-! ## C64: the scope rule for arbitrary sequences of tags -/

/-- **C64** For every sequence of tags, well-nested or not, the definitions recorded are the bindings under bracket
matching in which `else`, `elif` and inline `if`/`else` count as opening brackets and every end tag (also `endset`) as a
closing one. -/
theorem C64_bracket_matching (env : Env) (tree : Tree) (p : Point) (text : Str) (is : List Item) (hw : Items.Wf is)
    (hc : (env.queryMatches .jinjaDefinitions tree text).flatten = is.flatMap Item.caps) :
    ∃ s, definitionQuery env tree p text true = .ok s ∧
      s.identifiers.map Identifier.binding = Items.bindings (env.rootEnd tree) 0 is := by
  obtain ⟨s, hr, hd, hcl⟩ := runs_items is JinjaDefinitions.default hw.ok hw.nodup idle_default (by intro n _ h; cases h)
  obtain ⟨h1, h2⟩ := definitionQuery_of_run (p := p) hc hr.eq
  refine ⟨_, h1, ?_⟩
  rw [h2, hd, hcl, view_default]
  have := resolve_items (env.rootEnd tree) is [] [] (by simpa using hw.nodup) (by simp) (by simp) hw.nonzero (by simp)
  simpa using this

/-! ## C12 -/

/-- a template whose only deviation from well-nestedness is one block `h … else … else … e` at top level -/
def topBranches (pre : Tpl) (d : Delims) (h : Head) (body : Tpl) (bs : List Branch) (e : EndTag) (rest : Tpl) : List Item :=
  pre.items ++ .opening d h :: (body.items ++ (bs.flatMap Branch.items ++ .closing e :: rest.items))

theorem matchEnd_tpl_none (t : Tpl) (k : Nat) : matchEnd k t.items = none := by
  have := matchEnd_tpl t k []
  rw [List.append_nil] at this
  rw [this]; rfl

theorem bindings_tpl_nil (last : Point) (t : Tpl) (depth : Nat) : Items.bindings last depth t.items = t.bindings last := by
  have := bindings_tpl last t depth []
  rw [List.append_nil] at this
  rw [this]
  cases depth <;> simp [Items.bindings, matchEnd]

/-- bindings of the branches before a closing tag that ends only one scope -/
theorem bindings_branches (last : Point) (r : List Item) (hr : ∀ k, matchEnd (k + 1) r = none) (b : Branch) :
    ∀ (bs : List Branch) (depth : Nat),
      Items.bindings last depth ((bs ++ [b]).flatMap Branch.items ++ r) =
        bs.flatMap (fun b => b.body.bindings last) ++ b.body.bindings ((matchEnd 0 r).getD last) ++
          Items.bindings last (depth + bs.length + 1) r
  | [], depth => by
    simp only [List.nil_append, List.flatMap_cons, List.flatMap_nil, List.append_nil, Branch.items, List.cons_append,
      Items.bindings, Head.bindings, bindings_tpl, Nat.add_one_ne_zero, if_false, List.length_nil, Nat.add_zero]
  | b' :: bs, depth => by
    have hm : matchEnd 0 ((bs ++ [b]).flatMap Branch.items ++ r) = none := by
      rw [matchEnd_branches]; simp only [List.length_append, List.length_cons, List.length_nil]
      exact hr _
    have ih := bindings_branches last r hr b bs (depth + 1)
    rw [List.cons_append, List.flatMap_cons, List.append_assoc]
    simp only [Branch.items, List.cons_append, Items.bindings, Head.bindings, List.nil_append, bindings_tpl, hm,
      Nat.add_one_ne_zero, if_false, Option.getD_none]
    have : depth + 1 + bs.length + 1 = depth + (b' :: bs).length + 1 := by simp; omega
    rw [ih, this]
    simp only [List.flatMap_cons, List.append_assoc]

/-- **C12** (part) With `else`/`elif` branches in a block at top level, what is recorded for everything outside that
block is unchanged, and the last branch has its correct scope.  Missing: nested blocks and the variables of the earlier
branches (recorded as visible to the end of the document), for which the claim is false (below). -/
theorem C12_toplevel_branches_partial (last : Point) (pre : Tpl) (d : Delims) (kw : Tok) (ts : List HTok) (body : Tpl)
    (bs : List Branch) (b : Branch) (e : EndTag) (rest : Tpl) :
    Items.bindings last 0 (topBranches pre d (.plain kw ts) body (bs ++ [b]) e rest) =
      pre.bindings last ++ (body.bindings last ++ bs.flatMap (fun b => b.body.bindings last)) ++
        b.body.bindings e.start ++ rest.bindings last := by
  have hr : ∀ k, matchEnd (k + 1) (.closing e :: rest.items) = none := by
    intro k; rw [matchEnd]; exact matchEnd_tpl_none rest k
  have hm : matchEnd 0 ((bs ++ [b]).flatMap Branch.items ++ .closing e :: rest.items) = none := by
    rw [matchEnd_branches]; simp only [List.length_append, List.length_cons, List.length_nil]; exact hr _
  have he := bindings_branches last _ hr b bs 1
  simp only [topBranches, bindings_tpl, Items.bindings, Head.bindings, List.nil_append, if_true,
    Nat.zero_add, he, hm, Nat.one_ne_zero, if_false, matchEnd, Option.getD_some, Option.getD_none, bindings_tpl_nil,
    List.append_assoc]

/-- **C12** (part) A block-form `set` at top level leaves everything else as it is. -/
theorem C12_toplevel_endset_partial (last : Point) (pre : Tpl) (d : Delims) (kw target : Tok) (ts : List HTok) (body : Tpl)
    (e : EndTag) (rest : Tpl) :
    Items.bindings last 0 (pre.items ++ .leaf (.set d kw target ts) :: (body.items ++ .closing e :: rest.items)) =
      pre.bindings last ++ target.bind .setVariable last :: (body.bindings last ++ rest.bindings last) := by
  simp only [bindings_tpl, Items.bindings, if_true, bindings_tpl_nil, Nat.zero_sub]

/-- **C12 is false** for nested blocks.  Let a block `h` contain a block with at least one `else`/`elif` branch.  Then the
variables of `h` are recorded as visible to the end of the document instead of to the end tag of `h`
(`Head.bindings e.start …`, as `C11` requires without the branches); so are the variables of the inner block. -/
theorem C12_else_refuted (last : Point) (pre : Tpl) (d : Delims) (h : Head) (pre2 : Tpl) (d2 : Delims) (h2 : Head) (body : Tpl)
    (bs : List Branch) (b : Branch) (e2 : EndTag) (post : Tpl) (e : EndTag) (rest : Tpl) :
    ∃ after, Items.bindings last 0
        (pre.items ++ .opening d h :: (pre2.items ++ .opening d2 h2 :: (body.items ++ ((b :: bs).flatMap Branch.items ++
          .closing e2 :: (post.items ++ .closing e :: rest.items))))) =
      pre.bindings last ++ h.bindings last last ++ after := by
  have hm : matchEnd 0 (pre2.items ++ .opening d2 h2 :: (body.items ++ ((b :: bs).flatMap Branch.items ++
      .closing e2 :: (post.items ++ .closing e :: rest.items)))) = none := by
    rw [matchEnd_tpl, matchEnd, matchEnd_tpl, matchEnd_branches]
    simp only [List.length_cons]
    have : 0 + 1 + (bs.length + 1) = bs.length + 1 + 1 := by omega
    rw [this, matchEnd, matchEnd_tpl, matchEnd, matchEnd_tpl_none]
  refine ⟨Items.bindings last 1 (pre2.items ++ .opening d2 h2 :: (body.items ++ ((b :: bs).flatMap Branch.items ++
      .closing e2 :: (post.items ++ .closing e :: rest.items)))), ?_⟩
  rw [bindings_tpl, Items.bindings, hm]
  simp only [if_true, Option.getD_none, List.append_assoc, Nat.zero_add]

/-- **C12 is false** for loops with `else`: at top level too, the loop variable is recorded as visible to the end of the
document instead of to the end tag. -/
theorem C12_loop_else_refuted (last : Point) (pre : Tpl) (d : Delims) (h : Head) (body : Tpl) (b : Branch) (bs : List Branch)
    (e : EndTag) (rest : Tpl) :
    ∃ after, Items.bindings last 0 (topBranches pre d h body (b :: bs) e rest) =
      pre.bindings last ++ h.bindings last last ++ body.bindings last ++ after := by
  have hm : matchEnd 0 ((b :: bs).flatMap Branch.items ++ .closing e :: rest.items) = none := by
    rw [matchEnd_branches]
    simp only [List.length_cons]
    have : 0 + (bs.length + 1) = bs.length + 1 := by omega
    rw [this, matchEnd, matchEnd_tpl_none]
  refine ⟨Items.bindings last 1 ((b :: bs).flatMap Branch.items ++ .closing e :: rest.items), ?_⟩
  simp only [topBranches, bindings_tpl, Items.bindings, if_true, matchEnd_tpl, hm, Option.getD_none, Nat.zero_add,
    Nat.one_ne_zero, if_false, List.append_assoc]

/-- **C12 is false** for `set` blocks: inside a block `h`, `{% endset %}` ends the scope of the variables of `h`. -/
theorem C12_endset_refuted (last : Point) (pre : Tpl) (d : Delims) (h : Head) (pre2 : Tpl) (d2 : Delims) (kw target : Tok)
    (ts : List HTok) (body : Tpl) (eset : EndTag) (post : Tpl) (e : EndTag) (rest : Tpl) :
    Items.bindings last 0
        (pre.items ++ .opening d h :: (pre2.items ++ .leaf (.set d2 kw target ts) :: (body.items ++ .closing eset ::
          (post.items ++ .closing e :: rest.items)))) =
      pre.bindings last ++ h.bindings eset.start last ++ pre2.bindings eset.start ++
        target.bind .setVariable eset.start :: body.bindings eset.start ++ post.bindings last ++ rest.bindings last := by
  simp only [bindings_tpl, Items.bindings, if_true, matchEnd_tpl, matchEnd, Option.getD_some, Nat.zero_add,
    Nat.one_ne_zero, if_false, Nat.sub_self, Nat.zero_sub, bindings_tpl_nil, List.append_assoc, List.cons_append]

/-- **C12 is false** for conditional expressions: `{{ a if b else c }}` inside a block `h` makes the variables of `h` visible
to the end of the document. -/
theorem C12_inline_if_refuted (last : Point) (pre : Tpl) (d : Delims) (h : Head) (pre2 : Tpl) (kw1 kw2 : Tok) (ts1 ts2 : List HTok)
    (post : Tpl) (e : EndTag) (rest : Tpl) :
    ∃ after, Items.bindings last 0
        (pre.items ++ .opening d h :: (pre2.items ++ .inline kw1 ts1 :: .inline kw2 ts2 ::
          (post.items ++ .closing e :: rest.items))) =
      pre.bindings last ++ h.bindings last last ++ after := by
  have hm : matchEnd 0 (pre2.items ++ .inline kw1 ts1 :: .inline kw2 ts2 :: (post.items ++ .closing e :: rest.items)) = none := by
    rw [matchEnd_tpl, matchEnd, matchEnd, matchEnd_tpl, matchEnd, matchEnd_tpl_none]
  refine ⟨Items.bindings last 1 (pre2.items ++ .inline kw1 ts1 :: .inline kw2 ts2 :: (post.items ++ .closing e :: rest.items)), ?_⟩
  simp only [bindings_tpl (t := pre), Items.bindings, hm, if_true, Option.getD_none, Nat.zero_add, List.append_assoc]

namespace Fix

/-- ```
{% for i in x %}
{% if i %}
{% else %}
{% endif %}
{% endfor %}
``` -/
def elseItems : List Item :=
  [.opening (dl 0 0 14) (.for_ (tok 0 3 6 c!"for" 1) (tok 0 7 8 c!"i" 2) [.name (tok 0 12 13 c!"x" 3)]),
   .opening (dl 1 0 8) (.plain (tok 1 3 5 c!"if" 4) [.name (tok 1 6 7 c!"i" 5)]),
   .opening (dl 2 0 8) (.plain (tok 2 3 7 c!"else" 6) []),
   .closing ⟨tok 3 3 8 c!"endif" 7, [], dl 3 0 9⟩,
   .closing ⟨tok 4 3 9 c!"endfor" 8, [], dl 4 0 10⟩]

theorem elseItems_wf : Items.Wf elseItems :=
  ⟨by intro i hi; simp [elseItems] at hi; rcases hi with rfl | rfl | rfl | rfl | rfl <;> simp [Item.Ok, Head.Ok, tok],
   by decide, by decide⟩

end Fix

/-- the loop variable leaks: it ends at the end of the document (9, 9), not at line 4 -/
example : Items.bindings ⟨9, 9⟩ 0 Fix.elseItems = [⟨c!"i", ⟨0, 7⟩, ⟨0, 8⟩, .forLoopKey, ⟨9, 9⟩⟩] := by decide
/-- without the `else` it ends at line 4 -/
example : Items.bindings ⟨9, 9⟩ 0 (Fix.elseItems.eraseIdx 2) = [⟨c!"i", ⟨0, 7⟩, ⟨0, 8⟩, .forLoopKey, ⟨4, 0⟩⟩] := by decide
/-- and this is what the server records -/
example : ∃ s, definitionQuery (Fix.envWith .jinjaDefinitions (Fix.elseItems.flatMap Item.caps)) (.parsed .jinja [] none) Point.zero
      [] true = .ok s ∧ s.identifiers.map Identifier.binding = [⟨c!"i", ⟨0, 7⟩, ⟨0, 8⟩, .forLoopKey, ⟨9, 9⟩⟩] :=
  C64_bracket_matching _ _ _ _ Fix.elseItems Fix.elseItems_wf (Fix.envWith_caps ..)

/-! ## C13 -/

/-- what an opening tag binds is one contiguous part of what its template binds -/
theorem heads_infix : ∀ (t : Tpl) (last : Point) (h : Head) (e : Point), (h, e) ∈ t.heads →
    ∃ outer a b, t.bindings last = a ++ h.bindings e outer ++ b
  | .nil, _, _, _, hm => by cases hm
  | .leaf l rest, last, h, e, hm => by
    obtain ⟨outer, a, b, hb⟩ := heads_infix rest last h e hm
    cases l with
    | expr ts => exact ⟨outer, a, b, hb⟩
    | stmt d ts => exact ⟨outer, a, b, hb⟩
    | set d kw target ts => exact ⟨outer, target.bind .setVariable last :: a, b, by simp [Tpl.bindings, hb]⟩
  | .blk d hd body de kwEnd te rest, last, h, e, hm => by
    simp only [Tpl.heads, List.mem_cons, List.mem_append] at hm
    rcases hm with hm | hm | hm
    · cases hm
      exact ⟨last, [], body.bindings de.opening.start ++ rest.bindings last, by simp [Tpl.bindings]⟩
    · obtain ⟨outer, a, b, hb⟩ := heads_infix body de.opening.start h e hm
      exact ⟨outer, hd.bindings de.opening.start last ++ a, b ++ rest.bindings last, by simp [Tpl.bindings, hb]⟩
    · obtain ⟨outer, a, b, hb⟩ := heads_infix rest last h e hm
      exact ⟨outer, hd.bindings de.opening.start last ++ (body.bindings de.opening.start ++ a), b, by
        simp [Tpl.bindings, hb]⟩

/-- **C13** (part) The first target of every loop of a well-nested template is recorded and visible to the start of the
loop's end tag.  Missing: the second target, for which the claim is false (below). -/
theorem C13_key_partial (env : Env) (tree : Tree) (p : Point) (text : Str) (t : Tpl) (hw : t.Wf)
    (hc : (env.queryMatches .jinjaDefinitions tree text).flatten = t.caps) (kw key : Tok) (ts : List HTok) (e : Point)
    (hm : (Head.for_ kw key ts, e) ∈ t.heads) :
    ∃ s, definitionQuery env tree p text true = .ok s ∧
      ∃ i ∈ s.identifiers, i.name = key.text ∧ i.start = key.start ∧ i.stop = key.stop ∧ i.idType = .forLoopKey ∧
        i.scopeEnd = e := by
  obtain ⟨s, h1, h2⟩ := C11_scopes env tree p text t hw hc
  obtain ⟨outer, a, b, hb⟩ := heads_infix t (env.rootEnd tree) _ e hm
  refine ⟨s, h1, ?_⟩
  have hin : key.bind .forLoopKey e ∈ s.identifiers.map Identifier.binding := by
    rw [h2, hb]; simp [Head.bindings]
  obtain ⟨i, hi, hib⟩ := List.mem_map.mp hin
  simp only [Identifier.binding, Tok.bind, Binding.mk.injEq] at hib
  exact ⟨i, hi, hib⟩

example : (Head.for_ (Fix.tok 2 5 8 c!"for" 8) (Fix.tok 2 9 10 c!"i" 9) [.name (Fix.tok 2 14 15 c!"p" 10)], ⟨4, 2⟩) ∈
    Fix.tpl.heads := by decide

/-- no loop has a recorded second target -/
def NoValue (ds : List Definition) : Prop := ∀ k v, Definition.forLoop k v ∈ ds → v = none

theorem NoValue.append {ds : List Definition} {d : Definition} (h : NoValue ds) (hd : ∀ k v, d = .forLoop k v → v = none) :
    NoValue (ds ++ [d]) := by
  intro k v hm
  rcases List.mem_append.mp hm with hm | hm
  · exact h k v hm
  · exact hd k v (List.mem_singleton.mp hm).symm

theorem NoValue.dropLast {ds : List Definition} (h : NoValue ds) : NoValue ds.dropLast :=
  fun k v hm => h k v (List.dropLast_subset _ hm)

theorem ofKeyword_noValue (w : Str) : ∀ k v, Definition.ofKeyword w = .forLoop k v → v = none := by
  intro k v h
  unfold Definition.ofKeyword at h
  repeat' split at h
  all_goals (first | (cases h; rfl) | cases h)

theorem addId_noValue (d : Definition) (i : Identifier) (hd : ∀ k v, d = .forLoop k v → v = none) :
    ∀ k v, (addId d i).1 = .forLoop k v → v = none := by
  intro k v h
  cases d with
  | forLoop key value =>
    have := hd key value rfl; subst this
    simp only [addId] at h
    split at h <;> cases h <;> rfl
  | set key eq => simp only [addId] at h; split at h <;> cases h
  | with_ keys => cases h
  | macro_ keys sc => simp only [addId] at h; split at h <;> cases h
  | block name => simp only [addId] at h; split at h <;> cases h

theorem check_noValue (s s' : JinjaDefinitions) (c : Capture) (h : NoValue s.definitions)
    (hc : s.check c = .ok (some s')) : NoValue s'.definitions := by
  unfold check at hc
  split at hc
  · split at hc
    · cases hc; exact h
    · split at hc
      · cases hc
      · rename_i content _
        split at hc
        · cases hc; exact h.append (by intro k v e; cases e)
        · rename_i d hk _
          cases hc
          refine h.append ?_
          intro k v e
          split at e
          · cases e
          · exact ofKeyword_noValue content k v (by assumption)
  · cases hc; exact h
  · cases hc; exact h
  · split at hc
    · cases hc; exact h.dropLast.append (by intro k v e; cases e)
    · cases hc; exact h
  · cases hc
  · split at hc
    · cases hc; exact h
    · split at hc
      · cases hc
      · split at hc
        · cases hc; exact h
        · rename_i d hl
          cases hc
          refine h.dropLast.append (addId_noValue d _ ?_)
          intro k v e; subst e
          exact h k v (List.mem_of_getLast? hl)
  · split at hc
    · split at hc <;> (cases hc; exact h)
    · cases hc; exact h
  · split at hc
    · split at hc <;> (cases hc; exact h)
    · cases hc; exact h
  · cases hc; exact h

theorem run_noValue : ∀ (cs : List Capture) (s s' : JinjaDefinitions), NoValue s.definitions → run s cs = .ok s' →
    NoValue s'.definitions
  | [], s, s', h, hr => by cases hr; exact h
  | c :: cs, s, s', h, hr => by
    simp only [run] at hr
    split at hr
    · cases hr
    · cases hr; exact h
    · rename_i s1 hc; exact run_noValue cs s1 s' (check_noValue s s1 c h hc) hr

/-- **C13 is false**: whatever the template, no second loop target is ever recorded. -/
theorem C13_no_loop_value (env : Env) (tree : Tree) (p : Point) (text : Str) (all : Bool) (s : JinjaDefinitions)
    (h : definitionQuery env tree p text all = .ok s) : ∀ i ∈ s.identifiers, i.idType ≠ .forLoopValue := by
  unfold definitionQuery at h
  split at h
  · cases h
  · rename_i s1 hr
    cases h
    have hn := run_noValue _ _ _ (by intro k v hm; cases hm) hr
    intro i hi hv
    simp only [identifiers, fixEnd, List.mem_flatMap, List.mem_map] at hi
    obtain ⟨_, ⟨d, hd, rfl⟩, hi⟩ := hi
    cases d with
    | forLoop k v =>
      have := hn k v hd; subst this
      simp [fixEndDef, Definition.collect] at hi
      subst hi; cases hv
    | set k e => simp [fixEndDef, Definition.collect] at hi; subst hi; cases hv
    | with_ ks =>
      simp only [fixEndDef, Definition.collect, List.map_map, List.mem_map, Function.comp_apply] at hi
      obtain ⟨_, _, rfl⟩ := hi; cases hv
    | macro_ ks m =>
      cases ks with
      | nil => simp [fixEndDef, Definition.collect, macroKeys] at hi
      | cons k ks =>
        simp only [fixEndDef, Definition.collect, macroKeys, List.mem_cons, List.map_map, List.mem_map,
          Function.comp_apply] at hi
        rcases hi with rfl | ⟨_, _, rfl⟩ <;> cases hv
    | block k => simp [fixEndDef, Definition.collect] at hi; subst hi; cases hv

/-- `{% for k, v in x %}`: `v` is not among the recorded names -/
example : (Head.for_ (Fix.tok 0 3 6 c!"for" 1) (Fix.tok 0 7 8 c!"k" 2)
      [.name (Fix.tok 0 10 11 c!"v" 3), .name (Fix.tok 0 15 16 c!"x" 4)]).bindings ⟨3, 0⟩ ⟨9, 9⟩ =
    [⟨c!"k", ⟨0, 7⟩, ⟨0, 8⟩, .forLoopKey, ⟨3, 0⟩⟩] := by decide

/-! ## C14 -/

/-- the recorded identifiers of a definition -/
def _root_.JinjaLsp.Definition.ids : Definition → List Identifier
  | .forLoop k v => k :: v.toList
  | .set k _ => [k]
  | .with_ ks => ks
  | .macro_ ks _ => ks
  | .block k => [k]

/-- the identifier is the placeholder of a construct without name, or copies an `id` capture -/
def FromText (cs : List Capture) (i : Identifier) : Prop :=
  (i.name = [] ∧ i.start = Point.zero ∧ i.stop = Point.zero) ∨
    ∃ c ∈ cs, c.name = .id ∧ c.text = some i.name ∧ c.start = i.start ∧ c.stop = i.stop

theorem FromText.default (cs : List Capture) : FromText cs Identifier.default := Or.inl ⟨rfl, rfl, rfl⟩

theorem addId_ids (d : Definition) (i j : Identifier) (h : j ∈ (addId d i).1.ids) :
    j ∈ d.ids ∨ (j.name = i.name ∧ j.start = i.start ∧ j.stop = i.stop) := by
  cases d with
  | forLoop key value =>
    simp only [addId] at h
    split at h
    · simp only [Definition.ids, List.mem_cons] at h ⊢
      rcases h with rfl | h
      · exact Or.inr ⟨rfl, rfl, rfl⟩
      · exact Or.inl (Or.inr h)
    · split at h
      · split at h
        · simp only [Definition.ids, List.mem_cons, Option.toList, List.not_mem_nil, or_false] at h ⊢
          rcases h with rfl | rfl
          · exact Or.inl (Or.inl rfl)
          · exact Or.inr ⟨rfl, rfl, rfl⟩
        · exact Or.inl h
      · exact Or.inl h
  | set key eq =>
    simp only [addId] at h
    split at h
    · simp only [Definition.ids, List.mem_singleton] at h; subst h; exact Or.inr ⟨rfl, rfl, rfl⟩
    · exact Or.inl h
  | with_ keys =>
    simp only [addId, Definition.ids, List.mem_append, List.mem_singleton] at h ⊢
    rcases h with h | rfl
    · exact Or.inl h
    · exact Or.inr ⟨rfl, rfl, rfl⟩
  | macro_ keys sc =>
    simp only [addId] at h
    split at h
    · simp only [Definition.ids, List.mem_singleton] at h; subst h; exact Or.inr ⟨rfl, rfl, rfl⟩
    · simp only [Definition.ids, List.mem_append, List.mem_singleton] at h ⊢
      rcases h with h | rfl
      · exact Or.inl h
      · exact Or.inr ⟨rfl, rfl, rfl⟩
  | block name =>
    simp only [addId] at h
    split at h
    · simp only [Definition.ids, List.mem_singleton] at h; subst h; exact Or.inr ⟨rfl, rfl, rfl⟩
    · exact Or.inl h

theorem ofKeyword_ids (w : Str) (j : Identifier) (h : j ∈ (Definition.ofKeyword w).ids) : j = Identifier.default := by
  unfold Definition.ofKeyword at h
  repeat' split at h
  all_goals (first | (simp [Definition.ids] at h; exact h) | simp [Definition.ids] at h)

/-- every recorded identifier comes from one of the captures `cs` -/
def AllFrom (cs : List Capture) (ds : List Definition) : Prop := ∀ d ∈ ds, ∀ i ∈ d.ids, FromText cs i

theorem AllFrom.append {cs : List Capture} {ds : List Definition} {d : Definition} (h : AllFrom cs ds)
    (hd : ∀ i ∈ d.ids, FromText cs i) : AllFrom cs (ds ++ [d]) := by
  intro d' hm
  rcases List.mem_append.mp hm with hm | hm
  · exact h d' hm
  · simp at hm; subst hm; exact hd

theorem AllFrom.dropLast {cs : List Capture} {ds : List Definition} (h : AllFrom cs ds) : AllFrom cs ds.dropLast :=
  fun d hm => h d (List.dropLast_subset _ hm)

theorem check_allFrom (cs : List Capture) (s s' : JinjaDefinitions) (c : Capture) (hcs : c ∈ cs) (h : AllFrom cs s.definitions)
    (hc : s.check c = .ok (some s')) : AllFrom cs s'.definitions := by
  unfold check at hc
  split at hc
  · split at hc
    · cases hc; exact h
    · split at hc
      · cases hc
      · rename_i content _
        have key : ∀ j ∈ (Definition.ofKeyword content).ids, FromText cs j := fun j hj => by
          rw [ofKeyword_ids content j hj]; exact FromText.default cs
        split at hc
        · rename_i k e hk; cases hc; exact h.append (by rw [← hk]; exact key)
        · rename_i d _
          cases hc
          refine h.append ?_
          intro i hi
          split at hi
          · rename_i keys sc hk
            exact key i (by rw [hk]; exact hi)
          · exact key i hi
  · cases hc; exact h
  · cases hc; exact h
  · split at hc
    · rename_i k e hl
      cases hc
      exact h.dropLast.append (fun i hi => h _ (List.mem_of_getLast? hl) i hi)
    · cases hc; exact h
  · cases hc
  · rename_i hname
    split at hc
    · cases hc; exact h
    · split at hc
      · cases hc
      · rename_i content ht
        split at hc
        · cases hc; exact h
        · rename_i d hl
          cases hc
          refine h.dropLast.append ?_
          intro i hi
          rcases addId_ids _ _ _ hi with hi | ⟨h1, h2, h3⟩
          · exact h d (List.mem_of_getLast? hl) i hi
          · exact Or.inr ⟨c, hcs, hname, by rw [h1]; exact ht, h2.symm, h3.symm⟩
  · split at hc
    · split at hc <;> (cases hc; exact h)
    · cases hc; exact h
  · split at hc
    · split at hc <;> (cases hc; exact h)
    · cases hc; exact h
  · cases hc; exact h

theorem run_allFrom (all : List Capture) : ∀ (cs : List Capture) (s s' : JinjaDefinitions), (∀ c ∈ cs, c ∈ all) →
    AllFrom all s.definitions → run s cs = .ok s' → AllFrom all s'.definitions
  | [], s, s', _, h, hr => by cases hr; exact h
  | c :: cs, s, s', hsub, h, hr => by
    simp only [run] at hr
    split at hr
    · cases hr
    · cases hr; exact h
    · rename_i s1 hc
      exact run_allFrom all cs s1 s' (fun c' hc' => hsub c' (List.mem_cons_of_mem _ hc'))
        (check_allFrom all s s1 c (hsub c (List.mem_cons_self ..)) h hc) hr

/-- collecting a definition keeps names and ranges -/
theorem collect_ids (scopes : List Scope) (last : Point) (d : Definition) (i : Identifier)
    (h : i ∈ (fixEndDef scopes last d).collect) : ∃ j ∈ d.ids, j.name = i.name ∧ j.start = i.start ∧ j.stop = i.stop := by
  cases d with
  | forLoop k v =>
    cases v with
    | none => simp [fixEndDef, Definition.collect] at h; subst h; exact ⟨k, by simp [Definition.ids], rfl, rfl, rfl⟩
    | some v =>
      simp [fixEndDef, Definition.collect] at h
      rcases h with rfl | rfl
      · exact ⟨k, by simp [Definition.ids], rfl, rfl, rfl⟩
      · exact ⟨v, by simp [Definition.ids], rfl, rfl, rfl⟩
  | set k e => simp [fixEndDef, Definition.collect] at h; subst h; exact ⟨k, by simp [Definition.ids], rfl, rfl, rfl⟩
  | with_ ks =>
    simp only [fixEndDef, Definition.collect, List.map_map, List.mem_map, Function.comp_apply] at h
    obtain ⟨j, hj, rfl⟩ := h
    exact ⟨j, hj, rfl, rfl, rfl⟩
  | macro_ ks m =>
    cases ks with
    | nil => simp [fixEndDef, Definition.collect, macroKeys] at h
    | cons k ks =>
      simp only [fixEndDef, Definition.collect, macroKeys, List.mem_cons, List.map_map, List.mem_map, Function.comp_apply] at h
      rcases h with rfl | ⟨j, hj, rfl⟩
      · exact ⟨k, by simp [Definition.ids], rfl, rfl, rfl⟩
      · exact ⟨j, by simp [Definition.ids, hj], rfl, rfl, rfl⟩
  | block k => simp [fixEndDef, Definition.collect] at h; subst h; exact ⟨k, by simp [Definition.ids], rfl, rfl, rfl⟩

theorem selectCaptures_subset (ms : List (List Capture)) (p : Point) (all : Bool) (c : Capture)
    (h : c ∈ selectCaptures ms p all) : c ∈ ms.flatten := by
  unfold selectCaptures at h
  simp only [List.mem_flatten, List.mem_map] at h ⊢
  obtain ⟨_, ⟨m, hm, rfl⟩, hc⟩ := h
  exact ⟨m, hm, (List.mem_filter.mp hc).1⟩

/-- **C14** For every stream of captures: each recorded definition has the name and range of an identifier capture, or is
the empty placeholder. -/
theorem C14_from_text (env : Env) (tree : Tree) (p : Point) (text : Str) (all : Bool) (s : JinjaDefinitions)
    (h : definitionQuery env tree p text all = .ok s) :
    ∀ i ∈ s.identifiers, (i.name = [] ∧ i.start = Point.zero ∧ i.stop = Point.zero) ∨
      ∃ c ∈ (env.queryMatches .jinjaDefinitions tree text).flatten, c.name = .id ∧ c.text = some i.name ∧
        c.start = i.start ∧ c.stop = i.stop := by
  unfold definitionQuery at h
  split at h
  · cases h
  · rename_i s1 hr
    cases h
    have hn := run_allFrom _ _ _ _ (fun c hc => selectCaptures_subset _ _ _ c hc) (by intro d hd; cases hd) hr
    intro i hi
    simp only [identifiers, fixEnd, List.mem_flatMap, List.mem_map] at hi
    obtain ⟨_, ⟨d, hd, rfl⟩, hi⟩ := hi
    obtain ⟨j, hj, e1, e2, e3⟩ := collect_ids _ _ d i hi
    have := hn d hd j hj
    unfold FromText at this
    rw [e1, e2, e3] at this
    exact this

/-- not vacuous: five definitions are recorded for the macro template -/
example : ∃ s, definitionQuery (Fix.envWith .jinjaDefinitions Fix.tpl.caps) (.parsed .jinja [] none) Point.zero [] true = .ok s ∧
    s.identifiers.length = 5 := ⟨_, rfl, by decide⟩

/-! ## C15 -/

theorem selectCaptures_filter (ms : List (List Capture)) (p : Point) (all : Bool) :
    selectCaptures ms p all = ms.flatten.filter (fun c => all || decide (c.start ≤ p)) := by
  unfold selectCaptures
  induction ms with
  | nil => rfl
  | cons m ms ih => simp only [List.map_cons, List.flatten_cons, List.filter_append, ih]

theorem run_error (x : List Capture) (e : Capture) (he : e.name = .error) : ∀ (pre : List Capture) (s : JinjaDefinitions),
    run s (pre ++ e :: x) = run s pre
  | [], s => by simp [run, check, he]
  | c :: pre, s => by
    simp only [List.cons_append, run]
    split
    · rfl
    · rfl
    · exact run_error x e he pre _

/-- **C15** (definitions) If two documents agree before their first syntax error, the same definitions are recorded; scopes
that are not closed before the error end at the end of the respective document. -/
theorem C15_definitions (env : Env) (tree₁ tree₂ : Tree) (text₁ text₂ : Str) (p : Point) (all : Bool)
    (pre x₁ x₂ : List Capture) (e₁ e₂ : Capture) (he₁ : e₁.name = .error) (he₂ : e₂.name = .error)
    (hs₁ : all = true ∨ e₁.start ≤ p) (hs₂ : all = true ∨ e₂.start ≤ p)
    (h₁ : (env.queryMatches .jinjaDefinitions tree₁ text₁).flatten = pre ++ e₁ :: x₁)
    (h₂ : (env.queryMatches .jinjaDefinitions tree₂ text₂).flatten = pre ++ e₂ :: x₂) :
    (∃ pn, definitionQuery env tree₁ p text₁ all = .error pn ∧ definitionQuery env tree₂ p text₂ all = .error pn) ∨
    ∃ s : JinjaDefinitions, definitionQuery env tree₁ p text₁ all = .ok (s.fixEnd (env.rootEnd tree₁)) ∧
      definitionQuery env tree₂ p text₂ all = .ok (s.fixEnd (env.rootEnd tree₂)) := by
  unfold definitionQuery
  have k₁ : (all || decide (e₁.start ≤ p)) = true := by simpa using hs₁
  have k₂ : (all || decide (e₂.start ≤ p)) = true := by simpa using hs₂
  simp only [selectCaptures_filter, h₁, h₂, List.filter_append, List.filter_cons, k₁, k₂, if_true, run_error _ _ he₁,
    run_error _ _ he₂]
  split
  · exact Or.inl ⟨_, rfl, rfl⟩
  · exact Or.inr ⟨_, rfl, rfl⟩

/-- names, ranges and kinds do not depend on the end of the document -/
theorem C15_definitions_names (s : JinjaDefinitions) (e₁ e₂ : Point) :
    (s.fixEnd e₁).identifiers.map (fun i => (i.name, i.start, i.stop, i.idType)) =
      (s.fixEnd e₂).identifiers.map (fun i => (i.name, i.start, i.stop, i.idType)) := by
  have key : ∀ e : Point, (s.fixEnd e).identifiers.map (fun i => (i.name, i.start, i.stop, i.idType)) =
      ((s.fixEnd e).identifiers.map Identifier.binding).map (fun b => (b.name, b.start, b.stop, b.kind)) := by
    intro e; simp [Identifier.binding]
  rw [key, key, bindings_fixEnd, bindings_fixEnd, List.map_flatMap, List.map_flatMap]
  congr 1
  funext d
  cases d with
  | forLoop k v => cases v <;> simp [resolve]
  | set k e => simp [resolve]
  | with_ ks => simp [resolve]
  | macro_ ks m => cases ks <;> simp [resolve]
  | block k => simp [resolve]

theorem objectsLoop_error (prof : Profile) (p : Point) (x : List Capture) (e : Capture) (he : e.name = .error) (all : Bool)
    (hs : all = true ∨ e.start ≤ p) : ∀ (pre : List Capture) (st : ObjLoop),
    objectsLoop prof p all st (pre ++ e :: x) = objectsLoop prof p all st pre
  | [], st => by
    have k : (all || decide (e.start ≤ p)) = true := by simpa using hs
    simp [objectsLoop, k, JinjaObjects.check, he]
  | c :: pre, st => by
    simp only [List.cons_append, objectsLoop]
    simp only [objectsLoop_error prof p x e he all hs pre]

/-- **C15** (variable uses) -/
theorem C15_uses (env : Env) (tree₁ tree₂ : Tree) (text₁ text₂ : Str) (p : Point) (all : Bool) (pre x₁ x₂ : List Capture)
    (e₁ e₂ : Capture) (he₁ : e₁.name = .error) (he₂ : e₂.name = .error)
    (hs₁ : all = true ∨ e₁.start ≤ p) (hs₂ : all = true ∨ e₂.start ≤ p)
    (h₁ : (env.queryMatches .jinjaObjects tree₁ text₁).flatten = pre ++ e₁ :: x₁)
    (h₂ : (env.queryMatches .jinjaObjects tree₂ text₂).flatten = pre ++ e₂ :: x₂) :
    objectsQuery env tree₁ p text₁ all = objectsQuery env tree₂ p text₂ all := by
  unfold objectsQuery
  rw [h₁, h₂, objectsLoop_error _ _ _ _ he₁ _ hs₁, objectsLoop_error _ _ _ _ he₂ _ hs₂]

theorem importsRun_error (x : List Capture) (e : Capture) (he : e.name = .error) : ∀ (pre : List Capture) (s : JinjaImports),
    JinjaImports.run s (pre ++ e :: x) = JinjaImports.run s pre
  | [], s => by simp [JinjaImports.run, JinjaImports.check, he]
  | c :: pre, s => by
    simp only [List.cons_append, JinjaImports.run]
    split
    · rfl
    · exact importsRun_error x e he pre _

/-- **C15** (imports) -/
theorem C15_imports (env : Env) (tree₁ tree₂ : Tree) (text₁ text₂ : Str) (p : Point) (all : Bool) (pre x₁ x₂ : List Capture)
    (e₁ e₂ : Capture) (he₁ : e₁.name = .error) (he₂ : e₂.name = .error)
    (hs₁ : all = true ∨ e₁.start ≤ p) (hs₂ : all = true ∨ e₂.start ≤ p)
    (h₁ : (env.queryMatches .jinjaImports tree₁ text₁).flatten = pre ++ e₁ :: x₁)
    (h₂ : (env.queryMatches .jinjaImports tree₂ text₂).flatten = pre ++ e₂ :: x₂) :
    templatesQuery env tree₁ p text₁ all = templatesQuery env tree₂ p text₂ all := by
  unfold templatesQuery
  have k₁ : (all || decide (e₁.start ≤ p)) = true := by simpa using hs₁
  have k₂ : (all || decide (e₂.start ≤ p)) = true := by simpa using hs₂
  simp only [selectCaptures_filter, h₁, h₂, List.filter_append, List.filter_cons, k₁, k₂, if_true, importsRun_error _ _ he₁,
    importsRun_error _ _ he₂]

theorem backendRun_error (x : List Capture) (e : Capture) (he : e.name = .error) : ∀ (pre : List Capture) (s : List Identifier),
    backendRun s (pre ++ e :: x) = backendRun s pre
  | [], s => by simp [backendRun, backendCheck, he]
  | c :: pre, s => by
    simp only [List.cons_append, backendRun]
    split
    · rfl
    · exact backendRun_error x e he pre _

/-- **C15** (backend variables) -/
theorem C15_backend (env : Env) (g : Grammar) (tree₁ tree₂ : Tree) (text₁ text₂ : Str) (p : Point) (all : Bool)
    (pre x₁ x₂ : List Capture) (e₁ e₂ : Capture) (he₁ : e₁.name = .error) (he₂ : e₂.name = .error)
    (hs₁ : all = true ∨ e₁.start ≤ p) (hs₂ : all = true ∨ e₂.start ≤ p)
    (h₁ : (env.queryMatches (.backendDefinitions g) tree₁ text₁).flatten = pre ++ e₁ :: x₁)
    (h₂ : (env.queryMatches (.backendDefinitions g) tree₂ text₂).flatten = pre ++ e₂ :: x₂) :
    backendDefinitionQuery env g tree₁ p text₁ all = backendDefinitionQuery env g tree₂ p text₂ all := by
  unfold backendDefinitionQuery
  have k₁ : (all || decide (e₁.start ≤ p)) = true := by simpa using hs₁
  have k₂ : (all || decide (e₂.start ≤ p)) = true := by simpa using hs₂
  simp only [selectCaptures_filter, h₁, h₂, List.filter_append, List.filter_cons, k₁, k₂, if_true, backendRun_error _ _ he₁,
    backendRun_error _ _ he₂]

/-- the hypotheses of the C15 theorems: the macro template, an error, and two different continuations -/
example : ∃ env : Env, ∃ t₁ t₂ : Tree, ∃ x₁ x₂ : List Capture, x₁ ≠ x₂ ∧
    (env.queryMatches .jinjaDefinitions t₁ []).flatten = Fix.tpl.caps ++ (Fix.tok 7 0 1 [] 50).cap .error :: x₁ ∧
    (env.queryMatches .jinjaDefinitions t₂ []).flatten = Fix.tpl.caps ++ (Fix.tok 7 0 1 [] 50).cap .error :: x₂ :=
  ⟨{ Fix.env with queryMatches := fun _ t _ => match t with
      | .parsed .jinja _ _ => [Fix.tpl.caps ++ [(Fix.tok 7 0 1 [] 50).cap .error]]
      | _ => [Fix.tpl.caps ++ [(Fix.tok 7 0 1 [] 50).cap .error, (Fix.tok 8 0 1 c!"x" 51).cap .id]] },
    .parsed .jinja [] none, .parsed .rust [] none, [], [(Fix.tok 8 0 1 c!"x" 51).cap .id], by simp, by simp, by simp⟩

/-! ## C16 -/

theorem names_append (a b : List HTok) : names (a ++ b) = names a ++ names b := by
  induction a with
  | nil => rfl
  | cons t ts ih => cases t <;> simp [names, ih]

theorem names_map_name (ts : List Tok) : names (ts.map .name) = ts := by
  induction ts with
  | nil => rfl
  | cons t ts ih => simp [names, ih]

theorem names_assigns (as : List Assign) : names (as.flatMap Assign.toks) = as.flatMap fun a => a.target :: a.rhs := by
  induction as with
  | nil => rfl
  | cons a as ih =>
    simp only [List.flatMap_cons, names_append, ih]
    simp [Assign.toks, names, names_map_name]

/-- what is recorded for a `with` header with the given assignments: every identifier of the header, also those on the
right-hand sides -/
theorem C16_with_recorded (env : Env) (tree : Tree) (p : Point) (text : Str) (t : Tpl) (hw : t.Wf)
    (hc : (env.queryMatches .jinjaDefinitions tree text).flatten = t.caps) (kw : Tok) (as : List Assign) (e : Point)
    (hm : (Head.with_ kw (as.flatMap Assign.toks), e) ∈ t.heads) :
    ∃ s a b, definitionQuery env tree p text true = .ok s ∧ s.identifiers.map Identifier.binding =
      a ++ (as.flatMap fun x => x.target :: x.rhs).map (fun k => k.bind .withVariable e) ++ b := by
  obtain ⟨s, h1, h2⟩ := C11_scopes env tree p text t hw hc
  obtain ⟨outer, a, b, hb⟩ := heads_infix t (env.rootEnd tree) _ e hm
  refine ⟨s, a, b, h1, ?_⟩
  rw [h2, hb, Head.bindings, names_assigns]

/-- **C16** (part) A `with` header whose right-hand sides contain no identifiers records exactly its targets.
Missing: headers with identifiers on a right-hand side, for which the claim is false (`C16_with_refuted`). -/
theorem C16_with_partial (env : Env) (tree : Tree) (p : Point) (text : Str) (t : Tpl) (hw : t.Wf)
    (hc : (env.queryMatches .jinjaDefinitions tree text).flatten = t.caps) (kw : Tok) (as : List Assign) (e : Point)
    (hm : (Head.with_ kw (as.flatMap Assign.toks), e) ∈ t.heads) (hr : ∀ x ∈ as, x.rhs = []) :
    ∃ s a b, definitionQuery env tree p text true = .ok s ∧ s.identifiers.map Identifier.binding =
      a ++ as.map (fun x => x.target.bind .withVariable e) ++ b := by
  obtain ⟨s, a, b, h1, h2⟩ := C16_with_recorded env tree p text t hw hc kw as e hm
  refine ⟨s, a, b, h1, ?_⟩
  rw [h2]
  congr 2
  clear hm h2
  induction as with
  | nil => rfl
  | cons x as ih =>
    rw [List.flatMap_cons, hr x (by simp), List.map_append, ih (fun y hy => hr y (by simp [hy]))]
    rfl

/-- **C16 is false**: every identifier on a right-hand side is recorded as a `with` variable. -/
theorem C16_with_refuted (env : Env) (tree : Tree) (p : Point) (text : Str) (t : Tpl) (hw : t.Wf)
    (hc : (env.queryMatches .jinjaDefinitions tree text).flatten = t.caps) (kw : Tok) (as : List Assign) (e : Point)
    (hm : (Head.with_ kw (as.flatMap Assign.toks), e) ∈ t.heads) (x : Assign) (hx : x ∈ as) (k : Tok) (hk : k ∈ x.rhs) :
    ∃ s, definitionQuery env tree p text true = .ok s ∧
      ∃ i ∈ s.identifiers, i.name = k.text ∧ i.start = k.start ∧ i.stop = k.stop ∧ i.idType = .withVariable := by
  obtain ⟨s, a, b, h1, h2⟩ := C16_with_recorded env tree p text t hw hc kw as e hm
  refine ⟨s, h1, ?_⟩
  have hin : k.bind .withVariable e ∈ s.identifiers.map Identifier.binding := by
    rw [h2]
    refine List.mem_append.mpr (Or.inl (List.mem_append.mpr (Or.inr (List.mem_map.mpr ⟨k, ?_, rfl⟩))))
    exact List.mem_flatMap.mpr ⟨x, hx, List.mem_cons_of_mem _ hk⟩
  obtain ⟨i, hi, hib⟩ := List.mem_map.mp hin
  simp only [Identifier.binding, Tok.bind, Binding.mk.injEq] at hib
  exact ⟨i, hi, hib.1, hib.2.1, hib.2.2.1, hib.2.2.2.1⟩

/-- a macro parameter: a name, with or without default value -/
inductive Param where
  | plain (t : Tok)
  | default (a : Assign)

def Param.toks : Param → List HTok
  | .plain t => [.name t]
  | .default a => a.toks

def Param.target : Param → Tok
  | .plain t => t
  | .default a => a.target

/-- the identifiers of the default value -/
def Param.rhs : Param → List Tok
  | .plain _ => []
  | .default a => a.rhs

theorem names_params (ps : List Param) : names (ps.flatMap Param.toks) = ps.flatMap fun a => a.target :: a.rhs := by
  induction ps with
  | nil => rfl
  | cons a as ih =>
    simp only [List.flatMap_cons, names_append, ih]
    cases a <;> simp [Param.toks, Param.target, Param.rhs, Assign.toks, names, names_map_name]

/-- **C16** (part) A macro whose default values contain no identifiers records exactly its name and its parameters.
Missing: defaults that mention identifiers (`C16_macro_refuted`). -/
theorem C16_macro_partial (env : Env) (tree : Tree) (p : Point) (text : Str) (t : Tpl) (hw : t.Wf)
    (hc : (env.queryMatches .jinjaDefinitions tree text).flatten = t.caps) (kw name : Tok) (ps : List Param) (e : Point)
    (hm : (Head.macro_ kw name (ps.flatMap Param.toks), e) ∈ t.heads) (hr : ∀ x ∈ ps, x.rhs = []) :
    ∃ s a b outer, definitionQuery env tree p text true = .ok s ∧ s.identifiers.map Identifier.binding =
      a ++ (name.bind .macroName outer :: ps.map fun x => x.target.bind .macroParameter e) ++ b := by
  obtain ⟨s, h1, h2⟩ := C11_scopes env tree p text t hw hc
  obtain ⟨outer, a, b, hb⟩ := heads_infix t (env.rootEnd tree) _ e hm
  refine ⟨s, a, b, outer, h1, ?_⟩
  rw [h2, hb, Head.bindings, names_params]
  congr 3
  clear hm hb
  induction ps with
  | nil => rfl
  | cons x as ih =>
    rw [List.flatMap_cons, hr x (by simp), List.map_append, ih (fun y hy => hr y (by simp [hy]))]
    rfl

/-- **C16 is false** for macros: every identifier of a default value is recorded as a parameter. -/
theorem C16_macro_refuted (env : Env) (tree : Tree) (p : Point) (text : Str) (t : Tpl) (hw : t.Wf)
    (hc : (env.queryMatches .jinjaDefinitions tree text).flatten = t.caps) (kw name : Tok) (ps : List Param) (e : Point)
    (hm : (Head.macro_ kw name (ps.flatMap Param.toks), e) ∈ t.heads) (x : Param) (hx : x ∈ ps) (k : Tok) (hk : k ∈ x.rhs) :
    ∃ s, definitionQuery env tree p text true = .ok s ∧
      ∃ i ∈ s.identifiers, i.name = k.text ∧ i.start = k.start ∧ i.stop = k.stop ∧ i.idType = .macroParameter := by
  obtain ⟨s, h1, h2⟩ := C11_scopes env tree p text t hw hc
  obtain ⟨outer, a, b, hb⟩ := heads_infix t (env.rootEnd tree) _ e hm
  refine ⟨s, h1, ?_⟩
  have hin : k.bind .macroParameter e ∈ s.identifiers.map Identifier.binding := by
    rw [h2, hb, Head.bindings, names_params]
    refine List.mem_append.mpr (Or.inl (List.mem_append.mpr (Or.inr (List.mem_cons_of_mem _ (List.mem_map.mpr ⟨k, ?_, rfl⟩)))))
    exact List.mem_flatMap.mpr ⟨x, hx, List.mem_cons_of_mem _ hk⟩
  obtain ⟨i, hi, hib⟩ := List.mem_map.mp hin
  simp only [Identifier.binding, Tok.bind, Binding.mk.injEq] at hib
  exact ⟨i, hi, hib.1, hib.2.1, hib.2.2.1, hib.2.2.2.1⟩

namespace Fix

/-- `{% with a = b %}{% endwith %}{% macro m(p = q) %}{% endmacro %}` -/
def withTpl : Tpl :=
  .blk (dl 0 0 14) (.with_ (tok 0 3 7 c!"with" 1)
      ([⟨tok 0 8 9 c!"a" 2, tok 0 10 11 c!"=" 3, [tok 0 12 13 c!"b" 4]⟩].flatMap Assign.toks)) .nil
    (dl 1 0 11) (tok 1 3 10 c!"endwith" 5) []
  (.blk (dl 2 0 18) (.macro_ (tok 2 3 8 c!"macro" 6) (tok 2 9 10 c!"m" 7)
      ([Param.default ⟨tok 2 11 12 c!"p" 8, tok 2 13 14 c!"=" 9, [tok 2 15 16 c!"q" 10]⟩].flatMap Param.toks)) .nil
    (dl 3 0 12) (tok 3 3 11 c!"endmacro" 11) [] .nil)

theorem withTpl_wf : withTpl.Wf := ⟨by simp [Tpl.Ok, withTpl, Head.Ok, tok], by decide, by decide⟩

end Fix

/-- `b` and `q` are recorded as a variable and a parameter -/
example : Fix.withTpl.bindings ⟨9, 9⟩ =
    [⟨c!"a", ⟨0, 8⟩, ⟨0, 9⟩, .withVariable, ⟨1, 0⟩⟩, ⟨c!"b", ⟨0, 12⟩, ⟨0, 13⟩, .withVariable, ⟨1, 0⟩⟩,
     ⟨c!"m", ⟨2, 9⟩, ⟨2, 10⟩, .macroName, ⟨9, 9⟩⟩, ⟨c!"p", ⟨2, 11⟩, ⟨2, 12⟩, .macroParameter, ⟨3, 0⟩⟩,
     ⟨c!"q", ⟨2, 15⟩, ⟨2, 16⟩, .macroParameter, ⟨3, 0⟩⟩] := by decide

end JinjaLsp
