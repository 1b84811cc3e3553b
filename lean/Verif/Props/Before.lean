import Verif.Props.Offered
/-
  C95: the cursor directly before a name.
-/

namespace JinjaLsp
open Spec

/-! ### The analysis with the cursor on a name -/

namespace JinjaObjects

/-- a pending `is` comes from one of the captures -/
def TestFrom (cs : List Capture) (s : JinjaObjects) : Prop :=
  s.testOn = true → ∃ c ∈ cs, c.name = .is ∧ s.test = (c.start, c.stop)

theorem testFrom_push {cs : List Capture} {s : JinjaObjects} (v : Str) (a b : Point) (h : TestFrom cs s) : TestFrom cs (s.pushObject v a b).1 := by
  unfold pushObject
  split
  · exact h
  · intro ht; cases ht

theorem testFrom_check {cs : List Capture} {s s' : JinjaObjects} {a : ObjectAction} (h : TestFrom cs s) (c : Capture) (hc : c ∈ cs)
    (hk : s.check c = some (s', a)) : TestFrom cs s' := by
  unfold check at hk
  split at hk
  · cases hk
  · injection hk with hk
    have : (s.buildObject c).1 = s' := congrArg Prod.fst hk
    rw [← this]
    unfold buildObject
    split
    · exact h
    · split
      · split
        · exact h
        · exact testFrom_push _ _ _ h
      · exact testFrom_push _ _ _ h
  · cases hk; exact h
  · split at hk
    · cases hk
    · cases hk
      split
      · exact h
      · exact h
  · rename_i hn; cases hk; exact fun _ => ⟨c, hc, hn, rfl⟩
  · cases hk; exact h
  · cases hk; exact h

theorem testFrom_finish {cs : List Capture} {prof : Profile} {o r : JinjaObjects} {n : Nat} {e : (Point × Point) × ExprRange} (h : TestFrom cs o)
    (hr : objectsFinish prof o n e = .ok r) : TestFrom cs r := by
  rw [objectsFinish_eq] at hr
  have h1 : TestFrom cs (focus o n) := by
    unfold focus
    split
    · exact h
    · exact h
  split at hr
  · cases hr
  · split at hr
    · injection hr with hr; subst hr; exact h1
    · injection hr with hr; subst hr; exact h1

theorem testFrom_loop (all0 : List Capture) (prof : Profile) (p : Point) (all : Bool) :
    ∀ (cs : List Capture) (st : ObjLoop) (r : JinjaObjects), (∀ c ∈ cs, c ∈ all0) → TestFrom all0 st.objects →
      objectsLoop prof p all st cs = .ok r → TestFrom all0 r
  | [], st, r, _, h, hr => by
    simp only [objectsLoop] at hr
    injection hr with hr; subst hr; exact h
  | c :: cs, st, r, hs, h, hr => by
    have hc : c ∈ all0 := hs c (by simp)
    have hs' : ∀ c ∈ cs, c ∈ all0 := fun x hx => hs x (by simp [hx])
    simp only [objectsLoop] at hr
    split at hr
    · cases hk : st.objects.check c with
      | none => rw [hk] at hr; injection hr with hr; subst hr; exact h
      | some x =>
        obtain ⟨o, a⟩ := x
        rw [hk] at hr
        exact testFrom_loop all0 prof p all cs { st with objects := o } r hs' (testFrom_check h c hc hk) hr
    · split at hr
      · split at hr
        · injection hr with hr; subst hr; exact h
        · split at hr
          · split at hr
            · split at hr
              · cases hr
              · exact testFrom_loop all0 prof p all cs _ r hs' (by exact h) hr
            · injection hr with hr; subst hr; exact h
          · cases hk : st.objects.check c with
            | none => rw [hk] at hr; injection hr with hr; subst hr; exact h
            | some x =>
              obtain ⟨o, a⟩ := x
              rw [hk] at hr
              have ho := testFrom_check h c hc hk
              cases a with
              | expression => exact testFrom_finish ho hr
              | newObject => exact testFrom_finish ho hr
              | invalid => exact testFrom_finish ho hr
              | newField => exact testFrom_loop all0 prof p all cs { st with objects := o } r hs' ho hr
              | newFilter => exact testFrom_loop all0 prof p all cs { st with objects := o } r hs' ho hr
              | newTest => exact testFrom_loop all0 prof p all cs { st with objects := o } r hs' ho hr
      · exact testFrom_loop all0 prof p all cs _ r hs' h hr

/-- with the cursor on a name no `is` is pending there -/
theorem cursor_no_test {env : Env} {tree : Tree} {text : Str} {es : List Elem} {u : Use} {rest : List Capture} {p : Point} {r : JinjaObjects}
    (h : OnUse (env.queryMatches .jinjaObjects tree text).flatten es u rest p) (hs : ∀ c ∈ rest, c.start ≤ c.stop)
    (hq : objectsQuery env tree p text false = .ok r) : r.isTest p = false := by
  obtain ⟨s2, hq2, _, _, _, _, _, _, ht⟩ := cursor_state h
  rw [hq2] at hq
  have key := testFrom_loop rest env.profile p false rest _ r (fun _ h => h) (fun h' => by rw [show s2.testOn = true from h'] at ht; cases ht) hq
  cases hi : r.isTest p with
  | false => rfl
  | true =>
    simp only [isTest, Bool.and_eq_true, decide_eq_true_eq] at hi
    obtain ⟨c, hc, _, e⟩ := key hi.1.1
    rw [e] at hi
    exact absurd (Point.lt_of_lt_of_le (h.after c hc) (Point.le_trans (hs c hc) hi.1.2)) (Point.lt_irrefl _)

/-- with the cursor at the beginning of the name of a filter it is at a pipe -/
theorem cursor_filter {env : Env} {tree : Tree} {text : Str} {es : List Elem} {u : Use} {rest : List Capture} {p : Point}
    (h : OnUse (env.queryMatches .jinjaObjects tree text).flatten es u rest p) (hf : u.info.filter = true) :
    ∃ r, objectsQuery env tree p text false = .ok r ∧ r.pipe.2 = u.root.start := by
  obtain ⟨s2, hq2, _, _, hid, _, _, hfi, _⟩ := cursor_state h
  rw [hf] at hfi
  have hp : s2.pipe.2 = u.root.start := by
    simp only [isFilter, decide_eq_true_eq] at hfi
    rw [hfi, hid]
  refine ⟨s2, ?_, hp⟩
  rw [hq2]
  cases hr : rest with
  | nil => rfl
  | cons c cs =>
    have hlt := h.after c (by rw [hr]; simp)
    have h1 : ¬ c.start ≤ p := fun hh => Point.lt_irrefl _ (Point.lt_of_lt_of_le hlt hh)
    simp only [objectsLoop, Bool.false_or, h1, decide_false, Bool.false_eq_true, if_false, Point.le_of_lt hlt, decide_true, if_true, hfi,
      Bool.true_or]

end JinjaObjects

/-! ### Trees -/

namespace Spec

/-- the commands for an expression -/
def exprCommands : List CodeActionItem := [.command c!"Reset variables" c!"reset_variables", .command c!"Warn about unused" c!"warn"]

/-- the document with its tree, analysed with no missing template at the cursor -/
structure Examined (f : LspFiles) (uri text : Str) (tree : Tree) (p : Point) : Prop where
  template : fileExt uri = some .template
  doc : f.documents.get? uri = some text
  held : (f.trees .template).get? uri = some tree
  missing : ∃ acts, f.codeActions.get? uri = some acts ∧ ∀ i ∈ acts, ¬ (i.start ≤ p ∧ p ≤ i.stop)

/-- a name of the document; no other name or operator begins at the position `p`, which is in it or at one of its ends -/
structure NameAt (sx : Syntax) (root : Syn) (es : List Elem) (u : Use) (p : Point) : Prop where
  reads : ReadsTree sx.digit root es
  wf : Elems.Wf es
  mem : .use u ∈ es
  start : u.root.start ≤ p
  stop : p ≤ u.root.stop
  alone : ∀ n ∈ root.flat, Relevant sx.digit n → u.root.stop ≤ n.start → p < n.start

/-- a name is inside the braces of an expression -/
structure InBraces (root : Syn) (u : Use) (e : Syn) : Prop where
  mem : e ∈ root.flat
  kind : e.kind = .expression
  opened : e.start ≤ u.root.start
  begins : e.first.2 ≤ u.root.start
  ends : u.root.stop ≤ e.last.1
  closed : u.root.stop < e.stop

end Spec

/-- captures are those of nodes -/
theorem capture_node {env : Env} {sx : Syntax} {tree : Tree} {text : Str} {c : Capture}
    (hc : c ∈ ((env.over sx).queryMatches .jinjaObjects tree text).flatten) : ∃ n ∈ (sx.root tree text).flat, c ∈ (objCaps sx.digit n).flatten := by
  have h1 : (env.over sx).queryMatches .jinjaObjects tree text = Syn.walk (qObjects sx.digit) [] [] (sx.root tree text) := rfl
  rw [h1, objects_flat, flatten_flatMap] at hc
  exact List.mem_flatMap.mp hc

/-- the pipe known to the analysis is one of the document -/
theorem pipe_node {env : Env} {sx : Syntax} {tree : Tree} {text : Str} {p : Point} {r : JinjaObjects} (hp : p ≠ Point.zero)
    (hq : objectsQuery (env.over sx) tree p text false = .ok r) (hin : r.inPipe p = true) :
    ∃ k ∈ (sx.root tree text).flat, IsPipe k ∧ Touches p k := by
  simp only [JinjaObjects.inPipe, Bool.and_eq_true, decide_eq_true_eq] at hin
  rcases (JinjaObjects.from_query hq).pipe with e | ⟨c, hc, hn, ⟨t, ht, hh⟩, e⟩
  · rw [e] at hin
    exact absurd (Point.le_antisymm hin.2 (Point.zero_le _)) hp
  · obtain ⟨n, hnm, hcn⟩ := capture_node hc
    have hm := objCaps_mem hcn
    rw [e, hm.1, hm.2.1] at hin
    exact ⟨n, hnm, ⟨(hm.2.2.2.1 hn).1, t, (hm.2.2.2.1 hn).2 ▸ ht, hh⟩, hin⟩

/-- the analysis with the cursor on a name inside an expression -/
theorem inside_query {env : Env} {sx : Syntax} {tree : Tree} {text : Str} {es : List Elem} {u : Use} {p : Point} {e : Syn}
    (hr : Regular (sx.root tree text)) (h : NameAt sx (sx.root tree text) es u p) (he : InBraces (sx.root tree text) u e) :
    ∃ o, objectsQuery (env.over sx) tree p text false = .ok o ∧ o.isTest p = false ∧ (o.inExpr p = true ↔ u.root.start < p) ∧ p ≠ Point.zero := by
  obtain ⟨pre, rest, hon, hlast⟩ := typed_use (env := env) hr h.reads h.wf h.mem h.start h.stop h.alone
  replace hlast := hlast e he.mem he.kind he.opened (Point.lt_of_le_of_lt h.stop he.closed)
  obtain ⟨r, o, os, hq, _, _, _, _, _, h5, h6, _⟩ := JinjaObjects.cursor_root hon
  refine ⟨r, hq, JinjaObjects.cursor_no_test hon ?_ hq, ?_, onUse_origin hon⟩
  · intro c hc
    have : c ∈ ((env.over sx).queryMatches .jinjaObjects tree text).flatten := by rw [hon.caps]; simp [hc]
    obtain ⟨n, hn, hcn⟩ := capture_node this
    have hm := objCaps_mem hcn
    rw [hm.1, hm.2.1]
    exact hr.laid.spans n hn
  · have e1 : r.expr = (e.start, e.stop) := by rw [hlast] at h6; exact congrArg Prod.fst h6
    have e2 : r.exprRange = ⟨e.first, e.last⟩ := by rw [hlast] at h6; exact congrArg Prod.snd h6
    have hsolid := use_solid h.wf h.mem
    have hne : ¬ e.first.2 = e.last.1 := by
      intro hh
      have := he.ends
      rw [← hh] at this
      exact absurd (Point.lt_of_lt_of_le hsolid (Point.le_trans this he.begins)) (Point.lt_irrefl _)
    have k1 : e.start ≤ p := Point.le_trans he.opened h.start
    have k2 : p < e.stop := Point.lt_of_le_of_lt h.stop he.closed
    unfold JinjaObjects.inExpr
    simp [e1, e2, h5, k1, k2, hne]

/-- the answer to a code-action request where no template is missing -/
theorem action_answer {env : Env} {w : World} {s : Server} {uri text : Str} {tree : Tree} {pos : Position} {o : JinjaObjects}
    (h : Examined s.files uri text tree (toPoint pos)) (hq : objectsQuery env tree (toPoint pos) text false = .ok o) :
    s.handle env w (.codeAction uri pos) = .ok (s, [], .codeAction (if o.inExpr (toPoint pos) then some exprCommands else none)) := by
  obtain ⟨acts, ha, hno⟩ := h.missing
  have hnone : acts.find? (fun item => decide (item.start ≤ toPoint pos) && decide (toPoint pos ≤ item.stop)) = none := by
    rw [List.find?_eq_none]
    intro i hi hh
    simp only [Bool.and_eq_true, decide_eq_true_eq] at hh
    exact hno i hi hh
  have hc : s.files.codeAction env uri pos = .ok (if o.inExpr (toPoint pos) then some .reset else none) := by
    simp only [LspFiles.codeAction, h.template, h.held, h.doc, ha, hnone, hq]
    split <;> rfl
  by_cases hi : o.inExpr (toPoint pos) = true
  · simp only [Server.handle, Server.onCodeAction, hc, hi, if_true, LspFiles.processCodeActions]; rfl
  · simp only [Server.handle, Server.onCodeAction, hc, hi]; rfl

/-! ## C95 -/

/-- **C95** (commands, beside names) With the cursor beside all names and no missing template there, the two commands are offered exactly inside
an expression. -/
theorem C95_commands_beside (env : Env) (sx : Syntax) (w : World) (s : Server) (uri text : Str) (tree : Tree) (pos : Position)
    (h : Examined s.files uri text tree (toPoint pos)) (hr : Regular (sx.root tree text)) (hb : Beside sx.digit (sx.root tree text) (toPoint pos)) :
    ((∃ e ∈ (sx.root tree text).flat, Within (toPoint pos) e) →
      s.handle (env.over sx) w (.codeAction uri pos) = .ok (s, [], .codeAction (some exprCommands))) ∧
    ((∀ e ∈ (sx.root tree text).flat, ¬ Within (toPoint pos) e) →
      s.handle (env.over sx) w (.codeAction uri pos) = .ok (s, [], .codeAction none)) := by
  obtain ⟨o, hq, hf, hfrom⟩ := beside_query (env := env) hr hb
  have hx := beside_expr hr hb hf hfrom
  rw [action_answer h hq]
  constructor
  · intro he; rw [hx.mpr he]; rfl
  · intro he
    cases hi : o.inExpr (toPoint pos) with
    | false => rfl
    | true => obtain ⟨e, hm, hw⟩ := hx.mp hi; exact absurd hw (he e hm)

/-- **C95** (commands, in a name; part: after its first character) With the cursor in a name inside an expression, after its first character, the
two commands are offered.  Missing: `C95_commands_refuted`. -/
theorem C95_commands_partial (env : Env) (sx : Syntax) (w : World) (s : Server) (uri text : Str) (tree : Tree) (pos : Position) (es : List Elem)
    (u : Use) (e : Syn) (h : Examined s.files uri text tree (toPoint pos)) (hr : Regular (sx.root tree text))
    (hn : NameAt sx (sx.root tree text) es u (toPoint pos)) (he : InBraces (sx.root tree text) u e) (hp : u.root.start < toPoint pos) :
    s.handle (env.over sx) w (.codeAction uri pos) = .ok (s, [], .codeAction (some exprCommands)) := by
  obtain ⟨o, hq, _, hx, _⟩ := inside_query (env := env) hr hn he
  rw [action_answer h hq, hx.mpr hp]; rfl

/-- **C95 is false for commands directly before a name**: none are offered there. -/
theorem C95_commands_refuted (env : Env) (sx : Syntax) (w : World) (s : Server) (uri text : Str) (tree : Tree) (pos : Position) (es : List Elem)
    (u : Use) (e : Syn) (h : Examined s.files uri text tree (toPoint pos)) (hr : Regular (sx.root tree text))
    (hn : NameAt sx (sx.root tree text) es u (toPoint pos)) (he : InBraces (sx.root tree text) u e) (hp : toPoint pos = u.root.start) :
    Within (toPoint pos) e ∧ s.handle (env.over sx) w (.codeAction uri pos) = .ok (s, [], .codeAction none) := by
  obtain ⟨o, hq, _, hx, _⟩ := inside_query (env := env) hr hn he
  refine ⟨⟨he.kind, hp ▸ he.opened, Point.lt_of_le_of_lt hn.stop he.closed⟩, ?_⟩
  have : o.inExpr (toPoint pos) = false := by
    cases hi : o.inExpr (toPoint pos) with
    | false => rfl
    | true => exact absurd (hp ▸ hx.mp hi) (Point.lt_irrefl _)
  rw [action_answer h hq, this]; rfl

/-- **C95** (filters) Directly before the name of a filter, at its pipe, all filters are offered. -/
theorem C95_filters (env : Env) (sx : Syntax) (w : World) (s : Server) (uri text : Str) (tree : Tree) (pos : Position) (tr : TriggerKind)
    (es : List Elem) (u : Use) (htr : Requested tr) (hx : fileExt uri = some .template) (hd : s.files.documents.get? uri = some text)
    (ht : (s.files.trees .template).get? uri = some tree) (hr : Regular (sx.root tree text))
    (hn : NameAt sx (sx.root tree text) es u (toPoint pos)) (hf : u.info.filter = true) (hp : toPoint pos = u.root.start) :
    ∃ items, s.handle (env.over sx) w (.completion uri pos tr) = .ok (s, [], .completion (some items)) ∧
      items.map (·.label) = filterTable.map Prod.fst := by
  obtain ⟨pre, rest, hon, _⟩ := typed_use (env := env) hr hn.reads hn.wf hn.mem hn.start hn.stop hn.alone
  obtain ⟨o, hq, hpipe⟩ := JinjaObjects.cursor_filter hon hf
  have h1 : o.inPipe (toPoint pos) = true := by
    simp only [JinjaObjects.inPipe, Bool.and_eq_true, decide_eq_true_eq]
    rw [hpipe, hp]
    refine ⟨?_, Point.le_refl _⟩
    rcases (JinjaObjects.from_query hq).pipe with e | ⟨c, hc, _, _, e⟩
    · rw [e]; exact Point.zero_le _
    · obtain ⟨n, hnm, hcn⟩ := capture_node hc
      have hm := objCaps_mem hcn
      have := hr.laid.spans n hnm
      rw [e] at hpipe ⊢
      rw [← hpipe]
      show c.start ≤ c.stop
      rw [hm.1, hm.2.1]; exact this
  have hk := kind_of_objects (env := env.over sx) (c := (.filter, o.shouldAutoclose)) htr hx hd ht (regular_intact hr.correct) hq
    (by simp [JinjaObjects.completion, h1])
  refine ⟨filterTable.map docItem, by simp only [Server.handle, Server.onCompletion, hk, completionItems], ?_⟩
  rw [List.map_map]
  rfl

/-- **C95 is false for names directly before a name**: with the cursor there, inside an expression and not at a pipe, nothing is offered, though
everywhere else in the expression names are (`C86_names`, `C86_typed`). -/
theorem C95_names_refuted (env : Env) (sx : Syntax) (w : World) (s : Server) (uri text : Str) (tree : Tree) (ss : List ImpStmt) (pos : Position)
    (tr : TriggerKind) (es : List Elem) (u : Use) (e : Syn) (htr : Requested tr) (hx : fileExt uri = some .template)
    (hd : s.files.documents.get? uri = some text) (ht : (s.files.trees .template).get? uri = some tree) (hr : Regular (sx.root tree text))
    (hk : (sx.root tree text).kind = .other) (hi : Refs sx.options (sx.root tree text).children ss) (hss : ImpStmt.Wf ss)
    (hno : ∀ i ∈ ss, ∀ t ∈ i.names, ¬ (t.start ≤ toPoint pos ∧ toPoint pos ≤ t.stop))
    (hn : NameAt sx (sx.root tree text) es u (toPoint pos)) (he : InBraces (sx.root tree text) u e)
    (hpi : ∀ k ∈ (sx.root tree text).flat, IsPipe k → ¬ Touches (toPoint pos) k) (hp : toPoint pos = u.root.start) :
    Within (toPoint pos) e ∧ s.handle (env.over sx) w (.completion uri pos tr) = .ok (s, [], .completion none) := by
  obtain ⟨o, hq, hte, hxx, horg⟩ := inside_query (env := env) hr hn he
  refine ⟨⟨he.kind, hp ▸ he.opened, Point.lt_of_le_of_lt hn.stop he.closed⟩, ?_⟩
  have e1 : o.inPipe (toPoint pos) = false := by
    cases h : o.inPipe (toPoint pos) with
    | false => rfl
    | true => obtain ⟨k, hk, h2, h3⟩ := pipe_node horg hq h; exact absurd h3 (hpi k hk h2)
  have e2 : o.inExpr (toPoint pos) = false := by
    cases hi : o.inExpr (toPoint pos) with
    | false => rfl
    | true => exact absurd (hp ▸ hxx.mp hi) (Point.lt_irrefl _)
  have e4 : o.completion (env.over sx).profile (toPoint pos) = .ok none := by simp [JinjaObjects.completion, e1, e2, hte]
  have e5 := no_template (env := env.over sx) horg (noTemplate_refs hk hi hss hno)
  have e6 := snippets_intact (env.over sx) tree text (toPoint pos) (regular_intact hr.correct)
  have hc : s.files.completion (env.over sx) uri pos tr = .ok none := by
    rcases htr with rfl | rfl <;> simp [LspFiles.completion, hx, hd, ht, e6, hq, e4, e5]
  simp only [Server.handle, Server.onCompletion, hc]

/-! ### Instances: `{{ b |upper }}` -/

namespace Fix

/-- the server with an analysed document in which no template is missing -/
def flatServer : Server := { server with files := { server.files with codeActions := HMap.empty.insert uriA [] } }

def flatTree : Tree := .parsed .jinja c!"aaa" none

theorem flat_examined (p : Point) : Examined flatServer.files uriA c!"aaa" flatTree p :=
  ⟨by decide, rfl, rfl, [], rfl, by simp⟩

def flatExpr : Syn := ex 7 1 7 21 [lf .identifier 21 1 10 11 c!"b", lf .operator 22 1 12 13 c!"|", lf .identifier 23 1 13 18 c!"upper"]

theorem flat_braces (u : Use) (h : u = useB ∨ u = useUpper) : InBraces (flatSyn.root flatTree c!"aaa") u flatExpr := by
  have hm : flatExpr ∈ flatRoot.flat := by simp [flatExpr, flatRoot, flatNodes, Syn.flat, Syn.flatAll, ex, st, lf]
  rcases h with rfl | rfl <;> exact ⟨hm, rfl, by decide, by decide, by decide, by decide⟩

theorem flat_refs : Refs flatSyn.options flatRoot.children [] := by
  refine Refs.stmt (b := lf .statementBegin 103 0 0 2 c!"{%") (e := lf .statementEnd 203 0 13 15 c!"%}") ⟨rfl, rfl, ⟨token_lf .., rfl⟩, ⟨token_lf .., rfl⟩, ?_⟩
    (by simp [NoRef, strings, lf, Syn.kind]) (Refs.other (.inr rfl) ?_ (Refs.other (.inr rfl) ?_ .nil))
  · simp [lf, Syn.kind]; exact ⟨token_lf .., token_lf .., token_lf .., token_lf ..⟩
  · simp [ex, lf, Syn.children, Syn.kind]
  · simp [ex, lf, Syn.children, Syn.kind]

/-- the cursor before `b` -/
theorem flat_before : NameAt flatSyn (flatSyn.root flatTree c!"aaa") flatElems useB (toPoint ⟨1, 10⟩) :=
  ⟨flatElems_read, flatElems_wf, by simp [flatElems], by decide, by decide, by
    intro n hn h; clear h; revert n; decide⟩

/-- the cursor in `upper` -/
theorem flat_in_upper (c : Nat) (h : c = 13 ∨ c = 15) : NameAt flatSyn (flatSyn.root flatTree c!"aaa") flatElems useUpper (toPoint ⟨1, c⟩) := by
  refine ⟨flatElems_read, flatElems_wf, by simp [flatElems], ?_, ?_, ?_⟩
  · rcases h with rfl | rfl <;> decide
  · rcases h with rfl | rfl <;> decide
  · intro n hn h'; clear h'; revert n; rcases h with rfl | rfl <;> decide

end Fix

/-- before `b` nothing is offered, … -/
example : Fix.flatServer.handle (Fix.env.over Fix.flatSyn) Fix.world (.completion Fix.uriA ⟨1, 10⟩ .invoked) =
      .ok (Fix.flatServer, [], .completion none) ∧
    Fix.flatServer.handle (Fix.env.over Fix.flatSyn) Fix.world (.codeAction Fix.uriA ⟨1, 10⟩) = .ok (Fix.flatServer, [], .codeAction none) := by
  refine ⟨(C95_names_refuted Fix.env Fix.flatSyn Fix.world Fix.flatServer Fix.uriA c!"aaa" Fix.flatTree [] ⟨1, 10⟩ .invoked Fix.flatElems Fix.useB
      Fix.flatExpr (.inl rfl) (by decide) rfl rfl Fix.flat_regular rfl Fix.flat_refs ?_ (by simp) Fix.flat_before
      (Fix.flat_braces _ (.inl rfl)) ?_ rfl).2,
    (C95_commands_refuted Fix.env Fix.flatSyn Fix.world Fix.flatServer Fix.uriA c!"aaa" Fix.flatTree ⟨1, 10⟩ Fix.flatElems Fix.useB Fix.flatExpr
      (Fix.flat_examined _) Fix.flat_regular Fix.flat_before (Fix.flat_braces _ (.inl rfl)) rfl).2⟩
  · exact ⟨by simp, by simp, by simp⟩
  · intro n hn h
    replace h := h.1
    revert h
    revert n
    unfold Touches
    decide

/-- … before `upper` all filters are, … -/
example : ∃ items, Fix.flatServer.handle (Fix.env.over Fix.flatSyn) Fix.world (.completion Fix.uriA ⟨1, 13⟩ .invoked) =
      .ok (Fix.flatServer, [], .completion (some items)) ∧ items.map (·.label) = filterTable.map Prod.fst :=
  C95_filters Fix.env Fix.flatSyn Fix.world Fix.flatServer Fix.uriA c!"aaa" Fix.flatTree ⟨1, 13⟩ .invoked Fix.flatElems Fix.useUpper (.inl rfl)
    (by decide) rfl rfl Fix.flat_regular (Fix.flat_in_upper 13 (.inl rfl)) rfl rfl

/-- … in it and behind it the commands. -/
example : Fix.flatServer.handle (Fix.env.over Fix.flatSyn) Fix.world (.codeAction Fix.uriA ⟨1, 15⟩) =
      .ok (Fix.flatServer, [], .codeAction (some exprCommands)) ∧
    Fix.flatServer.handle (Fix.env.over Fix.flatSyn) Fix.world (.codeAction Fix.uriA ⟨1, 19⟩) =
      .ok (Fix.flatServer, [], .codeAction (some exprCommands)) := by
  refine ⟨C95_commands_partial Fix.env Fix.flatSyn Fix.world Fix.flatServer Fix.uriA c!"aaa" Fix.flatTree ⟨1, 15⟩ Fix.flatElems Fix.useUpper
      Fix.flatExpr (Fix.flat_examined _) Fix.flat_regular (Fix.flat_in_upper 15 (.inr rfl)) (Fix.flat_braces _ (.inr rfl)) (by decide),
    (C95_commands_beside Fix.env Fix.flatSyn Fix.world Fix.flatServer Fix.uriA c!"aaa" Fix.flatTree ⟨1, 19⟩ (Fix.flat_examined _)
      Fix.flat_regular ⟨by decide, ?_⟩).1 ?_⟩
  · intro n hn h
    replace h := h.kind
    revert h
    revert n
    unfold Touches
    decide
  · show ∃ e ∈ Fix.flatRoot.flat, Within (toPoint ⟨1, 19⟩) e
    unfold Within; decide

end JinjaLsp
