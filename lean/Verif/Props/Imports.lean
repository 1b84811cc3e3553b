import Verif.Lemmas.UnderCursor
import Verif.Lemmas.Completion
import Verif.Props.Definitions
/-
  C21–C24: template names under the cursor, backend variables and template references, snippets.
-/

namespace JinjaLsp
open Spec

/-! ## C21 -/

/-- nothing of the expressions of the document reaches the cursor -/
structure Quiet (cs : List Capture) (p : Point) : Prop where
  origin : p ≠ Point.zero
  pipes : ∀ c ∈ cs, c.name = .pipe → c.start ≠ Point.zero ∧ ¬ (c.start ≤ p ∧ p ≤ c.stop)
  names : ∀ c ∈ cs, c.name = .justId → ¬ (c.start ≤ p ∧ p ≤ c.stop)
  exprs : ∀ c ∈ cs, c.name = .expr → ¬ (c.start ≤ p ∧ p < c.stop)
  tests : ∀ c ∈ cs, c.name = .is → ¬ (c.stop ≤ p ∧ p.row = c.stop.row)

theorem quiet_query {env : Env} {tree : Tree} {text : Str} {p : Point}
    (h : Quiet (env.queryMatches .jinjaObjects tree text).flatten p) :
    ∃ s, objectsQuery env tree p text false = .ok s ∧ s.isIdent p = none ∧ s.completion env.profile p = .ok none := by
  obtain ⟨s, hs⟩ := JinjaObjects.query_ok env tree p text false fun ⟨c, hc, hn, _, hz⟩ => (h.pipes c hc hn).1 hz
  have hf := JinjaObjects.from_query hs
  have hzero : ¬ (Point.zero ≤ p ∧ p ≤ Point.zero) := fun hh => h.origin (Point.le_antisymm hh.2 hh.1)
  have hid : s.isIdent p = none := by
    have hcov : ¬ (s.ident.1 ≤ p ∧ p ≤ s.ident.2) := by
      rcases hf.ident with e | ⟨c, hc, hn, e⟩
      · rw [e]; exact hzero
      · rw [e]; exact h.names c hc hn
    unfold JinjaObjects.isIdent
    rw [if_neg hcov]
  have hpipe : s.inPipe p = false := by
    have hcov : ¬ (s.pipe.1 ≤ p ∧ p ≤ s.pipe.2) := by
      rcases hf.pipe with e | ⟨c, hc, hn, _, e⟩
      · rw [e]; exact hzero
      · rw [e]; exact (h.pipes c hc hn).2
    unfold JinjaObjects.inPipe
    simpa using hcov
  have hexpr : s.inExpr p = false := by
    cases he : s.inExpr p with
    | false => rfl
    | true =>
      have hcov := JinjaObjects.inExpr_cover he
      rcases hf.expr with ⟨e, _⟩ | ⟨c, hc, hn, e, _⟩
      · rw [e] at hcov; exact absurd hcov.2 (Point.not_lt_zero _)
      · rw [e] at hcov; exact absurd hcov (h.exprs c hc hn)
  have htest : s.isTest p = false := by
    cases ht : s.isTest p with
    | false => rfl
    | true =>
      simp only [JinjaObjects.isTest, Bool.and_eq_true, decide_eq_true_eq] at ht
      obtain ⟨c, hc, hn, e⟩ := hf.test ht.1.1
      rw [e] at ht
      exact absurd ⟨ht.1.2, ht.2⟩ (h.tests c hc hn)
  refine ⟨s, hs, hid, ?_⟩
  unfold JinjaObjects.completion
  simp only [hpipe, hexpr, htest, Bool.false_eq_true, if_false]

/-- `"name"` or `'name'` -/
def Quoted (raw name : Str) : Prop := ∃ q, (q = '"' ∨ q = '\'') ∧ raw = q :: name ++ [q]

theorem stripQuotes_of_plain {name : Str} (h : ∀ c ∈ name, c ≠ '"' ∧ c ≠ '\'') : stripQuotes name = name := by
  unfold stripQuotes
  rw [List.filter_eq_self]
  intro c hc
  simpa using h c hc

theorem stripQuotes_quoted {raw name : Str} (h : Quoted raw name) : stripQuotes raw = stripQuotes name := by
  obtain ⟨q, hq, rfl⟩ := h
  unfold stripQuotes
  rcases hq with rfl | rfl <;> simp [List.filter_append]

/-- goto-definition in a template name opens the file of the name without any quotes -/
theorem goto_name (env : Env) (w : World) (f : LspFiles) (uri : Str) (tree : Tree) (text : Str) (pos : Position)
    (hext : fileExt uri = some .template) (hd : f.documents.get? uri = some text) (ht : (f.trees .template).get? uri = some tree)
    (hq : Quiet (env.queryMatches .jinjaObjects tree text).flatten (toPoint pos))
    (before rest : List Capture) (s : ImpStmt) (t : Tok)
    (h : OnName (env.queryMatches .jinjaImports tree text).flatten before s t rest (toPoint pos))
    (name target url : Str) (hraw : Quoted t.text name)
    (hfile : w.canonicalize (pathPush f.config.templates (stripQuotes name)) = .ok target)
    (hurl : env.urlParse (c!"file://" ++ target) = some url) :
    f.gotoDefinition env w uri pos = .ok (some (.scalar ⟨url, ⟨⟨0, 0⟩, ⟨0, 0⟩⟩⟩)) := by
  obtain ⟨o, h1, h2, _⟩ := quiet_query hq
  obtain ⟨i, hi, hn, _⟩ := name_under_cursor h
  rw [stripQuotes_quoted hraw] at hn
  have hloc : f.templateLocation env w i.name = some (.scalar ⟨url, Range.zero⟩) := by
    unfold LspFiles.templateLocation
    rw [hn, hfile]
    simp only [hurl]
  simp only [LspFiles.gotoDefinition, hext, ht, hd, h1, h2, Option.bind_none, hi, Option.bind_some, hloc]
  rfl

/-- **C21** (part: goto-definition) With the cursor in the string of an extends, include, from or import statement,
goto-definition opens the file of exactly that name.  Missing: names that contain quote characters (`C21_inner_quote_refuted`). -/
theorem C21_goto_partial (env : Env) (w : World) (f : LspFiles) (uri : Str) (tree : Tree) (text : Str) (pos : Position)
    (hext : fileExt uri = some .template) (hd : f.documents.get? uri = some text) (ht : (f.trees .template).get? uri = some tree)
    (hq : Quiet (env.queryMatches .jinjaObjects tree text).flatten (toPoint pos))
    (before rest : List Capture) (s : ImpStmt) (t : Tok)
    (h : OnName (env.queryMatches .jinjaImports tree text).flatten before s t rest (toPoint pos))
    (name target url : Str) (hraw : Quoted t.text name) (hplain : ∀ c ∈ name, c ≠ '"' ∧ c ≠ '\'')
    (hfile : w.canonicalize (pathPush f.config.templates name) = .ok target)
    (hurl : env.urlParse (c!"file://" ++ target) = some url) :
    f.gotoDefinition env w uri pos = .ok (some (.scalar ⟨url, ⟨⟨0, 0⟩, ⟨0, 0⟩⟩⟩)) :=
  goto_name env w f uri tree text pos hext hd ht hq before rest s t h name target url hraw
    (by rw [stripQuotes_of_plain hplain]; exact hfile) hurl

/-- **C21 is false for names that contain quotes** (`{% include "it's.html" %}`): the file of another name, `its.html`, is opened. -/
theorem C21_inner_quote_refuted (env : Env) (w : World) (f : LspFiles) (uri : Str) (tree : Tree) (text : Str) (pos : Position)
    (hext : fileExt uri = some .template) (hd : f.documents.get? uri = some text) (ht : (f.trees .template).get? uri = some tree)
    (hq : Quiet (env.queryMatches .jinjaObjects tree text).flatten (toPoint pos))
    (before rest : List Capture) (s : ImpStmt) (t : Tok)
    (h : OnName (env.queryMatches .jinjaImports tree text).flatten before s t rest (toPoint pos))
    (a b target url : Str) (ha : ∀ c ∈ a ++ b, c ≠ '"' ∧ c ≠ '\'') (hraw : t.text = '"' :: (a ++ '\'' :: b) ++ ['"'])
    (hfile : w.canonicalize (pathPush f.config.templates (a ++ b)) = .ok target)
    (hurl : env.urlParse (c!"file://" ++ target) = some url) :
    f.gotoDefinition env w uri pos = .ok (some (.scalar ⟨url, ⟨⟨0, 0⟩, ⟨0, 0⟩⟩⟩)) := by
  refine goto_name env w f uri tree text pos hext hd ht hq before rest s t h (a ++ '\'' :: b) target url ⟨'"', Or.inl rfl, hraw⟩ ?_ hurl
  have : stripQuotes (a ++ '\'' :: b) = a ++ b := by
    have h1 := stripQuotes_of_plain ha
    unfold stripQuotes at h1 ⊢
    rw [List.filter_append] at h1 ⊢
    simpa using h1
  rw [this]; exact hfile

/-- **C21** (part: completion) With the cursor in such a string, template completion is for exactly that name: its range is the range
of the string and its filter text a prefix of the name.  Missing: names with quotes, and strings over several lines. -/
theorem C21_completion_partial (env : Env) (f : LspFiles) (uri : Str) (tree : Tree) (text : Str) (pos : Position)
    (hext : fileExt uri = some .template) (hd : f.documents.get? uri = some text) (ht : (f.trees .template).get? uri = some tree)
    (hs : ¬ Spec.Broken (env.queryMatches .jinjaSnippets tree text).flatten (toPoint pos))
    (hq : Quiet (env.queryMatches .jinjaObjects tree text).flatten (toPoint pos))
    (before rest : List Capture) (s : ImpStmt) (t : Tok)
    (h : OnName (env.queryMatches .jinjaImports tree text).flatten before s t rest (toPoint pos)) (hline : t.start.row = t.stop.row)
    (name : Str) (hraw : Quoted t.text name) (hplain : ∀ c ∈ name, c ≠ '"' ∧ c ≠ '\'') (hascii : ∀ c ∈ name, c.utf8Size = 1) :
    ∃ x, f.completion env uri pos .invoked = .ok (some (.includedTemplate x (toRange (t.start, t.stop)), false)) ∧ x <+: name := by
  obtain ⟨o, h1, _, h2⟩ := quiet_query hq
  obtain ⟨i, hi, hn, e1, e2⟩ := name_under_cursor h
  rw [stripQuotes_quoted hraw, stripQuotes_of_plain hplain] at hn
  have htc := snippets_intact env tree text (toPoint pos) hs
  have hcol : (toPoint pos).column ≤ i.stop.column + 1 := by
    rw [e2]
    have h3 := h.start
    have h4 := h.stop
    rw [Point.le_def] at h3 h4
    omega
  obtain ⟨r, hr⟩ := completionStart_ok (prof := env.profile) hcol
  have hsome : r ≠ none := by
    intro e
    subst e
    -- a prefix of an ASCII string always exists
    have hb : ∀ (s : Str) (n : Nat), (∀ c ∈ s, c.utf8Size = 1) → n ≤ utf8Len s → bytePrefix s n ≠ none := by
      intro s
      induction s with
      | nil => intro n _ hn; have : n = 0 := by simpa [utf8Len] using hn
               subst this; simp [bytePrefix]
      | cons c s ih =>
        intro n hc hn
        cases n with
        | zero => simp [bytePrefix]
        | succ n =>
          have hc1 := hc c (by simp)
          have hl : utf8Len (c :: s) = c.utf8Size + utf8Len s := by simp [utf8Len]
          have := ih n (fun x hx => hc x (by simp [hx])) (by omega)
          simp only [bytePrefix, hc1]
          simpa using this
    unfold completionStart at hr
    simp only at hr
    split at hr
    · cases hr
    · rename_i hlen
      split at hr
      · cases hr
      · rename_i d hdf
        split at hr
        · cases hr
        · rename_i hd1
          split at hr
          · cases hr
          · rename_i hd2
            injection hr with hr
            simp only [Bool.or_eq_true, decide_eq_true_eq, not_or] at hd1
            refine hb i.name (utf8Len i.name - d + 1) ?_ (by omega) hr
            rw [hn]; exact hascii
  obtain ⟨x, rfl⟩ := Option.ne_none_iff_exists'.mp hsome
  refine ⟨x, ?_, ?_⟩
  · simp only [LspFiles.completion, hext, ht, hd, htc, h1, h2, hi, hr]
    simp [e1, e2]
  · have := completionStart_prefix hr
    rwa [hn] at this

namespace Fix

/-- `{% set x = 1 %}{% include ["a.html", "b.html"] %}` with the cursor in `"b.html"` -/
def incl : ImpStmt := .include (tok 0 15 48 [] 30) (tok 0 18 25 c!"include" 31)
  [tok 0 27 35 c!"\"a.html\"" 32, tok 0 37 45 c!"\"b.html\"" 33]

def inclEnv : Env := envWith .jinjaImports incl.caps

theorem incl_on : OnName (inclEnv.queryMatches .jinjaImports (.parsed .jinja c!"aaa" none) c!"aaa").flatten [] incl
    (tok 0 37 45 c!"\"b.html\"" 33) [] (toPoint ⟨0, 40⟩) where
  caps := by simp [inclEnv, envWith, flatten_singletons]
  earlier := by intro c hc; cases hc
  name := by decide
  head := by decide
  start := by decide
  stop := by decide
  only := by decide
  some_match := by decide
  ids := by decide
  after := by intro c hc; cases hc

theorem incl_quiet : Quiet (inclEnv.queryMatches .jinjaObjects (.parsed .jinja c!"aaa" none) c!"aaa").flatten (toPoint ⟨0, 40⟩) where
  origin := by decide
  pipes := by intro c hc; simp [inclEnv, envWith] at hc
  names := by intro c hc; simp [inclEnv, envWith] at hc
  exprs := by intro c hc; simp [inclEnv, envWith] at hc
  tests := by intro c hc; simp [inclEnv, envWith] at hc

end Fix

/-- the hypotheses of these theorems hold -/
example : ∃ target, Fix.files.gotoDefinition Fix.inclEnv Fix.world Fix.uriA ⟨0, 40⟩ =
      .ok (some (.scalar ⟨c!"file://" ++ target, ⟨⟨0, 0⟩, ⟨0, 0⟩⟩⟩)) :=
  ⟨pathPush Fix.files.config.templates c!"b.html",
    C21_goto_partial Fix.inclEnv Fix.world Fix.files Fix.uriA (.parsed .jinja c!"aaa" none) c!"aaa" ⟨0, 40⟩ (by decide) (by decide) rfl
      Fix.incl_quiet [] [] Fix.incl _ Fix.incl_on c!"b.html" _ _ ⟨'"', Or.inl rfl, rfl⟩ (by decide) rfl rfl⟩

example : ∃ x, Fix.files.completion Fix.inclEnv Fix.uriA ⟨0, 40⟩ .invoked =
      .ok (some (.includedTemplate x ⟨⟨0, 37⟩, ⟨0, 45⟩⟩, false)) ∧ x <+: c!"b.html" :=
  C21_completion_partial Fix.inclEnv Fix.files Fix.uriA (.parsed .jinja c!"aaa" none) c!"aaa" ⟨0, 40⟩ (by decide) (by decide) rfl
    (by rintro ⟨pre, e, post, hc, _⟩; simp [Fix.inclEnv, Fix.envWith] at hc)
    Fix.incl_quiet [] [] Fix.incl _ Fix.incl_on rfl c!"b.html" ⟨'"', Or.inl rfl, rfl⟩ (by decide) (by decide)

example : ∃ (t : Tok) (a b : Str), (∀ c ∈ a ++ b, c ≠ '"' ∧ c ≠ '\'') ∧ t.text = '"' :: (a ++ '\'' :: b) ++ ['"'] :=
  ⟨Fix.tok 0 27 38 c!"\"it's.html\"" 32, c!"it", c!"s.html", by decide, rfl⟩

/-! ## C22 -/

/-- what a capture of a backend definitions query declares -/
def Spec.declares (c : Capture) : Option (Str × Point × Point) :=
  match c.name, c.text with
  | .keyId, some t => some (t, c.start, c.stop)
  | .name, some t => some (t.filter (fun x => x ≠ '"' && x ≠ '\''), c.start, c.stop)
  | _, _ => none

theorem backendRun_spec : ∀ (cs : List Capture) (vs : List Identifier), (∀ c ∈ cs, c.text ≠ none) →
    ∃ new, backendRun vs cs = vs ++ new ∧ (∀ i ∈ new, i.idType = .backendVariable) ∧
      new.map (fun i => (i.name, i.start, i.stop)) = (cs.takeWhile fun c => decide (c.name ≠ .error)).filterMap Spec.declares
  | [], vs, _ => ⟨[], by simp [backendRun], by simp, by simp⟩
  | c :: cs, vs, h => by
    obtain ⟨t, ht⟩ := Option.ne_none_iff_exists'.mp (h c (by simp))
    have hcs : ∀ x ∈ cs, x.text ≠ none := fun x hx => h x (by simp [hx])
    by_cases he : c.name = .error
    · exact ⟨[], by simp [backendRun, backendCheck, he], by simp, by simp [he]⟩
    · by_cases hk : c.name = .keyId
      · obtain ⟨new, h1, h2, h3⟩ := backendRun_spec cs (vs ++ [{ Identifier.new t c.start c.stop with idType := .backendVariable }]) hcs
        refine ⟨{ Identifier.new t c.start c.stop with idType := .backendVariable } :: new, ?_, ?_, ?_⟩
        · simp [backendRun, backendCheck, hk, ht, h1]
        · intro i hi
          rcases List.mem_cons.mp hi with rfl | hi
          · rfl
          · exact h2 i hi
        · have : Spec.declares c = some (t, c.start, c.stop) := by simp [Spec.declares, hk, ht]
          simp [he, this, h3, Identifier.new]
      · by_cases hn : c.name = .name
        · obtain ⟨new, h1, h2, h3⟩ := backendRun_spec cs (vs ++ [{ Identifier.new (stripQuotes t) c.start c.stop with idType := .backendVariable }]) hcs
          refine ⟨{ Identifier.new (stripQuotes t) c.start c.stop with idType := .backendVariable } :: new, ?_, ?_, ?_⟩
          · simp [backendRun, backendCheck, hn, ht, h1]
          · intro i hi
            rcases List.mem_cons.mp hi with rfl | hi
            · rfl
            · exact h2 i hi
          · have : Spec.declares c = some (stripQuotes t, c.start, c.stop) := by
              simp only [Spec.declares, hn, ht]; rfl
            simp [he, this, h3, Identifier.new]
        · obtain ⟨new, h1, h2, h3⟩ := backendRun_spec cs vs hcs
          refine ⟨new, ?_, h2, ?_⟩
          · have : backendCheck vs c = some vs := by
              unfold backendCheck
              split <;> first | rfl | (rename_i hh; first | exact absurd hh hk | exact absurd hh hn | exact absurd hh he)
            simp only [backendRun, this, h1]
          · have : Spec.declares c = none := by
              unfold Spec.declares
              split <;> first | rfl | (rename_i hh _; first | exact absurd hh hk | exact absurd hh hn)
            simp [he, this, h3]

theorem backend_templates_type : ∀ (l : List Capture) (s : BackendTemplates), (∀ t ∈ s.templates, t.idType = .jinjaTemplate) →
    ∀ t ∈ (l.foldl BackendTemplates.check s).templates, t.idType = .jinjaTemplate
  | [], _, h => h
  | c :: l, s, h => by
    refine backend_templates_type l (s.check c) ?_
    unfold BackendTemplates.check
    split
    · split
      · exact h
      · intro t ht
        rcases List.mem_append.mp ht with ht | ht
        · exact h t ht
        · cases List.mem_singleton.mp ht; rfl
    · split
      · split
        · exact h
        · split <;> exact h
      · exact h

/-- the variables recorded when a backend file is opened -/
theorem didOpen_backend (env : Env) (w : World) (s s' : Server) (uri text : Str) (out : List Send) (r : Reply)
    (he : fileExt uri = some .backend)
    (hp : env.parseFails s.files.parserBackend text ((s.files.trees .backend).get? uri) = false)
    (h : s.handle env w (.didOpen uri text) = .ok (s', out, r)) :
    s'.files.variables.get? uri = some (s.files.backendVariables env
      (.parsed s.files.parserBackend text ((s.files.trees .backend).get? uri)) text) := by
  simp only [Server.handle] at h
  split at h
  · cases h
  · rename_i f msg hf
    simp only [Except.ok.injEq, Prod.mk.injEq] at h
    obtain ⟨rfl, _⟩ := h
    obtain ⟨h1, _⟩ := LspFiles.didOpen_inv he hf
    have ht := LspFiles.openBase_tree (f := s.files) (n := uri) (l := .backend) hp
    rw [LspFiles.addVariables_backend ht] at h1
    cases h1
    have hb : (s.files.openBase env uri .backend text).queriesBackend = s.files.queriesBackend := by
      unfold LspFiles.openBase LspFiles.addTree LspFiles.deleteVariables
      split <;> split <;> rfl
    show HMap.get? (HMap.insert _ _ _) _ = _
    rw [HMap.get?_insert_self]
    unfold LspFiles.backendVariables
    rw [hb]
    rfl

/-- what is recorded for a backend file: the backend variables are those that the captures before the first error declare, the rest are references -/
theorem backendVariables_spec {env : Env} {f : LspFiles} {tree : Tree} {text : Str}
    (htext : ∀ c ∈ (env.queryMatches (.backendDefinitions f.queriesBackend) tree text).flatten, c.text ≠ none) :
    ((f.backendVariables env tree text).filter fun i => i.idType = .backendVariable).map (fun i => (i.name, i.start, i.stop)) =
      ((env.queryMatches (.backendDefinitions f.queriesBackend) tree text).flatten.takeWhile
        fun c => decide (c.name ≠ .error)).filterMap Spec.declares ∧
    ∀ i ∈ f.backendVariables env tree text, i.idType ≠ .backendVariable → i.idType = .jinjaTemplate := by
  generalize hq : env.queryMatches (.backendDefinitions f.queriesBackend)
    tree text = ms at htext ⊢
  have hall : selectCaptures ms Point.zero true = ms.flatten := by rw [selectCaptures_all]
  obtain ⟨new, h1, h2, h3⟩ := backendRun_spec ms.flatten [] htext
  have hdef : backendDefinitionQuery env f.queriesBackend
      tree Point.zero text true = new := by
    unfold backendDefinitionQuery
    rw [hq, hall, h1]; rfl
  have htpl := backend_templates_type (selectCaptures (env.queryMatches (.backendTemplates f.queriesBackend)
    tree text) Point.zero true) ⟨[], false⟩ (by simp)
  unfold LspFiles.backendVariables
  rw [hdef]
  constructor
  · rw [List.filter_append]
    have e1 : (new.filter fun i => i.idType = .backendVariable) = new := by
      rw [List.filter_eq_self]; intro i hi; simp [h2 i hi]
    have e2 : ((backendTemplatesQuery env f.queriesBackend
        tree Point.zero text true).templates.filter
          fun i => i.idType = .backendVariable) = [] := by
      rw [List.filter_eq_nil_iff]
      intro i hi
      have := htpl i hi
      simp [this]
    rw [e1, e2, List.append_nil, h3]
  · intro i hi hn
    rcases List.mem_append.mp hi with hi | hi
    · exact absurd (h2 i hi) hn
    · exact htpl i hi

/-- **C22** After opening a backend file, its backend variables are exactly the declarations that precede the first syntax
error, in order, without quotes. -/
theorem C22_backend_variables (env : Env) (w : World) (s s' : Server) (uri text : Str) (out : List Send) (r : Reply)
    (he : fileExt uri = some .backend)
    (hp : env.parseFails s.files.parserBackend text ((s.files.trees .backend).get? uri) = false)
    (htext : ∀ c ∈ (env.queryMatches (.backendDefinitions s.files.queriesBackend)
      (.parsed s.files.parserBackend text ((s.files.trees .backend).get? uri)) text).flatten, c.text ≠ none)
    (h : s.handle env w (.didOpen uri text) = .ok (s', out, r)) :
    ∃ vars, s'.files.variables.get? uri = some vars ∧
      (vars.filter fun i => i.idType = .backendVariable).map (fun i => (i.name, i.start, i.stop)) =
        ((env.queryMatches (.backendDefinitions s.files.queriesBackend)
          (.parsed s.files.parserBackend text ((s.files.trees .backend).get? uri)) text).flatten.takeWhile
            fun c => decide (c.name ≠ .error)).filterMap Spec.declares ∧
      ∀ i ∈ vars, i.idType ≠ .backendVariable → i.idType = .jinjaTemplate :=
  ⟨_, didOpen_backend env w s s' uri text out r he hp h, backendVariables_spec htext⟩

/-- the hypotheses hold for a file that registers `url_for` and `now`, with an error after it -/
example : ∃ env : Env, fileExt c!"file:///main.rs" = some .backend ∧
    (∀ tree, ∀ c ∈ (env.queryMatches (.backendDefinitions .rust) tree []).flatten, c.text ≠ none) ∧
    (∀ tree, ((env.queryMatches (.backendDefinitions .rust) tree []).flatten.takeWhile
      fun c => decide (c.name ≠ .error)).filterMap Spec.declares = [(c!"url_for", ⟨0, 5⟩, ⟨0, 14⟩), (c!"now", ⟨1, 5⟩, ⟨1, 8⟩)]) ∧
    ∃ s' out r, Fix.server.handle env Fix.world (.didOpen c!"file:///main.rs" []) = .ok (s', out, r) :=
  ⟨Fix.envWith (.backendDefinitions .rust) [(Fix.tok 0 5 14 c!"\"url_for\"" 1).cap .name, (Fix.tok 1 5 8 c!"now" 2).cap .keyId,
      (Fix.tok 2 0 1 [] 3).cap .error, (Fix.tok 3 5 8 c!"old" 4).cap .keyId],
    by decide, by intro tree; simp only [Fix.envWith_caps]; decide, by intro tree; simp only [Fix.envWith_caps]; decide, _, _, _, rfl⟩

/-! ## C23 -/

/-- a call that takes a template name -/
def Spec.isCall (c : Capture) : Bool :=
  c.name = .methodName && (c.text = some c!"render_jinja" || c.text = some c!"get_template")

/-- `t` is the first string argument after a call -/
def Spec.FirstArgument (cs : List Capture) (t : Capture) : Prop :=
  t.name = .templateName ∧ ∃ a m b c, cs = a ++ m :: (b ++ t :: c) ∧ Spec.isCall m = true ∧ ∀ x ∈ b, x.name ≠ .templateName

/-- name without quotes, and range -/
def Spec.refers (c : Capture) : Str × Point × Point :=
  ((c.text.getD []).filter (fun x => x ≠ '"' && x ≠ '\''), c.start, c.stop)

/-- the arguments `BackendTemplates` takes, given whether a call is open -/
def callArgs : Bool → List Capture → List Capture
  | _, [] => []
  | op, c :: cs =>
    if c.name = .templateName then (if op then c :: callArgs false cs else callArgs op cs)
    else if Spec.isCall c then callArgs true cs
    else callArgs op cs

theorem foldl_callArgs : ∀ (cs : List Capture) (s : BackendTemplates), (∀ c ∈ cs, c.text ≠ none) →
    (cs.foldl BackendTemplates.check s).templates.map (fun i => (i.name, i.start, i.stop)) =
      s.templates.map (fun i => (i.name, i.start, i.stop)) ++ (callArgs s.inMethod cs).map Spec.refers
  | [], s, _ => by simp [callArgs]
  | c :: cs, s, h => by
    obtain ⟨t, ht⟩ := Option.ne_none_iff_exists'.mp (h c (by simp))
    have hcs : ∀ x ∈ cs, x.text ≠ none := fun x hx => h x (by simp [hx])
    rw [List.foldl_cons, foldl_callArgs cs _ hcs]
    by_cases h1 : c.name = .templateName
    · by_cases h2 : s.inMethod = true
      · have e : s.check c = ⟨s.templates ++ [{ Identifier.new (stripQuotes t) c.start c.stop with idType := .jinjaTemplate }], false⟩ := by
          simp [BackendTemplates.check, h1, h2, ht]
        rw [e]
        simp [callArgs, h1, h2, Spec.refers, ht, Identifier.new, stripQuotes]
      · have e : s.check c = s := by simp [BackendTemplates.check, h1, h2]
        rw [e]
        simp [callArgs, h1, h2]
    · by_cases h2 : Spec.isCall c = true
      · have h3 : c.name = .methodName ∧ t ∈ backendMethods := by
          simp only [Spec.isCall, ht, Bool.and_eq_true, Bool.or_eq_true, decide_eq_true_eq, Option.some.injEq] at h2
          refine ⟨h2.1, ?_⟩
          rcases h2.2 with e | e <;> simp [backendMethods, e]
        have e : s.check c = { s with inMethod := true } := by
          simp [BackendTemplates.check, h3.1, ht, h3.2]
        rw [e]
        simp [callArgs, h1, h2]
      · have e : s.check c = s := by
          unfold BackendTemplates.check
          rw [if_neg (fun hh => h1 hh.1)]
          split
          · rename_i hm
            simp only [ht]
            split
            · rename_i hmem
              exfalso
              apply h2
              simp only [backendMethods, List.mem_cons, List.not_mem_nil, or_false] at hmem
              simpa [Spec.isCall, hm, ht] using hmem
            · rfl
          · rfl
        rw [e]
        simp [callArgs, h1, h2]

theorem callArgs_sublist : ∀ (cs : List Capture) (op : Bool), (callArgs op cs).Sublist (cs.filter fun c => c.name = .templateName)
  | [], _ => by simp [callArgs]
  | c :: cs, op => by
    unfold callArgs
    by_cases h1 : c.name = .templateName
    · cases op with
      | true => simp only [h1, if_true, List.filter_cons, decide_true]; exact (callArgs_sublist cs false).cons_cons _
      | false =>
        simp only [h1, if_true, List.filter_cons, decide_true, Bool.false_eq_true, if_false]
        exact (callArgs_sublist cs false).cons _
    · simp only [h1, if_false, List.filter_cons, decide_false, Bool.false_eq_true]
      split <;> exact callArgs_sublist cs _

theorem callArgs_count : ∀ (cs : List Capture) (op : Bool),
    (callArgs op cs).length ≤ (cs.filter fun c => Spec.isCall c).length + (if op then 1 else 0)
  | [], op => by simp [callArgs]
  | c :: cs, op => by
    unfold callArgs
    by_cases h1 : c.name = .templateName
    · have h2 : Spec.isCall c = false := by simp [Spec.isCall, h1]
      cases op with
      | true =>
        have := callArgs_count cs false
        simp only [h1, if_true, h2, List.filter_cons, Bool.false_eq_true, if_false, List.length_cons] at this ⊢
        omega
      | false =>
        have := callArgs_count cs false
        simpa only [h1, if_true, h2, List.filter_cons, Bool.false_eq_true, if_false] using this
    · simp only [h1, if_false, List.filter_cons]
      split
      · have := callArgs_count cs true
        simp only [if_true, List.length_cons] at this ⊢
        omega
      · exact callArgs_count cs op

theorem mem_callArgs (t : Capture) : ∀ (cs : List Capture) (op : Bool),
    t ∈ callArgs op cs ↔
      (op = true ∧ t.name = .templateName ∧ ∃ b c, cs = b ++ t :: c ∧ ∀ x ∈ b, x.name ≠ .templateName) ∨ Spec.FirstArgument cs t
  | [], op => by
    simp only [callArgs, List.not_mem_nil, false_iff, not_or]
    constructor
    · rintro ⟨_, _, b, c, h, _⟩; simp at h
    · rintro ⟨_, a, m, b, c, h, _⟩; simp at h
  | c :: cs, op => by
    -- splitting off the first capture
    have first_cons : Spec.FirstArgument (c :: cs) t ↔ (Spec.isCall c = true ∧ t.name = .templateName ∧
        ∃ b d, cs = b ++ t :: d ∧ ∀ x ∈ b, x.name ≠ .templateName) ∨ Spec.FirstArgument cs t := by
      constructor
      · rintro ⟨hn, a, m, b, d, h, hm, hb⟩
        cases a with
        | nil =>
          simp only [List.nil_append, List.cons.injEq] at h
          obtain ⟨rfl, rfl⟩ := h
          exact Or.inl ⟨hm, hn, b, d, rfl, hb⟩
        | cons x a =>
          simp only [List.cons_append, List.cons.injEq] at h
          obtain ⟨rfl, rfl⟩ := h
          exact Or.inr ⟨hn, a, m, b, d, rfl, hm, hb⟩
      · rintro (⟨hm, hn, b, d, rfl, hb⟩ | ⟨hn, a, m, b, d, rfl, hm, hb⟩)
        · exact ⟨hn, [], c, b, d, rfl, hm, hb⟩
        · exact ⟨hn, c :: a, m, b, d, rfl, hm, hb⟩
    have open_cons : (∃ b d, c :: cs = b ++ t :: d ∧ ∀ x ∈ b, x.name ≠ .templateName) ↔
        c = t ∨ (c.name ≠ .templateName ∧ ∃ b d, cs = b ++ t :: d ∧ ∀ x ∈ b, x.name ≠ .templateName) := by
      constructor
      · rintro ⟨b, d, h, hb⟩
        cases b with
        | nil => simp only [List.nil_append, List.cons.injEq] at h; exact Or.inl h.1
        | cons x b =>
          simp only [List.cons_append, List.cons.injEq] at h
          obtain ⟨rfl, rfl⟩ := h
          exact Or.inr ⟨hb c (by simp), b, d, rfl, fun y hy => hb y (by simp [hy])⟩
      · rintro (rfl | ⟨hc, b, d, rfl, hb⟩)
        · exact ⟨[], cs, rfl, by simp⟩
        · refine ⟨c :: b, d, rfl, ?_⟩
          intro y hy
          rcases List.mem_cons.mp hy with rfl | hy
          · exact hc
          · exact hb y hy
    rw [first_cons, open_cons]
    unfold callArgs
    by_cases h1 : c.name = .templateName
    · have h2 : Spec.isCall c = false := by simp [Spec.isCall, h1]
      cases op with
      | true =>
        simp only [h1, if_true, List.mem_cons, mem_callArgs t cs false, h2, Bool.false_eq_true, false_and, false_or, true_and,
          ne_eq, not_true_eq_false, or_false]
        constructor
        · rintro (rfl | h)
          · exact Or.inl ⟨h1, rfl⟩
          · exact Or.inr h
        · rintro (⟨_, rfl⟩ | h)
          · exact Or.inl rfl
          · exact Or.inr h
      | false => simp [h1, mem_callArgs t cs false, h2]
    · have hct : c = t → t.name ≠ .templateName := by rintro rfl; exact h1
      simp only [h1, if_false, ne_eq, not_false_eq_true, true_and]
      by_cases h2 : Spec.isCall c = true
      · simp only [h2, if_true, mem_callArgs t cs true, true_and]
        constructor
        · rintro (⟨hn, h⟩ | h)
          · exact Or.inr (Or.inl ⟨hn, h⟩)
          · exact Or.inr (Or.inr h)
        · rintro (⟨_, hn, e | h⟩ | ⟨hn, h⟩ | h)
          · exact absurd hn (hct e)
          · exact Or.inl ⟨hn, h⟩
          · exact Or.inl ⟨hn, h⟩
          · exact Or.inr h
      · simp only [h2, if_false, mem_callArgs t cs op, Bool.false_eq_true, false_and, false_or]
        constructor
        · rintro (⟨ho, hn, h⟩ | h)
          · exact Or.inl ⟨ho, hn, Or.inr h⟩
          · exact Or.inr h
        · rintro (⟨ho, hn, e | h⟩ | h)
          · exact absurd hn (hct e)
          · exact Or.inl ⟨ho, hn, h⟩
          · exact Or.inr h

/-- the references recorded for a backend file -/
theorem backendVariables_refs {env : Env} {f : LspFiles} {tree : Tree} {text : Str} {ms : List Capture}
    (hms : (env.queryMatches (.backendTemplates f.queriesBackend) tree text).flatten = ms) (htext : ∀ c ∈ ms, c.text ≠ none)
    (htext' : ∀ c ∈ (env.queryMatches (.backendDefinitions f.queriesBackend) tree text).flatten, c.text ≠ none) :
    ((f.backendVariables env tree text).filter fun i => i.idType = .jinjaTemplate).map (fun i => (i.name, i.start, i.stop)) =
      (callArgs false ms).map Spec.refers := by
  have hall : ∀ l : List (List Capture), selectCaptures l Point.zero true = l.flatten := by
    intro l; rw [selectCaptures_all]
  obtain ⟨new, h1, h2, _⟩ := backendRun_spec _ [] htext'
  have hdef : backendDefinitionQuery env f.queriesBackend
      tree Point.zero text true = new := by
    unfold backendDefinitionQuery
    rw [hall, h1]; rfl
  have htpl := backend_templates_type ms ⟨[], false⟩ (by simp)
  have hfold := foldl_callArgs ms ⟨[], false⟩ htext
  unfold LspFiles.backendVariables
  rw [hdef, List.filter_append]
  have e1 : (new.filter fun i => i.idType = .jinjaTemplate) = [] := by
    rw [List.filter_eq_nil_iff]; intro i hi; simp [h2 i hi]
  have e2 : (backendTemplatesQuery env f.queriesBackend
      tree Point.zero text true).templates =
      (ms.foldl BackendTemplates.check ⟨[], false⟩).templates := by
    unfold backendTemplatesQuery
    rw [hall, hms]
  have e3 : ((ms.foldl BackendTemplates.check ⟨[], false⟩).templates.filter fun i => i.idType = .jinjaTemplate) =
      (ms.foldl BackendTemplates.check ⟨[], false⟩).templates := by
    rw [List.filter_eq_self]; intro i hi; simp [htpl i hi]
  rw [e1, e2, e3, List.nil_append, hfold]
  rfl

/-- **C23** After opening a backend file, its template references are — in document order — exactly the first string arguments after a
`render_jinja` or `get_template` call, without quotes, and there are at most as many as such calls. -/
theorem C23_template_references (env : Env) (w : World) (s s' : Server) (uri text : Str) (out : List Send) (r : Reply) (ms : List Capture)
    (he : fileExt uri = some .backend)
    (hp : env.parseFails s.files.parserBackend text ((s.files.trees .backend).get? uri) = false)
    (hms : (env.queryMatches (.backendTemplates s.files.queriesBackend)
      (.parsed s.files.parserBackend text ((s.files.trees .backend).get? uri)) text).flatten = ms)
    (htext : ∀ c ∈ ms, c.text ≠ none)
    (htext' : ∀ c ∈ (env.queryMatches (.backendDefinitions s.files.queriesBackend)
      (.parsed s.files.parserBackend text ((s.files.trees .backend).get? uri)) text).flatten, c.text ≠ none)
    (h : s.handle env w (.didOpen uri text) = .ok (s', out, r)) :
    ∃ (vars : List Identifier) (refs : List Capture), s'.files.variables.get? uri = some vars ∧
      (vars.filter fun i => i.idType = .jinjaTemplate).map (fun i => (i.name, i.start, i.stop)) = refs.map Spec.refers ∧
      refs.Sublist (ms.filter fun c => c.name = .templateName) ∧ (∀ t, t ∈ refs ↔ Spec.FirstArgument ms t) ∧
      refs.length ≤ (ms.filter fun c => Spec.isCall c).length := by
  refine ⟨_, callArgs false ms, didOpen_backend env w s s' uri text out r he hp h, ?_, callArgs_sublist ms false, ?_, ?_⟩
  · exact backendVariables_refs hms htext htext'
  · intro t
    rw [mem_callArgs]
    simp
  · have := callArgs_count ms false
    simpa using this

/-- the hypotheses hold: two calls, one with two string arguments, and a call of something else -/
example : ∃ (env : Env) (ms : List Capture), (∀ tree, (env.queryMatches (.backendTemplates .rust) tree []).flatten = ms) ∧
    (∀ c ∈ ms, c.text ≠ none) ∧ (callArgs false ms).map Spec.refers = [(c!"a.html", ⟨0, 13⟩, ⟨0, 21⟩), (c!"c.html", ⟨2, 13⟩, ⟨2, 21⟩)] ∧
    ∃ s' out r, Fix.server.handle env Fix.world (.didOpen c!"file:///main.rs" []) = .ok (s', out, r) :=
  ⟨Fix.envWith (.backendTemplates .rust) [(Fix.tok 0 0 12 c!"get_template" 1).cap .methodName,
      (Fix.tok 0 13 21 c!"\"a.html\"" 2).cap .templateName, (Fix.tok 0 23 31 c!"\"b.html\"" 3).cap .templateName,
      (Fix.tok 1 0 6 c!"format" 4).cap .methodName, (Fix.tok 1 13 21 c!"\"x.html\"" 5).cap .templateName,
      (Fix.tok 2 0 12 c!"render_jinja" 6).cap .methodName, (Fix.tok 2 13 21 c!"\"c.html\"" 7).cap .templateName],
    _, fun tree => Fix.envWith_caps .., by decide, by decide, _, _, _, rfl⟩

/-! ## C24 -/

/-- **C24** Snippets are offered in a template exactly when the cursor is not past the end of the first syntax-error region that
starts at most two columns after the cursor. -/
theorem C24_snippets (env : Env) (f : LspFiles) (uri : Str) (tree : Tree) (text : Str) (pos : Position) (tr : TriggerKind)
    (hext : fileExt uri = some .template) (hd : f.documents.get? uri = some text) (ht : (f.trees .template).get? uri = some tree)
    (htr : tr = .invoked ∨ tr = .triggerCharacter) (hpos : pos.character + 1 < 4294967296) :
    (∃ r b, f.completion env uri pos tr = .ok (some (.snippets r, b))) ↔
      Spec.Broken (env.queryMatches .jinjaSnippets tree text).flatten (toPoint pos) := by
  have hadd : uadd32 env.profile (toPosition2 (toPoint pos)).character 1 = .ok (pos.character + 1) := by
    have : (toPosition2 (toPoint pos)).character = pos.character := by
      show pos.character % 4294967296 = _
      omega
    rw [this]
    simp [uadd32, hpos]
  constructor
  · rintro ⟨r, b, h⟩
    apply Classical.byContradiction
    intro hb
    have htc := snippets_intact env tree text (toPoint pos) hb
    obtain ⟨ext, tree', text', he, ht', hd', h⟩ := LspFiles.completion_inv h
    rw [hext] at he; cases he
    rw [ht] at ht'; cases ht'
    rw [hd] at hd'; cases hd'
    rcases h with ⟨_, h⟩ | ⟨h, _⟩
    · rcases h with ⟨x, _, h, _⟩ | ⟨_, s, _, h | ⟨_, i, x, _, _, h⟩⟩
      · rw [htc] at h; cases h
      · rcases JinjaObjects.completion_inv h with ⟨h, _⟩ | ⟨h, _⟩ | ⟨_, _, h, _⟩ | ⟨h, _⟩ <;> cases h
      · cases h
    · cases h
  · intro hb
    have htc := snippets_broken env tree text (toPoint pos) hb
    rcases htr with rfl | rfl <;>
      exact ⟨_, _, by simp only [LspFiles.completion, hext, ht, hd, htc, hadd]; rfl⟩

/-- both sides occur -/
example : Spec.Broken [(Fix.tok 0 0 9 [] 1).cap .errorBlock] (toPoint ⟨0, 4⟩) ∧
    ¬ Spec.Broken [(Fix.tok 0 0 9 [] 1).cap .errorBlock] (toPoint ⟨0, 10⟩) := by
  constructor
  · exact ⟨[], _, [], rfl, by decide, by simp, by decide⟩
  · rintro ⟨pre, e, post, h, he, hpre, hp⟩
    cases pre with
    | nil => simp only [List.nil_append, List.cons.injEq] at h; rw [← h.1] at hp; exact absurd hp (by decide)
    | cons x pre => simp at h

end JinjaLsp
