import Verif.Lemmas.BackendQueries
import Verif.Props.Syntax
/-
  C74–C78: backend files, from syntax trees through the queries of queries.rs to what is recorded.
-/

namespace JinjaLsp
open Spec

/-- the tree that opening a backend file produces -/
abbrev openedBackend (s : Server) (uri text : Str) : Tree := .parsed s.files.parserBackend text ((s.files.trees .backend).get? uri)

/-- what is recorded for a file: names and extents of one type of identifier -/
def Recorded (f : LspFiles) (uri : Str) (k : IdType) (d : Str × Point × Point) : Prop :=
  ∃ vars, f.variables.get? uri = some vars ∧ ∃ i ∈ vars, i.idType = k ∧ (i.name, i.start, i.stop) = d

theorem takeWhile_all {α : Type} {p : α → Bool} : ∀ {l : List α}, (∀ a ∈ l, p a = true) → l.takeWhile p = l
  | [], _ => rfl
  | a :: l, h => by
    rw [List.takeWhile_cons, if_pos (h a (by simp)), takeWhile_all fun b hb => h b (List.mem_cons_of_mem _ hb)]

theorem recorded_iff {f : LspFiles} {uri : Str} {k : IdType} {vars : List Identifier} (hv : f.variables.get? uri = some vars)
    (d : Str × Point × Point) :
    Recorded f uri k d ↔ d ∈ (vars.filter fun i => i.idType = k).map (fun i => (i.name, i.start, i.stop)) := by
  unfold Recorded
  rw [List.mem_map]
  constructor
  · rintro ⟨vars', h, i, hi, hk, rfl⟩
    rw [hv] at h; cases h
    exact ⟨i, List.mem_filter.mpr ⟨hi, by simpa using hk⟩, rfl⟩
  · rintro ⟨i, hi, rfl⟩
    exact ⟨vars, hv, i, (List.mem_filter.mp hi).1, by simpa using (List.mem_filter.mp hi).2, rfl⟩

/-- backend variables are what the query declares, if there is no error node -/
theorem recorded_variables {env : Env} {sx : Syntax} {w : World} {s s' : Server} {uri text : Str} {out : List Send} {r : Reply}
    (he : fileExt uri = some .backend) (hp : env.parseFails s.files.parserBackend text ((s.files.trees .backend).get? uri) = false)
    (htext : ∀ c ∈ (sx.run (.backendDefinitions s.files.queriesBackend) (openedBackend s uri text) text).flatten, c.text ≠ none)
    (hno : ∀ c ∈ (sx.run (.backendDefinitions s.files.queriesBackend) (openedBackend s uri text) text).flatten, c.name ≠ .error)
    (h : s.handle (env.over sx) w (.didOpen uri text) = .ok (s', out, r)) (d : Str × Point × Point) :
    Recorded s'.files uri .backendVariable d ↔
      d ∈ (sx.run (.backendDefinitions s.files.queriesBackend) (openedBackend s uri text) text).flatten.filterMap Spec.declares := by
  obtain ⟨vars, hv, h1, _⟩ := C22_backend_variables (env.over sx) w s s' uri text out r he hp htext h
  rw [recorded_iff hv, h1]
  have : ((env.over sx).queryMatches (.backendDefinitions s.files.queriesBackend) (openedBackend s uri text) text).flatten.takeWhile
      (fun c => decide (c.name ≠ .error)) =
      (sx.run (.backendDefinitions s.files.queriesBackend) (openedBackend s uri text) text).flatten :=
    takeWhile_all fun c hc => by simpa using hno c hc
  rw [this]

/-! ## C74 -/

/-- **C74** The backend variables recorded when a Rust file without syntax error is opened are exactly: the identifiers directly inside the
brackets of any macro, or brackets nested in them, except the word `context`; and the strings among the arguments after a `jinja.m`
where `m` contains `add_global`, `add_filter` or `add_function`. -/
theorem C74_rust_exact (env : Env) (sx : Syntax) (w : World) (s s' : Server) (uri text : Str) (out : List Send) (r : Reply)
    (he : fileExt uri = some .backend) (hq : s.files.queriesBackend = .rust)
    (hp : env.parseFails s.files.parserBackend text ((s.files.trees .backend).get? uri) = false)
    (hl : Legible (sx.root (openedBackend s uri text) text)) (hno : ¬ HasError (sx.root (openedBackend s uri text) text))
    (h : s.handle (env.over sx) w (.didOpen uri text) = .ok (s', out, r)) (d : Str × Point × Point) :
    Recorded s'.files uri .backendVariable d ↔
      (∃ n, InMacro (sx.root (openedBackend s uri text) text) n ∧ n.text ≠ some c!"context" ∧ d = n.info) ∨
      (∃ n, Registered (sx.root (openedBackend s uri text) text) n ∧ d = n.unquoted) := by
  rw [recorded_variables he hp (by rw [hq]; exact rust_legible hl) (by rw [hq]; exact rust_noError hno) h d, hq]
  exact rust_declares hl d

/-! ## C75 -/

/-- an invocation of the macro `name` with the bracketed tokens `toks` -/
structure MacroCall (root : Syn) (name : Str) (toks : List Syn) : Prop where
  call : ∃ p ∈ root.flat, p.kind = .macroInvocation ∧ (∃ n ∈ p.children, n.kind = .identifier ∧ n.text = some name) ∧
    ∃ t ∈ p.children, t.kind = .tokenTree ∧ t.children = toks

/-- **C75** (part: nothing is missing) Every identifier among the arguments of a `context!` macro, in particular every key, is recorded, and
so is every string passed to `jinja.add_global`, `jinja.add_filter` or `jinja.add_function`.
Missing: that nothing else is recorded (refuted below). -/
theorem C75_keys_partial (env : Env) (sx : Syntax) (w : World) (s s' : Server) (uri text : Str) (out : List Send) (r : Reply)
    (he : fileExt uri = some .backend) (hq : s.files.queriesBackend = .rust)
    (hp : env.parseFails s.files.parserBackend text ((s.files.trees .backend).get? uri) = false)
    (hl : Legible (sx.root (openedBackend s uri text) text)) (hno : ¬ HasError (sx.root (openedBackend s uri text) text))
    (h : s.handle (env.over sx) w (.didOpen uri text) = .ok (s', out, r)) :
    (∀ toks n, MacroCall (sx.root (openedBackend s uri text) text) c!"context" toks → n ∈ toks → n.kind = .identifier →
      n.text ≠ some c!"context" → Recorded s'.files uri .backendVariable n.info) ∧
    (∀ n, Registered (sx.root (openedBackend s uri text) text) n → Recorded s'.files uri .backendVariable n.unquoted) := by
  constructor
  · rintro toks n ⟨p, hp', _, _, t, ht, htk, rfl⟩ hn hk hne
    exact (C74_rust_exact env sx w s s' uri text out r he hq hp hl hno h _).mpr
      (.inl ⟨n, ⟨hk, t, Syn.flat_children _ hp' ht, htk, hn⟩, hne, rfl⟩)
  · intro n hn
    exact (C74_rust_exact env sx w s s' uri text out r he hq hp hl hno h _).mpr (.inr ⟨n, hn, rfl⟩)

/-- **C75 is false** (other macros): every identifier among the arguments of any other macro is recorded as well. -/
theorem C75_other_macro_refuted (env : Env) (sx : Syntax) (w : World) (s s' : Server) (uri text : Str) (out : List Send) (r : Reply)
    (he : fileExt uri = some .backend) (hq : s.files.queriesBackend = .rust)
    (hp : env.parseFails s.files.parserBackend text ((s.files.trees .backend).get? uri) = false)
    (hl : Legible (sx.root (openedBackend s uri text) text)) (hno : ¬ HasError (sx.root (openedBackend s uri text) text))
    (h : s.handle (env.over sx) w (.didOpen uri text) = .ok (s', out, r)) (name : Str) (_hname : name ≠ c!"context") (toks : List Syn) (n : Syn)
    (hm : MacroCall (sx.root (openedBackend s uri text) text) name toks) (hn : n ∈ toks) (hk : n.kind = .identifier)
    (hne : n.text ≠ some c!"context") : Recorded s'.files uri .backendVariable n.info := by
  obtain ⟨p, hp', _, _, t, ht, htk, rfl⟩ := hm
  exact (C74_rust_exact env sx w s s' uri text out r he hq hp hl hno h _).mpr
    (.inl ⟨n, ⟨hk, t, Syn.flat_children _ hp' ht, htk, hn⟩, hne, rfl⟩)

/-- **C75 is false** (values): in `context! { key => value }` the identifier `value` is recorded as well. -/
theorem C75_value_refuted (env : Env) (sx : Syntax) (w : World) (s s' : Server) (uri text : Str) (out : List Send) (r : Reply)
    (he : fileExt uri = some .backend) (hq : s.files.queriesBackend = .rust)
    (hp : env.parseFails s.files.parserBackend text ((s.files.trees .backend).get? uri) = false)
    (hl : Legible (sx.root (openedBackend s uri text) text)) (hno : ¬ HasError (sx.root (openedBackend s uri text) text))
    (h : s.handle (env.over sx) w (.didOpen uri text) = .ok (s', out, r)) (a c : List Syn) (key arrow value : Syn)
    (hm : MacroCall (sx.root (openedBackend s uri text) text) c!"context" (a ++ key :: arrow :: value :: c))
    (_ha : arrow.text = some c!"=>") (hk : value.kind = .identifier) (hne : value.text ≠ some c!"context") :
    Recorded s'.files uri .backendVariable value.info :=
  (C75_keys_partial env sx w s s' uri text out r he hq hp hl hno h).1 _ value hm (by simp) hk hne

namespace Fix

/-- a node with parts -/
def nd (k : SKind) (f : Option SField) (i : Nat) (cs : List Syn) : Syn := .node k f i ⟨0, 0⟩ ⟨9, 0⟩ (some []) cs
/-- a part of a node -/
def fl (k : SKind) (f : SField) (i l a b : Nat) (t : Str) : Syn := .node k (some f) i ⟨l, a⟩ ⟨l, b⟩ (some t) []

/-- ```
context! { user => current }
vec![a]
jinja.add_function("now", f)
get_template("x.html")
``` -/
def rustRoot : Syn := nd .other none 1
  [nd .macroInvocation none 2 [lf .identifier 3 0 0 7 c!"context", nd .tokenTree none 4
      [lf .identifier 5 0 11 15 c!"user", lf .other 6 0 16 18 c!"=>", lf .identifier 7 0 19 26 c!"current"]],
   nd .macroInvocation none 8 [lf .identifier 9 1 0 3 c!"vec", nd .tokenTree none 10 [lf .identifier 11 1 5 6 c!"a"]],
   nd .callExpression none 12
     [nd .fieldExpression none 13 [lf .identifier 14 2 0 5 c!"jinja", lf .fieldIdentifier 15 2 6 18 c!"add_function"],
      nd .arguments none 16 [lf .stringLiteral 17 2 19 24 c!"\"now\"", lf .identifier 18 2 26 27 c!"f"]],
   nd .callExpression none 19
     [lf .identifier 20 3 0 12 c!"get_template", nd .arguments none 21 [lf .stringLiteral 22 3 13 21 c!"\"x.html\""]]]

def rustSyn : Syntax := ⟨fun _ _ => rustRoot, digit, fun _ _ => [[]], fun _ => true⟩

def uriRsFile : Str := c!"file:///main.rs"
def uriPyFile : Str := c!"file:///main.py"

theorem rust_legible' : Legible rustRoot := by unfold Legible; decide
theorem rust_no_error : ¬ HasError rustRoot := by unfold HasError; decide

end Fix

/-- the hypotheses of C74 and C75 hold, and the file has each of the mentioned parts -/
example : fileExt Fix.uriRsFile = some .backend ∧ Fix.server.files.queriesBackend = .rust ∧ Legible Fix.rustRoot ∧ ¬ HasError Fix.rustRoot ∧
    (∃ s' out r, Fix.server.handle (Fix.env.over Fix.rustSyn) Fix.world (.didOpen Fix.uriRsFile []) = .ok (s', out, r)) ∧
    MacroCall Fix.rustRoot c!"context" ([] ++ Fix.lf .identifier 5 0 11 15 c!"user" :: Fix.lf .other 6 0 16 18 c!"=>" ::
      Fix.lf .identifier 7 0 19 26 c!"current" :: []) ∧
    MacroCall Fix.rustRoot c!"vec" [Fix.lf .identifier 11 1 5 6 c!"a"] ∧ Registered Fix.rustRoot (Fix.lf .stringLiteral 17 2 19 24 c!"\"now\"") := by
  refine ⟨by decide, rfl, Fix.rust_legible', Fix.rust_no_error, ⟨_, _, _, rfl⟩, ?_, ?_, ?_⟩
  · exact ⟨_, by simp only [Fix.rustRoot, Fix.nd, Syn.flat, Syn.flatAll]; exact List.mem_cons_of_mem _ (List.mem_append_left _ (List.mem_cons_self ..)), rfl,
      ⟨_, List.mem_cons_self .., rfl, rfl⟩, _, List.mem_cons_of_mem _ (List.mem_cons_self ..), rfl, rfl⟩
  · exact ⟨_, flat_eq Fix.rustRoot ▸ List.mem_cons_of_mem _ (flatAll_self (List.mem_cons_of_mem _ (List.mem_cons_self ..))), rfl,
      ⟨_, List.mem_cons_self .., rfl, rfl⟩, _, List.mem_cons_of_mem _ (List.mem_cons_self ..), rfl, rfl⟩
  · refine ⟨rfl, _, flat_eq Fix.rustRoot ▸ List.mem_cons_of_mem _ (flatAll_self (List.mem_cons_of_mem _ (List.mem_cons_of_mem _ (List.mem_cons_self ..)))),
      [], _, [], _, [], rfl, ⟨rfl, [], _, [], _, [], rfl, rfl, rfl, rfl, _, rfl, ?_⟩, rfl, List.mem_cons_self ..⟩
    exact .inr (.inr (by decide))

/-- what is recorded for it -/
example : (Fix.rustSyn.run (.backendDefinitions .rust) (.parsed .rust [] none) []).flatten.filterMap Spec.declares =
    [(c!"user", ⟨0, 11⟩, ⟨0, 15⟩), (c!"current", ⟨0, 19⟩, ⟨0, 26⟩), (c!"a", ⟨1, 5⟩, ⟨1, 6⟩), (c!"now", ⟨2, 19⟩, ⟨2, 24⟩)] := by decide

/-! ## C76 -/

/-- **C76** The backend variables recorded when a Python file without syntax error is opened are exactly: the names of keyword arguments of
calls of `render`/`render_template`, directly or on a plain name; and the strings that subscript `….globals` or `….filters`, where a plain
name before the dot must be `jinja_env`. -/
theorem C76_python_exact (env : Env) (sx : Syntax) (w : World) (s s' : Server) (uri text : Str) (out : List Send) (r : Reply)
    (he : fileExt uri = some .backend) (hq : s.files.queriesBackend = .python)
    (hp : env.parseFails s.files.parserBackend text ((s.files.trees .backend).get? uri) = false)
    (hl : Legible (sx.root (openedBackend s uri text) text)) (hno : ¬ HasError (sx.root (openedBackend s uri text) text))
    (h : s.handle (env.over sx) w (.didOpen uri text) = .ok (s', out, r)) (d : Str × Point × Point) :
    Recorded s'.files uri .backendVariable d ↔ ∃ n, (TableKey (sx.root (openedBackend s uri text) text) n ∨
      Keyword (sx.root (openedBackend s uri text) text) n) ∧ d = n.info := by
  rw [recorded_variables he hp (by rw [hq]; exact python_legible hl) (by rw [hq]; exact python_noError hno) h d, hq]
  exact python_declares hl d

/-! ## C77 -/

/-- a call `receiver.method(…, name=…, …)` or `method(…, name=…, …)` -/
structure KeywordCall (root f n : Syn) : Prop where
  kind : n.kind = .identifier ∧ n.field = some .name
  call : ∃ p ∈ root.flat, ∃ a b args c k, p.children = a ++ f :: (b ++ args :: c) ∧ p.kind = .call ∧ f.field = some .function ∧
    args.kind = .argumentList ∧ args.field = some .arguments ∧ k ∈ args.children ∧ k.kind = .keywordArgument ∧ n ∈ k.children

/-- the string `n` subscripts `t` -/
structure SubscriptCall (root t n : Syn) : Prop where
  kind : n.kind = .stringContent
  sub : ∃ p ∈ root.flat, ∃ a b str c, p.children = a ++ t :: (b ++ str :: c) ∧ p.kind = .subscript ∧ str.kind = .string ∧ n ∈ str.children

/-- **C77** (part) Keyword arguments of `render(…)`, `render_template(…)`, `name.render(…)` and `name.render_template(…)` are recorded, and
so are the keys of `jinja_env.globals` and `jinja_env.filters`.
Missing: longer receivers, and that nothing else is recorded (refuted below). -/
theorem C77_plain_partial (env : Env) (sx : Syntax) (w : World) (s s' : Server) (uri text : Str) (out : List Send) (r : Reply)
    (he : fileExt uri = some .backend) (hq : s.files.queriesBackend = .python)
    (hp : env.parseFails s.files.parserBackend text ((s.files.trees .backend).get? uri) = false)
    (hl : Legible (sx.root (openedBackend s uri text) text)) (hno : ¬ HasError (sx.root (openedBackend s uri text) text))
    (h : s.handle (env.over sx) w (.didOpen uri text) = .ok (s', out, r)) :
    (∀ f n, KeywordCall (sx.root (openedBackend s uri text) text) f n → IsRenderer f → Recorded s'.files uri .backendVariable n.info) ∧
    (∀ t o f n, SubscriptCall (sx.root (openedBackend s uri text) text) t n → t.kind = .attribute → t.children = [o, f] →
      o.text = some c!"jinja_env" → f.kind = .identifier → f.field = some .attribute →
      (f.text = some c!"globals" ∨ f.text = some c!"filters") → Recorded s'.files uri .backendVariable n.info) := by
  constructor
  · rintro f n ⟨hk, p, hp', a, b, args, c, k, h1, h2, h3, h4, h5, h6, h7, h8⟩ hr
    exact (C76_python_exact env sx w s s' uri text out r he hq hp hl hno h _).mpr
      ⟨n, .inr ⟨hk, p, hp', a, f, b, args, c, k, h1, h2, h3, hr, h4, h5, h6, h7, h8⟩, rfl⟩
  · rintro t o f n ⟨hk, p, hp', a, b, str, c, h1, h2, h3, h4⟩ htk hch ho hfk hff hft
    refine (C76_python_exact env sx w s s' uri text out r he hq hp hl hno h _).mpr
      ⟨n, .inl ⟨hk, p, hp', a, t, b, str, c, h1, h2, ⟨htk, ?_, f, by simp [hch], hfk, hff, hft⟩, h3, h4⟩, rfl⟩
    intro x hx _ hxf
    rw [hch] at hx
    rcases List.mem_cons.mp hx with rfl | hx
    · exact ho
    · cases List.mem_singleton.mp hx
      rw [hff] at hxf; cases hxf

/-- **C77 is false** (missing): if every function called in the file has a longer receiver, as in `self.env.render(user=…)`, and nothing is
subscripted, then nothing is recorded, whatever is rendered. -/
theorem C77_receiver_refuted (env : Env) (sx : Syntax) (w : World) (s s' : Server) (uri text : Str) (out : List Send) (r : Reply)
    (he : fileExt uri = some .backend) (hq : s.files.queriesBackend = .python)
    (hp : env.parseFails s.files.parserBackend text ((s.files.trees .backend).get? uri) = false)
    (hl : Legible (sx.root (openedBackend s uri text) text)) (hno : ¬ HasError (sx.root (openedBackend s uri text) text))
    (h : s.handle (env.over sx) w (.didOpen uri text) = .ok (s', out, r))
    (hf : ∀ n ∈ (sx.root (openedBackend s uri text) text).flat, n.field = some .function → n.kind = .attribute ∧
      ∀ o ∈ n.children, o.field = some .object → o.kind = .attribute)
    (hsub : ∀ n ∈ (sx.root (openedBackend s uri text) text).flat, n.kind ≠ .subscript) :
    ∀ d, ¬ Recorded s'.files uri .backendVariable d := by
  intro d hd
  obtain ⟨n, hn, _⟩ := (C76_python_exact env sx w s s' uri text out r he hq hp hl hno h d).mp hd
  rcases hn with ⟨_, p, hp', _, _, _, _, _, _, hpk, _⟩ | ⟨_, p, hp', a, f, b, args, c, k, hch, _, hff, hr, _⟩
  · exact hsub p hp' hpk
  · obtain ⟨h1, h2⟩ := hf f (Syn.flat_children _ hp' (by rw [hch]; simp)) hff
    rcases hr with ⟨hk, _⟩ | ⟨_, ⟨o, ho, hok, hof⟩, _⟩
    · rw [h1] at hk; cases hk
    · rw [h2 o ho hof] at hok; cases hok

/-- **C77 is false** (too much): in `a.b.filters["k"]` the string is recorded, whatever `a` and `b` are. -/
theorem C77_foreign_table_refuted (env : Env) (sx : Syntax) (w : World) (s s' : Server) (uri text : Str) (out : List Send) (r : Reply)
    (he : fileExt uri = some .backend) (hq : s.files.queriesBackend = .python)
    (hp : env.parseFails s.files.parserBackend text ((s.files.trees .backend).get? uri) = false)
    (hl : Legible (sx.root (openedBackend s uri text) text)) (hno : ¬ HasError (sx.root (openedBackend s uri text) text))
    (h : s.handle (env.over sx) w (.didOpen uri text) = .ok (s', out, r)) (t o f n : Syn)
    (hs : SubscriptCall (sx.root (openedBackend s uri text) text) t n) (htk : t.kind = .attribute) (hch : t.children = [o, f])
    (ho : o.kind = .attribute) (hfk : f.kind = .identifier) (hff : f.field = some .attribute)
    (hft : f.text = some c!"globals" ∨ f.text = some c!"filters") : Recorded s'.files uri .backendVariable n.info := by
  obtain ⟨hk, p, hp', a, b, str, c, h1, h2, h3, h4⟩ := hs
  refine (C76_python_exact env sx w s s' uri text out r he hq hp hl hno h _).mpr
    ⟨n, .inl ⟨hk, p, hp', a, t, b, str, c, h1, h2, ⟨htk, ?_, f, by simp [hch], hfk, hff, hft⟩, h3, h4⟩, rfl⟩
  intro x hx hxk hxf
  rw [hch] at hx
  rcases List.mem_cons.mp hx with rfl | hx
  · rw [ho] at hxk; cases hxk
  · cases List.mem_singleton.mp hx
    rw [hff] at hxf; cases hxf

namespace Fix

/-- a keyword argument `name=…` -/
def kwArg (i l a b : Nat) (t : Str) : Syn := nd .keywordArgument none (100 + i) [fl .identifier .name i l a b t]
/-- a dotted name of two plain names -/
def dotted (i l : Nat) (f : Option SField) (x y : Str) : Syn :=
  nd .attribute f (200 + i) [fl .identifier .object (300 + i) l 0 4 x, fl .identifier .attribute (400 + i) l 5 9 y]

/-- ```
tpl.render(user=1)
jinja_env.globals["now"] = 1
self.cache.filters["k"] = 2
``` -/
def pyRoot : Syn := nd .other none 1
  [nd .call none 2 [dotted 1 0 (some .function) c!"tpl" c!"render", nd .argumentList (some .arguments) 3 [kwArg 4 0 11 15 c!"user"]],
   nd .subscript none 5 [dotted 2 1 none c!"jinja_env" c!"globals", nd .string none 6 [lf .stringContent 7 1 19 22 c!"now"]],
   nd .subscript none 8 [nd .attribute none 9 [dotted 3 2 (some .object) c!"self" c!"cache", fl .identifier .attribute 10 2 11 18 c!"filters"],
     nd .string none 11 [lf .stringContent 12 2 20 21 c!"k"]]]

/-- `self.env.render(user=1)` -/
def pyDeep : Syn := nd .other none 1
  [nd .call none 2 [nd .attribute (some .function) 9 [dotted 1 0 (some .object) c!"self" c!"env", fl .identifier .attribute 10 0 9 15 c!"render"],
     nd .argumentList (some .arguments) 3 [kwArg 4 0 16 20 c!"user"]]]

def pySyn (root : Syn) : Syntax := ⟨fun _ _ => root, digit, fun _ _ => [[]], fun _ => true⟩

/-- a server for Python projects -/
def serverPython : Server := { server with files := { files with parserBackend := .python, queriesBackend := .python } }

end Fix

/-- the hypotheses of C76 and C77 hold for the first file, which has each of the mentioned parts -/
example : fileExt Fix.uriPyFile = some .backend ∧ Fix.serverPython.files.queriesBackend = .python ∧ Legible Fix.pyRoot ∧ ¬ HasError Fix.pyRoot ∧
    (∃ s' out r, Fix.serverPython.handle (Fix.env.over (Fix.pySyn Fix.pyRoot)) Fix.world (.didOpen Fix.uriPyFile []) = .ok (s', out, r)) ∧
    (∃ f, KeywordCall Fix.pyRoot f (Fix.fl .identifier .name 4 0 11 15 c!"user") ∧ IsRenderer f) ∧
    (∃ t o f, SubscriptCall Fix.pyRoot t (Fix.lf .stringContent 12 2 20 21 c!"k") ∧ t.kind = .attribute ∧ t.children = [o, f] ∧
      o.kind = .attribute ∧ f.kind = .identifier ∧ f.field = some .attribute ∧ f.text = some c!"filters") := by
  refine ⟨by decide, rfl, by unfold Legible; decide, by unfold HasError; decide, ⟨_, _, _, rfl⟩, ⟨_, ⟨⟨rfl, rfl⟩, _, flat_eq Fix.pyRoot ▸ List.mem_cons_of_mem _
    (flatAll_self (List.mem_cons_self ..)), [], [], _, [], _, rfl, rfl, rfl, rfl, rfl, List.mem_cons_self .., rfl, List.mem_cons_self ..⟩,
    .inr ⟨rfl, ⟨_, List.mem_cons_self .., rfl, rfl⟩, _, List.mem_cons_of_mem _ (List.mem_cons_self ..), rfl, rfl, .inr rfl⟩⟩, ?_⟩
  exact ⟨_, _, _, ⟨rfl, _, flat_eq Fix.pyRoot ▸ List.mem_cons_of_mem _ (flatAll_self (List.mem_cons_of_mem _ (List.mem_cons_of_mem _
    (List.mem_cons_self ..)))), [], [], _, [], rfl, rfl, rfl, List.mem_cons_self ..⟩, rfl, rfl, rfl, rfl, rfl, rfl⟩

/-- what is recorded for it -/
example : ((Fix.pySyn Fix.pyRoot).run (.backendDefinitions .python) (.parsed .python [] none) []).flatten.filterMap Spec.declares =
    [(c!"user", ⟨0, 11⟩, ⟨0, 15⟩), (c!"now", ⟨1, 19⟩, ⟨1, 22⟩), (c!"k", ⟨2, 20⟩, ⟨2, 21⟩)] := by decide

/-- the hypotheses of `C77_receiver_refuted` hold for the second file, which renders with a keyword argument -/
example : Legible Fix.pyDeep ∧ ¬ HasError Fix.pyDeep ∧ (∀ n ∈ Fix.pyDeep.flat, n.field = some .function → n.kind = .attribute ∧
      ∀ o ∈ n.children, o.field = some .object → o.kind = .attribute) ∧ (∀ n ∈ Fix.pyDeep.flat, n.kind ≠ .subscript) ∧
    (∃ s' out r, Fix.serverPython.handle (Fix.env.over (Fix.pySyn Fix.pyDeep)) Fix.world (.didOpen Fix.uriPyFile []) = .ok (s', out, r)) ∧
    ∃ f, KeywordCall Fix.pyDeep f (Fix.fl .identifier .name 4 0 16 20 c!"user") ∧ f.kind = .attribute ∧
      ∃ m ∈ f.children, m.field = some .attribute ∧ IsRender m :=
  ⟨by unfold Legible; decide, by unfold HasError; decide, by decide, by decide, ⟨_, _, _, rfl⟩, _, ⟨⟨rfl, rfl⟩, _, flat_eq Fix.pyDeep ▸ List.mem_cons_of_mem _
    (flatAll_self (List.mem_cons_self ..)), [], [], _, [], _, rfl, rfl, rfl, rfl, rfl, List.mem_cons_self .., rfl, List.mem_cons_self ..⟩, rfl,
    _, List.mem_cons_of_mem _ (List.mem_cons_self ..), rfl, rfl, .inr rfl⟩

/-! ## C78 -/

/-- the definitions query of a language finds only readable nodes -/
theorem definitions_legible {sx : Syntax} {g : Grammar} {tree : Tree} {text : Str} (hl : Legible (sx.root tree text)) :
    ∀ c ∈ (sx.run (.backendDefinitions g) tree text).flatten, c.text ≠ none := by
  cases g with
  | python => exact python_legible hl
  | rust => exact rust_legible hl
  | jinja => exact rust_legible hl

theorem recorded_templates {env : Env} {sx : Syntax} {w : World} {s s' : Server} {uri text : Str} {out : List Send} {r : Reply}
    (he : fileExt uri = some .backend) (hp : env.parseFails s.files.parserBackend text ((s.files.trees .backend).get? uri) = false)
    (hl : Legible (sx.root (openedBackend s uri text) text))
    (htext : ∀ c ∈ (sx.run (.backendTemplates s.files.queriesBackend) (openedBackend s uri text) text).flatten, c.text ≠ none)
    (h : s.handle (env.over sx) w (.didOpen uri text) = .ok (s', out, r)) (d : Str × Point × Point) :
    Recorded s'.files uri .jinjaTemplate d ↔
      d ∈ (callArgs false (sx.run (.backendTemplates s.files.queriesBackend) (openedBackend s uri text) text).flatten).map Spec.refers := by
  obtain ⟨vars, refs, hv, h1, _, h2, _⟩ := C23_template_references (env.over sx) w s s' uri text out r _ he hp rfl htext
    (definitions_legible hl) h
  rw [recorded_iff hv, h1, List.mem_map, List.mem_map]
  have hmem : ∀ t, t ∈ refs ↔ t ∈ callArgs false (sx.run (.backendTemplates s.files.queriesBackend) (openedBackend s uri text) text).flatten := by
    intro t
    rw [h2, mem_callArgs]
    simp only [Bool.false_eq_true, false_and, false_or]
    exact Iff.rfl
  constructor
  · rintro ⟨t, ht, rfl⟩; exact ⟨t, (hmem t).mp ht, rfl⟩
  · rintro ⟨t, ht, rfl⟩; exact ⟨t, (hmem t).mpr ht, rfl⟩

/-- **C78** (Rust) The template names recorded when a Rust file is opened are exactly the first strings among the arguments of calls of
`render_jinja` and `get_template`, as functions or methods, without quotes. -/
theorem C78_rust (env : Env) (sx : Syntax) (w : World) (s s' : Server) (uri text : Str) (out : List Send) (r : Reply)
    (he : fileExt uri = some .backend) (hq : s.files.queriesBackend = .rust)
    (hp : env.parseFails s.files.parserBackend text ((s.files.trees .backend).get? uri) = false)
    (hl : Legible (sx.root (openedBackend s uri text) text))
    (h : s.handle (env.over sx) w (.didOpen uri text) = .ok (s', out, r)) (d : Str × Point × Point) :
    Recorded s'.files uri .jinjaTemplate d ↔ ∃ n,
      TemplateArgument .callExpression .arguments .fieldExpression .fieldIdentifier .stringLiteral (sx.root (openedBackend s uri text) text) n ∧
        d = n.unquoted := by
  rw [recorded_templates he hp hl (by rw [hq]; exact templates_legible hl) h d, hq]
  exact templates_refs (by simp) d

/-- **C78** (Python) The same for Python; there a plain name anywhere in a dotted callee counts. -/
theorem C78_python (env : Env) (sx : Syntax) (w : World) (s s' : Server) (uri text : Str) (out : List Send) (r : Reply)
    (he : fileExt uri = some .backend) (hq : s.files.queriesBackend = .python)
    (hp : env.parseFails s.files.parserBackend text ((s.files.trees .backend).get? uri) = false)
    (hl : Legible (sx.root (openedBackend s uri text) text))
    (h : s.handle (env.over sx) w (.didOpen uri text) = .ok (s', out, r)) (d : Str × Point × Point) :
    Recorded s'.files uri .jinjaTemplate d ↔ ∃ n,
      TemplateArgument .call .argumentList .attribute .identifier .string (sx.root (openedBackend s uri text) text) n ∧ d = n.unquoted := by
  rw [recorded_templates he hp hl (by rw [hq]; exact templates_legible hl) h d, hq]
  exact templates_refs (by simp) d

/-- the Rust file above has such a call -/
example : TemplateArgument .callExpression .arguments .fieldExpression .fieldIdentifier .stringLiteral Fix.rustRoot
    (Fix.lf .stringLiteral 22 3 13 21 c!"\"x.html\"") :=
  ⟨_, flat_eq Fix.rustRoot ▸ List.mem_cons_of_mem _ (flatAll_self (List.mem_cons_of_mem _ (List.mem_cons_of_mem _ (List.mem_cons_of_mem _
    (List.mem_cons_self ..))))), [], _, [], _, [], [], [], rfl, rfl, .inr ⟨rfl, .inr rfl⟩, rfl, rfl, rfl, fun k hk => by cases hk⟩

/-- and this is what is recorded for it -/
example : (callArgs false (Fix.rustSyn.run (.backendTemplates .rust) (.parsed .rust [] none) []).flatten).map Spec.refers =
    [(c!"x.html", ⟨3, 13⟩, ⟨3, 21⟩)] := by decide

end JinjaLsp
