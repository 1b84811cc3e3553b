import Verif.Props.Python
import Verif.Props.Syntax
/-
  C90: which dotted names are read from a Python file, in terms of its syntax tree (python_identifiers.rs, queries.rs:292-298,
  lsp_files.rs `read_python_ids`).
-/

namespace JinjaLsp

namespace Spec

mutual
/-- all pairs of a node and a child of it, in document order -/
def _root_.JinjaLsp.Syn.edges : Syn → List (Syn × Syn)
  | .node k fd i a b t cs => Syn.edgesAll (.node k fd i a b t cs) cs

def _root_.JinjaLsp.Syn.edgesAll (p : Syn) : List Syn → List (Syn × Syn)
  | [] => []
  | c :: cs => (p, c) :: (Syn.edges c ++ Syn.edgesAll p cs)
end

/-- a name in an attribute expression, or something the parser could not make sense of -/
def isPart (e : Syn × Syn) : Bool := decide (e.2.kind = .error) || decide (e.2.kind = .identifier ∧ e.1.kind = .attribute)

/-- the parts whose parents start at `p`, in document order -/
def partsAt (root : Syn) (p : Point) : List Syn := (root.edges.filter fun e => isPart e && decide (e.1.start = p)).map Prod.snd

/-- the identifier made of parts, from `p` to the end of the last of them -/
def pathOf (p : Point) (parts : List Syn) : PythonIdentifier :=
  ⟨0, p, (parts.getLast?.map Syn.stop).getD p, dotted (parts.map fun n => n.text.getD [])⟩

/-- `a.b.c`: attribute nodes around a name, as the Python grammar makes them; the dots are nodes, too -/
inductive DottedName : Syn → List Syn → Prop where
  | two {n a d b : Syn} : n.kind = .attribute → n.children = [a, d, b] → a.kind = .identifier → a.children = [] → d.kind = .other →
      d.children = [] → b.kind = .identifier → b.children = [] → DottedName n [a, b]
  | more {n o d b : Syn} {parts : List Syn} : n.kind = .attribute → n.children = [o, d, b] → DottedName o parts → o.start = n.start →
      d.kind = .other → d.children = [] → b.kind = .identifier → b.children = [] → DottedName n (parts ++ [b])

end Spec

open Spec

/-! ### The walk -/

/-- what is captured at a child -/
def pyCap (e : Syn × Syn) : List (List Capture) :=
  if isPart e then
    [[{ name := if e.2.kind = .error then .error else .identifier, id := e.2.id, start := e.2.start, stop := e.2.stop, text := e.2.text,
        parentStart := some e.1.start }]]
  else []

theorem pyCap_enter (p : Syn) (l left : List Syn) (up : List Above) (c : Syn) :
    qPythonIdentifiers .enter ((p, l) :: up) left c = pyCap (p, c) := by
  simp only [qPythonIdentifiers, pyCap, isPart]
  by_cases h1 : c.kind = .error
  · simp [h1, Syn.cap]
  · by_cases h2 : c.kind = .identifier
    · by_cases hp : p.kind = .attribute <;> simp [h2, hp, single, Syn.cap]
    · simp only [h1, h2, false_and, decide_false, Bool.or_false, Bool.false_eq_true, if_false]

mutual
theorem walk_py (up : List Above) (left : List Syn) : ∀ n : Syn,
    Syn.walk qPythonIdentifiers up left n = qPythonIdentifiers .enter up left n ++ n.edges.flatMap pyCap
  | .node k fd i a b t cs => by
    rw [Syn.walk, walkAll_py up left (.node k fd i a b t cs) [] cs, Syn.edges]
    simp [qPythonIdentifiers]

theorem walkAll_py (up : List Above) (l : List Syn) (p : Syn) (left : List Syn) : ∀ cs : List Syn,
    Syn.walkAll qPythonIdentifiers ((p, l) :: up) left cs = (Syn.edgesAll p cs).flatMap pyCap
  | [] => rfl
  | c :: cs => by
    rw [Syn.walkAll, walk_py, walkAll_py up l p _ cs, pyCap_enter, Syn.edgesAll]
    simp
end

theorem edges_eq (n : Syn) : n.edges = Syn.edgesAll n n.children := by
  cases n; rw [Syn.edges]; rfl

/-- the captures below a node that starts at `p` -/
theorem below_py (root : Syn) (p : Point) :
    below p (Syn.walk qPythonIdentifiers [] [] root).flatten = (root.edges.filter fun e => isPart e && decide (e.1.start = p)).map fun e =>
      { name := if e.2.kind = .error then .error else .identifier, id := e.2.id, start := e.2.start, stop := e.2.stop, text := e.2.text,
        parentStart := some e.1.start } := by
  rw [walk_py]
  have h0 : below p (qPythonIdentifiers .enter [] [] root).flatten = [] := by
    simp only [qPythonIdentifiers]
    split <;> simp [below]
  unfold below at h0 ⊢
  rw [List.flatten_append, List.filter_append, h0, List.nil_append]
  induction root.edges with
  | nil => rfl
  | cons e es ih =>
    rw [List.flatMap_cons, List.flatten_append, List.filter_append, ih]
    unfold pyCap
    by_cases h1 : isPart e = true
    · by_cases h2 : e.1.start = p
      · simp [h1, h2]
      · simp [h1, h2]
    · simp [h1]

theorem distinct {α : Type} [DecidableEq α] : ∀ l : List α, ∃ ss : List α, ss.Nodup ∧ ∀ a, a ∈ ss ↔ a ∈ l
  | [] => ⟨[], List.nodup_nil, fun _ => Iff.rfl⟩
  | a :: l => by
    obtain ⟨ss, h1, h2⟩ := distinct l
    by_cases h : a ∈ ss
    · refine ⟨ss, h1, fun b => ?_⟩
      rw [List.mem_cons, ← h2]
      exact ⟨Or.inr, fun hb => hb.elim (fun e => e ▸ h) id⟩
    · refine ⟨a :: ss, List.nodup_cons.mpr ⟨h, h1⟩, fun b => ?_⟩
      rw [List.mem_cons, List.mem_cons, h2]

/-! ### C90 -/

namespace Fix

def pathTok (k : SKind) (i a b : Nat) (t : Str) : Syn := .node k none i ⟨0, a⟩ ⟨0, b⟩ (some t) []

/-- `a.b` -/
def pyAB : Syn := .node .attribute none 3 ⟨0, 0⟩ ⟨0, 3⟩ (some c!"a.b")
  [pathTok .identifier 4 0 1 c!"a", pathTok .other 5 1 2 c!".", pathTok .identifier 6 2 3 c!"b"]

/-- `a.b.c` -/
def pyABC : Syn := .node .attribute none 2 ⟨0, 0⟩ ⟨0, 5⟩ (some c!"a.b.c") [pyAB, pathTok .other 7 3 4 c!".", pathTok .identifier 8 4 5 c!"c"]

/-- a statement that consists of an expression -/
def pathStmt (n : Syn) : Syn := .node .other none 1 n.start n.stop n.text [n]

/-- `(c)` -/
def pathArgs : Syn := .node .argumentList none 7 ⟨0, 3⟩ ⟨0, 6⟩ (some c!"(c)")
  [pathTok .other 8 3 4 c!"(", pathTok .identifier 9 4 5 c!"c", pathTok .other 10 5 6 c!")"]

/-- `a.b(c)` -/
def pathCall : Syn := .node .call none 2 ⟨0, 0⟩ ⟨0, 6⟩ (some c!"a.b(c)") [pyAB, pathArgs]

/-- `a.b(c).d` -/
def pyOfCall : Syn := .node .attribute none 1 ⟨0, 0⟩ ⟨0, 8⟩ (some c!"a.b(c).d") [pathCall, pathTok .other 11 6 7 c!".", pathTok .identifier 12 7 8 c!"d"]

/-- `)(` -/
def pyWrong : Syn := .node .other none 1 ⟨0, 0⟩ ⟨0, 2⟩ (some c!")(") [pathTok .error 2 0 2 c!")("]

def pathSyn (root : Syn) : Syntax := ⟨fun _ _ => root, digit, fun _ _ => [[]], fun _ => true⟩

theorem pyDotted : DottedName pyAB [pathTok .identifier 4 0 1 c!"a", pathTok .identifier 6 2 3 c!"b"] :=
  .two rfl rfl rfl rfl rfl rfl rfl rfl

theorem pyDotted3 : DottedName pyABC ([pathTok .identifier 4 0 1 c!"a", pathTok .identifier 6 2 3 c!"b"] ++ [pathTok .identifier 8 4 5 c!"c"]) :=
  .more rfl rfl pyDotted rfl rfl rfl rfl rfl

end Fix


/-- **C90** What `read_python_ids` yields for a file, for every syntax tree and every hash order: there is an identifier exactly for every place
where a parent of parts starts, made of all parts whose parents start there, and only one for each place. -/
theorem C90_exact (env : Env) (sx : Syntax) (w : World) (f : LspFiles) (uri : Str) (tree : Tree) (text : Str) (l : LangType)
    (hx : fileExt uri = some l) (hd : f.documents.get? uri = some text) (ht : (f.trees l).get? uri = some tree) :
    ∃ ids, f.readPythonIds (env.over sx) w uri = some ids ∧ (ids.map PythonIdentifier.start).Nodup ∧
      ∀ i, i ∈ ids ↔ partsAt (sx.root tree text) i.start ≠ [] ∧ i = pathOf i.start (partsAt (sx.root tree text) i.start) := by
  have hcs : ((env.over sx).queryMatches .pythonIdentifiers tree text).flatten =
      (Syn.walk qPythonIdentifiers [] [] (sx.root tree text)).flatten := rfl
  have hb := below_py (sx.root tree text)
  generalize (Syn.walk qPythonIdentifiers [] [] (sx.root tree text)).flatten = cs at hcs hb
  obtain ⟨ss, h1, h2⟩ := distinct (cs.filterMap Capture.parentStart)
  have hs : ∀ p, p ∈ ss ↔ ∃ c ∈ cs, c.parentStart = some p := by
    intro p
    rw [h2, List.mem_filterMap]
  obtain ⟨ids, h3, h4⟩ := C62_groups (env.over sx) w f uri tree text l hx hd ht cs hcs ss h1 hs
  have hm : ∀ p, pyMerged p cs = pathOf p (partsAt (sx.root tree text) p) := by
    intro p
    unfold pyMerged pathOf partsAt
    rw [hb]
    simp only [List.getLast?_map, List.map_map, Option.map_map]
    rfl
  have hne : ∀ p, p ∈ ss ↔ partsAt (sx.root tree text) p ≠ [] := by
    intro p
    rw [hs]
    have : (∃ c ∈ cs, c.parentStart = some p) ↔ below p cs ≠ [] := by
      unfold below
      rw [Ne, List.filter_eq_nil_iff]
      constructor
      · rintro ⟨c, hc, e⟩ h
        exact h c hc (by simp [e])
      · intro h
        apply Classical.byContradiction
        intro h'
        exact h fun c hc e => h' ⟨c, hc, by simpa using e⟩
    rw [this, hb, partsAt]
    simp
  refine ⟨ids, h3, ?_, ?_⟩
  · refine (h4.map _).nodup_iff.mpr ?_
    rw [List.map_map]
    have : (PythonIdentifier.start ∘ fun p => pyMerged p cs) = id := rfl
    rw [this, List.map_id]
    exact h1
  · intro i
    rw [h4.mem_iff, List.mem_map]
    constructor
    · rintro ⟨p, hp, rfl⟩
      exact ⟨(hne p).mp hp, hm p⟩
    · rintro ⟨h5, h6⟩
      exact ⟨i.start, (hne _).mpr h5, by rw [hm]; exact h6.symm⟩

/-- two names in a file: the parts of both are found -/
example : fileExt Fix.uriPy = some .backend ∧ Fix.pyFiles.documents.get? Fix.uriPy = some c!"a.b[c.d].e" ∧
    (Fix.pyFiles.trees .backend).get? Fix.uriPy = some (.parsed .python c!"a.b[c.d].e" none) ∧
    partsAt (Fix.pathStmt Fix.pyABC) ⟨0, 0⟩ ≠ [] ∧ partsAt (Fix.pathStmt Fix.pyABC) ⟨0, 1⟩ = [] ∧
    pathOf ⟨0, 0⟩ (partsAt (Fix.pathStmt Fix.pyABC) ⟨0, 0⟩) = ⟨0, ⟨0, 0⟩, ⟨0, 5⟩, c!"a.b.c"⟩ :=
  ⟨by decide, rfl, rfl, (fun h => nomatch h), rfl, rfl⟩

theorem Spec.DottedName.attribute {n : Syn} {parts : List Syn} (h : DottedName n parts) : n.kind = .attribute := by
  cases h <;> assumption

theorem edges_leaf {n : Syn} (h : n.children = []) : n.edges = [] := by rw [edges_eq, h, Syn.edgesAll]

theorem edges_three {n a b c : Syn} (h : n.children = [a, b, c]) :
    n.edges = (n, a) :: (a.edges ++ (n, b) :: (b.edges ++ (n, c) :: c.edges)) := by
  rw [edges_eq, h, Syn.edgesAll, Syn.edgesAll, Syn.edgesAll, Syn.edgesAll, List.append_nil]

theorem Spec.DottedName.parts {n : Syn} {parts : List Syn} (h : DottedName n parts) :
    (n.edges.filter fun e => isPart e && decide (e.1.start = n.start)).map Prod.snd = parts := by
  induction h with
  | two hk hc ha hca hd hcd hb hcb =>
    rw [edges_three hc, edges_leaf hca, edges_leaf hcd, edges_leaf hcb]
    simp [isPart, hk, ha, hd, hb]
  | more hk hc ho hs hd hcd hb hcb ih =>
    rw [edges_three hc, edges_leaf hcd, edges_leaf hcb]
    simp [isPart, hk, ho.attribute, hd, hb, List.filter_append]
    rw [hs] at ih
    simpa [isPart] using ih

theorem Spec.DottedName.ne_nil {n : Syn} {parts : List Syn} (h : DottedName n parts) : parts ≠ [] := by
  cases h <;> simp

/-- **C90** A dotted name is reported whole: wherever `a.b.c` stands in the file, if no other part belongs to a parent that starts there, the
identifier `a.b.c` from its start to its end is reported, and nothing else with that start. -/
theorem C90_dotted (env : Env) (sx : Syntax) (w : World) (f : LspFiles) (uri : Str) (tree : Tree) (text : Str) (l : LangType)
    (hx : fileExt uri = some l) (hd : f.documents.get? uri = some text) (ht : (f.trees l).get? uri = some tree)
    (n par : Syn) (parts : List Syn) (a b : List (Syn × Syn)) (hn : DottedName n parts)
    (he : (sx.root tree text).edges = a ++ (par, n) :: (n.edges ++ b)) (ho : ∀ e ∈ a ++ b, isPart e → e.1.start ≠ n.start) :
    ∃ ids, f.readPythonIds (env.over sx) w uri = some ids ∧ ids.filter (fun i => decide (i.start = n.start)) = [pathOf n.start parts] := by
  obtain ⟨ids, h1, h2, h3⟩ := C90_exact env sx w f uri tree text l hx hd ht
  refine ⟨ids, h1, ?_⟩
  have hp : partsAt (sx.root tree text) n.start = parts := by
    have none : ∀ c : List (Syn × Syn), (∀ e ∈ c, isPart e → e.1.start ≠ n.start) →
        (c.filter fun e => isPart e && decide (e.1.start = n.start)) = [] := by
      intro c hc
      rw [List.filter_eq_nil_iff]
      intro e he h
      simp only [Bool.and_eq_true, decide_eq_true_eq] at h
      exact hc e he h.1 h.2
    have hpn : isPart (par, n) = false := by simp [isPart, hn.attribute]
    unfold partsAt
    rw [he, List.filter_append, none a fun e h => ho e (List.mem_append_left _ h), List.filter_cons]
    simp only [hpn, Bool.false_and, Bool.false_eq_true, if_false, List.nil_append]
    rw [List.filter_append, none b fun e h => ho e (List.mem_append_right _ h), List.append_nil]
    exact hn.parts
  have hmem : pathOf n.start parts ∈ ids := by
    rw [h3]
    show partsAt _ n.start ≠ [] ∧ pathOf n.start parts = pathOf n.start (partsAt _ n.start)
    rw [hp]
    exact ⟨hn.ne_nil, rfl⟩
  have huniq : ∀ i ∈ ids.filter (fun i => decide (i.start = n.start)), i = pathOf n.start parts := by
    intro i hi
    obtain ⟨h4, h5⟩ := List.mem_filter.mp hi
    have h5 : i.start = n.start := by simpa using h5
    have h6 := ((h3 i).mp h4).2
    rw [h5, hp] at h6
    exact h6
  have hnd : (ids.filter fun i => decide (i.start = n.start)).Nodup :=
    (List.Pairwise.of_map PythonIdentifier.start (fun x y hxy e => hxy (by rw [e])) h2).filter _
  have hin : pathOf n.start parts ∈ ids.filter fun i => decide (i.start = n.start) := List.mem_filter.mpr ⟨hmem, by simp [pathOf]⟩
  generalize ids.filter (fun i => decide (i.start = n.start)) = m at huniq hnd hin
  match m with
  | [] => cases hin
  | [x] => rw [huniq x (by simp)]
  | x :: y :: r =>
    have hx := huniq x (by simp)
    have hy := huniq y (by simp)
    rw [hx, hy] at hnd
    simp at hnd

example : fileExt Fix.uriPy = some .backend ∧ Fix.pyFiles.documents.get? Fix.uriPy = some c!"a.b[c.d].e" ∧
    (Fix.pyFiles.trees .backend).get? Fix.uriPy = some (.parsed .python c!"a.b[c.d].e" none) ∧
    DottedName Fix.pyABC ([Fix.pathTok .identifier 4 0 1 c!"a", Fix.pathTok .identifier 6 2 3 c!"b"] ++ [Fix.pathTok .identifier 8 4 5 c!"c"]) ∧
    ((Fix.pathSyn (Fix.pathStmt Fix.pyABC)).root (.parsed .python c!"a.b[c.d].e" none) c!"a.b[c.d].e").edges =
      [] ++ (Fix.pathStmt Fix.pyABC, Fix.pyABC) :: (Fix.pyABC.edges ++ []) :=
  ⟨by decide, rfl, rfl, Fix.pyDotted3, by simp [Fix.pathSyn, Fix.pathStmt, Syn.edges, Syn.edgesAll]⟩

/-- **C90** A file without attribute expressions and without errors yields nothing. -/
theorem C90_none (env : Env) (sx : Syntax) (w : World) (f : LspFiles) (uri : Str) (tree : Tree) (text : Str) (l : LangType)
    (hx : fileExt uri = some l) (hd : f.documents.get? uri = some text) (ht : (f.trees l).get? uri = some tree)
    (hno : ∀ e ∈ (sx.root tree text).edges, e.1.kind ≠ .attribute ∧ e.2.kind ≠ .error) : f.readPythonIds (env.over sx) w uri = some [] := by
  obtain ⟨ids, h1, _, h3⟩ := C90_exact env sx w f uri tree text l hx hd ht
  rw [h1]
  cases ids with
  | nil => rfl
  | cons i ids =>
    have := ((h3 i).mp (by simp)).1
    refine absurd ?_ this
    unfold partsAt
    rw [List.map_eq_nil_iff, List.filter_eq_nil_iff]
    intro e he h
    obtain ⟨h4, h5⟩ := hno e he
    simp [isPart, h4, h5] at h

example : ∀ e ∈ ((Fix.pathSyn (Fix.pathStmt Fix.pathArgs)).root (.parsed .python [] none) []).edges, e.1.kind ≠ .attribute ∧ e.2.kind ≠ .error := by
  simp [Fix.pathSyn, Fix.pathStmt, Fix.pathArgs, Fix.pathTok, Syn.edges, Syn.edgesAll, Syn.kind]

/-- **C62 is false for attributes of calls**: in `a.b(c).d` no identifier `a.b` is reported, but `a.b.d`, which is no expression of the file. -/
theorem C90_call_refuted (env : Env) (sx : Syntax) (w : World) (f : LspFiles) (uri : Str) (tree : Tree) (text : Str) (l : LangType)
    (hx : fileExt uri = some l) (hd : f.documents.get? uri = some text) (ht : (f.trees l).get? uri = some tree)
    (m call n args dot d : Syn) (parts : List Syn) (hroot : sx.root tree text = m) (hm : m.kind = .attribute) (hmc : m.children = [call, dot, d])
    (hdot : dot.kind = .other) (hdc : dot.children = []) (hdk : d.kind = .identifier) (hdd : d.children = []) (hcall : call.kind = .call)
    (hcc : call.children = [n, args]) (hn : DottedName n parts) (hargs : args.kind = .argumentList)
    (hno : ∀ e ∈ args.edges, isPart e → e.1.start ≠ n.start) (hs : m.start = n.start) :
    ∃ ids, f.readPythonIds (env.over sx) w uri = some ids ∧ pathOf n.start (parts ++ [d]) ∈ ids ∧ pathOf n.start parts ∉ ids := by
  obtain ⟨ids, h1, h2, h3⟩ := C90_exact env sx w f uri tree text l hx hd ht
  have hp : partsAt (sx.root tree text) n.start = parts ++ [d] := by
    have hce : call.edges = (call, n) :: (n.edges ++ (call, args) :: args.edges) := by
      rw [edges_eq, hcc, Syn.edgesAll, Syn.edgesAll, Syn.edgesAll, List.append_nil]
    have ha : (args.edges.filter fun e => isPart e && decide (e.1.start = n.start)) = [] := by
      rw [List.filter_eq_nil_iff]
      intro e he h
      simp only [Bool.and_eq_true, decide_eq_true_eq] at h
      exact hno e he h.1 h.2
    unfold partsAt
    rw [hroot, edges_three hmc, hce, edges_leaf hdc, edges_leaf hdd]
    simp only [List.cons_append, List.append_assoc, List.filter_cons, List.filter_append, ha]
    have p1 : isPart (m, call) = false := by simp [isPart, hcall]
    have p2 : isPart (call, n) = false := by simp [isPart, hn.attribute]
    have p3 : isPart (call, args) = false := by simp [isPart, hargs]
    have p4 : isPart (m, dot) = false := by simp [isPart, hdot]
    have p5 : isPart (m, d) = true := by simp [isPart, hm, hdk]
    simp only [p1, p2, p3, p4, p5, hs, Bool.false_and, Bool.true_and, decide_true, Bool.false_eq_true, if_false, if_true, List.nil_append,
      List.filter_nil, List.map_append, hn.parts, List.map_cons, List.map_nil]
  refine ⟨ids, h1, ?_, ?_⟩
  · rw [h3]
    show partsAt _ n.start ≠ [] ∧ pathOf n.start _ = pathOf n.start (partsAt _ n.start)
    rw [hp]
    exact ⟨by simp, rfl⟩
  · intro h
    have h4 : pathOf n.start parts = pathOf n.start (partsAt _ n.start) := ((h3 _).mp h).2
    rw [hp] at h4
    have h5 : dotted (parts.map fun n => n.text.getD []) = dotted ((parts ++ [d]).map fun n => n.text.getD []) := congrArg PythonIdentifier.field h4
    have hlen : ∀ (x : List Str) (y : Str), x ≠ [] → (dotted x).length < (dotted (x ++ [y])).length := by
      intro x y
      induction x with
      | nil => intro h; exact absurd rfl h
      | cons z x ih =>
        intro _
        cases x with
        | nil =>
          show (dotted [z]).length < (dotted (z :: y :: [])).length
          rw [dotted_cons]
          simp [dotted, List.intercalate]
        | cons u x =>
          show (dotted (z :: u :: x)).length < (dotted (z :: u :: (x ++ [y]))).length
          rw [dotted_cons, dotted_cons]
          have := ih (by simp)
          simp only [List.cons_append] at this
          simp
          exact this
    have := hlen (parts.map fun n => n.text.getD []) (d.text.getD []) (by simp [hn.ne_nil])
    rw [List.map_append, List.map_cons, List.map_nil] at h5
    rw [← h5] at this
    exact Nat.lt_irrefl _ this

example : Fix.pyOfCall.kind = .attribute ∧ Fix.pyOfCall.children = [Fix.pathCall, Fix.pathTok .other 11 6 7 c!".", Fix.pathTok .identifier 12 7 8 c!"d"] ∧
    Fix.pathCall.kind = .call ∧ Fix.pathCall.children = [Fix.pyAB, Fix.pathArgs] ∧ Fix.pathArgs.kind = .argumentList ∧
    DottedName Fix.pyAB [Fix.pathTok .identifier 4 0 1 c!"a", Fix.pathTok .identifier 6 2 3 c!"b"] ∧
    (∀ e ∈ Fix.pathArgs.edges, isPart e → e.1.start ≠ Fix.pyAB.start) ∧ Fix.pyOfCall.start = Fix.pyAB.start := by
  refine ⟨rfl, rfl, rfl, rfl, rfl, Fix.pyDotted, ?_, rfl⟩
  simp [Fix.pathArgs, Fix.pathTok, Syn.edges, Syn.edgesAll, Syn.kind, isPart]

/-- **C62 is false for files with syntax errors**: whatever the parser could not make sense of becomes part of an identifier. -/
theorem C90_error_refuted (env : Env) (sx : Syntax) (w : World) (f : LspFiles) (uri : Str) (tree : Tree) (text : Str) (l : LangType)
    (hx : fileExt uri = some l) (hd : f.documents.get? uri = some text) (ht : (f.trees l).get? uri = some tree)
    (p c : Syn) (he : (p, c) ∈ (sx.root tree text).edges) (hc : c.kind = .error) :
    ∃ ids, f.readPythonIds (env.over sx) w uri = some ids ∧ ∃ i ∈ ids, ∃ x y, i.field = dotted (x ++ c.text.getD [] :: y) := by
  obtain ⟨ids, h1, h2, h3⟩ := C90_exact env sx w f uri tree text l hx hd ht
  have hmem : c ∈ partsAt (sx.root tree text) p.start := by
    unfold partsAt
    rw [List.mem_map]
    exact ⟨(p, c), List.mem_filter.mpr ⟨he, by simp [isPart, hc]⟩, rfl⟩
  refine ⟨ids, h1, pathOf p.start (partsAt (sx.root tree text) p.start), ?_, ?_⟩
  · rw [h3]
    exact ⟨List.ne_nil_of_mem hmem, rfl⟩
  · obtain ⟨x, y, e⟩ := List.append_of_mem hmem
    refine ⟨x.map fun n => n.text.getD [], y.map fun n => n.text.getD [], ?_⟩
    show dotted ((partsAt _ _).map _) = _
    rw [e]
    simp

example : (Fix.pyWrong, Fix.pathTok .error 2 0 2 c!")(") ∈ ((Fix.pathSyn Fix.pyWrong).root (.parsed .python c!")(" none) c!")(").edges ∧
    (Fix.pathTok .error 2 0 2 c!")(").kind = .error := by
  simp [Fix.pathSyn, Fix.pyWrong, Fix.pathTok, Syn.edges, Syn.edgesAll, Syn.kind]

end JinjaLsp
