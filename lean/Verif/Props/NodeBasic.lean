import Verif.Model.Node
import Verif.Props.Syntax
/-
  C91: the number `basic` of the Node API returns (jinja-lsp-nodejs/src/lib.rs:32-46).
-/

namespace JinjaLsp

open Spec

theorem basic_eq (env : Env) (content : Str) (hp : env.parseFails .jinja content none = false) :
    Node.basic env content = .ok (some (Int32.ofNat
      (JinjaObjects.feed JinjaObjects.default (env.queryMatches .jinjaObjects (.parsed .jinja content none) content).flatten).objects.length)) := by
  have h : LspFiles.default.parse env .template content none = some (.parsed .jinja content none) := by
    simp [LspFiles.parse, LspFiles.grammar, hp]
  simp only [Node.basic, h, objectsQuery_all]

/-- **C91** `basic` never panics, and returns nothing exactly if the text cannot be parsed. -/
theorem C91_total (env : Env) (content : Str) :
    ∃ r, Node.basic env content = .ok r ∧ (r = none ↔ env.parseFails .jinja content none = true) := by
  cases hp : env.parseFails .jinja content none with
  | true => exact ⟨none, by simp [Node.basic, LspFiles.parse, LspFiles.grammar, hp], by simp⟩
  | false => exact ⟨_, basic_eq env content hp, by simp⟩

example : Fix.env.parseFails .jinja c!"{{ a }}" none = false := rfl

/-- **C91** For a template that reads as a sequence of well-formed expressions and statements, `basic` returns the number of uses of names in
it: variables, filters and tests, where a name with its attributes counts once.  From 2³¹ uses up to 2³² the number returned is negative. -/
theorem C91_uses (env : Env) (sx : Syntax) (content : Str) (es : List Elem) (hp : env.parseFails .jinja content none = false)
    (hr : ReadsTree sx.digit (sx.root (.parsed .jinja content none) content) es) (hw : Elems.Wf es) :
    ∃ n, Node.basic (env.over sx) content = .ok (some n) ∧ ((Elems.uses es).length < 2 ^ 31 → n.toInt = (Elems.uses es).length) ∧
      (2 ^ 31 ≤ (Elems.uses es).length → (Elems.uses es).length < 2 ^ 32 → n.toInt < 0) := by
  refine ⟨_, basic_eq (env.over sx) content hp, ?_⟩
  have h := usesIn_elems (env := env.over sx) hw (over_objects hr)
  have h := congrArg List.length h
  unfold usesIn at h
  rw [List.length_map] at h
  rw [h]
  refine ⟨fun hn => Int32.toInt_ofNat_of_lt hn, fun hn hn' => ?_⟩
  rw [Int32.toInt_ofNat']
  generalize (Elems.uses es).length = m at hn hn'
  have : Int32.size = 4294967296 := rfl
  simp only [Int.bmod, this]
  omega

/-- the template of the fixtures: `c`, `a`, `a`, `b` and the filter `upper` -/
example : Fix.env.parseFails .jinja [] none = false ∧ ReadsTree Fix.syn.digit (Fix.syn.root (.parsed .jinja [] none) []) Fix.elems ∧
    Elems.Wf Fix.elems ∧ (Elems.uses Fix.elems).length = 5 := ⟨rfl, Fix.elems_read, Fix.elems_wf, by decide⟩

theorem feed_append_error (a b : List Capture) (c : Capture) (hc : c.name = .error) : ∀ s : JinjaObjects,
    JinjaObjects.feed s (a ++ c :: b) = JinjaObjects.feed s a := by
  induction a with
  | nil => intro s; simp [JinjaObjects.feed, JinjaObjects.check, hc]
  | cons x a ih =>
    intro s
    simp only [List.cons_append, JinjaObjects.feed]
    cases s.check x with
    | none => rfl
    | some o => exact ih o.1

/-- **C91 is false for templates with syntax errors**: whatever comes after the first error does not count, so that templates which agree up to
their first error have the same number. -/
theorem C91_error_refuted (env : Env) (sx : Syntax) (content content' : Str) (hp : env.parseFails .jinja content none = false)
    (hp' : env.parseFails .jinja content' none = false) (before rest rest' : List Syn) (e e' : Syn) (he : e.kind = .error) (he' : e'.kind = .error)
    (h : (sx.root (.parsed .jinja content none) content).flat = before ++ e :: rest)
    (h' : (sx.root (.parsed .jinja content' none) content').flat = before ++ e' :: rest') :
    Node.basic (env.over sx) content = Node.basic (env.over sx) content' := by
  rw [basic_eq (env.over sx) content hp, basic_eq (env.over sx) content' hp']
  have key : ∀ (t : Str) (e : Syn) (rest : List Syn), e.kind = .error →
      (sx.root (.parsed .jinja t none) t).flat = before ++ e :: rest →
      JinjaObjects.feed JinjaObjects.default ((env.over sx).queryMatches .jinjaObjects (.parsed .jinja t none) t).flatten =
        JinjaObjects.feed JinjaObjects.default (before.flatMap (objCaps sx.digit)).flatten := by
    intro t e rest he h
    have : (env.over sx).queryMatches .jinjaObjects (.parsed .jinja t none) t =
        (sx.root (.parsed .jinja t none) t).flat.flatMap (objCaps sx.digit) := objects_flat ..
    rw [this, h, List.flatMap_append, List.flatMap_cons, List.flatten_append, List.flatten_append]
    have : objCaps sx.digit e = [[e.cap .error []]] := by simp [objCaps, qObjects, he, single]
    rw [this]
    exact feed_append_error _ _ _ rfl _
  rw [key content e rest he h, key content' e' rest' he' h']

example : ∃ before e rest, Fix.brokenRoot.flat = before ++ e :: rest ∧ e.kind = .error := 
  ⟨Fix.brokenRoot.flat.takeWhile (fun n => decide (n.kind ≠ .error)), _, _, rfl, rfl⟩

theorem check_length (s : JinjaObjects) (c : Capture) (o : JinjaObjects) (a : ObjectAction) (h : s.check c = some (o, a)) :
    o.objects.length ≤ s.objects.length + if c.name = .justId then 1 else 0 := by
  unfold JinjaObjects.check at h
  have push : ∀ value x y, (s.pushObject value x y).1.objects.length ≤ s.objects.length + 1 := by
    intro value x y
    unfold JinjaObjects.pushObject
    split <;> simp
  have build : (s.buildObject c).1.objects.length ≤ s.objects.length + 1 := by
    unfold JinjaObjects.buildObject
    split
    · simp
    · split
      · split
        · simp
        · exact push ..
      · exact push ..
  cases hn : c.name <;> simp only [hn] at h
  case justId =>
    have e : (s.buildObject c).1 = o := congrArg Prod.fst (Option.some.inj h)
    rw [← e]
    simpa using build
  case pipe =>
    split at h
    · cases h
    · cases h; split <;> simp
  all_goals first | (cases h; simp) | cases h

theorem feed_length : ∀ (cs : List Capture) (s : JinjaObjects),
    (s.feed cs).objects.length ≤ s.objects.length + cs.countP (fun c => decide (c.name = .justId))
  | [], s => by simp [JinjaObjects.feed]
  | c :: cs, s => by
    rw [JinjaObjects.feed, List.countP_cons]
    cases h : s.check c with
    | none => show s.objects.length ≤ _; omega
    | some o =>
      have h1 := check_length s c o.1 o.2 h
      have h2 := feed_length cs o.1
      show (o.1.feed cs).objects.length ≤ _
      simp only [decide_eq_true_eq]
      omega

/-- **C91** Whatever the tree: no more is counted than there are names in the text. -/
theorem C91_at_most (env : Env) (sx : Syntax) (content : Str) (hp : env.parseFails .jinja content none = false)
    (hn : ((sx.root (.parsed .jinja content none) content).flat.countP fun n => decide (n.kind = .identifier)) < 2 ^ 31) :
    ∃ n, Node.basic (env.over sx) content = .ok (some n) ∧
      0 ≤ n.toInt ∧ n.toInt ≤ (sx.root (.parsed .jinja content none) content).flat.countP fun n => decide (n.kind = .identifier) := by
  refine ⟨_, basic_eq (env.over sx) content hp, ?_⟩
  have h1 : (env.over sx).queryMatches .jinjaObjects (.parsed .jinja content none) content =
      (sx.root (.parsed .jinja content none) content).flat.flatMap (objCaps sx.digit) := objects_flat ..
  rw [h1]
  generalize (sx.root (.parsed .jinja content none) content).flat = ns at hn
  have h2 : ((ns.flatMap (objCaps sx.digit)).flatten.countP fun c => decide (c.name = .justId)) ≤ ns.countP fun n => decide (n.kind = .identifier) := by
    clear hn h1
    induction ns with
    | nil => simp
    | cons n ns ih =>
      rw [List.flatMap_cons, List.flatten_append, List.countP_append, List.countP_cons]
      have : ((objCaps sx.digit n).flatten.countP fun c => decide (c.name = .justId)) ≤ if decide (n.kind = .identifier) = true then 1 else 0 := by
        unfold objCaps qObjects
        cases n with
        | node k _ _ _ _ _ _ =>
          cases k <;> simp only [Syn.kind, single] <;> (repeat' split) <;> simp_all [Syn.cap]
      omega
  have h3 := feed_length (ns.flatMap (objCaps sx.digit)).flatten JinjaObjects.default
  have h4 : JinjaObjects.default.objects.length = 0 := rfl
  rw [Int32.toInt_ofNat_of_lt (by omega)]
  omega

example : (Fix.root.flat.countP fun n => decide (n.kind = .identifier)) = 6 := by decide

end JinjaLsp
