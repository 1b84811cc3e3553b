import Verif.Spec.Jinja
import Verif.Props.Syntax
/-
  Syntax trees for the examples: a drawing of a template, and programs that read its tags, uses and references.
-/

namespace JinjaLsp
open Spec

namespace Fix

instance (s : Str) : Decidable (Structural s) := inferInstanceAs (Decidable (_ ∨ _))

/-! ### Reading -/

def contribution (n : Syn) : Option (List HTok) :=
  if n.children = [] ∧ n.text ≠ none then
    match n.kind with
    | .identifier => if IsNumeral digit (tokOf n).text then some [] else some [.name (tokOf n)]
    | .operator => if '=' ∈ (tokOf n).text then some [.eq (tokOf n)] else some []
    | .keyword => if Structural (tokOf n).text then none else some []
    | .string | .other => some []
    | _ => none
  else none

theorem contribution_sound {n : Syn} {hs : List HTok} (h : contribution n = some hs) : Token n ∧ Contributes digit n hs := by
  unfold contribution at h
  split at h
  · rename_i hc
    refine ⟨⟨hc.1, hc.2⟩, ?_⟩
    split at h
    · split at h <;> cases h
      · exact .numeral ‹_› ‹_›
      · exact .name ‹_› ‹_›
    · split at h <;> cases h
      · exact .eq ‹_› ‹_›
      · exact .op ‹_› ‹_›
    · split at h <;> cases h
      exact .word ‹_› ‹_›
    · cases h; exact .string ‹_›
    · cases h; exact .other ‹_›
    · cases h
  · cases h

def readHeader : List Syn → Option (List HTok)
  | [] => some []
  | n :: ns => do
    let hs ← contribution n
    let ts ← readHeader ns
    pure (hs ++ ts)

theorem readHeader_sound : ∀ {ns : List Syn} {ts : List HTok}, readHeader ns = some ts → Header digit ns ts
  | [], ts, h => by cases h; exact .nil
  | n :: ns, ts, h => by
    simp only [readHeader, bind, Option.bind_eq_some_iff, pure, Option.some.injEq] at h
    obtain ⟨hs, h1, ts', h2, rfl⟩ := h
    obtain ⟨h3, h4⟩ := contribution_sound h1
    exact .cons h3 h4 (readHeader_sound h2)

def readInline : List Syn → Option (List HTok × List Item)
  | [] => some ([], [])
  | n :: ns => do
    let (ts, is) ← readInline ns
    if (n.children = [] ∧ n.text ≠ none) ∧ n.kind = .keyword ∧ (tokOf n).text ∈ [c!"if", c!"else"] then pure ([], .inline (tokOf n) ts :: is) else
    let hs ← contribution n
    pure (hs ++ ts, is)

theorem readInline_sound : ∀ {ns : List Syn} {q : List HTok × List Item}, readInline ns = some q → Inline digit ns q.1 q.2
  | [], q, h => by cases h; exact .nil
  | n :: ns, q, h => by
    simp only [readInline, bind, Option.bind_eq_some_iff, pure] at h
    obtain ⟨⟨ts, is⟩, h1, h⟩ := h
    have ih := readInline_sound h1
    dsimp only at h
    split at h
    · rename_i hc
      cases h
      exact .branch ⟨hc.1.1, hc.1.2⟩ hc.2.1 hc.2.2 ih
    · simp only [Option.bind_eq_some_iff] at h
      obtain ⟨hs, h2, h⟩ := h
      cases h
      obtain ⟨h3, h4⟩ := contribution_sound h2
      exact .tok h3 h4 ih

def readTag (d : Delims) (inner : List Syn) : Option Item :=
  match inner with
  | kw :: ns =>
    if (kw.children = [] ∧ kw.text ≠ none) ∧ kw.kind = .keyword ∧ Structural (tokOf kw).text then
      match readHeader ns with
      | none => none
      | some ts =>
        if kw.text = some c!"with" then some (.opening d (.with_ (tokOf kw) ts)) else
        if (tokOf kw).text ∈ [c!"if", c!"elif", c!"else", c!"filter", c!"autoescape", c!"raw"] then some (.opening d (.plain (tokOf kw) ts)) else
        if c!"end" <+: (tokOf kw).text then some (.closing ⟨tokOf kw, ts, d⟩) else
        match ts with
        | .name t :: ts =>
          if kw.text = some c!"set" then some (.leaf (.set d (tokOf kw) t ts)) else
          if kw.text = some c!"for" then some (.opening d (.for_ (tokOf kw) t ts)) else
          if kw.text = some c!"macro" then some (.opening d (.macro_ (tokOf kw) t ts)) else
          if kw.text = some c!"block" then some (.opening d (.block (tokOf kw) t ts)) else none
        | _ => none
    else (readHeader inner).map fun ts => .leaf (.stmt d ts)
  | [] => some (.leaf (.stmt d []))

theorem readTag_sound {d : Delims} {inner : List Syn} {i : Item} (h : readTag d inner = some i) : Tag digit d inner i := by
  unfold readTag at h
  split at h
  · rename_i kw ns
    split at h
    · rename_i hc
      have ht : Token kw := ⟨hc.1.1, hc.1.2⟩
      split at h
      · cases h
      · rename_i ts hts
        have hh := readHeader_sound hts
        split at h
        · cases h; exact .with_ ht hc.2.1 ‹_› hh
        split at h
        · cases h; exact .open_ ht hc.2.1 ‹_› hh
        split at h
        · cases h; exact .close ht hc.2.1 ‹_› hh
        split at h
        · split at h
          · cases h; exact .set ht hc.2.1 ‹_› hh
          split at h
          · cases h; exact .for_ ht hc.2.1 ‹_› hh
          split at h
          · cases h; exact .macro_ ht hc.2.1 ‹_› hh
          split at h
          · cases h; exact .block ht hc.2.1 ‹_› hh
          · cases h
        · cases h
    · obtain ⟨ts, h1, rfl⟩ := Option.map_eq_some_iff.mp h
      exact .plain (readHeader_sound h1)
  · cases h; exact .plain .nil

/-- a list of at least two: first, middle, last -/
def ends : List Syn → Option (Syn × List Syn × Syn)
  | b :: rest => match rest.reverse with
    | e :: inner => some (b, inner.reverse, e)
    | [] => none
  | [] => none

theorem ends_sound {l : List Syn} {b e : Syn} {inner : List Syn} (h : ends l = some (b, inner, e)) : l = b :: inner ++ [e] := by
  unfold ends at h
  split at h
  · rename_i b' rest
    split at h
    · rename_i e' inner' hr
      cases h
      have : rest = (e :: inner').reverse := by rw [← hr, List.reverse_reverse]
      rw [this]; simp
    · cases h
  · cases h

def isToken (n : Syn) : Bool := n.children = [] ∧ n.text ≠ none

theorem isToken_sound {n : Syn} (h : isToken n = true) : Token n := by
  simp only [isToken, decide_eq_true_eq] at h
  exact ⟨h.1, h.2⟩

def readTags : List Syn → Option (List Item)
  | [] => some []
  | n :: ns => do
    let rest ← readTags ns
    if n.kind = .other ∧ n.children = [] then pure rest else
    if n.kind = .expression then
      let q ← readInline n.children
      pure (.leaf (.expr q.1) :: q.2 ++ rest)
    else
    if n.kind = .statement then
      let (b, inner, e) ← ends n.children
      if isToken b ∧ b.kind = .statementBegin ∧ isToken e ∧ e.kind = .statementEnd then
        let i ← readTag ⟨tokOf b, tokOf e⟩ inner
        pure (i :: rest)
      else none
    else none

theorem readTags_sound : ∀ {ns : List Syn} {is : List Item}, readTags ns = some is → Tags digit ns is
  | [], is, h => by cases h; exact .nil
  | n :: ns, is, h => by
    simp only [readTags, bind, Option.bind_eq_some_iff, pure] at h
    obtain ⟨rest, h1, h⟩ := h
    have ih := readTags_sound h1
    split at h
    · rename_i hc; cases h; exact .text hc.1 hc.2 ih
    split at h
    · simp only [Option.bind_eq_some_iff] at h
      obtain ⟨q, h2, h⟩ := h
      cases h
      exact .expr ‹_› (readInline_sound h2) ih
    split at h
    · simp only [Option.bind_eq_some_iff] at h
      obtain ⟨⟨b, inner, e⟩, h2, h⟩ := h
      dsimp only at h
      split at h
      · rename_i hc
        simp only [Option.bind_eq_some_iff] at h
        obtain ⟨i, h3, h⟩ := h
        cases h
        exact .stmt ‹_› (ends_sound h2) (isToken_sound hc.1) hc.2.1 (isToken_sound hc.2.2.1) hc.2.2.2 (readTag_sound h3) ih
      · cases h
    · cases h

/-! ### Uses -/

/-- every name is a variable of its own -/
def plainElem (n : Syn) : Elem := match n.kind with
  | .expression => .expr n.id n.start n.stop n.first n.last
  | .identifier => .use ⟨.variable, tokOf n, []⟩
  | _ => .op (tokOf n)

def isPlain (n : Syn) : Bool :=
  n.kind = .expression ∨ (n.kind = .identifier ∧ n.text ≠ none ∧ ¬ IsNumeral digit (tokOf n).text) ∨ (n.kind = .operator ∧ n.text ≠ none ∧ n.text ≠ some c!".")

theorem plain_readsOff : ∀ {ns : List Syn}, ns.all isPlain = true → ReadsOff digit ns (ns.map plainElem)
  | [], _ => .nil
  | n :: ns, h => by
    simp only [List.all_cons, Bool.and_eq_true] at h
    have ih := plain_readsOff h.2
    have hp := h.1
    simp only [isPlain, decide_eq_true_eq] at hp
    rcases hp with hk | ⟨hk, h1, h2⟩ | ⟨hk, h1, h2⟩
    · have : plainElem n = .expr n.id n.start n.stop n.first n.last := by simp [plainElem, hk]
      rw [List.map_cons, this]
      exact .expr hk ih
    · have : plainElem n = .use ⟨.variable, tokOf n, []⟩ := by simp [plainElem, hk]
      rw [List.map_cons, this]
      exact ReadsOff.use (ms := []) (fs := []) .variable ⟨hk, h1, h2⟩ .nil ih
    · have : plainElem n = .op (tokOf n) := by simp [plainElem, hk]
      rw [List.map_cons, this]
      exact .op ⟨hk, h1, h2⟩ ih

def plainElems (root : Syn) : List Elem := (root.flat.filter relevant).map plainElem

theorem plainElems_read {root : Syn} (h : (root.flat.filter relevant).all isPlain = true) : ReadsTree digit root (plainElems root) :=
  ⟨relevant, fun n => by simp [relevant, Relevant], plain_readsOff h⟩

instance ordered_dec : ∀ (p : Point) (ts : List Tok), Decidable (Ordered p ts)
  | _, [] => inferInstanceAs (Decidable True)
  | _, t :: ts => by
    have := ordered_dec t.stop ts
    exact inferInstanceAs (Decidable (_ ∧ _ ∧ _))

instance (e : Elem) : Decidable e.Ok := by
  cases e with
  | use u =>
    have : Decidable (u.mark.Ok u.root) := by
      obtain ⟨m, r, fs⟩ := u
      cases m
      · exact inferInstanceAs (Decidable True)
      · exact inferInstanceAs (Decidable (_ ∧ _))
      · rename_i ws; exact inferInstanceAs (Decidable (∀ w ∈ ws, _))
    exact inferInstanceAs (Decidable (_ ∧ _ ∧ _))
  | op t => exact inferInstanceAs (Decidable (_ ≠ _))
  | word t => exact inferInstanceAs (Decidable (_ ∈ _))
  | expr => exact inferInstanceAs (Decidable True)

theorem elems_wf_of {es : List Elem} (h : (∀ e ∈ es, e.Ok) ∧ Ordered ⟨0, 1⟩ (es.flatMap Elem.toks)) : Elems.Wf es :=
  ⟨h.1, ⟨0, 1⟩, by decide, h.2⟩

/-! ### References -/

instance noRef_dec : ∀ ns : List Syn, Decidable (NoRef ns)
  | [] => inferInstanceAs (Decidable True)
  | n :: ns => by
    have := noRef_dec ns
    exact inferInstanceAs (Decidable ((_ → _ → _) ∧ _))

def isStmtB (n b : Syn) (inner : List Syn) (e : Syn) : Bool :=
  decide (n.kind = .statement) && (isToken b && decide (b.kind = .statementBegin)) && (isToken e && decide (e.kind = .statementEnd)) &&
    inner.all fun t => isToken t && decide (t.kind ≠ .statementBegin ∧ t.kind ≠ .statementEnd ∧ t.kind ≠ .error)

theorem isStmtB_sound {n b e : Syn} {inner : List Syn} (h : isStmtB n b inner e = true) (hp : n.children = b :: inner ++ [e]) : IsStmt n b inner e := by
  simp only [isStmtB, Bool.and_eq_true, decide_eq_true_eq, List.all_eq_true] at h
  obtain ⟨⟨⟨h1, h2, h3⟩, h4, h5⟩, h6⟩ := h
  refine ⟨h1, hp, ⟨isToken_sound h2, h3⟩, ⟨isToken_sound h4, h5⟩, fun t ht => ?_⟩
  obtain ⟨h7, h8⟩ := h6 t ht
  exact ⟨isToken_sound h7, h8⟩

def readRefs (options : Syn → Syn → List (List Capture)) : List Syn → Option (List ImpStmt)
  | [] => some []
  | n :: ns => do
    let rest ← readRefs options ns
    if (n.kind = .other ∨ n.kind = .expression) ∧ ∀ c ∈ n.children, c.children = [] ∧ c.kind ≠ .error ∧ c.kind ≠ .statementEnd then pure rest else
    let (b, inner, e) ← ends n.children
    if isStmtB n b inner e = true then
      if NoRef inner then pure rest else
      match inner with
      | kw :: more =>
        if n.text ≠ none ∧ kw.kind = .keyword ∧ kw.text = some c!"import" ∧ NoRef more then
          match strings more with
          | [s] => pure (.import_ (tokOf n) (tokOf kw) (tokOf s) (options n s) :: rest)
          | _ => none
        else none
      | [] => none
    else none

theorem readRefs_sound {options : Syn → Syn → List (List Capture)} : ∀ {ns : List Syn} {ss : List ImpStmt}, readRefs options ns = some ss → Refs options ns ss
  | [], ss, h => by cases h; exact .nil
  | n :: ns, ss, h => by
    simp only [readRefs, bind, Option.bind_eq_some_iff, pure] at h
    obtain ⟨rest, h1, h⟩ := h
    have ih := readRefs_sound h1
    split at h
    · rename_i hc; cases h; exact .other hc.1 hc.2 ih
    simp only [Option.bind_eq_some_iff] at h
    obtain ⟨⟨b, inner, e⟩, h2, h⟩ := h
    dsimp only at h
    split at h
    · rename_i hc
      have hs := isStmtB_sound hc (ends_sound h2)
      split at h
      · cases h; exact .stmt hs ‹_› ih
      split at h
      · split at h
        · rename_i hd
          split at h
          · rename_i s hss
            cases h
            exact .import_ hs hd.1 hd.2.1 hd.2.2.1 hss hd.2.2.2 ih
          · cases h
        · cases h
      · cases h
    · cases h

/-! ### Drawing -/

def leafOf (k : SKind) (t : Tok) : Syn := .node k none t.node t.start t.stop (some t.text) []

def hleaf : HTok → Syn
  | .name t => leafOf .identifier t
  | .eq t => leafOf .operator t

def stmtOf (d : Delims) (inner : List Syn) : Syn :=
  .node .statement none (1000 + d.opening.node) d.opening.start d.closing.stop (some [])
    (leafOf .statementBegin d.opening :: inner ++ [leafOf .statementEnd d.closing])

def exprOf (cs : List Syn) : Syn := match cs with
  | [] => .node .expression none 2000 ⟨0, 0⟩ ⟨0, 0⟩ (some []) []
  | c :: cs => .node .expression none (2000 + c.id) c.start ((c :: cs).getLast (by simp)).stop (some []) (c :: cs)

def endOf (e : EndTag) : Syn := stmtOf e.d (leafOf .keyword e.kw :: e.ts.map hleaf)

/-- the nodes of a template, below the root -/
def draw : Program → List Syn
  | .done => []
  | .out ts parts r => exprOf (ts.map hleaf ++ parts.flatMap fun q => leafOf .keyword q.1 :: q.2.map hleaf) :: draw r
  | .stmt d ts r => stmtOf d (ts.map hleaf) :: draw r
  | .import_ d ts _ r =>
    stmtOf d (leafOf .keyword ⟨d.opening.stop, ⟨d.opening.stop.row, d.opening.stop.column + 1⟩, c!"import", 3000 + d.opening.node⟩ ::
      leafOf .string ⟨⟨d.opening.stop.row, d.opening.stop.column + 1⟩, ⟨d.opening.stop.row, d.opening.stop.column + 2⟩, c!"\"m.html\"", 4000 + d.opening.node⟩ :: ts.map hleaf) :: draw r
  | .set d kw x ts r => stmtOf d (leafOf .keyword kw :: leafOf .identifier x :: ts.map hleaf) :: draw r
  | .setBlock d kw x body e r => stmtOf d [leafOf .keyword kw, leafOf .identifier x] :: (draw body ++ endOf e :: draw r)
  | .loop d kw x more ts body e r =>
    stmtOf d (leafOf .keyword kw :: leafOf .identifier x :: (more.map (leafOf .identifier) ++ ts.map hleaf)) :: (draw body ++ endOf e :: draw r)
  | .with_ d kw as body e r => stmtOf d (leafOf .keyword kw :: (as.flatMap Assign.toks).map hleaf) :: (draw body ++ endOf e :: draw r)
  | .macro_ d kw name ps body e r =>
    stmtOf d (leafOf .keyword kw :: leafOf .identifier name :: (ps.flatMap Spec.Param.toks).map hleaf) :: (draw body ++ endOf e :: draw r)
  | .call d ts body e r => stmtOf d (ts.map hleaf) :: (draw body ++ endOf e :: draw r)
  | .block d kw name body e r => stmtOf d [leafOf .keyword kw, leafOf .identifier name] :: (draw body ++ endOf e :: draw r)
  | .cond d kw ts body e r | .area d kw ts body e r => stmtOf d (leafOf .keyword kw :: ts.map hleaf) :: (draw body ++ endOf e :: draw r)
  | .branch d kw ts r => stmtOf d (leafOf .keyword kw :: ts.map hleaf) :: draw r

def drawRoot (p : Program) : Syn := .node .other none 900 ⟨0, 0⟩ ⟨9, 9⟩ (some []) (draw p)

def drawSyn (p : Program) : Syntax := ⟨fun _ _ => drawRoot p, digit, fun _ _ => [[]], fun _ => true⟩

end Fix
end JinjaLsp
