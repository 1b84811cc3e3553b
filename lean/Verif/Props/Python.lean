import Verif.Lemmas.HMap
import Verif.Model.LspFiles
import Verif.Props.Fixtures
/-
  C62: attribute paths of Python files.
-/

namespace JinjaLsp

namespace Spec

/-- parts joined by dots -/
def dotted (parts : List Str) : Str := List.intercalate c!"." parts

/-- one part of a dotted expression -/
structure Part where
  id : Nat
  text : Str
  start : Point
  stop : Point

/-- a dotted attribute expression: where the attribute node starts, and its parts -/
structure PyPath where
  start : Point
  first : Part
  rest : List Part

def PyPath.parts (e : PyPath) : List Part := e.first :: e.rest

/-- the captures of PYTHON_IDENTIFIERS (queries.rs:292-298) for an expression: its identifiers, each below an attribute node
that starts where the expression does -/
def Part.cap (start : Point) (p : Part) : Capture :=
  { name := .identifier, id := p.id, start := p.start, stop := p.stop, text := some p.text, parentStart := some start }

def PyPath.caps (e : PyPath) : List Capture := e.parts.map (Part.cap e.start)

/-- the identifier to be reported: from the first to the last part -/
def PyPath.ident (e : PyPath) : PythonIdentifier :=
  ⟨0, e.first.start, (e.parts.getLast (by simp [parts])).stop, dotted (e.parts.map Part.text)⟩

end Spec

open Spec

/-! ### Grouping -/

theorem dotted_cons (x y : Str) (r : List Str) : dotted (x :: y :: r) = x ++ '.' :: dotted (y :: r) := by
  simp [dotted, List.intercalate]

theorem pythonJoin_eq (l : List PythonIdentifier) : pythonJoin l = dotted (l.map PythonIdentifier.field) := by
  induction l with
  | nil => rfl
  | cons x l ih =>
    cases l with
    | nil => simp [pythonJoin, dotted, List.intercalate]
    | cons y r => simp only [pythonJoin, ih, List.map_cons, dotted_cons]

/-- what is stored for a capture -/
def pyIdent (c : Capture) : PythonIdentifier := ⟨c.id, c.start, c.stop, c.text.getD []⟩

/-- the captures below a node that starts at `p`, in stream order -/
def below (p : Point) (cs : List Capture) : List Capture := cs.filter fun c => decide (c.parentStart = some p)

theorem pythonGroup_get (cs : List Capture) (m : HMap Point (List PythonIdentifier)) (p : Point) :
    (pythonGroup m cs).get? p =
      if below p cs = [] then m.get? p else some ((m.get? p).getD [] ++ (below p cs).map pyIdent) := by
  induction cs generalizing m with
  | nil => simp [pythonGroup, below]
  | cons c cs ih =>
    unfold pythonGroup
    cases hc : c.parentStart with
    | none =>
      simp only [ih]
      have : below p (c :: cs) = below p cs := by simp [below, hc]
      rw [this]
    | some q =>
      simp only [ih, HMap.get?_insert]
      by_cases h : q = p
      · subst h
        have : below q (c :: cs) = c :: below q cs := by simp [below, hc]
        rw [this]
        by_cases hb : below q cs = []
        · simp [hb, pyIdent]
        · simp [hb, pyIdent]
      · have h' : ¬ p = q := fun e => h e.symm
        have : below p (c :: cs) = below p cs := by simp [below, hc, h]
        rw [this]
        simp [h']

theorem pythonGroup_entries (cs : List Capture) (ss : List Point) (hn : ss.Nodup)
    (hs : ∀ p, p ∈ ss ↔ ∃ c ∈ cs, c.parentStart = some p) :
    (pythonGroup HMap.empty cs).entries.Perm (ss.map fun p => (p, (below p cs).map pyIdent)) := by
  have hmem : ∀ e : Point × List PythonIdentifier, e ∈ (pythonGroup HMap.empty cs).entries ↔
      e ∈ ss.map fun p => (p, (below p cs).map pyIdent) := by
    rintro ⟨p, l⟩
    rw [← HMap.get?_eq_some_iff, pythonGroup_get, List.mem_map]
    simp only [HMap.get?_empty, Option.getD_none, List.nil_append, Prod.mk.injEq]
    have hb : below p cs = [] ↔ p ∉ ss := by
      rw [hs]
      simp only [below, List.filter_eq_nil_iff, decide_eq_true_eq]
      constructor
      · rintro h ⟨c, hc, e⟩; exact h c hc e
      · intro h c hc e; exact h ⟨c, hc, e⟩
    constructor
    · intro h
      split at h
      · cases h
      · next hne =>
        injection h with h
        exact ⟨p, Classical.byContradiction fun x => hne (hb.mpr x), rfl, h⟩
    · rintro ⟨q, hq, rfl, h⟩
      rw [if_neg (fun x => hb.mp x hq), h]
  refine (List.perm_ext_iff_of_nodup ?_ ?_).mpr hmem
  · exact List.Pairwise.of_map (R := (· ≠ ·)) Prod.fst (fun a b h e => h (by rw [e])) (pythonGroup HMap.empty cs).nodup
  · refine List.Pairwise.of_map (R := (· ≠ ·)) Prod.fst (S := (· ≠ ·)) (fun a b h e => h (by rw [e])) ?_
    rw [List.map_map]; exact (List.map_id ss).symm ▸ hn

/-- the merged identifier of the captures below `p` -/
def pyMerged (p : Point) (cs : List Capture) : PythonIdentifier :=
  ⟨0, p, (((below p cs).getLast?).map Capture.stop).getD p, dotted ((below p cs).map fun c => c.text.getD [])⟩

/-- **C62, exactly** For every stream of captures and every hash order: there is one identifier per distinct start of a
parent node, named by the texts of the captures below nodes starting there, joined by dots in stream order, from that start
to the end of the last of them. -/
theorem C62_groups (env : Env) (w : World) (f : LspFiles) (uri : Str) (tree : Tree) (text : Str) (lang : LangType)
    (hx : fileExt uri = some lang) (hd : f.documents.get? uri = some text) (ht : (f.trees lang).get? uri = some tree)
    (cs : List Capture) (hc : (env.queryMatches .pythonIdentifiers tree text).flatten = cs)
    (ss : List Point) (hn : ss.Nodup) (hs : ∀ p, p ∈ ss ↔ ∃ c ∈ cs, c.parentStart = some p) :
    ∃ ids, f.readPythonIds env w uri = some ids ∧ ids.Perm (ss.map fun p => pyMerged p cs) := by
  refine ⟨pythonIdentifiers env w.order tree text 0, ?_, ?_⟩
  · simp only [LspFiles.readPythonIds, hd, hx, ht]
  · unfold pythonIdentifiers pythonMerge
    rw [hc]
    refine (((w.order.perm 0 _).trans (pythonGroup_entries cs ss hn hs)).map _).trans ?_
    rw [List.map_map]
    refine List.Perm.of_eq (List.map_congr_left fun p _ => ?_)
    simp only [Function.comp_apply, pythonMergeOne, Nat.add_zero, pyMerged, pythonJoin_eq, List.map_map, List.getLast?_map]
    cases (below p cs).getLast? <;> rfl

/-- **C62** (part) For every Python file whose captures are those of dotted attribute expressions, of any number and length,
nested in one another in any way but each starting at its own place and with its first part: the identifiers reported are
exactly one per expression, named by its parts joined by dots, from the first part to the last, whatever the hash order.
Missing: expressions that begin with a call or subscript (`C62_prefix_refuted`) and two that start at the same place
(`C62_same_start_refuted`). -/
theorem C62_paths_partial (env : Env) (w : World) (f : LspFiles) (uri : Str) (tree : Tree) (text : Str) (lang : LangType)
    (hx : fileExt uri = some lang) (hd : f.documents.get? uri = some text) (ht : (f.trees lang).get? uri = some tree)
    (es : List PyPath) (cs : List Capture) (hc : (env.queryMatches .pythonIdentifiers tree text).flatten = cs)
    (hall : ∀ c ∈ cs, ∃ e ∈ es, c.parentStart = some e.start)
    (hcaps : ∀ e ∈ es, cs.filter (fun c => decide (c.parentStart = some e.start)) = e.caps)
    (hdist : (es.map PyPath.start).Nodup) (hfirst : ∀ e ∈ es, e.start = e.first.start) :
    ∃ ids, f.readPythonIds env w uri = some ids ∧ ids.Perm (es.map PyPath.ident) := by
  obtain ⟨ids, h1, h2⟩ := C62_groups env w f uri tree text lang hx hd ht cs hc (es.map PyPath.start) hdist (by
    intro p
    constructor
    · intro hp
      obtain ⟨e, he, rfl⟩ := List.mem_map.mp hp
      have : Part.cap e.start e.first ∈ cs.filter (fun c => decide (c.parentStart = some e.start)) := by
        rw [hcaps e he]; simp [PyPath.caps, PyPath.parts]
      exact ⟨_, (List.mem_filter.mp this).1, rfl⟩
    · rintro ⟨c, hc', e⟩
      obtain ⟨x, hx', hp⟩ := hall c hc'
      rw [e] at hp
      injection hp with hp
      exact List.mem_map.mpr ⟨x, hx', hp.symm⟩)
  refine ⟨ids, h1, h2.trans (List.Perm.of_eq ?_)⟩
  rw [List.map_map]
  refine List.map_congr_left fun e he => ?_
  have hb : below e.start cs = e.caps := hcaps e he
  simp only [Function.comp_apply, pyMerged, PyPath.ident, hb]
  rw [← hfirst e he]
  have h3 : (e.caps.getLast?).map Capture.stop = some (e.parts.getLast (by simp [PyPath.parts])).stop := by
    rw [PyPath.caps, List.getLast?_map, List.getLast?_eq_some_getLast (by simp [PyPath.parts])]; rfl
  rw [h3]
  congr 1
  simp only [PyPath.caps, List.map_map]
  rfl

namespace Fix

/-- `a.b[c.d].e` -/
def pyPaths : List PyPath :=
  [⟨⟨0, 0⟩, ⟨1, c!"a", ⟨0, 0⟩, ⟨0, 1⟩⟩, [⟨2, c!"b", ⟨0, 2⟩, ⟨0, 3⟩⟩, ⟨3, c!"e", ⟨0, 9⟩, ⟨0, 10⟩⟩]⟩,
   ⟨⟨0, 4⟩, ⟨4, c!"c", ⟨0, 4⟩, ⟨0, 5⟩⟩, [⟨5, c!"d", ⟨0, 6⟩, ⟨0, 7⟩⟩]⟩]

def pyCaps : List Capture :=
  [Part.cap ⟨0, 0⟩ ⟨1, c!"a", ⟨0, 0⟩, ⟨0, 1⟩⟩, Part.cap ⟨0, 0⟩ ⟨2, c!"b", ⟨0, 2⟩, ⟨0, 3⟩⟩,
   Part.cap ⟨0, 4⟩ ⟨4, c!"c", ⟨0, 4⟩, ⟨0, 5⟩⟩, Part.cap ⟨0, 4⟩ ⟨5, c!"d", ⟨0, 6⟩, ⟨0, 7⟩⟩,
   Part.cap ⟨0, 0⟩ ⟨3, c!"e", ⟨0, 9⟩, ⟨0, 10⟩⟩]

def uriPy : Str := c!"file:///m.py"

def pyFiles : LspFiles :=
  { LspFiles.default with
    documents := HMap.empty.insert uriPy c!"a.b[c.d].e"
    trees := fun l => match l with
      | .template => HMap.empty
      | .backend => HMap.empty.insert uriPy (.parsed .python c!"a.b[c.d].e" none) }

end Fix

/-- not vacuous: two nested expressions -/
example : fileExt Fix.uriPy = some .backend ∧ Fix.pyFiles.documents.get? Fix.uriPy = some c!"a.b[c.d].e" ∧
    (Fix.pyFiles.trees .backend).get? Fix.uriPy = some (.parsed .python c!"a.b[c.d].e" none) ∧
    ((Fix.envWith .pythonIdentifiers Fix.pyCaps).queryMatches .pythonIdentifiers (.parsed .python c!"a.b[c.d].e" none)
      c!"a.b[c.d].e").flatten = Fix.pyCaps ∧
    (∀ c ∈ Fix.pyCaps, ∃ e ∈ Fix.pyPaths, c.parentStart = some e.start) ∧
    (∀ e ∈ Fix.pyPaths, Fix.pyCaps.filter (fun c => decide (c.parentStart = some e.start)) = e.caps) ∧
    (Fix.pyPaths.map PyPath.start).Nodup ∧ (∀ e ∈ Fix.pyPaths, e.start = e.first.start) ∧
    Fix.pyPaths.map (fun e => (e.ident.field, e.ident.start, e.ident.stop)) =
      [(c!"a.b.e", ⟨0, 0⟩, ⟨0, 10⟩), (c!"c.d", ⟨0, 4⟩, ⟨0, 7⟩)] := by
  refine ⟨by decide, rfl, rfl, rfl, ?_, ?_, by decide, ?_, by decide⟩
  · intro c hc
    simp only [Fix.pyCaps, List.mem_cons, List.not_mem_nil, or_false] at hc
    rcases hc with rfl | rfl | rfl | rfl | rfl <;> simp [Fix.pyPaths, Part.cap]
  · intro e he
    simp only [Fix.pyPaths, List.mem_cons, List.not_mem_nil, or_false] at he
    rcases he with rfl | rfl <;> rfl
  · intro e he
    simp only [Fix.pyPaths, List.mem_cons, List.not_mem_nil, or_false] at he
    rcases he with rfl | rfl <;> rfl

theorem below_caps (e : PyPath) : below e.start e.caps = e.caps := by
  unfold below PyPath.caps
  rw [List.filter_eq_self]
  intro c hc
  obtain ⟨p, _, rfl⟩ := List.mem_map.mp hc
  simp [Part.cap]

/-- **C62 is false for expressions that begin with a call or subscript** (`f(x).b`): the attribute node starts before its
first identifier, and the span starts there too. -/
theorem C62_prefix_refuted (env : Env) (w : World) (f : LspFiles) (uri : Str) (tree : Tree) (text : Str) (lang : LangType)
    (hx : fileExt uri = some lang) (hd : f.documents.get? uri = some text) (ht : (f.trees lang).get? uri = some tree)
    (e : PyPath) (hc : (env.queryMatches .pythonIdentifiers tree text).flatten = e.caps) (hne : e.start ≠ e.first.start) :
    f.readPythonIds env w uri = some [{ e.ident with start := e.start }] ∧ f.readPythonIds env w uri ≠ some [e.ident] := by
  obtain ⟨ids, h1, h2⟩ := C62_groups env w f uri tree text lang hx hd ht e.caps hc [e.start] (by simp) (by
    intro p
    simp only [List.mem_singleton]
    constructor
    · rintro rfl; exact ⟨Part.cap e.start e.first, by simp [PyPath.caps, PyPath.parts], rfl⟩
    · rintro ⟨c, hc', h⟩
      obtain ⟨q, _, rfl⟩ := List.mem_map.mp hc'
      simpa [Part.cap] using h.symm)
  have h3 : ids = [{ e.ident with start := e.start }] := by
    rw [List.perm_singleton.mp h2]
    simp only [pyMerged, PyPath.ident, below_caps]
    have h3 : (e.caps.getLast?).map Capture.stop = some (e.parts.getLast (by simp [PyPath.parts])).stop := by
      rw [PyPath.caps, List.getLast?_map, List.getLast?_eq_some_getLast (by simp [PyPath.parts])]; rfl
    rw [h3]
    simp only [PyPath.caps, List.map_map]
    rfl
  rw [h1, h3]
  refine ⟨rfl, fun h => hne ?_⟩
  simpa [PyPath.ident] using congrArg (fun o => (o.bind List.head?).map PythonIdentifier.start) h

/-- `f(x).b` -/
example : let e : PyPath := ⟨⟨0, 0⟩, ⟨1, c!"b", ⟨0, 5⟩, ⟨0, 6⟩⟩, []⟩
    e.start ≠ e.first.start ∧ e.ident = ⟨0, ⟨0, 5⟩, ⟨0, 6⟩, c!"b"⟩ := by decide

/-- **C62 is false for two expressions that start at the same place** (`a.b(c).d`, where `d` is an attribute of the call's
result): they become one identifier, named by the parts of both. -/
theorem C62_same_start_refuted (env : Env) (w : World) (f : LspFiles) (uri : Str) (tree : Tree) (text : Str) (lang : LangType)
    (hx : fileExt uri = some lang) (hd : f.documents.get? uri = some text) (ht : (f.trees lang).get? uri = some tree)
    (e1 e2 : PyPath) (hs : e2.start = e1.start)
    (hc : (env.queryMatches .pythonIdentifiers tree text).flatten = e1.caps ++ e2.caps) :
    ∃ i, f.readPythonIds env w uri = some [i] ∧ i.field = e1.ident.field ++ '.' :: e2.ident.field ∧
      i.start = e1.start ∧ i.stop = e2.ident.stop := by
  obtain ⟨ids, h1, h2⟩ := C62_groups env w f uri tree text lang hx hd ht _ hc [e1.start] (by simp) (by
    intro p
    simp only [List.mem_singleton]
    constructor
    · rintro rfl; exact ⟨Part.cap e1.start e1.first, by simp [PyPath.caps, PyPath.parts], rfl⟩
    · rintro ⟨c, hc', h⟩
      rcases List.mem_append.mp hc' with hc' | hc'
      all_goals
        obtain ⟨q, _, rfl⟩ := List.mem_map.mp hc'
        simp only [Part.cap, Option.some.injEq] at h
        first | exact h.symm | exact h.symm.trans hs)
  refine ⟨_, by rw [h1, List.perm_singleton.mp h2], ?_, rfl, ?_⟩
  all_goals
    have hb : below e1.start (e1.caps ++ e2.caps) = e1.caps ++ e2.caps := by
      have : below e1.start e2.caps = e2.caps := by rw [← hs]; exact below_caps e2
      have h' := below_caps e1
      unfold below at *
      rw [List.filter_append, h', this]
    simp only [pyMerged, hb]
  · have hj : ∀ (a b : List Str), a ≠ [] → b ≠ [] → dotted (a ++ b) = dotted a ++ '.' :: dotted b := by
      intro a b ha hb
      induction a with
      | nil => exact (ha rfl).elim
      | cons x a ih =>
        cases a with
        | nil =>
          cases b with
          | nil => exact (hb rfl).elim
          | cons y b => rw [List.singleton_append, dotted_cons]; simp [dotted, List.intercalate]
        | cons y a =>
          have := ih (by simp)
          simp only [List.cons_append] at this ⊢
          rw [dotted_cons, this, dotted_cons]; simp
    rw [List.map_append, hj _ _ (by simp [PyPath.caps, PyPath.parts]) (by simp [PyPath.caps, PyPath.parts])]
    simp only [PyPath.caps, List.map_map]
    rfl
  · have h3 : (e2.caps.getLast?).map Capture.stop = some (e2.parts.getLast (by simp [PyPath.parts])).stop := by
      rw [PyPath.caps, List.getLast?_map, List.getLast?_eq_some_getLast (by simp [PyPath.parts])]; rfl
    rw [List.getLast?_append]
    cases hg : e2.caps.getLast? with
    | none => simp [PyPath.caps, PyPath.parts] at hg
    | some c =>
      rw [hg] at h3
      simp only [Option.some_or]
      rw [h3]
      rfl

/-- `a.b(c).d`: `a.b` and `d` -/
example : let e1 : PyPath := ⟨⟨0, 0⟩, ⟨1, c!"a", ⟨0, 0⟩, ⟨0, 1⟩⟩, [⟨2, c!"b", ⟨0, 2⟩, ⟨0, 3⟩⟩]⟩
    let e2 : PyPath := ⟨⟨0, 0⟩, ⟨3, c!"d", ⟨0, 7⟩, ⟨0, 8⟩⟩, []⟩
    e2.start = e1.start ∧ e1.ident.field ++ '.' :: e2.ident.field = c!"a.b.d" := by decide

end JinjaLsp
