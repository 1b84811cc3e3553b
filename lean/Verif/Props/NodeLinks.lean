import Verif.Lemmas.Path
import Verif.Props.NodeHints
import Verif.Props.Python
import Verif.Props.Expressions
/-
  C58: links to hints.
-/

namespace JinjaLsp
open Node Spec NodeFiles

/-! ### Splitting and joining -/

theorem splitChar_free {sep : Char} (p : Str) (h : sep ∉ p) : splitChar sep p = [p] := by
  induction p with
  | nil => rfl
  | cons c r ih =>
    simp only [List.mem_cons, not_or] at h
    unfold splitChar
    rw [if_neg (fun e => h.1 e.symm), ih h.2]

theorem splitChar_append_free {sep : Char} (p s : Str) (h : sep ∉ p) : splitChar sep (p ++ sep :: s) = p :: splitChar sep s := by
  induction p with
  | nil => simp [splitChar]
  | cons c r ih =>
    simp only [List.mem_cons, not_or] at h
    rw [List.cons_append, splitChar, if_neg (fun e => h.1 e.symm), ih h.2]

theorem splitChar_dotted (ps : List Str) (hne : ps ≠ []) (h : ∀ p ∈ ps, '.' ∉ p) : splitChar '.' (dotted ps) = ps := by
  induction ps with
  | nil => exact (hne rfl).elim
  | cons p ps ih =>
    cases ps with
    | nil =>
      have : dotted [p] = p := by simp [dotted, List.intercalate]
      rw [this, splitChar_free p (h p (by simp))]
    | cons q ps =>
      rw [dotted_cons, splitChar_append_free _ _ (h p (by simp)), ih (by simp) (fun x hx => h x (List.mem_cons_of_mem _ hx))]

theorem dotted_splitChar (s : Str) : dotted (splitChar '.' s) = s := by
  induction s with
  | nil => simp [splitChar, dotted, List.intercalate]
  | cons c r ih =>
    unfold splitChar
    have hne := splitChar_ne_nil '.' r
    split
    · next h =>
      cases hs : splitChar '.' r with
      | nil => exact (hne hs).elim
      | cons x xs => rw [dotted_cons, ← hs, ih, h]; rfl
    · split
      · next hs => exact (hne hs).elim
      · next x xs hs =>
        rw [hs] at ih
        cases xs with
        | nil =>
          simp only [dotted, List.intercalate, List.intersperse, List.flatten_cons, List.flatten_nil, List.append_nil] at ih ⊢
          rw [ih]
        | cons y ys => rw [dotted_cons] at ih ⊢; rw [List.cons_append, ih]

/-- a name is split into `ps` exactly when it is `ps` joined by dots -/
theorem splitChar_eq_iff (s : Str) (ps : List Str) (hne : ps ≠ []) (h : ∀ p ∈ ps, '.' ∉ p) :
    splitChar '.' s = ps ↔ s = dotted ps := by
  constructor
  · rintro rfl; exact (dotted_splitChar s).symm
  · rintro rfl; exact splitChar_dotted ps hne h

namespace Spec

/-- the hints links are made to after a sequence of calls: those last given for `temp` -/
def linkHints : List Action → List Call → List Action
  | cur, [] => cur
  | cur, .saveLinkHint (some as) hint :: cs => linkHints (if hint.getD c!"temp" = c!"temp" then as else cur) cs
  | cur, .addLinkHints uri (some as) :: cs => linkHints (if uri = c!"temp" then as else cur) cs
  | cur, .removeTempLinkHint hint :: cs => linkHints (if hint.getD c!"temp" = c!"temp" then [] else cur) cs
  | cur, _ :: cs => linkHints cur cs

/-- the dotted path of a use -/
def UseInfo.path (u : UseInfo) : Str := dotted (u.name :: u.attrs.map Prod.fst)

/-- where the path of a use ends -/
def UseInfo.stop (u : UseInfo) : Point := ((u.attrs.getLast?).map fun a => a.2.2).getD u.range.2

/-- a link over `start … stop`, shifted by the line offset -/
def linkAt (line : Nat) (start stop : Point) (name : Str) : JsIdentifier :=
  ⟨⟨start.row + line, start.column⟩, ⟨stop.row + line, stop.column⟩, name, .link⟩

/-- a position whose shifted version fits in 32 bits -/
def LinkFits (line : Nat) (p : Point) : Prop := p.row + line < 4294967296 ∧ p.column < 4294967296

end Spec

namespace Node.NodeFiles

/-- the paths links are made for are those of the hints in force -/
theorem linkHints_run {env : Env} {w : World} (cs : List Call) {n n' : NodeFiles} {cur : List Action}
    (hs : (n.actionObjects.get? c!"temp").getD [] = cur.map fun a => splitChar '.' a.name) (hn : Call.run env w n cs = .ok n') :
    (n'.actionObjects.get? c!"temp").getD [] = (linkHints cur cs).map fun a => splitChar '.' a.name := by
  induction cs generalizing n cur with
  | nil => cases hn; exact hs
  | cons c cs ih =>
    unfold Call.run at hn
    split at hn
    · cases hn
    · rename_i n1 h1
      cases c with
      | addLinkHints u as =>
        cases as with
        | none => cases h1; exact ih hs hn
        | some as =>
          cases h1
          refine ih ?_ hn
          simp only [addLinkHints, HMap.get?_insert]
          by_cases e : c!"temp" = u
          · subst e; simp only [if_true, Option.getD_some]; rfl
          · have e' : ¬ u = c!"temp" := fun x => e x.symm
            simp only [e, e', if_false]; exact hs
      | saveLinkHint as hint =>
        cases as with
        | none => cases h1; exact ih hs hn
        | some as =>
          cases h1
          refine ih ?_ hn
          simp only [saveLinkHint, HMap.get?_insert]
          by_cases e : c!"temp" = hint.getD c!"temp"
          · simp only [e.symm, if_true, Option.getD_some]; rfl
          · have e' : ¬ hint.getD c!"temp" = c!"temp" := fun x => e x.symm
            simp only [e, e', if_false]; exact hs
      | removeTempLinkHint hint =>
        cases h1
        refine ih ?_ hn
        simp only [removeTempLinkHint, HMap.get?_erase]
        by_cases e : c!"temp" = hint.getD c!"temp"
        · simp only [e.symm, if_true, Option.getD_none]; rfl
        · have e' : ¬ hint.getD c!"temp" = c!"temp" := fun x => e x.symm
          simp only [e, e', if_false]; exact hs
      | deleteAll f => cases h1; exact ih (n := n.deleteAll w.order f) hs hn
      | addOne id f ct l e col =>
        simp only [Call.step, Except.map] at h1
        split at h1
        · cases h1
        · rename_i r hr
          cases h1
          obtain ⟨_, _, _, _, _, ho, _⟩ := addOne_files (n1 := r.1) (links := r.2) hr
          exact ih (by rw [ho]; exact hs) hn

theorem shiftPos_fits (prof : Profile) (line : Nat) (p : Point) (h : LinkFits line p) :
    shiftPos prof (toPosition2 p) line = .ok ⟨p.row + line, p.column⟩ := by
  have h1 : p.row % 4294967296 = p.row := Nat.mod_eq_of_lt (by have := h.1; omega)
  have h2 : p.column % 4294967296 = p.column := Nat.mod_eq_of_lt h.2
  simp only [shiftPos, toPosition2, toU32, h1, h2, uadd32, if_pos h.1]

theorem link_fits (prof : Profile) (line : Nat) (a b : Point) (name : Str) (ha : LinkFits line a) (hb : LinkFits line b) :
    link prof a b name line = .ok (linkAt line a b name) := by
  simp only [link, shiftPos_fits _ _ _ ha, shiftPos_fits _ _ _ hb, linkAt]

theorem linksOf_fits (prof : Profile) (line : Nat) (fields : List Str) (a b : Point) (name : Str) (ha : LinkFits line a) (hb : LinkFits line b)
    (hints : List (List Str)) :
    linksOf prof line fields a b name hints =
      .ok ((hints.filter fun g => decide (g = fields)).map fun _ => linkAt line a b name) := by
  induction hints with
  | nil => rfl
  | cons g gs ih =>
    unfold linksOf
    by_cases h : g = fields
    · simp [h, link_fits _ _ _ _ _ ha hb, ih]
    · simp [h, ih]

theorem allLinks_fits (prof : Profile) (line : Nat) (hints : List (List Str)) (cands : List (List Str × Point × Point × Str))
    (h : ∀ c ∈ cands, LinkFits line c.2.1 ∧ LinkFits line c.2.2.1) :
    allLinks prof line hints cands = .ok (cands.flatMap fun c =>
      (hints.filter fun g => decide (g = c.1)).map fun _ => linkAt line c.2.1 c.2.2.1 c.2.2.2) := by
  induction cands with
  | nil => rfl
  | cons c cs ih =>
    unfold allLinks
    obtain ⟨h1, h2⟩ := h c (by simp)
    rw [linksOf_fits _ _ _ _ _ _ h1 h2, ih (fun c' hc => h c' (by simp [hc]))]
    rfl

/-- links to hints given by name -/
theorem filter_hints (as : List Action) (ps : List Str) (hne : ps ≠ []) (h : ∀ p ∈ ps, '.' ∉ p) (l : JsIdentifier) :
    (((as.map fun a => splitChar '.' a.name).filter fun g => decide (g = ps)).map fun _ => l) =
      (as.filter fun a => decide (a.name = dotted ps)).map fun _ => l := by
  induction as with
  | nil => rfl
  | cons a as ih =>
    simp only [List.map_cons, List.filter_cons]
    have := splitChar_eq_iff a.name ps hne h
    by_cases e : a.name = dotted ps
    · simp [e, splitChar_dotted ps hne h, ih]
    · have e' : ¬ splitChar '.' a.name = ps := fun x => e (this.mp x)
      simp [e, e', ih]

theorem map_info_flatMap (os : List JinjaObject) (line : Nat) (hints : List (List Str)) :
    (os.map fun o => (objectFields o, o.location.1, o.lastFieldEnd, o.name)).flatMap (fun c =>
      (hints.filter fun g => decide (g = c.1)).map fun _ => linkAt line c.2.1 c.2.2.1 c.2.2.2) =
    (os.map JinjaObject.info).flatMap fun u =>
      (hints.filter fun g => decide (g = u.name :: u.attrs.map Prod.fst)).map fun _ => linkAt line u.range.1 u.stop u.name := by
  induction os with
  | nil => rfl
  | cons o os ih =>
    simp only [List.map_cons, List.flatMap_cons, ih]
    congr 1
    simp only [JinjaObject.info, objectFields, UseInfo.stop, JinjaObject.lastFieldEnd]
    cases o.fields.getLast? <;> rfl

end Node.NodeFiles

/-- `addOne` of a template after the hints `as` are in force, when the template is well-formed -/
theorem addOne_jinja (env : Env) (w : World) (n : NodeFiles) (f1 : LspFiles) (m : Option (HMap Str Diags)) (as : List Action)
    (hs : (n.actionObjects.get? c!"temp").getD [] = as.map fun a => splitChar '.' a.name)
    (id : Nat) (fn content : Str) (line : Nat) (col : Option Nat) (uri : Str)
    (hu : docUri env fn id c!"jinja" = .ok uri)
    (ho : n.files.didOpen env w uri (List.replicate (col.getD 0) ' ' ++ content) true = .ok (f1, m))
    (us : List UseInfo) (hus : ∃ os, f1.readObjects env uri = .ok (some os) ∧ os.map JinjaObject.info = us)
    (hfree : ∀ u ∈ us, '.' ∉ u.name ∧ ∀ a ∈ u.attrs, '.' ∉ a.1)
    (hfit : ∀ u ∈ us, LinkFits line u.range.1 ∧ LinkFits line u.stop) :
    n.addOne env w id fn content line c!"jinja" col = .ok ({ n with files := f1 },
      us.flatMap fun u => (as.filter fun a => decide (a.name = u.path)).map fun _ => linkAt line u.range.1 u.stop u.name) := by
  obtain ⟨os, hr, hos⟩ := hus
  have key : ∀ hints : List (List Str), hints = as.map (fun a => splitChar '.' a.name) →
      allLinks env.profile line hints (os.map fun o => (objectFields o, o.location.1, o.lastFieldEnd, o.name)) =
      .ok (us.flatMap fun u => (as.filter fun a => decide (a.name = u.path)).map fun _ => linkAt line u.range.1 u.stop u.name) := by
    rintro hints rfl
    rw [allLinks_fits, map_info_flatMap, hos]
    · congr 1
      rw [List.flatMap_def, List.flatMap_def]
      congr 1
      refine List.map_congr_left fun u hu' => ?_
      exact filter_hints as _ (by simp) (by
        intro p hp
        rcases List.mem_cons.mp hp with rfl | hp
        · exact (hfree u hu').1
        · obtain ⟨a, ha, rfl⟩ := List.mem_map.mp hp
          exact (hfree u hu').2 a ha) _
    · intro c hc
      obtain ⟨o, hoo, rfl⟩ := List.mem_map.mp hc
      have := hfit o.info (by rw [← hos]; exact List.mem_map_of_mem hoo)
      refine ⟨this.1, ?_⟩
      have e : o.info.stop = o.lastFieldEnd := by
        simp only [JinjaObject.info, UseInfo.stop, JinjaObject.lastFieldEnd]
        cases o.fields.getLast? <;> rfl
      rw [← e]; exact this.2
  unfold addOne
  simp only [hu, ho, hr, if_true]
  cases hg : n.actionObjects.get? c!"temp" with
  | none =>
    rw [hg] at hs
    have : as = [] := by simpa using hs.symm
    subst this
    simp
  | some hints =>
    rw [hg] at hs
    simp only [key hints hs]

/-! ## C58 -/

/-- **C58** (part) After any calls, opening a template whose uses are `es` (any well-formed sequence of expressions, names
without dots): for each use in document order there is one link per hint in force whose name is the use's dotted path, and
none otherwise; it spans the path, shifted by the line offset.
Missing: names of filters and tests get links too (`C58_filter_refuted`). -/
theorem C58_links_partial (env : Env) (w : World) (calls : List Call) (n : NodeFiles) (f1 : LspFiles) (m : Option (HMap Str Diags))
    (hr : Call.run env w NodeFiles.new calls = .ok n)
    (id : Nat) (fn content : Str) (line : Nat) (col : Option Nat) (uri : Str) (hu : docUri env fn id c!"jinja" = .ok uri)
    (hx : fileExt uri = some .template)
    (ho : n.files.didOpen env w uri (List.replicate (col.getD 0) ' ' ++ content) true = .ok (f1, m))
    (tree : Tree) (ht : (f1.trees .template).get? uri = some tree) (es : List Elem) (hwf : Elems.Wf es)
    (hc : (env.queryMatches .jinjaObjects tree (List.replicate (col.getD 0) ' ' ++ content)).flatten = es.flatMap Elem.caps)
    (hfree : ∀ u ∈ Elems.uses es, '.' ∉ u.name ∧ ∀ a ∈ u.attrs, '.' ∉ a.1)
    (hfit : ∀ u ∈ Elems.uses es, LinkFits line u.range.1 ∧ LinkFits line u.stop) :
    n.addOne env w id fn content line c!"jinja" col = .ok ({ n with files := f1 },
      (Elems.uses es).flatMap fun u =>
        ((linkHints [] calls).filter fun a => decide (a.name = u.path)).map fun _ => linkAt line u.range.1 u.stop u.name) := by
  have hd : f1.documents.get? uri = some (List.replicate (col.getD 0) ' ' ++ content) := by
    unfold LspFiles.didOpen at ho
    rw [hx] at ho
    simp only [if_true] at ho
    split at ho
    · cases ho
    · rename_i f3 h3
      simp only [Except.ok.injEq, Prod.mk.injEq] at ho
      rw [← ho.1, (documents_addVariables h3).1, documents_addTree]
      exact HMap.get?_insert_self _ _ _
  exact addOne_jinja env w n f1 m _ (linkHints_run calls (n := NodeFiles.new) (cur := []) rfl hr) id fn content line col uri hu ho _
    (C17_uses_partial env f1 uri tree _ es hx hd ht hwf hc) hfree hfit

namespace Fix

/-- two hints for `user.name` and one for `user` -/
def linkCalls : List Call :=
  [.saveLinkHint (some [⟨c!"user.name", c!"d"⟩, ⟨c!"user", c!"e"⟩, ⟨c!"user.name", c!"f"⟩]) none,
   .addLinkHints c!"other" (some [⟨c!"x", c!"g"⟩])]

def linkEnv : Env := envWith .jinjaObjects (exprs.flatMap Elem.caps)

end Fix

/-- not vacuous: of the four uses, `user.name` gets two links -/
example : (∃ n, Call.run Fix.linkEnv Fix.world NodeFiles.new Fix.linkCalls = .ok n ∧
      ∃ f1 m, n.files.didOpen Fix.linkEnv Fix.world c!"file:///home/f.7.jinja" c!"t" true = .ok (f1, m) ∧
        ∃ t, (f1.trees .template).get? c!"file:///home/f.7.jinja" = some t) ∧
    fileExt c!"file:///home/f.7.jinja" = some .template ∧
    (∀ t x, (Fix.linkEnv.queryMatches .jinjaObjects t x).flatten = Fix.exprs.flatMap Elem.caps) ∧
    (∀ u ∈ Elems.uses Fix.exprs, '.' ∉ u.name ∧ ∀ a ∈ u.attrs, '.' ∉ a.1) ∧
    (∀ u ∈ Elems.uses Fix.exprs, LinkFits 10 u.range.1 ∧ LinkFits 10 u.stop) ∧
    ((Elems.uses Fix.exprs).flatMap fun u =>
      ((linkHints [] Fix.linkCalls).filter fun a => decide (a.name = u.path)).map fun _ => linkAt 10 u.range.1 u.stop u.name) =
      [⟨⟨10, 3⟩, ⟨10, 12⟩, c!"user", .link⟩, ⟨⟨10, 3⟩, ⟨10, 12⟩, c!"user", .link⟩] := by
  refine ⟨⟨_, rfl, _, _, rfl, _, rfl⟩, by decide, fun _ _ => ?_, ?_, ?_, by decide⟩
  · simp [Fix.linkEnv, Fix.envWith, List.flatten_eq_flatMap, List.flatMap_map]
  · decide
  · intro u hu
    simp only [Elems.uses, Fix.exprs, List.filterMap_cons, List.filterMap_nil, List.mem_cons, List.not_mem_nil, or_false] at hu
    rcases hu with rfl | rfl | rfl | rfl <;> simp [LinkFits, Use.info, Fix.tok, UseInfo.stop]

/-- **C58 is false for filters and tests**: the name of a filter or a test gets a link when a hint has that name, though it is
not a variable. -/
theorem C58_filter_refuted (env : Env) (w : World) (n : NodeFiles) (f1 : LspFiles) (m : Option (HMap Str Diags)) (as : List Action)
    (id : Nat) (fn content : Str) (line : Nat) (uri : Str) (hu : docUri env fn id c!"jinja" = .ok uri)
    (hx : fileExt uri = some .template)
    (ho : (n.saveLinkHint (some as) none).files.didOpen env w uri content true = .ok (f1, m))
    (tree : Tree) (ht : (f1.trees .template).get? uri = some tree) (es : List Elem) (hwf : Elems.Wf es)
    (hc : (env.queryMatches .jinjaObjects tree content).flatten = es.flatMap Elem.caps)
    (hfree : ∀ u ∈ Elems.uses es, '.' ∉ u.name ∧ ∀ a ∈ u.attrs, '.' ∉ a.1)
    (hfit : ∀ u ∈ Elems.uses es, LinkFits line u.range.1 ∧ LinkFits line u.stop)
    (u : UseInfo) (huse : u ∈ Elems.uses es) (_hfilter : u.filter = true ∨ u.test = true)
    (hhint : ∃ a ∈ as, a.name = u.path) :
    ∃ n1 links, (n.saveLinkHint (some as) none).addOne env w id fn content line c!"jinja" none = .ok (n1, links) ∧
      linkAt line u.range.1 u.stop u.name ∈ links := by
  have hd : f1.documents.get? uri = some content := by
    unfold LspFiles.didOpen at ho
    rw [hx] at ho
    simp only [if_true] at ho
    split at ho
    · cases ho
    · rename_i f3 h3
      simp only [Except.ok.injEq, Prod.mk.injEq] at ho
      rw [← ho.1, (documents_addVariables h3).1, documents_addTree]
      exact HMap.get?_insert_self _ _ _
  refine ⟨_, _, addOne_jinja env w (n.saveLinkHint (some as) none) f1 m as ?_ id fn content line none uri hu ho _
    (C17_uses_partial env f1 uri tree _ es hx hd ht hwf hc) hfree hfit, ?_⟩
  · simp only [saveLinkHint, Option.getD_none, HMap.get?_insert_self, Option.getD_some]; rfl
  · obtain ⟨a, ha, e⟩ := hhint
    refine List.mem_flatMap.mpr ⟨u, huse, List.mem_map.mpr ⟨a, List.mem_filter.mpr ⟨ha, by simpa using e⟩, rfl⟩⟩

/-- the hypotheses hold: the filter `upper` of the document above and a hint named `upper` -/
example : ∃ u ∈ Elems.uses Fix.exprs, (u.filter = true ∨ u.test = true) ∧ u.path = c!"upper" ∧ u.name = c!"upper" := by
  decide

/-- **C58, Python files** The identifiers of a Python file get links in the same way, in some order: one for each identifier
of the file and hint with the same name, at the identifier's span shifted by the line offset. -/
theorem C58_python_partial (env : Env) (w : World) (calls : List Call) (n : NodeFiles) (f1 : LspFiles) (m : Option (HMap Str Diags))
    (hr : Call.run env w NodeFiles.new calls = .ok n)
    (id : Nat) (fn content : Str) (line : Nat) (col : Option Nat) (uri : Str) (hu : docUri env fn id c!"py" = .ok uri)
    (ho : n.files.didOpen env w uri (List.replicate (col.getD 0) ' ' ++ content) true = .ok (f1, m))
    (ids : List PythonIdentifier) (hids : f1.readPythonIds env w uri = some ids)
    (hfit : ∀ i ∈ ids, LinkFits line i.start ∧ LinkFits line i.stop) :
    n.addOne env w id fn content line c!"py" col = .ok ({ n with files := f1 },
      ids.flatMap fun i =>
        ((linkHints [] calls).filter fun a => decide (a.name = i.field)).map fun _ => linkAt line i.start i.stop i.field) := by
  have hs := linkHints_run calls (n := NodeFiles.new) (cur := []) rfl hr
  generalize linkHints [] calls = as at hs
  have hsplit : ∀ s t : Str, splitChar '.' s = splitChar '.' t ↔ s = t := fun s t =>
    ⟨fun h => by rw [← dotted_splitChar s, h, dotted_splitChar], fun h => by rw [h]⟩
  have key : ∀ hints : List (List Str), hints = as.map (fun a => splitChar '.' a.name) →
      allLinks env.profile line hints (ids.map fun p => (pythonFields p, p.start, p.stop, p.field)) =
      .ok (ids.flatMap fun i => (as.filter fun a => decide (a.name = i.field)).map fun _ => linkAt line i.start i.stop i.field) := by
    rintro hints rfl
    rw [allLinks_fits]
    · congr 1
      rw [List.flatMap_map]
      rw [List.flatMap_def, List.flatMap_def]
      congr 1
      refine List.map_congr_left fun i _ => ?_
      simp only [pythonFields]
      rw [List.filter_map, List.map_map]
      simp only [Function.comp_def, hsplit]
    · intro c hc
      obtain ⟨i, hi, rfl⟩ := List.mem_map.mp hc
      exact hfit i hi
  unfold addOne
  have hne : ¬ c!"py" = c!"jinja" := by decide
  simp only [hu, ho, hids, if_neg hne, if_true]
  cases hg : n.actionObjects.get? c!"temp" with
  | none =>
    rw [hg] at hs
    have : as = [] := by simpa using hs.symm
    subst this
    simp
  | some hints =>
    rw [hg] at hs
    simp only [key hints hs]

/-- not vacuous: `a.b[c.d].e` has two identifiers -/
example : ∃ ids, Fix.pyFiles.readPythonIds (Fix.envWith .pythonIdentifiers Fix.pyCaps) Fix.world Fix.uriPy = some ids ∧
    ids.length = 2 ∧ ∀ i ∈ ids, LinkFits 10 i.start ∧ LinkFits 10 i.stop := by
  refine ⟨_, rfl, by decide, ?_⟩
  unfold LinkFits
  decide

end JinjaLsp
