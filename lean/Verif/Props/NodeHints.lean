import Verif.Lemmas.Files
import Verif.Lemmas.Split
import Verif.Model.Node
import Verif.Props.Fixtures
/-
  C57 (link hints), C60 (deleteAll): the node API.
-/

namespace JinjaLsp
open Node

namespace Spec

/-- a call of the node API that may change the workspace -/
inductive Call where
  | addLinkHints (uri : Str) (actions : Option (List Action))
  | saveLinkHint (actions : Option (List Action)) (hint : Option Str)
  | removeTempLinkHint (hint : Option Str)
  | deleteAll (filename : Str)
  | addOne (id : Nat) (filename content : Str) (line : Nat) (ext : Str) (col : Option Nat)

/-- what a call does -/
def Call.step (env : Env) (w : World) (n : NodeFiles) : Call → Res NodeFiles
  | .addLinkHints u as => .ok (n.addLinkHints u as)
  | .saveLinkHint as h => .ok (n.saveLinkHint as h)
  | .removeTempLinkHint h => .ok (n.removeTempLinkHint h)
  | .deleteAll f => .ok (n.deleteAll w.order f)
  | .addOne id f c l e col => (n.addOne env w id f c l e col).map Prod.fst

/-- a sequence of calls -/
def Call.run (env : Env) (w : World) : NodeFiles → List Call → Res NodeFiles
  | n, [] => .ok n
  | n, c :: cs =>
    match c.step env w n with
    | .error e => .error e
    | .ok n' => Call.run env w n' cs

/-- the hints in force under the name `h` after a sequence of calls, when `cur` were before: those of the last
`saveLinkHint` with that name (`temp` when no name is given), none after `removeTempLinkHint` -/
def savedUnder (h : Str) : Option (List Action) → List Call → Option (List Action)
  | cur, [] => cur
  | cur, .saveLinkHint (some as) hint :: cs => savedUnder h (if hint.getD c!"temp" = h then some as else cur) cs
  | cur, .removeTempLinkHint hint :: cs => savedUnder h (if hint.getD c!"temp" = h then none else cur) cs
  | cur, _ :: cs => savedUnder h cur cs

/-- the call does not store a document under the name `h` -/
def Call.avoids (env : Env) (h : Str) : Call → Prop
  | .addOne id f _ _ e _ => docUri env f id e ≠ .ok h
  | _ => True

/-- the call is about hints only -/
def Call.ofHints : Call → Prop
  | .addOne .. => False
  | .deleteAll _ => False
  | _ => True

end Spec

open Spec

namespace Node.NodeFiles

/-- the state of one hint name agrees with the hints in force -/
structure HintState (n : NodeFiles) (h : Str) (cur : Option (List Action)) : Prop where
  vars : n.files.variables.get? h = cur.map fun as => as.map actionVariable
  doc : n.files.documents.get? h = none

theorem removeDocument_get (f : LspFiles) (i k : Str) :
    (f.removeDocument i).documents.get? k = (if k = i then none else f.documents.get? k) ∧
    (f.removeDocument i).variables.get? k = (if k = i then none else f.variables.get? k) ∧
    ((f.removeDocument i).trees .template).get? k = (if k = i then none else (f.trees .template).get? k) ∧
    (f.removeDocument i).trees .backend = f.trees .backend ∧
    (f.removeDocument i).codeActions = f.codeActions := by
  simp [LspFiles.removeDocument, HMap.get?_erase]

theorem removeDocuments_get (ks : List Str) (f : LspFiles) (k : Str) :
    (ks.foldl LspFiles.removeDocument f).documents.get? k = (if k ∈ ks then none else f.documents.get? k) ∧
    (ks.foldl LspFiles.removeDocument f).variables.get? k = (if k ∈ ks then none else f.variables.get? k) ∧
    ((ks.foldl LspFiles.removeDocument f).trees .template).get? k = (if k ∈ ks then none else (f.trees .template).get? k) ∧
    (ks.foldl LspFiles.removeDocument f).trees .backend = f.trees .backend ∧
    (ks.foldl LspFiles.removeDocument f).codeActions = f.codeActions := by
  induction ks generalizing f with
  | nil => simp
  | cons i ks ih =>
    obtain ⟨a, b, c, d, e⟩ := ih (f.removeDocument i)
    obtain ⟨a', b', c', d', e'⟩ := removeDocument_get f i k
    simp only [List.foldl_cons]
    rw [a, b, c, d, e, a', b', c', d', e']
    refine ⟨?_, ?_, ?_, rfl, rfl⟩ <;>
    · by_cases h1 : k = i <;> by_cases h2 : k ∈ ks <;> simp [h1, h2]

/-- the documents to be deleted: the stored ones whose name contains `id`, for every hash order -/
theorem mem_deleted (o : HashOrder) (f : LspFiles) (id k : Str) :
    k ∈ ((o.shuffle 8 f.documents.entries).map Prod.fst).filter (fun k => containsSub id k) ↔
      (f.documents.get? k).isSome ∧ ∃ a b, k = a ++ id ++ b := by
  rw [List.mem_filter, containsSub_iff, HMap.get?_isSome_iff, HMap.keys, List.mem_map, List.mem_map]
  simp only [HMap.mem_shuffle]

theorem HintState.step {env : Env} {w : World} {n n' : NodeFiles} {h : Str} {cur : Option (List Action)}
    (hs : HintState n h cur) {c : Call} (hc : c.avoids env h) (hn : c.step env w n = .ok n') :
    HintState n' h (savedUnder h cur [c]) := by
  cases c with
  | addLinkHints u as =>
    cases as <;> (cases hn; exact ⟨hs.vars, hs.doc⟩)
  | saveLinkHint as hint =>
    cases as with
    | none => cases hn; exact ⟨hs.vars, hs.doc⟩
    | some as =>
      cases hn
      refine ⟨?_, hs.doc⟩
      simp only [saveLinkHint, savedUnder, HMap.get?_insert]
      by_cases e : h = hint.getD c!"temp"
      · simp [e]
      · have e' : ¬ hint.getD c!"temp" = h := fun x => e x.symm
        simp only [e, e', if_false]; exact hs.vars
  | removeTempLinkHint hint =>
    cases hn
    refine ⟨?_, hs.doc⟩
    simp only [removeTempLinkHint, savedUnder, HMap.get?_erase]
    by_cases e : h = hint.getD c!"temp"
    · simp [e]
    · have e' : ¬ hint.getD c!"temp" = h := fun x => e x.symm
      simp only [e, e', if_false]; exact hs.vars
  | deleteAll fn =>
    cases hn
    have hm : h ∉ ((w.order.shuffle 8 n.files.documents.entries).map Prod.fst).filter (fun k => containsSub fn k) := by
      rw [mem_deleted, hs.doc]; simp
    refine ⟨?_, ?_⟩
    · simp only [deleteAll, LspFiles.deleteDocumentsWithId]
      rw [(removeDocuments_get _ n.files h).2.1, if_neg hm]; exact hs.vars
    · simp only [deleteAll, LspFiles.deleteDocumentsWithId]
      rw [(removeDocuments_get _ n.files h).1, if_neg hm]; exact hs.doc
  | addOne id fn ct l e col =>
    simp only [Call.avoids] at hc
    simp only [Call.step, Except.map] at hn
    split at hn
    · cases hn
    · rename_i r hr
      cases hn
      unfold addOne at hr
      simp only at hr
      split at hr
      · cases hr
      · rename_i uri hu
        have hne : h ≠ uri := fun e => hc (e ▸ hu)
        split at hr
        · cases hr
        · rename_i f m ho
          have hf := (Frame.didOpen ho).same h hne
          have key : r.1.files = f := by
            repeat' (split at hr)
            all_goals first | (cases hr; rfl) | cases hr
          exact ⟨by rw [key, hf.vars]; exact hs.vars, by rw [key, hf.doc]; exact hs.doc⟩

theorem HintState.run {env : Env} {w : World} {h : Str} (cs : List Call) {n n' : NodeFiles} {cur : Option (List Action)}
    (hs : HintState n h cur) (hc : ∀ c ∈ cs, c.avoids env h) (hn : Call.run env w n cs = .ok n') :
    HintState n' h (savedUnder h cur cs) := by
  induction cs generalizing n cur with
  | nil => cases hn; exact hs
  | cons c cs ih =>
    unfold Call.run at hn
    split at hn
    · cases hn
    · rename_i n1 h1
      have := ih (hs.step (hc c (by simp)) h1) (fun c' h' => hc c' (by simp [h'])) hn
      cases c with
      | saveLinkHint as hint => cases as <;> exact this
      | _ => exact this

/-- variables at the origin, shifted -/
theorem shiftAll_actions (prof : Profile) (line : Nat) (hl : line < 4294967296) (as : List Action) :
    shiftAll prof line (as.map actionVariable) =
      .ok (as.map fun a => ⟨⟨line, 0⟩, ⟨line, 0⟩, a.name, .ofIdType .backendVariable⟩) := by
  have hs : shiftPos prof (toPosition2 Point.zero) line = .ok ⟨line, 0⟩ := by
    have : uadd32 prof 0 line = .ok line := by
      unfold uadd32; simp [hl]
    simp only [shiftPos, toPosition2, Point.zero, toU32]
    simp only [Nat.zero_mod, this]
  induction as with
  | nil => rfl
  | cons a as ih =>
    show (match shiftPos prof (toPosition2 Point.zero) line with
      | .error e => Except.error e
      | .ok s =>
        match shiftPos prof (toPosition2 Point.zero) line with
        | .error e => .error e
        | .ok t =>
          match shiftAll prof line (as.map actionVariable) with
          | .error e => .error e
          | .ok r => .ok ((⟨s, t, a.name, .ofIdType .backendVariable⟩ : JsIdentifier) :: r)) = _
    rw [hs, ih]
    rfl

end Node.NodeFiles

open Node.NodeFiles

/-! ## C57 -/

/-- what `getVariables(h, line)` answers when the hints `as` are in force -/
def Spec.hintAnswer (line : Nat) (cur : Option (List Action)) : Option (List JsIdentifier) :=
  cur.map fun as => as.map fun a => ⟨⟨line, 0⟩, ⟨line, 0⟩, a.name, .ofIdType .backendVariable⟩

/-- **C57** (every sequence of hint calls) After any sequence of `addLinkHints`, `saveLinkHint` and `removeTempLinkHint`,
`getVariables(h)` lists exactly the names of the last `saveLinkHint(h)`, in order, or nothing when there was none or it was
removed since: calls for other names make no difference. -/
theorem C57_hints (env : Env) (w : World) (calls : List Call) (h : Str) (line : Nat) (hl : line < 4294967296)
    (hc : ∀ c ∈ calls, c.ofHints) :
    ∃ n, Call.run env w NodeFiles.new calls = .ok n ∧
      n.getVariables env h line = .ok (hintAnswer line (savedUnder h none calls)) := by
  have hrun : ∀ n : NodeFiles, ∃ n', Call.run env w n calls = .ok n' := by
    clear hl
    induction calls with
    | nil => exact fun n => ⟨n, rfl⟩
    | cons c cs ih =>
      intro n
      have h1 := hc c (by simp)
      have ih := ih (fun c' h' => hc c' (by simp [h']))
      cases c with
      | addOne => exact h1.elim
      | deleteAll => exact h1.elim
      | _ => simp only [Call.run, Call.step]; exact ih _
  obtain ⟨n, hn⟩ := hrun NodeFiles.new
  refine ⟨n, hn, ?_⟩
  have h0 : HintState NodeFiles.new h none := ⟨rfl, rfl⟩
  have := h0.run calls (fun c h' => by have := hc c h'; cases c <;> first | trivial | exact this.elim) hn
  unfold getVariables
  rw [this.vars]
  cases savedUnder h none calls with
  | none => rfl
  | some as => simp only [Option.map_some, shiftAll_actions _ _ hl]; rfl

/-- **C57** (part) The same in every sequence of calls of the whole API that run to the end, when no document is stored under
the hint's name.  Missing: a document of that very name (`C57_same_name_refuted`). -/
theorem C57_session_partial (env : Env) (w : World) (calls : List Call) (n : NodeFiles) (h : Str) (line : Nat)
    (hl : line < 4294967296) (hc : ∀ c ∈ calls, c.avoids env h) (hr : Call.run env w NodeFiles.new calls = .ok n) :
    n.getVariables env h line = .ok (hintAnswer line (savedUnder h none calls)) := by
  have h0 : HintState NodeFiles.new h none := ⟨rfl, rfl⟩
  have := h0.run calls hc hr
  unfold getVariables
  rw [this.vars]
  cases savedUnder h none calls with
  | none => rfl
  | some as => simp only [Option.map_some, shiftAll_actions _ _ hl]; rfl

namespace Fix

/-- save two hints, save under another name, open a template, replace the first ones, delete the other -/
def hintCalls : List Call :=
  [.saveLinkHint (some [⟨c!"user.name", c!"d"⟩, ⟨c!"user", c!"e"⟩]) none,
   .saveLinkHint (some [⟨c!"cart", c!"f"⟩]) (some c!"shop"),
   .addOne 7 c!"f" c!"{{ a }}" 3 c!"jinja" none,
   .saveLinkHint (some [⟨c!"x", c!"g"⟩]) (some c!"temp"),
   .removeTempLinkHint (some c!"shop"),
   .deleteAll c!"f"]

end Fix

/-- not vacuous: the calls run; `temp` has the new name, `shop` nothing -/
example : (∃ n, Call.run Fix.env Fix.world NodeFiles.new Fix.hintCalls = .ok n) ∧
    (∀ c ∈ Fix.hintCalls, c.avoids Fix.env c!"temp") ∧
    hintAnswer 3 (savedUnder c!"temp" none Fix.hintCalls) =
      some [⟨⟨3, 0⟩, ⟨3, 0⟩, c!"x", .ofIdType .backendVariable⟩] ∧
    hintAnswer 3 (savedUnder c!"shop" none Fix.hintCalls) = none := by
  refine ⟨⟨_, rfl⟩, ?_, by decide, by decide⟩
  intro c hc
  simp only [Fix.hintCalls, List.mem_cons, List.not_mem_nil, or_false] at hc
  rcases hc with rfl | rfl | rfl | rfl | rfl | rfl <;> simp [Call.avoids, docUri, Fix.env]

/-- **C57, one call**: the other names keep their variables, their actions and the paths links are made for; the name itself
gets all three together. -/
theorem C57_unit (n : NodeFiles) (as : List Action) (hint : Option Str) (k : Str) :
    let saved := n.saveLinkHint (some as) hint
    let removed := n.removeTempLinkHint hint
    (k = hint.getD c!"temp" →
      (saved.files.variables.get? k).map (·.map Identifier.name) = some (as.map Action.name) ∧
      saved.actions.get? k = some as ∧
      saved.actionObjects.get? k = some (as.map fun a => splitChar '.' a.name) ∧
      removed.files.variables.get? k = none ∧ removed.actions.get? k = none ∧ removed.actionObjects.get? k = none) ∧
    (k ≠ hint.getD c!"temp" → ∀ m, m = saved ∨ m = removed →
      m.files.variables.get? k = n.files.variables.get? k ∧ m.actions.get? k = n.actions.get? k ∧
      m.actionObjects.get? k = n.actionObjects.get? k) := by
  refine ⟨?_, ?_⟩
  · rintro rfl
    simp only [saveLinkHint, removeTempLinkHint, HMap.get?_insert_self, HMap.get?_erase_self, Option.map_some, and_true, true_and,
      List.map_map]
    exact ⟨rfl, rfl⟩
  · rintro hk m (rfl | rfl)
    · simp [saveLinkHint, HMap.get?_insert, hk]
    · simp [removeTempLinkHint, HMap.get?_erase, hk]

example : c!"shop" ≠ (none : Option Str).getD c!"temp" := by decide

theorem insert_insert {K V : Type} [DecidableEq K] (m : HMap K V) (k : K) (a b : V) :
    (m.insert k a).insert k b = m.insert k b := by
  simp [HMap.insert, HMap.erase]

theorem addOne_files {env : Env} {w : World} {n n1 : NodeFiles} {id : Nat} {fn content ext : Str} {line : Nat} {col : Option Nat}
    {links : List JsIdentifier} (h : n.addOne env w id fn content line ext col = .ok (n1, links)) :
    ∃ uri m, docUri env fn id ext = .ok uri ∧
      n.files.didOpen env w uri (List.replicate (col.getD 0) ' ' ++ content) true = .ok (n1.files, m) ∧
      n1.actions = n.actions ∧ n1.actionObjects = n.actionObjects ∧ n1.counter = n.counter := by
  unfold addOne at h
  simp only at h
  split at h
  · cases h
  · rename_i uri hu
    split at h
    · cases h
    · rename_i f m ho
      refine ⟨uri, m, hu, ?_⟩
      rw [ho]
      repeat' (split at h)
      all_goals first | (cases h; exact ⟨rfl, rfl, rfl, rfl⟩) | cases h

/-- **C57 is false for a hint named like a document**: once a template of that URI is opened, the variables under the name are
the same whichever hints were saved, so they cannot be the saved names. -/
theorem C57_same_name_refuted (env : Env) (w : World) (n n1 n2 : NodeFiles) (as bs : List Action) (uri : Str) (id : Nat)
    (fn content ext : Str) (line : Nat) (col : Option Nat) (l1 l2 : List JsIdentifier) (hu : docUri env fn id ext = .ok uri)
    (hx : fileExt uri ≠ none)
    (ha : (n.saveLinkHint (some as) (some uri)).addOne env w id fn content line ext col = .ok (n1, l1))
    (hb : (n.saveLinkHint (some bs) (some uri)).addOne env w id fn content line ext col = .ok (n2, l2)) :
    n1.getVariables env uri line = n2.getVariables env uri line := by
  obtain ⟨u1, m1, e1, o1, -⟩ := addOne_files ha
  obtain ⟨u2, m2, e2, o2, -⟩ := addOne_files hb
  rw [hu] at e1 e2
  cases e1; cases e2
  have key : ∀ as : List Action, (saveLinkHint n (some as) (some uri)).files.deleteVariables uri =
      { n.files with variables := n.files.variables.insert uri [] } := by
    intro as
    have : (saveLinkHint n (some as) (some uri)).files.variables.get? uri = some (as.map actionVariable) := by
      simp [saveLinkHint]
    unfold LspFiles.deleteVariables
    rw [this]
    simp only [saveLinkHint, Option.getD_some, insert_insert]
  have : n1.files = n2.files := by
    unfold LspFiles.didOpen at o1 o2
    cases hx' : fileExt uri with
    | none => exact (hx hx').elim
    | some lang =>
      rw [hx'] at o1 o2
      simp only [key, if_true] at o1 o2
      split at o1
      · cases o1
      · rename_i f h3
        rw [h3] at o2
        simp only [Except.ok.injEq, Prod.mk.injEq] at o1 o2
        rw [← o1.1, ← o2.1]
  simp only [getVariables, this]

/-- the hypotheses hold, with different names -/
example : docUri Fix.env c!"f" 7 c!"jinja" = .ok c!"file:///home/f.7.jinja" ∧
    fileExt c!"file:///home/f.7.jinja" ≠ none ∧
    (∃ n1 links, (NodeFiles.new.saveLinkHint (some [⟨c!"x", c!"g"⟩]) (some c!"file:///home/f.7.jinja")).addOne Fix.env Fix.world
      7 c!"f" c!"{{ a }}" 3 c!"jinja" none = .ok (n1, links)) ∧
    (∃ n1 links, (NodeFiles.new.saveLinkHint (some [⟨c!"y", c!"g"⟩]) (some c!"file:///home/f.7.jinja")).addOne Fix.env Fix.world
      7 c!"f" c!"{{ a }}" 3 c!"jinja" none = .ok (n1, links)) := by
  refine ⟨rfl, by decide, ⟨_, _, rfl⟩, ⟨_, _, rfl⟩⟩

/-! ## C60 -/

/-- **C60** (part) After `deleteAll(f)`, for every state and hash order: no document whose name contains `f` remains, and
with each such document its template tree and its variables are gone; every other document, and the trees and variables of
every name that is not such a document, are unchanged.  Missing: trees of backend files (`C60_backend_tree_refuted`) and
variables without a document, that is, hints (`C60_hint_refuted`). -/
theorem C60_delete_partial (o : HashOrder) (n : NodeFiles) (f k : Str) :
    let m := n.deleteAll o f
    ((∃ a b, k = a ++ f ++ b) → m.files.documents.get? k = none) ∧
    ((∃ a b, k = a ++ f ++ b) → n.files.documents.get? k ≠ none →
      (m.files.trees .template).get? k = none ∧ m.files.variables.get? k = none) ∧
    ((¬ ∃ a b, k = a ++ f ++ b) → m.files.documents.get? k = n.files.documents.get? k) ∧
    ((¬ ∃ a b, k = a ++ f ++ b) ∨ n.files.documents.get? k = none →
      (m.files.trees .template).get? k = (n.files.trees .template).get? k ∧
      m.files.variables.get? k = n.files.variables.get? k) ∧
    m.files.trees .backend = n.files.trees .backend ∧ m.files.codeActions = n.files.codeActions ∧
    m.actions = n.actions ∧ m.actionObjects = n.actionObjects := by
  simp only [deleteAll, LspFiles.deleteDocumentsWithId]
  obtain ⟨a, b, c, d, e⟩ := removeDocuments_get
    (((o.shuffle 8 n.files.documents.entries).map Prod.fst).filter (fun k => containsSub f k)) n.files k
  have hm := mem_deleted o n.files f k
  rw [a, b, c, d, e]
  refine ⟨?_, ?_, ?_, ?_, rfl, rfl, trivial, trivial⟩
  · intro hk
    split
    · rfl
    · next h =>
      rw [hm] at h
      cases hd : n.files.documents.get? k with
      | none => rfl
      | some x => exact (h ⟨by simp [hd], hk⟩).elim
  · intro hk hd
    have : k ∈ ((o.shuffle 8 n.files.documents.entries).map Prod.fst).filter (fun k => containsSub f k) := by
      rw [hm]; exact ⟨by simpa [Option.isSome_iff_ne_none] using hd, hk⟩
    simp only [this, if_true, and_self]
  · intro hk
    rw [if_neg (fun h => hk (hm.mp h).2)]
  · intro hk
    have : k ∉ ((o.shuffle 8 n.files.documents.entries).map Prod.fst).filter (fun k => containsSub f k) := by
      rw [hm]
      rintro ⟨h1, h2⟩
      rcases hk with hk | hk
      · exact hk h2
      · rw [hk] at h1; cases h1
    simp only [this, if_false, and_self]

/-- not vacuous: of two stored templates one contains `a.html` -/
example : (∃ a b, Fix.uriA = a ++ c!"a.html" ++ b) ∧ Fix.files.documents.get? Fix.uriA ≠ none ∧
    (¬ ∃ a b, Fix.uriB = a ++ c!"a.html" ++ b) := by
  refine ⟨⟨c!"file:///", [], rfl⟩, by decide, ?_⟩
  rw [← containsSub_iff]
  decide

/-- **C60 is false for trees of backend files**: every one of them survives, with whatever name. -/
theorem C60_backend_tree_refuted (o : HashOrder) (n : NodeFiles) (f k : Str) (t : Tree)
    (ht : (n.files.trees .backend).get? k = some t) : ((n.deleteAll o f).files.trees .backend).get? k = some t := by
  rw [(C60_delete_partial o n f k).2.2.2.2.1]; exact ht

/-- a state with such a tree: after `addOne` of a Python file -/
example : ∃ n ls, NodeFiles.new.addOne Fix.env Fix.world 7 c!"f" c!"a = 1" 0 c!"py" none = .ok (n, ls) ∧
    ∃ t, (n.files.trees .backend).get? c!"file:///home/f.7.py" = some t ∧
      ∃ a b, c!"file:///home/f.7.py" = a ++ c!"f.7" ++ b := by
  refine ⟨_, _, rfl, _, rfl, c!"file:///home/", c!".py", rfl⟩

/-- **C60 is false for hints**: variables saved under a name that contains `f` stay when no document has that name. -/
theorem C60_hint_refuted (o : HashOrder) (n : NodeFiles) (f h : Str) (as : List Action)
    (hd : n.files.documents.get? h = none) :
    ((n.saveLinkHint (some as) (some h)).deleteAll o f).files.variables.get? h = some (as.map actionVariable) := by
  rw [((C60_delete_partial o (n.saveLinkHint (some as) (some h)) f h).2.2.2.1 (Or.inr hd)).2]
  simp [saveLinkHint]

example : NodeFiles.new.files.documents.get? c!"temp" = none ∧ ∃ a b, c!"temp" = a ++ c!"em" ++ b := ⟨rfl, c!"t", c!"p", rfl⟩

end JinjaLsp
