import Verif.Props.Others
import Verif.Props.Fixes
/-
  C114: a larger workspace never means more errors.
-/

namespace JinjaLsp
open Spec

namespace Spec

/-- the report about a use of a name is the same, or it says "defined somewhere" instead of "undefined" -/
def Softer (d d' : JinjaDiagnostic × Identifier) : Prop := d'.2 = d.2 ∧ (d'.1 = d.1 ∨ d.1 = .undefined ∧ d'.1 = .definedSomewhere)

/-- The reports about uses of names are the same or milder, one by one, and those about missing templates are some of the earlier ones. -/
def NoWorse (ds ds' : Diags) : Prop :=
  Each Softer (ds.filter fun d => d.1 ≠ .templateNotFound) (ds'.filter fun d => d.1 ≠ .templateNotFound) ∧
    ∃ l : Diags, l.Perm (ds'.filter fun d => d.1 = .templateNotFound) ∧ l.Sublist (ds.filter fun d => d.1 = .templateNotFound)

/-- every name known in a file other than `uri` in `f` is known in one in `g` -/
def KnowsMore (uri : Str) (f g : LspFiles) : Prop :=
  ∀ u vs, u ≠ uri → f.variables.get? u = some vs → ∀ v ∈ vs, ∃ u' vs', u' ≠ uri ∧ g.variables.get? u' = some vs' ∧ ∃ v' ∈ vs', v'.name = v.name

/-- nothing that is in the first file system is missing in the second one -/
def HasMore (w w' : World) : Prop := ∀ p, w'.canonicalize p = .error .notFound → w.canonicalize p = .error .notFound

/-- the documents are opened one after another, each of them once, none of them is `uri`, and nothing was known about them -/
def NewlyOpened (uri : Str) (s : Server) (h : List (World × Msg)) : Prop :=
  ∃ us : List Str, us.Nodup ∧ uri ∉ us ∧ (∀ u ∈ us, s.files.variables.get? u = none) ∧
    Each (fun (e : World × Msg) u => ∃ text, e.2 = .didOpen u text) h us

end Spec

/-! ### What is recorded does not depend on the file system -/

theorem didOpen_files {env : Env} {w : World} (w' : World) {f g : LspFiles} {n c : Str} {o : Option (HMap Str Diags)}
    (h : f.didOpen env w n c false = .ok (g, o)) : ∃ o', f.didOpen env w' n c false = .ok (g, o') := by
  unfold LspFiles.didOpen at h ⊢
  split at h
  · cases h; exact ⟨_, rfl⟩
  · simp only [Bool.false_eq_true, if_false] at h ⊢
    split at h
    · cases h
    · rename_i f3 _
      obtain ⟨v, hv⟩ := readTree_ok env w' f3 n
      rw [hv]
      split at h
      · cases h
      · cases h; cases v <;> exact ⟨_, rfl⟩
      · cases h; cases v <;> exact ⟨_, rfl⟩

theorem didSave_files {env : Env} {w : World} (w' : World) {f g : LspFiles} {n : Str} {o : Option (HMap Str Diags)}
    (h : f.didSave env w n = .ok (g, o)) : ∃ o', f.didSave env w' n = .ok (g, o') := by
  unfold LspFiles.didSave at h ⊢
  split at h
  · cases h; exact ⟨_, rfl⟩
  · split at h
    · cases h; exact ⟨_, rfl⟩
    · split at h
      · cases h
      · rename_i f3 _
        obtain ⟨v, hv⟩ := readTree_ok env w' f3 n
        rw [hv]
        split at h
        · cases h
        · cases h; cases v <;> exact ⟨_, rfl⟩
        · cases h; cases v <;> exact ⟨_, rfl⟩

/-- the next state after a document is opened or saved is the same in each file system -/
theorem analyses_files {env : Env} {w : World} (w' : World) {s s' : Server} {uri : Str} {m : Msg} (hm : m.Analyses uri) {out : List Send}
    {r : Reply} (h : s.handle env w m = .ok (s', out, r)) : ∃ out', s.handle env w' m = .ok (s', out', r) := by
  cases hm with
  | opened text =>
    simp only [Server.handle] at h ⊢
    split at h
    · cases h
    · rename_i hf
      cases h
      obtain ⟨o', ho⟩ := didOpen_files w' hf
      rw [ho]
      exact ⟨_, rfl⟩
  | saved =>
    simp only [Server.handle] at h ⊢
    split at h
    · cases h
    · rename_i hf
      cases h
      obtain ⟨o', ho⟩ := didSave_files w' hf
      rw [ho]
      exact ⟨_, rfl⟩

/-- servers that agree about a document agree about it after it is opened or saved -/
theorem analyses_agree {env : Env} {w : World} {s s' t : Server} {uri : Str} {m : Msg} (hm : m.Analyses uri) {out : List Send}
    {r : Reply} (ha : AsOne uri s.files t.files) (h : s.handle env w m = .ok (s', out, r)) :
    ∃ t' out', t.handle env w m = .ok (t', out', r) ∧ AsOne uri s'.files t'.files := by
  have hw : SameDisk w w := ⟨rfl, rfl, rfl⟩
  cases hm with
  | opened text =>
    simp only [Server.handle] at h ⊢
    split at h
    · cases h
    · rename_i hf
      cases h
      have := ha.didOpen (env := env) hw text
      rw [hf] at this
      split
      · rename_i hg; rw [hg] at this; exact this.elim
      · rename_i hg; rw [hg] at this; exact ⟨_, _, rfl, this.1⟩
  | saved =>
    simp only [Server.handle] at h ⊢
    split at h
    · cases h
    · rename_i hf
      cases h
      have := ha.didSave (env := env) hw
      rw [hf] at this
      split
      · rename_i hg; rw [hg] at this; exact this.elim
      · rename_i hg; rw [hg] at this; exact ⟨_, _, rfl, this.1⟩

/-! ### The reports -/

theorem refsIn_order (env : Env) (o o' : HashOrder) (tree : Tree) (text : Str) : (refsIn env o tree text).Perm (refsIn env o' tree text) := by
  unfold refsIn JinjaImports.collect
  exact ((shuffle_perm o o' 0 _).flatMap_right _).filter _

theorem softer_uses {o o' : HashOrder} {V V' : Variables} {vars : List Identifier} {ig : Bool}
    (hk : ∀ n, n ∈ knownNames V → n ∈ knownNames V') : ∀ us : List JinjaObject,
    Each Softer (us.filterMap (objectDiag o V vars ig)) (us.filterMap (objectDiag o' V' vars ig))
  | [] => .nil
  | u :: us => by
    have ih := softer_uses (o := o) (o' := o') (vars := vars) (ig := ig) hk us
    cases ig with
    | true => simpa [List.filterMap_cons, objectDiag_ignore] using ih
    | false =>
      rw [List.filterMap_cons, List.filterMap_cons, objectDiag_eq, objectDiag_eq]
      by_cases h1 : u.info.filter = true ∨ u.info.test = true
      · simp only [verdict, if_pos h1]; exact ih
      by_cases h2 : ∃ b ∈ vars.map Identifier.binding, b.VisibleAt u.info
      · simp only [verdict, if_neg h1, if_pos h2]; exact ih
      by_cases h3 : ∃ b ∈ vars.map Identifier.binding, b.name = u.info.name ∧ b.kind ≠ .templateBlock
      · simp only [verdict, if_neg h1, if_neg h2, if_pos h3]; exact .cons ⟨rfl, .inl rfl⟩ ih
      by_cases h4 : u.info.name ∈ knownNames V
      · simp only [verdict, if_neg h1, if_neg h2, if_neg h3, if_pos h4, if_pos (hk _ h4)]; exact .cons ⟨rfl, .inl rfl⟩ ih
      by_cases h5 : u.info.name ∈ knownNames V'
      · simp only [verdict, if_neg h1, if_neg h2, if_neg h3, if_neg h4, if_pos h5]; exact .cons ⟨rfl, .inr ⟨rfl, rfl⟩⟩ ih
      · simp only [verdict, if_neg h1, if_neg h2, if_neg h3, if_neg h4, if_neg h5]; exact .cons ⟨rfl, .inl rfl⟩ ih

theorem fewer_missing {w w' : World} (hw : HasMore w w') (dir : Str) : ∀ is : List Identifier,
    (is.filterMap (importDiag w' dir)).Sublist (is.filterMap (importDiag w dir))
  | [] => .slnil
  | i :: is => by
    have ih := fewer_missing hw dir is
    rw [List.filterMap_cons, List.filterMap_cons, importDiag_eq, importDiag_eq]
    by_cases h : i.name = [] ∨ Absent w' dir i.name
    · have h' : i.name = [] ∨ Absent w dir i.name := h.imp id (fun h => hw _ h)
      rw [if_pos h, if_pos h']
      exact ih.cons_cons _
    · rw [if_neg h]
      by_cases h' : i.name = [] ∨ Absent w dir i.name
      · rw [if_pos h']; exact ih.cons _
      · rw [if_neg h']; exact ih

theorem knows_more {uri : Str} {f g f' g' : LspFiles} {vars : List Identifier} (hk : KnowsMore uri f g) (hf : Frame uri f f') (hg : Frame uri g g')
    (hv : f'.variables.get? uri = some vars) (hv' : g'.variables.get? uri = some vars) (n : Str) (hn : n ∈ knownNames f'.variables) :
    n ∈ knownNames g'.variables := by
  rw [known_after hf hv, List.mem_append, mem_knownElsewhere] at hn
  rw [known_after hg hv', List.mem_append, mem_knownElsewhere]
  refine hn.imp id ?_
  rintro ⟨u, vs, hu, hvs, v, hvm, rfl⟩
  exact hk u vs hu hvs v hvm

/-! ## C114 -/

/-- **C114** Two servers hold the same for a template, and the same settings. In the second one other files have all names they have in the
first, and all files of the first file system are there. Then the template is reported to have no more errors than in the first. -/
theorem C114_reports (env : Env) (w w' : World) (s s' t : Server) (uri : Str) (m : Msg) (ds : Diags) (r : Reply)
    (hext : fileExt uri = some .template) (hm : m.Analyses uri) (ha : AsOne uri s.files t.files) (hk : KnowsMore uri s.files t.files)
    (hw : HasMore w w') (h : s.handle env w m = .ok (s', [.diag (HMap.empty.insert uri ds)], r)) :
    ∃ t' ds', t.handle env w' m = .ok (t', [.diag (HMap.empty.insert uri ds')], r) ∧ NoWorse ds ds' := by
  obtain ⟨t', o₁, h₁, hb⟩ := analyses_agree hm ha h
  obtain ⟨o₂, h₂⟩ := analyses_files w' hm h₁
  rcases analyses_inv hm hext h rfl with hr | ⟨hr, rfl⟩
  · obtain ⟨text, tree, vars, hd, ht, hv, rfl⟩ := readTree_inv hext hr
    have hd' := hb.doc.doc.trans hd
    have ht' := (hb.doc.tree .template).trans ht
    have hv' := hb.doc.vars.trans hv
    have hf := (analyses_template hm hext h hd ht hv).2
    obtain ⟨ho, hg⟩ := analyses_template hm hext h₂ hd' ht' hv'
    refine ⟨t', _, ho ▸ h₂, ?_, ?_⟩
    · rw [templateDiags_uses, templateDiags_uses, hb.conf.ign]
      exact softer_uses (knows_more hk hf hg hv hv') _
    · rw [templateDiags_refs, templateDiags_refs, hb.conf.conf]
      exact ⟨_, (refsIn_order env w.order w'.order tree text).filterMap _, fewer_missing hw _ _⟩
  · -- nothing is recorded, nothing is read
    have hn : ∀ (w : World), s'.files.readTree env w uri = .ok none ∧ t'.files.readTree env w uri = .ok none := by
      intro w₁
      cases hd : s'.files.documents.get? uri with
      | none =>
        refine ⟨?_, ?_⟩ <;> unfold LspFiles.readTree
        · rw [hd]
        · rw [hb.doc.doc, hd]
      | some text =>
        cases ht : (s'.files.trees .template).get? uri with
        | none =>
          refine ⟨?_, ?_⟩ <;> unfold LspFiles.readTree
          · simp only [hd, hext, ht]
          · simp only [hb.doc.doc, hd, hext, hb.doc.tree, ht]
        | some tree =>
          cases hv : s'.files.variables.get? uri with
          | none => exact ⟨readTree_template_none hext hv, readTree_template_none hext (hb.doc.vars.trans hv)⟩
          | some vars => rw [readTree_template hext hd ht hv] at hr; cases hr
    refine ⟨t', [], ?_, .nil, [], .nil, List.Sublist.slnil⟩
    cases hm with
    | opened text =>
      simp only [Server.handle] at h
      split at h
      · cases h
      · rename_i f msg hf
        simp only [Except.ok.injEq, Prod.mk.injEq] at h
        obtain ⟨rfl, h, _⟩ := h
        obtain ⟨_, v, h2, h3⟩ := LspFiles.didOpen_inv hext hf
        rw [(hn w).1] at h2
        cases h2
        rw [h3] at h
        cases h
    | saved =>
      simp only [Server.handle] at h h₂ ⊢
      split at h
      · cases h
      · rename_i f msg hf
        simp only [Except.ok.injEq, Prod.mk.injEq] at h
        obtain ⟨rfl, h, _⟩ := h
        cases hd : s.files.documents.get? uri with
        | none =>
          unfold LspFiles.didSave at hf
          simp only [hext, hd] at hf
          cases hf; cases h
        | some c =>
          split at h₂
          · cases h₂
          · rename_i g msg' hg
            obtain ⟨_, v, h2, h3⟩ := LspFiles.didSave_inv hext (ha.doc.doc.trans hd) hg
            simp only [Except.ok.injEq, Prod.mk.injEq] at h₂
            obtain ⟨rfl, _, rfl⟩ := h₂
            rw [(hn w').2] at h2
            cases h2
            rw [h3]
            rfl

/-- a workspace in which new documents were opened knows more -/
theorem newly_opened {env : Env} {uri : Str} : ∀ {s t : Server} {h : List (World × Msg)}, NewlyOpened uri s h → s.run env h = .ok t →
    AsOne uri s.files t.files ∧ KnowsMore uri s.files t.files
  | s, t, [], _, hr => by
    cases hr
    exact ⟨.refl _ _, fun u vs hu hg v hv => ⟨u, vs, hu, hg, v, hv, rfl⟩⟩
  | s, t, e :: h, ⟨us, hnd, hu, hnone, heach⟩, hr => by
    cases heach with
    | cons he hrest =>
      rename_i u us
      obtain ⟨w, m⟩ := e
      obtain ⟨text, rfl⟩ := he
      rw [Server.run] at hr
      split at hr
      · cases hr
      · rename_i s₁ _ _ h₁
        simp only at h₁
        have hframe : Frame u s.files s₁.files := by
          simp only [Server.handle] at h₁
          split at h₁
          · cases h₁
          · rename_i hf
            cases h₁
            exact Frame.didOpen hf
        simp only [List.mem_cons, not_or] at hu
        rw [List.nodup_cons] at hnd
        obtain ⟨ha, hk⟩ := newly_opened (s := s₁) ⟨us, hnd.2, hu.2, fun v hv => by
          rw [(hframe.same v (fun e => hnd.1 (e ▸ hv))).vars]; exact hnone v (List.mem_cons_of_mem _ hv), hrest⟩ hr
        refine ⟨AsOne.trans ⟨hframe.same uri hu.1, hframe.conf⟩ ha, fun v vs hv hg => ?_⟩
        refine hk v vs hv ?_
        rw [(hframe.same v (fun e => ?_)).vars, hg]
        rw [e, hnone u (List.mem_cons_self ..)] at hg
        cases hg

/-- **C114** Opening documents that were not known before, and adding files to the disk, never adds errors to a template. -/
theorem C114_opened (env : Env) (w w' : World) (s s' t : Server) (h : List (World × Msg)) (uri : Str) (m : Msg) (ds : Diags) (r : Reply)
    (hext : fileExt uri = some .template) (hm : m.Analyses uri) (hh : NewlyOpened uri s h) (hrun : s.run env h = .ok t) (hw : HasMore w w')
    (hs : s.handle env w m = .ok (s', [.diag (HMap.empty.insert uri ds)], r)) :
    ∃ t' ds', t.handle env w' m = .ok (t', [.diag (HMap.empty.insert uri ds')], r) ∧ NoWorse ds ds' :=
  let ⟨ha, hk⟩ := newly_opened hh hrun
  C114_reports env w w' s s' t uri m ds r hext hm ha hk hw hs

/-! ### An instance -/

namespace Fix

/-- a template that uses names and includes a template, and one that defines names -/
def growEnv : Env :=
  { apartEnv with
    queryMatches := fun q tree text => match q with
      | .jinjaImports => if text = c!"aaa" then impCaps else []
      | _ => apartEnv.queryMatches q tree text }

def growServer : Server := { Server.init with files := { Server.init.files with config := { JinjaConfig.default with templates := c!"/t" } } }

def growStart : List (World × Msg) := [(gapWorld, .didOpen uriT c!"aaa")]

def growDay : List (World × Msg) := [(gapWorld, .didOpen uriU c!"bbb")]

theorem gap_more : HasMore gapWorld rootWorld := by
  intro p h
  simp only [gapWorld]
  split
  · rfl
  · exact h

end Fix

/-- A template is open. Then another one is opened and the included one is created: four uses were undefined and a template was missing; now
the name of two of them is known elsewhere, and nothing is missing. -/
example : ∃ s t s' t' ds ds' r, Fix.growServer.run Fix.growEnv Fix.growStart = .ok s ∧ s.run Fix.growEnv Fix.growDay = .ok t ∧
    fileExt Fix.uriT = some .template ∧ (Msg.didSave Fix.uriT).Analyses Fix.uriT ∧ NewlyOpened Fix.uriT s Fix.growDay ∧
    HasMore Fix.gapWorld Fix.rootWorld ∧ s.handle Fix.growEnv Fix.gapWorld (.didSave Fix.uriT) = .ok (s', [.diag (HMap.empty.insert Fix.uriT ds)], r) ∧
    t.handle Fix.growEnv Fix.rootWorld (.didSave Fix.uriT) = .ok (t', [.diag (HMap.empty.insert Fix.uriT ds')], r) ∧
    ds.map (fun d => (d.1, d.2.name)) = [(.undefined, c!"i"), (.undefined, c!"i"), (.undefined, c!"q"), (.undefined, c!"z"), (.templateNotFound, c!"x.html")] ∧
    ds'.map (fun d => (d.1, d.2.name)) = [(.definedSomewhere, c!"i"), (.definedSomewhere, c!"i"), (.undefined, c!"q"), (.undefined, c!"z")] :=
  ⟨_, _, _, _, _, _, _, rfl, rfl, rfl, .saved,
    ⟨[Fix.uriU], by decide, by decide, by simp only [List.mem_singleton, forall_eq]; rfl, .cons ⟨_, rfl⟩ .nil⟩, Fix.gap_more, rfl, rfl, rfl, rfl⟩

end JinjaLsp
