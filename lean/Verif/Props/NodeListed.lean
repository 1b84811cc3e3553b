import Verif.Props.Listed
import Verif.Props.NodeSettles
/-
  C142: goto-definition of the Node API leads to variables that get_variables lists.
-/

namespace JinjaLsp
open Node Spec NodeFiles

/-- a single place of goto-definition: the beginning of a file, or a variable recorded for the document -/
theorem goto_scalar {env : Env} {w : World} {f : LspFiles} {uri : Str} {pos : Position} {l : Location}
    (h : f.gotoDefinition env w uri pos = .ok (some (.scalar l))) :
    l.range = Range.zero ∨ ∃ tree text objects vs, (f.trees .template).get? uri = some tree ∧ f.documents.get? uri = some text ∧
      objectsQuery env tree (toPoint pos) text false = .ok objects ∧ f.variables.get? uri = some vs ∧
      ∃ v ∈ vs, objects.isIdent (toPoint pos) = some v.name ∧ l = ⟨uri, ⟨toPosition2 v.start, toPosition2 v.stop⟩⟩ := by
  unfold LspFiles.gotoDefinition at h
  split at h
  · cases h
  · rename_i lang _
    dsimp only at h
    split at h
    · rename_i tree text ht hd
      cases lang with
      | backend =>
        dsimp only at h
        split at h
        · cases h
        · injection h with h
          exact .inl (template_zero h l List.mem_cons_self)
      | template =>
        dsimp only at h
        split at h
        · cases h
        · rename_i objects ho
          split at h
          · rename_i r' hloc
            cases h
            cases hid : objects.isIdent (toPoint pos) with
            | none => rw [hid] at hloc; cases hloc
            | some n =>
              rw [hid, Option.bind_some] at hloc
              unfold LspFiles.localDefinition at hloc
              split at hloc
              · cases hloc
              · rename_i vs hv
                split at hloc
                · cases hloc
                · rename_i m hm
                  cases hloc
                  obtain ⟨h1, h2⟩ := List.mem_filter.mp (iterMax_some hm).1
                  simp only [Bool.and_eq_true, decide_eq_true_eq] at h2
                  exact .inr ⟨tree, text, objects, vs, ht, hd, ho, hv, m, h1, by rw [hid, h2.1.1], rfl⟩
          · split at h
            · rename_i r' htl
              cases h
              obtain ⟨i, _, hi⟩ := Option.bind_eq_some_iff.mp htl
              exact .inl (template_zero hi l List.mem_cons_self)
            · split at h <;> cases h
    · cases h

theorem shiftAll_mem {prof : Profile} {line : Nat} {v : Identifier} {r : Range} (hr : shiftRange prof ⟨toPosition2 v.start, toPosition2 v.stop⟩ line = .ok r) :
    ∀ {vs : List Identifier} {js : List JsIdentifier}, shiftAll prof line vs = .ok js → v ∈ vs → ∃ j ∈ js, j.start = r.start ∧ j.stop = r.stop ∧ j.name = v.name
  | x :: vs, js, h, hv => by
    unfold shiftAll at h
    split at h
    · cases h
    · rename_i a ha
      split at h
      · cases h
      · rename_i b hb
        split at h
        · cases h
        · rename_i rest hrest
          cases h
          rcases List.mem_cons.mp hv with rfl | hv
          · simp only [shiftRange, ha, hb] at hr
            cases hr
            exact ⟨_, List.mem_cons_self, rfl, rfl, rfl⟩
          · obtain ⟨j, h1, h2⟩ := shiftAll_mem hr hrest hv
            exact ⟨j, List.mem_cons_of_mem _ h1, h2⟩

theorem backend_places {env : Env} {line : Nat} : ∀ {ls : List Location} {js : List JsLocation}, shiftLocations env line ls = .ok js → ∀ j ∈ js, j.isBackend = true
  | [], js, h => by cases h; simp
  | l :: ls, js, h => by
    unfold shiftLocations at h
    split at h
    · split at h
      · cases h
      · split at h
        · cases h
        · split at h
          · cases h
          · rename_i hrest
            cases h
            intro j hj
            rcases List.mem_cons.mp hj with rfl | hj
            · rfl
            · exact backend_places hrest j hj
    · exact backend_places h

/-- places in the host document -/
theorem node_goto_cases {env : Env} {w : World} {n : NodeFiles} {id line : Nat} {fn uri : Str} {pos : Position} {ls : List JsLocation}
    (hu : docUri env fn id c!"jinja" = .ok uri) (h : n.gotoDefinition env w id fn line pos = .ok (some ls)) :
    ∀ l ∈ ls, l.isBackend = false → ∃ k loc, usub32 env.profile pos.line line = .ok k ∧
      n.files.gotoDefinition env w uri ⟨k, pos.character⟩ = .ok (some (.scalar loc)) ∧ shiftRange env.profile loc.range line = .ok l.range := by
  unfold NodeFiles.gotoDefinition at h
  split at h
  · cases h
  · rename_i k hk
    rw [hu] at h
    dsimp only at h
    split at h
    · cases h
    · cases h
    · rename_i loc hg
      split at h
      · split at h
        · cases h
        · split at h
          · cases h
          · rename_i r hr
            cases h
            intro l hl _
            cases List.mem_singleton.mp hl
            exact ⟨k, loc, hk, hg, hr⟩
      · cases h
        intro l hl; cases hl
    · split at h
      · cases h
      · rename_i r hr
        cases h
        intro l hl hb
        rw [backend_places hr l hl] at hb
        cases hb

theorem shift_zero {prof : Profile} {line : Nat} (hl : line < 4294967296) {r : Range} (h : shiftRange prof Range.zero line = .ok r) :
    r = ⟨⟨line, 0⟩, ⟨line, 0⟩⟩ := by
  have : shiftPos prof ⟨0, 0⟩ line = .ok ⟨line, 0⟩ := by
    simp [shiftPos, uadd32, hl]
  have e : (Range.zero : Range) = ⟨⟨0, 0⟩, ⟨0, 0⟩⟩ := rfl
  rw [e] at h
  simp only [shiftRange, this] at h
  cases h
  rfl

/-! ## C142 -/

/-- **C142** In every state, from every cursor position: each place in the host document that goto_definition answers with is the beginning of
the line where the template begins (for the name of a template), or the range of a variable that get_variables lists for the template. -/
theorem C142_listed (env : Env) (w : World) (n : NodeFiles) (id line : Nat) (fn uri : Str) (pos : Position) (ls : List JsLocation) (js : Option (List JsIdentifier))
    (hline : line < 4294967296) (hu : docUri env fn id c!"jinja" = .ok uri) (h : n.gotoDefinition env w id fn line pos = .ok (some ls))
    (hg : n.getVariables env uri line = .ok js) :
    ∀ l ∈ ls, l.isBackend = false → l.range = ⟨⟨line, 0⟩, ⟨line, 0⟩⟩ ∨ ∃ vs, js = some vs ∧ ∃ j ∈ vs, j.start = l.range.start ∧ j.stop = l.range.stop := by
  intro l hl hb
  obtain ⟨k, loc, _, hgo, hr⟩ := node_goto_cases hu h l hl hb
  rcases goto_scalar hgo with e | ⟨_, _, _, vs, _, _, _, hv, v, hm, _, rfl⟩
  · rw [e] at hr
    exact .inl (shift_zero hline hr)
  · unfold NodeFiles.getVariables at hg
    rw [hv] at hg
    dsimp only at hg
    split at hg
    · cases hg
    · rename_i a ha
      cases hg
      obtain ⟨j, h1, h2, h3, _⟩ := shiftAll_mem hr ha hm
      exact .inr ⟨_, rfl, j, h1, h2, h3⟩

/-- **C142** (release builds) In release builds get_variables always answers, so the variable is listed. -/
theorem C142_release (env : Env) (hrel : env.profile = .release) (w : World) (n : NodeFiles) (id line : Nat) (fn uri : Str) (pos : Position) (ls : List JsLocation)
    (hline : line < 4294967296) (hu : docUri env fn id c!"jinja" = .ok uri) (h : n.gotoDefinition env w id fn line pos = .ok (some ls)) :
    ∀ l ∈ ls, l.isBackend = false → l.range = ⟨⟨line, 0⟩, ⟨line, 0⟩⟩ ∨
      ∃ vs, n.getVariables env uri line = .ok (some vs) ∧ ∃ j ∈ vs, j.start = l.range.start ∧ j.stop = l.range.stop := by
  have hpos : ∀ p, ∃ q, shiftPos env.profile p line = .ok q := by
    intro p
    unfold shiftPos uadd32
    rw [hrel]
    by_cases e : p.line + line < 4294967296
    · exact ⟨_, by rw [if_pos e]⟩
    · exact ⟨_, by rw [if_neg e]⟩
  have hall : ∀ vs, ∃ js, shiftAll env.profile line vs = .ok js := by
    intro vs
    induction vs with
    | nil => exact ⟨_, rfl⟩
    | cons v vs ih =>
      obtain ⟨a, ha⟩ := hpos (toPosition2 v.start)
      obtain ⟨b, hb⟩ := hpos (toPosition2 v.stop)
      obtain ⟨js, hjs⟩ := ih
      exact ⟨_, by simp only [shiftAll, ha, hb, hjs]; rfl⟩
  have hget : ∃ js, n.getVariables env uri line = .ok js := by
    unfold NodeFiles.getVariables
    split
    · exact ⟨_, rfl⟩
    · rename_i vs _
      obtain ⟨js, hjs⟩ := hall vs
      exact ⟨_, by rw [hjs]⟩
  obtain ⟨js, hjs⟩ := hget
  intro l hl hb
  rcases C142_listed env w n id line fn uri pos ls js hline hu h hjs l hl hb with e | ⟨vs, e, hv⟩
  · exact .inl e
  · exact .inr ⟨vs, e ▸ hjs, hv⟩

/-- **C142** (names) With the cursor of the host document on a name of the template, the listed variable has that name. -/
theorem C142_named {env : Env} {sx : Syntax} {w : World} {calls : List Call} {n : NodeFiles} {id : Nat} {fn uri host above margin content below : Str}
    {line : Nat} {col : Option Nat} {root : Syn} {last : Point} {is : List Item} {es : List Elem}
    (h : HostedItems env sx w calls n id fn uri host above margin content below line col root last is es) (u : Use) (hu : .use u ∈ es)
    (pos : Position) (before after : Str) (hc : InName host above margin content below col u.root pos before after) (ls : List JsLocation)
    (hgo : n.gotoDefinition (env.over sx) w id fn line pos = .ok (some ls)) (js : Option (List JsIdentifier))
    (hg : n.getVariables (env.over sx) uri line = .ok js) :
    ∀ l ∈ ls, l.isBackend = false → l.range = ⟨⟨line, 0⟩, ⟨line, 0⟩⟩ ∨
      ∃ vs, js = some vs ∧ ∃ j ∈ vs, j.start = l.range.start ∧ j.stop = l.range.stop ∧ j.name = u.root.text := by
  intro l hl hb
  obtain ⟨k0, vars, hpos, _, _, _, hon⟩ := h.cursor hu hc
  obtain ⟨k, loc, hk, hgo', hr⟩ := node_goto_cases hon.uri_eq hgo l hl hb
  have hk0 : k = k0 := by
    rw [hpos] at hk
    unfold usub32 at hk
    rw [if_pos (Nat.le_add_left ..), Nat.add_sub_cancel] at hk
    exact (Except.ok.inj hk).symm
  subst hk0
  rcases goto_scalar hgo' with e | ⟨tree, text, objects, vs, ht, hd, ho, hv, v, hm, hid, rfl⟩
  · rw [e] at hr
    exact .inl (shift_zero h.line_small hr)
  · obtain ⟨tree', text', es', rest, hd', ht', huse⟩ := hon.use
    cases ht.symm.trans ht'
    cases hd.symm.trans hd'
    obtain ⟨q, hq, hqid⟩ := ident_of_use huse
    cases ho.symm.trans hq
    have hname : v.name = u.root.text := Option.some.inj (hid.symm.trans hqid)
    unfold NodeFiles.getVariables at hg
    rw [hv] at hg
    dsimp only at hg
    split at hg
    · cases hg
    · rename_i a ha
      cases hg
      obtain ⟨j, h1, h2, h3, h4⟩ := shiftAll_mem hr ha hm
      exact .inr ⟨_, rfl, j, h1, h2, h3, h4.trans hname⟩

/-- `a` in `{{ a }}` leads to the first of the two variables that are listed -/
example : ∃ (n : NodeFiles) (vs : List JsIdentifier), n.gotoDefinition (Fix.env.over Fix.piecesSyn) Fix.world 7 c!"f" 1 ⟨3, 5⟩ =
      .ok (some [⟨c!"f", ⟨⟨1, 14⟩, ⟨1, 15⟩⟩, false⟩]) ∧ n.getVariables (Fix.env.over Fix.piecesSyn) Fix.offsetUri 1 = .ok (some vs) ∧ vs.length = 2 ∧
    ∃ j ∈ vs, j.start = ⟨1, 14⟩ ∧ j.stop = ⟨1, 15⟩ ∧ j.name = c!"a" := by
  obtain ⟨n, h⟩ := Fix.long_hosted
  have main : ∃ m : NodeFiles, Call.run (Fix.env.over Fix.piecesSyn) Fix.world NodeFiles.new (Fix.piecesCalls Fix.longContent) = .ok m ∧
      m.gotoDefinition (Fix.env.over Fix.piecesSyn) Fix.world 7 c!"f" 1 ⟨3, 5⟩ = .ok (some [⟨c!"f", ⟨⟨1, 14⟩, ⟨1, 15⟩⟩, false⟩]) ∧
      ∃ vs, m.getVariables (Fix.env.over Fix.piecesSyn) Fix.offsetUri 1 = .ok (some vs) ∧ vs.length = 2 := ⟨_, rfl, rfl, _, rfl, rfl⟩
  obtain ⟨m, h1, h2, vs, h3, h4⟩ := main
  rw [h.run] at h1
  cases h1
  refine ⟨n, vs, h2, h3, h4, ?_⟩
  rcases C142_named h Fix.aUse Fix.short_uses.2.2 _ _ _ Fix.long_inName _ h2 _ h3 _ List.mem_cons_self rfl with e | ⟨vs', e, hj⟩
  · cases e
  · cases e
    exact hj

/-- the same in a release build -/
example : ∃ (env : Env) (m : NodeFiles) (ls : List JsLocation), env.profile = .release ∧
    Call.run (env.over Fix.piecesSyn) Fix.world NodeFiles.new (Fix.piecesCalls Fix.longContent) = .ok m ∧
    docUri (env.over Fix.piecesSyn) c!"f" 7 c!"jinja" = .ok Fix.offsetUri ∧
    m.gotoDefinition (env.over Fix.piecesSyn) Fix.world 7 c!"f" 1 ⟨3, 5⟩ = .ok (some ls) ∧ ∃ l ∈ ls, l.isBackend = false ∧ l.range = ⟨⟨1, 14⟩, ⟨1, 15⟩⟩ :=
  ⟨{ Fix.env with profile := .release }, _, _, rfl, rfl, rfl, rfl, _, List.mem_cons_self, rfl, rfl⟩

end JinjaLsp
