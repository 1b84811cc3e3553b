import Verif.Props.NodeOffsets
/-
  C61: saved hints in completion.
-/

namespace JinjaLsp
open Node Spec NodeFiles

/-- the variables under the default hint name after a session -/
theorem temp_variables {env : Env} {w : World} {calls : List Call} {n : NodeFiles} {as : List Action}
    (hc : ∀ c ∈ calls, c.avoids env c!"temp") (hr : Call.run env w NodeFiles.new calls = .ok n)
    (hs : savedUnder c!"temp" none calls = some as) :
    n.files.variables.get? c!"temp" = some (as.map actionVariable) := by
  have h0 : HintState NodeFiles.new c!"temp" none := ⟨rfl, rfl⟩
  have := (h0.run calls hc hr).vars
  rw [hs] at this
  exact this

/-- the call gives no hints for `h` -/
def Spec.Call.spares (h : Str) : Call → Prop
  | .addLinkHints u _ => u ≠ h
  | .saveLinkHint _ hint => hint.getD c!"temp" ≠ h
  | _ => True

/-- names nobody gave hints for have none -/
theorem actions_none {env : Env} {w : World} {h : Str} (cs : List Call) {n n' : NodeFiles} (h0 : n.actions.get? h = none)
    (hc : ∀ c ∈ cs, c.spares h) (hr : Call.run env w n cs = .ok n') : n'.actions.get? h = none := by
  induction cs generalizing n with
  | nil => cases hr; exact h0
  | cons c cs ih =>
    unfold Call.run at hr
    split at hr
    · cases hr
    · rename_i n1 h1
      refine ih ?_ (fun c' h' => hc c' (by simp [h'])) hr
      have hsp := hc c (by simp)
      cases c with
      | addLinkHints u as =>
        cases as with
        | none => cases h1; exact h0
        | some as =>
          cases h1
          simp only [addLinkHints]
          rw [HMap.get?_insert_ne _ _ (fun e => hsp e.symm)]; exact h0
      | saveLinkHint as hint =>
        cases as with
        | none => cases h1; exact h0
        | some as =>
          cases h1
          simp only [saveLinkHint]
          rw [HMap.get?_insert_ne _ _ (fun e => hsp e.symm)]; exact h0
      | removeTempLinkHint hint =>
        cases h1
        simp only [removeTempLinkHint, HMap.get?_erase]
        split
        · rfl
        · exact h0
      | deleteAll f => cases h1; exact h0
      | addOne id f ct l e col =>
        simp only [Call.step, Except.map] at h1
        split at h1
        · cases h1
        · rename_i r hr'
          cases h1
          obtain ⟨_, _, _, _, ha, _⟩ := addOne_files (n1 := r.1) (links := r.2) hr'
          rw [ha]; exact h0

/-! ## C61 -/

/-- **C61** (part) After any calls, with the hints `as` in force under the default name, completing in identifier position (the
kind of position is that of the template alone, C19) in a template that has been read offers each of their names.
Missing: their descriptions (`C61_description_refuted`), and templates whose variables could not be read
(`C61_unread_refuted`). -/
theorem C61_names_partial (env : Env) (w : World) (calls : List Call) (n : NodeFiles) (as : List Action)
    (hc : ∀ c ∈ calls, c.avoids env c!"temp") (hr : Call.run env w NodeFiles.new calls = .ok n)
    (hs : savedUnder c!"temp" none calls = some as)
    (id : Nat) (fn uri : Str) (line l ch : Nat) (b : Bool) (vs : List Identifier) (hu : docUri env fn id c!"jinja" = .ok uri)
    (hk : n.files.completion env uri ⟨l, ch⟩ .triggerCharacter = .ok (some (.identifier, b)))
    (hv : n.files.variables.get? uri = some vs) :
    ∃ items, n.complete env w id fn line ⟨l + line, ch⟩ = .ok (some items) ∧
      ∀ a ∈ as, ∃ i ∈ items, i.label = a.name ∧ i.isFilter = false := by
  have htemp := temp_variables hc hr hs
  unfold complete
  simp only [usub32_add, hu, hk, LspFiles.readVariables, hv]
  refine ⟨_, rfl, fun a ha => ?_⟩
  refine ⟨⟨false, a.name, IdType.completionDetail .backendVariable, none, none⟩, ?_, rfl, rfl⟩
  refine List.mem_append_right _ (List.mem_map.mpr ⟨LspFiles.backendItem (actionVariable a), ?_, rfl⟩)
  refine List.mem_append_right _ (List.mem_flatMap.mpr ⟨(c!"temp", as.map actionVariable), ?_, ?_⟩)
  · refine List.mem_filter.mpr ⟨?_, rfl⟩
    rw [HMap.mem_shuffle, ← HMap.get?_eq_some_iff]; exact htemp
  · refine List.mem_map.mpr ⟨actionVariable a, List.mem_filter.mpr ⟨List.mem_map_of_mem ha, ?_⟩, rfl⟩
    simp [actionVariable]

/-- **C61 is false for descriptions**: as long as no hints are given for the name `temp_`, every item offered in identifier
position is described by the standard text of its kind of variable, so a hint's own description does not appear. -/
theorem C61_description_refuted (env : Env) (w : World) (calls : List Call) (n : NodeFiles)
    (hsp : ∀ c ∈ calls, c.spares c!"temp_") (hr : Call.run env w NodeFiles.new calls = .ok n)
    (id : Nat) (fn uri : Str) (line l ch : Nat) (b : Bool) (hu : docUri env fn id c!"jinja" = .ok uri)
    (hk : n.files.completion env uri ⟨l, ch⟩ .triggerCharacter = .ok (some (.identifier, b)))
    (items : List JsItem) (hi : n.complete env w id fn line ⟨l + line, ch⟩ = .ok (some items)) (d : Str)
    (hd : ∀ t : IdType, d ≠ t.completionDetail) : ∀ i ∈ items, i.description ≠ d := by
  have ha := actions_none calls (n := NodeFiles.new) rfl hsp hr
  unfold complete at hi
  simp only [usub32_add, hu, hk, ha, Option.getD_none, List.map_nil, List.nil_append] at hi
  split at hi
  · cases hi
  · rename_i vars hvars
    cases hi
    intro i him
    obtain ⟨x, hx, rfl⟩ := List.mem_map.mp him
    have : ∃ t : IdType, x.detail = some t.completionDetail := by
      unfold LspFiles.readVariables at hvars
      split at hvars
      · cases hvars
      · rename_i thisFile hf
        cases hvars
        rcases List.mem_append.mp hx with hx | hx
        · have key : ∀ (vs : List Identifier) (names : List Str) (y : CompletionItem),
              y ∈ LspFiles.variableItems n.files.isVscode [] Range.zero names vs → ∃ t : IdType, y.detail = some t.completionDetail := by
            intro vs
            induction vs with
            | nil => intro names y hy; cases hy
            | cons v vs ih =>
              intro names y hy
              unfold LspFiles.variableItems at hy
              split at hy
              · exact ih _ _ hy
              · simp only [LspFiles.variableItem, List.isEmpty_nil, if_true] at hy
                rcases List.mem_cons.mp hy with rfl | hy
                · exact ⟨v.idType, rfl⟩
                · exact ih _ _ hy
          exact key _ _ _ hx
        · obtain ⟨file, _, hx⟩ := List.mem_flatMap.mp hx
          obtain ⟨v, _, rfl⟩ := List.mem_map.mp hx
          exact ⟨v.idType, rfl⟩
    obtain ⟨t, ht⟩ := this
    simp only [ht, Option.getD_some]
    exact fun e => hd t e.symm

/-- **C61 is false for templates that have not been read** (one that was broken from the start): nothing is offered. -/
theorem C61_unread_refuted (env : Env) (w : World) (n : NodeFiles) (id : Nat) (fn uri : Str) (line l ch : Nat) (b : Bool)
    (hu : docUri env fn id c!"jinja" = .ok uri)
    (hk : n.files.completion env uri ⟨l, ch⟩ .triggerCharacter = .ok (some (.identifier, b)))
    (hv : n.files.variables.get? uri = none) :
    n.complete env w id fn line ⟨l + line, ch⟩ = .ok none := by
  unfold complete
  simp only [usub32_add, hu, hk, LspFiles.readVariables, hv]

/-- **C61, part of a name typed**: the hints are offered exactly when their name contains what was typed, with the name itself
as description and replacement – and only if there are variables under the bare file name (`C61_typed_refuted`). -/
theorem C61_typed_partial (env : Env) (w : World) (calls : List Call) (n : NodeFiles) (as : List Action)
    (hc : ∀ c ∈ calls, c.avoids env c!"temp") (hr : Call.run env w NodeFiles.new calls = .ok n)
    (hs : savedUnder c!"temp" none calls = some as)
    (id : Nat) (fn uri : Str) (line l ch : Nat) (b : Bool) (vs : List Identifier) (hu : docUri env fn id c!"jinja" = .ok uri)
    (typed : Str) (r : Range) (hfit : RangeFits line r)
    (hk : n.files.completion env uri ⟨l, ch⟩ .triggerCharacter = .ok (some (.incompleteIdentifier typed r, b)))
    (hv : n.files.variables.get? fn = some vs) :
    ∃ items, n.complete env w id fn line ⟨l + line, ch⟩ = .ok (some items) ∧
      (∀ a ∈ as, (∃ x y, a.name = x ++ typed ++ y) → ⟨false, a.name, a.name, some a.name, some (downRange line r)⟩ ∈ items) ∧
      ∀ i ∈ items, ∃ x y, i.label = x ++ typed ++ y := by
  have htemp := temp_variables hc hr hs
  unfold complete
  simp only [usub32_add, hu, hk, shiftRange_down hfit, LspFiles.getVariable, hv, htemp, Option.getD_some]
  refine ⟨_, rfl, ?_, ?_⟩
  · intro a ha hx
    refine List.mem_map.mpr ⟨a.name, List.mem_append_right _ (List.mem_map.mpr ⟨actionVariable a, ?_, rfl⟩), rfl⟩
    exact List.mem_filter.mpr ⟨List.mem_map_of_mem ha, by rw [containsSub_iff]; exact hx⟩
  · intro i hi
    obtain ⟨s, hs', rfl⟩ := List.mem_map.mp hi
    rcases List.mem_append.mp hs' with hs' | hs'
    all_goals
      obtain ⟨v, hv', rfl⟩ := List.mem_map.mp hs'
      exact containsSub_iff.mp (List.mem_filter.mp hv').2

/-- **C61 is false once part of a name is typed** and no variables are stored under the bare file name: nothing is offered. -/
theorem C61_typed_refuted (env : Env) (w : World) (n : NodeFiles) (id : Nat) (fn uri : Str) (line l ch : Nat) (b : Bool)
    (hu : docUri env fn id c!"jinja" = .ok uri) (typed : Str) (r : Range) (hfit : RangeFits line r)
    (hk : n.files.completion env uri ⟨l, ch⟩ .triggerCharacter = .ok (some (.incompleteIdentifier typed r, b)))
    (hv : n.files.variables.get? fn = none) :
    n.complete env w id fn line ⟨l + line, ch⟩ = .ok none := by
  unfold complete
  simp only [usub32_add, hu, hk, shiftRange_down hfit, LspFiles.getVariable, hv]

namespace Fix

/-- hints are saved, then `{{ user }}` is opened -/
def completeCalls : List Call :=
  [.saveLinkHint (some [⟨c!"user", c!"the user"⟩, ⟨c!"cart", c!"the cart"⟩]) none,
   .saveLinkHint (some []) (some c!"f"),
   .addOne 7 c!"f" c!"{{ user }}" 0 c!"jinja" none]

end Fix

/-- not vacuous: after the blank behind `user`, identifiers are completed; inside `user`, the name `us` -/
example : ∃ n, Call.run (Fix.offsetEnv .debug) Fix.world NodeFiles.new Fix.completeCalls = .ok n ∧
    (∀ c ∈ Fix.completeCalls, c.avoids (Fix.offsetEnv .debug) c!"temp") ∧ (∀ c ∈ Fix.completeCalls, c.spares c!"temp_") ∧
    savedUnder c!"temp" none Fix.completeCalls = some [⟨c!"user", c!"the user"⟩, ⟨c!"cart", c!"the cart"⟩] ∧
    n.files.completion (Fix.offsetEnv .debug) Fix.offsetUri ⟨0, 8⟩ .triggerCharacter = .ok (some (.identifier, false)) ∧
    (∃ vs, n.files.variables.get? Fix.offsetUri = some vs) ∧ (∃ vs, n.files.variables.get? c!"f" = some vs) ∧
    (∃ b, n.files.completion (Fix.offsetEnv .debug) Fix.offsetUri ⟨0, 5⟩ .triggerCharacter =
      .ok (some (.incompleteIdentifier c!"us" ⟨⟨0, 3⟩, ⟨0, 7⟩⟩, b))) ∧
    (∀ t : IdType, c!"the user" ≠ t.completionDetail) := by
  refine ⟨_, rfl, ?_, ?_, rfl, rfl, ⟨_, rfl⟩, ⟨_, rfl⟩, ⟨_, rfl⟩, ?_⟩
  · intro c hc
    simp only [Fix.completeCalls, List.mem_cons, List.not_mem_nil, or_false] at hc
    rcases hc with rfl | rfl | rfl <;> simp [Call.avoids, docUri, Fix.offsetEnv, Fix.envWith, Fix.env]
  · intro c hc
    simp only [Fix.completeCalls, List.mem_cons, List.not_mem_nil, or_false] at hc
    rcases hc with rfl | rfl | rfl <;> simp [Call.spares]
  · intro t; cases t <;> decide

/-- a state with an open template that was not read, and no variables under the file name -/
example : let n : NodeFiles := { Fix.offsetNode with files := { Fix.offsetNode.files with variables := HMap.empty } }
    n.files.completion (Fix.offsetEnv .debug) Fix.offsetUri ⟨0, 8⟩ .triggerCharacter = .ok (some (.identifier, false)) ∧
    n.files.variables.get? Fix.offsetUri = none ∧ n.files.variables.get? c!"f" = none := ⟨rfl, rfl, rfl⟩

end JinjaLsp
