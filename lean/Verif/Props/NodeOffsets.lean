import Verif.Props.NodeLinks
/-
  C59: line offsets of embedded templates.
-/

namespace JinjaLsp
open Node Spec NodeFiles

namespace Spec

/-- a position `line` lines further down -/
def downPos (line : Nat) (p : Position) : Position := ⟨p.line + line, p.character⟩
def downRange (line : Nat) (r : Range) : Range := ⟨downPos line r.start, downPos line r.stop⟩

def downHover (line : Nat) (h : JsHover) : JsHover := { h with range := downRange line h.range }
def downItem (line : Nat) (i : JsItem) : JsItem := { i with range := i.range.map (downRange line) }
def downLocation (line : Nat) (l : JsLocation) : JsLocation := { l with range := downRange line l.range }
def downIdent (line : Nat) (i : JsIdentifier) : JsIdentifier := { i with start := downPos line i.start, stop := downPos line i.stop }

/-- the range still has 32-bit lines when moved down -/
def RangeFits (line : Nat) (r : Range) : Prop := r.start.line + line < 4294967296 ∧ r.stop.line + line < 4294967296

/-- the template, placed `line` lines down in its host document, has fewer than 2³² lines: `line` and the rows of all its
captured names, moved down, fit in 32 bits -/
structure DocFits (env : Env) (n : NodeFiles) (id : Nat) (fn : Str) (line : Nat) : Prop where
  offset : line < 4294967296
  rows : ∀ uri tree text, docUri env fn id c!"jinja" = .ok uri → (n.files.trees .template).get? uri = some tree →
    n.files.documents.get? uri = some text → ∀ c ∈ (env.queryMatches .jinjaObjects tree text).flatten,
      c.start.row + line < 4294967296 ∧ c.stop.row + line < 4294967296

end Spec

namespace Node.NodeFiles

theorem shiftPos_from_zero {prof : Profile} {p q : Position} {line : Nat} (h : shiftPos prof p 0 = .ok q)
    (hf : q.line + line < 4294967296) : shiftPos prof p line = .ok (downPos line q) := by
  unfold shiftPos uadd32 at *
  rw [Nat.add_zero] at h
  by_cases hp : p.line < 4294967296
  · rw [if_pos hp] at h
    cases h
    simp only at hf
    rw [if_pos hf]; rfl
  · rw [if_neg hp] at h
    cases prof with
    | debug => cases h
    | release =>
      cases h
      simp only at hf
      rw [if_neg (by omega)]
      have : (p.line + line) % 4294967296 = p.line % 4294967296 + line := by
        rw [← Nat.mod_add_mod, Nat.mod_eq_of_lt hf]
      simp only [this, downPos]

theorem shiftRange_from_zero {prof : Profile} {r q : Range} {line : Nat} (h : shiftRange prof r 0 = .ok q)
    (hf : RangeFits line q) : shiftRange prof r line = .ok (downRange line q) := by
  unfold shiftRange at *
  split at h
  · cases h
  · rename_i s hs
    split at h
    · cases h
    · rename_i t ht
      cases h
      rw [shiftPos_from_zero hs hf.1, shiftPos_from_zero ht hf.2]
      rfl

theorem shiftRange_down {prof : Profile} {r : Range} {line : Nat} (hf : RangeFits line r) :
    shiftRange prof r line = .ok (downRange line r) := by
  simp only [shiftRange, shiftPos, uadd32, if_pos hf.1, if_pos hf.2, downRange, downPos]

theorem usub32_add (prof : Profile) (a b : Nat) : usub32 prof (a + b) b = .ok a := by
  unfold usub32; simp

theorem usub32_zero (prof : Profile) (a : Nat) : usub32 prof a 0 = .ok a := by
  unfold usub32; simp

theorem shiftLocations_nil (env : Env) (line : Nat) : shiftLocations env line [] = .ok [] := rfl

theorem shiftLocations_cons (env : Env) (line : Nat) (loc : Location) (ls : List Location) :
    shiftLocations env line (loc :: ls) =
      if containsSub c!"temp" loc.uri then
        match env.urlParse loc.uri with
        | none => .error .unwrap
        | some u =>
          match shiftRange env.profile loc.range line with
          | .error e => .error e
          | .ok r =>
            match shiftLocations env line ls with
            | .error e => .error e
            | .ok rest => .ok (⟨u, r, true⟩ :: rest)
      else shiftLocations env line ls := rfl

theorem shiftLocations_from_zero {env : Env} {line : Nat} (ls : List Location) {r : List JsLocation}
    (h : shiftLocations env 0 ls = .ok r) (hf : ∀ l ∈ r, RangeFits line l.range) :
    shiftLocations env line ls = .ok (r.map (downLocation line)) := by
  induction ls generalizing r with
  | nil => cases h; rfl
  | cons l ls ih =>
    rw [shiftLocations_cons] at *
    split at h
    · next hc =>
      rw [if_pos hc]
      cases hu : env.urlParse l.uri with
      | none => rw [hu] at h; cases h
      | some u =>
        rw [hu] at h
        dsimp only at h ⊢
        split at h
        · cases h
        · rename_i q hq
          split at h
          · cases h
          · rename_i rest hrest
            cases h
            simp only [shiftRange_from_zero hq (hf _ (List.mem_cons_self ..)),
              ih hrest (fun l hl => hf l (List.mem_cons_of_mem _ hl))]
            rfl
    · next hc =>
      rw [if_neg hc]
      exact ih h hf

theorem shiftAll_cons (prof : Profile) (line : Nat) (v : Identifier) (vs : List Identifier) :
    shiftAll prof line (v :: vs) =
      match shiftPos prof (toPosition2 v.start) line with
      | .error e => .error e
      | .ok s =>
        match shiftPos prof (toPosition2 v.stop) line with
        | .error e => .error e
        | .ok t =>
          match shiftAll prof line vs with
          | .error e => .error e
          | .ok r => .ok (⟨s, t, v.name, .ofIdType v.idType⟩ :: r) := rfl

theorem shiftAll_from_zero {prof : Profile} {line : Nat} (vs : List Identifier) {r : List JsIdentifier}
    (h : shiftAll prof 0 vs = .ok r) (hf : ∀ i ∈ r, i.start.line + line < 4294967296 ∧ i.stop.line + line < 4294967296) :
    shiftAll prof line vs = .ok (r.map (downIdent line)) := by
  induction vs generalizing r with
  | nil => cases h; rfl
  | cons v vs ih =>
    rw [shiftAll_cons] at *
    split at h
    · cases h
    · rename_i s hs
      split at h
      · cases h
      · rename_i t ht
        split at h
        · cases h
        · rename_i rest hrest
          cases h
          have := hf _ (List.mem_cons_self ..)
          simp only [shiftPos_from_zero hs this.1, shiftPos_from_zero ht this.2,
            ih hrest (fun i hi => hf i (List.mem_cons_of_mem _ hi))]
          rfl

theorem rangeFits_mono {line : Nat} {r : Range} (h : RangeFits line r) : RangeFits 0 r := by
  unfold RangeFits at *; omega

theorem downRange_zero (r : Range) : downRange 0 r = r := rfl

/-- the ranges of the last object stay inside 32 bits -/
theorem lastRange_fits {cs : List Capture} {s : JinjaObjects} {line : Nat} (h : JinjaObjects.From cs s) (hl : line < 4294967296)
    (hc : ∀ c ∈ cs, c.start.row + line < 4294967296 ∧ c.stop.row + line < 4294967296) : RangeFits line s.fullRange := by
  have hmod : ∀ a, a + line < 4294967296 → a % 4294967296 + line < 4294967296 := by intro a ha; omega
  unfold JinjaObjects.fullRange
  cases hg : s.objects.getLast? with
  | none => exact ⟨by simpa [Range.zero] using hl, by simpa [Range.zero] using hl⟩
  | some o =>
    have hm := List.mem_of_getLast? hg
    obtain ⟨c, hcm, -, -, hloc⟩ := h.objects o hm
    refine ⟨?_, ?_⟩
    · simp only [JinjaObject.fullRange, toRange, toU32, hloc]
      exact hmod _ (hc c hcm).1
    · simp only [JinjaObject.fullRange, toRange, toU32, JinjaObject.lastFieldEnd]
      cases hf : o.fields.getLast? with
      | none => simp only [hloc]; exact hmod _ (hc c hcm).2
      | some f =>
        obtain ⟨c', hc', -, -, hl'⟩ := h.fields o hm f (List.mem_of_getLast? hf)
        simp only [hl']; exact hmod _ (hc c' hc').2

end Node.NodeFiles

/-! ## C59 -/

/-- **C59, hover** For every template that fits below the offset, and every position below it: the answer is the one for the
template alone at the position that many lines up, with its range that many lines down. -/
theorem C59_hover (env : Env) (w : World) (n : NodeFiles) (id : Nat) (fn : Str) (line l ch : Nat)
    (hf : DocFits env n id fn line) :
    n.hover env w id fn line ⟨l + line, ch⟩ = (n.hover env w id fn 0 ⟨l, ch⟩).map (Option.map (downHover line)) := by
  unfold hover
  simp only [usub32_add, usub32_zero]
  cases hu : docUri env fn id c!"jinja" with
  | error e => rfl
  | ok uri =>
    dsimp only
    cases hh : n.files.hover env uri ⟨l, ch⟩ with
    | error e => rfl
    | ok r =>
      cases r with
      | none => rfl
      | some h =>
        dsimp only
        have hfit : RangeFits line ⟨toPosition2 h.1.start, toPosition2 h.1.stop⟩ := by
          unfold LspFiles.hover at hh
          simp only at hh
          split at hh
          · cases hh
          · split at hh
            · rename_i tree content ht hd
              split at hh
              · cases hh
              · rename_i o ho
                have hfrom := JinjaObjects.from_query ho
                have hrow := hf.rows uri tree content hu ht hd
                split at hh
                · split at hh
                  · cases hh
                  · rename_i obj hobj
                    obtain ⟨c, hcm, -, -, hloc⟩ := hfrom.objects obj (List.mem_of_getLast? hobj)
                    have : h.1 = Identifier.ofObject obj := by
                      repeat' (split at hh)
                      all_goals (cases hh; rfl)
                    have hc := hrow c hcm
                    rw [this]
                    simp only [RangeFits, Identifier.ofObject, Identifier.new, hloc, toPosition2, toU32]
                    omega
                · cases hh
            · cases hh
        rw [shiftRange_down hfit, shiftRange_down (rangeFits_mono hfit)]
        dsimp only
        split
        · cases (filterTable.find? fun e => decide (e.1 = h.1.name)).map Prod.snd <;> rfl
        · cases n.files.dataType w uri h.1 <;> rfl

/-- **C59, complete** The same for completion: the names offered are those for the template alone, the ranges to replace are
moved down. -/
theorem C59_complete (env : Env) (w : World) (n : NodeFiles) (id : Nat) (fn : Str) (line l ch : Nat)
    (hf : DocFits env n id fn line) :
    n.complete env w id fn line ⟨l + line, ch⟩ =
      (n.complete env w id fn 0 ⟨l, ch⟩).map (Option.map (List.map (downItem line))) := by
  unfold complete
  simp only [usub32_add, usub32_zero]
  cases hu : docUri env fn id c!"jinja" with
  | error e => rfl
  | ok uri =>
    dsimp only
    cases hh : n.files.completion env uri ⟨l, ch⟩ .triggerCharacter with
    | error e => rfl
    | ok r =>
      cases r with
      | none => rfl
      | some c =>
        obtain ⟨c, b⟩ := c
        dsimp only
        cases c with
        | filter => simp only [Except.map, Option.map_some, List.map_map, Function.comp_def, downItem, Option.map_none]
        | identifier =>
          dsimp only
          cases n.files.readVariables w uri ⟨l, ch⟩ none none with
          | none => rfl
          | some vars =>
            simp only [Except.map, Option.map_some, List.map_append, List.map_map, Function.comp_def, downItem, Option.map_none]
        | incompleteIdentifier name range =>
          have hfit : RangeFits line range := by
            obtain ⟨ext, tree, content, hx, ht, hd, h⟩ := LspFiles.completion_inv hh
            rcases h with ⟨rfl, h⟩ | ⟨_, i, s, _, _, h⟩
            · rcases h with ⟨_, _, _, _, h⟩ | ⟨_, o, ho, h⟩
              · cases h
              · rcases h with h | ⟨_, _, _, _, _, h⟩
                · rcases JinjaObjects.completion_inv h with ⟨h, _⟩ | ⟨h, _⟩ | ⟨v, x, h, _⟩ | ⟨h, _⟩
                  · cases h
                  · cases h
                  · cases h
                    exact lastRange_fits (JinjaObjects.from_query ho) hf.offset (hf.rows uri tree content hu ht hd)
                  · cases h
                · cases h
            · cases h
          dsimp only
          rw [shiftRange_down hfit, shiftRange_down (rangeFits_mono hfit)]
          dsimp only
          cases n.files.getVariable name fn c!"temp" with
          | none => rfl
          | some vs =>
            simp only [Except.map, Option.map_some, List.map_map, Function.comp_def, downItem, downRange_zero]
        | _ => rfl

/-- **C59, go to definition** The same, when the locations found stay inside 32 bits. -/
theorem C59_goto (env : Env) (w : World) (n : NodeFiles) (id : Nat) (fn : Str) (line l ch : Nat) (r : Option (List JsLocation))
    (h0 : n.gotoDefinition env w id fn 0 ⟨l, ch⟩ = .ok r) (hf : ∀ ls, r = some ls → ∀ x ∈ ls, RangeFits line x.range) :
    n.gotoDefinition env w id fn line ⟨l + line, ch⟩ = .ok (r.map (List.map (downLocation line))) := by
  unfold gotoDefinition at *
  simp only [usub32_add, usub32_zero] at *
  cases hu : docUri env fn id c!"jinja" with
  | error e => rw [hu] at h0; cases h0
  | ok uri =>
    rw [hu] at h0
    dsimp only at h0 ⊢
    cases hg : n.files.gotoDefinition env w uri ⟨l, ch⟩ with
    | error e => rw [hg] at h0; cases h0
    | ok g =>
      rw [hg] at h0
      cases g with
      | none => cases h0; rfl
      | some g =>
        cases g with
        | scalar loc =>
          dsimp only at h0 ⊢
          split at h0
          · next hc =>
            rw [if_pos hc]
            cases hp : env.urlParse fn with
            | none => rw [hp] at h0; cases h0
            | some u =>
              rw [hp] at h0
              dsimp only at h0 ⊢
              split at h0
              · cases h0
              · rename_i q hq
                cases h0
                rw [shiftRange_from_zero hq (hf _ rfl _ (List.mem_singleton.mpr rfl))]
                rfl
          · next hc => rw [if_neg hc]; cases h0; rfl
        | array ls =>
          dsimp only at h0 ⊢
          split at h0
          · cases h0
          · rename_i q hq
            cases h0
            rw [shiftLocations_from_zero ls hq (hf _ rfl)]
            rfl

/-- **C59, variables** `getVariables` with an offset lists the variables that many lines further down. -/
theorem C59_variables (env : Env) (n : NodeFiles) (k : Str) (line : Nat) (r : Option (List JsIdentifier))
    (h0 : n.getVariables env k 0 = .ok r)
    (hf : ∀ vs, r = some vs → ∀ i ∈ vs, i.start.line + line < 4294967296 ∧ i.stop.line + line < 4294967296) :
    n.getVariables env k line = .ok (r.map (List.map (downIdent line))) := by
  unfold getVariables at *
  cases hv : n.files.variables.get? k with
  | none => rw [hv] at h0; cases h0; rfl
  | some vs =>
    rw [hv] at h0
    dsimp only at h0 ⊢
    split at h0
    · cases h0
    · rename_i q hq
      cases h0
      rw [shiftAll_from_zero vs hq (hf _ rfl)]
      rfl

/-- **C59, positions above the offset** in a debug build are rejected: the call panics. -/
theorem C59_above_debug_partial (env : Env) (w : World) (n : NodeFiles) (id : Nat) (fn : Str) (line : Nat) (pos : Position)
    (hd : env.profile = .debug) (ha : pos.line < line) :
    n.hover env w id fn line pos = .error .overflow ∧ n.complete env w id fn line pos = .error .overflow ∧
    n.gotoDefinition env w id fn line pos = .error .overflow := by
  have : usub32 env.profile pos.line line = .error .overflow := by
    unfold usub32; rw [if_neg (by omega), hd]
  simp only [hover, complete, gotoDefinition, this, and_self]

/-- **C59 is false above the offset in a release build**: the request is not rejected but answered for a line of the template
2³² − (offset − line) lines down, as if the position were 2³² lines further down in the host document. -/
theorem C59_above_release_refuted (env : Env) (w : World) (n : NodeFiles) (id : Nat) (fn : Str) (line : Nat) (pos : Position)
    (hd : env.profile = .release) (hl : line < 4294967296) (ha : pos.line < line) :
    n.hover env w id fn line pos = n.hover env w id fn line ⟨pos.line + 4294967296, pos.character⟩ ∧
    n.complete env w id fn line pos = n.complete env w id fn line ⟨pos.line + 4294967296, pos.character⟩ ∧
    n.gotoDefinition env w id fn line pos = n.gotoDefinition env w id fn line ⟨pos.line + 4294967296, pos.character⟩ := by
  have h1 : usub32 env.profile pos.line line = .ok (pos.line + 4294967296 - line) := by
    unfold usub32; rw [if_neg (by omega), hd]
  have h2 : usub32 env.profile (pos.line + 4294967296) line = .ok (pos.line + 4294967296 - line) := by
    unfold usub32; rw [if_pos (by omega)]
  simp only [hover, complete, gotoDefinition, h1, h2, and_self]

namespace Fix

/-- `{{ user }}` is open as `file:///home/f.7.jinja`, with the hint `user` -/
def offsetCaps : List Capture :=
  [{ name := .expr, id := 1, start := ⟨0, 0⟩, stop := ⟨0, 10⟩, text := some c!"{{ user }}", firstChild := (⟨0, 0⟩, ⟨0, 2⟩),
     lastChild := (⟨0, 8⟩, ⟨0, 10⟩) },
   { name := .justId, id := 2, start := ⟨0, 3⟩, stop := ⟨0, 7⟩, text := some c!"user" }]

def offsetEnv (p : Profile) : Env := { envWith .jinjaObjects offsetCaps with profile := p }

def offsetUri : Str := c!"file:///home/f.7.jinja"

def offsetNode : NodeFiles :=
  ({ NodeFiles.new with
     files := { NodeFiles.new.files with
       documents := HMap.empty.insert offsetUri c!"{{ user }}"
       trees := fun l => match l with
         | .template => HMap.empty.insert offsetUri (.parsed .jinja c!"{{ user }}" none)
         | .backend => HMap.empty
       variables := HMap.empty.insert offsetUri [] } }).saveLinkHint
    (some [⟨c!"user", c!"the user"⟩, ⟨c!".x", c!"odd"⟩]) none

end Fix

/-- not vacuous: hovering over `user` ten lines down -/
example : DocFits (Fix.offsetEnv .debug) Fix.offsetNode 7 c!"f" 10 ∧
    Fix.offsetNode.hover (Fix.offsetEnv .debug) Fix.world 7 c!"f" 10 ⟨0 + 10, 4⟩ =
      .ok (some ⟨c!"the user", ⟨⟨10, 3⟩, ⟨10, 7⟩⟩⟩) := by
  constructor
  · refine ⟨by decide, ?_⟩
    intro uri tree text _ _ _ c hc
    have : c ∈ Fix.offsetCaps := by
      simpa [Fix.offsetEnv, Fix.envWith, List.flatten_eq_flatMap, List.flatMap_map] using hc
    simp only [Fix.offsetCaps, List.mem_cons, List.not_mem_nil, or_false] at this
    rcases this with rfl | rfl <;> simp
  · rfl

/-- not vacuous: going to the definition of `user`, from ten lines down -/
example : ∃ ls, Fix.offsetNode.gotoDefinition (Fix.offsetEnv .debug) Fix.world 7 c!"f" 0 ⟨0, 4⟩ = .ok (some ls) ∧
    ls = [⟨c!"temp-user", ⟨⟨0, 0⟩, ⟨0, 0⟩⟩, true⟩] ∧ ∀ x ∈ ls, RangeFits 10 x.range := by
  refine ⟨_, rfl, by decide, ?_⟩
  unfold RangeFits
  decide

/-- not vacuous: the variables of the hint -/
example : ∃ vs, Fix.offsetNode.getVariables (Fix.offsetEnv .debug) c!"temp" 0 = .ok (some vs) ∧ vs.length = 2 := ⟨_, rfl, rfl⟩

/-- an answer above the offset in a release build: line 3 of the host document is above the template in line 10 -/
example : ∃ ls, Fix.offsetNode.gotoDefinition (Fix.offsetEnv .release) Fix.world 7 c!"f" 10 ⟨3, 4⟩ = .ok (some ls) ∧ ls ≠ [] := by
  refine ⟨_, rfl, by decide⟩

end JinjaLsp
