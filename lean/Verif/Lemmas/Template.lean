import Verif.Spec.Template
/- Running the definition analysis over the captures of a well-nested template. -/

namespace JinjaLsp
open Spec

namespace JinjaDefinitions

/-- the flag of a `set` is not observable -/
def norm : Definition → Definition
  | .set k _ => .set k true
  | d => d

/-- the observable part of the state -/
structure View where
  defs : List Definition
  stack : List Nat
  closed : List (Nat × Point)
deriving DecidableEq

def view (s : JinjaDefinitions) : View :=
  ⟨s.definitions.map norm, s.currentScope.map (·.id), s.allScopes.map fun sc => (sc.id, sc.stop)⟩

/-- processing `cs` leads from `s` to `s'` whatever follows -/
def Runs (s : JinjaDefinitions) (cs : List Capture) (s' : JinjaDefinitions) : Prop :=
  ∀ more, run s (cs ++ more) = run s' more

theorem Runs.nil (s : JinjaDefinitions) : Runs s [] s := fun _ => rfl

theorem Runs.append {s t u : JinjaDefinitions} {as bs : List Capture} (h : Runs s as t) (h' : Runs t bs u) :
    Runs s (as ++ bs) u := fun more => by rw [List.append_assoc, h, h']

theorem Runs.cons {s t u : JinjaDefinitions} {c : Capture} {cs : List Capture} (h : s.check c = .ok (some t))
    (h' : Runs t cs u) : Runs s (c :: cs) u := fun more => by
  show run s (c :: (cs ++ more)) = _
  rw [run, h]; exact h' more

theorem Runs.eq {s t : JinjaDefinitions} {cs : List Capture} (h : Runs s cs t) : run s cs = .ok t := by
  have := h []
  simpa [run] using this

/-- neither binding names nor closing a scope -/
structure Idle (s : JinjaDefinitions) : Prop where
  addId : s.canAddId = false
  close : (s.canCloseScope && s.isEnd) = false

/-- same observable state and the same closing flags -/
structure Same (s s' : JinjaDefinitions) : Prop where
  view : s'.view = s.view
  seen : s'.allIds = s.allIds
  addId : s'.canAddId = s.canAddId
  close : s'.canCloseScope = s.canCloseScope
  isEnd : s'.isEnd = s.isEnd

theorem Same.refl (s : JinjaDefinitions) : Same s s := ⟨rfl, rfl, rfl, rfl, rfl⟩
theorem Same.trans {s t u : JinjaDefinitions} (a : Same s t) (b : Same t u) : Same s u :=
  ⟨b.view.trans a.view, b.seen.trans a.seen, b.addId.trans a.addId, b.close.trans a.close, b.isEnd.trans a.isEnd⟩

theorem dropLast_getLast? {α : Type} {l : List α} {a : α} (h : l.getLast? = some a) : l.dropLast ++ [a] = l := by
  have hne : l ≠ [] := by intro e; subst e; simp at h
  have := List.dropLast_concat_getLast hne
  rw [List.getLast?_eq_some_getLast hne] at h
  cases h
  exact this

/-- an operator with `=` changes at most the flag of a `set` and `can_open_scope` -/
theorem check_eq (s : JinjaDefinitions) (t : Tok) : ∃ s', s.check (t.cap .equals) = .ok (some s') ∧ Same s s' := by
  simp only [check, Tok.cap]
  split
  · rename_i k e hl
    refine ⟨_, rfl, ?_, rfl, rfl, rfl, rfl⟩
    have := dropLast_getLast? hl
    simp only [JinjaDefinitions.view, View.mk.injEq, and_true]
    rw [← this]
    simp [norm]
  · exact ⟨s, rfl, Same.refl s⟩

/-- tokens outside binding positions are without effect -/
theorem runs_idle : ∀ (ts : List HTok) (s : JinjaDefinitions), s.canAddId = false →
    ∃ s', Runs s (hcaps ts) s' ∧ Same s s'
  | [], s, _ => ⟨s, Runs.nil s, Same.refl s⟩
  | .name t :: ts, s, h => by
    obtain ⟨s', hr, hs⟩ := runs_idle ts s h
    refine ⟨s', Runs.cons ?_ hr, hs⟩
    simp [check, HTok.cap, Tok.cap, h]
  | .eq t :: ts, s, h => by
    obtain ⟨s1, h1, hs1⟩ := check_eq s t
    obtain ⟨s', hr, hs⟩ := runs_idle ts s1 (hs1.addId.trans h)
    exact ⟨s', Runs.cons h1 hr, hs1.trans hs⟩

/-- the delimiters of a statement that closes nothing -/
theorem runs_delims (d : Delims) (s : JinjaDefinitions) (hc : (s.canCloseScope && s.isEnd) = false)
    (ha : s.canAddId = false ∨ s.canOpenScope = true) :
    ∃ s', Runs s d.caps s' ∧ s'.view = s.view ∧ s'.allIds = s.allIds ∧ Idle s' := by
  have h1 : s.check (d.opening.cap .scopeEnd) = .ok (some s) := by
    simp only [check, Tok.cap]; rw [hc]; rfl
  by_cases ho : s.canOpenScope = true
  · cases hs : s.currentScope with
    | nil =>
      refine ⟨{ s with canOpenScope := false, canAddId := false }, Runs.cons h1 (Runs.cons ?_ (Runs.nil _)), ?_, rfl, rfl, hc⟩
      · simp [check, Tok.cap, ho, hs]
      · simp [JinjaDefinitions.view]
    | cons sc rest =>
      refine ⟨{ s with canOpenScope := false, canAddId := false, currentScope := { sc with start := d.closing.stop } :: rest },
        Runs.cons h1 (Runs.cons ?_ (Runs.nil _)), ?_, rfl, rfl, hc⟩
      · simp [check, Tok.cap, ho, hs]
      · simp [JinjaDefinitions.view, hs]
  · refine ⟨s, Runs.cons h1 (Runs.cons ?_ (Runs.nil _)), rfl, rfl, ?_, hc⟩
    · simp [check, Tok.cap, ho]
    · rcases ha with h | h
      · exact h
      · exact absurd h ho

/-- an end tag closes the innermost scope at its opening delimiter -/
theorem runs_end (de : Delims) (kw : Tok) (te : List HTok) (s : JinjaDefinitions) (ha : s.canAddId = false)
    (ds : List Definition) (n : Nat) (st : List Nat) (cl : List (Nat × Point)) (hv : s.view = ⟨ds, n :: st, cl⟩) :
    ∃ s', Runs s (kw.cap .endblock :: hcaps te ++ de.caps) s' ∧
      s'.view = ⟨ds, st, cl ++ [(n, de.opening.start)]⟩ ∧ s'.allIds = s.allIds ∧ Idle s' := by
  let s1 : JinjaDefinitions := { s with isEnd := true, canCloseScope := true, canOpenScope := false }
  obtain ⟨s2, hr2, hs2⟩ := runs_idle te s1 ha
  have hv2 : s2.view = ⟨ds, n :: st, cl⟩ := by rw [hs2.view]; exact hv
  have hc2 : s2.canCloseScope = true := hs2.close
  have he2 : s2.isEnd = true := hs2.isEnd
  have hcur : ∃ sc rest, s2.currentScope = sc :: rest ∧ sc.id = n ∧ rest.map (·.id) = st := by
    have : s2.currentScope.map (·.id) = n :: st := congrArg View.stack hv2
    match hsc : s2.currentScope with
    | [] => rw [hsc] at this; cases this
    | sc :: rest => rw [hsc] at this; simp at this; exact ⟨sc, rest, rfl, this.1, this.2⟩
  obtain ⟨sc, rest, hsc, hid, hrest⟩ := hcur
  let s3 : JinjaDefinitions := { s2 with canCloseScope := false, canAddId := false, isEnd := false, currentScope := rest,
                                         allScopes := s2.allScopes ++ [{ sc with stop := de.opening.start }] }
  have h3 : s2.check (de.opening.cap .scopeEnd) = .ok (some s3) := by
    simp [check, Tok.cap, hc2, he2, hsc, s3]
  have hv3 : s3.view = ⟨ds, st, cl ++ [(n, de.opening.start)]⟩ := by
    have e1 : s2.definitions.map norm = ds := congrArg View.defs hv2
    have e2 : (s2.allScopes.map fun sc => (sc.id, sc.stop)) = cl := congrArg View.closed hv2
    simp [JinjaDefinitions.view, s3, e1, e2, hrest, hid]
  have hlast : ∃ s4, Runs s3 [de.closing.cap .scopeStart] s4 ∧ s4.view = s3.view ∧ s4.allIds = s3.allIds ∧ Idle s4 := by
    by_cases ho : s3.canOpenScope = true
    · cases hs : s3.currentScope with
      | nil =>
        refine ⟨{ s3 with canOpenScope := false, canAddId := false }, Runs.cons ?_ (Runs.nil _), ?_, rfl, rfl, rfl⟩
        · simp [check, Tok.cap, ho, hs]
        · simp [JinjaDefinitions.view]
      | cons sc rest =>
        refine ⟨{ s3 with canOpenScope := false, canAddId := false, currentScope := { sc with start := de.closing.stop } :: rest },
          Runs.cons ?_ (Runs.nil _), ?_, rfl, rfl, rfl⟩
        · simp [check, Tok.cap, ho, hs]
        · simp [JinjaDefinitions.view, hs]
    · refine ⟨s3, Runs.cons ?_ (Runs.nil _), rfl, rfl, rfl, rfl⟩
      simp [check, Tok.cap, ho]
  obtain ⟨s4, hr4, hv4, hi4, hid4⟩ := hlast
  refine ⟨s4, ?_, hv4.trans hv3, hi4.trans hs2.seen, hid4⟩
  refine Runs.append (t := s2) (Runs.cons (t := s1) rfl hr2) (Runs.cons h3 hr4)

/-! ### Headers -/

/-- the identifier recorded for a token while the innermost scope is `n` -/
def tokIdent (t : Tok) (n : Nat) : Identifier :=
  { Identifier.default with start := t.start, stop := t.stop, name := t.text, scopeId := n }

theorem frontId_eq (s : JinjaDefinitions) : s.frontId = (s.currentScope.map (·.id)).headD 0 := by
  unfold frontId; split <;> rename_i h <;> simp [h]

theorem check_id (s : JinjaDefinitions) (t : Tok) (ha : s.canAddId = true) (d : Definition)
    (hl : s.definitions.getLast? = some d) :
    s.check (t.cap .id) = .ok (some { s with
      definitions := s.definitions.dropLast ++ [(addId d (tokIdent t s.frontId)).1]
      canAddId := if (addId d (tokIdent t s.frontId)).2 then s.canAddId else false }) := by
  simp only [check, Tok.cap, ha, hl, Bool.not_true]
  rfl

/-- further header tokens of a `for` -/
theorem runs_for : ∀ (ts : List HTok) (s : JinjaDefinitions) (k : Identifier), k.name ≠ [] →
    s.definitions.getLast? = some (.forLoop k none) → s.canAddId = true → Runs s (hcaps ts) s
  | [], s, _, _, _, _ => Runs.nil s
  | .name t :: ts, s, k, hk, hl, ha => by
    refine Runs.cons (t := s) ?_ (runs_for ts s k hk hl ha)
    show s.check (t.cap .id) = _
    rw [check_id s t ha _ hl]
    have : k.name.isEmpty = false := by cases h : k.name <;> simp_all
    simp only [addId, this]
    simp [dropLast_getLast? hl]
  | .eq t :: ts, s, k, hk, hl, ha => by
    refine Runs.cons (t := s) ?_ (runs_for ts s k hk hl ha)
    show s.check (t.cap .equals) = _
    simp [check, Tok.cap, hl]

/-- header tokens of a `with` -/
theorem runs_with (n : Nat) : ∀ (ts : List HTok) (s : JinjaDefinitions) (ks : List Identifier) (ds : List Definition),
    s.definitions = ds ++ [.with_ ks] → s.canAddId = true → s.frontId = n →
    Runs s (hcaps ts) { s with definitions := ds ++ [.with_ (ks ++ (names ts).map (tokIdent · n))] }
  | [], s, ks, ds, hd, _, _ => by
    have : s = { s with definitions := ds ++ [.with_ (ks ++ (names []).map (tokIdent · n))] } := by
      simp only [names, List.map_nil, List.append_nil, ← hd]
    rw [← this]; exact Runs.nil s
  | .name t :: ts, s, ks, ds, hd, ha, hf => by
    have hl : s.definitions.getLast? = some (.with_ ks) := by simp [hd]
    have h1 := check_id s t ha _ hl
    simp only [addId, if_true, hf, hd, List.dropLast_concat] at h1
    have := runs_with n ts { s with definitions := ds ++ [.with_ (ks ++ [tokIdent t n])] } (ks ++ [tokIdent t n]) ds rfl ha hf
    refine Runs.cons (t := _) h1 ?_
    simpa [names, ha, hcaps] using this
  | .eq t :: ts, s, ks, ds, hd, ha, hf => by
    refine Runs.cons (t := s) ?_ (by simpa [names, hcaps] using runs_with n ts s ks ds hd ha hf)
    show s.check (t.cap .equals) = _
    simp [check, Tok.cap, hd]

/-- header tokens of a `macro` after its name -/
theorem runs_macro (n m : Nat) : ∀ (ts : List HTok) (s : JinjaDefinitions) (ks : List Identifier) (ds : List Definition),
    s.definitions = ds ++ [.macro_ ks m] → ks ≠ [] → s.canAddId = true → s.frontId = n →
    Runs s (hcaps ts) { s with definitions := ds ++ [.macro_ (ks ++ (names ts).map (tokIdent · n)) m] }
  | [], s, ks, ds, hd, _, _, _ => by
    have : s = { s with definitions := ds ++ [.macro_ (ks ++ (names []).map (tokIdent · n)) m] } := by
      simp only [names, List.map_nil, List.append_nil, ← hd]
    rw [← this]; exact Runs.nil s
  | .name t :: ts, s, ks, ds, hd, hk, ha, hf => by
    have hl : s.definitions.getLast? = some (.macro_ ks m) := by simp [hd]
    have h1 := check_id s t ha _ hl
    have he : ks.isEmpty = false := by cases ks <;> simp_all
    simp only [addId, he, hf, hd, List.dropLast_concat] at h1
    have := runs_macro n m ts { s with definitions := ds ++ [.macro_ (ks ++ [tokIdent t n]) m] } (ks ++ [tokIdent t n]) ds rfl
      (by simp) ha hf
    refine Runs.cons (t := _) h1 ?_
    simpa [names, ha, hcaps] using this
  | .eq t :: ts, s, ks, ds, hd, hk, ha, hf => by
    refine Runs.cons (t := s) ?_ (by simpa [names, hcaps] using runs_macro n m ts s ks ds hd hk ha hf)
    show s.check (t.cap .equals) = _
    simp [check, Tok.cap, hd]

/-- the definition recorded for an opening tag; `cur` is the scope around it -/
def headDefs (cur : Nat) : Head → List Definition
  | .for_ kw target _ => [.forLoop (tokIdent target kw.node) none]
  | .with_ kw ts => [.with_ ((names ts).map (tokIdent · kw.node))]
  | .macro_ kw name ts => [.macro_ (tokIdent name cur :: (names ts).map (tokIdent · kw.node)) cur]
  | .block kw name _ => [.block (tokIdent name kw.node)]
  | .plain _ _ => []

/-- an opening tag records its definition and opens a scope -/
theorem runs_head (d : Delims) (h : Head) (hok : h.Ok) (s : JinjaDefinitions) (_hi : Idle s)
    (hn : h.kw.node ∉ s.allIds) :
    ∃ s', Runs s (h.caps ++ d.caps) s' ∧ Idle s' ∧
      s'.view = ⟨s.view.defs ++ headDefs (s.view.stack.headD 0) h, h.kw.node :: s.view.stack, s.view.closed⟩ ∧
      (∀ n ∈ s'.allIds, n ∈ s.allIds ∨ n = h.kw.node) := by
  have hfront : s.view.stack.headD 0 = s.frontId := (frontId_eq s).symm
  cases h with
  | for_ kw target ts =>
    simp only [Head.kw] at hn
    let s1 : JinjaDefinitions := { s with
      allIds := kw.node :: s.allIds, definitions := s.definitions ++ [.forLoop Identifier.default none]
      currentScope := ⟨kw.node, Point.zero, Point.zero⟩ :: s.currentScope
      canCloseScope := false, canOpenScope := true, isEnd := false, canAddId := true }
    have h1 : s.check (kw.kwCap c!"for") = .ok (some s1) := by
      simp only [check, Tok.kwCap, Tok.cap, hn, if_false]; rfl
    let s2 : JinjaDefinitions := { s1 with definitions := s.definitions ++ [.forLoop (tokIdent target kw.node) none] }
    have h2 : s1.check (target.cap .id) = .ok (some s2) := by
      rw [check_id s1 target rfl (.forLoop Identifier.default none) (by simp [s1])]
      simp [s1, s2, addId, Identifier.default, frontId]
    have hr := runs_for ts s2 (tokIdent target kw.node) hok (by simp [s2]) rfl
    obtain ⟨s3, hr3, hv3, hi3, hid3⟩ := runs_delims d s2 rfl (Or.inr rfl)
    refine ⟨s3, ?_, hid3, ?_, ?_⟩
    · exact Runs.append (Runs.cons h1 (Runs.cons h2 hr)) hr3
    · rw [hv3]; simp [JinjaDefinitions.view, s2, s1, headDefs, Head.kw, norm]
    · intro n hn'; rw [hi3] at hn'; simp [s2, s1, Head.kw] at hn' ⊢; exact hn'.symm
  | with_ kw ts =>
    simp only [Head.kw] at hn
    let s1 : JinjaDefinitions := { s with
      allIds := kw.node :: s.allIds, definitions := s.definitions ++ [.with_ []]
      currentScope := ⟨kw.node, Point.zero, Point.zero⟩ :: s.currentScope
      canCloseScope := false, canOpenScope := true, isEnd := false, canAddId := true }
    have h1 : s.check (kw.kwCap c!"with") = .ok (some s1) := by
      simp only [check, Tok.kwCap, Tok.cap, hn, if_false]; rfl
    have hr := runs_with kw.node ts s1 [] s.definitions rfl rfl rfl
    obtain ⟨s3, hr3, hv3, hi3, hid3⟩ := runs_delims d
      { s1 with definitions := s.definitions ++ [.with_ ([] ++ (names ts).map (tokIdent · kw.node))] } rfl (Or.inr rfl)
    refine ⟨s3, ?_, hid3, ?_, ?_⟩
    · exact Runs.append (Runs.cons h1 hr) hr3
    · rw [hv3]; simp [JinjaDefinitions.view, s1, headDefs, Head.kw, norm]
    · intro n hn'; rw [hi3] at hn'; simp [s1, Head.kw] at hn' ⊢; exact hn'.symm
  | macro_ kw name ts =>
    simp only [Head.kw] at hn
    let s1 : JinjaDefinitions := { s with
      allIds := kw.node :: s.allIds, definitions := s.definitions ++ [.macro_ [] s.frontId]
      currentScope := ⟨kw.node, Point.zero, Point.zero⟩ :: s.currentScope
      canCloseScope := false, canOpenScope := true, isEnd := false, canAddId := true }
    have h1 : s.check (kw.kwCap c!"macro") = .ok (some s1) := by
      simp only [check, Tok.kwCap, Tok.cap, hn, if_false]; rfl
    let s2 : JinjaDefinitions := { s1 with definitions := s.definitions ++ [.macro_ [tokIdent name s.frontId] s.frontId] }
    have h2 : s1.check (name.cap .id) = .ok (some s2) := by
      rw [check_id s1 name rfl (.macro_ [] s.frontId) (by simp [s1])]
      simp [s1, s2, addId, tokIdent]
    have hr := runs_macro kw.node s.frontId ts s2 [tokIdent name s.frontId] s.definitions rfl (by simp) rfl rfl
    obtain ⟨s3, hr3, hv3, hi3, hid3⟩ := runs_delims d
      { s2 with definitions := s.definitions ++
          [.macro_ ([tokIdent name s.frontId] ++ (names ts).map (tokIdent · kw.node)) s.frontId] } rfl (Or.inr rfl)
    refine ⟨s3, ?_, hid3, ?_, ?_⟩
    · exact Runs.append (Runs.cons h1 (Runs.cons h2 hr)) hr3
    · rw [hv3, hfront]; simp [JinjaDefinitions.view, s2, s1, headDefs, Head.kw, norm]
    · intro n hn'; rw [hi3] at hn'; simp [s2, s1, Head.kw] at hn' ⊢; exact hn'.symm
  | block kw name ts =>
    simp only [Head.kw] at hn
    let s1 : JinjaDefinitions := { s with
      allIds := kw.node :: s.allIds, definitions := s.definitions ++ [.block Identifier.default]
      currentScope := ⟨kw.node, Point.zero, Point.zero⟩ :: s.currentScope
      canCloseScope := false, canOpenScope := true, isEnd := false, canAddId := true }
    have h1 : s.check (kw.kwCap c!"block") = .ok (some s1) := by
      simp only [check, Tok.kwCap, Tok.cap, hn, if_false]; rfl
    let s2 : JinjaDefinitions := { s1 with definitions := s.definitions ++ [.block (tokIdent name kw.node)], canAddId := false }
    have h2 : s1.check (name.cap .id) = .ok (some s2) := by
      rw [check_id s1 name rfl (.block Identifier.default) (by simp [s1])]
      simp [s1, s2, addId, Identifier.default, frontId]
    obtain ⟨s2', hr, hs⟩ := runs_idle ts s2 rfl
    obtain ⟨s3, hr3, hv3, hi3, hid3⟩ := runs_delims d s2' (by rw [hs.close]; rfl) (Or.inl hs.addId)
    refine ⟨s3, ?_, hid3, ?_, ?_⟩
    · exact Runs.append (Runs.cons h1 (Runs.cons h2 hr)) hr3
    · rw [hv3, hs.view]; simp [JinjaDefinitions.view, s2, s1, headDefs, Head.kw, norm]
    · intro n hn'; rw [hi3, hs.seen] at hn'; simp [s2, s1, Head.kw] at hn' ⊢; exact hn'.symm
  | plain kw ts =>
    let s1 : JinjaDefinitions := { s with
      currentScope := ⟨kw.node, Point.zero, Point.zero⟩ :: s.currentScope
      canCloseScope := false, canOpenScope := true, isEnd := false, canAddId := false }
    have h1 : s.check (kw.cap .scope) = .ok (some s1) := rfl
    obtain ⟨s2, hr, hs⟩ := runs_idle ts s1 rfl
    obtain ⟨s3, hr3, hv3, hi3, hid3⟩ := runs_delims d s2 (by rw [hs.close]; rfl) (Or.inl hs.addId)
    refine ⟨s3, ?_, hid3, ?_, ?_⟩
    · exact Runs.append (Runs.cons h1 hr) hr3
    · rw [hv3, hs.view]; simp [JinjaDefinitions.view, s1, headDefs, Head.kw]
    · intro n hn'; rw [hi3, hs.seen] at hn'; exact Or.inl hn'

/-- the definitions recorded for a leaf -/
def leafDefs (cur : Nat) : Leaf → List Definition
  | .set _ _ target _ => [.set (tokIdent target cur) true]
  | _ => []

theorem runs_leaf (l : Leaf) (hok : l.Ok) (s : JinjaDefinitions) (hi : Idle s) (hn : ∀ n ∈ l.nodes, n ∉ s.allIds) :
    ∃ s', Runs s l.caps s' ∧ Idle s' ∧
      s'.view = ⟨s.view.defs ++ leafDefs (s.view.stack.headD 0) l, s.view.stack, s.view.closed⟩ ∧
      (∀ n ∈ s'.allIds, n ∈ s.allIds ∨ n ∈ l.nodes) := by
  cases l with
  | expr ts =>
    obtain ⟨s', hr, hs⟩ := runs_idle ts s hi.addId
    refine ⟨s', hr, ⟨hs.addId.trans hi.addId, ?_⟩, ?_, ?_⟩
    · rw [hs.close, hs.isEnd]; exact hi.close
    · rw [hs.view]; simp [leafDefs]
    · intro n h; rw [hs.seen] at h; exact Or.inl h
  | stmt d ts =>
    obtain ⟨s1, hr, hs⟩ := runs_idle ts s hi.addId
    obtain ⟨s2, hr2, hv2, hi2, hid2⟩ := runs_delims d s1 (by rw [hs.close, hs.isEnd]; exact hi.close)
      (Or.inl (hs.addId.trans hi.addId))
    refine ⟨s2, Runs.append hr hr2, hid2, ?_, ?_⟩
    · rw [hv2, hs.view]; simp [leafDefs]
    · intro n h; rw [hi2, hs.seen] at h; exact Or.inl h
  | set d kw target ts =>
    simp only [Leaf.nodes, List.mem_singleton, forall_eq] at hn
    let s1 : JinjaDefinitions := { s with
      allIds := kw.node :: s.allIds, definitions := s.definitions ++ [.set Identifier.default false], canAddId := true }
    have h1 : s.check (kw.kwCap c!"set") = .ok (some s1) := by
      simp only [check, Tok.kwCap, Tok.cap, hn, if_false]; rfl
    let s2 : JinjaDefinitions := { s1 with definitions := s.definitions ++ [.set (tokIdent target s.frontId) false], canAddId := false }
    have h2 : s1.check (target.cap .id) = .ok (some s2) := by
      rw [check_id s1 target rfl (.set Identifier.default false) (by simp [s1])]
      simp [s1, s2, addId, Identifier.default, frontId]
    obtain ⟨s3, hr, hs⟩ := runs_idle ts s2 rfl
    obtain ⟨s4, hr4, hv4, hi4, hid4⟩ := runs_delims d s3 (by rw [hs.close, hs.isEnd]; exact hi.close) (Or.inl hs.addId)
    refine ⟨s4, ?_, hid4, ?_, ?_⟩
    · exact Runs.append (Runs.cons h1 (Runs.cons h2 hr)) hr4
    · rw [hv4, hs.view]
      have hfront : s.view.stack.headD 0 = s.frontId := (frontId_eq s).symm
      rw [hfront]
      simp [JinjaDefinitions.view, s2, s1, leafDefs, norm]
    · intro n h; rw [hi4, hs.seen] at h; simp [s2, s1, Leaf.nodes] at h ⊢; exact h.symm

/-! ### Templates -/

/-- the definitions recorded for a template, with the ids of their scopes -/
def rawDefs (cur : Nat) : Tpl → List Definition
  | .nil => []
  | .leaf l rest => leafDefs cur l ++ rawDefs cur rest
  | .blk _ h body _ _ _ rest => headDefs cur h ++ (rawDefs h.kw.node body ++ rawDefs cur rest)

/-- the scopes closed by a template -/
def closedBy : Tpl → List (Nat × Point)
  | .nil => []
  | .leaf _ rest => closedBy rest
  | .blk _ h body de _ _ rest => closedBy body ++ (h.kw.node, de.opening.start) :: closedBy rest

theorem runs_tpl : ∀ (t : Tpl) (s : JinjaDefinitions), t.Ok → t.nodes.Nodup → Idle s → (∀ n ∈ t.nodes, n ∉ s.allIds) →
    ∃ s', Runs s t.caps s' ∧ Idle s' ∧
      s'.view = ⟨s.view.defs ++ rawDefs (s.view.stack.headD 0) t, s.view.stack, s.view.closed ++ closedBy t⟩ ∧
      (∀ n ∈ s'.allIds, n ∈ s.allIds ∨ n ∈ t.nodes)
  | .nil, s, _, _, hi, _ => ⟨s, Runs.nil s, hi, by simp [rawDefs, closedBy], fun n h => Or.inl h⟩
  | .leaf l rest, s, hok, hnd, hi, hn => by
    simp only [Tpl.nodes, List.nodup_append, List.mem_append] at hnd hn
    obtain ⟨s1, hr1, hi1, hv1, hs1⟩ := runs_leaf l hok.1 s hi (fun n h => hn n (Or.inl h))
    obtain ⟨s2, hr2, hi2, hv2, hs2⟩ := runs_tpl rest s1 hok.2 hnd.2.1 hi1 (by
      intro n h h'
      rcases hs1 n h' with h'' | h''
      · exact hn n (Or.inr h) h''
      · exact hnd.2.2 n h'' n h rfl)
    refine ⟨s2, Runs.append hr1 hr2, hi2, ?_, ?_⟩
    · rw [hv2, hv1]; simp [rawDefs, closedBy]
    · intro n h
      simp only [Tpl.nodes, List.mem_append]
      rcases hs2 n h with h | h
      · rcases hs1 n h with h | h
        · exact Or.inl h
        · exact Or.inr (Or.inl h)
      · exact Or.inr (Or.inr h)
  | .blk d h body de kwEnd te rest, s, hok, hnd, hi, hn => by
    simp only [Tpl.nodes, List.nodup_cons, List.nodup_append, List.mem_append, List.mem_cons, not_or] at hnd hn
    obtain ⟨s1, hr1, hi1, hv1, hs1⟩ := runs_head d h hok.1 s hi (hn _ (Or.inl rfl))
    obtain ⟨s2, hr2, hi2, hv2, hs2⟩ := runs_tpl body s1 hok.2.1 hnd.2.1 hi1 (by
      intro n hb h'
      rcases hs1 n h' with h'' | h''
      · exact hn n (Or.inr (Or.inl hb)) h''
      · subst h''; exact hnd.1.1 hb)
    have hv2' : s2.view = ⟨s.view.defs ++ headDefs (s.view.stack.headD 0) h ++ rawDefs h.kw.node body,
        h.kw.node :: s.view.stack, s.view.closed ++ closedBy body⟩ := by
      rw [hv2, hv1]; simp
    obtain ⟨s3, hr3, hv3, hs3, hi3⟩ := runs_end de kwEnd te s2 hi2.addId _ _ _ _ hv2'
    obtain ⟨s4, hr4, hi4, hv4, hs4⟩ := runs_tpl rest s3 hok.2.2 hnd.2.2.1 hi3 (by
      intro n hb h'
      rw [hs3] at h'
      rcases hs2 n h' with h'' | h''
      · rcases hs1 n h'' with h3 | h3
        · exact hn n (Or.inr (Or.inr hb)) h3
        · subst h3; exact hnd.1.2 hb
      · exact hnd.2.2.2 n h'' n hb rfl)
    refine ⟨s4, ?_, hi4, ?_, ?_⟩
    · have := Runs.append hr1 (Runs.append hr2 (Runs.append hr3 hr4))
      exact this
    · rw [hv4, hv3]; simp [rawDefs, closedBy, List.append_assoc]
    · intro n h
      simp only [Tpl.nodes, List.mem_cons, List.mem_append]
      rcases hs4 n h with h | h
      · rw [hs3] at h
        rcases hs2 n h with h | h
        · rcases hs1 n h with h | h
          · exact Or.inl h
          · exact Or.inr (Or.inl h)
        · exact Or.inr (Or.inr (Or.inl h))
      · exact Or.inr (Or.inr (Or.inr h))

/-! ### From scope ids to positions -/

/-- the identifiers of one definition with the scope ends looked up -/
def resolve (L : Nat → Point) (d : Definition) : List Binding :=
  match d with
  | .forLoop k v => ⟨k.name, k.start, k.stop, .forLoopKey, L k.scopeId⟩ ::
      (match v with | some v => [⟨v.name, v.start, v.stop, .forLoopValue, L k.scopeId⟩] | none => [])
  | .set k _ => [⟨k.name, k.start, k.stop, .setVariable, L k.scopeId⟩]
  | .with_ ks => ks.map fun k => ⟨k.name, k.start, k.stop, .withVariable, L k.scopeId⟩
  | .macro_ [] _ => []
  | .macro_ (k :: ks) m => ⟨k.name, k.start, k.stop, .macroName, L m⟩ ::
      ks.map fun k => ⟨k.name, k.start, k.stop, .macroParameter, L k.scopeId⟩
  | .block k => [⟨k.name, k.start, k.stop, .templateBlock, L k.scopeId⟩]

theorem resolve_norm (L : Nat → Point) (d : Definition) : resolve L (norm d) = resolve L d := by
  cases d <;> rfl

theorem collect_fixEnd (scopes : List Scope) (last : Point) (d : Definition) :
    (fixEndDef scopes last d).collect.map Identifier.binding = resolve (scopeEndOf scopes last) d := by
  cases d with
  | forLoop k v => cases v <;> simp [fixEndDef, Definition.collect, resolve, Identifier.binding]
  | set k e => simp [fixEndDef, Definition.collect, resolve, Identifier.binding]
  | with_ ks => simp [fixEndDef, Definition.collect, resolve, Identifier.binding]
  | macro_ ks m => cases ks <;> simp [fixEndDef, Definition.collect, resolve, Identifier.binding, macroKeys]
  | block k => simp [fixEndDef, Definition.collect, resolve, Identifier.binding]

/-- the recorded bindings depend only on the observable state -/
theorem bindings_fixEnd (s : JinjaDefinitions) (last : Point) :
    ((s.fixEnd last).identifiers.map Identifier.binding) =
      s.view.defs.flatMap (resolve (scopeEndOf s.allScopes last)) := by
  simp only [identifiers, fixEnd, JinjaDefinitions.view, List.map_flatMap, List.flatMap_map, resolve_norm, collect_fixEnd]

/-- the end of the scope with a given id according to the list of closed scopes -/
def lookupEnd (cl : List (Nat × Point)) (last : Point) (n : Nat) : Point :=
  match cl.find? (fun e => e.1 = n) with
  | some e => e.2
  | none => last

theorem scopeEndOf_eq (scopes : List Scope) (last : Point) (n : Nat) :
    scopeEndOf scopes last n = lookupEnd (scopes.map fun sc => (sc.id, sc.stop)) last n := by
  unfold scopeEndOf lookupEnd
  rw [List.find?_map]
  cases h : scopes.find? (fun sc => sc.id = n) with
  | none => simp [h, Function.comp_def]
  | some sc => simp [h, Function.comp_def]

theorem closedBy_subset : ∀ (t : Tpl) (e : Nat × Point), e ∈ closedBy t → e.1 ∈ t.nodes
  | .nil, e, h => by simp [closedBy] at h
  | .leaf l rest, e, h => by
    simp only [Tpl.nodes, List.mem_append]; exact Or.inr (closedBy_subset rest e h)
  | .blk _ hd body _ _ _ rest, e, h => by
    simp only [closedBy, List.mem_append, List.mem_cons] at h
    simp only [Tpl.nodes, List.mem_cons, List.mem_append]
    rcases h with h | h | h
    · exact Or.inr (Or.inl (closedBy_subset body e h))
    · subst h; exact Or.inl rfl
    · exact Or.inr (Or.inr (closedBy_subset rest e h))

theorem closedBy_sublist : ∀ (t : Tpl), ((closedBy t).map Prod.fst).Nodup ∨ ¬ t.nodes.Nodup
  | .nil => by simp [closedBy]
  | .leaf l rest => by
    rcases closedBy_sublist rest with h | h
    · exact Or.inl h
    · refine Or.inr (fun h' => h ?_)
      simp only [Tpl.nodes, List.nodup_append] at h'
      exact h'.2.1
  | .blk _ hd body _ _ _ rest => by
    by_cases hn : (Tpl.nodes (.blk ‹_› hd body ‹_› ‹_› ‹_› rest)).Nodup
    · left
      simp only [Tpl.nodes, List.nodup_cons, List.nodup_append, List.mem_append, not_or] at hn
      have hb := (closedBy_sublist body).resolve_right (fun h => h hn.2.1)
      have hr := (closedBy_sublist rest).resolve_right (fun h => h hn.2.2.1)
      simp only [closedBy, List.map_append, List.map_cons, List.nodup_append, List.nodup_cons, List.mem_cons]
      refine ⟨hb, ⟨?_, hr⟩, ?_⟩
      · intro h
        obtain ⟨e, he, e1⟩ := List.mem_map.mp h
        exact hn.1.2 (e1 ▸ closedBy_subset rest e he)
      · intro a ha b hb' hab
        subst hab
        obtain ⟨e, he, e1⟩ := List.mem_map.mp ha
        have hab := closedBy_subset body e he
        rw [e1] at hab
        rcases hb' with h | h
        · subst h; exact hn.1.1 hab
        · obtain ⟨e', he', e1'⟩ := List.mem_map.mp h
          exact hn.2.2.2 a hab a (e1' ▸ closedBy_subset rest e' he') rfl
    · exact Or.inr hn

theorem lookupEnd_mem {cl : List (Nat × Point)} (h : (cl.map Prod.fst).Nodup) (last : Point) {e : Nat × Point}
    (he : e ∈ cl) : lookupEnd cl last e.1 = e.2 := by
  induction cl with
  | nil => cases he
  | cons a l ih =>
    simp only [List.map_cons, List.nodup_cons] at h
    unfold lookupEnd
    rw [List.find?_cons]
    by_cases ha : a.1 = e.1
    · simp only [ha, decide_true]
      rcases List.mem_cons.mp he with rfl | he
      · rfl
      · exact absurd (List.mem_map_of_mem (f := Prod.fst) he) (by rw [← ha]; exact h.1)
    · simp only [ha, decide_false]
      rcases List.mem_cons.mp he with rfl | he
      · exact absurd rfl ha
      · have := ih h.2 he
        unfold lookupEnd at this
        exact this

theorem lookupEnd_not_mem {cl : List (Nat × Point)} (last : Point) {n : Nat} (h : n ∉ cl.map Prod.fst) :
    lookupEnd cl last n = last := by
  unfold lookupEnd
  have : cl.find? (fun e => decide (e.1 = n)) = none := by
    rw [List.find?_eq_none]
    intro e he h'
    simp at h'
    exact h (h' ▸ List.mem_map_of_mem (f := Prod.fst) he)
  rw [this]

/-- looked-up scope ends are the ones of the specification -/
theorem resolve_tpl (L : Nat → Point) : ∀ (t : Tpl) (cur : Nat) (outer : Point), L cur = outer →
    (∀ e ∈ closedBy t, L e.1 = e.2) → (rawDefs cur t).flatMap (resolve L) = t.bindings outer
  | .nil, _, _, _, _ => rfl
  | .leaf l rest, cur, outer, hc, hL => by
    have ih := resolve_tpl L rest cur outer hc hL
    simp only [rawDefs, List.flatMap_append, ih]
    cases l with
    | expr ts => rfl
    | stmt d ts => rfl
    | set d kw target ts => simp [leafDefs, resolve, Tpl.bindings, tokIdent, Tok.bind, hc]
  | .blk d h body de kwEnd te rest, cur, outer, hc, hL => by
    simp only [closedBy, List.mem_append, List.mem_cons] at hL
    have hin : L h.kw.node = de.opening.start := hL _ (Or.inr (Or.inl rfl))
    have ih1 := resolve_tpl L body h.kw.node de.opening.start hin (fun e he => hL e (Or.inl he))
    have ih2 := resolve_tpl L rest cur outer hc (fun e he => hL e (Or.inr (Or.inr he)))
    simp only [rawDefs, List.flatMap_append, ih1, ih2, Tpl.bindings, List.append_assoc]
    congr 1
    cases h with
    | for_ kw target ts => simp only [Head.kw] at hin; simp [headDefs, resolve, Head.bindings, tokIdent, Tok.bind, hin]
    | with_ kw ts => simp only [Head.kw] at hin; simp [headDefs, resolve, Head.bindings, tokIdent, Tok.bind, hin]
    | macro_ kw name ts =>
      simp only [Head.kw] at hin; simp [headDefs, resolve, Head.bindings, tokIdent, Tok.bind, hin, hc]
    | block kw name ts => simp only [Head.kw] at hin; simp [headDefs, resolve, Head.bindings, tokIdent, Tok.bind, hin]
    | plain kw ts => rfl

theorem view_default : JinjaDefinitions.default.view = ⟨[], [], []⟩ := rfl
theorem idle_default : Idle JinjaDefinitions.default := ⟨rfl, rfl⟩

end JinjaDefinitions

theorem selectCaptures_all (ms : List (List Capture)) (p : Point) : selectCaptures ms p true = ms.flatten := by
  unfold selectCaptures
  congr 1
  induction ms with
  | nil => rfl
  | cons m ms ih => rw [List.map_cons, ih]; simp

end JinjaLsp
