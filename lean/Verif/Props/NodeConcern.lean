import Verif.Props.Concern
import Verif.Props.NodePieces
/-
  C150: in embedded templates, what is said about a name depends on the definitions and the hints of that name only.
-/

namespace JinjaLsp
open Node Spec NodeFiles

namespace Spec

/-- the same answer of goto_definition, possibly in another order -/
def SamePlaces : Option (List JsLocation) → Option (List JsLocation) → Prop
  | none, none => True
  | some a, some b => a.Perm b
  | _, _ => False

/-- the hints told under a key that hover may show for a name: those whose name begins with it -/
def hintsFor (n : NodeFiles) (name : Str) : List Action := ((n.actions.get? c!"temp").getD []).filter fun a => name.isPrefixOf a.name

end Spec

theorem Spec.SamePlaces.refl (a : Option (List JsLocation)) : SamePlaces a a := by
  cases a with
  | none => trivial
  | some l => exact List.Perm.refl l

/-- moving locations does not depend on their order -/
theorem shiftLocations_perm {env : Env} {line : Nat} {l l' : List Location} (h : l.Perm l') :
    ∀ r, shiftLocations env line l = .ok r → ∃ r', shiftLocations env line l' = .ok r' ∧ r.Perm r' := by
  have inv : ∀ (x : Location) (ls : List Location) (r : List JsLocation), shiftLocations env line (x :: ls) = .ok r →
      ∃ (d : List JsLocation) (r1 : List JsLocation), shiftLocations env line ls = .ok r1 ∧ r = d ++ r1 ∧
        ∀ (ls' : List Location) (r2 : List JsLocation), shiftLocations env line ls' = .ok r2 → shiftLocations env line (x :: ls') = .ok (d ++ r2) := by
    intro x ls r hr
    unfold shiftLocations at hr
    split at hr
    · rename_i hc
      split at hr
      · cases hr
      · rename_i u hu
        split at hr
        · cases hr
        · rename_i q hq
          split at hr
          · cases hr
          · rename_i rest hrest
            cases hr
            refine ⟨[⟨u, q, true⟩], rest, hrest, rfl, fun ls' r2 h2 => ?_⟩
            simp only [shiftLocations, hc, if_true, hu, hq, h2, List.cons_append, List.nil_append]
    · rename_i hc
      refine ⟨[], r, hr, rfl, fun ls' r2 h2 => ?_⟩
      simp only [shiftLocations, hc, h2, List.nil_append]
      rfl
  induction h with
  | nil => intro r hr; exact ⟨r, hr, .refl _⟩
  | cons x _ ih =>
    intro r hr
    obtain ⟨d, r1, h1, rfl, h3⟩ := inv _ _ _ hr
    obtain ⟨r2, h4, h5⟩ := ih r1 h1
    exact ⟨d ++ r2, h3 _ _ h4, h5.append_left d⟩
  | swap x y ls =>
    intro r hr
    obtain ⟨d, r1, h1, rfl, h3⟩ := inv _ _ _ hr
    obtain ⟨d', r2, h4, rfl, h6⟩ := inv _ _ _ h1
    refine ⟨d' ++ (d ++ r2), h6 _ _ (h3 _ _ h4), ?_⟩
    rw [← List.append_assoc, ← List.append_assoc]
    exact List.perm_append_comm.append_right r2
  | trans _ _ ih1 ih2 =>
    intro r hr
    obtain ⟨r1, h1, h2⟩ := ih1 r hr
    obtain ⟨r2, h3, h4⟩ := ih2 r1 h1
    exact ⟨r2, h3, h2.trans h4⟩

/-- **C150** (goto_definition) Take two states of the Node API that may differ in everything but the embedded template and the definitions concerning a
name.  With the cursor on the name, if goto_definition returns in one of them, then it returns the same places in the other, in some order. -/
theorem C150_goto (env : Env) (sx : Syntax) (w w' : World) (hw : SameDisk w w') (n m : NodeFiles) (id line l : Nat) (fn uri text : Str) (tree : Tree)
    (es : List Elem) (u : Use) (pos : Position) (hl : usub32 env.profile pos.line line = .ok l) (hu : docUri env fn id c!"jinja" = .ok uri)
    (hx : fileExt uri = some .template) (hd : n.files.documents.get? uri = some text) (ht : (n.files.trees .template).get? uri = some tree)
    (hs : WellFormed (sx.root tree text)) (hla : Laid (sx.root tree text)) (hr : ReadsTree sx.digit (sx.root tree text) es) (hwf : Elems.Wf es)
    (hue : .use u ∈ es) (h1 : u.root.start ≤ (⟨l, pos.character⟩ : Point)) (h2 : (⟨l, pos.character⟩ : Point) < u.root.stop)
    (h : AlikeFor u.root.text uri n.files m.files) (a : Option (List JsLocation)) (ha : n.gotoDefinition (env.over sx) w id fn line pos = .ok a) :
    ∃ b, m.gotoDefinition (env.over sx) w' id fn line pos = .ok b ∧ SamePlaces a b := by
  have hg := C149_goto env sx w w' hw { Server.init with files := n.files } { Server.init with files := m.files } uri text tree es u ⟨l, pos.character⟩
    hx hd ht hs hla hr hwf hue h1 h2 h
  simp only [Server.handle] at hg
  have hl' : usub32 (env.over sx).profile pos.line line = .ok l := hl
  have hu' : docUri (env.over sx) fn id c!"jinja" = .ok uri := hu
  unfold NodeFiles.gotoDefinition at ha ⊢
  simp only [hl', hu'] at ha ⊢
  revert hg ha
  generalize n.files.gotoDefinition (env.over sx) w uri ⟨l, pos.character⟩ = x
  generalize m.files.gotoDefinition (env.over sx) w' uri ⟨l, pos.character⟩ = y
  intro hg ha
  cases x with
  | error e => cases ha
  | ok x =>
    cases y with
    | error e => exact hg.elim
    | ok y =>
      have hg : SameReply (.goto x) (.goto y) := hg
      cases hg with
      | refl => exact ⟨a, ha, .refl a⟩
      | goto hp =>
        dsimp only at ha ⊢
        split at ha
        · cases ha
        · rename_i r hr'
          cases ha
          obtain ⟨r', k1, k2⟩ := shiftLocations_perm hp r hr'
          exact ⟨some r', by rw [k1], k2⟩

/-- the first match of a test among those that pass it -/
theorem find_filter {α : Type} (p : α → Bool) : ∀ (l : List α), l.find? p = (l.filter p).head?
  | [] => rfl
  | x :: l => by
    cases h : p x with
    | true => rw [List.find?_cons_of_pos h, List.filter_cons_of_pos h]; rfl
    | false => rw [List.find?_cons_of_neg (by simp [h]), List.filter_cons_of_neg (by simp [h]), find_filter p l]

/-- **C150** (hover; hints with longer names must be the same too) Hover returns the same in both, if the hints are the same that were told for the
name or for names that begin with it. -/
theorem C150_hover_partial (env : Env) (sx : Syntax) (w w' : World) (n m : NodeFiles) (id line l : Nat) (fn uri text : Str) (tree : Tree)
    (es : List Elem) (u : Use) (pos : Position) (hl : usub32 env.profile pos.line line = .ok l) (hu : docUri env fn id c!"jinja" = .ok uri)
    (hx : fileExt uri = some .template) (hd : n.files.documents.get? uri = some text) (ht : (n.files.trees .template).get? uri = some tree)
    (hs : WellFormed (sx.root tree text)) (hla : Laid (sx.root tree text)) (hr : ReadsTree sx.digit (sx.root tree text) es) (hwf : Elems.Wf es)
    (hue : .use u ∈ es) (h1 : u.root.start ≤ (⟨l, pos.character⟩ : Point)) (h2 : (⟨l, pos.character⟩ : Point) < u.root.stop)
    (h : AlikeFor u.root.text uri n.files m.files) (hh : hintsFor m u.root.text = hintsFor n u.root.text) :
    m.hover (env.over sx) w' id fn line pos = n.hover (env.over sx) w id fn line pos := by
  obtain ⟨pre, rest, hon⟩ := onUse_tree (env := env) hs hla hr hwf hue h1 h2
  obtain ⟨i, hi, hn, _⟩ := hover_use (pos := ⟨l, pos.character⟩) hx hd ht hon
  have hg : m.files.hover (env.over sx) uri ⟨l, pos.character⟩ = n.files.hover (env.over sx) uri ⟨l, pos.character⟩ := by
    simp only [LspFiles.hover, h.tree, h.doc]
  have hl' : usub32 (env.over sx).profile pos.line line = .ok l := hl
  have hu' : docUri (env.over sx) fn id c!"jinja" = .ok uri := hu
  have hv : ∀ t, m.variableHover i.name t = n.variableHover i.name t := by
    intro t
    unfold variableHover
    rw [find_filter, find_filter, hn]
    unfold hintsFor at hh
    rw [hh]
  unfold NodeFiles.hover
  simp only [hl', hu', hg, hi, h.dataType w w' i hn, hv]

/-- **C150 is false: hints for other names**.  Where hover shows the kind of a variable, a hint for a longer name puts its text in the place of that,
although definitions and hints of the name itself are the same. -/
theorem C150_hint_refuted (env : Env) (w : World) (calls calls' : List Call) (n m : NodeFiles) (id : Nat) (fn uri : Str) (line l ch : Nat) (u : Use)
    (vars vars' : List Identifier) (h : OnEmbedded env w calls n id fn uri line l ch u vars) (h' : OnEmbedded env w calls' m id fn uri line l ch u vars')
    (_hal : AlikeFor u.root.text uri n.files m.files) (hf : u.info.filter = false) (hk : ¬ Unknown n.files uri vars u.root.text u.root.start)
    (hk' : ¬ Unknown m.files uri vars' u.root.text u.root.start) (hno : ∀ b ∈ (toldUnder c!"temp" none calls).getD [], ¬ u.root.text <+: b.name)
    (a : Action) (more : Str) (ha : toldUnder c!"temp" none calls' = some [a]) (hn : a.name = u.root.text ++ more) (hm : more ≠ [])
    (hdesc : ∀ t : IdType, a.description ≠ kindText t ++ c!"\n\n---\n**" ++ u.root.text ++ c!"**") :
    a.name ≠ u.root.text ∧ m.hover env w id fn line ⟨l + line, ch⟩ ≠ n.hover env w id fn line ⟨l + line, ch⟩ := by
  obtain ⟨k1, k2⟩ := C94_longer_refuted env w calls' m id fn uri line l ch u vars' h' hf hk' [] [] a more ha hn hm (by simp)
  obtain ⟨t, _, k3⟩ := C94_kind env w calls n id fn uri line l ch u vars h hf hk hno
  refine ⟨k1, fun e => hdesc t ?_⟩
  rw [k2, k3] at e
  injection e with e
  injection e with e
  injection e with e _

/-- telling hints for other names -/
theorem told_alike {n : NodeFiles} {name uri : Str} {as : List Action} {hint : Option Str} (hk : hint.getD c!"temp" ≠ uri)
    (ho : concerning name ((n.files.variables.get? (hint.getD c!"temp")).getD []) = []) (ha : ∀ a ∈ as, ¬ Concerns name a.name) :
    AlikeFor name uri n.files (n.saveLinkHint (some as) hint).files := by
  refine ⟨rfl, rfl, rfl, rfl, ?_, fun k _ => ?_⟩
  · simp only [saveLinkHint]
    rw [HMap.get?_insert_ne _ _ (Ne.symm hk)]
  · simp only [saveLinkHint]
    by_cases e : k = hint.getD c!"temp"
    · subst e
      rw [HMap.get?_insert_self, ho]
      refine List.eq_nil_iff_forall_not_mem.mpr fun v hv => ?_
      obtain ⟨k1, k2⟩ := mem_concerning.mp hv
      obtain ⟨a, k3, rfl⟩ := List.mem_map.mp k1
      exact ha a k3 k2
    · rw [HMap.get?_insert_ne _ _ e]

/-- **C150** (a session) Telling hints for other names under a key of its own does not change where goto_definition leads. -/
theorem C150_told (env : Env) (sx : Syntax) (w : World) (calls : List Call) (n : NodeFiles) (id : Nat) (fn uri host above margin content below : Str)
    (line : Nat) (col : Option Nat) (root : Syn) (last : Point) (is : List Item) (es : List Elem)
    (h : HostedItems env sx w calls n id fn uri host above margin content below line col root last is es) (u : Use) (hu : .use u ∈ es)
    (l : Nat) (pos : Position) (hl : usub32 env.profile pos.line line = .ok l) (h1 : u.root.start ≤ (⟨l, pos.character⟩ : Point))
    (h2 : (⟨l, pos.character⟩ : Point) < u.root.stop) (as : List Action) (hint : Option Str) (hk : hint.getD c!"temp" ≠ uri)
    (ho : ∀ v ∈ (n.files.variables.get? (hint.getD c!"temp")).getD [], ¬ Concerns u.root.text v.name)
    (ha : ∀ a ∈ as, ¬ Concerns u.root.text a.name) (a : Option (List JsLocation)) (hg : n.gotoDefinition (env.over sx) w id fn line pos = .ok a) :
    ∃ m b, Call.run (env.over sx) w NodeFiles.new (calls ++ [.saveLinkHint (some as) hint]) = .ok m ∧
      m.gotoDefinition (env.over sx) w id fn line pos = .ok b ∧ SamePlaces a b := by
  obtain ⟨old, _, hd, ht, _, _⟩ := h.recorded
  have hroot := (h.parses old).2
  have hn : concerning u.root.text ((n.files.variables.get? (hint.getD c!"temp")).getD []) = [] :=
    List.eq_nil_iff_forall_not_mem.mpr fun v hv => ho v (mem_concerning.mp hv).1 (mem_concerning.mp hv).2
  obtain ⟨b, k1, k2⟩ := C150_goto env sx w w ⟨rfl, rfl, rfl⟩ n (n.saveLinkHint (some as) hint) id line l fn uri _ _ es u pos hl h.uri_eq h.template hd ht
    (hroot ▸ h.wf) (hroot ▸ h.nodes) (hroot ▸ h.uses) h.usesWf hu h1 h2 (told_alike hk hn ha) a hg
  refine ⟨_, b, ?_, k1, k2⟩
  have key : ∀ (cs : List Call) (k : NodeFiles), Call.run (env.over sx) w k cs = .ok n →
      Call.run (env.over sx) w k (cs ++ [.saveLinkHint (some as) hint]) = .ok (n.saveLinkHint (some as) hint) := by
    intro cs
    induction cs with
    | nil => intro k hk; cases hk; rfl
    | cons c cs ih =>
      intro k hk
      simp only [List.cons_append, Call.run] at hk ⊢
      cases hs : c.step (env.over sx) w k with
      | error e => rw [hs] at hk; cases hk
      | ok k' => rw [hs] at hk; exact ih k' hk
  exact key calls _ h.run

/-- calls about other documents that leave the definitions concerning the name as they are -/
theorem calls_alike {env : Env} {w : World} {cs : List Call} {n m : NodeFiles} {name uri : Str} (hc : ∀ c ∈ cs, c.leaves env uri)
    (h : Call.run env w n cs = .ok m)
    (hk : ∀ k, k ≠ uri → concerning name ((m.files.variables.get? k).getD []) = concerning name ((n.files.variables.get? k).getD [])) :
    AlikeFor name uri n.files m.files := by
  have hd := leaves_run cs hc h
  have hf := conf_run cs h
  exact ⟨hd.doc, hd.tree _, by rw [hf.conf], hf.ign, by rw [hd.vars], hk⟩

/-- **C150** (calls about other documents) After any calls about other documents, other embedded templates added, replaced or deleted and hints told
or taken back, goto_definition leads to the same places, unless the calls change a definition concerning the name. -/
theorem C150_calls (env : Env) (sx : Syntax) (w : World) (calls cs : List Call) (n m : NodeFiles) (id : Nat) (fn uri host above margin content below : Str)
    (line : Nat) (col : Option Nat) (root : Syn) (last : Point) (is : List Item) (es : List Elem)
    (h : HostedItems env sx w calls n id fn uri host above margin content below line col root last is es) (u : Use) (hu : .use u ∈ es)
    (l : Nat) (pos : Position) (hl : usub32 env.profile pos.line line = .ok l) (h1 : u.root.start ≤ (⟨l, pos.character⟩ : Point))
    (h2 : (⟨l, pos.character⟩ : Point) < u.root.stop) (hc : ∀ c ∈ cs, c.leaves (env.over sx) uri) (hm : Call.run (env.over sx) w n cs = .ok m)
    (hk : ∀ k, k ≠ uri → concerning u.root.text ((m.files.variables.get? k).getD []) = concerning u.root.text ((n.files.variables.get? k).getD []))
    (a : Option (List JsLocation)) (hg : n.gotoDefinition (env.over sx) w id fn line pos = .ok a) :
    ∃ b, m.gotoDefinition (env.over sx) w id fn line pos = .ok b ∧ SamePlaces a b := by
  obtain ⟨old, _, hd, ht, _, _⟩ := h.recorded
  have hroot := (h.parses old).2
  exact C150_goto env sx w w ⟨rfl, rfl, rfl⟩ n m id line l fn uri _ _ es u pos hl h.uri_eq h.template hd ht
    (hroot ▸ h.wf) (hroot ▸ h.nodes) (hroot ▸ h.uses) h.usesWf hu h1 h2 (calls_alike hc hm hk) a hg

/-- **C150** (hover after calls about other documents that tell and take back no hints under `temp`) -/
theorem C150_calls_hover_partial (env : Env) (sx : Syntax) (w : World) (calls cs : List Call) (n m : NodeFiles) (id : Nat)
    (fn uri host above margin content below : Str) (line : Nat) (col : Option Nat) (root : Syn) (last : Point) (is : List Item) (es : List Elem)
    (h : HostedItems env sx w calls n id fn uri host above margin content below line col root last is es) (u : Use) (hu : .use u ∈ es)
    (l : Nat) (pos : Position) (hl : usub32 env.profile pos.line line = .ok l) (h1 : u.root.start ≤ (⟨l, pos.character⟩ : Point))
    (h2 : (⟨l, pos.character⟩ : Point) < u.root.stop) (hc : ∀ c ∈ cs, c.leaves (env.over sx) uri) (hn : ∀ c ∈ cs, c.noHints c!"temp")
    (hm : Call.run (env.over sx) w n cs = .ok m)
    (hk : ∀ k, k ≠ uri → concerning u.root.text ((m.files.variables.get? k).getD []) = concerning u.root.text ((n.files.variables.get? k).getD [])) :
    m.hover (env.over sx) w id fn line pos = n.hover (env.over sx) w id fn line pos := by
  obtain ⟨old, _, hd, ht, _, _⟩ := h.recorded
  have hroot := (h.parses old).2
  exact C150_hover_partial env sx w w n m id line l fn uri _ _ es u pos hl h.uri_eq h.template hd ht
    (hroot ▸ h.wf) (hroot ▸ h.nodes) (hroot ▸ h.uses) h.usesWf hu h1 h2 (calls_alike hc hm hk) (by simp only [hintsFor, noHints_run cs hn hm])

namespace Fix

/-- the name `user` is declared under `other`, then the template is added -/
def knownCalls : List Call := embeddedCalls [.saveLinkHint (some [⟨c!"user", c!"the user"⟩]) (some c!"other")]

/-- and then a hint for `username` is told -/
def longerCalls : List Call := knownCalls ++ [.saveLinkHint (some [⟨c!"username", c!"the name"⟩]) none]

theorem username_other : ¬ Concerns c!"user" c!"username" := by
  rintro (e | ⟨x, e⟩)
  · exact absurd e (by decide)
  · have e : (['u', 's', 'e', 'r', 'n', 'a', 'm', 'e'] : Str) = 'u' :: 's' :: 'e' :: 'r' :: '.' :: x := e
    injection e with _ e
    injection e with _ e
    injection e with _ e
    injection e with _ e
    injection e with e _
    exact absurd e (by decide)

theorem known_alike : ∃ n, Call.run embeddedEnv world NodeFiles.new knownCalls = .ok n ∧
    Call.run embeddedEnv world NodeFiles.new longerCalls = .ok (n.saveLinkHint (some [⟨c!"username", c!"the name"⟩]) none) ∧
    AlikeFor c!"user" offsetUri n.files (n.saveLinkHint (some [⟨c!"username", c!"the name"⟩]) none).files := by
  refine ⟨_, rfl, rfl, told_alike (by decide) (List.eq_nil_iff_forall_not_mem.mpr fun v hv => ?_) (by simpa using username_other)⟩
  have k1 : v ∈ ([] : List Identifier) := (mem_concerning.mp hv).1
  cases k1

end Fix

/-- the hint for `username` is shown for `user` -/
example : ∃ n m : NodeFiles, AlikeFor c!"user" Fix.offsetUri n.files m.files ∧
    m.hover Fix.embeddedEnv Fix.world 7 c!"f" 10 ⟨0 + 10, 5⟩ ≠ n.hover Fix.embeddedEnv Fix.world 7 c!"f" 10 ⟨0 + 10, 5⟩ := by
  obtain ⟨n, h1, h2, h3⟩ := Fix.known_alike
  have g1 := h1
  cases h1
  refine ⟨_, _, h3, (C150_hint_refuted Fix.embeddedEnv Fix.world Fix.knownCalls Fix.longerCalls _ _ 7 c!"f" Fix.offsetUri 10 0 5
    ⟨.variable, Fix.tok 0 3 7 c!"user" 2, []⟩ [] []
    ⟨g1, rfl, by decide, ⟨_, _, _, _, rfl, rfl, Fix.user_on _ _⟩, rfl, by unfold RangeFits; decide⟩
    ⟨h2, rfl, by decide, ⟨_, _, _, _, rfl, rfl, Fix.user_on _ _⟩, rfl, by unfold RangeFits; decide⟩ h3 rfl ?_ ?_ ?_
    ⟨c!"username", c!"the name"⟩ c!"name" rfl rfl (by decide) (fun t => by cases t <;> decide)).2⟩
  · rintro ⟨_, h⟩
    exact h ⟨c!"other", _, by decide, _, rfl, List.mem_cons_self, by decide, Or.inl rfl⟩
  · rintro ⟨_, h⟩
    exact h ⟨c!"other", _, by decide, _, rfl, List.mem_cons_self, by decide, Or.inl rfl⟩
  · intro b hb
    have : (toldUnder c!"temp" none Fix.knownCalls).getD [] = [] := rfl
    rw [this] at hb; cases hb

/-- a hint for `b` is told: `{{ a }}` leads to the same place -/
example : ∃ (n m : NodeFiles) (b : Option (List JsLocation)), Call.run (Fix.env.over Fix.piecesSyn) Fix.world NodeFiles.new (Fix.piecesCalls Fix.shortContent) = .ok n ∧
    Call.run (Fix.env.over Fix.piecesSyn) Fix.world NodeFiles.new (Fix.piecesCalls Fix.shortContent ++ [.saveLinkHint (some [⟨c!"b", c!"the b"⟩]) none]) = .ok m ∧
    m.gotoDefinition (Fix.env.over Fix.piecesSyn) Fix.world 7 c!"f" 1 ⟨3, 5⟩ = .ok b ∧ SamePlaces (some [⟨c!"f", ⟨⟨1, 14⟩, ⟨1, 15⟩⟩, false⟩]) b := by
  obtain ⟨n, h⟩ := Fix.short_hosted
  have part : PartOf c!"f" Fix.offsetUri := ⟨c!"file:///home/", c!".7.jinja", by decide⟩
  obtain ⟨l1, l2, b, l3, _, _, l4⟩ := h.goto Fix.short_uses.1 Fix.short_inName
    (by rw [Fix.short_bindings]; unfold Reaches; decide +kernel) part (url := c!"f") rfl
  rw [Fix.short_bindings, List.mem_singleton] at l3
  subst l3
  have other : ¬ Concerns Fix.aUse.root.text c!"b" := by
    rintro (e | ⟨x, e⟩)
    · exact absurd e (by decide)
    · injection e with e _
      exact absurd e (by decide)
  have unheard : ∀ v ∈ (n.files.variables.get? c!"temp").getD [], ¬ Concerns Fix.aUse.root.text v.name := by
    have hr := h.run
    cases hr
    intro v hv
    have hv : v ∈ ([] : List Identifier) := hv
    cases hv
  obtain ⟨m, b, k1, k2, k3⟩ := C150_told _ _ _ _ _ _ _ _ _ _ _ _ _ _ _ _ _ _ _ h Fix.aUse Fix.short_uses.1 2 ⟨3, 5⟩ rfl l1 l2
    [⟨c!"b", c!"the b"⟩] none (by decide) unheard (by simpa using other) _ l4
  exact ⟨n, m, b, h.run, k1, k2, k3⟩

/-- … and hover shows the same for it -/
example : ∃ n : NodeFiles, Call.run (Fix.env.over Fix.piecesSyn) Fix.world NodeFiles.new (Fix.piecesCalls Fix.shortContent) = .ok n ∧
    (n.saveLinkHint (some [⟨c!"b", c!"the b"⟩]) none).hover (Fix.env.over Fix.piecesSyn) Fix.world 7 c!"f" 1 ⟨3, 5⟩ =
      n.hover (Fix.env.over Fix.piecesSyn) Fix.world 7 c!"f" 1 ⟨3, 5⟩ := by
  obtain ⟨n, h⟩ := Fix.short_hosted
  obtain ⟨old, _, hd, ht, _, _⟩ := h.recorded
  have hroot := (h.parses old).2
  have hr := h.run
  refine ⟨n, h.run, C150_hover_partial Fix.env Fix.piecesSyn Fix.world Fix.world n _ 7 1 2 c!"f" Fix.offsetUri _ _ _ Fix.aUse ⟨3, 5⟩ rfl h.uri_eq h.template hd ht
    (hroot ▸ h.wf) (hroot ▸ h.nodes) (hroot ▸ h.uses) h.usesWf Fix.short_uses.1 (by decide) (by decide) (told_alike (by decide) ?_ ?_) ?_⟩
  · cases hr
    refine List.eq_nil_iff_forall_not_mem.mpr fun v hv => ?_
    have k1 : v ∈ ([] : List Identifier) := (mem_concerning.mp hv).1
    cases k1
  · simp only [List.mem_singleton, forall_eq]
    rintro (e | ⟨x, e⟩)
    · exact absurd e (by decide)
    · injection e with e _
      exact absurd e (by decide)
  · cases hr
    rfl

namespace Fix

/-- nothing is recorded for the Python document -/
def pyUnrecorded : Bool :=
  match Call.run (env.over piecesSyn) world NodeFiles.new (piecesCalls shortContent) with
  | .error _ => false
  | .ok n =>
    match Call.run (env.over piecesSyn) world n [.addOne 8 c!"g" c!"b = 1" 0 c!"py" none] with
    | .error _ => false
    | .ok m => ((m.files.variables.get? c!"file:///home/g.8.py").getD []).isEmpty && ((n.files.variables.get? c!"file:///home/g.8.py").getD []).isEmpty

theorem py_added {n : NodeFiles} (h : Call.run (env.over piecesSyn) world NodeFiles.new (piecesCalls shortContent) = .ok n) :
    ∃ m, Call.run (env.over piecesSyn) world n [.addOne 8 c!"g" c!"b = 1" 0 c!"py" none] = .ok m ∧
      (m.files.variables.get? c!"file:///home/g.8.py").getD [] = [] ∧ (n.files.variables.get? c!"file:///home/g.8.py").getD [] = [] := by
  have key : pyUnrecorded = true := by decide +kernel
  unfold pyUnrecorded at key
  rw [h] at key
  dsimp only at key
  split at key
  · cases key
  · rename_i m hm
    rw [Bool.and_eq_true] at key
    exact ⟨m, hm, List.isEmpty_iff.mp key.1, List.isEmpty_iff.mp key.2⟩

end Fix

/-- a Python document is added: `{{ a }}` leads to the same place, and hover shows the same -/
example : ∃ (n m : NodeFiles) (b : Option (List JsLocation)), Call.run (Fix.env.over Fix.piecesSyn) Fix.world NodeFiles.new (Fix.piecesCalls Fix.shortContent) = .ok n ∧
    Call.run (Fix.env.over Fix.piecesSyn) Fix.world n [.addOne 8 c!"g" c!"b = 1" 0 c!"py" none] = .ok m ∧
    m.gotoDefinition (Fix.env.over Fix.piecesSyn) Fix.world 7 c!"f" 1 ⟨3, 5⟩ = .ok b ∧ SamePlaces (some [⟨c!"f", ⟨⟨1, 14⟩, ⟨1, 15⟩⟩, false⟩]) b ∧
    m.hover (Fix.env.over Fix.piecesSyn) Fix.world 7 c!"f" 1 ⟨3, 5⟩ = n.hover (Fix.env.over Fix.piecesSyn) Fix.world 7 c!"f" 1 ⟨3, 5⟩ := by
  obtain ⟨n, h⟩ := Fix.short_hosted
  have part : PartOf c!"f" Fix.offsetUri := ⟨c!"file:///home/", c!".7.jinja", by decide⟩
  obtain ⟨l1, l2, b, l3, _, _, l4⟩ := h.goto Fix.short_uses.1 Fix.short_inName
    (by rw [Fix.short_bindings]; unfold Reaches; decide +kernel) part (url := c!"f") rfl
  rw [Fix.short_bindings, List.mem_singleton] at l3
  subst l3
  have hm := Fix.py_added h.run
  obtain ⟨m, hm, e1, e2⟩ := hm
  have away : ∀ k, k ≠ Fix.offsetUri → concerning Fix.aUse.root.text ((m.files.variables.get? k).getD []) =
      concerning Fix.aUse.root.text ((n.files.variables.get? k).getD []) := by
    intro k _
    by_cases e : k = c!"file:///home/g.8.py"
    · subst e; rw [e1, e2]
    · rw [(leaves_run (uri := k) _ (by
        simp only [List.mem_singleton, forall_eq]
        intro hu
        have hu : (Except.ok c!"file:///home/g.8.py" : Res Str) = .ok k := hu
        injection hu with hu
        exact e hu.symm) hm).vars]
  have leaves : ∀ c ∈ [Call.addOne 8 c!"g" c!"b = 1" 0 c!"py" none], c.leaves (Fix.env.over Fix.piecesSyn) Fix.offsetUri := by
    simp only [List.mem_singleton, forall_eq]
    intro hu
    have hu : (Except.ok c!"file:///home/g.8.py" : Res Str) = .ok Fix.offsetUri := hu
    injection hu with hu
    exact absurd hu (by decide)
  obtain ⟨b, k1, k2⟩ := C150_calls _ _ _ _ _ _ m _ _ _ _ _ _ _ _ _ _ _ _ _ _ h Fix.aUse Fix.short_uses.1 2 ⟨3, 5⟩ rfl l1 l2 leaves hm away _ l4
  exact ⟨n, m, b, h.run, hm, k1, k2, C150_calls_hover_partial _ _ _ _ _ _ m _ _ _ _ _ _ _ _ _ _ _ _ _ _ h Fix.aUse Fix.short_uses.1 2 ⟨3, 5⟩ rfl l1 l2
    leaves (by simp only [List.mem_singleton, forall_eq]; trivial) hm away⟩

end JinjaLsp
