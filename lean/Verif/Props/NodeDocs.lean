import Verif.Props.NodeGoto
/-
  C103: embedded templates do not disturb one another.
-/

namespace JinjaLsp
open Node Spec NodeFiles JinjaObjects

/-- the call is not about the document `uri`: it stores another one, saves or removes hints under another name, or deletes the documents of a file
whose name is no part of `uri` -/
def Spec.Call.leaves (env : Env) (uri : Str) : Call → Prop
  | .addLinkHints _ _ => True
  | .saveLinkHint _ hint => hint.getD c!"temp" ≠ uri
  | .removeTempLinkHint hint => hint.getD c!"temp" ≠ uri
  | .deleteAll f => ¬ PartOf f uri
  | .addOne id f _ _ e _ => docUri env f id e ≠ .ok uri

/-- the call tells nothing under the name `key` and takes nothing away from it -/
def Spec.Call.noHints (key : Str) : Call → Prop
  | .addLinkHints u _ => u ≠ key
  | .saveLinkHint _ hint => hint.getD c!"temp" ≠ key
  | .removeTempLinkHint hint => hint.getD c!"temp" ≠ key
  | _ => True

/-- an identifier as the editor gets it, `line` lines further down -/
def Spec.listed (line : Nat) (b : Binding) : JsIdentifier :=
  ⟨⟨b.start.row + line, b.start.column⟩, ⟨b.stop.row + line, b.stop.column⟩, b.name, .ofIdType b.kind⟩

theorem leaves_step {env : Env} {w : World} {n n' : NodeFiles} {uri : Str} {c : Call} (hc : c.leaves env uri)
    (h : c.step env w n = .ok n') : SameDoc n.files n'.files uri := by
  cases c with
  | addLinkHints u as => cases as <;> (cases h; exact SameDoc.refl ..)
  | saveLinkHint as hint =>
    cases as with
    | none => cases h; exact SameDoc.refl ..
    | some as =>
      cases h
      exact ⟨rfl, fun _ => rfl, HMap.get?_insert_ne _ _ (fun e => hc e.symm), rfl⟩
  | removeTempLinkHint hint =>
    cases h
    refine ⟨rfl, fun _ => rfl, ?_, rfl⟩
    simp only [removeTempLinkHint, HMap.get?_erase]
    rw [if_neg (fun e => hc e.symm)]
  | deleteAll f =>
    cases h
    obtain ⟨_, _, h3, h4, h5, h6, _⟩ := C60_delete_partial w.order n f uri
    refine ⟨h3 hc, fun l => ?_, (h4 (Or.inl hc)).2, by rw [h6]⟩
    cases l with
    | template => exact (h4 (Or.inl hc)).1
    | backend => rw [h5]
  | addOne id f ct l e col =>
    simp only [Call.step, Except.map] at h
    split at h
    · cases h
    · rename_i r hr
      cases h
      obtain ⟨u, m, hu, ho, _⟩ := addOne_files (n1 := r.1) (links := r.2) hr
      exact (Frame.didOpen ho).same uri (fun e => hc (e ▸ hu))

/-- calls that are not about a document leave everything recorded for it as it is -/
theorem leaves_run {env : Env} {w : World} {uri : Str} : ∀ (cs : List Call) {n n' : NodeFiles}, (∀ c ∈ cs, c.leaves env uri) →
    Call.run env w n cs = .ok n' → SameDoc n.files n'.files uri
  | [], n, n', _, h => by cases h; exact SameDoc.refl ..
  | c :: cs, n, n', hc, h => by
    unfold Call.run at h
    split at h
    · cases h
    · rename_i n1 h1
      exact (leaves_step (hc c List.mem_cons_self) h1).trans (leaves_run cs (fun x hx => hc x (List.mem_cons_of_mem _ hx)) h)

theorem noHints_told {key : Str} : ∀ (cs : List Call) (cur : Option (List Action)), (∀ c ∈ cs, c.noHints key) → toldUnder key cur cs = cur
  | [], _, _ => rfl
  | c :: cs, cur, hc => by
    have h1 := hc c List.mem_cons_self
    have h2 := noHints_told cs cur (fun x hx => hc x (List.mem_cons_of_mem _ hx))
    cases c with
    | addLinkHints u as =>
      cases as with
      | none => exact h2
      | some as => simp only [toldUnder]; rw [if_neg h1]; exact h2
    | saveLinkHint as hint =>
      cases as with
      | none => exact h2
      | some as => simp only [toldUnder]; rw [if_neg h1]; exact h2
    | removeTempLinkHint hint => simp only [toldUnder]; rw [if_neg h1]; exact h2
    | deleteAll f => exact h2
    | addOne id f ct l e col => exact h2

theorem noHints_run {env : Env} {w : World} {key : Str} (cs : List Call) {n n' : NodeFiles} (hc : ∀ c ∈ cs, c.noHints key)
    (h : Call.run env w n cs = .ok n') : n'.actions.get? key = n.actions.get? key := by
  rw [actions_told cs h, noHints_told cs _ hc]

theorem Call.run_append {env : Env} {w : World} : ∀ (a b : List Call) {n n' : NodeFiles}, Call.run env w n (a ++ b) = .ok n' →
    ∃ m, Call.run env w n a = .ok m ∧ Call.run env w m b = .ok n'
  | [], b, n, n', h => ⟨n, rfl, h⟩
  | c :: a, b, n, n', h => by
    simp only [List.cons_append, Call.run] at h ⊢
    cases hs : c.step env w n with
    | error e => rw [hs] at h; cases h
    | ok m => rw [hs] at h; exact Call.run_append a b h

theorem shiftAll_listed {prof : Profile} {line : Nat} : ∀ (vs : List Identifier),
    (∀ v ∈ vs, Fits v ∧ RangeFits line (rangeOf v)) → shiftAll prof line vs = .ok (vs.map fun v => listed line v.binding)
  | [], _ => rfl
  | v :: vs, h => by
    obtain ⟨⟨⟨h1, h2⟩, h3, h4⟩, h5, h6⟩ := h v List.mem_cons_self
    simp only [rangeOf] at h5 h6
    simp only [shiftAll, shiftPos, toPosition2, toU32, uadd32, Nat.mod_eq_of_lt h1, Nat.mod_eq_of_lt h2, Nat.mod_eq_of_lt h3,
      Nat.mod_eq_of_lt h4, if_pos h5, if_pos h6, shiftAll_listed vs fun x hx => h x (List.mem_cons_of_mem _ hx), List.map_cons]
    rfl

/-! ## C103 -/

/-- **C103, what is listed** After any calls, the Node API lists exactly the definitions of the last content given for an embedded template, in the
order of the text and at their places in the host file, whatever has been said about other documents since. -/
theorem C103_listed (env : Env) (w : World) (pre post : List Call) (n : NodeFiles) (id : Nat) (fn uri content : Str) (l₀ line : Nat)
    (col : Option Nat) (t : Tpl) (e : Point) (hw : t.Wf) (hu : docUri env fn id c!"jinja" = .ok uri) (he : fileExt uri = some .template)
    (hrun : Call.run env w NodeFiles.new (pre ++ .addOne id fn content l₀ c!"jinja" col :: post) = .ok n)
    (hpost : ∀ c ∈ post, c.leaves env uri)
    (hread : ∀ old, env.parseFails .jinja (List.replicate (col.getD 0) ' ' ++ content) old = false ∧
      (snippetsQuery env (.parsed .jinja (List.replicate (col.getD 0) ' ' ++ content) old) Point.zero
        (List.replicate (col.getD 0) ' ' ++ content) true).isError = false ∧
      (env.queryMatches .jinjaDefinitions (.parsed .jinja (List.replicate (col.getD 0) ' ' ++ content) old)
        (List.replicate (col.getD 0) ' ' ++ content)).flatten = t.caps ∧
      env.rootEnd (.parsed .jinja (List.replicate (col.getD 0) ' ' ++ content) old) = e)
    (hfit : ∀ b ∈ t.bindings e, b.start.row + line < 4294967296 ∧ b.start.column < 4294967296 ∧ b.stop.row + line < 4294967296 ∧
      b.stop.column < 4294967296) :
    n.getVariables env uri line = .ok (some ((t.bindings e).map (listed line))) := by
  obtain ⟨m, _, h2⟩ := Call.run_append pre _ hrun
  unfold Call.run at h2
  split at h2
  · cases h2
  · rename_i m1 h1
    have hsame := leaves_run post hpost h2
    simp only [Call.step, Except.map] at h1
    split at h1
    · cases h1
    · rename_i r hr
      cases h1
      obtain ⟨u, m', hu', ho, _⟩ := addOne_files (n1 := r.1) (links := r.2) hr
      rw [hu] at hu'; cases hu'
      obtain ⟨hp, hs, hc, hroot⟩ := hread ((m.files.trees .template).get? uri)
      obtain ⟨h3, _⟩ := LspFiles.didOpen_inv_ignore he ho
      obtain ⟨defs, hd, hg⟩ := LspFiles.addVariables_template (LspFiles.openBase_tree hp) hs h3
      obtain ⟨d', hd', hb⟩ := C11_scopes env _ Point.zero _ t hw hc
      have heq : d' = defs := by
        have := hd'.symm.trans hd
        cases this; rfl
      subst heq
      have hv : n.files.variables.get? uri = some d'.identifiers := by
        rw [hsame.vars, hg]; exact HMap.get?_insert_self ..
      rw [hroot] at hb
      unfold getVariables
      rw [hv]
      simp only
      rw [shiftAll_listed d'.identifiers]
      · simp only [← hb, List.map_map, Function.comp_def]
      · intro v hv'
        have := hfit v.binding (by rw [← hb]; exact List.mem_map_of_mem hv')
        simp only [Identifier.binding] at this
        simp only [Fits, RangeFits, rangeOf]
        omega

/-- **C103, definitions** Goto-definition on a name that the template defines answers the same after calls that are not about the template. -/
theorem C103_goto (env : Env) (w : World) (calls post : List Call) (n n' : NodeFiles) (id : Nat) (fn uri : Str) (line l ch : Nat) (u : Use)
    (vars : List Identifier) (h : OnEmbedded env w calls n id fn uri line l ch u vars) (hex : ∃ d ∈ vars, Binds u.root.text ⟨l, ch⟩ d)
    (hpost : ∀ c ∈ post, c.leaves env uri) (hrun : Call.run env w n post = .ok n') :
    n'.gotoDefinition env w id fn line ⟨l + line, ch⟩ = n.gotoDefinition env w id fn line ⟨l + line, ch⟩ := by
  have hs := leaves_run post hpost hrun
  obtain ⟨tree, text, es, rest, hd, ht, hu⟩ := h.use
  obtain ⟨r, hq, hid⟩ := ident_of_use hu
  have key : ∀ f : LspFiles, f.documents.get? uri = some text → (f.trees .template).get? uri = some tree → f.variables.get? uri = some vars →
      f.gotoDefinition env w uri ⟨l, ch⟩ = .ok (n.files.localDefinition uri u.root.text ⟨l, ch⟩) := by
    intro f h1 h2 h3
    have hl : f.localDefinition uri u.root.text ⟨l, ch⟩ = n.files.localDefinition uri u.root.text ⟨l, ch⟩ := by
      simp only [LspFiles.localDefinition, h3, h.read]
    obtain ⟨d, _, _, _, h4⟩ := localDefinition_some h.read hex
    simp only [LspFiles.gotoDefinition, h.template, h1, h2, hq, hid, Option.bind_some]
    rw [show toPoint ⟨l, ch⟩ = ⟨l, ch⟩ from rfl, hl, h4]
  simp only [gotoDefinition, usub32_add, h.uri_eq, key n.files hd ht h.read,
    key n'.files (hs.doc.trans hd) ((hs.tree .template).trans ht) (hs.vars.trans h.read)]

/-- the template is as it was -/
theorem Spec.OnEmbedded.later {env : Env} {w : World} {calls post : List Call} {n n' : NodeFiles} {id : Nat} {fn uri : Str} {line l ch : Nat}
    {u : Use} {vars : List Identifier} (h : OnEmbedded env w calls n id fn uri line l ch u vars)
    (hpost : ∀ c ∈ post, c.leaves env uri) (hrun : Call.run env w n post = .ok n') :
    OnEmbedded env w (calls ++ post) n' id fn uri line l ch u vars := by
  have hs := leaves_run post hpost hrun
  obtain ⟨tree, text, es, rest, hd, ht, hu⟩ := h.use
  have happ : ∀ (a b : List Call) {m m' m'' : NodeFiles}, Call.run env w m a = .ok m' → Call.run env w m' b = .ok m'' →
      Call.run env w m (a ++ b) = .ok m'' := by
    intro a
    induction a with
    | nil => intro b m m' m'' h1 h2; cases h1; exact h2
    | cons c a ih =>
      intro b m m' m'' h1 h2
      simp only [List.cons_append, Call.run] at h1 ⊢
      cases hc : c.step env w m with
      | error e => rw [hc] at h1; cases h1
      | ok k => rw [hc] at h1; exact ih b h1 h2
  exact ⟨happ calls post h.run hrun, h.uri_eq, h.template, ⟨tree, text, es, rest, hs.doc.trans hd, (hs.tree .template).trans ht, hu⟩,
    hs.vars.trans h.read, h.fits⟩

/-- the kind of a name the file defines does not depend on other files -/
theorem dataType_same {w : World} {f g : LspFiles} {uri : Str} {i j : Identifier} {vars : List Identifier}
    (hf : f.variables.get? uri = some vars) (hg : g.variables.get? uri = some vars) (hn : i.name = j.name) (hs : i.start = j.start)
    (hex : ∃ d ∈ vars, DefinesAt j.name j.start d) : f.dataType w uri i = g.dataType w uri j := by
  have hex' : ∃ d ∈ vars, DefinesAt i.name i.start d := by rw [hn, hs]; exact hex
  obtain ⟨d, _, _, _, h1⟩ := dataType_some (w := w) hf hex'
  unfold LspFiles.dataType at h1 ⊢
  rw [hf] at h1 ⊢
  rw [hg]
  simp only [hn, hs] at h1 ⊢
  cases hm : iterMax ((vars.filter fun v => decide (v.idType ≠ .templateBlock)).filter fun v =>
      decide (v.stop ≤ j.start) && decide (j.start ≤ v.scopeEnd) && decide (j.name = v.name)) with
  | some m => rfl
  | none =>
    obtain ⟨d, hd, hb⟩ := hex
    have : d ∈ ((vars.filter fun v => decide (v.idType ≠ .templateBlock)).filter fun v =>
      decide (v.stop ≤ j.start) && decide (j.start ≤ v.scopeEnd) && decide (j.name = v.name)) := by
      simp only [List.mem_filter, Bool.and_eq_true, decide_eq_true_eq]
      obtain ⟨h2, h3, h4, h5⟩ := hb
      exact ⟨⟨hd, h2⟩, ⟨h4, h5⟩, h3.symm⟩
    rw [iterMax_none hm] at this
    cases this

/-- **C103, hover** Hovering over a filter, or over a name that the template defines, shows the same after calls that are neither about the
template nor about the hints under `temp`. -/
theorem C103_hover (env : Env) (w : World) (calls post : List Call) (n n' : NodeFiles) (id : Nat) (fn uri : Str) (line l ch : Nat) (u : Use)
    (vars : List Identifier) (h : OnEmbedded env w calls n id fn uri line l ch u vars)
    (hex : u.info.filter = true ∨ ∃ d ∈ vars, DefinesAt u.root.text u.root.start d)
    (hpost : ∀ c ∈ post, c.leaves env uri ∧ c.noHints c!"temp") (hrun : Call.run env w n post = .ok n') :
    n'.hover env w id fn line ⟨l + line, ch⟩ = n.hover env w id fn line ⟨l + line, ch⟩ := by
  have ha := noHints_run post (fun c hc => (hpost c hc).2) hrun
  have h' := h.later (fun c hc => (hpost c hc).1) hrun
  obtain ⟨i, h1, h2, h3⟩ := h.answer
  obtain ⟨j, h4, h5, h6⟩ := h'.answer
  rw [h3, h6]
  rcases hex with hf | hex
  · simp only [hf, if_true]
  · have hdt : n'.files.dataType w uri j = n.files.dataType w uri i :=
      dataType_same h'.read h.read (h4.trans h1.symm) (h5.trans h2.symm) (by rw [h1, h2]; exact hex)
    simp only [hdt, NodeFiles.variableHover, ha]

/-- the same answer, or the same items except for names that backend files pass to templates -/
def Spec.SameOffers (a b : Res (Option (List JsItem))) : Prop :=
  a = b ∨ ∃ is js, a = .ok (some is) ∧ b = .ok (some js) ∧ ∀ i : JsItem, i.description ≠ c!"Backend variable" → (i ∈ js ↔ i ∈ is)

theorem conf_run {env : Env} {w : World} : ∀ (cs : List Call) {n n' : NodeFiles}, Call.run env w n cs = .ok n' →
    SameConf n.files n'.files
  | [], n, n', h => by cases h; exact SameConf.refl _
  | c :: cs, n, n', h => by
    unfold Call.run at h
    split at h
    · cases h
    · rename_i n1 h1
      refine SameConf.trans ?_ (conf_run cs h)
      cases c with
      | addLinkHints u as => cases as <;> (cases h1; exact SameConf.refl _)
      | saveLinkHint as hint => cases as <;> (cases h1; exact ⟨rfl, rfl, rfl, rfl, rfl, rfl⟩)
      | removeTempLinkHint hint => cases h1; exact ⟨rfl, rfl, rfl, rfl, rfl, rfl⟩
      | deleteAll f =>
        cases h1
        have : ∀ (ks : List Str) (g : LspFiles), SameConf g (ks.foldl LspFiles.removeDocument g) := by
          intro ks
          induction ks with
          | nil => intro g; exact SameConf.refl _
          | cons k ks ih => intro g; exact SameConf.trans (g := g.removeDocument k) ⟨rfl, rfl, rfl, rfl, rfl, rfl⟩ (ih _)
        exact this _ _
      | addOne id f ct l e col =>
        simp only [Call.step, Except.map] at h1
        split at h1
        · cases h1
        · rename_i r hr
          cases h1
          obtain ⟨u, m, hu, ho, _⟩ := addOne_files (n1 := r.1) (links := r.2) hr
          exact (Frame.didOpen ho).conf

/-- **C103, completion** What is offered at any place of a template is the same after calls that are not about the template, its file or the hints under
`temp` and `temp_`, up to names that are passed to templates by backend files (which other documents may add or take away). -/
theorem C103_complete (env : Env) (w : World) (post : List Call) (n n' : NodeFiles) (id : Nat) (fn uri : Str) (line : Nat) (pos : Position)
    (hu : docUri env fn id c!"jinja" = .ok uri)
    (hpost : ∀ c ∈ post, c.leaves env uri ∧ c.leaves env fn ∧ c.leaves env c!"temp" ∧ c.noHints c!"temp_") (hrun : Call.run env w n post = .ok n') :
    SameOffers (n.complete env w id fn line pos) (n'.complete env w id fn line pos) := by
  have ha := noHints_run post (fun c hc => (hpost c hc).2.2.2) hrun
  have hs := leaves_run post (fun c hc => (hpost c hc).1) hrun
  have hf := leaves_run post (fun c hc => (hpost c hc).2.1) hrun
  have ht := leaves_run post (fun c hc => (hpost c hc).2.2.1) hrun
  have hcf := conf_run post hrun
  have hc : ∀ p, n'.files.completion env uri p .triggerCharacter = n.files.completion env uri p .triggerCharacter := by
    intro p
    simp only [LspFiles.completion, hs.doc, hs.tree, hcf.qb]
  have hg : ∀ name, n'.files.getVariable name fn c!"temp" = n.files.getVariable name fn c!"temp" := by
    intro name
    simp only [LspFiles.getVariable, hf.vars, ht.vars]
  unfold complete
  simp only [hu, hc, hg, ha]
  cases usub32 env.profile pos.line line with
  | error e => exact Or.inl rfl
  | ok l =>
    simp only
    cases n.files.completion env uri ⟨l, pos.character⟩ .triggerCharacter with
    | error e => exact Or.inl rfl
    | ok o =>
      cases o with
      | none => exact Or.inl rfl
      | some c =>
        obtain ⟨c, b⟩ := c
        cases c with
        | identifier =>
          simp only [LspFiles.readVariables, hs.vars, hcf.vsc]
          cases n.files.variables.get? uri with
          | none => exact Or.inl rfl
          | some vs =>
            refine Or.inr ⟨_, _, rfl, rfl, fun i hi => ?_⟩
            simp only [List.map_append, List.mem_append]
            have back : ∀ (fs : List (Str × List Identifier)),
                i ∉ (fs.flatMap fun file => (file.2.filter fun v => v.idType = .backendVariable).map LspFiles.backendItem).map
                  (fun i => (⟨false, i.label, i.detail.getD [], none, none⟩ : JsItem)) := by
              intro fs hm
              obtain ⟨x, hx, rfl⟩ := List.mem_map.mp hm
              obtain ⟨file, _, hx⟩ := List.mem_flatMap.mp hx
              obtain ⟨v, hv, rfl⟩ := List.mem_map.mp hx
              have := (List.mem_filter.mp hv).2
              simp only [decide_eq_true_eq] at this
              apply hi
              simp only [LspFiles.backendItem, this, Option.getD_some]
              rfl
            simp only [back, or_false]
        | _ => exact Or.inl rfl

/-- **C103 is false for names the template does not define**: nothing is shown for one nobody defines; once another template defines it, the name
counts as one of the backend. -/
theorem C103_others_refuted (env : Env) (w : World) (calls post : List Call) (n n' : NodeFiles) (id : Nat) (fn uri : Str) (line l ch : Nat) (u : Use)
    (vars : List Identifier) (h : OnEmbedded env w calls n id fn uri line l ch u vars) (hf : u.info.filter = false)
    (hk : Unknown n.files uri vars u.root.text u.root.start) (ht : toldUnder c!"temp" none calls = none)
    (hpost : ∀ c ∈ post, c.leaves env uri ∧ c.noHints c!"temp") (hrun : Call.run env w n post = .ok n')
    (hnew : ∃ file v, Elsewhere n'.files uri u.root.text file v) :
    n.hover env w id fn line ⟨l + line, ch⟩ = .ok none ∧
    n'.hover env w id fn line ⟨l + line, ch⟩ = .ok (some ⟨c!"Backend variable\n\n---\n**" ++ u.root.text ++ c!"**",
      downRange line (toRange (u.root.start, u.root.stop))⟩) := by
  refine ⟨C94_unknown_refuted env w calls n id fn uri line l ch u vars h hf hk, ?_⟩
  have ha := noHints_run post (fun c hc => (hpost c hc).2) hrun
  have h' := h.later (fun c hc => (hpost c hc).1) hrun
  have h0 := actions_told (h := c!"temp") calls h.run
  rw [show NodeFiles.new.actions.get? c!"temp" = none from rfl, ht] at h0
  have h1 := actions_told (h := c!"temp") (calls ++ post) h'.run
  rw [show NodeFiles.new.actions.get? c!"temp" = none from rfl, ha, h0] at h1
  obtain ⟨t, hk', h2⟩ := C94_kind env w (calls ++ post) n' id fn uri line l ch u vars h' hf (fun hu => hu.2 hnew)
    (by rw [← h1]; intro b hb; cases hb)
  rw [h2]
  rcases hk' with ⟨d, hd, hdef, _⟩ | ⟨_, _, rfl⟩
  · exact absurd hdef (hk.1 d hd)
  · rfl

/-- **C103 is false for deleting**: deleting the documents of another file whose name is part of the name of the template deletes the template. -/
theorem C103_delete_refuted (env : Env) (w : World) (calls : List Call) (n : NodeFiles) (id : Nat) (fn uri other : Str) (line l ch : Nat) (u : Use)
    (vars : List Identifier) (h : OnEmbedded env w calls n id fn uri line l ch u vars) (hp : PartOf other uri) :
    (n.deleteAll w.order other).getVariables env uri line = .ok none ∧
    (n.deleteAll w.order other).hover env w id fn line ⟨l + line, ch⟩ = .ok none ∧
    (n.deleteAll w.order other).gotoDefinition env w id fn line ⟨l + line, ch⟩ = .ok none := by
  obtain ⟨tree, text, es, rest, hd, ht, hu⟩ := h.use
  obtain ⟨h1, h2, _⟩ := C60_delete_partial w.order n other uri
  obtain ⟨h3, h4⟩ := h2 hp (by rw [hd]; simp)
  refine ⟨by simp only [getVariables, h4], ?_, ?_⟩
  · simp only [hover, usub32_add, h.uri_eq, LspFiles.hover, h.template, ne_eq, not_true, if_false, h3]
  · simp only [gotoDefinition, usub32_add, h.uri_eq, LspFiles.gotoDefinition, h.template, h3]

namespace Fix

/-- hints under another name, two more templates of other files, one of them deleted again -/
def otherCalls : List Call :=
  [.addLinkHints c!"other" (some [⟨c!"item", c!"An item"⟩]), .addOne 8 c!"file:///y.py" [] 0 c!"jinja" none, .addOne 7 c!"file:///z.py" [] 0 c!"jinja" none, .deleteAll c!"/z.py"]

theorem other_leaves : ∀ c ∈ otherCalls, c.leaves (macroEnv onlyFiles) c!"file:///home/file:///x.py.7.jinja" ∧ c.noHints c!"temp" ∧
    c.noHints c!"temp_" := by
  intro c hc
  simp only [otherCalls, List.mem_cons, List.not_mem_nil, or_false] at hc
  rcases hc with rfl | rfl | rfl | rfl
  · exact ⟨trivial, (by decide : c!"other" ≠ c!"temp"), (by decide : c!"other" ≠ c!"temp_")⟩
  · exact ⟨(fun h => by cases h), trivial, trivial⟩
  · exact ⟨(fun h => by cases h), trivial, trivial⟩
  · exact ⟨fun h => absurd (containsSub_iff.mpr h) (by decide), trivial, trivial⟩

theorem other_runs : ∃ n n', Call.run (macroEnv onlyFiles) world NodeFiles.new (macroCalls c!"file:///x.py") = .ok n ∧
    Call.run (macroEnv onlyFiles) world n otherCalls = .ok n' ∧ n.files.documents.get? c!"file:///home/file:///x.py.7.jinja" = some [] ∧
    (n.files.trees .template).get? c!"file:///home/file:///x.py.7.jinja" = some (.parsed .jinja [] none) ∧
    n.files.variables.entries = [(c!"file:///home/file:///x.py.7.jinja", macroVars)] :=
  ⟨_, _, rfl, rfl, by decide, rfl, by decide⟩

theorem macro_embedded {n : NodeFiles} (hr : Call.run (macroEnv onlyFiles) world NodeFiles.new (macroCalls c!"file:///x.py") = .ok n)
    (hd : n.files.documents.get? c!"file:///home/file:///x.py.7.jinja" = some [])
    (ht : (n.files.trees .template).get? c!"file:///home/file:///x.py.7.jinja" = some (.parsed .jinja [] none))
    (hv : n.files.variables.entries = [(c!"file:///home/file:///x.py.7.jinja", macroVars)]) :
    OnEmbedded (macroEnv onlyFiles) world (macroCalls c!"file:///x.py") n 7 c!"file:///x.py" c!"file:///home/file:///x.py.7.jinja" 20 3 7
      ⟨.variable, tok 3 7 8 c!"i" 11, []⟩ macroVars :=
  ⟨hr, rfl, by decide, ⟨.parsed .jinja [] none, [], _, _, hd, ht, tpl_use (.parsed .jinja [] none) []⟩, read_of hv List.mem_cons_self,
    by unfold RangeFits; decide⟩

end Fix

/-- the macro template is listed twenty lines down, after other templates were added and removed -/
example : ∃ n, Call.run (Fix.macroEnv Fix.onlyFiles) Fix.world NodeFiles.new (Fix.macroCalls c!"file:///x.py" ++ Fix.otherCalls) = .ok n ∧
    n.getVariables (Fix.macroEnv Fix.onlyFiles) c!"file:///home/file:///x.py.7.jinja" 20 =
      .ok (some ((Fix.tpl.bindings ⟨9, 9⟩).map (listed 20))) ∧
    ((Fix.tpl.bindings ⟨9, 9⟩).map (listed 20)).length = 5 := by
  refine ⟨_, rfl, ?_, by rw [Fix.tpl_bindings]; rfl⟩
  exact C103_listed (Fix.macroEnv Fix.onlyFiles) Fix.world [] Fix.otherCalls _ 7 c!"file:///x.py" c!"file:///home/file:///x.py.7.jinja" [] 0 20
    none Fix.tpl ⟨9, 9⟩ Fix.tpl_wf rfl (by decide) rfl (fun c hc => (Fix.other_leaves c hc).1)
    (fun old => ⟨rfl, rfl, Fix.flatten_singletons _, rfl⟩) (by rw [Fix.tpl_bindings]; simp)

/-- its loop variable is found and shown as before -/
example : ∃ n n', Call.run (Fix.macroEnv Fix.onlyFiles) Fix.world NodeFiles.new (Fix.macroCalls c!"file:///x.py") = .ok n ∧
    Call.run (Fix.macroEnv Fix.onlyFiles) Fix.world n Fix.otherCalls = .ok n' ∧
    n'.gotoDefinition (Fix.macroEnv Fix.onlyFiles) Fix.world 7 c!"file:///x.py" 20 ⟨3 + 20, 7⟩ =
      n.gotoDefinition (Fix.macroEnv Fix.onlyFiles) Fix.world 7 c!"file:///x.py" 20 ⟨3 + 20, 7⟩ ∧
    n'.hover (Fix.macroEnv Fix.onlyFiles) Fix.world 7 c!"file:///x.py" 20 ⟨3 + 20, 7⟩ =
      n.hover (Fix.macroEnv Fix.onlyFiles) Fix.world 7 c!"file:///x.py" 20 ⟨3 + 20, 7⟩ := by
  obtain ⟨n, n', hr, hr', hd, ht, hv⟩ := Fix.other_runs
  have h := Fix.macro_embedded hr hd ht hv
  exact ⟨n, n', hr, hr', C103_goto _ _ _ Fix.otherCalls n n' _ _ _ _ _ _ _ _ h (by unfold Binds; decide)
      (fun c hc => (Fix.other_leaves c hc).1) hr',
    C103_hover _ _ _ Fix.otherCalls n n' _ _ _ _ _ _ _ _ h (Or.inr (by unfold DefinesAt; decide))
      (fun c hc => ⟨(Fix.other_leaves c hc).1, (Fix.other_leaves c hc).2.1⟩) hr'⟩

/-- and what is offered for it is as before -/
example : ∃ n n', Call.run (Fix.macroEnv Fix.onlyFiles) Fix.world NodeFiles.new (Fix.macroCalls c!"file:///x.py") = .ok n ∧
    Call.run (Fix.macroEnv Fix.onlyFiles) Fix.world n Fix.otherCalls = .ok n' ∧
    SameOffers (n.complete (Fix.macroEnv Fix.onlyFiles) Fix.world 7 c!"file:///x.py" 20 ⟨3 + 20, 7⟩)
      (n'.complete (Fix.macroEnv Fix.onlyFiles) Fix.world 7 c!"file:///x.py" 20 ⟨3 + 20, 7⟩) := by
  obtain ⟨n, n', hr, hr', _⟩ := Fix.other_runs
  refine ⟨n, n', hr, hr', C103_complete _ _ Fix.otherCalls n n' _ _ c!"file:///home/file:///x.py.7.jinja" _ _ rfl ?_ hr'⟩
  intro c hc
  refine ⟨(Fix.other_leaves c hc).1, ?_, ?_, (Fix.other_leaves c hc).2.2⟩ <;>
  · simp only [Fix.otherCalls, List.mem_cons, List.not_mem_nil, or_false] at hc
    rcases hc with rfl | rfl | rfl | rfl
    · exact trivial
    · exact fun h => by cases h
    · exact fun h => by cases h
    · exact fun h => absurd (containsSub_iff.mpr h) (by decide)

/-- deleting the file `y` deletes the template of `x.py` -/
example : ∃ n, Call.run (Fix.macroEnv Fix.onlyFiles) Fix.world NodeFiles.new (Fix.macroCalls c!"file:///x.py") = .ok n ∧
    (n.deleteAll Fix.world.order c!"y").getVariables (Fix.macroEnv Fix.onlyFiles) c!"file:///home/file:///x.py.7.jinja" 20 = .ok none := by
  obtain ⟨n, _, hr, _, hd, ht, hv⟩ := Fix.other_runs
  exact ⟨n, hr, (C103_delete_refuted _ _ _ n _ _ _ c!"y" _ _ _ _ _ (Fix.macro_embedded hr hd ht hv) (containsSub_iff.mp (by decide))).1⟩

/-- a template that uses `user`, then one that sets it -/
example : ∃ n n', Call.run Fix.hostEnv Fix.world NodeFiles.new [.addOne 7 c!"f" c!"{{ user }}" 0 c!"jinja" none] = .ok n ∧
    Call.run Fix.hostEnv Fix.world n [.addOne 3 c!"f" c!"{% set user = 1 %}" 0 c!"jinja" none] = .ok n' ∧
    n.hover Fix.hostEnv Fix.world 7 c!"f" 10 ⟨0 + 10, 5⟩ = .ok none ∧
    n'.hover Fix.hostEnv Fix.world 7 c!"f" 10 ⟨0 + 10, 5⟩ = .ok (some ⟨c!"Backend variable\n\n---\n**user**", ⟨⟨10, 3⟩, ⟨10, 7⟩⟩⟩) := by
  have hx : ∃ n n', Call.run Fix.hostEnv Fix.world NodeFiles.new [.addOne 7 c!"f" c!"{{ user }}" 0 c!"jinja" none] = .ok n ∧
      Call.run Fix.hostEnv Fix.world n [.addOne 3 c!"f" c!"{% set user = 1 %}" 0 c!"jinja" none] = .ok n' ∧
      n.files.documents.get? c!"file:///home/f.7.jinja" = some c!"{{ user }}" ∧
      (n.files.trees .template).get? c!"file:///home/f.7.jinja" = some (.parsed .jinja c!"{{ user }}" none) ∧
      n.files.variables.entries = [(c!"file:///home/f.7.jinja", [])] ∧
      n'.files.variables.entries = [(c!"file:///home/f.3.jinja", [Fix.userSet]), (c!"file:///home/f.7.jinja", [])] :=
    ⟨_, _, rfl, rfl, by decide, rfl, by decide, by decide⟩
  obtain ⟨n, n', hr, hr', hd, ht, hv, hv'⟩ := hx
  have h : OnEmbedded Fix.hostEnv Fix.world [.addOne 7 c!"f" c!"{{ user }}" 0 c!"jinja" none] n 7 c!"f" c!"file:///home/f.7.jinja" 10 0 5
      ⟨.variable, Fix.tok 0 3 7 c!"user" 2, []⟩ [] :=
    ⟨hr, rfl, by decide, ⟨.parsed .jinja c!"{{ user }}" none, c!"{{ user }}", _, _, hd, ht,
      Fix.user_on (.parsed .jinja c!"{{ user }}" none) c!"{{ user }}"⟩, Fix.read_of hv List.mem_cons_self, by unfold RangeFits; decide⟩
  obtain ⟨h1, h2⟩ := C103_others_refuted Fix.hostEnv Fix.world _ [.addOne 3 c!"f" c!"{% set user = 1 %}" 0 c!"jinja" none] n n' 7 c!"f" _ 10 0 5 _ []
    h rfl ⟨(by intro d hd; cases hd), (by
      rintro ⟨file, v, he⟩
      obtain ⟨vs, hm, hv'', _⟩ := Fix.entry_of hv he
      cases List.mem_singleton.mp hm
      cases hv'')⟩ rfl (by
      intro c hc
      cases List.mem_singleton.mp hc
      exact ⟨(fun h => by cases h), trivial⟩) hr'
    ⟨c!"file:///home/f.3.jinja", Fix.userSet, by decide, _, Fix.read_of hv' List.mem_cons_self, List.mem_singleton.mpr rfl, by decide, Or.inl rfl⟩
  exact ⟨n, n', hr, hr', h1, h2⟩

end JinjaLsp
