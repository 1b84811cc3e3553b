import Verif.Props.Concern
/-
  C151: whether a name is offered, and how, depends on the definitions of that name only.
-/

namespace JinjaLsp
open Spec

namespace Spec

/-- the definitions of the name -/
def definitionsOf (n : Str) (vs : List Identifier) : List Identifier := vs.filter fun v => decide (v.name = n)

/-- The same document, and the same definitions of the name in each file.  Definitions of other names, attributes of the name among them, may differ
everywhere. -/
structure AlikeNamed (n uri : Str) (f g : LspFiles) : Prop where
  doc : g.documents.get? uri = f.documents.get? uri
  tree : ∀ l, (g.trees l).get? uri = (f.trees l).get? uri
  vscode : g.isVscode = f.isVscode
  backend : g.queriesBackend = f.queriesBackend
  analysed : (g.variables.get? uri).isSome = (f.variables.get? uri).isSome
  named : ∀ k, definitionsOf n ((g.variables.get? k).getD []) = definitionsOf n ((f.variables.get? k).getD [])

/-- both lists offer the name alike, or there is none -/
def OfferedAlike (n : Str) : Option (List CompletionItem) → Option (List CompletionItem) → Prop
  | none, none => True
  | some a, some b => (a.filter fun i => decide (i.label = n)).Perm (b.filter fun i => decide (i.label = n))
  | _, _ => False

end Spec

theorem Spec.OfferedAlike.refl (n : Str) (a : Option (List CompletionItem)) : OfferedAlike n a a := by
  cases a with
  | none => trivial
  | some l => exact List.Perm.refl _

/-- collecting from each file what concerns a name -/
theorem flatMap_agree {β : Type} {φ : List Identifier → List β} (h0 : φ [] = []) {m m' : Variables}
    (h : ∀ k, φ ((m.get? k).getD []) = φ ((m'.get? k).getD [])) : (m.entries.flatMap fun e => φ e.2).Perm (m'.entries.flatMap fun e => φ e.2) := by
  have key : ∀ m : Variables, (m.entries.flatMap fun e => φ e.2) =
      ((m.entries.map fun e => (e.1, φ e.2)).filter fun e => !e.2.isEmpty).flatMap Prod.snd := by
    intro m
    induction m.entries with
    | nil => rfl
    | cons e l ih =>
      rw [List.flatMap_cons, List.map_cons, ih]
      cases he : φ e.2 with
      | nil => rw [List.filter_cons_of_neg (by simp), List.nil_append]
      | cons a as => rw [List.filter_cons_of_pos (by simp), List.flatMap_cons]
  have nodup : ∀ m : Variables, ((m.entries.map fun e => (e.1, φ e.2)).filter fun e => !e.2.isEmpty).Nodup := by
    intro m
    refine List.Pairwise.filter _ ?_
    have hk : ((m.entries.map fun e => (e.1, φ e.2)).map Prod.fst).Nodup := by
      rw [List.map_map]
      exact m.nodup
    exact List.Pairwise.imp (fun {a b} (hne : a.1 ≠ b.1) (e : a = b) => hne (congrArg _ e)) (List.pairwise_map.mp hk)
  have mem : ∀ (m : Variables) (e : Str × List β), e ∈ ((m.entries.map fun e => (e.1, φ e.2)).filter fun e => !e.2.isEmpty) ↔
      e.2 ≠ [] ∧ e.2 = φ ((m.get? e.1).getD []) := by
    intro m e
    simp only [List.mem_filter, List.mem_map, Bool.not_eq_true', List.isEmpty_eq_false_iff]
    constructor
    · rintro ⟨⟨x, h1, rfl⟩, h2⟩
      refine ⟨h2, ?_⟩
      rw [(HMap.get?_eq_some_iff m x.1 x.2).mpr h1]
      rfl
    · rintro ⟨h1, h2⟩
      cases hg : m.get? e.1 with
      | none =>
        rw [hg] at h2
        exact absurd (h2.trans h0) h1
      | some vs =>
        rw [hg] at h2
        exact ⟨⟨(e.1, vs), (HMap.get?_eq_some_iff m e.1 vs).mp hg, by rw [show φ vs = e.2 from h2.symm]⟩, h1⟩
  rw [key m, key m']
  refine List.Perm.flatMap_right _ ((List.perm_ext_iff_of_nodup (nodup m) (nodup m')).mpr fun e => ?_)
  rw [mem, mem, h]

/-- the item of a name among those of a file: that of its first definition -/
theorem variableItems_named (vc : Bool) (st : Str) (r : Range) (n : Str) : ∀ (vs : List Identifier) (names : List Str),
    (LspFiles.variableItems vc st r names vs).filter (fun i => decide (i.label = n)) =
      if n ∈ names then [] else ((definitionsOf n vs).head?.bind (LspFiles.variableItem vc st r)).toList
  | [], names => by simp [LspFiles.variableItems, definitionsOf]
  | v :: vs, names => by
    have hl : ∀ i, LspFiles.variableItem vc st r v = some i → i.label = v.name := fun i hi => (LspFiles.variableItem_label hi).1
    have ih := variableItems_named vc st r n vs
    unfold LspFiles.variableItems
    by_cases hv : v.name = n
    · subst hv
      have hd : definitionsOf v.name (v :: vs) = v :: definitionsOf v.name vs := List.filter_cons_of_pos (by simp)
      by_cases hm : v.name ∈ names
      · rw [if_pos hm, ih, if_pos hm, if_pos hm]
      · rw [if_neg hm, if_neg hm, hd, List.head?_cons, Option.bind_some]
        cases hi : LspFiles.variableItem vc st r v with
        | none => simp only [ih]; rw [if_pos List.mem_cons_self]; rfl
        | some i =>
          simp only
          rw [List.filter_cons_of_pos (by simp [hl i hi]), ih, if_pos List.mem_cons_self]
          rfl
    · have hd : definitionsOf n (v :: vs) = definitionsOf n vs := List.filter_cons_of_neg (by simp [hv])
      have hne : n ∈ v.name :: names ↔ n ∈ names := by simp [Ne.symm hv]
      rw [hd]
      by_cases hm : v.name ∈ names
      · rw [if_pos hm, ih]
      · rw [if_neg hm]
        cases hi : LspFiles.variableItem vc st r v with
        | none => simp only [ih, hne]
        | some i =>
          simp only
          rw [List.filter_cons_of_neg (by simp [hl i hi, hv]), ih]
          simp only [hne]

namespace Spec.AlikeNamed

variable {n uri : Str} {f g : LspFiles}

theorem completion (h : AlikeNamed n uri f g) (env : Env) (pos : Position) (tr : TriggerKind) :
    g.completion env uri pos tr = f.completion env uri pos tr := by
  simp only [LspFiles.completion, h.tree, h.doc, h.backend]

/-- any choice among the definitions of the name in a file -/
theorem chosen (h : AlikeNamed n uri f g) {p : Identifier → Bool} (k : Str) :
    definitionsOf n (((g.variables.get? k).getD []).filter p) = definitionsOf n (((f.variables.get? k).getD []).filter p) := by
  have e : ∀ vs : List Identifier, definitionsOf n (vs.filter p) = (definitionsOf n vs).filter p := by
    intro vs
    simp only [definitionsOf, List.filter_filter, Bool.and_comm]
  rw [e, e, h.named]

theorem readVariables (h : AlikeNamed n uri f g) (w w' : World) (pos : Position) (st : Option (Str × Range)) :
    OfferedAlike n (f.readVariables w uri pos st none) (g.readVariables w' uri pos st none) := by
  have ha := h.analysed
  have hc := h.chosen (p := LspFiles.visibleAt (toPoint pos)) uri
  have backend : ∀ vs : List Identifier, ((vs.filter fun v => v.idType = .backendVariable).map LspFiles.backendItem).filter (fun i => decide (i.label = n)) =
      ((definitionsOf n vs).filter fun v => v.idType = .backendVariable).map LspFiles.backendItem := by
    intro vs
    rw [List.filter_map]
    congr 1
    simp only [definitionsOf, List.filter_filter, Bool.and_comm]
    rfl
  have hrest : ((w.order.shuffle 5 f.variables.entries).flatMap fun file =>
        (((file.2.filter fun v => v.idType = .backendVariable).map LspFiles.backendItem).filter fun i => decide (i.label = n))).Perm
      ((w'.order.shuffle 5 g.variables.entries).flatMap fun file =>
        (((file.2.filter fun v => v.idType = .backendVariable).map LspFiles.backendItem).filter fun i => decide (i.label = n))) := by
    refine ((w.order.perm 5 _).flatMap_right _).trans (List.Perm.trans ?_ ((w'.order.perm 5 _).flatMap_right _).symm)
    refine flatMap_agree (φ := fun vs => ((vs.filter fun v => v.idType = .backendVariable).map LspFiles.backendItem).filter fun i => decide (i.label = n)) rfl ?_
    intro k
    rw [backend, backend, h.named]
  have hfil : ∀ l : List (Str × List Identifier), (l.filter fun _ => true) = l := fun l => by simp
  unfold LspFiles.readVariables
  cases hf : f.variables.get? uri with
  | none =>
    rw [hf] at ha
    cases hg : g.variables.get? uri with
    | none => trivial
    | some vs => rw [hg] at ha; cases ha
  | some vs =>
    rw [hf] at ha hc
    cases hg : g.variables.get? uri with
    | none => rw [hg] at ha; cases ha
    | some vs' =>
      rw [hg] at hc
      simp only [Option.getD_some] at hc
      simp only [OfferedAlike, hfil, List.filter_append, List.filter_flatMap, variableItems_named, h.vscode, hc]
      exact hrest.append_left _

end Spec.AlikeNamed

/-- **C151** Take two states that may differ in everything but a document and the definitions of a name.  Where names are completed, the name is
offered alike in both: as often, with the same detail, kind and edit. -/
theorem C151_offered (env : Env) (w w' : World) (s s' : Server) (n uri : Str) (pos : Position) (tr : TriggerKind) (h : AlikeNamed n uri s.files s'.files)
    (hno : ∀ name r b, s.files.completion env uri pos tr ≠ .ok (some (.includedTemplate name r, b))) (items : Option (List CompletionItem))
    (hi : s.handle env w (.completion uri pos tr) = .ok (s, [], .completion items)) :
    ∃ items', s'.handle env w' (.completion uri pos tr) = .ok (s', [], .completion items') ∧ OfferedAlike n items items' := by
  have hc := h.completion env pos tr
  simp only [Server.handle, Server.onCompletion, hc] at hi ⊢
  revert hi hno
  generalize s.files.completion env uri pos tr = c
  intro hno hi
  cases c with
  | error e => cases hi
  | ok c =>
    cases c with
    | none => cases hi; exact ⟨none, rfl, trivial⟩
    | some c =>
      obtain ⟨ct, b⟩ := c
      cases hi
      refine ⟨_, rfl, ?_⟩
      cases ct with
      | includedTemplate name r => exact absurd rfl (hno name r b)
      | snippets r => simp only [completionItems, h.vscode]; exact .refl n _
      | identifier => exact h.readVariables w w' pos none
      | incompleteIdentifier name r => exact h.readVariables w w' pos (some (name, r))
      | filter => exact .refl n _
      | test => exact .refl n _
      | incompleteFilter _ _ => exact .refl n _

/-- opening, changing or saving another document -/
theorem edit_named {env : Env} {w : World} {s s' : Server} {m : Msg} {out : List Send} {r : Reply} {n uri u : Str} (hm : Edits u m) (hne : u ≠ uri)
    (h : s.handle env w m = .ok (s', out, r))
    (hsame : definitionsOf n ((s'.files.variables.get? u).getD []) = definitionsOf n ((s.files.variables.get? u).getD [])) :
    AlikeNamed n uri s.files s'.files := by
  have hf : Frame u s.files s'.files := by
    rcases hm with ⟨t, rfl⟩ | ⟨cs, rfl⟩ | rfl
    · simp only [Server.handle] at h
      split at h
      · cases h
      · rename_i hh; cases h; exact Frame.didOpen hh
    · simp only [Server.handle, Server.onDidChange] at h
      cases hc : s.files.didChange env u cs s.nextHandle with
      | error e => rw [hc] at h; cases h
      | ok p =>
        obtain ⟨p, b⟩ := p
        rw [hc] at h
        cases b <;> cases h <;> exact Frame.didChange hc
    · simp only [Server.handle] at h
      split at h
      · cases h
      · rename_i hh; cases h; exact Frame.didSave hh
  have hd := hf.same uri (Ne.symm hne)
  refine ⟨hd.doc, hd.tree, hf.conf.vsc, hf.conf.qb, by rw [hd.vars], fun k => ?_⟩
  by_cases e : k = u
  · rw [e]; exact hsame
  · rw [(hf.same k e).vars]

/-- **C151** (editing elsewhere) Opening, changing or saving another document does not change how a name is offered, unless it changes the
definitions of that name in the other document. -/
theorem C151_elsewhere (env : Env) (w w' w'' : World) (s s' : Server) (m : Msg) (out : List Send) (r : Reply) (n uri u : Str) (pos : Position)
    (tr : TriggerKind) (hm : Edits u m) (hne : u ≠ uri) (h : s.handle env w m = .ok (s', out, r))
    (hsame : definitionsOf n ((s'.files.variables.get? u).getD []) = definitionsOf n ((s.files.variables.get? u).getD []))
    (hno : ∀ name r b, s.files.completion env uri pos tr ≠ .ok (some (.includedTemplate name r, b))) (items : Option (List CompletionItem))
    (hi : s.handle env w' (.completion uri pos tr) = .ok (s, [], .completion items)) :
    ∃ items', s'.handle env w'' (.completion uri pos tr) = .ok (s', [], .completion items') ∧ OfferedAlike n items items' :=
  C151_offered env w' w'' s s' n uri pos tr (edit_named hm hne h hsame) hno items hi

/-- **C151** (sessions) Take two sessions with the same messages about a document and about the workspace, and with any other messages about other
documents.  If the other documents end up with the same definitions of a name, then the name is offered alike. -/
theorem C151_sessions (env : Env) (w w' : World) (s s₁ s₂ : Server) (h₁ h₂ : List (World × Msg)) (n uri : Str) (pos : Position) (tr : TriggerKind)
    (he : h₁.filter (fun e => concerns uri e.2) = h₂.filter (fun e => concerns uri e.2)) (r₁ : s.run env h₁ = .ok s₁) (r₂ : s.run env h₂ = .ok s₂)
    (ha : ∀ k, k ≠ uri → definitionsOf n ((s₂.files.variables.get? k).getD []) = definitionsOf n ((s₁.files.variables.get? k).getD []))
    (hno : ∀ name r b, s₁.files.completion env uri pos tr ≠ .ok (some (.includedTemplate name r, b))) (items : Option (List CompletionItem))
    (hi : s₁.handle env w (.completion uri pos tr) = .ok (s₁, [], .completion items)) :
    ∃ items', s₂.handle env w' (.completion uri pos tr) = .ok (s₂, [], .completion items') ∧ OfferedAlike n items items' := by
  have h := (AsOneServers.run (AsOneServers.refl uri s) he r₁ r₂).files
  refine C151_offered env w w' s₁ s₂ n uri pos tr ⟨h.doc.doc, h.doc.tree, h.conf.vsc, h.conf.qb, by rw [h.doc.vars], fun k => ?_⟩ hno items hi
  by_cases e : k = uri
  · rw [e, h.doc.vars]
  · exact ha k e

/-- another template is opened: the backend variable `request` is offered as before -/
example : ∃ (s' : Server) (out : List Send) (r : Reply) (items items' : Option (List CompletionItem)),
    (Fix.enterServer Fix.enterText false).handle (Fix.enterEnv 30 []) Fix.world (.didOpen Fix.uriB []) = .ok (s', out, r) ∧
    (Fix.enterServer Fix.enterText false).handle (Fix.enterEnv 30 []) Fix.world (.completion Fix.uriA ⟨0, 27⟩ .invoked) =
      .ok (Fix.enterServer Fix.enterText false, [], .completion items) ∧
    s'.handle (Fix.enterEnv 30 []) Fix.world (.completion Fix.uriA ⟨0, 27⟩ .invoked) = .ok (s', [], .completion items') ∧
    OfferedAlike c!"request" items items' ∧ ∃ l, items = some l ∧ c!"request" ∈ l.map (·.label) := by
  obtain ⟨ct, b, h1, h2, h3⟩ := Fix.enter_names false
  obtain ⟨own, rest, h, _, _, h4⟩ := C38_offered _ Fix.world _ _ _ _ _ _ _ _ h1 h2 h3
  have hopen : ∃ s' out r, (Fix.enterServer Fix.enterText false).handle (Fix.enterEnv 30 []) Fix.world (.didOpen Fix.uriB []) = .ok (s', out, r) ∧
      definitionsOf c!"request" ((s'.files.variables.get? Fix.uriB).getD []) =
        definitionsOf c!"request" (((Fix.enterServer Fix.enterText false).files.variables.get? Fix.uriB).getD []) := ⟨_, _, _, rfl, rfl⟩
  obtain ⟨s', out, r, k1, k2⟩ := hopen
  obtain ⟨items', k3, k4⟩ := C151_elsewhere _ _ Fix.world Fix.world _ s' _ out r c!"request" Fix.uriA Fix.uriB ⟨0, 27⟩ .invoked (.inl ⟨_, rfl⟩) (by decide) k1 k2
    (by
      intro name r b' e
      rw [h1] at e
      cases e
      rcases h2 with ⟨_, h2⟩ | ⟨r, h2⟩
      · cases h2
      · cases h2) _ h
  refine ⟨s', out, r, _, items', k1, h, k3, k4, _, rfl, ?_⟩
  rw [List.map_append]
  exact List.mem_append_right _ ((h4 _).mpr ⟨Fix.uriM, Fix.enterBackend, _, rfl, List.mem_cons_self, rfl, rfl⟩)

/-- two sessions of C151: the second template is opened in one of them only -/
example : ∃ s₂ : Server,
    (Fix.enterServer Fix.enterText false).run (Fix.enterEnv 30 []) [] = .ok (Fix.enterServer Fix.enterText false) ∧
    (Fix.enterServer Fix.enterText false).run (Fix.enterEnv 30 []) [(Fix.world, .didOpen Fix.uriB [])] = .ok s₂ ∧
    ([].filter fun e : World × Msg => concerns Fix.uriA e.2) = ([(Fix.world, Msg.didOpen Fix.uriB [])].filter fun e => concerns Fix.uriA e.2) ∧
    ∀ k, definitionsOf c!"request" ((s₂.files.variables.get? k).getD []) =
      definitionsOf c!"request" (((Fix.enterServer Fix.enterText false).files.variables.get? k).getD []) := by
  have hopen : ∃ s' out r, (Fix.enterServer Fix.enterText false).handle (Fix.enterEnv 30 []) Fix.world (.didOpen Fix.uriB []) = .ok (s', out, r) ∧
      definitionsOf c!"request" ((s'.files.variables.get? Fix.uriB).getD []) =
        definitionsOf c!"request" (((Fix.enterServer Fix.enterText false).files.variables.get? Fix.uriB).getD []) := ⟨_, _, _, rfl, rfl⟩
  obtain ⟨s', out, r, k1, k2⟩ := hopen
  exact ⟨s', rfl, by simp only [Server.run, k1], by simp [concerns, Fix.uriA, Fix.uriB],
    (edit_named (uri := Fix.uriA) (.inl ⟨_, rfl⟩) (by decide) k1 k2).named⟩

end JinjaLsp
