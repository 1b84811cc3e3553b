import Verif.Props.Again
import Verif.Props.Startup
import Verif.Props.Clone
/-
  C119: opening a file that has not changed changes nothing.
-/

namespace JinjaLsp
open Spec

namespace Spec

/-- A parse that is handed the tree of the very same text makes a tree that cannot be told from it. -/
def Repeats (env : Env) : Prop :=
  ∀ g t o, env.rootEnd (.parsed g t (some (.parsed g t o))) = env.rootEnd (.parsed g t o) ∧
    ∀ q x, env.queryMatches q (.parsed g t (some (.parsed g t o))) x = env.queryMatches q (.parsed g t o) x

end Spec

theorem Spec.Stateless.repeats {env : Env} (h : Stateless env) : Repeats env := fun g t o =>
  ⟨(h g t _).1.trans (h g t o).1.symm, fun q x => ((h g t _).2 q x).trans ((h g t o).2 q x).symm⟩

section
variable {env : Env}

theorem Twins.refl (T : Tree) : Twins env T T := ⟨rfl, fun _ _ => rfl⟩

/-- with a tree that cannot be told from the one of the last analysis, the same definitions are recorded again -/
theorem Rests.recorded {f b : LspFiles} {u c : Str} {l : LangType} {T T' : Tree} (hr : Rests env f u) (hl : fileExt u = some l)
    (hd : f.documents.get? u = some c) (hT : (f.trees l).get? u = some T) (hT' : (b.trees l).get? u = some T') (ht : Twins env T T')
    (hq : b.queriesBackend = f.queriesBackend)
    (hv : b.variables.get? u = f.variables.get? u ∨ b.variables.get? u = (f.variables.get? u).map fun _ => []) :
    ∃ g, b.addVariables env u l c = .ok g ∧ g.variables.get? u = f.variables.get? u := by
  have e := hr l c hl hd
  have a := addVariables_get env b u l c
  simp only [reanalysed, hT] at e
  simp only [hT'] at a
  have fin : ∀ {x : Option (List Identifier)}, (b.addVariables env u l c).map (fun g => g.variables.get? u) = .ok x →
      x = f.variables.get? u → ∃ g, b.addVariables env u l c = .ok g ∧ g.variables.get? u = f.variables.get? u := by
    intro x hx he
    cases hb : b.addVariables env u l c with
    | error err => rw [hb] at hx; cases hx
    | ok g =>
      rw [hb] at hx
      injection hx with hx
      exact ⟨g, rfl, hx.trans he⟩
  cases l with
  | backend =>
    refine fin a ?_
    injection e with e
    rw [← e]
    simp only [LspFiles.backendVariables, hq, (ht.backend _ _ _ _).1, (ht.backend _ _ _ _).2]
  | template =>
    simp only [ht.snippets, ht.definitions] at a
    simp only at e
    split at e
    · rename_i hs
      rw [if_pos hs] at a
      refine fin a ?_
      injection e with e
      rcases hv with hv | hv
      · exact hv
      · rw [hv, e]
    · rename_i hs
      rw [if_neg hs] at a
      refine fin (a.trans ?_) rfl
      exact e

/-- what is recorded is what would be recorded again, also with a tree that cannot be told from the old one -/
theorem Rests.twins {f g : LspFiles} {u c : Str} {l : LangType} {T T' : Tree} (hr : Rests env f u) (hl : fileExt u = some l)
    (hd : f.documents.get? u = some c) (hT : (f.trees l).get? u = some T) (hT' : (g.trees l).get? u = some T') (ht : Twins env T T')
    (hdg : g.documents.get? u = some c) (hq : g.queriesBackend = f.queriesBackend) (hv : g.variables.get? u = f.variables.get? u) :
    Rests env g u := by
  intro l' c' hl' hc'
  rw [hl] at hl'; cases hl'
  rw [hdg] at hc'; cases hc'
  have e := hr l c hl hd
  simp only [reanalysed, hT] at e
  simp only [reanalysed, hT', hv]
  cases l with
  | backend =>
    rw [← e]
    simp only [LspFiles.backendVariables, hq, (ht.backend _ _ _ _).1, (ht.backend _ _ _ _).2]
  | template =>
    simp only [ht.snippets, ht.definitions]
    exact e

/-- opening a resting document with the text that is held: nothing changes that could be told apart -/
theorem open_held (hp : ∀ g t o, env.parseFails g t o = false) (hrep : Repeats env) {f : LspFiles} {u c : Str} {l : LangType} (w : World)
    (hr : Rests env f u) (hl : fileExt u = some l) (hd : f.documents.get? u = some c) (ht : TreeOf f u l c) :
    ∃ g v, f.didOpen env w u c false = .ok (g, v.map fun v => HMap.empty.insert u v) ∧ g.readTree env w u = .ok v ∧ Alike env f g ∧ Frame u f g := by
  obtain ⟨o, ho⟩ := ht
  have hT' := LspFiles.openBase_tree (env := env) (f := f) (n := u) (c := c) (l := l) (hp _ _ _)
  rw [ho] at hT'
  have htw : Twins env (.parsed (f.grammar l) c o) (.parsed (f.grammar l) c (some (.parsed (f.grammar l) c o))) := hrep _ _ _
  have hbase : Frame u f (f.openBase env u l c) := by
    unfold LspFiles.openBase
    refine ((Frame.deleteVariables f u).trans ?_).trans (Frame.addTree _ _ _ _ _)
    refine ⟨fun v hv => ⟨?_, fun _ => rfl, rfl, rfl⟩, ⟨rfl, rfl, rfl, rfl, rfl, rfl⟩⟩
    simp only [HMap.get?_insert, hv, if_false]
  obtain ⟨g, h1, h2⟩ := hr.recorded hl hd ho hT' htw hbase.conf.qb (Or.inr (openBase_variables env f u c l))
  obtain ⟨e1, e2⟩ := documents_addVariables h1
  have hfr := hbase.trans (Frame.addVariables h1)
  obtain ⟨v, hv⟩ := readTree_ok env w g u
  refine ⟨g, v, ?_, hv, ⟨?_, ?_, ?_, hfr.conf⟩, hfr⟩
  · rw [LspFiles.didOpen_eq hl, h1]
    simp only [Bool.false_eq_true, if_false, hv]
    cases v <;> rfl
  · intro x
    by_cases hx : x = u
    · subst hx
      rw [e1, LspFiles.openBase_document, hd]
    · exact (hfr.same x hx).doc
  · intro l' x
    by_cases hx : x = u
    · subst hx
      by_cases hll : l' = l
      · subst hll
        rw [ho, e2, hT']
        exact htw
      · have : (g.trees l').get? x = (f.trees l').get? x := by
          rw [e2]
          unfold LspFiles.openBase LspFiles.addTree LspFiles.parse
          simp only [hp]
          simp [LspFiles.setTree, hll]
        rw [this]
        cases (f.trees l').get? x with
        | none => trivial
        | some T => exact .refl T
    · rw [(hfr.same x hx).tree l']
      cases (f.trees l').get? x with
      | none => trivial
      | some T => exact .refl T
  · intro x
    by_cases hx : x = u
    · subst hx; exact h2
    · exact (hfr.same x hx).vars

/-! ### Startup -/

/-- what holds while the workspace is read -/
structure Loading (env : Env) (w : World) (f : LspFiles) : Prop where
  kept : ∀ u, Kept env f u True
  rests : ∀ u, Rests env f u
  held : ∀ u c, f.documents.get? u = some c → ∃ name, u = c!"file://" ++ name ∧ w.readFile name = some c

theorem Loading.start (w : World) (c : JinjaConfig) : Loading env w (walkStart c) := by
  have h1 : (walkStart c).documents = HMap.empty := by unfold walkStart; dsimp only; split <;> rfl
  refine ⟨fun u => kept_walkStart c u, ?_, ?_⟩
  · intro u l t _ ht
    rw [h1] at ht
    cases ht
  · intro u t ht
    rw [h1] at ht
    cases ht

theorem Loading.read (hp : ∀ g t o, env.parseFails g t o = false) (hrep : Repeats env) {w : World} (hw : KeepsClass w) {f g : LspFiles}
    {path : Str} {l : LangType} (h : Loading env w f) (hk : fileExt path = some l) (hg : f.readFile env w path l = .ok g) : Loading env w g := by
  rcases readFile_eq hg with ⟨rfl, _⟩ | ⟨name, c, hc, hr, hd, hv⟩
  · exact h
  · have hfr := Frame.readFile hg hc
    have hl := hw path name l hc hk
    generalize hu : c!"file://" ++ name = u at *
    refine ⟨?_, ?_, ?_⟩
    · intro x
      by_cases hx : x = u
      · subst hx
        subst hu
        exact kept_readFile hp hc hl hg (h.kept _)
      · exact (h.kept x).congr (hfr.same x hx) hfr.conf
    · intro x
      by_cases hx : x = u
      · subst hx
        have hbd : (LspFiles.addTree env { f with documents := f.documents.insert x c } x l c).documents.get? x = some c := by
          rw [documents_addTree]; exact HMap.get?_insert_self ..
        have hbv : (LspFiles.addTree env { f with documents := f.documents.insert x c } x l c).variables = f.variables := by
          unfold LspFiles.addTree; split <;> rfl
        cases hh : f.documents.get? x with
        | none =>
          refine rests_of_addVariables hl (Or.inl ?_) hbd hv
          rw [hbv]
          cases hvx : f.variables.get? x with
          | none => rfl
          | some vs => exact absurd hh ((h.kept x).vars (by rw [hvx]; simp)).2
        | some c' =>
          obtain ⟨name', e1, e2⟩ := h.held x c' hh
          have : name' = name := List.append_cancel_left (e1.symm.trans hu.symm)
          subst this
          rw [hr] at e2
          cases e2
          obtain ⟨o, ho⟩ := (h.kept x).fresh l c hl hh
          have hT' : ((LspFiles.addTree env { f with documents := f.documents.insert x c } x l c).trees l).get? x =
              some (.parsed (f.grammar l) c (some (.parsed (f.grammar l) c o))) := by
            have hgr : LspFiles.grammar { f with documents := f.documents.insert x c } l = f.grammar l := by cases l <;> rfl
            unfold LspFiles.addTree LspFiles.parse
            simp only [hp, hgr, ho]
            simp [LspFiles.setTree]
          have htw : Twins env (.parsed (f.grammar l) c o) (.parsed (f.grammar l) c (some (.parsed (f.grammar l) c o))) := hrep _ _ _
          have hbq : (LspFiles.addTree env { f with documents := f.documents.insert x c } x l c).queriesBackend = f.queriesBackend := by
            unfold LspFiles.addTree; split <;> rfl
          obtain ⟨g', h1, h2⟩ := (h.rests x).recorded hl hh ho hT' htw hbq (Or.inl (by rw [hbv]))
          rw [hv] at h1
          cases h1
          refine (h.rests x).twins hl hh ho (T' := _) ?_ htw ?_ hfr.conf.qb h2
          · rw [(documents_addVariables hv).2]; exact hT'
          · rw [(documents_addVariables hv).1]; exact hbd
      · exact (Core.of_asOne (.of_frame hfr fun e => hx e.symm)).rests (h.rests x)
    · intro x t ht
      rw [hd, HMap.get?_insert] at ht
      split at ht
      · rename_i hx
        cases ht
        exact ⟨name, hx.trans hu.symm, hr⟩
      · exact h.held x t ht

/-- after a successful initialisation -/
theorem Loading.started (hp : ∀ g t o, env.parseFails g t o = false) (hrep : Repeats env) {w : World} (hw : KeepsClass w) {s s' : Server}
    {out : List Send} {r : Reply} (h : s.handle env w .initialized = .ok (s', out, r)) (ho : out ≠ []) : Loading env w s'.files := by
  obtain ⟨f, d, hd, hr, _, _, rfl⟩ := initialized_inv h ho
  have hwd : walkdir env w s.config = .ok (some (d, f)) := by
    unfold walkdir
    rw [hd]
    simp only [hr]
  have key := walkdir_induct (Loading env w) (.start w s.config) (fun f path l g hf hk hg => hf.read hp hrep hw hk hg) hwd
  have hconf : f.config = s.config :=
    walkdir_induct (fun f => f.config = s.config) (by unfold walkStart; dsimp only; split <;> rfl) (fun f path l g hf _ hg => by
      rcases readFile_eq hg with ⟨rfl, _⟩ | ⟨name, c, hc, _⟩
      · exact hf
      · exact (Frame.readFile hg hc).conf.conf.trans hf) hwd
  refine ⟨fun u => ?_, fun u => ?_, key.held⟩
  · have k := key.kept u
    exact ⟨k.tree, k.fresh, k.vars, k.analysed⟩
  · exact (Core.rests (f := f) (g := { f with isVscode := s.files.isVscode, config := s.config, mainChannel := true })
      ⟨rfl, fun _ => rfl, rfl, rfl, hconf.symm, rfl⟩ (key.rests u))

/-! ### C119 -/

/-- some other document has this name -/
def Spec.NamedElsewhere (s : Server) (u n : Str) : Prop :=
  ∃ x vs v, x ≠ u ∧ s.files.variables.get? x = some vs ∧ v ∈ vs ∧ v.name = n

/-- Nothing the client could notice has happened: the same texts, names and settings, and every request is answered alike. -/
structure Spec.Undisturbed (env : Env) (s s' : Server) : Prop where
  texts : ∀ x, s'.files.documents.get? x = s.files.documents.get? x
  names : ∀ x, s'.files.variables.get? x = s.files.variables.get? x
  settings : s'.config = s.config
  answers : ∀ w w' m, SameDisk w w' → PureRequest m → Agree (fun a b => SameReply a.2.2 b.2.2) (s.handle env w m) (s'.handle env w' m)

/-- the parser is chosen when the workspace is built -/
theorem leaves_parser {u : Str} : ∀ {h : List (World × Msg)} {s s' : Server}, (∀ e ∈ h, Leaves u e.2) → s.run env h = .ok s' →
    s'.files.parserBackend = s.files.parserBackend
  | [], s, s', _, hr => by cases hr; rfl
  | e :: h, s, s', hl, hr => by
    simp only [Server.run] at hr
    split at hr
    · cases hr
    · rename_i s₀ _ _ h0
      refine (leaves_parser (fun x hx => hl x (List.mem_cons_of_mem _ hx)) hr).trans ?_
      have hm := hl e List.mem_cons_self
      have hs := handle_files h0
      generalize e.2 = m at hs hm
      cases hs with
      | query _ h => rw [h]
      | command _ h => rw [h]
      | config _ h => rw [h]
      | «initialize» _ _ h => rcases h with h | h <;> rw [h]
      | codeActions m h => rw [h]; exact (addCodeActions_frame _ _ _).2.2.2.1.pb
      | didOpen u _ _ h => exact (Frame.didOpen h).conf.pb
      | didSave u _ h => exact (Frame.didSave h).conf.pb
      | didChange u _ _ h => exact (Frame.didChange h).conf.pb
      | notInitialized => cases hm
      | initialized => cases hm

/-- the two analyses compared: the second after opening the document with the text held -/
theorem open_again (hp : ∀ g t o, env.parseFails g t o = false) (hrep : Repeats env) {w w' : World} (hw : SameDisk w w') {u c : Str}
    {l : LangType} {s₁ s₂ : Server} {h : List (World × Msg)} (hr : Rests env s₁.files u) (hl : fileExt u = some l)
    (hc : s₁.files.documents.get? u = some c) (ht : TreeOf s₁.files u l c) (hlv : ∀ e ∈ h, Leaves u e.2) (h₂ : s₁.run env h = .ok s₂) :
    ∃ s₃ v v', s₂.handle env w' (.didOpen u c) = .ok (s₃, Server.sends (v'.map fun v => HMap.empty.insert u v), .none) ∧ Undisturbed env s₂ s₃ ∧
      s₁.files.readTree env w u = .ok v ∧ AsOne.OptReports ((s₁.files.variables.get? u).getD []) v v' ∧
      ((∀ n, NamedElsewhere s₁ u n ↔ NamedElsewhere s₂ u n) → OptPerm v v') := by
  have hcore := Core.run hlv hr h₂
  have hr2 := hcore.rests hr
  have hd2 : s₂.files.documents.get? u = some c := by rw [hcore.doc]; exact hc
  have ht2 : TreeOf s₂.files u l c := by
    obtain ⟨o, ho⟩ := ht
    have hk : s₂.files.grammar l = s₁.files.grammar l := by
      cases l with
      | template => rfl
      | backend => exact leaves_parser hlv h₂
    exact ⟨o, by rw [hcore.tree, ho, hk]⟩
  obtain ⟨g, v', a1, a2, a3, a4⟩ := open_held hp hrep w' hr2 hl hd2 ht2
  obtain ⟨v, hv⟩ := readTree_ok env w s₁.files u
  obtain ⟨v2, hv2⟩ := readTree_ok env w' s₂.files u
  have b1 := hcore.readTree (env := env) hw
  have b2 := a3.readTree w' w'.order u
  rw [hv, hv2] at b1
  rw [hv2] at b2
  have b2 : OptPerm v2 v' := by
    have e : ({ w' with order := w'.order } : World) = w' := rfl
    rw [e, a2] at b2
    exact b2
  refine ⟨{ s₂ with files := g }, v, v', ?_, ⟨a3.doc, a3.vars, rfl, fun w w' m hw hm => Alike.request (s' := { s₂ with files := g }) a3 hw m hm⟩, hv, ?_, ?_⟩
  · simp only [Server.handle, a1]
  · simp only [Agree] at b1
    cases v <;> cases v2 <;> cases v' <;> simp only [AsOne.OptReports, OptPerm] at b1 b2 ⊢
    obtain ⟨es, c1, c2⟩ := b1
    exact ⟨es, c1, c2.trans b2⟩
  · intro hn
    have hkn : ∀ n, n ∈ knownNames s₁.files.variables ↔ n ∈ knownNames s₂.files.variables := by
      intro n
      rw [mem_knownNames, mem_knownNames]
      constructor
      · rintro ⟨x, vs, c1, y, c2, c3⟩
        by_cases hx : x = u
        · subst hx; exact ⟨x, vs, by rw [hcore.vars]; exact c1, y, c2, c3⟩
        · obtain ⟨x', vs', y', d1, d2, d3, d4⟩ := (hn n).mp ⟨x, vs, y, hx, c1, c2, c3⟩
          exact ⟨x', vs', d2, y', d3, d4⟩
      · rintro ⟨x, vs, c1, y, c2, c3⟩
        by_cases hx : x = u
        · subst hx; exact ⟨x, vs, by rw [← hcore.vars]; exact c1, y, c2, c3⟩
        · obtain ⟨x', vs', y', d1, d2, d3, d4⟩ := (hn n).mpr ⟨x, vs, y, hx, c1, c2, c3⟩
          exact ⟨x', vs', d2, y', d3, d4⟩
    have b5 := hcore.readTree_known (env := env) hkn hw
    rw [hv, hv2] at b5
    simp only [Agree] at b5
    cases v <;> cases v2 <;> cases v' <;> simp only [OptPerm] at b2 b5 ⊢
    exact b5.trans b2

end

/-- **C119** After a successful initialisation — and after any further messages that neither open nor edit the template, nor rebuild the
workspace — opening a template with the text that was read from the disk changes nothing, and it is told of the same reports as at the
initialisation: those for names that other files began or ceased to define may change, and if other files define the same names, none does. -/
theorem C119_startup_partial (env : Env) (hp : ∀ g t o, env.parseFails g t o = false) (hrep : Repeats env) (w w' : World) (hk : KeepsClass w)
    (hw : SameDisk w w') (s s₁ s₂ : Server) (d : HMap Str Diags) (r : Reply) (h : List (World × Msg)) (u c : Str)
    (h₁ : s.handle env w .initialized = .ok (s₁, [.diag d], r)) (hlv : ∀ e ∈ h, Leaves u e.2) (h₂ : s₁.run env h = .ok s₂)
    (hu : fileExt u = some .template) (hc : s₁.files.documents.get? u = some c) :
    ∃ s₃ o₃, s₂.handle env w' (.didOpen u c) = .ok (s₃, o₃, .none) ∧ Undisturbed env s₂ s₃ ∧
      (d.get? u = none ∧ o₃ = [] ∨ ∃ ds ds', d.get? u = some ds ∧ o₃ = [.diag (HMap.empty.insert u ds')] ∧
        SameReports ((s₁.files.variables.get? u).getD []) ds ds' ∧ ((∀ n, NamedElsewhere s₁ u n ↔ NamedElsewhere s₂ u n) → ds.Perm ds')) := by
  have hL := Loading.started hp hrep hk h₁ (List.cons_ne_nil _ _)
  obtain ⟨s₃, v, v', a1, a2, a3, a4, a5⟩ := open_again hp hrep hw (hL.rests u) hu hc ((hL.kept u).fresh _ _ hu hc) hlv h₂
  obtain ⟨d', e, hd⟩ := C56_diagnostics env hp w (fun dir path name l _ h1 h2 => hk path name l h1 h2) s s₁ _ r h₁ (List.cons_ne_nil _ _)
  cases e
  refine ⟨s₃, _, a1, a2, ?_⟩
  cases v with
  | none =>
    cases v' with
    | some _ => exact a4.elim
    | none =>
      refine Or.inl ⟨?_, rfl⟩
      cases hdu : d.get? u with
      | none => rfl
      | some ds =>
        have := ((hd u).1 ds hdu).2
        rw [a3] at this
        cases this
  | some ds =>
    cases v' with
    | none => exact a4.elim
    | some ds' => exact Or.inr ⟨ds, ds', (hd u).2 ds hu a3, rfl, a4, a5⟩

/-- **C119** The same for a document that was opened or saved before, in any history: closing it and opening it again with the same text
changes nothing. -/
theorem C119_reopened (env : Env) (hp : ∀ g t o, env.parseFails g t o = false) (hrep : Repeats env) (before after : List (World × Msg))
    (w w' : World) (hw : SameDisk w w') (m : Msg) (s s₁ s₂ : Server) (o₁ : List Send) (r : Reply) (u c : Str)
    (h₀ : Server.init.run env before = .ok s) (hb : ∀ e ∈ before, KeepsClass e.1 ∧ Ranged e.2) (hm : m.Analyses u)
    (h₁ : s.handle env w m = .ok (s₁, o₁, r)) (hlv : ∀ e ∈ after, Leaves u e.2) (h₂ : s₁.run env after = .ok s₂)
    (hu : fileExt u ≠ none) (hc : s₁.files.documents.get? u = some c) :
    ∃ s₃ o₃, s₂.handle env w' (.didOpen u c) = .ok (s₃, o₃, .none) ∧ Undisturbed env s₂ s₃ ∧
      ∃ ds ds', (o₁ = [.diag (HMap.empty.insert u ds)] ∨ o₁ = [] ∧ ds = []) ∧ (o₃ = [.diag (HMap.empty.insert u ds')] ∨ o₃ = [] ∧ ds' = []) ∧
        SameReports ((s₁.files.variables.get? u).getD []) ds ds' ∧ ((∀ n, NamedElsewhere s₁ u n ↔ NamedElsewhere s₂ u n) → ds.Perm ds') := by
  obtain ⟨l, hl⟩ := Option.ne_none_iff_exists'.mp hu
  have hkept := kept_run hp u before Server.init s False ((kept_init u).weaken fun _ => trivial) hb h₀
  have hkept1 : Kept env s₁.files u True := by
    cases hm with
    | opened text =>
      simp only [Server.handle] at h₁
      split at h₁
      · cases h₁
      · rename_i f msg hf
        cases h₁
        exact kept_didOpen hp hf hkept
    | saved =>
      simp only [Server.handle] at h₁
      split at h₁
      · cases h₁
      · rename_i f msg hf
        cases h₁
        exact kept_didSave hf hkept
  obtain ⟨s₃, v, v', a1, a2, a3, a4, a5⟩ := open_again hp hrep hw (analyses_rests hm h₁) hl hc (hkept1.fresh _ _ hl hc) hlv h₂
  refine ⟨s₃, _, a1, a2, v.getD [], v'.getD [], ?_, ?_, ?_, ?_⟩
  · have key : o₁ = [.diag (HMap.empty.insert u (v.getD []))] ∨ o₁ = [] ∧ v = none := by
      cases hm with
      | opened text =>
        simp only [Server.handle] at h₁
        split at h₁
        · cases h₁
        · rename_i f msg hf
          cases h₁
          obtain ⟨_, x, b1, rfl⟩ := LspFiles.didOpen_inv hl hf
          have b1 : f.readTree env w u = .ok x := b1
          rw [a3] at b1
          cases b1
          cases v with
          | none => exact Or.inr ⟨rfl, rfl⟩
          | some ds => exact Or.inl rfl
      | saved =>
        simp only [Server.handle] at h₁
        split at h₁
        · cases h₁
        · rename_i f msg hf
          cases h₁
          cases hd : s.files.documents.get? u with
          | none =>
            unfold LspFiles.didSave at hf
            simp only [hl, hd] at hf
            cases hf
            have hc : s.files.documents.get? u = some c := hc
            rw [hd] at hc
            cases hc
          | some t =>
            obtain ⟨_, x, b1, rfl⟩ := LspFiles.didSave_inv hl hd hf
            have b1 : f.readTree env w u = .ok x := b1
            rw [a3] at b1
            cases b1
            exact Or.inl rfl
    exact key.imp id fun ⟨x, y⟩ => ⟨x, by rw [y]; rfl⟩
  · cases v' with
    | none => exact Or.inr ⟨rfl, rfl⟩
    | some ds => exact Or.inl rfl
  · cases v <;> cases v' <;> simp only [AsOne.OptReports] at a4
    · exact AsOne.same_nil _
    · exact a4
  · intro hn
    have := a5 hn
    cases v <;> cases v' <;> simp only [OptPerm] at this
    · exact .nil
    · exact this

namespace Fix

/-- `aaa` uses names; every source file names a template -/
def reopenEnv : Env :=
  { env with
    queryMatches := fun q _ text => match q with
      | .jinjaObjects => if text = c!"aaa" then (uses.flatMap Elem.caps).map fun c => [c] else []
      | q => cloneEnv.queryMatches q (.parsed .python [] none) text }

theorem reopenEnv_repeats : Repeats reopenEnv := fun _ _ _ => ⟨rfl, fun _ _ => rfl⟩

/-- the project of `tree`, in which only the files listed exist -/
def gapTree : World :=
  { tree with canonicalize := fun p => if p = c!"/t/a.html" ∨ p = c!"/t/bad.html" ∨ p = c!"/s/m.py" then .ok p else .error .notFound }

theorem gapTree_keeps : KeepsClass gapTree := by
  intro p n l h hl
  simp only [gapTree] at h
  split at h
  · cases h; exact fileExt_fileUri p l hl
  · cases h

def uriPage : Str := c!"file:///t/a.html"
def uriView : Str := c!"file:///s/m.py"

/-- between the startup and the opening: the source file is opened, the template is asked about -/
def meanwhile : List (World × Msg) := [(gapTree, .didOpen uriView c!"m"), (gapTree, .hover uriPage ⟨0, 1⟩)]

end Fix

/-- the conditions of `C119_startup_partial` hold, and there are reports -/
example : ∃ s₁ s₂ d r ds, ({ Server.init with config := Fix.project } : Server).handle Fix.reopenEnv Fix.gapTree .initialized = .ok (s₁, [.diag d], r) ∧
    (∀ g t o, Fix.reopenEnv.parseFails g t o = false) ∧ Repeats Fix.reopenEnv ∧ KeepsClass Fix.gapTree ∧
    (∀ e ∈ Fix.meanwhile, Leaves Fix.uriPage e.2) ∧ s₁.run Fix.reopenEnv Fix.meanwhile = .ok s₂ ∧ fileExt Fix.uriPage = some .template ∧
    s₁.files.documents.get? Fix.uriPage = some c!"aaa" ∧ d.get? Fix.uriPage = some ds ∧ ds ≠ [] := by
  refine ⟨_, _, _, _, _, rfl, fun _ _ _ => rfl, Fix.reopenEnv_repeats, Fix.gapTree_keeps, ?_, rfl, by decide, rfl, rfl, by decide⟩
  simp [Fix.meanwhile, Leaves, Fix.uriPage, Fix.uriView]

/-- the conditions of `C119_reopened` hold, and there are reports -/
example : ∃ s s₁ s₂ ds, Server.init.run Fix.apartEnv Fix.longDay = .ok s ∧ (∀ e ∈ Fix.longDay, KeepsClass e.1 ∧ Ranged e.2) ∧
    Repeats Fix.apartEnv ∧ (Msg.didSave Fix.uriT).Analyses Fix.uriT ∧
    s.handle Fix.apartEnv Fix.rootWorld (.didSave Fix.uriT) = .ok (s₁, [.diag (HMap.empty.insert Fix.uriT ds)], .none) ∧ ds ≠ [] ∧
    (∀ e ∈ Fix.between, Leaves Fix.uriT e.2) ∧ s₁.run Fix.apartEnv Fix.between = .ok s₂ ∧ fileExt Fix.uriT ≠ none ∧
    s₁.files.documents.get? Fix.uriT = some c!"aaa" := by
  refine ⟨_, _, _, _, rfl, ?_, Fix.apartEnv_stateless.repeats, .saved, rfl, by decide, ?_, rfl, by decide, rfl⟩
  · intro m hm
    simp only [Fix.longDay, List.mem_cons, List.not_mem_nil, or_false] at hm
    rcases hm with rfl | rfl | rfl | rfl
    · exact ⟨Fix.rootWorld_orderly.1, fun u cs e => by cases e⟩
    · exact ⟨Fix.rootWorld_orderly.1, fun u cs e => by cases e; simp⟩
    · exact ⟨Fix.rootWorld_orderly.1, fun u cs e => by cases e⟩
    · exact ⟨Fix.rootWorld_orderly.1, fun u cs e => by cases e⟩
  · simp [Fix.between, Leaves, Fix.uriT, Fix.uriU]

/-- **C119** is false for source files: nothing is reported about them at the initialisation, but when they are opened. -/
theorem C119_source_refuted : ∃ (env : Env) (w : World) (s s₁ s₂ : Server) (d : HMap Str Diags) (r : Reply) (u c : Str) (ds : Diags),
    (∀ g t o, env.parseFails g t o = false) ∧ Repeats env ∧ KeepsClass w ∧ s.handle env w .initialized = .ok (s₁, [.diag d], r) ∧
    fileExt u = some .backend ∧ s₁.files.documents.get? u = some c ∧ d.get? u = none ∧
    s₁.handle env w (.didOpen u c) = .ok (s₂, [.diag (HMap.empty.insert u ds)], .none) ∧ ds ≠ [] :=
  ⟨Fix.reopenEnv, Fix.gapTree, { Server.init with config := Fix.project }, _, _, _, _, Fix.uriView, c!"m", _, fun _ _ _ => rfl,
    Fix.reopenEnv_repeats, Fix.gapTree_keeps, rfl, by decide, rfl, rfl, rfl, by decide⟩

end JinjaLsp
