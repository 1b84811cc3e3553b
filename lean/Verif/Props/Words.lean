import Verif.Props.Trace
import Verif.Props.Definitions
import Verif.Props.Complete
import Verif.Props.Quiet
import Verif.Lemmas.Imports
/-
  Positions of diagnostics are positions of the syntax tree; so they are 32-bit numbers as those are.
-/

namespace JinjaLsp
open Spec

namespace Spec

/-- a property of all positions that the parser reports -/
structure Everywhere (env : Env) (P : Point → Prop) : Prop where
  zero : P Point.zero
  captures : ∀ q tree text, ∀ c ∈ (env.queryMatches q tree text).flatten, P c.start ∧ P c.stop

/-- tree-sitter counts rows and columns with 32-bit numbers (`TSPoint`) -/
def Words (env : Env) : Prop :=
  ∀ q tree text, ∀ c ∈ (env.queryMatches q tree text).flatten, (c.start.row < 4294967296 ∧ c.start.column < 4294967296) ∧
    c.stop.row < 4294967296 ∧ c.stop.column < 4294967296

end Spec

section
variable {env : Env} {P : Point → Prop}

/-- both ends of an identifier satisfy `P` -/
def At (P : Point → Prop) (i : Identifier) : Prop := P i.start ∧ P i.stop

/-- … of all recorded names -/
def AllAt (P : Point → Prop) (f : LspFiles) : Prop := ∀ e ∈ f.variables.entries, ∀ i ∈ e.2, At P i

theorem at_of_tplFrom (hP : Everywhere env P) {q : QueryId} {tree : Tree} {text : Str} {i : Identifier}
    (h : TplFrom (env.queryMatches q tree text).flatten i) : At P i := by
  obtain ⟨c, hc, _, _, h1, h2⟩ := h
  have := hP.captures q tree text c hc
  exact ⟨h1 ▸ this.1, h2 ▸ this.2⟩

theorem at_backendRun {cs : List Capture} (hP : ∀ c ∈ cs, P c.start ∧ P c.stop) : ∀ (vars : List Identifier), (∀ i ∈ vars, At P i) →
    ∀ i ∈ backendRun vars cs, At P i := by
  induction cs with
  | nil => intro vars h; exact h
  | cons c cs ih =>
    intro vars h
    unfold backendRun
    split
    · exact h
    · rename_i vars' hk
      refine ih (fun c hc => hP c (by simp [hc])) vars' ?_
      have hc := hP c (by simp)
      unfold backendCheck at hk
      have app : ∀ n, ∀ i ∈ vars ++ [{ Identifier.new n c.start c.stop with idType := .backendVariable }], At P i := by
        intro n i hi
        rcases List.mem_append.mp hi with hi | hi
        · exact h i hi
        · cases List.mem_singleton.mp hi
          exact hc
      split at hk
      · split at hk
        · cases hk
        · cases hk; exact app _
      · split at hk
        · cases hk
        · cases hk; exact app _
      · cases hk
      · cases hk; exact h

theorem at_backendVariables (hP : Everywhere env P) (f : LspFiles) (tree : Tree) (text : Str) : ∀ i ∈ f.backendVariables env tree text, At P i := by
  intro i hi
  rcases List.mem_append.mp hi with hi | hi
  · exact at_backendRun (fun c hc => hP.captures _ tree text c (mem_selectCaptures hc)) [] (by simp) i hi
  · exact at_of_tplFrom hP (backendTemplates_from _ _ ⟨[], false⟩ (fun c hc => mem_selectCaptures hc) (by simp) i hi)

theorem at_addVariables (hP : Everywhere env P) {f g : LspFiles} {n c : Str} {l : LangType} (hf : AllAt P f)
    (h : f.addVariables env n l c = .ok g) : AllAt P g := by
  have ins : ∀ (vs : List Identifier), (∀ i ∈ vs, At P i) → ∀ e ∈ (f.variables.insert n vs).entries, ∀ i ∈ e.2, At P i := by
    intro vs hvs e he
    simp only [HMap.insert, List.mem_cons] at he
    rcases he with rfl | he
    · exact hvs
    · exact hf e (List.mem_filter.mp he).1
  unfold LspFiles.addVariables at h
  split at h
  · cases h; exact hf
  · split at h
    · cases h
      exact ins _ (at_backendVariables hP f _ _)
    · split at h
      · cases h; exact hf
      · split at h
        · cases h
        · rename_i d hd
          cases h
          refine ins _ fun i hi => ?_
          rcases C14_from_text env _ _ _ _ d hd i hi with ⟨_, h1, h2⟩ | ⟨c, hc, _, _, h1, h2⟩
          · exact ⟨h1 ▸ hP.zero, h2 ▸ hP.zero⟩
          · have := hP.captures _ _ _ c hc
            exact ⟨h1 ▸ this.1, h2 ▸ this.2⟩

theorem at_deleteVariables {f : LspFiles} (n : Str) (hf : AllAt P f) : AllAt P (f.deleteVariables n) := by
  unfold LspFiles.deleteVariables
  split
  · exact hf
  · intro e he
    simp only [HMap.insert, List.mem_cons] at he
    rcases he with rfl | he
    · simp
    · exact hf e (List.mem_filter.mp he).1

theorem at_collect (hP : Everywhere env P) (tree : Tree) (p : Point) (text : Str) (all : Bool) (o : HashOrder) :
    ∀ i ∈ (templatesQuery env tree p text all).collect o, At P i := by
  have run : ∀ (cs : List Capture) (s : JinjaImports), (∀ c ∈ cs, P c.start ∧ P c.stop) → (∀ e ∈ s.imports.entries, ∀ i ∈ e.2.collect, At P i) →
      ∀ e ∈ (JinjaImports.run s cs).imports.entries, ∀ i ∈ e.2.collect, At P i := by
    intro cs
    induction cs with
    | nil => intro s _ h; exact h
    | cons c cs ih =>
      intro s hc h
      unfold JinjaImports.run
      split
      · exact h
      · rename_i s' hk
        refine ih s' (fun c' hc' => hc c' (by simp [hc'])) ?_
        have hcc := hc c (by simp)
        have ins : ∀ id v, (∀ i ∈ Import.collect v, At P i) → ∀ e ∈ (s.imports.insert id v).entries, ∀ i ∈ e.2.collect, At P i := by
          intro id v hv e he
          simp only [HMap.insert, List.mem_cons] at he
          rcases he with rfl | he
          · exact hv
          · exact h e (List.mem_filter.mp he).1
        have opn : ∀ id v again, (∀ i ∈ Import.collect v, At P i) → ∀ e ∈ (s.openImport id v again).imports.entries, ∀ i ∈ e.2.collect, At P i := by
          intro id v again hv
          unfold JinjaImports.openImport
          split
          · exact h
          · exact ins id v hv
        have hdef : At P Identifier.default := ⟨hP.zero, hP.zero⟩
        have fill : ∀ t n, At P t → At P (JinjaImports.fillTemplate t n c.start c.stop) := by
          intro t n ht
          unfold JinjaImports.fillTemplate
          split
          · exact hcc
          · exact ht
        unfold JinjaImports.check at hk
        split at hk
        · cases hk
        · cases hk; exact opn _ _ _ (by intro i hi; cases List.mem_singleton.mp hi; exact hdef)
        · cases hk; exact opn _ _ _ (by intro i hi; cases hi)
        · cases hk; exact opn _ _ _ (by intro i hi; cases List.mem_singleton.mp hi; exact hdef)
        · cases hk; exact opn _ _ _ (by intro i hi; cases List.mem_singleton.mp hi; exact hdef)
        · split at hk
          · cases hk; exact h
          · split at hk
            · cases hk
            · rename_i id _ last hg
              have hl := h (_, last) ((HMap.get?_eq_some_iff ..).mp hg)
              split at hk
              · cases hk
              · cases hk
                refine ins _ _ ?_
                cases last with
                | «extends» t =>
                  intro i hi; cases List.mem_singleton.mp hi; exact fill _ _ (hl t (by simp [Import.collect]))
                | «include» ts =>
                  intro i hi
                  rcases List.mem_append.mp hi with hi | hi
                  · exact hl i hi
                  · cases List.mem_singleton.mp hi; exact hcc
                | from_ t ids =>
                  intro i hi
                  rcases List.mem_cons.mp hi with rfl | hi
                  · exact fill _ _ (hl t (by simp [Import.collect]))
                  · exact hl i (by simp [Import.collect, hi])
                | import_ t j =>
                  intro i hi; cases List.mem_singleton.mp hi; exact fill _ _ (hl t (by simp [Import.collect]))
        · split at hk
          · cases hk; exact h
          · split at hk
            · cases hk
            · split at hk
              · cases hk
              · rename_i id _ nm _ last hg
                have hl := h (_, last) ((HMap.get?_eq_some_iff ..).mp hg)
                split at hk
                · cases hk
                  refine ins _ _ ?_
                  intro i hi
                  rcases List.mem_cons.mp hi with rfl | hi
                  · exact hl _ (by simp [Import.collect])
                  · rcases List.mem_append.mp hi with hi | hi
                    · exact hl i (by simp [Import.collect, hi])
                    · cases List.mem_singleton.mp hi; exact hcc
                · split at hk
                  · cases hk
                    refine ins _ _ ?_
                    intro i hi; cases List.mem_singleton.mp hi; exact hl _ (by simp [Import.collect])
                  · cases hk; exact h
                · cases hk; exact h
        · cases hk; exact h
  intro i hi
  obtain ⟨e, he, hi⟩ := List.mem_flatMap.mp hi
  exact run _ JinjaImports.default (fun c hc => hP.captures _ tree text c (mem_selectCaptures hc)) (fun e he => by cases he) e
    ((HMap.mem_shuffle ..).mp he) i hi

theorem at_searchErrors (hP : Everywhere env P) {w : World} {tree : Tree} {text : Str} {f : LspFiles} {n t : Str} {l : LangType} {ig : Bool}
    {ds : Diags} (hf : AllAt P f) (h : searchErrors env w tree text f.variables n t l ig = .ok (some ds)) : ∀ d ∈ ds, At P d.2 := by
  unfold searchErrors at h
  split at h
  · split at h
    · cases h
    · rename_i objs ho
      split at h
      · cases h
      · simp only [Except.ok.injEq, Option.some.injEq] at h
        subst h
        intro d hd
        rcases List.mem_append.mp hd with hd | hd
        · obtain ⟨o, hom, hd⟩ := List.mem_filterMap.mp hd
          obtain ⟨c, hc, _, _, hloc⟩ := (JinjaObjects.from_query ho).objects o hom
          have hd2 : d.2 = Identifier.ofObject o := by
            simp only [objectDiag] at hd
            repeat' split at hd
            all_goals first | (cases hd; done) | (simp only [Option.some.injEq] at hd; rw [← hd])
          rw [hd2]
          have := hP.captures _ _ _ c hc
          refine ⟨?_, ?_⟩
          · show P o.location.1
            rw [hloc]; exact this.1
          · show P o.location.2
            rw [hloc]; exact this.2
        · obtain ⟨i, hi, hd⟩ := List.mem_filterMap.mp hd
          have hd2 : d.2 = i := by
            simp only [importDiag] at hd
            repeat' split at hd
            all_goals first | (cases hd; done) | (simp only [Option.some.injEq] at hd; rw [← hd])
          rw [hd2]
          exact at_collect hP _ _ _ _ _ i (List.mem_filter.mp hi).1
  · split at h
    · cases h
    · rename_i all hall
      simp only [Except.ok.injEq, Option.some.injEq] at h
      subst h
      intro d hd
      obtain ⟨i, hi, hd⟩ := List.mem_filterMap.mp hd
      have hd2 : d.2 = i := by
        unfold backendDiag at hd
        split at hd
        · cases hd; rfl
        · cases hd
      rw [hd2]
      exact hf (n, all) ((HMap.get?_eq_some_iff ..).mp hall) i (List.mem_filter.mp hi).1

theorem at_readTree (hP : Everywhere env P) {w : World} {f : LspFiles} {n : Str} {ds : Diags} (hf : AllAt P f)
    (h : f.readTree env w n = .ok (some ds)) : ∀ d ∈ ds, At P d.2 := by
  unfold LspFiles.readTree at h
  split at h
  · cases h
  · split at h
    · cases h
    · split at h
      · cases h
      · exact at_searchErrors hP hf h

/-- all reports of a result -/
def DiagsAt (P : Point → Prop) (m : HMap Str Diags) : Prop := ∀ e ∈ m.entries, ∀ d ∈ e.2, At P d.2

theorem diagsAt_insert {m : HMap Str Diags} {n : Str} {ds : Diags} (hm : DiagsAt P m) (hd : ∀ d ∈ ds, At P d.2) : DiagsAt P (m.insert n ds) := by
  intro e he
  simp only [HMap.insert, List.mem_cons] at he
  rcases he with rfl | he
  · exact hd
  · exact hm e (List.mem_filter.mp he).1

theorem diagsAt_empty : DiagsAt P HMap.empty := by intro e he; cases he

theorem at_readTrees (hP : Everywhere env P) {w : World} {f : LspFiles} (hf : AllAt P f) : ∀ (ns : List Str) (m m' : HMap Str Diags), DiagsAt P m →
    f.readTreesLoop env w ns m = .ok m' → DiagsAt P m'
  | [], m, m', hm, h => by simp only [LspFiles.readTreesLoop] at h; cases h; exact hm
  | n :: ns, m, m', hm, h => by
    simp only [LspFiles.readTreesLoop] at h
    split at h
    · cases h
    · exact at_readTrees hP hf ns m m' hm h
    · rename_i v hv
      exact at_readTrees hP hf ns _ m' (diagsAt_insert hm (at_readTree hP hf hv)) h

/-- a step of the server keeps the positions of names, and its results have such positions -/
theorem at_handle (hP : Everywhere env P) {w : World} {s s' : Server} {m : Msg} {out : List Send} {r : Reply} (hf : AllAt P s.files)
    (h : s.handle env w m = .ok (s', out, r)) : AllAt P s'.files ∧ ∀ d ∈ results out, DiagsAt P d := by
  have same : ∀ {f g : LspFiles}, AllAt P f → g.variables = f.variables → AllAt P g := by
    intro f g hf hg e he
    rw [hg] at he
    exact hf e he
  have query : m.isQuery → AllAt P s'.files ∧ ∀ d ∈ results out, DiagsAt P d := by
    intro hq
    obtain ⟨h1, _, h3⟩ := handle_query hq h
    rw [h1, h3]
    exact ⟨hf, by simp [results]⟩
  have sent : ∀ {m : Option (HMap Str Diags)}, (∀ d, m = some d → DiagsAt P d) → ∀ d ∈ results (Server.sends m), DiagsAt P d := by
    intro m hm d hd
    cases m with
    | none => simp [Server.sends, results] at hd
    | some x =>
      simp only [Server.sends, results, List.mem_singleton] at hd
      subst hd
      exact hm _ rfl
  have hs := handle_files h
  cases m
  case completion => exact query trivial
  case hover => exact query trivial
  case goto => exact query trivial
  case codeAction => exact query trivial
  case documentSymbol => exact query trivial
  case «initialize» c o =>
    simp only [Server.handle, Except.ok.injEq, Prod.mk.injEq] at h
    obtain ⟨rfl, rfl, _⟩ := h
    refine ⟨same hf ?_, by simp [results]⟩
    simp only [Server.onInitialize]
    split <;> rfl
  case initialized =>
    simp only [Server.handle] at h
    split at h
    · cases h
    · rename_i s1 o1 h1
      cases h
      unfold Server.onInitialized at h1
      split at h1
      · split at h1
        · cases h1
        · cases h1; exact ⟨hf, by simp [results]⟩
        · rename_i d f hw
          cases h1
          have hf' : AllAt P f := by
            refine walkdir_induct (AllAt P) ?_ (fun f path l g hf hl hg => ?_) hw
            · intro e he
              have : (walkStart s.config).variables = HMap.empty := by unfold walkStart; split <;> rfl
              rw [this] at he
              cases he
            · unfold LspFiles.readFile at hg
              split at hg
              · cases hg; exact hf
              · split at hg
                · cases hg; exact hf
                · refine at_addVariables hP (same hf ?_) hg
                  unfold LspFiles.addTree
                  split <;> rfl
          refine ⟨same hf' rfl, fun d' hd' => ?_⟩
          simp only [results, List.mem_singleton] at hd'
          subst hd'
          unfold walkdir at hw
          split at hw
          · cases hw
          · cases hw
          · split at hw
            · cases hw
            · rename_i hr
              cases hw
              exact at_readTrees hP hf' _ _ _ diagsAt_empty hr
      · cases h1; exact ⟨hf, by simp [results]⟩
  case didOpen uri text =>
    simp only [Server.handle] at h
    split at h
    · cases h
    · rename_i f m hd
      cases h
      unfold LspFiles.didOpen at hd
      split at hd
      · cases hd; exact ⟨hf, by simp [Server.sends, results]⟩
      · simp only at hd
        split at hd
        · cases hd
        · rename_i f3 h3
          have hf3 : AllAt P f3 := by
            refine at_addVariables hP (same (at_deleteVariables uri hf) ?_) h3
            unfold LspFiles.addTree
            split <;> rfl
          rw [if_neg (by simp)] at hd
          split at hd
          · cases hd
          · cases hd; exact ⟨hf3, by simp [Server.sends, results]⟩
          · rename_i v hv
            cases hd
            exact ⟨hf3, sent fun d hd => by cases hd; exact diagsAt_insert diagsAt_empty (at_readTree hP hf3 hv)⟩
  case didSave uri =>
    simp only [Server.handle] at h
    split at h
    · cases h
    · rename_i f m hd
      cases h
      unfold LspFiles.didSave at hd
      split at hd
      · cases hd; exact ⟨hf, by simp [Server.sends, results]⟩
      · split at hd
        · cases hd; exact ⟨hf, by simp [Server.sends, results]⟩
        · split at hd
          · cases hd
          · rename_i f1 h1
            have hf1 : AllAt P f1 := at_addVariables hP (at_deleteVariables uri hf) h1
            split at hd
            · cases hd
            · cases hd
              exact ⟨hf1, sent fun d hd => by cases hd; exact diagsAt_insert diagsAt_empty (by simp)⟩
            · rename_i v hv
              cases hd
              exact ⟨hf1, sent fun d hd => by cases hd; exact diagsAt_insert diagsAt_empty (at_readTree hP hf1 hv)⟩
  case didChange uri cs =>
    simp only [Server.handle] at h
    split at h
    · cases h
    · rename_i s1 h1
      cases h
      obtain ⟨f, b, hd, e, _⟩ := onDidChange_cases h1
      subst e
      exact ⟨same hf (variables_didChange hd), by simp [results]⟩
  case executeCommand c =>
    simp only [Server.handle] at h
    cases h
    refine ⟨hf, ?_⟩
    split <;> simp [results]
  case didChangeConfiguration c =>
    simp only [Server.handle, Except.ok.injEq, Prod.mk.injEq] at h
    obtain ⟨rfl, rfl, _⟩ := h
    refine ⟨hf, ?_⟩
    split <;> split <;> simp [results]
  case codeActions m =>
    simp only [Server.handle] at h
    cases h
    exact ⟨same hf (addCodeActions_frame w.order s.files m).2.2.1, by simp [results]⟩

/-- what an execution has computed and what its worker still has to send -/
theorem at_execution (hP : Everywhere env P) {W : World → Prop} {cs : List Msg} {as : List (HMap Str Diags)} {σ : Sys}
    (h : Execution W env cs as σ) : (∀ s, σ.worker = some s → AllAt P s.files) ∧ ∀ m ∈ as, DiagsAt P m := by
  induction h with
  | start => exact ⟨fun s hs => (by cases hs; intro e he; cases he), by simp⟩
  | client h m hm hw hc ih => exact ih
  | delayed h hs hw ht hτ ih =>
    refine ⟨fun s hs => ?_, ih.2⟩
    rw [hτ] at hs
    cases hs
    have := ih.1 _ hw
    exact this
  | task h hs ih =>
    cases hs with
    | workerRecv w hw ho hq hh hW =>
      have := at_handle hP (ih.1 _ hw) hh
      refine ⟨fun s hs => (by cases hs; exact this.1), fun m hm => ?_⟩
      rw [if_pos ho] at hm
      rcases List.mem_append.mp hm with hm | hm
      · exact ih.2 m hm
      · exact this.2 m hm
    | workerPanic w hw ho hq hh hW =>
      exact ⟨fun s hs => (by cases hs), fun m hm => ih.2 m (by simpa [results] using hm)⟩
    | workerSendDiag hw ho ha hc => exact ⟨ih.1, fun m hm => ih.2 m (by simpa [ho] using hm)⟩
    | workerSendDiagDead hw ho ha => exact ⟨ih.1, fun m hm => ih.2 m (by simpa [ho] using hm)⟩
    | workerSendSelf hw ho hc => exact ⟨ih.1, fun m hm => ih.2 m (by simpa [ho] using hm)⟩
    | _ =>
      refine ⟨ih.1, fun m hm => ih.2 m ?_⟩
      rcases List.mem_append.mp hm with hm | hm
      · exact hm
      · split at hm
        · rename_i e
          simp [e, results] at hm
        · cases hm

end

/-- **C65** Whatever holds of 0:0 and of all positions the parser reports holds of all positions in all analysis results of every execution: no
position is made up or computed. -/
theorem C65_positions (W : World → Prop) (env : Env) (P : Point → Prop) (hP : Everywhere env P) (cs : List Msg) (as : List (HMap Str Diags))
    (σ : Sys) (h : Execution W env cs as σ) : ∀ m ∈ as, ∀ u ds, m.get? u = some ds → ∀ d ∈ ds, P d.2.start ∧ P d.2.stop := by
  intro m hm u ds hg d hd
  exact (at_execution hP h).2 m hm (u, ds) ((HMap.get?_eq_some_iff ..).mp hg) d hd

/-- **C65** In every execution all positions of analysis results are 32-bit numbers if those of the parser are. -/
theorem C65_small (W : World → Prop) (env : Env) (hw : Words env) (cs : List Msg) (as : List (HMap Str Diags)) (σ : Sys)
    (h : Execution W env cs as σ) : SmallResults as :=
  C65_positions W env (fun p => p.row < 4294967296 ∧ p.column < 4294967296) ⟨by simp [Point.zero], hw⟩ cs as σ h

/-- **C65** `C65_in_order` with the assumption about the parser alone. -/
theorem C65_words (W : World → Prop) (env : Env) (hw : Words env) (cs : List Msg) (as : List (HMap Str Diags)) (σ : Sys)
    (h : Execution W env cs as σ) (ha : σ.diagAlive = true) :
    ∃ done : List (HMap Str Diags × List (Str × List Diagnostic)),
      as = done.map Prod.fst ++ σ.diagQ ++ results σ.wOut ∧ σ.published = (done.map Prod.snd).flatten ∧ ∀ d ∈ done, Publishes env d.1 d.2 :=
  C65_in_order W env cs as σ h (C65_small W env hw cs as σ h) ha

theorem Fix.typing_words : Words Fix.typingEnv := by
  have h1 : ∀ c ∈ Fix.tpl.caps, (c.start.row < 4294967296 ∧ c.start.column < 4294967296) ∧
      c.stop.row < 4294967296 ∧ c.stop.column < 4294967296 := by decide
  have h2 : ∀ c ∈ Fix.uses.flatMap Elem.caps, (c.start.row < 4294967296 ∧ c.start.column < 4294967296) ∧
      c.stop.row < 4294967296 ∧ c.stop.column < 4294967296 := by decide
  intro q tree text c hc
  simp only [Fix.typingEnv, Fix.docEnv] at hc
  split at hc
  · rw [Fix.flatten_singletons] at hc; exact h1 c hc
  · rw [Fix.flatten_singletons] at hc; exact h2 c hc
  · simp at hc
  · simp at hc

/-- The assumption holds in an execution that opens a template and reports three names, at positions other than 0:0. -/
example : ∃ (as : List (HMap Str Diags)) (σ : Sys), Words Fix.typingEnv ∧
    Execution (fun _ => True) Fix.typingEnv [.didOpen Fix.uriT c!"aaa"] as σ ∧ σ.diagAlive = true ∧
    (as.map fun m => m.entries.map fun e => e.2.map fun d => (d.2.start, d.2.stop)) =
      [[[(⟨4, 20⟩, ⟨4, 21⟩), (⟨7, 3⟩, ⟨7, 4⟩), (⟨8, 3⟩, ⟨8, 4⟩)]]] := by
  have e1 := Execution.start (W := fun _ => True) (env := Fix.typingEnv) |>.client (.didOpen Fix.uriT c!"aaa") trivial rfl (by decide)
  have e2 := e1.task (.workerRecv (q := []) Fix.rootWorld rfl rfl rfl rfl)
  exact ⟨_, _, Fix.typing_words, e2, rfl, by decide⟩

end JinjaLsp
