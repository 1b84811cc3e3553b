import Verif.Props.Settle
/-
  C88: how old what is shown can be.
-/

namespace JinjaLsp
open Spec

namespace Spec

/-- a message the worker has processed: what the editor showed when it was put into the queue, and the step of the worker -/
structure Done where
  msg : Msg
  shown : Editor
  before : Server
  world : World
  after : Server
  outs : List Send
  reply : Reply

/-- the step is one of the worker, with the texts of the editor -/
structure Done.Ok (W : World → Prop) (env : Env) (d : Done) : Prop where
  world : W d.world
  step : d.before.handle env d.world d.msg = .ok (d.after, d.outs, d.reply)
  inStep : InStep d.before.files d.shown
  fresh : Fresh d.after.files

end Spec

/-- what was processed: the answers, the results computed and the texts the editor showed -/
structure History (W : World → Prop) (env : Env) (cs : List Msg) (E : Editor) (q : List (Msg × Editor)) (rs : List (Msg × Editor × Reply)) (σ : Sys)
    (as : List (HMap Str Diags)) (ds : List Done) : Prop where
  exec : Execution W env cs as σ
  answers : ds.map (fun d => (d.msg, d.shown, d.reply)) = rs
  computed : as = ds.flatMap fun d => results d.outs
  ok : ∀ d ∈ ds, d.Ok W env
  texts : Pending (fun _ => none) (ds.map (fun d => (d.msg, d.shown)) ++ q) E

theorem Spec.Pending.split {E G : Editor} {a b : List (Msg × Editor)} (h : Pending E (a ++ b) G) : ∃ F, Pending E a F ∧ Pending F b G := by
  induction a generalizing E with
  | nil => exact ⟨E, .nil _, h⟩
  | cons x a ih =>
    cases h with
    | cons h r =>
      obtain ⟨F, h1, h2⟩ := ih r
      exact ⟨F, .cons h h1, h2⟩

theorem session_history {W : World → Prop} (hO : ∀ w, W w → Orderly w) {env : Env} (he : Sound env) {cs E q rs σ}
    (h : Session W env cs E q rs σ) (hc : ∀ m ∈ cs, Proper env m) : ∃ as ds, History W env cs E q rs σ as ds := by
  have fresh : ∀ {cs E q rs σ}, Session W env cs E q rs σ → (∀ m ∈ cs, Proper env m) → ∀ s, σ.worker = some s → Fresh s.files := by
    intro cs E q rs σ h hc s hs
    obtain ⟨⟨as, h1⟩, _, h3⟩ := h.execution
    obtain ⟨⟨⟨s', hs', hh⟩, _⟩, _⟩ := following he (h1.weaken hO) hc E h3
    rw [hs] at hs'
    cases hs'
    exact hh.fresh
  have key : ∃ as ds, History W env cs E q rs σ as ds ∧ ∀ s, σ.worker = some s → ∃ E₁, InStep s.files E₁ ∧ Pending E₁ q E := by
    induction h with
    | start =>
      refine ⟨[], [], ⟨.start, rfl, rfl, by simp, .nil _⟩, ?_⟩
      intro s hs
      cases hs
      exact ⟨fun _ => none, ⟨by simp, fun u _ => rfl⟩, .nil _⟩
    | client h m hm hw hl hst ih =>
      obtain ⟨as, ds, hh, h2⟩ := ih (fun x hx => hc x (by simp [hx]))
      refine ⟨as, ds, ⟨hh.exec.client m hm hw hl, hh.answers, hh.computed, hh.ok, ?_⟩, ?_⟩
      · rw [← List.append_assoc]; exact hh.texts.append hst
      · intro s hs
        obtain ⟨E₁, h3, h4⟩ := h2 s hs
        exact ⟨E₁, h3, h4.append hst⟩
    | answer w h hw ho hr hW ih =>
      rename_i cs E q rs σ s s' m A o r
      have hfr := fresh (h.answer w hw ho hr hW) hc _ rfl
      obtain ⟨as, ds, hh, h2⟩ := ih hc
      obtain ⟨E₁, h3, h4⟩ := h2 _ hw
      have hq := h.execution.2.1
      cases h4 with
      | cons hst hp =>
        refine ⟨as ++ results o, ds ++ [⟨m, A, s, w, s', o, r⟩], ⟨?_, by simp [hh.answers], by simp [hh.computed], ?_, ?_⟩, ?_⟩
        · have := hh.exec.task (.workerRecv w hw ho hq.symm hr hW)
          rw [if_pos ho] at this
          exact this
        · intro d hd
          rcases List.mem_append.mp hd with hd | hd
          · exact hh.ok d hd
          · rw [List.mem_singleton.mp hd]
            exact ⟨hW, hr, h3, hfr⟩
        · have := hh.texts
          simpa using this
        · intro s1 hs1
          cases hs1
          exact ⟨_, h3.handle (hO w hW) hst hr, hp⟩
    | task h hs hn ih =>
      rename_i cs E q rs σ τ new
      obtain ⟨as, ds, hh, h2⟩ := ih hc
      obtain ⟨⟨_, hx⟩, _, hx3⟩ := h.execution
      obtain ⟨_, hquiet, _⟩ := following he (hx.weaken hO) hc _ hx3
      have hex := hh.exec.task hs
      have same : new = [] → τ.worker = σ.worker → (if σ.wOut = [] then results τ.wOut else []) = [] → ∃ as ds,
          History W env cs E (q ++ new.map fun m => (m, E)) rs τ as ds ∧
            ∀ s, τ.worker = some s → ∃ E₁, InStep s.files E₁ ∧ Pending E₁ (q ++ new.map fun m => (m, E)) E := by
        rintro rfl hw hz
        rw [hz, List.append_nil] at hex
        refine ⟨as, ds, ⟨hex, hh.answers, hh.computed, hh.ok, by simpa using hh.texts⟩, ?_⟩
        rw [hw]
        simpa using h2
      cases hs with
      | workerRecv w hw' ho' hq' hr hW =>
        rw [hq'] at hn
        have := congrArg List.length hn
        simp at this
        omega
      | workerPanic w hw' ho' hq' hr =>
        rw [hq'] at hn
        cases hn
      | workerSendSelf hw' ho hl => rw [ho] at hquiet; simp at hquiet
      | diagSend ha hd hw' hl =>
        have hz : (if σ.wOut = [] then results σ.wOut else []) = [] := by split <;> simp_all [results]
        cases (List.append_cancel_left hn).symm
        dsimp only at hex
        rw [hz, List.append_nil] at hex
        refine ⟨as, ds, ⟨hex, hh.answers, hh.computed, hh.ok, ?_⟩, ?_⟩
        · rw [← List.append_assoc]; exact hh.texts.append (.actions _ _)
        · intro s hs
          obtain ⟨E₁, h3, h4⟩ := h2 s hs
          exact ⟨E₁, h3, h4.append (.actions _ _)⟩
      | workerSendDiag hw ho ha hl => exact same (by simpa using hn) rfl (by simp [ho])
      | workerSendDiagDead hw ho ha => exact same (by simpa using hn) rfl (by simp [ho])
      | diagRecv | diagPanic | diagSendDead | diagStop => exact same (by simpa using hn) rfl (by simp only; split <;> simp_all [results])
    | delayed h hs hw ht hτ hn ih =>
      rename_i cs E q rs σ τ s1 t new
      obtain ⟨as, ds, hh, h2⟩ := ih hc
      have hex := hh.exec.delayed hs hw ht hτ
      obtain ⟨E₁, h3, h4⟩ := h2 _ hw
      obtain ⟨_, _, _, _, _, h6⟩ := expired hs hw ht hτ
      rcases h6 with h6 | ⟨u, h6⟩
      · have : new = [] := by rw [h6] at hn; simpa using hn
        subst this
        refine ⟨as, ds, ⟨hex, hh.answers, hh.computed, hh.ok, by simpa using hh.texts⟩, ?_⟩
        intro s hs'
        rw [hτ] at hs'
        cases hs'
        exact ⟨E₁, ⟨h3.held, h3.supported⟩, by simpa using h4⟩
      · rw [h6] at hn
        have := List.append_cancel_left hn
        subst this
        refine ⟨as, ds, ⟨hex, hh.answers, hh.computed, hh.ok, ?_⟩, ?_⟩
        · rw [← List.append_assoc]; exact hh.texts.append (.save _ u)
        · intro s hs'
          rw [hτ] at hs'
          cases hs'
          exact ⟨E₁, ⟨h3.held, h3.supported⟩, h4.append (.save _ u)⟩
  obtain ⟨as, ds, h1, _⟩ := key
  exact ⟨as, ds, h1⟩

/-! ### Interleavings -/

theorem append_singleton_eq {α : Type} {l l1 l2 : List α} {x : α} (h : l ++ [x] = l1 ++ l2) :
    (l2 = [] ∧ l1 = l ++ [x]) ∨ ∃ l2', l2 = l2' ++ [x] ∧ l = l1 ++ l2' := by
  rcases List.eq_nil_or_concat l2 with rfl | ⟨l2', y, rfl⟩
  · exact .inl ⟨rfl, by simpa using h.symm⟩
  · rw [List.concat_eq_append, ← List.append_assoc] at h
    obtain ⟨h1, h2⟩ := List.append_inj' h rfl
    cases h2
    exact .inr ⟨l2', by simp, h1⟩

theorem Spec.Merge.cut {α : Type} {a b l : List α} (h : Merge a b l) : ∀ {l1 l2}, l = l1 ++ l2 →
    ∃ a1 a2 b1 b2, a = a1 ++ a2 ∧ b = b1 ++ b2 ∧ Merge a1 b1 l1 ∧ Merge a2 b2 l2 := by
  induction h with
  | nil =>
    intro l1 l2 e
    obtain ⟨rfl, rfl⟩ := List.nil_eq_append_iff.mp e
    exact ⟨[], [], [], [], rfl, rfl, .nil, .nil⟩
  | left x h ih =>
    intro l1 l2 e
    rcases append_singleton_eq e with ⟨rfl, rfl⟩ | ⟨l2', rfl, e'⟩
    · exact ⟨_, [], _, [], by simp, by simp, h.left x, .nil⟩
    · obtain ⟨a1, a2, b1, b2, rfl, rfl, h1, h2⟩ := ih e'
      exact ⟨a1, a2 ++ [x], b1, b2, by simp, rfl, h1, h2.left x⟩
  | right x h ih =>
    intro l1 l2 e
    rcases append_singleton_eq e with ⟨rfl, rfl⟩ | ⟨l2', rfl, e'⟩
    · exact ⟨_, [], _, [], by simp, by simp, h.right x, .nil⟩
    · obtain ⟨a1, a2, b1, b2, rfl, rfl, h1, h2⟩ := ih e'
      exact ⟨a1, a2, b1, b2 ++ [x], rfl, by simp, h1, h2.right x⟩

theorem Spec.Merge.find {α : Type} {a b l : List α} (h : Merge a b l) : ∀ {pre post m}, a = pre ++ m :: post →
    ∃ la lb b1 b2, l = la ++ m :: lb ∧ b = b1 ++ b2 ∧ Merge pre b1 la ∧ Merge post b2 lb := by
  induction h with
  | nil => intro pre post m e; simp at e
  | left x h ih =>
    intro pre post m e
    rcases append_singleton_eq e with ⟨e, _⟩ | ⟨l2', e, e'⟩
    · cases e
    · cases l2' with
      | nil =>
        simp only [List.nil_append, List.cons.injEq] at e
        obtain ⟨rfl, rfl⟩ := e
        simp only [List.append_nil] at e'
        subst e'
        exact ⟨_, [], _, [], rfl, by simp, h, .nil⟩
      | cons y l2' =>
        simp only [List.cons_append, List.cons.injEq] at e
        obtain ⟨rfl, rfl⟩ := e
        obtain ⟨la, lb, b1, b2, rfl, rfl, h1, h2⟩ := ih e'
        exact ⟨la, lb ++ [x], b1, b2, by simp, rfl, h1, h2.left x⟩
  | right x h ih =>
    intro pre post m e
    obtain ⟨la, lb, b1, b2, rfl, rfl, h1, h2⟩ := ih e
    exact ⟨la, lb ++ [x], b1, b2 ++ [x], by simp, by simp, h1, h2.right x⟩

/-- what the server sends to itself does not concern the texts -/
theorem Spec.Merge.editing {a b l : List Msg} (h : Merge a b l) (hb : ∀ i ∈ b, internal i) {E G : Editor} (he : Editing E l G) : Editing E a G := by
  induction h generalizing G with
  | nil => exact he
  | left x h ih =>
    obtain ⟨F, h1, h2⟩ := he.split
    exact (ih hb h1).append h2
  | right x h ih =>
    obtain ⟨F, h1, h2⟩ := he.split
    have : G = F := by
      cases h2 with
      | cons hs hr =>
        cases hr
        rcases hb x (by simp) with rfl | ⟨u, rfl⟩ | ⟨ca, rfl⟩ <;> cases hs <;> rfl
    subst this
    exact ih (fun i hi => hb i (by simp [hi])) h1

theorem Spec.Editing.keeps {E G : Editor} {l : List Msg} (h : Editing E l G) (u : Str) (hu : E u ≠ none) : G u ≠ none := by
  induction h with
  | nil => exact hu
  | cons h r ih => exact ih (h.keeps u hu)

theorem Spec.Editing.opened {E G : Editor} {l : List Msg} (h : Editing E l G) (u t : Str) (hu : .didOpen u t ∈ l) : G u ≠ none := by
  obtain ⟨a, b, rfl⟩ := List.append_of_mem hu
  obtain ⟨F, _, h2⟩ := h.split
  cases h2 with
  | cons hs hr =>
    refine hr.keeps u ?_
    cases hs
    simp [Editor.set]

/-- a text does not change as long as its document is neither changed nor opened again -/
theorem Spec.Editing.same {E G : Editor} {l : List Msg} (h : Editing E l G) (u : Str) (h1 : ∀ m ∈ l, ∀ t, m ≠ .didOpen u t)
    (h2 : ∀ m ∈ l, ∀ cs, m ≠ .didChange u cs) : G u = E u := by
  induction h with
  | nil => rfl
  | cons h r ih =>
    rw [ih (fun m hm => h1 m (by simp [hm])) (fun m hm => h2 m (by simp [hm]))]
    cases h with
    | opens v t =>
      have : u ≠ v := by rintro rfl; exact h1 _ (List.mem_cons_self) t rfl
      simp [Editor.set, this]
    | change v t t' es =>
      have : u ≠ v := by rintro rfl; exact h2 _ (List.mem_cons_self) _ rfl
      simp [Editor.set, this]
    | _ => rfl

/-! ### Publication, also of positions that do not fit into 32 bits -/

/-- what is published for an analysis result, as it is computed -/
def PublishesRaw (env : Env) (m : HMap Str Diags) (p : List (Str × List Diagnostic)) : Prop :=
  p.Perm (m.entries.map fun e => ((env.urlParse e.1).getD [], toDiagnostics e.2))

theorem diagProcess_raw {env : Env} {o : HashOrder} {m : HMap Str Diags} {p : List (Str × List Diagnostic)} {ca : HMap Str (List Identifier)}
    (h : diagProcess env o m = .ok (p, ca)) : PublishesRaw env m p := by
  have hu := diagLoop_urls h
  obtain ⟨ca', h'⟩ := diagLoop_ok env (o.shuffle 9 m.entries) HMap.empty hu
  unfold diagProcess at h
  rw [h] at h'
  cases h'
  exact (o.perm 9 m.entries).map _

theorem in_order_raw (W : World → Prop) (env : Env) (cs : List Msg) (as : List (HMap Str Diags)) (σ : Sys) (h : Execution W env cs as σ)
    (ha : σ.diagAlive = true) :
    ∃ done : List (HMap Str Diags × List (Str × List Diagnostic)),
      as = done.map Prod.fst ++ σ.diagQ ++ results σ.wOut ∧ σ.published = (done.map Prod.snd).flatten ∧ ∀ d ∈ done, PublishesRaw env d.1 d.2 := by
  induction h with
  | start => exact ⟨[], rfl, rfl, by simp⟩
  | client h m hm hw hc ih => exact ih ha
  | delayed h hst hw ht hτ ih =>
    have key : ∀ {σ τ : Sys}, EnvStep σ τ → τ.diagAlive = σ.diagAlive ∧ τ.diagQ = σ.diagQ ∧ τ.wOut = σ.wOut ∧ τ.published = σ.published := by
      intro σ τ h
      cases h <;> exact ⟨rfl, rfl, rfl, rfl⟩
    obtain ⟨h1, h2, h3, h4⟩ := key hst
    rw [h1] at ha
    rw [h2, h3, h4]
    exact ih ha
  | task h hst ih =>
    rename_i cs as σ τ
    cases hst with
    | workerRecv w hw ho hq hh =>
      obtain ⟨done, h1, h2, h3⟩ := ih ha
      refine ⟨done, ?_, h2, h3⟩
      rw [h1, ho]
      simp [results]
    | workerPanic w hw ho hq hh =>
      obtain ⟨done, h1, h2, h3⟩ := ih ha
      refine ⟨done, ?_, h2, h3⟩
      rw [h1, ho]
      simp [results]
    | workerSendDiag hw ho ha' hc =>
      obtain ⟨done, h1, h2, h3⟩ := ih ha
      refine ⟨done, ?_, h2, h3⟩
      rw [h1, ho]
      simp [results]
    | workerSendDiagDead hw ho ha' => rw [ha'] at ha; cases ha
    | workerSendSelf hw ho hc =>
      obtain ⟨done, h1, h2, h3⟩ := ih ha
      refine ⟨done, ?_, h2, h3⟩
      rw [h1, ho]
      simp [results]
    | diagRecv o ha' hd hq hp =>
      rename_i m q p ca
      obtain ⟨done, h1, h2, h3⟩ := ih ha
      refine ⟨done ++ [(m, p)], ?_, by simp [h2], ?_⟩
      · rw [h1, hq]
        by_cases ho : σ.wOut = [] <;> simp [ho, results]
      · intro d hd'
        rcases List.mem_append.mp hd' with hd' | hd'
        · exact h3 d hd'
        · rw [List.mem_singleton] at hd'
          subst hd'
          exact diagProcess_raw hp
    | diagPanic o ha' hd hq hp => cases ha
    | diagSend ha' hd hw hc =>
      obtain ⟨done, h1, h2, h3⟩ := ih ha
      refine ⟨done, ?_, h2, h3⟩
      rw [h1]
      by_cases ho : σ.wOut = [] <;> simp [ho, results]
    | diagSendDead ha' hd hw =>
      obtain ⟨done, h1, h2, h3⟩ := ih ha
      refine ⟨done, ?_, h2, h3⟩
      rw [h1]
      by_cases ho : σ.wOut = [] <;> simp [ho, results]
    | diagStop ha' hd hq hw => cases ha
/-- the list published last for a file is that of the last analysis that concerned it -/
theorem last_shown_raw (W : World → Prop) (env : Env) (cs : List Msg) (as : List (HMap Str Diags)) (σ : Sys) (h : Execution W env cs as σ)
    (ha : σ.diagAlive = true) (hq : σ.diagQ = []) (ho : σ.wOut = []) (hurl : ∀ n u, env.urlParse n = some u → u = n)
    (before after : List (HMap Str Diags)) (m : HMap Str Diags) (n : Str) (ds : Diags) (hn : env.urlParse n ≠ none)
    (has : as = before ++ [m] ++ after) (hm : m.get? n = some ds) (hafter : ∀ x ∈ after, x.get? n = none) (hne : n ≠ []) :
    (σ.published.filter fun p => p.1 = n).getLast? = some (n, toDiagnostics ds) := by
  obtain ⟨done, h1, h2, h3⟩ := in_order_raw W env cs as σ h ha
  have hname : ∀ k, (env.urlParse k).getD [] = n → k = n := by
    intro k hk
    cases hu : env.urlParse k with
    | none => rw [hu] at hk; exact absurd hk.symm hne
    | some u =>
      rw [hu] at hk
      exact (hurl k u hu).symm.trans hk
  have hnn : (env.urlParse n).getD [] = n := by
    cases hu : env.urlParse n with
    | none => exact absurd hu hn
    | some u => exact hurl n u hu
  -- what one result contributes for `n`
  have hsome : ∀ d ∈ done, ∀ ds, d.1.get? n = some ds → d.2.filter (fun p => p.1 = n) = [(n, toDiagnostics ds)] := by
    intro d hd ds hds
    have hp := ((h3 d hd).filter fun p => p.1 = n)
    have : (d.1.entries.map fun e => ((env.urlParse e.1).getD [], toDiagnostics e.2)).filter (fun p => decide (p.1 = n)) =
        [(n, toDiagnostics ds)] := by
      rw [List.filter_map]
      have hf : d.1.entries.filter ((fun p : Str × List Diagnostic => decide (p.1 = n)) ∘ fun e => ((env.urlParse e.1).getD [], toDiagnostics e.2)) =
          d.1.entries.filter fun e => e.1 = n := by
        refine List.filter_congr ?_
        intro e _
        simp only [Function.comp]
        by_cases he : e.1 = n
        · simp [he, hnn]
        · simp only [he, decide_false, decide_eq_false_iff_not]
          exact fun hh => he (hname _ hh)
      rw [hf, filter_key_of_nodup d.1.entries n ds d.1.nodup ((HMap.get?_eq_some_iff _ _ _).mp hds)]
      simp [hnn]
    rw [this] at hp
    exact List.perm_singleton.mp hp
  have hnone : ∀ d ∈ done, d.1.get? n = none → d.2.filter (fun p => p.1 = n) = [] := by
    intro d hd hds
    rw [List.filter_eq_nil_iff]
    intro p hp hpn
    have := (h3 d hd).mem_iff.mp hp
    obtain ⟨e, he, rfl⟩ := List.mem_map.mp this
    have hk : e.1 = n := hname _ (by simpa using hpn)
    have := (HMap.get?_eq_some_iff d.1 n e.2).mpr (by rw [← hk]; exact he)
    rw [hds] at this
    cases this
  rw [hq, ho] at h1
  simp only [results, List.append_nil] at h1
  rw [has, List.append_assoc] at h1
  obtain ⟨d1, d2, rfl, e1, e2⟩ := List.map_eq_append_iff.mp h1.symm
  obtain ⟨d3, d4, rfl, e3, e4⟩ := List.map_eq_append_iff.mp e2
  obtain ⟨d, d5, rfl, e5, e6⟩ := List.map_eq_cons_iff.mp e3
  rw [List.map_eq_nil_iff] at e6
  subst e6
  have l1 : d.2.filter (fun p => p.1 = n) = [(n, toDiagnostics ds)] := hsome d (by simp) ds (by rw [e5]; exact hm)
  have l2 : ((d4.map Prod.snd).map fun x => x.filter fun p => p.1 = n).flatten = [] := by
    rw [List.flatten_eq_nil_iff]
    intro l hl
    rw [List.map_map] at hl
    obtain ⟨x, hx, rfl⟩ := List.mem_map.mp hl
    refine hnone x (by simp [hx]) (hafter _ ?_)
    rw [← e4]
    exact List.mem_map_of_mem hx
  rw [h2, filter_flatten]
  simp only [List.map_append, List.map_cons, List.map_nil, List.flatten_append, List.flatten_cons, List.flatten_nil, l1, List.append_nil] at l2 ⊢
  rw [l2]
  simp

/-! ### The last analysis -/

/-- the analysis of the text of `u`, and nothing else, was computed -/
structure Analysis (env : Env) (d : Done) (u : Str) (ds : Diags) : Prop where
  result : results d.outs = [HMap.empty.insert u ds]
  read : d.after.files.readTree env d.world u = .ok (some ds) ∨ d.after.files.readTree env d.world u = .ok none ∧ ds = []

/-- only a processed open or save of `u` computes something about `u` while it is open -/
theorem analysis_of {W : World → Prop} {env : Env} {d : Done} (hd : d.Ok W env) {F : Editor} (hst : EditStep d.shown d.msg F) {u : Str}
    (hu : d.shown u ≠ none) {m : HMap Str Diags} (hm : m ∈ results d.outs) (hk : m.get? u ≠ none) : ∃ ds, Analysis env d u ds := by
  obtain ⟨msg, shown, before, world, after, outs, reply⟩ := d
  have hh := hd.step
  dsimp only at *
  have none_of : outs = [] → ∃ ds, Analysis env ⟨msg, shown, before, world, after, outs, reply⟩ u ds := by
    rintro rfl; cases hm
  cases hst with
  | initialized h => exact absurd (h u) hu
  | save v =>
    simp only [Server.handle] at hh
    split at hh
    · cases hh
    · rename_i f mo hf
      simp only [Except.ok.injEq, Prod.mk.injEq] at hh
      obtain ⟨rfl, rfl, rfl⟩ := hh
      unfold LspFiles.didSave at hf
      split at hf
      · cases hf; exact none_of rfl
      · split at hf
        · cases hf; exact none_of rfl
        · split at hf
          · cases hf
          · split at hf
            · cases hf
            · rename_i hr
              cases hf
              simp only [Server.sends, results, List.mem_singleton] at hm
              subst hm
              have huv : u = v := Classical.byContradiction fun h => hk (by rw [HMap.get?_insert_ne _ _ h]; rfl)
              subst huv
              exact ⟨[], rfl, .inr ⟨hr, rfl⟩⟩
            · rename_i v' hr
              cases hf
              simp only [Server.sends, results, List.mem_singleton] at hm
              subst hm
              have huv : u = v := Classical.byContradiction fun h => hk (by rw [HMap.get?_insert_ne _ _ h]; rfl)
              subst huv
              exact ⟨v', rfl, .inl hr⟩
  | opens v t =>
    simp only [Server.handle] at hh
    split at hh
    · cases hh
    · rename_i f mo hf
      simp only [Except.ok.injEq, Prod.mk.injEq] at hh
      obtain ⟨rfl, rfl, rfl⟩ := hh
      unfold LspFiles.didOpen at hf
      split at hf
      · cases hf; exact none_of rfl
      · dsimp only at hf
        split at hf
        · cases hf
        · simp only [Bool.false_eq_true, if_false] at hf
          split at hf
          · cases hf
          · cases hf; exact none_of rfl
          · rename_i v' hr
            cases hf
            simp only [Server.sends, results, List.mem_singleton] at hm
            subst hm
            have huv : u = v := Classical.byContradiction fun h => hk (by rw [HMap.get?_insert_ne _ _ h]; rfl)
            subst huv
            exact ⟨v', rfl, .inl hr⟩
  | command c hc =>
    simp only [Server.handle, if_neg hc, Except.ok.injEq, Prod.mk.injEq] at hh
    exact none_of hh.2.1.symm
  | «initialize» | documentSymbol | actions =>
    simp only [Server.handle, Except.ok.injEq, Prod.mk.injEq] at hh
    exact none_of hh.2.1.symm
  | change | completion | hover | goto | codeAction =>
    simp only [Server.handle] at hh
    split at hh
    · cases hh
    · simp only [Except.ok.injEq, Prod.mk.injEq] at hh
      exact none_of hh.2.1.symm

/-- the last of a list with some property -/
theorem last_with {α : Type _} (P : α → Prop) (l : List α) (h : ∃ x ∈ l, P x) : ∃ a x b, l = a ++ x :: b ∧ P x ∧ ∀ y ∈ b, ¬ P y := by
  induction l with
  | nil => obtain ⟨x, hx, _⟩ := h; cases hx
  | cons y l ih =>
    by_cases hl : ∃ x ∈ l, P x
    · obtain ⟨a, x, b, rfl, h1, h2⟩ := ih hl
      exact ⟨y :: a, x, b, rfl, h1, h2⟩
    · obtain ⟨x, hx, hp⟩ := h
      rcases List.mem_cons.mp hx with rfl | hx
      · exact ⟨[], x, l, rfl, hp, fun z hz hpz => hl ⟨z, hz, hpz⟩⟩
      · exact absurd ⟨x, hx, hp⟩ hl

/-- **C88** (no older than the last save) In a session of plain edits (C68) the client has saved the supported document `u`, which it had opened.
When the queues are empty, the list shown for `u` is the analysis of a text that the editor showed for `u` when it saved it or later. -/
theorem C88_since {W : World → Prop} (hO : ∀ w, W w → Orderly w) (env : Env) (he : Sound env) (hu : NormalUrls env) (cs : List Msg) (E : Editor)
    (rs : List (Msg × Editor × Reply)) (σ : Sys) (h : Session W env cs E [] rs σ) (hc : ∀ m ∈ cs, Proper env m) (ho : σ.wOut = [])
    (hq : σ.diagQ = []) (u : Str) (l : LangType) (hx : fileExt u = some l) (pre post : List Msg) (hcs : cs = pre ++ .didSave u :: post)
    (hop : ∃ t, .didOpen u t ∈ pre) :
    ∃ (mid rest : List Msg) (F : Editor) (f : LspFiles) (w : World) (t : Str) (old : Option Tree) (ds : Diags), post = mid ++ rest ∧
      Editing (fun _ => none) (pre ++ .didSave u :: mid) F ∧ Editing F rest E ∧ F u = some t ∧ f.documents.get? u = some t ∧
      (f.trees l).get? u = some (.parsed (f.grammar l) t old) ∧ W w ∧
      (f.readTree env w u = .ok (some ds) ∨ f.readTree env w u = .ok none ∧ ds = []) ∧
      (Small ds → (σ.published.filter fun p => p.1 = u).getLast? = some (u, (ds.map report).map shown)) := by
  obtain ⟨as, hist, hh⟩ := session_history hO he h hc
  obtain ⟨is, hmerge, hint⟩ := C79_order h
  have hx' : fileExt u ≠ none := by rw [hx]; simp
  have hfile : FileUri u := hc (.didSave u) (by rw [hcs]; simp)
  simp only [List.map_nil, List.append_nil] at hmerge
  rw [← hh.answers, List.map_map] at hmerge
  obtain ⟨la, lb, is1, is2, hl, rfl, hm1, hm2⟩ := hmerge.find hcs
  obtain ⟨h1, r1, rfl, hla, hr1⟩ := List.map_eq_append_iff.mp hl
  obtain ⟨d0, h2, rfl, hd0, hlb⟩ := List.map_eq_cons_iff.mp hr1
  have hd0 : d0.msg = .didSave u := hd0
  have hi1 : ∀ i ∈ is1, internal i := fun i hi => hint i (by simp [hi])
  have hi2 : ∀ i ∈ is2, internal i := fun i hi => hint i (by simp [hi])
  -- the texts
  have htext := hh.texts
  rw [List.append_nil, List.map_append] at htext
  obtain ⟨G, ht1, ht2⟩ := htext.split
  have hpre : Editing (fun _ => none) pre G := by
    refine hm1.editing hi1 ?_
    have := ht1.editing
    rw [List.map_map] at this
    rw [← hla]
    exact this
  have hG : G u ≠ none := by obtain ⟨t, ht⟩ := hop; exact hpre.opened u t ht
  have hG0 : d0.shown = G := by cases ht2; rfl
  -- the save has a result
  have hok0 := hh.ok d0 (by simp)
  have hsome : ∃ x ∈ d0 :: h2, ∃ m ∈ results x.outs, m.get? u ≠ none := by
    obtain ⟨t, ht⟩ := Option.ne_none_iff_exists'.mp (hG0 ▸ hG)
    have hd : d0.before.files.documents.get? u ≠ none := by rw [hok0.inStep.held u t hx' ht]; simp
    have hst := hok0.step
    rw [hd0] at hst
    obtain ⟨ds, hds⟩ := save_sends hx' hd hst
    exact ⟨d0, by simp, _, by rw [hds]; exact List.mem_singleton.mpr rfl, by simp⟩
  obtain ⟨a, d, b, hab, ⟨m, hm, hmu⟩, hafter⟩ := last_with (fun d : Done => ∃ m ∈ results d.outs, m.get? u ≠ none) (d0 :: h2) hsome
  have hok := hh.ok d (by rw [hab]; simp)
  rw [hab, List.map_append] at ht2
  obtain ⟨A, ht3, ht4⟩ := ht2.split
  cases ht4 with
  | cons hst hrest =>
    rename_i F
    have hA : d.shown u ≠ none := ht3.editing.keeps u hG
    obtain ⟨ds, hds⟩ := analysis_of hok hst hA hm hmu
    have hF : F u ≠ none := hst.keeps u hA
    obtain ⟨t, ht⟩ := Option.ne_none_iff_exists'.mp hF
    have hin : InStep d.after.files F := hok.inStep.handle (hO _ hok.world) hst hok.step
    have hdoc := hin.held u t hx' ht
    obtain ⟨old, hold⟩ := hok.fresh u l t hx hdoc
    -- where in the sequence of the client
    have hcut : ∃ mid rest, post = mid ++ rest ∧ Editing G mid F ∧ Editing F rest E := by
      have hE : Editing F (b.map Done.msg) E := by
        have := hrest.editing
        rw [List.map_map] at this
        exact this
      cases a with
      | nil =>
        simp only [List.nil_append, List.cons.injEq] at hab
        obtain ⟨rfl, rfl⟩ := hab
        have : F = G := by
          rw [hd0] at hst
          cases ht3
          cases hst
          rfl
        subst this
        exact ⟨[], post, rfl, .nil _, hm2.editing hi2 (hlb ▸ hE)⟩
      | cons d0' a =>
        simp only [List.cons_append, List.cons.injEq] at hab
        obtain ⟨rfl, rfl⟩ := hab
        have hl2 : lb = (a.map Done.msg ++ [d.msg]) ++ b.map Done.msg := by
          rw [← hlb]
          simp [Function.comp_def]
        obtain ⟨mid, rest, j1, j2, rfl, rfl, k1, k2⟩ := hm2.cut hl2
        refine ⟨mid, rest, rfl, k1.editing (fun i hi => hi2 i (by simp [hi])) ?_, k2.editing (fun i hi => hi2 i (by simp [hi])) hE⟩
        have e3 : Editing G (a.map Done.msg) d.shown := by
          cases ht3 with
          | cons hs hr =>
            rw [hd0] at hs
            cases hs
            have := hr.editing
            rw [List.map_map] at this
            exact this
        exact e3.append (.cons hst (.nil _))
    obtain ⟨mid, rest, hp, k1, k2⟩ := hcut
    refine ⟨mid, rest, F, d.after.files, d.world, t, old, ds, hp, hpre.append (.cons (.save _ _) k1), k2, ht, hdoc, hold, hok.world, hds.read, ?_⟩
    intro hsmall
    obtain ⟨hda, _⟩ := C68_in_step env he cs as σ (hh.exec.weaken hO) hc E h.execution.2.2
    have hpu := hfile.parse he []
    rw [List.append_nil] at hpu
    rw [← toDiagnostics_eq hsmall]
    refine last_shown_raw W env cs as σ hh.exec hda hq ho hu.same ((h1 ++ a).flatMap fun d => results d.outs) (b.flatMap fun d => results d.outs)
      (HMap.empty.insert u ds) u ds hpu ?_ (by simp) ?_ (by rintro rfl; obtain ⟨x, hx⟩ := hfile; cases hx)
    · rw [hh.computed, hab]
      simp [hds.result]
    · intro x hx
      obtain ⟨y, hy, hxy⟩ := List.mem_flatMap.mp hx
      exact Classical.byContradiction fun hne => hafter y hy ⟨x, hxy, hne⟩

/-- **C88** (current after a save) If `u` was neither changed nor opened again since its last save, then, whatever happened to other documents, the
list shown for it is an analysis of the text the editor shows. -/
theorem C88_saved {W : World → Prop} (hO : ∀ w, W w → Orderly w) (env : Env) (he : Sound env) (hu : NormalUrls env) (cs : List Msg) (E : Editor)
    (rs : List (Msg × Editor × Reply)) (σ : Sys) (h : Session W env cs E [] rs σ) (hc : ∀ m ∈ cs, Proper env m) (ho : σ.wOut = [])
    (hq : σ.diagQ = []) (u : Str) (l : LangType) (hx : fileExt u = some l) (pre post : List Msg) (hcs : cs = pre ++ .didSave u :: post)
    (hop : ∃ t, .didOpen u t ∈ pre) (hpo : ∀ m ∈ post, ∀ t, m ≠ .didOpen u t) (hpc : ∀ m ∈ post, ∀ chs, m ≠ .didChange u chs) :
    ∃ (f : LspFiles) (w : World) (t : Str) (old : Option Tree) (ds : Diags), E u = some t ∧ f.documents.get? u = some t ∧
      (f.trees l).get? u = some (.parsed (f.grammar l) t old) ∧ W w ∧
      (f.readTree env w u = .ok (some ds) ∨ f.readTree env w u = .ok none ∧ ds = []) ∧
      (Small ds → (σ.published.filter fun p => p.1 = u).getLast? = some (u, (ds.map report).map shown)) := by
  obtain ⟨mid, rest, F, f, w, t, old, ds, rfl, _, k2, k3, k4, k5, k6, k7, k8⟩ :=
    C88_since hO env he hu cs E rs σ h hc ho hq u l hx pre post hcs hop
  refine ⟨f, w, t, old, ds, ?_, k4, k5, k6, k7, k8⟩
  rw [k2.same u (fun m hm => hpo m (by simp [hm])) (fun m hm => hpc m (by simp [hm]))]
  exact k3

/-! ### What is not kept up to date -/

namespace Fix

def uriU : Str := c!"file:///t/b.html"

/-- the workspace is loaded, two documents are opened and one character is typed into each -/
def both : List Msg :=
  [.initialize none (some (some { JinjaConfig.default with lang := c!"rust", templates := c!"/t" })), .initialized, .didOpen uriT c!"aaa",
   .didOpen uriU c!"aaa", .didChange uriT ([(⟨⟨0, 3⟩, ⟨0, 3⟩⟩, c!"b")].map fun e => ⟨some e.1, e.2⟩),
   .didChange uriU ([(⟨⟨0, 3⟩, ⟨0, 3⟩⟩, c!"c")].map fun e => ⟨some e.1, e.2⟩)]

theorem both_proper (env : Env) : ∀ m ∈ both, Proper env m := by
  intro m hm
  simp only [both, List.mem_cons, List.not_mem_nil, or_false] at hm
  rcases hm with rfl | rfl | rfl | rfl | rfl | rfl
  · trivial
  · trivial
  · exact ⟨_, rfl⟩
  · exact ⟨_, rfl⟩
  · exact ⟨⟨_, rfl⟩, by simp⟩
  · exact ⟨⟨_, rfl⟩, by simp⟩

end Fix

/-- **At rest not every document shows the diagnostics of its text**: two documents are opened in a loaded workspace and a character is typed into
each. The second change cancels the delayed analysis of the first document. When everything has come to rest the first document shows the (empty)
list of the text before its change, although an analysis of its text would report names, and nothing will happen any more. -/
theorem C88_earlier_refuted : ∃ (env : Env) (cs : List Msg) (E : Editor) (rs : List (Msg × Editor × Reply)) (σ : Sys) (s : Server) (u : Str),
    Sound env ∧ NormalUrls env ∧ Session (· = Fix.rootWorld) env cs E [] rs σ ∧ (∀ m ∈ cs, Proper env m) ∧ AtRest σ s ∧
    s.files.mainChannel = true ∧ (¬ ∃ τ, Alone (· = Fix.rootWorld) env σ τ) ∧ (σ.published.filter fun p => p.1 = u).getLast? = some (u, []) ∧
    E u = s.files.documents.get? u ∧ ∃ d ds, s.files.readTree env Fix.rootWorld u = .ok (some (d :: ds)) := by
  have e1 := Session.start (W := (· = Fix.rootWorld)) (env := Fix.changedEnv)
    |>.client (.initialize none (some (some { JinjaConfig.default with lang := c!"rust", templates := c!"/t" }))) trivial rfl
      (show 0 < 50 by decide) (.«initialize» _ _ _)
  have e2 := Session.answer (q := []) Fix.rootWorld e1 rfl rfl rfl rfl
  have e3 := e2.client .initialized trivial rfl (show 0 < 50 by decide) (.initialized _ fun _ => rfl)
  have e4 := Session.answer (q := []) Fix.rootWorld e3 rfl rfl rfl rfl
  have e5 := e4.task (new := []) (.workerSendDiag rfl rfl rfl (show 0 < 20 by decide)) rfl
  have e6 := e5.client (.didOpen Fix.uriT c!"aaa") trivial rfl (show 0 < 50 by decide) (.opens _ _ _)
  have e7 := Session.answer (q := []) Fix.rootWorld e6 rfl rfl rfl rfl
  have e8 := e7.task (new := []) (.workerSendDiag rfl rfl rfl (show 1 < 20 by decide)) rfl
  have e9 := e8.client (.didOpen Fix.uriU c!"aaa") trivial rfl (show 0 < 50 by decide) (.opens _ _ _)
  have e10 := Session.answer (q := []) Fix.rootWorld e9 rfl rfl rfl rfl
  have e11 := e10.task (new := []) (.workerSendDiag rfl rfl rfl (show 2 < 20 by decide)) rfl
  have e12 := e11.client (.didChange Fix.uriT ([(⟨⟨0, 3⟩, ⟨0, 3⟩⟩, c!"b")].map fun e => ⟨some e.1, e.2⟩)) trivial rfl (show 0 < 50 by decide)
    (.change _ Fix.uriT c!"aaa" c!"aaab" [(⟨⟨0, 3⟩, ⟨0, 3⟩⟩, c!"b")] (by decide) ⟨⟨3, 3, ⟨0, by decide, by simp, by decide, by decide⟩,
      ⟨0, by decide, by simp, by decide, by decide⟩, by decide⟩, fun _ _ => trivial⟩ (by decide))
  have e13 := Session.answer (q := []) Fix.rootWorld e12 rfl rfl rfl rfl
  have e14 := e13.client (.didChange Fix.uriU ([(⟨⟨0, 3⟩, ⟨0, 3⟩⟩, c!"c")].map fun e => ⟨some e.1, e.2⟩)) trivial rfl (show 0 < 50 by decide)
    (.change _ Fix.uriU c!"aaa" c!"aaac" [(⟨⟨0, 3⟩, ⟨0, 3⟩⟩, c!"c")] (by decide) ⟨⟨3, 3, ⟨0, by decide, by simp, by decide, by decide⟩,
      ⟨0, by decide, by simp, by decide, by decide⟩, by decide⟩, fun _ _ => trivial⟩ (by decide))
  have e15 := Session.answer (q := []) Fix.rootWorld e14 rfl rfl rfl rfl
  have e16 := e15.delayed (t := ⟨1, Fix.uriU, true, true⟩) (new := [.didSave Fix.uriU]) (.timer rfl (List.mem_singleton.mpr rfl) rfl
    (show 0 < 50 by decide)) rfl (List.mem_singleton.mpr rfl) rfl rfl
  have e17 := Session.answer (q := []) Fix.rootWorld e16 rfl rfl rfl rfl
  have e18 := e17.task (new := []) (.workerSendDiag rfl rfl rfl (show 3 < 20 by decide)) rfl
  have e19 := e18.task (new := []) (.diagRecv HashOrder.id rfl rfl rfl rfl) rfl
  have e20 := e19.task (new := [.codeActions _]) (.diagSend rfl rfl rfl (show 0 < 50 by decide)) rfl
  have e21 := Session.answer (q := []) Fix.rootWorld e20 rfl rfl rfl rfl
  have e22 := e21.task (new := []) (.diagRecv HashOrder.id rfl rfl rfl rfl) rfl
  have e23 := e22.task (new := [.codeActions _]) (.diagSend rfl rfl rfl (show 0 < 50 by decide)) rfl
  have e24 := Session.answer (q := []) Fix.rootWorld e23 rfl rfl rfl rfl
  have e25 := e24.task (new := []) (.diagRecv HashOrder.id rfl rfl rfl rfl) rfl
  have e26 := e25.task (new := [.codeActions _]) (.diagSend rfl rfl rfl (show 0 < 50 by decide)) rfl
  have e27 := Session.answer (q := []) Fix.rootWorld e26 rfl rfl rfl rfl
  have e28 := e27.task (new := []) (.diagRecv HashOrder.id rfl rfl rfl rfl) rfl
  have e29 := e28.task (new := [.codeActions _]) (.diagSend rfl rfl rfl (show 0 < 50 by decide)) rfl
  have e30 := Session.answer (q := []) Fix.rootWorld e29 rfl rfl rfl rfl
  exact ⟨_, Fix.both, _, _, _, _, Fix.uriT, Fix.changedEnv_sound, ⟨fun n u h => by cases h; rfl⟩, e30, Fix.both_proper _,
    ⟨rfl, rfl, rfl, rfl, rfl⟩, rfl, (C87_end (· = Fix.rootWorld) Fix.changedEnv ⟨Fix.rootWorld, rfl⟩ _ _ rfl rfl).mpr (.inl ⟨⟨rfl, rfl, rfl, rfl, rfl⟩, rfl⟩), rfl, by decide, _, _, rfl⟩

namespace Fix

/-- `aaa` uses names, `bbb` defines some of them -/
def apartEnv : Env :=
  { env with
    profile := .release
    queryMatches := fun q _ text => match q with
      | .jinjaObjects => if text = c!"aaa" then (uses.flatMap Elem.caps).map fun c => [c] else []
      | .jinjaDefinitions => if text = c!"bbb" then tpl.caps.map fun c => [c] else []
      | _ => [] }

theorem apartEnv_sound : Sound apartEnv where
  parses := fun _ _ _ => rfl
  readable := by
    intro g t o
    have : ∀ c ∈ tpl.caps, c.name = .definition → c.text ≠ none := by decide
    intro c hc
    rw [show apartEnv.queryMatches .jinjaDefinitions (.parsed g t o) t = if t = c!"bbb" then tpl.caps.map fun c => [c] else [] from rfl] at hc
    split at hc
    · rw [flatten_singletons] at hc
      exact this c hc
    · cases hc
  urls := by intro p h; cases h
  debug := by intro h; cases h

end Fix

/-- **Nor do they follow other documents**: a document that uses a name is saved, then a document that defines the name is opened. At rest the first
still reports the name as not defined anywhere, although an analysis would say that it is defined in another file. -/
theorem C88_elsewhere_refuted : ∃ (env : Env) (cs : List Msg) (E : Editor) (rs : List (Msg × Editor × Reply)) (σ : Sys) (s : Server) (u : Str)
    (ds : Diags) (x : List Diagnostic), Sound env ∧ NormalUrls env ∧ Session (· = Fix.rootWorld) env cs E [] rs σ ∧ (∀ m ∈ cs, Proper env m) ∧
    AtRest σ s ∧ σ.dOut = none ∧ (∃ pre post, cs = pre ++ .didSave u :: post ∧ ∀ m ∈ post, ∀ chs, m ≠ .didChange u chs) ∧
    s.files.readTree env Fix.rootWorld u = .ok (some ds) ∧ (σ.published.filter fun p => p.1 = u).getLast? = some (u, x) ∧
    x ≠ (ds.map report).map shown := by
  have e1 := Session.start (W := (· = Fix.rootWorld)) (env := Fix.apartEnv)
    |>.client (.didOpen Fix.uriT c!"aaa") trivial rfl (show 0 < 50 by decide) (.opens _ _ _)
  have e2 := Session.answer (q := []) Fix.rootWorld e1 rfl rfl rfl rfl
  have e3 := e2.task (new := []) (.workerSendDiag rfl rfl rfl (show 0 < 20 by decide)) rfl
  have e4 := e3.client (.didSave Fix.uriT) trivial rfl (show 0 < 50 by decide) (.save _ _)
  have e5 := Session.answer (q := []) Fix.rootWorld e4 rfl rfl rfl rfl
  have e6 := e5.task (new := []) (.workerSendDiag rfl rfl rfl (show 1 < 20 by decide)) rfl
  have e7 := e6.client (.didOpen Fix.uriU c!"bbb") trivial rfl (show 0 < 50 by decide) (.opens _ _ _)
  have e8 := Session.answer (q := []) Fix.rootWorld e7 rfl rfl rfl rfl
  have e9 := e8.task (new := []) (.workerSendDiag rfl rfl rfl (show 2 < 20 by decide)) rfl
  have e10 := e9.task (new := []) (.diagRecv HashOrder.id rfl rfl rfl rfl) rfl
  have e11 := e10.task (new := [.codeActions _]) (.diagSend rfl rfl rfl (show 0 < 50 by decide)) rfl
  have e12 := Session.answer (q := []) Fix.rootWorld e11 rfl rfl rfl rfl
  have e13 := e12.task (new := []) (.diagRecv HashOrder.id rfl rfl rfl rfl) rfl
  have e14 := e13.task (new := [.codeActions _]) (.diagSend rfl rfl rfl (show 0 < 50 by decide)) rfl
  have e15 := Session.answer (q := []) Fix.rootWorld e14 rfl rfl rfl rfl
  have e16 := e15.task (new := []) (.diagRecv HashOrder.id rfl rfl rfl rfl) rfl
  have e17 := e16.task (new := [.codeActions _]) (.diagSend rfl rfl rfl (show 0 < 50 by decide)) rfl
  have e18 := Session.answer (q := []) Fix.rootWorld e17 rfl rfl rfl rfl
  refine ⟨_, _, _, _, _, _, Fix.uriT, _, _, Fix.apartEnv_sound, ⟨fun n u h => by cases h; rfl⟩, e18, ?_, ⟨rfl, rfl, rfl, rfl, rfl⟩, rfl,
    ⟨[.didOpen Fix.uriT c!"aaa"], [.didOpen Fix.uriU c!"bbb"], rfl, by simp⟩, rfl, rfl, by decide⟩
  intro m hm
  simp only [List.nil_append, List.cons_append, List.mem_cons, List.not_mem_nil, or_false] at hm
  rcases hm with rfl | rfl | rfl <;> exact ⟨_, rfl⟩

/-- the conditions of `C88_saved` are met by a session in which a document is opened and saved and another one is opened; what is shown is not
empty -/
example : ∃ (E : Editor) (rs : List (Msg × Editor × Reply)) (σ : Sys) (d : Diagnostic) (ds : List Diagnostic),
    Session (· = Fix.rootWorld) Fix.apartEnv ([.didOpen Fix.uriT c!"aaa"] ++ .didSave Fix.uriT :: [.didOpen Fix.uriU c!"bbb"]) E [] rs σ ∧
    (∀ m ∈ [Msg.didOpen Fix.uriT c!"aaa"] ++ .didSave Fix.uriT :: [.didOpen Fix.uriU c!"bbb"], Proper Fix.apartEnv m) ∧ σ.wOut = [] ∧
    σ.diagQ = [] ∧ fileExt Fix.uriT = some .template ∧ (∀ m ∈ [Msg.didOpen Fix.uriU c!"bbb"], ∀ t, m ≠ .didOpen Fix.uriT t) ∧
    (∀ m ∈ [Msg.didOpen Fix.uriU c!"bbb"], ∀ chs, m ≠ .didChange Fix.uriT chs) ∧
    (σ.published.filter fun p => p.1 = Fix.uriT).getLast? = some (Fix.uriT, d :: ds) := by
  have e1 := Session.start (W := (· = Fix.rootWorld)) (env := Fix.apartEnv)
    |>.client (.didOpen Fix.uriT c!"aaa") trivial rfl (show 0 < 50 by decide) (.opens _ _ _)
  have e2 := Session.answer (q := []) Fix.rootWorld e1 rfl rfl rfl rfl
  have e3 := e2.task (new := []) (.workerSendDiag rfl rfl rfl (show 0 < 20 by decide)) rfl
  have e4 := e3.task (new := []) (.diagRecv HashOrder.id rfl rfl rfl rfl) rfl
  have e5 := e4.task (new := [.codeActions _]) (.diagSend rfl rfl rfl (show 0 < 50 by decide)) rfl
  have e6 := Session.answer (q := []) Fix.rootWorld e5 rfl rfl rfl rfl
  have e7 := e6.client (.didSave Fix.uriT) trivial rfl (show 0 < 50 by decide) (.save _ _)
  have e8 := Session.answer (q := []) Fix.rootWorld e7 rfl rfl rfl rfl
  have e9 := e8.task (new := []) (.workerSendDiag rfl rfl rfl (show 0 < 20 by decide)) rfl
  have e10 := e9.client (.didOpen Fix.uriU c!"bbb") trivial rfl (show 0 < 50 by decide) (.opens _ _ _)
  have e11 := Session.answer (q := []) Fix.rootWorld e10 rfl rfl rfl rfl
  have e12 := e11.task (new := []) (.workerSendDiag rfl rfl rfl (show 1 < 20 by decide)) rfl
  have e13 := e12.task (new := []) (.diagRecv HashOrder.id rfl rfl rfl rfl) rfl
  have e14 := e13.task (new := [.codeActions _]) (.diagSend rfl rfl rfl (show 0 < 50 by decide)) rfl
  have e15 := Session.answer (q := []) Fix.rootWorld e14 rfl rfl rfl rfl
  have e16 := e15.task (new := []) (.diagRecv (q := []) HashOrder.id rfl rfl rfl rfl) rfl
  have e17 := e16.task (new := [.codeActions _]) (.diagSend rfl rfl rfl (show 0 < 50 by decide)) rfl
  have e18 := Session.answer (q := []) Fix.rootWorld e17 rfl rfl rfl rfl
  refine ⟨_, _, _, _, _, e18, ?_, rfl, rfl, by decide, ?_, by simp, rfl⟩
  · intro m hm
    simp only [List.cons_append, List.nil_append, List.mem_cons, List.not_mem_nil, or_false] at hm
    rcases hm with rfl | rfl | rfl <;> exact ⟨_, rfl⟩
  · intro m hm t
    rw [List.mem_singleton.mp hm]
    simp [Fix.uriT, Fix.uriU]

end JinjaLsp
