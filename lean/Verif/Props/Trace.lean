import Verif.Props.Deadlock
/-
  C65, C66: executions of the two tasks with their queues, seen as a whole.
-/

namespace JinjaLsp
open Spec

namespace Spec

/-- the analysis results among the sends the worker still has to perform -/
def results : List Send → List (HMap Str Diags)
  | [] => []
  | .diag m :: r => m :: results r
  | .initialized :: r => results r

/-- An execution of the whole process from its start, with the messages `cs` the client sent so far and the analysis results `as` the worker
computed so far (a worker that was not sending and now is has just computed what it sends). Messages are processed in worlds that satisfy
`W`. -/
inductive Execution (W : World → Prop) (env : Env) : List Msg → List (HMap Str Diags) → Sys → Prop where
  | start : Execution W env [] [] Sys.init
  | client {cs as} {σ : Sys} {s : Server} (h : Execution W env cs as σ) (m : Msg) (hm : m.fromClient) (hw : σ.worker = some s)
      (hc : σ.lspQ.length < lspCap) : Execution W env (cs ++ [m]) as { σ with lspQ := σ.lspQ ++ [m] }
  | task {cs as} {σ τ : Sys} (h : Execution W env cs as σ) (hs : TaskStepIn W env σ τ) :
      Execution W env cs (as ++ if σ.wOut = [] then results τ.wOut else []) τ
  | delayed {cs as} {σ τ : Sys} {s : Server} {t : Timer} (h : Execution W env cs as σ) (hs : EnvStep σ τ) (hw : σ.worker = some s)
      (ht : t ∈ s.timers) (hτ : τ.worker = some { s with timers := s.timers.erase t }) : Execution W env cs as τ

/-- messages the server sends to itself -/
def internal (m : Msg) : Prop := m = .initialized ∨ (∃ u, m = .didSave u) ∨ ∃ ca, m = .codeActions ca

/-- `l` is an interleaving of `a` and `b` -/
inductive Merge {α : Type} : List α → List α → List α → Prop where
  | nil : Merge [] [] []
  | left {a b l} (x : α) (h : Merge a b l) : Merge (a ++ [x]) b (l ++ [x])
  | right {a b l} (x : α) (h : Merge a b l) : Merge a (b ++ [x]) (l ++ [x])

/-- two servers that differ at most in which of the delayed tasks have already expired -/
structure SameUpToExpiry (s s₀ : Server) : Prop where
  config : s.config = s₀.config
  files : s.files = s₀.files
  next : s.nextHandle = s₀.nextHandle
  timers : s.timers.Sublist s₀.timers

end Spec

/-! ### Executions and steps -/

/-- **C66** Executions are the runs of the system: every reachable state is reached by an execution, and conversely. -/
theorem C66_executions (env : Env) (σ : Sys) : Steps env Sys.init σ ↔ ∃ cs as, Execution (fun _ => True) env cs as σ := by
  constructor
  · intro h
    generalize hi : Sys.init = i at h
    induction h with
    | refl => subst hi; exact ⟨[], [], .start⟩
    | tail _ hs ih =>
      obtain ⟨cs, as, h⟩ := ih
      cases hs with
      | task hs => exact ⟨_, _, h.task hs⟩
      | env hs =>
        cases hs with
        | client m hm hw hc => exact ⟨_, _, h.client m hm hw hc⟩
        | clientDead hw => exact ⟨_, _, h⟩
        | timer hw ht hl hc => exact ⟨_, _, h.delayed (.timer hw ht hl hc) hw ht rfl⟩
        | timerMute hw ht hl => exact ⟨_, _, h.delayed (.timerMute hw ht hl) hw ht rfl⟩
  · rintro ⟨cs, as, h⟩
    induction h with
    | start => exact .refl _
    | client _ m hm hw hc ih => exact ih.tail (.env (.client m hm hw hc))
    | task _ hs ih => exact ih.tail (.task hs)
    | delayed _ hs _ _ _ ih => exact ih.tail (.env hs)

/-! ### Messages are processed in order -/

/-- what one message does, up to delayed tasks that have expired meanwhile -/
theorem handle_sameUpToExpiry {env : Env} {w : World} {s s₀ s' : Server} {m : Msg} {o : List Send} {r : Reply}
    (h : SameUpToExpiry s s₀) (hh : s.handle env w m = .ok (s', o, r)) :
    ∃ s₀', s₀.handle env w m = .ok (s₀', o, r) ∧ SameUpToExpiry s' s₀' := by
  obtain ⟨c, f, t, n⟩ := s
  obtain ⟨c₀, f₀, t₀, n₀⟩ := s₀
  obtain ⟨h1, h2, h3, h4⟩ := h
  simp only at h1 h2 h3 h4
  subst h1 h2 h3
  cases m with
  | «initialize» cl op => cases hh; exact ⟨_, rfl, rfl, rfl, rfl, h4⟩
  | initialized =>
    simp only [Server.handle, Server.onInitialized] at hh ⊢
    split at hh
    · cases hh
    · rename_i hq
      split at hq
      · rename_i hl
        simp only [hl, if_true]
        cases hw : walkdir env w c with
        | error e => simp [hw] at hq
        | ok x =>
          cases x with
          | none => simp [hw] at hq; obtain ⟨rfl, rfl⟩ := hq; cases hh; exact ⟨_, rfl, rfl, rfl, rfl, h4⟩
          | some x => simp [hw] at hq; obtain ⟨rfl, rfl⟩ := hq; cases hh; exact ⟨_, rfl, rfl, rfl, rfl, h4⟩
      · rename_i hl
        cases hq; cases hh
        simp only [hl, if_false]
        exact ⟨_, rfl, rfl, rfl, rfl, h4⟩
  | didOpen u x =>
    simp only [Server.handle] at hh ⊢
    cases hq : f.didOpen env w u x false with
    | error e => simp [hq] at hh
    | ok y => simp [hq] at hh; obtain ⟨rfl, rfl, rfl⟩ := hh; exact ⟨_, rfl, rfl, rfl, rfl, h4⟩
  | didSave u =>
    simp only [Server.handle] at hh ⊢
    cases hq : f.didSave env w u with
    | error e => simp [hq] at hh
    | ok y => simp [hq] at hh; obtain ⟨rfl, rfl, rfl⟩ := hh; exact ⟨_, rfl, rfl, rfl, rfl, h4⟩
  | didChange u cs =>
    simp only [Server.handle, Server.onDidChange] at hh ⊢
    cases hq : f.didChange env u cs n with
    | error e => simp [hq] at hh
    | ok y =>
      obtain ⟨f', b⟩ := y
      cases b with
      | false => simp [hq] at hh; obtain ⟨rfl, rfl, rfl⟩ := hh; exact ⟨_, rfl, rfl, rfl, rfl, h4⟩
      | true =>
        simp only [hq] at hh
        injection hh with hh
        injection hh with h5 h6
        injection h6 with h6 h7
        subst h5 h6 h7
        exact ⟨_, rfl, rfl, rfl, rfl, (h4.filter _).append_right _⟩
  | completion u p tr =>
    simp only [Server.handle, Server.onCompletion] at hh ⊢
    cases hq : f.completion env u p tr with
    | error e => simp [hq] at hh
    | ok y =>
      cases y with
      | none => simp [hq] at hh; obtain ⟨rfl, rfl, rfl⟩ := hh; exact ⟨_, rfl, rfl, rfl, rfl, h4⟩
      | some y => simp [hq] at hh; obtain ⟨rfl, rfl, rfl⟩ := hh; exact ⟨_, rfl, rfl, rfl, rfl, h4⟩
  | hover u p =>
    simp only [Server.handle, Server.onHover] at hh ⊢
    cases hq : f.hover env u p with
    | error e => simp [hq] at hh
    | ok y =>
      cases y with
      | none => simp [hq] at hh; obtain ⟨rfl, rfl, rfl⟩ := hh; exact ⟨_, rfl, rfl, rfl, rfl, h4⟩
      | some y => simp [hq] at hh; obtain ⟨rfl, rfl, rfl⟩ := hh; exact ⟨_, rfl, rfl, rfl, rfl, h4⟩
  | goto u p =>
    simp only [Server.handle] at hh ⊢
    cases hq : f.gotoDefinition env w u p with
    | error e => simp [hq] at hh
    | ok y => simp [hq] at hh; obtain ⟨rfl, rfl, rfl⟩ := hh; exact ⟨_, rfl, rfl, rfl, rfl, h4⟩
  | codeAction u p =>
    simp only [Server.handle, Server.onCodeAction] at hh ⊢
    cases hq : f.codeAction env u p with
    | error e => simp [hq] at hh
    | ok y =>
      cases y with
      | none => simp [hq] at hh; obtain ⟨rfl, rfl, rfl⟩ := hh; exact ⟨_, rfl, rfl, rfl, rfl, h4⟩
      | some a =>
        cases hp : f.processCodeActions env w a with
        | error e => simp [hq, hp] at hh
        | ok z =>
          obtain ⟨items, b⟩ := z
          cases b with
          | false =>
            simp [hq, hp] at hh
            obtain ⟨rfl, rfl, rfl⟩ := hh
            exact ⟨⟨c, f, t₀, n⟩, by simp only [hp], rfl, rfl, rfl, h4⟩
          | true =>
            simp [hq, hp] at hh
            obtain ⟨rfl, rfl, rfl⟩ := hh
            exact ⟨⟨c, f, t₀ ++ [⟨n, u, f.mainChannel, false⟩], n + 1⟩, by simp only [hp], rfl, rfl, rfl, h4.append_right _⟩
  | executeCommand c => cases hh; exact ⟨_, rfl, rfl, rfl, rfl, h4⟩
  | documentSymbol u => cases hh; exact ⟨_, rfl, rfl, rfl, rfl, h4⟩
  | didChangeConfiguration c => cases hh; exact ⟨_, rfl, rfl, rfl, rfl, h4⟩
  | codeActions m => cases hh; exact ⟨_, rfl, rfl, rfl, rfl, h4⟩

theorem run_append {env : Env} : ∀ {ms ns : List (World × Msg)} {s s' : Server}, s.run env ms = .ok s' →
    s.run env (ms ++ ns) = s'.run env ns
  | [], ns, s, s', h => by cases h; rfl
  | m :: ms, ns, s, s', h => by
    simp only [Server.run, List.cons_append] at h ⊢
    cases hh : s.handle env m.1 m.2 with
    | error e => simp [hh] at h
    | ok x =>
      obtain ⟨s1, o, r⟩ := x
      simp only [hh] at h ⊢
      exact run_append h

/-- **C66** At every moment of every execution, whatever the interleaving of the tasks, the client and expiring delays: as long as the worker
lives, its state is the one a purely sequential server has after processing some messages one after the other, and these messages followed by
those still queued are exactly the messages the client sent, each once and in the order in which they were sent, interleaved with messages the
server sent to itself. -/
theorem C66_sequential (W : World → Prop) (env : Env) (cs : List Msg) (as : List (HMap Str Diags)) (σ : Sys) (s : Server) (h : Execution W env cs as σ)
    (hw : σ.worker = some s) :
    ∃ (ms : List (World × Msg)) (s₀ : Server) (is : List Msg), Server.init.run env ms = .ok s₀ ∧ SameUpToExpiry s s₀ ∧
      Merge cs is (ms.map Prod.snd ++ σ.lspQ) ∧ (∀ i ∈ is, internal i) ∧ ∀ m ∈ ms, W m.1 := by
  induction h generalizing s with
  | start =>
    injection hw with hw
    subst hw
    exact ⟨[], _, [], rfl, ⟨rfl, rfl, rfl, List.Sublist.refl _⟩, .nil, by simp, by simp⟩
  | client h m hm hw' hc ih =>
    obtain ⟨ms, s₀, is, h1, h2, h3, h4, h9⟩ := ih s hw
    refine ⟨ms, s₀, is, h1, h2, ?_, h4, h9⟩
    rw [← List.append_assoc]
    exact h3.left m
  | task h hs ih =>
    cases hs with
    | workerRecv w hw' ho hq hh hW =>
      rename_i s1 s2 m q outs r
      obtain ⟨ms, s₀, is, h1, h2, h3, h4, h9⟩ := ih _ hw'
      obtain ⟨s₀', h5, h6⟩ := handle_sameUpToExpiry h2 hh
      injection hw with hw
      subst hw
      refine ⟨ms ++ [(w, m)], s₀', is, ?_, h6, ?_, h4, ?_⟩
      · rw [run_append h1]
        simp only [Server.run, h5]
      · rw [hq] at h3
        simpa using h3
      · intro x hx
        rcases List.mem_append.mp hx with hx | hx
        · exact h9 x hx
        · rw [List.mem_singleton.mp hx]
          exact hW
    | workerPanic w hw' ho hq hh => cases hw
    | workerSendDiag hw' ho ha hc => exact ih s hw
    | workerSendDiagDead hw' ho ha => exact ih s hw
    | workerSendSelf hw' ho hc =>
      obtain ⟨ms, s₀, is, h1, h2, h3, h4, h9⟩ := ih s hw
      refine ⟨ms, s₀, is ++ [.initialized], h1, h2, ?_, ?_, h9⟩
      · rw [← List.append_assoc]
        exact h3.right _
      · intro i hi
        rcases List.mem_append.mp hi with hi | hi
        · exact h4 i hi
        · exact Or.inl (by simpa using hi)
    | diagRecv o ha hd hq hp => exact ih s hw
    | diagPanic o ha hd hq hp => exact ih s hw
    | diagSend ha hd hw' hc =>
      rename_i s1 ca
      obtain ⟨ms, s₀, is, h1, h2, h3, h4, h9⟩ := ih s hw
      refine ⟨ms, s₀, is ++ [.codeActions ca], h1, h2, ?_, ?_, h9⟩
      · rw [← List.append_assoc]
        exact h3.right _
      · intro i hi
        rcases List.mem_append.mp hi with hi | hi
        · exact h4 i hi
        · exact Or.inr (Or.inr ⟨_, by simpa using hi⟩)
    | diagSendDead ha hd hw' => exact ih s hw
    | diagStop ha hd hq hw' => exact ih s hw
  | delayed h hs hw' ht hτ ih =>
    rename_i σ τ s1 t
    obtain ⟨ms, s₀, is, h1, h2, h3, h4, h9⟩ := ih _ hw'
    rw [hτ] at hw
    injection hw with hw
    subst hw
    have h5 : SameUpToExpiry { s1 with timers := s1.timers.erase t } s₀ :=
      ⟨h2.config, h2.files, h2.next, List.erase_sublist.trans h2.timers⟩
    cases hs with
    | client m hm hw2 hc =>
      exfalso
      rw [hw'] at hτ
      injection hτ with hτ
      have := congrArg (fun s => s.timers.length) hτ
      simp only [List.length_erase, ht, if_true] at this
      have : 0 < s1.timers.length := List.length_pos_of_mem ht
      omega
    | clientDead hw2 => rw [hw'] at hw2; cases hw2
    | timer hw2 ht2 hl hc =>
      rename_i s2 t2
      refine ⟨ms, s₀, is ++ [.didSave t2.uri], h1, h5, ?_, ?_, h9⟩
      · rw [← List.append_assoc]
        exact h3.right _
      · intro i hi
        rcases List.mem_append.mp hi with hi | hi
        · exact h4 i hi
        · exact Or.inr (Or.inl ⟨_, by simpa using hi⟩)
    | timerMute hw2 ht2 hl => exact ⟨ms, s₀, is, h1, h5, h3, h4, h9⟩

/-- not vacuous: an execution in which the client opened a template while the worker is about to be sent a second message -/
example : ∃ σ : Sys, Execution (fun _ => True) Fix.env [.didOpen Fix.uriA c!"{{ a }}", .hover Fix.uriA ⟨0, 3⟩] [] σ ∧ σ.worker ≠ none ∧ σ.lspQ.length = 2 :=
  ⟨_, ((Execution.start.client (.didOpen Fix.uriA c!"{{ a }}") trivial rfl (by decide)).client (.hover Fix.uriA ⟨0, 3⟩) trivial rfl (by decide)),
    by simp [Sys.init], rfl⟩

/-! ### Nothing analysed is lost, published twice or in another order -/

namespace Spec

/-- what has to be published for an analysis result: one list for each of its files, in any order, that shows its reports -/
def Publishes (env : Env) (m : HMap Str Diags) (p : List (Str × List Diagnostic)) : Prop :=
  p.Perm (m.entries.map fun e => ((env.urlParse e.1).getD [], (e.2.map report).map shown))

/-- all positions fit into 32 bits -/
def SmallResults (as : List (HMap Str Diags)) : Prop := ∀ m ∈ as, ∀ k ds, m.get? k = some ds → Small ds

end Spec

theorem diagLoop_urls {env : Env} : ∀ {es : List (Str × Diags)} {ca ca' : HMap Str (List Identifier)} {pubs : List (Str × List Diagnostic)},
    diagLoop env es ca = .ok (pubs, ca') → ∀ e ∈ es, env.urlParse e.1 ≠ none
  | [], _, _, _, _ => by simp
  | e :: es, ca, ca', pubs, h => by
    simp only [diagLoop] at h
    cases hu : env.urlParse e.1 with
    | none => simp [hu] at h
    | some u =>
      simp only [hu] at h
      cases hl : diagLoop env es (ca.insert e.1 (missingTemplates e.2)) with
      | error x => simp [hl] at h
      | ok x =>
        obtain ⟨p, c⟩ := x
        intro e' he'
        rcases List.mem_cons.mp he' with rfl | he'
        · rw [hu]; simp
        · exact diagLoop_urls hl e' he'

/-- what is published for one result -/
theorem diagProcess_publishes {env : Env} {o : HashOrder} {m : HMap Str Diags} {p : List (Str × List Diagnostic)}
    {ca : HMap Str (List Identifier)} (hs : ∀ k ds, m.get? k = some ds → Small ds) (h : diagProcess env o m = .ok (p, ca)) :
    Publishes env m p := by
  have hu : ∀ k ds, m.get? k = some ds → env.urlParse k ≠ none := fun k ds hk =>
    diagLoop_urls h (k, ds) ((HMap.mem_shuffle ..).mpr ((HMap.get?_eq_some_iff ..).mp hk))
  obtain ⟨p', ca', h', hp⟩ := C34_faithful env o m hu hs
  rw [h] at h'
  cases h'
  exact hp

/-- **C65** At every moment of every execution, as long as the diagnostics task lives: the analysis results the worker computed are, in order,
those whose lists have been published, then those queued, then those the worker is about to queue. What has been published so far is exactly
the lists of the former, result by result in the order of the analyses: nothing is lost, published twice or out of order. -/
theorem C65_in_order (W : World → Prop) (env : Env) (cs : List Msg) (as : List (HMap Str Diags)) (σ : Sys) (h : Execution W env cs as σ) (hs : SmallResults as)
    (ha : σ.diagAlive = true) :
    ∃ done : List (HMap Str Diags × List (Str × List Diagnostic)),
      as = done.map Prod.fst ++ σ.diagQ ++ results σ.wOut ∧ σ.published = (done.map Prod.snd).flatten ∧ ∀ d ∈ done, Publishes env d.1 d.2 := by
  induction h with
  | start => exact ⟨[], rfl, rfl, by simp⟩
  | client h m hm hw hc ih => exact ih hs ha
  | delayed h hst hw ht hτ ih =>
    have key : ∀ {σ τ : Sys}, EnvStep σ τ → τ.diagAlive = σ.diagAlive ∧ τ.diagQ = σ.diagQ ∧ τ.wOut = σ.wOut ∧ τ.published = σ.published := by
      intro σ τ h
      cases h <;> exact ⟨rfl, rfl, rfl, rfl⟩
    obtain ⟨h1, h2, h3, h4⟩ := key hst
    rw [h1] at ha
    rw [h2, h3, h4]
    exact ih hs ha
  | task h hst ih =>
    rename_i cs as σ τ
    have hs' : SmallResults as := fun m hm => hs m (List.mem_append_left _ hm)
    cases hst with
    | workerRecv w hw ho hq hh =>
      obtain ⟨done, h1, h2, h3⟩ := ih hs' ha
      refine ⟨done, ?_, h2, h3⟩
      rw [h1, ho]
      simp [results]
    | workerPanic w hw ho hq hh =>
      obtain ⟨done, h1, h2, h3⟩ := ih hs' ha
      refine ⟨done, ?_, h2, h3⟩
      rw [h1, ho]
      simp [results]
    | workerSendDiag hw ho ha' hc =>
      obtain ⟨done, h1, h2, h3⟩ := ih hs' ha
      refine ⟨done, ?_, h2, h3⟩
      rw [h1, ho]
      simp [results]
    | workerSendDiagDead hw ho ha' => rw [ha'] at ha; cases ha
    | workerSendSelf hw ho hc =>
      obtain ⟨done, h1, h2, h3⟩ := ih hs' ha
      refine ⟨done, ?_, h2, h3⟩
      rw [h1, ho]
      simp [results]
    | diagRecv o ha' hd hq hp =>
      rename_i m q p ca
      obtain ⟨done, h1, h2, h3⟩ := ih hs' ha
      have hm : m ∈ as := by rw [h1, hq]; simp
      refine ⟨done ++ [(m, p)], ?_, by simp [h2], ?_⟩
      · rw [h1, hq]
        by_cases ho : σ.wOut = [] <;> simp [ho, results]
      · intro d hd'
        rcases List.mem_append.mp hd' with hd' | hd'
        · exact h3 d hd'
        · rw [List.mem_singleton] at hd'
          subst hd'
          exact diagProcess_publishes (hs' m hm) hp
    | diagPanic o ha' hd hq hp => cases ha
    | diagSend ha' hd hw hc =>
      obtain ⟨done, h1, h2, h3⟩ := ih hs' ha
      refine ⟨done, ?_, h2, h3⟩
      rw [h1]
      by_cases ho : σ.wOut = [] <;> simp [ho, results]
    | diagSendDead ha' hd hw =>
      obtain ⟨done, h1, h2, h3⟩ := ih hs' ha
      refine ⟨done, ?_, h2, h3⟩
      rw [h1]
      by_cases ho : σ.wOut = [] <;> simp [ho, results]
    | diagStop ha' hd hq hw => cases ha

/-- the file at which the loop over the files of a result stops, and what it has published before -/
theorem diagLoop_stops {env : Env} : ∀ {es : List (Str × Diags)} {ca : HMap Str (List Identifier)} {p : Panic},
    diagLoop env es ca = .error p →
    ∃ before e after, es = before ++ e :: after ∧ env.urlParse e.1 = none ∧
      diagBefore env es = before.map fun e => ((env.urlParse e.1).getD [], toDiagnostics e.2)
  | [], _, _, h => by simp [diagLoop] at h
  | e :: es, ca, p, h => by
    cases hu : env.urlParse e.1 with
    | none => exact ⟨[], e, es, rfl, hu, by simp [diagBefore, hu]⟩
    | some u =>
      simp only [diagLoop, hu] at h
      cases hl : diagLoop env es (ca.insert e.1 (missingTemplates e.2)) with
      | ok x => simp [hl] at h
      | error x =>
        obtain ⟨b, e', a, h1, h2, h3⟩ := diagLoop_stops hl
        exact ⟨e :: b, e', a, by simp [h1], h2, by simp [diagBefore, hu, h3]⟩

/-- What may have been published when the results `as` were computed: the lists of the first results, in order, and at most the lists of some
of the files of the next one, namely of one that names a file whose name is not a URL. -/
def Spec.PublishedOf (env : Env) (as : List (HMap Str Diags)) (published : List (Str × List Diagnostic)) : Prop :=
  ∃ (done : List (HMap Str Diags × List (Str × List Diagnostic))) (rest : List (Str × List Diagnostic)),
    done.map Prod.fst <+: as ∧ published = (done.map Prod.snd).flatten ++ rest ∧ (∀ d ∈ done, Publishes env d.1 d.2) ∧
    (rest = [] ∨ ∃ m p k ds, done.map Prod.fst ++ [m] <+: as ∧ m.get? k = some ds ∧ env.urlParse k = none ∧ Publishes env m p ∧ rest <+: p)

/-- **C65** At every moment of every execution, also after the end of the diagnostics task, nothing else has been published. -/
theorem C65_ended (W : World → Prop) (env : Env) (cs : List Msg) (as : List (HMap Str Diags)) (σ : Sys) (h : Execution W env cs as σ) (hs : SmallResults as) :
    PublishedOf env as σ.published := by
  have alive : ∀ {cs as} {σ : Sys}, Execution W env cs as σ → SmallResults as → σ.diagAlive = true → PublishedOf env as σ.published := by
    intro cs as σ h hs ha
    obtain ⟨done, h1, h2, h3⟩ := C65_in_order W env cs as σ h hs ha
    exact ⟨done, [], ⟨σ.diagQ ++ results σ.wOut, by rw [h1]; simp⟩, by simp [h2], h3, Or.inl rfl⟩
  induction h with
  | start => exact alive .start hs rfl
  | client h m hm hw hc ih => exact ih hs
  | delayed h hst hw ht hτ ih =>
    have key : ∀ {σ τ : Sys}, EnvStep σ τ → τ.published = σ.published := by
      intro σ τ h
      cases h <;> rfl
    rw [key hst]
    exact ih hs
  | task h hst ih =>
    rename_i cs as σ τ
    have hs' : SmallResults as := fun m hm => hs m (List.mem_append_left _ hm)
    have same : ∀ new, τ.published = σ.published → PublishedOf env (as ++ new) τ.published := fun new hp => by
      obtain ⟨done, rest, h1, h2, h3, h4⟩ := ih hs'
      refine ⟨done, rest, h1.trans (List.prefix_append ..), hp ▸ h2, h3, h4.imp id ?_⟩
      rintro ⟨m, p, k, ds, g1, g2⟩
      exact ⟨m, p, k, ds, g1.trans (List.prefix_append ..), g2⟩
    cases hst with
    | diagRecv o ha hd hq hp => exact alive (.task h (.diagRecv o ha hd hq hp)) hs ha
    | diagPanic o ha hd hq hp =>
      rename_i m q p
      obtain ⟨done, h1, h2, h3⟩ := C65_in_order W env cs as σ h hs' ha
      have hm : m ∈ as := by rw [h1, hq]; simp
      obtain ⟨before, e, after, g1, g2, g3⟩ := diagLoop_stops hp
      have he : e ∈ m.entries := (o.perm 9 m.entries).mem_iff.mp (g1 ▸ by simp)
      let f : Str × Diags → Str × List Diagnostic := fun e => ((env.urlParse e.1).getD [], (e.2.map report).map shown)
      refine ⟨done, _, h1.symm ▸ ?_, congrArg (· ++ _) h2, h3, Or.inr ⟨m, (o.shuffle 9 m.entries).map f, e.1, e.2, h1.symm ▸ ?_,
        (HMap.get?_eq_some_iff ..).mpr he, g2, (o.perm 9 m.entries).map f, ?_⟩⟩
      · rw [List.append_assoc, List.append_assoc]; exact List.prefix_append ..
      · rw [hq, List.append_assoc, List.append_assoc, List.prefix_append_right_inj]
        exact List.cons_prefix_cons.mpr ⟨rfl, List.nil_prefix⟩
      · rw [g3, g1, List.map_append]
        refine ⟨_, congrArg (· ++ _) (List.map_congr_left fun x hx => ?_)⟩
        have hx' : x ∈ m.entries := (o.perm 9 m.entries).mem_iff.mp (g1 ▸ by simp [hx])
        rw [toDiagnostics_eq (hs' m hm x.1 x.2 ((HMap.get?_eq_some_iff ..).mpr hx'))]
    | _ => exact same _ rfl

theorem filter_key_of_nodup {K V : Type} [DecidableEq K] : ∀ (l : List (K × V)) (k : K) (v : V), (l.map Prod.fst).Nodup → (k, v) ∈ l →
    l.filter (fun e => e.1 = k) = [(k, v)]
  | [], k, v, _, h => by simp at h
  | e :: l, k, v, hn, h => by
    rw [List.map_cons, List.nodup_cons] at hn
    rcases List.mem_cons.mp h with h | h
    · subst h
      have : l.filter (fun e => e.1 = k) = [] := by
        rw [List.filter_eq_nil_iff]
        intro x hx hk
        have hk : x.1 = k := by simpa using hk
        have hm : x.1 ∈ l.map Prod.fst := List.mem_map_of_mem hx
        rw [hk] at hm
        exact hn.1 hm
      simp [this]
    · have hne : e.1 ≠ k := fun hh => hn.1 (by rw [hh]; exact List.mem_map_of_mem (f := Prod.fst) h)
      rw [List.filter_cons_of_neg (by simpa using hne)]
      exact filter_key_of_nodup l k v hn.2 h

theorem filter_flatten {α : Type} (p : α → Bool) : ∀ l : List (List α), l.flatten.filter p = (l.map fun x => x.filter p).flatten
  | [] => rfl
  | x :: l => by simp [filter_flatten p l]

/-- **C65** When all queues are empty, what is shown for a file – the list published last – is exactly the reports of the last analysis that
concerned it. (The names of files are URLs in normal form.) -/
theorem C65_last_shown (W : World → Prop) (env : Env) (cs : List Msg) (as : List (HMap Str Diags)) (σ : Sys) (h : Execution W env cs as σ) (hs : SmallResults as)
    (ha : σ.diagAlive = true) (hq : σ.diagQ = []) (ho : σ.wOut = []) (hurl : ∀ n u, env.urlParse n = some u → u = n)
    (before after : List (HMap Str Diags)) (m : HMap Str Diags) (n : Str) (ds : Diags) (hn : env.urlParse n ≠ none)
    (has : as = before ++ [m] ++ after) (hm : m.get? n = some ds) (hafter : ∀ x ∈ after, x.get? n = none) (hne : n ≠ []) :
    (σ.published.filter fun p => p.1 = n).getLast? = some (n, (ds.map report).map shown) := by
  obtain ⟨done, h1, h2, h3⟩ := C65_in_order W env cs as σ h hs ha
  have hname : ∀ k, (env.urlParse k).getD [] = n → k = n := by
    intro k hk
    cases hu : env.urlParse k with
    | none => rw [hu] at hk; exact absurd hk.symm hne
    | some u =>
      rw [hu] at hk
      exact (hurl k u hu).symm.trans hk
  have hnn : (env.urlParse n).getD [] = n := by
    cases hu : env.urlParse n with
    | none => exact absurd hu hn
    | some u => exact hurl n u hu
  -- what one result contributes for `n`
  have hsome : ∀ d ∈ done, ∀ ds, d.1.get? n = some ds → d.2.filter (fun p => p.1 = n) = [(n, (ds.map report).map shown)] := by
    intro d hd ds hds
    have hp := ((h3 d hd).filter fun p => p.1 = n)
    have : (d.1.entries.map fun e => ((env.urlParse e.1).getD [], (e.2.map report).map shown)).filter (fun p => decide (p.1 = n)) =
        [(n, (ds.map report).map shown)] := by
      rw [List.filter_map]
      have hf : d.1.entries.filter ((fun p : Str × List Diagnostic => decide (p.1 = n)) ∘ fun e => ((env.urlParse e.1).getD [], (e.2.map report).map shown)) =
          d.1.entries.filter fun e => e.1 = n := by
        refine List.filter_congr ?_
        intro e _
        simp only [Function.comp]
        by_cases he : e.1 = n
        · simp [he, hnn]
        · simp only [he, decide_false, decide_eq_false_iff_not]
          exact fun hh => he (hname _ hh)
      rw [hf, filter_key_of_nodup d.1.entries n ds d.1.nodup ((HMap.get?_eq_some_iff _ _ _).mp hds)]
      simp [hnn]
    rw [this] at hp
    exact List.perm_singleton.mp hp
  have hnone : ∀ d ∈ done, d.1.get? n = none → d.2.filter (fun p => p.1 = n) = [] := by
    intro d hd hds
    rw [List.filter_eq_nil_iff]
    intro p hp hpn
    have := (h3 d hd).mem_iff.mp hp
    obtain ⟨e, he, rfl⟩ := List.mem_map.mp this
    have hk : e.1 = n := hname _ (by simpa using hpn)
    have := (HMap.get?_eq_some_iff d.1 n e.2).mpr (by rw [← hk]; exact he)
    rw [hds] at this
    cases this
  rw [hq, ho] at h1
  simp only [results, List.append_nil] at h1
  rw [has, List.append_assoc] at h1
  obtain ⟨d1, d2, rfl, e1, e2⟩ := List.map_eq_append_iff.mp h1.symm
  obtain ⟨d3, d4, rfl, e3, e4⟩ := List.map_eq_append_iff.mp e2
  obtain ⟨d, d5, rfl, e5, e6⟩ := List.map_eq_cons_iff.mp e3
  rw [List.map_eq_nil_iff] at e6
  subst e6
  have l1 : d.2.filter (fun p => p.1 = n) = [(n, (ds.map report).map shown)] := hsome d (by simp) ds (by rw [e5]; exact hm)
  have l2 : ((d4.map Prod.snd).map fun x => x.filter fun p => p.1 = n).flatten = [] := by
    rw [List.flatten_eq_nil_iff]
    intro l hl
    rw [List.map_map] at hl
    obtain ⟨x, hx, rfl⟩ := List.mem_map.mp hl
    refine hnone x (by simp [hx]) (hafter _ ?_)
    rw [← e4]
    exact List.mem_map_of_mem hx
  rw [h2, filter_flatten]
  simp only [List.map_append, List.map_cons, List.map_nil, List.flatten_append, List.flatten_cons, List.flatten_nil, l1, List.append_nil] at l2 ⊢
  rw [l2]
  simp

/-- not vacuous: the client opens a template, the worker analyses it, the diagnostics task publishes the (empty) list; then all queues are
empty but for the code actions -/
example : ∃ (m : HMap Str Diags) (σ : Sys), Execution (fun _ => True) Fix.env [.didOpen Fix.uriA c!"{{ a }}"] [m] σ ∧ SmallResults [m] ∧ σ.diagAlive = true ∧
    σ.diagQ = [] ∧ σ.wOut = [] ∧ (∀ n u, Fix.env.urlParse n = some u → u = n) ∧ m.get? Fix.uriA = some [] ∧ σ.published = [(Fix.uriA, [])] := by
  obtain ⟨s', r', m, hr, hm⟩ : ∃ s' r' m, Server.init.handle Fix.env Fix.world (.didOpen Fix.uriA c!"{{ a }}") = .ok (s', [.diag m], r') ∧
      m = HMap.empty.insert Fix.uriA [] := ⟨_, _, _, rfl, rfl⟩
  subst hm
  have e1 := Execution.start (W := fun _ => True) (env := Fix.env) |>.client (.didOpen Fix.uriA c!"{{ a }}") trivial rfl (by decide)
  have e2 := e1.task (.workerRecv (q := []) Fix.world rfl rfl rfl hr)
  have e3 := e2.task (.workerSendDiag rfl rfl rfl (show 0 < 20 by decide))
  have e4 := e3.task (.diagRecv (q := []) HashOrder.id rfl rfl rfl rfl)
  refine ⟨_, _, e4, ?_, rfl, rfl, rfl, fun n u h => by simp [Fix.env] at h; exact h.symm, rfl, rfl⟩
  intro m hm k ds hk d hd
  simp only [List.mem_singleton] at hm
  subst hm
  simp [HMap.get?_insert] at hk
  obtain ⟨_, rfl⟩ := hk
  simp at hd

/-- two templates; the name of the second is not a URL -/
def Fix.twoFiles : World :=
  { Fix.world with
    readFile := fun p => if p = c!"/t/a.html" ∨ p = c!"/t/b.html" then some c!"x" else none
    walk := fun d => if d = c!"/t" then [.file c!"/t/a.html", .file c!"/t/b.html"] else [] }

def Fix.noUrl : Env := { Fix.env with urlParse := fun s => if s = c!"file:///t/b.html" then none else some s }

example : ∃ (m : HMap Str Diags) (σ : Sys) (cs : List Msg), Execution (fun _ => True) Fix.noUrl cs [m] σ ∧ SmallResults [m] ∧ σ.diagAlive = false ∧
    m.entries.length = 2 ∧ σ.published = [(c!"file:///t/a.html", [])] := by
  let c : JinjaConfig := ⟨c!"/t", [], c!"rust", true, none⟩
  obtain ⟨s1, r1, h1, e1⟩ : ∃ s1 r1, Server.init.handle Fix.noUrl Fix.twoFiles (.initialize none (some (some c))) = .ok (s1, [], r1) ∧
    s1 = { Server.init with config := c } := ⟨_, _, rfl, rfl⟩
  subst e1
  obtain ⟨s2, r2, m, h2, hm⟩ : ∃ s2 r2 m, ({ Server.init with config := c } : Server).handle Fix.noUrl Fix.twoFiles .initialized = .ok (s2, [.diag m], r2) ∧
    m.entries = [(c!"file:///t/a.html", []), (c!"file:///t/b.html", [])] := ⟨_, _, _, rfl, rfl⟩
  have x1 := Execution.start (W := fun _ => True) (env := Fix.noUrl) |>.client (.initialize none (some (some c))) trivial rfl (by decide)
  have x2 := (x1.task (.workerRecv (q := []) Fix.twoFiles rfl rfl rfl h1)).client .initialized trivial rfl (by simp [lspCap])
  have x3 := x2.task (.workerRecv (q := []) Fix.twoFiles rfl rfl rfl h2)
  have x4 := x3.task (.workerSendDiag rfl rfl rfl (show 0 < 20 by decide))
  have hp : diagProcess Fix.noUrl HashOrder.id m = .error .unwrap := by
    show diagLoop Fix.noUrl m.entries HMap.empty = _
    rw [hm]
    rfl
  have x5 := x4.task (.diagPanic (q := []) HashOrder.id rfl rfl rfl hp)
  refine ⟨m, _, _, x5, ?_, rfl, by rw [hm]; rfl, ?_⟩
  · intro m' hm' k ds hk d hd
    simp only [List.mem_singleton] at hm'
    subst hm'
    have := (HMap.get?_eq_some_iff ..).mp hk
    rw [hm] at this
    simp at this
    rcases this with ⟨_, rfl⟩ | ⟨_, rfl⟩ <;> simp at hd
  · show [] ++ diagBefore Fix.noUrl m.entries = _
    rw [hm]
    rfl
end JinjaLsp
