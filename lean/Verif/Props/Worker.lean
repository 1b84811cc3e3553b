import Verif.Props.Sync
/-
  C06 (server level: which notifications kill the worker, what happens then), C07 (delayed re-analysis).
-/

namespace JinjaLsp
open Spec

/-! ## C06 -/

theorem applyChanges_error_iff (prof : Profile) : ∀ (cs : List TextChange) (t : Str),
    (∃ e, LspFiles.applyChanges prof t cs = .error e) ↔
      ∃ pre c post r t1 ies, cs = pre ++ c :: post ∧ LspFiles.applyChanges prof t pre = .ok (t1, ies, true) ∧
        c.range = some r ∧ EditCrash t1 r c.text
  | [], t => by
    constructor
    · rintro ⟨e, h⟩; simp [LspFiles.applyChanges] at h
    · rintro ⟨pre, c, post, r, t1, ies, h, _⟩; simp at h
  | c :: cs, t => by
    cases hc : c.range with
    | none =>
      constructor
      · rintro ⟨e, h⟩; simp [LspFiles.applyChanges, hc] at h
      · rintro ⟨pre, c', post, r, t1, ies, h1, h2, h3, _⟩
        cases pre with
        | nil => simp at h1; rw [← h1.1, hc] at h3; cases h3
        | cons a pre =>
          simp at h1
          rw [← h1.1] at h2
          simp [LspFiles.applyChanges, hc] at h2
    | some range =>
      cases ha : Rope.applyChange prof t range c.text with
      | error e =>
        constructor
        · intro _
          exact ⟨[], c, cs, range, t, [], rfl, rfl, hc, (C06_edit_crash_iff prof t range c.text).mp ⟨e, ha⟩⟩
        · intro _; exact ⟨e, by simp [LspFiles.applyChanges, hc, ha]⟩
      | ok res =>
        obtain ⟨t1, ie⟩ := res
        have ih := applyChanges_error_iff prof cs t1
        have e1 : (∃ e, LspFiles.applyChanges prof t (c :: cs) = .error e) ↔
            ∃ e, LspFiles.applyChanges prof t1 cs = .error e := by
          simp only [LspFiles.applyChanges, hc, ha]
          cases LspFiles.applyChanges prof t1 cs with
          | error e => simp
          | ok x => simp
        rw [e1, ih]
        constructor
        · rintro ⟨pre, c', post, r, t2, ies, h1, h2, h3, h4⟩
          refine ⟨c :: pre, c', post, r, t2, (t1, ie) :: ies, by simp [h1], ?_, h3, h4⟩
          simp [LspFiles.applyChanges, hc, ha, h2]
        · rintro ⟨pre, c', post, r, t2, ies, h1, h2, h3, h4⟩
          cases pre with
          | nil =>
            simp at h1
            rw [← h1.1] at h3 h4
            rw [hc] at h3
            cases h3
            simp only [LspFiles.applyChanges, Except.ok.injEq, Prod.mk.injEq] at h2
            rw [← h2.1] at h4
            obtain ⟨e, he⟩ := (C06_edit_crash_iff prof t range c.text).mpr h4
            rw [ha] at he; cases he
          | cons a pre =>
            simp at h1
            rw [← h1.1] at h2
            simp only [LspFiles.applyChanges, hc, ha] at h2
            split at h2
            · cases h2
            · rename_i t3 rest fin h5
              cases h2
              exact ⟨pre, c', post, r, _, rest, h1.2, h5, h3, h4⟩

/-- **C06** a change notification kills the worker exactly when the document is held and one of the ranged edits of the batch,
reached without meeting a range-less one, goes out of bounds of the text at that moment -/
theorem C06_notification_crash_iff (env : Env) (w : World) (s : Server) (uri : Str) (cs : List TextChange) :
    (∃ e, s.handle env w (.didChange uri cs) = .error e) ↔
      ∃ t pre c post r t1 ies, s.files.documents.get? uri = some t ∧ cs = pre ++ c :: post ∧
        LspFiles.applyChanges env.profile t pre = .ok (t1, ies, true) ∧ c.range = some r ∧
        EditCrash t1 r c.text := by
  have h1 : (∃ e, s.handle env w (.didChange uri cs) = .error e) ↔
      ∃ e, s.files.didChange env uri cs s.nextHandle = .error e := by
    simp only [Server.handle, Server.onDidChange]
    cases s.files.didChange env uri cs s.nextHandle with
    | error e => simp
    | ok x => obtain ⟨f, b⟩ := x; cases b <;> simp
  rw [h1, didChange_error_iff]
  constructor
  · rintro ⟨t, ht, he⟩
    obtain ⟨pre, c, post, r, t1, ies, h⟩ := (applyChanges_error_iff env.profile cs t).mp he
    exact ⟨t, pre, c, post, r, t1, ies, ht, h⟩
  · rintro ⟨t, pre, c, post, r, t1, ies, ht, h⟩
    exact ⟨t, ht, (applyChanges_error_iff env.profile cs t).mpr ⟨pre, c, post, r, t1, ies, h⟩⟩

/-- the second edit of a batch kills the worker -/
example : ∃ e, Fix.server.handle Fix.env Fix.world
    (.didChange Fix.uriA [⟨some ⟨⟨0, 0⟩, ⟨0, 3⟩⟩, c!""⟩, ⟨some ⟨⟨0, 1⟩, ⟨0, 1⟩⟩, c!"x"⟩]) = .error e := ⟨_, rfl⟩

/-- **C06** once the worker is dead, every later request of whatever kind is answered with no result, for ever -/
theorem C06_dead_worker (env : Env) : ∀ ms : List (World × Msg),
    workerRun env none ms = (none, ms.map fun _ => Reply.none)
  | [] => rfl
  | m :: ms => by simp [workerRun, workerStep, C06_dead_worker env ms]

/-- **C06** in any history: after a message that crashes, all replies are empty -/
theorem C06_after_crash (env : Env) (s : Server) (w : World) (m : Msg) (ms : List (World × Msg))
    (h : ∃ e, s.handle env w m = .error e) :
    workerRun env (some s) ((w, m) :: ms) = (none, ((w, m) :: ms).map fun _ => Reply.none) := by
  obtain ⟨e, h⟩ := h
  simp [workerRun, workerStep, h, C06_dead_worker]

/-- **C06** in the whole system (tasks, queues, timers) a dead worker is never revived -/
theorem C06_never_revived (env : Env) (σ τ : Sys) (h : Steps env σ τ) (hd : σ.worker = none) :
    τ.worker = none := by
  induction h with
  | refl => exact hd
  | tail _ h' ih =>
    cases h' with
    | task h => cases h <;> simp_all
    | env h => cases h <;> simp_all

/-! ## C07 -/

/-- what can happen to the worker: a message is processed or a delayed task expires -/
inductive Spec.Event where
  | msg (w : World) (m : Msg)
  | expire (t : Timer)

/-- one event; an event of a task that is not pending does nothing -/
inductive Spec.EventStep (env : Env) : Server → Event → Server → Prop where
  | msg {s s' : Server} {w : World} {m : Msg} {out : List Send} {r : Reply}
      (h : s.handle env w m = .ok (s', out, r)) : EventStep env s (.msg w m) s'
  | expire {s : Server} (t : Timer) : EventStep env s (.expire t) { s with timers := s.timers.erase t }

/-- a sequence of events in which the workspace is re-initialised only while no typing timer is pending -/
inductive Spec.CalmRun (env : Env) : Server → List Event → Server → Prop where
  | nil (s : Server) : CalmRun env s [] s
  | cons {s s1 s2 : Server} {e : Event} {es : List Event} (h : EventStep env s e s1)
      (hc : ∀ w, e = .msg w .initialized → ∀ t ∈ s.timers, t.typing = false)
      (hr : CalmRun env s1 es s2) : CalmRun env s (e :: es) s2

/-- the pending re-analyses caused by typing -/
def Spec.pending (s : Server) : List Timer := s.timers.filter fun t => t.typing

structure TimerInv (s : Server) : Prop where
  bound : ∀ t ∈ s.timers, t.handle < s.nextHandle
  nodup : (s.timers.map Timer.handle).Nodup
  typing : ∀ t ∈ s.timers, t.typing = true → s.files.diagnosticsTask = some t.handle

theorem task_addVariables {env : Env} {f g : LspFiles} {n : Str} {l : LangType} {c : Str}
    (h : f.addVariables env n l c = .ok g) : g.diagnosticsTask = f.diagnosticsTask := by
  unfold LspFiles.addVariables at h
  split at h
  · cases h; rfl
  · split at h
    · cases h; rfl
    · split at h
      · cases h; rfl
      · split at h
        · cases h
        · cases h; rfl

theorem task_deleteVariables (f : LspFiles) (n : Str) :
    (f.deleteVariables n).diagnosticsTask = f.diagnosticsTask := by
  unfold LspFiles.deleteVariables; split <;> rfl

theorem task_addTree (env : Env) (f : LspFiles) (n : Str) (l : LangType) (c : Str) :
    (f.addTree env n l c).diagnosticsTask = f.diagnosticsTask := by
  unfold LspFiles.addTree; split <;> rfl

theorem task_didSave {env : Env} {w : World} {f g : LspFiles} {n : Str} {m : Option (HMap Str Diags)}
    (h : f.didSave env w n = .ok (g, m)) : g.diagnosticsTask = f.diagnosticsTask := by
  unfold LspFiles.didSave at h
  split at h
  · cases h; rfl
  · split at h
    · cases h; rfl
    · split at h
      · cases h
      · rename_i f1 hf1
        have : f1.diagnosticsTask = f.diagnosticsTask := by rw [task_addVariables hf1, task_deleteVariables]
        split at h
        · cases h
        · cases h; exact this
        · cases h; exact this

theorem task_didOpen {env : Env} {w : World} {f g : LspFiles} {n c : Str} {ig : Bool}
    {m : Option (HMap Str Diags)} (h : f.didOpen env w n c ig = .ok (g, m)) :
    g.diagnosticsTask = f.diagnosticsTask := by
  unfold LspFiles.didOpen at h
  split at h
  · cases h; rfl
  · simp only at h
    split at h
    · cases h
    · rename_i f1 hf1
      have : f1.diagnosticsTask = f.diagnosticsTask := by
        rw [task_addVariables hf1, task_addTree]; exact task_deleteVariables f n
      split at h
      · cases h; exact this
      · split at h
        · cases h
        · cases h; exact this
        · cases h; exact this

/-- timers and the task handle after any message other than a change, a code action or a re-initialisation -/
theorem handle_timers {env : Env} {w : World} {s s' : Server} {m : Msg} {out : List Send} {r : Reply}
    (h : s.handle env w m = .ok (s', out, r)) (h1 : ∀ u cs, m ≠ .didChange u cs)
    (h2 : ∀ u p, m ≠ .codeAction u p) :
    s'.timers = s.timers ∧ s'.nextHandle = s.nextHandle ∧
      (m ≠ .initialized → s'.files.diagnosticsTask = s.files.diagnosticsTask) := by
  cases m
  case «initialize» c o =>
    simp only [Server.handle] at h; cases h
    refine ⟨rfl, rfl, fun _ => ?_⟩
    simp only [Server.onInitialize]
    split <;> rfl
  case initialized =>
    simp only [Server.handle] at h
    split at h
    · cases h
    · rename_i s1 o1 h1
      cases h
      unfold Server.onInitialized at h1
      split at h1
      · split at h1
        · cases h1
        · cases h1; exact ⟨rfl, rfl, fun hh => absurd rfl hh⟩
        · cases h1; exact ⟨rfl, rfl, fun hh => absurd rfl hh⟩
      · cases h1; exact ⟨rfl, rfl, fun hh => absurd rfl hh⟩
  case didOpen u t =>
    simp only [Server.handle] at h
    split at h
    · cases h
    · rename_i f m hf; cases h; exact ⟨rfl, rfl, fun _ => task_didOpen hf⟩
  case didSave u =>
    simp only [Server.handle] at h
    split at h
    · cases h
    · rename_i f m hf; cases h; exact ⟨rfl, rfl, fun _ => task_didSave hf⟩
  case didChange u cs => exact absurd rfl (h1 u cs)
  case codeAction u p => exact absurd rfl (h2 u p)
  case completion => simp only [Server.handle] at h; split at h <;> cases h; exact ⟨rfl, rfl, fun _ => rfl⟩
  case hover => simp only [Server.handle] at h; split at h <;> cases h; exact ⟨rfl, rfl, fun _ => rfl⟩
  case goto => simp only [Server.handle] at h; split at h <;> cases h; exact ⟨rfl, rfl, fun _ => rfl⟩
  case executeCommand => simp only [Server.handle] at h; cases h; exact ⟨rfl, rfl, fun _ => rfl⟩
  case documentSymbol => simp only [Server.handle] at h; cases h; exact ⟨rfl, rfl, fun _ => rfl⟩
  case didChangeConfiguration => simp only [Server.handle] at h; cases h; exact ⟨rfl, rfl, fun _ => rfl⟩
  case codeActions m =>
    simp only [Server.handle] at h; cases h
    exact ⟨rfl, rfl, fun _ => (addCodeActions_frame w.order s.files m).2.2.2.2⟩

/-- the spawned task is remembered -/
theorem task_didChange {env : Env} {f g : LspFiles} {n : Str} {cs : List TextChange} {k : Nat} {b : Bool}
    (h : f.didChange env n cs k = .ok (g, b)) :
    g.diagnosticsTask = if b then some k else f.diagnosticsTask := by
  unfold LspFiles.didChange at h
  split at h
  · cases h; rfl
  · simp only at h
    split at h
    · cases h
    · split at h
      · cases h; rfl
      · cases h; rfl

theorem timerInv_step {env : Env} {s s' : Server} {e : Event} (hi : TimerInv s) (h : EventStep env s e s')
    (hc : ∀ w, e = .msg w .initialized → ∀ t ∈ s.timers, t.typing = false) : TimerInv s' := by
  cases h with
  | expire t =>
    refine ⟨fun x hx => hi.bound x (List.mem_of_mem_erase hx), ?_,
      fun x hx ht => hi.typing x (List.mem_of_mem_erase hx) ht⟩
    exact List.Nodup.sublist (List.Sublist.map _ List.erase_sublist) hi.nodup
  | @msg _ w m out r h =>
    have append : ∀ (L : List Timer) (u : Str) (lv ty : Bool), L.Sublist s.timers →
        ((L ++ [(⟨s.nextHandle, u, lv, ty⟩ : Timer)]).map Timer.handle).Nodup := by
      intro L u lv ty hs
      rw [List.map_append, List.nodup_append]
      refine ⟨List.Nodup.sublist (List.Sublist.map _ hs) hi.nodup, by simp, ?_⟩
      intro a ha b hb
      simp only [List.map_cons, List.map_nil, List.mem_singleton] at hb
      subst hb
      obtain ⟨t, ht, rfl⟩ := List.mem_map.mp ha
      have := hi.bound t (hs.subset ht)
      omega
    by_cases hd : ∃ u cs, m = .didChange u cs
    · obtain ⟨u, cs, rfl⟩ := hd
      simp only [Server.handle] at h
      split at h
      · cases h
      · rename_i s1 h1
        cases h
        obtain ⟨f, b, hf, e1, e2, hfalse, htrue⟩ := onDidChange_cases h1
        have htask := task_didChange hf
        cases b with
        | false =>
          obtain ⟨t1, t2⟩ := hfalse rfl
          simp only [Bool.false_eq_true, if_false] at htask
          exact ⟨by rw [t1, t2]; exact hi.bound, by rw [t1]; exact hi.nodup,
            by rw [t1, e1, htask]; exact hi.typing⟩
        | true =>
          obtain ⟨t1, t2⟩ := htrue rfl
          simp only [if_true] at htask
          refine ⟨?_, ?_, ?_⟩
          · rw [t1, t2]
            intro t ht
            rcases List.mem_append.mp ht with ht | ht
            · have := hi.bound t (List.mem_filter.mp ht).1; omega
            · simp only [List.mem_singleton] at ht; subst ht; simp
          · rw [t1]; exact append _ _ _ _ List.filter_sublist
          · rw [t1, e1, htask]
            intro t ht hty
            rcases List.mem_append.mp ht with ht | ht
            · obtain ⟨h3, h4⟩ := List.mem_filter.mp ht
              have := hi.typing t h3 hty
              simp [this] at h4
            · simp only [List.mem_singleton] at ht; subst ht; rfl
    · by_cases ha : ∃ u p, m = .codeAction u p
      · obtain ⟨u, p, rfl⟩ := ha
        simp only [Server.handle] at h
        split at h
        · cases h
        · rename_i s1 items h1
          cases h
          obtain ⟨e1, e2, hh⟩ := onCodeAction_frame h1
          rcases hh with ⟨t1, t2⟩ | ⟨t1, t2⟩
          · exact ⟨by rw [t1, t2]; exact hi.bound, by rw [t1]; exact hi.nodup,
              by rw [t1, e1]; exact hi.typing⟩
          · refine ⟨?_, ?_, ?_⟩
            · rw [t1, t2]
              intro t ht
              rcases List.mem_append.mp ht with ht | ht
              · have := hi.bound t ht; omega
              · simp only [List.mem_singleton] at ht; subst ht; simp
            · rw [t1]; exact append _ _ _ _ (List.Sublist.refl _)
            · rw [t1, e1]
              intro t ht hty
              rcases List.mem_append.mp ht with ht | ht
              · exact hi.typing t ht hty
              · simp only [List.mem_singleton] at ht; subst ht; simp at hty
      · obtain ⟨t1, t2, t3⟩ := handle_timers h (fun u cs e => hd ⟨u, cs, e⟩) (fun u p e => ha ⟨u, p, e⟩)
        refine ⟨by rw [t1, t2]; exact hi.bound, by rw [t1]; exact hi.nodup, ?_⟩
        rw [t1]
        intro t ht hty
        by_cases hin : m = .initialized
        · subst hin
          have := hc w rfl t ht
          rw [this] at hty; cases hty
        · rw [t3 hin]; exact hi.typing t ht hty

theorem timerInv_run {env : Env} {s s' : Server} {es : List Event} (h : CalmRun env s es s') (hi : TimerInv s) :
    TimerInv s' := by
  induction h with
  | nil => exact hi
  | cons h hc _ ih => exact ih (timerInv_step hi h hc)

theorem timerInv_init : TimerInv Server.init :=
  ⟨by simp [Server.init], by simp [Server.init], by simp [Server.init]⟩

theorem pending_le_one {s : Server} (hi : TimerInv s) : (pending s).length ≤ 1 := by
  match hp : pending s with
  | [] => simp
  | [_] => simp
  | a :: b :: rest =>
    exfalso
    have ha : a ∈ pending s := by rw [hp]; simp
    have hb : b ∈ pending s := by rw [hp]; simp
    obtain ⟨ha1, ha2⟩ := List.mem_filter.mp ha
    obtain ⟨hb1, hb2⟩ := List.mem_filter.mp hb
    have h1 := hi.typing a ha1 ha2
    have h2 := hi.typing b hb1 hb2
    rw [h1] at h2
    have hn : ((pending s).map Timer.handle).Nodup :=
      List.Nodup.sublist (List.Sublist.map _ List.filter_sublist) hi.nodup
    rw [hp] at hn
    simp only [List.map_cons, List.nodup_cons, List.mem_cons, not_or] at hn
    exact hn.1.1 (by simpa using h2)

/-- **C07** from server start, through any interleaving of messages and expirations, there is at most one pending delayed
re-analysis caused by typing.  Missing: re-initialisation while one is pending (`C07_two_pending`). -/
theorem C07_at_most_one_partial (env : Env) (es : List Event) (s : Server)
    (h : CalmRun env Server.init es s) : (pending s).length ≤ 1 :=
  pending_le_one (timerInv_run h timerInv_init)

/-- **C07** after a change notification that was carried out, exactly one re-analysis is pending, for this document -/
theorem C07_last_changed_partial (env : Env) (es : List Event) (s s' : Server)
    (h : CalmRun env Server.init es s) (uri t : Str) (cs : List TextChange) (w : World) (out : List Send) (r : Reply)
    (ht : s.files.documents.get? uri = some t) (hcs : ∀ c ∈ cs, c.range.isSome)
    (hh : s.handle env w (.didChange uri cs) = .ok (s', out, r)) :
    ∃ k, pending s' = [⟨k, uri, s.files.mainChannel, true⟩] := by
  have hi := timerInv_run h timerInv_init
  have hi' : TimerInv s' := timerInv_step hi (.msg hh) (fun w' e => by cases e)
  simp only [Server.handle] at hh
  split at hh
  · cases hh
  · rename_i s1 h1
    cases hh
    obtain ⟨f, b, hf, e1, e2, hfalse, htrue⟩ := onDidChange_cases h1
    obtain ⟨t', es', hap, _⟩ := didChange_ok ht hf
    have hb := applyChanges_ranged env.profile cs t t' es' b hcs hap
    subst hb
    obtain ⟨t1, _⟩ := htrue rfl
    refine ⟨s.nextHandle, ?_⟩
    have hmem : (⟨s.nextHandle, uri, s.files.mainChannel, true⟩ : Timer) ∈ pending s' := by
      rw [pending, t1]; simp
    have hlen := pending_le_one hi'
    match hp : pending s' with
    | [] => rw [hp] at hmem; simp at hmem
    | [x] => rw [hp] at hmem; simp at hmem; rw [hmem]
    | a :: b :: rest => rw [hp] at hlen; simp at hlen

/-- **C07** "every changed document is eventually re-analysed" is false: after changing A and then B, whatever the state,
no typing re-analysis of A is pending any more. -/
theorem C07_lost_reanalysis (env : Env) (es : List Event) (s s1 s2 : Server)
    (h : CalmRun env Server.init es s) (a b tb : Str) (hab : a ≠ b) (csa csb : List TextChange) (wa wb : World)
    (oa ob : List Send) (ra rb : Reply)
    (htb : s.files.documents.get? b = some tb)
    (hb : ∀ c ∈ csb, c.range.isSome)
    (h1 : s.handle env wa (.didChange a csa) = .ok (s1, oa, ra))
    (h2 : s1.handle env wb (.didChange b csb) = .ok (s2, ob, rb)) :
    ∀ t ∈ pending s2, t.uri ≠ a := by
  have hrun : CalmRun env Server.init (es ++ [.msg wa (.didChange a csa)]) s1 := by
    have : ∀ {s0 s : Server} {es : List Event}, CalmRun env s0 es s →
        s.handle env wa (.didChange a csa) = .ok (s1, oa, ra) →
        CalmRun env s0 (es ++ [.msg wa (.didChange a csa)]) s1 := by
      intro s0 s es h
      induction h with
      | nil => intro h1; exact .cons (.msg h1) (fun w e => by cases e) (.nil _)
      | cons h hc _ ih => intro h1; exact .cons h hc (ih h1)
    exact this h h1
  have hdoc : s1.files.documents.get? b = some tb := by
    rw [(C09_independent env wa s s1 _ oa ra a (Or.inr (Or.inl ⟨csa, rfl⟩)) h1 b (Ne.symm hab)).1]; exact htb
  obtain ⟨k, hk⟩ := C07_last_changed_partial env _ s1 s2 hrun b tb csb wb ob rb hdoc hb h2
  intro t ht
  rw [hk] at ht
  simp only [List.mem_singleton] at ht
  subst ht
  exact fun e => hab e.symm

/-- both documents of the fixture can be changed one after the other -/
example : ∃ s1 s2 : Server,
    Fix.server.handle Fix.env Fix.world (.didChange Fix.uriA [⟨some ⟨⟨0, 0⟩, ⟨0, 1⟩⟩, c!"x"⟩]) = .ok (s1, [], .none) ∧
    s1.handle Fix.env Fix.world (.didChange Fix.uriB [⟨some ⟨⟨0, 0⟩, ⟨0, 1⟩⟩, c!"x"⟩]) = .ok (s2, [], .none) ∧
    (pending s1).map Timer.uri = [Fix.uriA] ∧ (pending s2).map Timer.uri = [Fix.uriB] :=
  ⟨_, _, rfl, rfl, by decide, by decide⟩

/-- opening two documents and typing in the first is such a run; one re-analysis is pending, and it is that of the first -/
example : ∃ s, CalmRun Fix.env Server.init
      [.msg Fix.world (.didOpen Fix.uriA c!"aaa"), .msg Fix.world (.didOpen Fix.uriB c!"bbb"),
        .msg Fix.world (.didChange Fix.uriA [⟨some ⟨⟨0, 0⟩, ⟨0, 1⟩⟩, c!"x"⟩])] s ∧
    s.files.documents.get? Fix.uriB = some c!"bbb" ∧ (pending s).map Timer.uri = [Fix.uriA] :=
  ⟨_, .cons (.msg rfl) (fun _ e => nomatch e) (.cons (.msg rfl) (fun _ e => nomatch e) (.cons (.msg rfl) (fun _ e => nomatch e) (.nil _))),
    by decide, by decide⟩

/-- **C07** a re-initialisation drops the handle of the pending task, so afterwards two can be pending -/
theorem C07_two_pending : ∃ (env : Env) (ms : List (World × Msg)) (s : Server),
    Server.init.run env ms = .ok s ∧ (pending s).length = 2 :=
  ⟨Fix.env,
   [(Fix.diskWorld, .initialize none (some (some { JinjaConfig.default with lang := c!"rust", templates := c!"/t" }))),
    (Fix.diskWorld, .initialized),
    (Fix.diskWorld, .didChange c!"file:///t/a.html" [⟨some ⟨⟨0, 0⟩, ⟨0, 1⟩⟩, c!"x"⟩]),
    (Fix.diskWorld, .initialized),
    (Fix.diskWorld, .didChange c!"file:///t/a.html" [⟨some ⟨⟨0, 0⟩, ⟨0, 1⟩⟩, c!"x"⟩])],
   _, rfl, by decide⟩

/-- **C07** a pending re-analysis stays pending until it expires or another change is carried out -/
theorem C07_pending_stays (env : Env) (s s' : Server) (e : Event) (t : Timer) (ht : t ∈ s.timers)
    (h : EventStep env s e s') (h1 : e ≠ .expire t) (h2 : ∀ w u cs, e ≠ .msg w (.didChange u cs)) :
    t ∈ s'.timers := by
  cases h with
  | expire t' =>
    refine (List.mem_erase_of_ne ?_).mpr ht
    rintro rfl; exact h1 rfl
  | @msg _ w m out r h =>
    by_cases ha : ∃ u p, m = .codeAction u p
    · obtain ⟨u, p, rfl⟩ := ha
      simp only [Server.handle] at h
      split at h
      · cases h
      · rename_i s1 items h1
        cases h
        rcases (onCodeAction_frame h1).2.2 with ⟨t1, _⟩ | ⟨t1, _⟩
        · rw [t1]; exact ht
        · rw [t1]; simp [ht]
    · rw [(handle_timers h (fun u cs e => h2 w u cs (by rw [e])) (fun u p e => ha ⟨u, p, e⟩)).1]; exact ht

/-- **C07** expiry of a live task asks for the re-analysis (a save) of its document -/
theorem C07_expiry_saves (σ : Sys) (s : Server) (t : Timer) (hw : σ.worker = some s) (ht : t ∈ s.timers)
    (hl : t.live = true) (hc : σ.lspQ.length < lspCap) :
    ∃ τ, EnvStep σ τ ∧ τ.lspQ = σ.lspQ ++ [.didSave t.uri] := ⟨_, .timer hw ht hl hc, rfl⟩

example : let s : Server := { Fix.server with timers := [⟨0, Fix.uriA, true, true⟩] }
    ∃ τ, EnvStep { Sys.init with worker := some s } τ ∧ τ.lspQ = [.didSave Fix.uriA] :=
  C07_expiry_saves { Sys.init with worker := some { Fix.server with timers := [⟨0, Fix.uriA, true, true⟩] } } _
    ⟨0, Fix.uriA, true, true⟩ rfl (by simp) rfl (by decide)

end JinjaLsp
