import Verif.Props.Survival
import Verif.Model.Client
/-
  C80: what the server announces and what it does.
-/

namespace JinjaLsp
open Spec

namespace Spec

/-- The Language Server Protocol: what a client may call after it received these capabilities.  Life cycle messages and configuration
changes are not subject to capabilities. -/
def Allows (c : Capabilities) : ClientCall → Prop
  | .didOpen .. | .didClose _ => c.openClose = some true
  | .didChange .. => ∃ k, c.change = some k ∧ k ≠ .none
  | .didSave _ => c.save = some true
  | .willSave _ => c.willSave = some true
  | .completion .. => c.completion ≠ none
  | .hover .. => c.hover = some true
  | .goto .. => c.definition = some true
  | .codeAction .. => c.codeAction = some true
  | .documentSymbol _ => c.documentSymbol = some true
  | .executeCommand n => ∃ l, c.commands = some l ∧ n ∈ l
  | .initialize .. | .initialized | .didChangeConfiguration _ | .shutdown => True

/-- the answer belongs to the request -/
def Answers : ClientCall → Reply → Prop
  | .completion .., .completion _ | .hover .., .hover _ | .goto .., .goto _ | .codeAction .., .codeAction _
  | .documentSymbol _, .symbols _ => True
  | .initialize .., .initializeResult _ => True
  | .initialized, .none | .didOpen .., .none | .didClose _, .none | .didChange .., .none | .didSave _, .none | .willSave _, .none
  | .executeCommand _, .none | .didChangeConfiguration _, .none | .shutdown, .none => True
  | _, _ => False

/-- an answer that says nothing -/
def Empty : Reply → Prop
  | .none | .completion none | .hover none | .goto none | .codeAction none | .symbols none => True
  | _ => False

/-- no file of the disk has this URI -/
def NotOnDisk (w : World) (u : Str) : Prop := ∀ p n, w.canonicalize p = .ok n → c!"file://" ++ n ≠ u

/-- the document a call is about -/
def _root_.JinjaLsp.ClientCall.About (u : Str) : ClientCall → Prop
  | .didOpen v _ | .didClose v | .didChange v _ | .didSave v | .willSave v | .completion v _ _ | .hover v _ | .goto v _ | .codeAction v _
  | .documentSymbol v => v = u
  | _ => False

/-- nothing is stored for a document -/
structure Unheard (f : LspFiles) (u : Str) : Prop where
  doc : f.documents.get? u = none
  tree : ∀ l, (f.trees l).get? u = none
  vars : f.variables.get? u = none

end Spec

/-- **C80** (part: announcements) What the answer to `initialize` allows and what reaches the worker are the same calls, apart from opening,
closing and `willSave`; changes are asked for as edits (changes without a range have no effect, C02), and no method without a handler and
no other encoding of positions is promised.  Missing: those (`C80_never_opened_refuted`, `C80_will_save_refuted`), and that commands do something
(`C80_warn_refuted`). -/
theorem C80_announced_partial (env : Env) (w : World) (s : Server) (cl : Option Str) (op : Option (Option JinjaConfig)) :
    ∃ s' c, s.handle env w (.initialize cl op) = .ok (s', [], .initializeResult c) ∧
      c.change = some .incremental ∧ c.references ≠ some true ∧ c.willSaveWaitUntil ≠ some true ∧ c.positionEncoding = none ∧
      (∀ n, Allows c (.executeCommand n) → n = c!"reset_variables" ∨ n = c!"warn") ∧
      ∀ call : ClientCall, (∀ u t, call ≠ .didOpen u t) → (∀ u, call ≠ .didClose u) → (∀ u, call ≠ .willSave u) →
        call ≠ .shutdown → (∀ n, call = .executeCommand n → n = c!"reset_variables" ∨ n = c!"warn") →
        (Allows c call ∧ call.msg ≠ none) := by
  refine ⟨_, _, rfl, rfl, by decide, by decide, rfl, ?_, ?_⟩
  · rintro n ⟨l, hl, hn⟩
    cases hl
    simpa using hn
  intro call h1 h2 h3 h4 h5
  cases call with
  | didOpen u t => exact absurd rfl (h1 u t)
  | didClose u => exact absurd rfl (h2 u)
  | willSave u => exact absurd rfl (h3 u)
  | shutdown => exact absurd rfl h4
  | executeCommand n =>
    refine ⟨⟨_, rfl, ?_⟩, by simp [ClientCall.msg]⟩
    rcases h5 n rfl with rfl | rfl <;> decide
  | didChange u cs => exact ⟨⟨_, rfl, by decide⟩, by simp [ClientCall.msg]⟩
  | completion u p t => exact ⟨by simp [Allows, announced], by simp [ClientCall.msg]⟩
  | _ => exact ⟨by simp [Allows, announced], by simp [ClientCall.msg]⟩

/-- **C80** (part: answers) Every call that reaches a worker with a sound parser is answered, with an answer of its kind, unless it is a
change that does not fit the text. -/
theorem C80_served_partial (env : Env) (he : Sound env) (w : World) (s : Server) (hs : Healthy s) (call : ClientCall) (m : Msg)
    (hm : call.msg = some m) (hp : Proper env m) (hc : ∀ u cs, m = .didChange u cs → ¬ OutOfBounds env s u cs) :
    ∃ s' o r, s.handle env w m = .ok (s', o, r) ∧ Answers call r := by
  obtain ⟨s', o, r, h⟩ := hs.handle_ok he w m hp hc
  refine ⟨s', o, r, h, ?_⟩
  cases call <;> (cases hm; try (simp only [Server.handle] at h)) <;> (try (split at h)) <;> (try (cases h; trivial)) <;> (cases h)

example : Healthy Server.init ∧ (∀ p t, ∃ s' o r, Server.init.handle Fix.env Fix.world (.completion Fix.uriA p t) = .ok (s', o, .completion r)) :=
  ⟨healthy_init, fun p t => by
    refine ⟨Server.init, [], none, ?_⟩
    cases t <;> rfl⟩

/-! ### A client that relies on the announcement -/

theorem Spec.Unheard.frame {u v : Str} {f g : LspFiles} (h : Unheard f u) (fr : Frame v f g) (hv : u ≠ v) : Unheard g u :=
  ⟨(fr.same u hv).doc.trans h.doc, fun l => ((fr.same u hv).tree l).trans (h.tree l), (fr.same u hv).vars.trans h.vars⟩

theorem unheard_walkdir {env : Env} {w : World} {u : Str} (hw : NotOnDisk w u) {c : JinjaConfig} {d : HMap Str Diags} {g : LspFiles}
    (h : walkdir env w c = .ok (some (d, g))) : Unheard g u := by
  refine walkdir_induct (Unheard · u) ?_ ?_ h
  · unfold walkStart
    dsimp only
    split <;> exact ⟨rfl, fun _ => rfl, rfl⟩
  · intro f path l g hf hl hg
    cases hc : w.canonicalize path with
    | error e => simp only [LspFiles.readFile, hc] at hg; cases hg; exact hf
    | ok name => exact hf.frame (Frame.readFile hg hc) (fun e => hw path name hc e.symm)

theorem readTreesLoop_without {env : Env} {w : World} {f : LspFiles} {u : Str} : ∀ (ns : List Str) (m d : HMap Str Diags), u ∉ ns →
    m.get? u = none → f.readTreesLoop env w ns m = .ok d → d.get? u = none
  | [], m, d, _, hm, h => by
    simp only [LspFiles.readTreesLoop] at h
    cases h
    exact hm
  | n :: ns, m, d, hn, hm, h => by
    simp only [List.mem_cons, not_or] at hn
    simp only [LspFiles.readTreesLoop] at h
    split at h
    · cases h
    · exact readTreesLoop_without ns m d hn.2 hm h
    · refine readTreesLoop_without ns _ d hn.2 ?_ h
      rw [HMap.get?_insert, if_neg hn.1]
      exact hm

theorem walkdir_without {env : Env} {w : World} {u : Str} (hw : NotOnDisk w u) {c : JinjaConfig} {d : HMap Str Diags} {g : LspFiles}
    (h : walkdir env w c = .ok (some (d, g))) : d.get? u = none := by
  have hg := unheard_walkdir hw h
  unfold walkdir at h
  split at h
  · cases h
  · cases h
  · split at h
    · cases h
    · rename_i hd
      cases h
      refine readTreesLoop_without _ _ _ ?_ rfl hd
      intro hn
      obtain ⟨e, he, rfl⟩ := List.mem_map.mp hn
      have := (HMap.get?_eq_some_iff _ e.1 e.2).mpr ((HMap.mem_shuffle ..).mp he)
      rw [hg.tree .template] at this
      cases this

/-- one message that does not open the document -/
theorem Spec.Unheard.handle {env : Env} {w : World} {s s' : Server} {m : Msg} {o : List Send} {r : Reply} {u : Str} (hs : Unheard s.files u)
    (hw : NotOnDisk w u) (hm : ∀ v t, m ≠ .didOpen v t) (h : s.handle env w m = .ok (s', o, r)) :
    Unheard s'.files u ∧ ∀ d, .diag d ∈ o → d.get? u = none := by
  have hf := handle_files h
  constructor
  · clear h
    cases hf with
    | query _ h => rw [h]; exact hs
    | command c h => rw [h]; exact hs
    | config c h => rw [h]; exact hs
    | «initialize» c o h => rcases h with h | h <;> rw [h] <;> exact ⟨hs.doc, hs.tree, hs.vars⟩
    | codeActions m h =>
      obtain ⟨h1, h2, h3, _⟩ := addCodeActions_frame w.order s.files m
      rw [h]
      exact ⟨by rw [h1]; exact hs.doc, by rw [h2]; exact hs.tree, by rw [h3]; exact hs.vars⟩
    | didOpen v t m h => exact absurd rfl (hm v t)
    | didSave v m h =>
      by_cases e : u = v
      · subst e
        have : s'.files = s.files := by
          simp only [LspFiles.didSave, hs.doc] at h
          split at h <;> (injection h with h; injection h with h _; exact h.symm)
        rw [this]; exact hs
      · exact hs.frame (Frame.didSave h) e
    | didChange v cs b h =>
      by_cases e : u = v
      · subst e
        rw [didChange_none hs.doc] at h
        injection h with h
        injection h with h _
        rw [← h]; exact hs
      · exact hs.frame (Frame.didChange h) e
    | notInitialized h => rw [h]; exact hs
    | initialized f d h hf =>
      rw [hf]
      have := unheard_walkdir hw h
      exact ⟨this.doc, this.tree, this.vars⟩
  · intro d hd
    cases m with
    | initialized =>
      simp only [Server.handle, Server.onInitialized] at h
      split at h
      · cases h
      · rename_i heq
        cases h
        split at heq
        · split at heq
          · cases heq
          · cases heq; cases hd
          · rename_i hwd
            cases heq
            cases List.mem_singleton.mp hd
            exact walkdir_without hw hwd
        · cases heq; cases hd
    | didOpen v t => exact absurd rfl (hm v t)
    | didSave v =>
      simp only [Server.handle] at h
      split at h
      · cases h
      · rename_i f x hx
        cases h
        cases x with
        | none => cases hd
        | some y =>
          simp only [Server.sends, List.mem_singleton, Send.diag.injEq] at hd
          subst hd
          by_cases e : u = v
          · subst e
            simp only [LspFiles.didSave, hs.doc] at hx
            split at hx <;> cases hx
          · simp only [LspFiles.didSave] at hx
            split at hx
            · cases hx
            · split at hx
              · cases hx
              · split at hx
                · cases hx
                · split at hx
                  · cases hx
                  · cases hx; simp [HMap.get?_insert, e]
                  · cases hx; simp [HMap.get?_insert, e]
    | «initialize» | completion | hover | goto | codeAction | executeCommand | documentSymbol | didChangeConfiguration | codeActions | didChange =>
      simp only [Server.handle] at h
      first
        | (cases h; cases hd; done)
        | (split at h
           · cases h
           · cases h; cases hd)
        | (cases h; split at hd <;> simp at hd)

/-- a document nothing is stored for: every request about it is answered with nothing -/
theorem Spec.Unheard.reply {env : Env} {w : World} {s s' : Server} {c : ClientCall} {m : Msg} {o : List Send} {r : Reply} {u : Str}
    (hs : Unheard s.files u) (ha : c.About u) (hm : c.msg = some m) (h : s.handle env w m = .ok (s', o, r)) : Empty r := by
  cases c with
  | didOpen | didChange | didSave =>
    cases hm
    simp only [Server.handle] at h
    split at h
    · cases h
    · cases h; trivial
  | didClose | willSave => cases hm
  | completion v p t =>
    cases hm
    cases ha
    simp only [Server.handle, Server.onCompletion, LspFiles.completion, hs.tree] at h
    by_cases ht : (!(decide (t = .triggerCharacter) || decide (t = .invoked))) = true
    · simp only [ht, if_true] at h; cases h; trivial
    · simp only [ht] at h
      cases hx : fileExt u with
      | none => simp only [hx] at h; cases h; trivial
      | some l => simp only [hx] at h; cases h; trivial
  | hover v p =>
    cases hm
    cases ha
    simp only [Server.handle, Server.onHover, LspFiles.hover, hs.tree] at h
    split at h
    · cases h
    · rename_i heq
      cases h
      split at heq
      · cases heq
      · cases heq; trivial
      · rename_i heq2
        split at heq2 <;> cases heq2
  | goto v p =>
    cases hm
    cases ha
    simp only [Server.handle, LspFiles.gotoDefinition, hs.tree] at h
    cases hx : fileExt u with
    | none => simp only [hx] at h; cases h; trivial
    | some l => cases l <;> (simp only [hx] at h; cases h; trivial)
  | codeAction v p =>
    cases hm
    cases ha
    simp only [Server.handle, Server.onCodeAction, LspFiles.codeAction, hs.tree] at h
    cases hx : fileExt u with
    | none => simp only [hx] at h; cases h; trivial
    | some l => simp only [hx] at h; cases h; trivial
  | documentSymbol v =>
    cases hm
    cases ha
    simp only [Server.handle, LspFiles.documentSymbols, hs.vars] at h
    cases h
    trivial
  | _ => cases ha

/-- **C80 is false: opening documents is not announced.**  For a client that keeps to what the server announced — it never sends `didOpen` —
a document that is not on disk is never known: whatever it sends, in whatever order, including changes and saves of that document, nothing is
published for the document and every request about it is answered with nothing. -/
theorem C80_never_opened_refuted (env : Env) (u : Str) (w₀ : World) (s₀ : Server) (cl : Option Str) (op : Option (Option JinjaConfig)) :
    ∃ s₁ c, s₀.handle env w₀ (.initialize cl op) = .ok (s₁, [], .initializeResult c) ∧
      ∀ (calls : List (World × ClientCall)) (ms : List (World × Msg)) (s : Server), Unheard s₁.files u →
        (∀ x ∈ calls, Allows c x.2 ∧ NotOnDisk x.1 u) →
        (∀ x ∈ ms, NotOnDisk x.1 u ∧ ((∃ y ∈ calls, y.2.msg = some x.2) ∨ internal x.2)) →
        s₁.run env ms = .ok s →
        ∀ (w : World) (call : ClientCall) (m : Msg) (s' : Server) (o : List Send) (r : Reply), Allows c call → NotOnDisk w u →
          call.msg = some m → s.handle env w m = .ok (s', o, r) →
          (∀ d, .diag d ∈ o → d.get? u = none) ∧ (call.About u → Empty r) := by
  refine ⟨_, _, rfl, ?_⟩
  have noOpen : ∀ (call : ClientCall) (m : Msg), Allows announced call → call.msg = some m → ∀ v t, m ≠ .didOpen v t := by
    intro call m ha hm v t e
    subst e
    cases call <;> first | cases hm; done | skip
    cases hm
    exact absurd ha (by simp [Allows, announced])
  intro calls ms s hu hcalls hms hrun w call m s' o r ha hw hm h
  have key : ∀ (ms : List (World × Msg)) (s₁ s : Server), Unheard s₁.files u →
      (∀ x ∈ ms, NotOnDisk x.1 u ∧ ((∃ y ∈ calls, y.2.msg = some x.2) ∨ internal x.2)) → s₁.run env ms = .ok s → Unheard s.files u := by
    intro ms
    induction ms with
    | nil => intro s₁ s hu _ hr; cases hr; exact hu
    | cons x ms ih =>
      intro s₁ s hu hms hr
      simp only [Server.run] at hr
      split at hr
      · cases hr
      · rename_i s2 o2 r2 h2
        obtain ⟨hd, hx⟩ := hms x (by simp)
        refine ih s2 s (hu.handle hd ?_ h2).1 (fun y hy => hms y (by simp [hy])) hr
        rcases hx with ⟨y, hy, hym⟩ | hx
        · exact noOpen y.2 x.2 (hcalls y hy).1 hym
        · intro v t e
          rw [e] at hx
          rcases hx with hx | ⟨_, hx⟩ | ⟨_, hx⟩ <;> cases hx
  have hs := key ms _ s hu hms hrun
  exact ⟨(hs.handle hw (noOpen call m ha hm) h).2, fun hab => hs.reply hab hm h⟩

/-- a fresh server knows nothing, and a disk without files has no file with this name -/
example : Unheard Server.init.files Fix.uriA ∧ NotOnDisk { Fix.world with canonicalize := fun _ => .error .notFound } Fix.uriA ∧
    ClientCall.About Fix.uriA (.hover Fix.uriA ⟨0, 0⟩) ∧ ¬ Empty (.hover (some [])) :=
  ⟨⟨rfl, fun _ => rfl, rfl⟩, fun p n h => (by cases h), rfl, id⟩

/-- the document would have been known had it been opened -/
example : ∃ s o r, Server.init.handle Fix.env Fix.world (.didOpen Fix.uriA c!"aaa") = .ok (s, o, r) ∧ ¬ Unheard s.files Fix.uriA ∧ o ≠ [] :=
  ⟨_, _, _, rfl, fun h => absurd h.doc (by decide), List.cons_ne_nil _ _⟩

/-- **C80 is false: a command without effect.**  Of the commands announced only `reset_variables` does anything: the worker ignores `warn` in
every state. -/
theorem C80_warn_refuted (env : Env) (w w' : World) (s s' : Server) (cl : Option Str) (op : Option (Option JinjaConfig)) :
    ∃ s₁ c l, s.handle env w (.initialize cl op) = .ok (s₁, [], .initializeResult c) ∧ c.commands = some l ∧ c!"warn" ∈ l ∧
      s'.handle env w' (.executeCommand c!"warn") = .ok (s', [], .none) ∧
      ∀ n ∈ l, n ≠ c!"warn" → s'.handle env w' (.executeCommand n) = .ok (s', [.initialized], .none) := by
  refine ⟨_, _, _, rfl, rfl, by decide, rfl, ?_⟩
  intro n hn hne
  simp only [List.mem_cons, List.not_mem_nil, or_false] at hn
  rcases hn with rfl | rfl
  · rfl
  · exact absurd rfl hne

/-- **C80 is false: `willSave`** is announced, but no message reaches the worker. -/
theorem C80_will_save_refuted (env : Env) (w : World) (s : Server) (cl : Option Str) (op : Option (Option JinjaConfig)) (u : Str) :
    ∃ s₁ c, s.handle env w (.initialize cl op) = .ok (s₁, [], .initializeResult c) ∧ Allows c (.willSave u) ∧
      ∀ (cs : List (World × ClientCall)) (w' : World), clientRun env (some s) ((w', .willSave u) :: cs) =
        ((clientRun env (some s) cs).1, .none :: (clientRun env (some s) cs).2) :=
  ⟨_, _, rfl, rfl, fun _ _ => rfl⟩

/-- **C80 is false: completion without context.**  Completion is announced, and the context of a completion request is optional; a client
that does not send it, or asks again for an incomplete list, is never offered anything. -/
theorem C80_context_refuted (env : Env) (w w' : World) (s s' : Server) (cl : Option Str) (op : Option (Option JinjaConfig)) (u : Str) (p : Position)
    (t : TriggerKind) (ht : t = .none ∨ t = .incomplete) :
    ∃ s₁ c, s.handle env w (.initialize cl op) = .ok (s₁, [], .initializeResult c) ∧ Allows c (.completion u p t) ∧
      s'.handle env w' (.completion u p t) = .ok (s', [], .completion none) := by
  refine ⟨_, _, rfl, by simp [Allows, announced], ?_⟩
  rcases ht with rfl | rfl <;> rfl

end JinjaLsp
