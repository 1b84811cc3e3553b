import Verif.Model.Handlers
import Verif.Props.Stale
/-
  C106: the handlers of the client's calls, which run concurrently, answer as a sequential server would.
-/

namespace JinjaLsp
open Spec

namespace Spec

/-- the requests that are answered by the worker -/
def ToWorker : ClientCall → Prop
  | .initialize _ _ | .completion _ _ _ | .hover _ _ | .goto _ _ | .codeAction _ _ | .documentSymbol _ => True
  | _ => False

/-- the notifications of the protocol -/
def Notification : ClientCall → Prop
  | .initialized | .didOpen _ _ | .didClose _ | .didChange _ _ | .didSave _ | .willSave _ | .didChangeConfiguration _ => True
  | _ => False

/-- what the worker processed -/
def processedOf : List FrontEvent → List (Option Nat × World × Msg)
  | [] => []
  | .processed t w m :: es => (t, w, m) :: processedOf es
  | _ :: es => processedOf es

/-- what the client was answered, `none` for a cancelled request -/
def answersOf : List FrontEvent → List (Nat × Option Reply)
  | [] => []
  | .answered n r :: es => (n, r) :: answersOf es
  | _ :: es => answersOf es

/-- those that come from the client -/
def byClient (l : List (Option Nat × Msg)) : List (Nat × Msg) := l.filterMap fun x => x.1.map fun n => (n, x.2)

/-- the messages without their origin -/
def plain (l : List (Option Nat × World × Msg)) : List (World × Msg) := l.map Prod.snd

/-- the messages with their origin -/
def tagged (l : List (Option Nat × World × Msg)) : List (Option Nat × Msg) := l.map fun x => (x.1, x.2.2)

/-- The call number `n` of the client was processed after the messages `pre` of exactly the earlier calls that were not cancelled, and a sequential
server answers it with `r` after these. -/
structure AnsweredAs (env : Env) (calls : List ClientCall) (es : List FrontEvent) (n : Nat) (c : ClientCall) (r : Reply)
    (pre post : List (Option Nat × World × Msg)) (w : World) (m : Msg) : Prop where
  place : processedOf es = pre ++ (some n, w, m) :: post
  msg : c.msg = some m
  reply : ∃ s s' o, Server.init.run env (plain pre) = .ok s ∧ s.handle env w m = .ok (s', o, r)
  all : ∀ k, k < n → ∀ c' m', calls[k]? = some c' → c'.msg = some m' → (k, m') ∈ byClient (tagged pre) ∨ (k, none) ∈ answersOf es

/-- why a handler returns `r` -/
def Justified (env : Env) (calls : List ClientCall) (es : List FrontEvent) (dead : Prop) (n : Nat) (c : ClientCall) (r : Reply) : Prop :=
  (c.awaits = false ∧ r = .none) ∨ (dead ∧ r = .none) ∨ (c.awaits = true ∧ ∃ pre post w m, AnsweredAs env calls es n c r pre post w m)

end Spec

theorem toWorker_iff {c : ClientCall} : c.awaits = true ↔ ToWorker c := by
  cases c <;> simp [ClientCall.awaits, ToWorker]

theorem request_iff {c : ClientCall} : c.request = true ↔ ¬ Notification c := by
  cases c <;> simp [ClientCall.request, ClientCall.awaits, Notification]

theorem processedOf_append : ∀ a b : List FrontEvent, processedOf (a ++ b) = processedOf a ++ processedOf b
  | [], _ => rfl
  | .processed .. :: a, b => by simp only [List.cons_append, processedOf, processedOf_append a b]
  | .silent :: a, b => by simp only [List.cons_append, processedOf, processedOf_append a b]
  | .answered .. :: a, b => by simp only [List.cons_append, processedOf, processedOf_append a b]

theorem answersOf_append : ∀ a b : List FrontEvent, answersOf (a ++ b) = answersOf a ++ answersOf b
  | [], _ => rfl
  | .answered .. :: a, b => by simp only [List.cons_append, answersOf, answersOf_append a b]
  | .silent :: a, b => by simp only [List.cons_append, answersOf, answersOf_append a b]
  | .processed .. :: a, b => by simp only [List.cons_append, answersOf, answersOf_append a b]

theorem byClient_append (a b : List (Option Nat × Msg)) : byClient (a ++ b) = byClient a ++ byClient b := List.filterMap_append ..

theorem tagged_append (a b : List (Option Nat × World × Msg)) : tagged (a ++ b) = tagged a ++ tagged b := List.map_append ..

theorem Spec.AnsweredAs.later {env : Env} {calls : List ClientCall} {es : List FrontEvent} {n : Nat} {c : ClientCall} {r : Reply}
    {pre post : List (Option Nat × World × Msg)} {w : World} {m : Msg} (h : AnsweredAs env calls es n c r pre post w m) (e : List FrontEvent) :
    AnsweredAs env calls (es ++ e) n c r pre (post ++ processedOf e) w m :=
  ⟨by rw [processedOf_append, h.place, List.append_assoc, List.cons_append], h.msg, h.reply, fun k hk c' m' h1 h2 => by
    rw [answersOf_append]
    exact (h.all k hk c' m' h1 h2).imp id (fun h => List.mem_append_left _ h)⟩

theorem Spec.Justified.later {env : Env} {calls : List ClientCall} {es : List FrontEvent} {dead dead' : Prop} {n : Nat} {c : ClientCall} {r : Reply}
    (h : Justified env calls es dead n c r) (e : List FrontEvent) (hd : dead → dead') : Justified env calls (es ++ e) dead' n c r := by
  rcases h with h | h | ⟨ha, pre, post, w, m, h⟩
  · exact Or.inl h
  · exact Or.inr (Or.inl ⟨hd h.1, h.2⟩)
  · exact Or.inr (Or.inr ⟨ha, _, _, _, _, h.later e⟩)

/-- what holds at every moment, `P` being the messages put into the queue by handlers, with the numbers of their calls -/
structure FrontInv (W : World → Prop) (env : Env) (calls : List ClientCall) (es : List FrontEvent) (φ : Front) (P : List (Nat × Msg)) : Prop where
  exec : ∃ as, Execution W env (P.map Prod.snd) as φ.sys
  asked : ∀ p ∈ P, ∃ c, calls[p.1]? = some c ∧ c.msg = some p.2
  inc : P.Pairwise fun a b => a.1 < b.1
  below : ∀ p ∈ P, p.1 < φ.started
  len : φ.tags.length = φ.sys.lspQ.length
  dead : φ.sys.worker = none → φ.tags = []
  split : ∃ Q, byClient (tagged (processedOf es)) ++ Q = P ∧ (φ.sys.worker ≠ none → Q = byClient (φ.tags.zip φ.sys.lspQ))
  own : ∀ x ∈ tagged (processedOf es) ++ φ.tags.zip φ.sys.lspQ, x.1 = none → internal x.2
  state : ∃ s₀, Server.init.run env (plain (processedOf es)) = .ok s₀ ∧ ∀ s, φ.sys.worker = some s → SameUpToExpiry s s₀
  worlds : ∀ x ∈ processedOf es, W x.2.1
  known : ∀ h ∈ φ.running, calls[h.id]? = some h.call ∧ h.id < φ.started
  order : φ.running.Pairwise fun a b => a.id < b.id
  sending : ∀ h ∈ φ.running, ∀ m, h.phase = .sending m → h.call.msg = some m ∧ ∀ p ∈ P, p.1 < h.id
  awaiting : ∀ h ∈ φ.running, h.phase = .awaiting → h.call.awaits = true ∧ some h.id ∈ φ.tags
  finished : ∀ h ∈ φ.running, ∀ r, h.phase = .finished r → Justified env calls es (φ.sys.worker = none) h.id h.call r
  answers : ∀ n r, (n, some r) ∈ answersOf es → ∃ c, calls[n]? = some c ∧ Justified env calls es (φ.sys.worker = none) n c r
  cancelled : ∀ n, (n, none) ∈ answersOf es → ∃ c, calls[n]? = some c ∧ c.request = true
  once : ((answersOf es).map Prod.fst).Nodup
  gone : ∀ a ∈ answersOf es, a.1 < φ.started ∧ ∀ h ∈ φ.running, h.id ≠ a.1
  every : ∀ k < φ.started, (∃ r, (k, r) ∈ answersOf es) ∨ ∃ h ∈ φ.running, h.id = k
  given : φ.sys.worker ≠ none → ∀ k < φ.started, ∀ c m, calls[k]? = some c → c.msg = some m →
    (k, m) ∈ P ∨ (∃ h ∈ φ.running, h.id = k ∧ h.phase = .sending m) ∨ (k, none) ∈ answersOf es

namespace FrontInv
variable {W : World → Prop} {env : Env} {lim : Nat} {calls : List ClientCall} {es : List FrontEvent} {φ : Front} {P : List (Nat × Msg)}

theorem init : FrontInv W env calls [] Front.init [] where
  exec := ⟨[], .start⟩
  asked := by simp
  inc := .nil
  below := by simp
  len := rfl
  dead := by simp [Front.init]
  split := ⟨[], rfl, fun _ => rfl⟩
  own := by simp [processedOf, tagged, Front.init]
  state := ⟨_, rfl, fun s hs => by cases hs; exact ⟨rfl, rfl, rfl, List.Sublist.refl _⟩⟩
  worlds := by simp [processedOf]
  known := by simp [Front.init]
  order := .nil
  sending := by simp [Front.init]
  awaiting := by simp [Front.init]
  finished := by simp [Front.init]
  answers := by simp [answersOf]
  cancelled := by simp [answersOf]
  once := .nil
  gone := by simp [answersOf]
  every := by simp [Front.init]
  given := by simp [Front.init]

theorem silent (h : FrontInv W env calls es φ P) : FrontInv W env calls (es ++ [.silent]) φ P := by
  have h1 : processedOf (es ++ [.silent]) = processedOf es := by rw [processedOf_append]; exact List.append_nil _
  have h2 : answersOf (es ++ [.silent]) = answersOf es := by rw [answersOf_append]; exact List.append_nil _
  refine ⟨h.exec, h.asked, h.inc, h.below, h.len, h.dead, ?_, ?_, ?_, ?_, h.known, h.order, h.sending, h.awaiting, ?_, ?_, ?_, ?_, ?_, ?_, ?_⟩
  · rw [h1]; exact h.split
  · rw [h1]; exact h.own
  · rw [h1]; exact h.state
  · rw [h1]; exact h.worlds
  · exact fun x hx r hr => (h.finished x hx r hr).later _ id
  · intro n r hr
    rw [h2] at hr
    obtain ⟨c, h3, h4⟩ := h.answers n r hr
    exact ⟨c, h3, h4.later _ id⟩
  · rw [h2]; exact h.cancelled
  · rw [h2]; exact h.once
  · rw [h2]; exact h.gone
  · rw [h2]; exact h.every
  · rw [h2]; exact h.given

theorem start {c : ClientCall} (h : FrontInv W env calls es φ P) (hc : calls[φ.started]? = some c) :
    FrontInv W env calls es { φ with running := φ.running ++ [Handler.start φ.started c], started := φ.started + 1 } P where
  exec := h.exec
  asked := h.asked
  inc := h.inc
  below := fun p hp => Nat.lt_succ_of_lt (h.below p hp)
  len := h.len
  dead := h.dead
  split := h.split
  own := h.own
  state := h.state
  worlds := h.worlds
  known := by
    intro x hx
    rcases List.mem_append.mp hx with hx | hx
    · exact ⟨(h.known x hx).1, Nat.lt_succ_of_lt (h.known x hx).2⟩
    · rw [List.mem_singleton.mp hx]
      exact ⟨hc, Nat.lt_succ_self _⟩
  order := by
    refine List.pairwise_append.mpr ⟨h.order, List.pairwise_singleton .., fun a ha b hb => ?_⟩
    rw [List.mem_singleton.mp hb]
    exact (h.known a ha).2
  sending := by
    intro x hx m hm
    rcases List.mem_append.mp hx with hx | hx
    · exact h.sending x hx m hm
    · rw [List.mem_singleton.mp hx] at hm ⊢
      refine ⟨?_, h.below⟩
      simp only [Handler.start] at hm ⊢
      split at hm
      · cases hm; assumption
      · cases hm
  awaiting := by
    intro x hx hm
    rcases List.mem_append.mp hx with hx | hx
    · exact h.awaiting x hx hm
    · rw [List.mem_singleton.mp hx] at hm
      simp only [Handler.start] at hm
      split at hm <;> cases hm
  finished := by
    intro x hx r hr
    rcases List.mem_append.mp hx with hx | hx
    · exact h.finished x hx r hr
    · rw [List.mem_singleton.mp hx] at hr ⊢
      simp only [Handler.start] at hr ⊢
      split at hr
      · cases hr
      · rename_i hn
        cases hr
        refine Or.inl ⟨?_, rfl⟩
        cases c <;> first | rfl | cases hn
  answers := h.answers
  cancelled := h.cancelled
  once := h.once
  gone := by
    intro a ha
    obtain ⟨h1, h2⟩ := h.gone a ha
    refine ⟨Nat.lt_succ_of_lt h1, fun x hx => ?_⟩
    rcases List.mem_append.mp hx with hx | hx
    · exact h2 x hx
    · rw [List.mem_singleton.mp hx]
      exact Nat.ne_of_gt h1
  every := by
    intro k hk
    rcases Nat.lt_succ_iff_lt_or_eq.mp hk with hk | rfl
    · rcases h.every k hk with h1 | ⟨x, h1, h2⟩
      · exact Or.inl h1
      · exact Or.inr ⟨x, List.mem_append_left _ h1, h2⟩
    · exact Or.inr ⟨_, List.mem_append_right _ List.mem_cons_self, rfl⟩
  given := by
    intro hw k hk c' m hc' hm
    rcases Nat.lt_succ_iff_lt_or_eq.mp hk with hk | rfl
    · rcases h.given hw k hk c' m hc' hm with h1 | ⟨x, h1, h2⟩ | h1
      · exact Or.inl h1
      · exact Or.inr (Or.inl ⟨x, List.mem_append_left _ h1, h2⟩)
      · exact Or.inr (Or.inr h1)
    · rw [hc] at hc'
      cases hc'
      refine Or.inr (Or.inl ⟨_, List.mem_append_right _ List.mem_cons_self, rfl, ?_⟩)
      simp only [Handler.start, hm]

theorem order_of {R R' : List Handler} (h : R.Pairwise fun a b => a.id < b.id) (he : R'.map Handler.id = R.map Handler.id) :
    R'.Pairwise fun a b => a.id < b.id := by
  have h1 : (R.map Handler.id).Pairwise (· < ·) := List.pairwise_map.mpr h
  rw [← he] at h1
  exact List.pairwise_map.mp h1

theorem mem_mid {R pre post : List Handler} {h x : Handler} (hr : R = pre ++ h :: post) : x ∈ R ↔ x ∈ pre ∨ x = h ∨ x ∈ post := by
  rw [hr, List.mem_append, List.mem_cons]

theorem msg_fromClient {c : ClientCall} {m : Msg} (h : c.msg = some m) : m.fromClient := by
  cases c <;> cases h <;> trivial

theorem byClient_own : ∀ extra : List Msg, byClient ((extra.map fun _ => (none : Option Nat)).zip extra) = []
  | [] => rfl
  | _ :: r => by
    have := byClient_own r
    simp only [byClient] at this ⊢
    simp only [List.map_cons, List.zip_cons_cons, List.filterMap_cons, Option.map_none, this]

theorem send {pre post : List Handler} {x : Handler} {m : Msg} {s : Server} (h : FrontInv W env calls es φ P) (hr : φ.running = pre ++ x :: post)
    (hp : x.phase = .sending m) (hf : ∀ y ∈ pre, ∀ m', y.phase ≠ .sending m') (hw : φ.sys.worker = some s) (hq : φ.sys.lspQ.length < lspCap) :
    FrontInv W env calls es
      { φ with sys := { φ.sys with lspQ := φ.sys.lspQ ++ [m] }, tags := φ.tags ++ [some x.id], running := pre ++ x.sent :: post }
      (P ++ [(x.id, m)]) := by
  have hx : x ∈ φ.running := (mem_mid hr).mpr (Or.inr (Or.inl rfl))
  obtain ⟨hm, hlt⟩ := h.sending x hx m hp
  have hzip : (φ.tags ++ [some x.id]).zip (φ.sys.lspQ ++ [m]) = φ.tags.zip φ.sys.lspQ ++ [(some x.id, m)] := List.zip_append h.len
  have hmem : ∀ y, y ∈ pre ++ x.sent :: post → y = x.sent ∨ (y ∈ φ.running ∧ (y ∈ pre ∨ y ∈ post)) := by
    intro y hy
    rcases (mem_mid rfl).mp hy with h1 | h1 | h1
    · exact Or.inr ⟨(mem_mid hr).mpr (Or.inl h1), Or.inl h1⟩
    · exact Or.inl h1
    · exact Or.inr ⟨(mem_mid hr).mpr (Or.inr (Or.inr h1)), Or.inr h1⟩
  have hback : ∀ y ∈ φ.running, y = x ∨ y ∈ pre ++ x.sent :: post := by
    intro y hy
    rcases (mem_mid hr).mp hy with h1 | h1 | h1
    · exact Or.inr (List.mem_append_left _ h1)
    · exact Or.inl h1
    · exact Or.inr (List.mem_append_right _ (List.mem_cons_of_mem _ h1))
  have hnew : x.sent ∈ pre ++ x.sent :: post := List.mem_append_right _ List.mem_cons_self
  refine ⟨?_, ?_, ?_, ?_, ?_, ?_, ?_, ?_, ?_, h.worlds, ?_, ?_, ?_, ?_, ?_, h.answers, h.cancelled, h.once, ?_, ?_, ?_⟩
  · obtain ⟨as, he⟩ := h.exec
    refine ⟨as, ?_⟩
    rw [List.map_append]
    exact he.client m (msg_fromClient hm) hw hq
  · intro p hp'
    rcases List.mem_append.mp hp' with hp' | hp'
    · exact h.asked p hp'
    · rw [List.mem_singleton.mp hp']
      exact ⟨_, (h.known x hx).1, hm⟩
  · refine List.pairwise_append.mpr ⟨h.inc, List.pairwise_singleton .., fun a ha b hb => ?_⟩
    rw [List.mem_singleton.mp hb]
    exact hlt a ha
  · intro p hp'
    rcases List.mem_append.mp hp' with hp' | hp'
    · exact h.below p hp'
    · rw [List.mem_singleton.mp hp']
      exact (h.known x hx).2
  · simp only [List.length_append, h.len, List.length_singleton]
  · intro hn
    rw [hw] at hn
    cases hn
  · obtain ⟨Q, h1, h2⟩ := h.split
    refine ⟨Q ++ [(x.id, m)], by rw [← h1, List.append_assoc], fun _ => ?_⟩
    rw [hzip, byClient_append, ← h2 (by rw [hw]; simp)]
    rfl
  · simp only [hzip]
    intro y hy hn
    rw [← List.append_assoc] at hy
    rcases List.mem_append.mp hy with hy | hy
    · exact h.own y hy hn
    · rw [List.mem_singleton.mp hy] at hn
      cases hn
  · exact h.state
  · intro y hy
    rcases hmem y hy with rfl | ⟨hy, _⟩
    · exact h.known x hx
    · exact h.known y hy
  · refine order_of h.order ?_
    rw [hr]
    simp only [List.map_append, List.map_cons, Handler.sent]
  · intro y hy m' hm'
    rcases hmem y hy with rfl | ⟨hy, h1 | h1⟩
    · simp only [Handler.sent] at hm'
      split at hm' <;> cases hm'
    · exact absurd hm' (hf y h1 m')
    · obtain ⟨h2, h3⟩ := h.sending y hy m' hm'
      refine ⟨h2, fun p hp' => ?_⟩
      rcases List.mem_append.mp hp' with hp' | hp'
      · exact h3 p hp'
      · rw [List.mem_singleton.mp hp']
        have := h.order
        rw [hr] at this
        exact (List.pairwise_cons.mp (List.pairwise_append.mp this).2.1).1 y h1
  · intro y hy hm'
    rcases hmem y hy with rfl | ⟨hy, _⟩
    · simp only [Handler.sent] at hm' ⊢
      split at hm'
      · rename_i ha
        exact ⟨ha, List.mem_append_right _ List.mem_cons_self⟩
      · cases hm'
    · exact ⟨(h.awaiting y hy hm').1, List.mem_append_left _ (h.awaiting y hy hm').2⟩
  · intro y hy r hm'
    rcases hmem y hy with rfl | ⟨hy, _⟩
    · simp only [Handler.sent] at hm' ⊢
      split at hm'
      · cases hm'
      · rename_i ha
        cases hm'
        exact Or.inl ⟨Bool.eq_false_iff.mpr ha, rfl⟩
    · exact h.finished y hy r hm'
  · intro a ha
    refine ⟨(h.gone a ha).1, fun y hy => ?_⟩
    rcases hmem y hy with rfl | ⟨hy, _⟩
    · exact (h.gone a ha).2 x hx
    · exact (h.gone a ha).2 y hy
  · intro k hk
    rcases h.every k hk with h1 | ⟨y, h1, h2⟩
    · exact Or.inl h1
    · rcases hback y h1 with rfl | h3
      · exact Or.inr ⟨_, hnew, h2⟩
      · exact Or.inr ⟨y, h3, h2⟩
  · intro _ k hk c m' hc hm'
    rcases h.given (by rw [hw]; simp) k hk c m' hc hm' with h1 | ⟨y, h1, h2, h3⟩ | h1
    · exact Or.inl (List.mem_append_left _ h1)
    · rcases hback y h1 with rfl | h4
      · rw [hp] at h3
        cases h3
        subst h2
        exact Or.inl (List.mem_append_right _ List.mem_cons_self)
      · exact Or.inr (Or.inl ⟨y, h4, h2, h3⟩)
    · exact Or.inr (Or.inr h1)

theorem sendDead {pre post : List Handler} {x : Handler} {m : Msg} (h : FrontInv W env calls es φ P) (hr : φ.running = pre ++ x :: post)
    (hp : x.phase = .sending m) (hw : φ.sys.worker = none) :
    FrontInv W env calls es { φ with running := pre ++ { x with phase := .finished .none } :: post } P := by
  have hx : x ∈ φ.running := (mem_mid hr).mpr (Or.inr (Or.inl rfl))
  have hmem : ∀ y, y ∈ pre ++ { x with phase := .finished .none } :: post → y = { x with phase := .finished .none } ∨ y ∈ φ.running := by
    intro y hy
    rcases (mem_mid rfl).mp hy with h1 | h1 | h1
    · exact Or.inr ((mem_mid hr).mpr (Or.inl h1))
    · exact Or.inl h1
    · exact Or.inr ((mem_mid hr).mpr (Or.inr (Or.inr h1)))
  refine ⟨h.exec, h.asked, h.inc, h.below, h.len, h.dead, h.split, h.own, h.state, h.worlds, ?_, ?_, ?_, ?_, ?_, h.answers, h.cancelled,
    h.once, ?_, ?_, fun hn => absurd hw hn⟩
  · intro y hy
    rcases hmem y hy with rfl | hy
    · exact h.known x hx
    · exact h.known y hy
  · refine order_of h.order ?_
    rw [hr]
    simp only [List.map_append, List.map_cons]
  · intro y hy m' hm'
    rcases hmem y hy with rfl | hy
    · cases hm'
    · exact h.sending y hy m' hm'
  · intro y hy hm'
    rcases hmem y hy with rfl | hy
    · cases hm'
    · exact h.awaiting y hy hm'
  · intro y hy r hm'
    rcases hmem y hy with rfl | hy
    · cases hm'
      exact Or.inr (Or.inl ⟨hw, rfl⟩)
    · exact h.finished y hy r hm'
  · intro a ha
    refine ⟨(h.gone a ha).1, fun y hy => ?_⟩
    rcases hmem y hy with rfl | hy
    · exact (h.gone a ha).2 x hx
    · exact (h.gone a ha).2 y hy
  · intro k hk
    rcases h.every k hk with h1 | ⟨y, h1, h2⟩
    · exact Or.inl h1
    · rcases (mem_mid hr).mp h1 with h3 | rfl | h3
      · exact Or.inr ⟨y, List.mem_append_left _ h3, h2⟩
      · exact Or.inr ⟨_, List.mem_append_right _ List.mem_cons_self, h2⟩
      · exact Or.inr ⟨y, List.mem_append_right _ (List.mem_cons_of_mem _ h3), h2⟩

theorem receive_id (r : Reply) (x : Handler) : (x.receive r).id = x.id ∧ (x.receive r).call = x.call := by
  unfold Handler.receive
  split <;> exact ⟨rfl, rfl⟩

theorem receive_sending {r : Reply} {x : Handler} {m : Msg} : (x.receive r).phase = .sending m ↔ x.phase = .sending m := by
  unfold Handler.receive
  split
  · rename_i hp
    rw [hp]
    exact ⟨fun h => (by cases h), fun h => (by cases h)⟩
  · exact Iff.rfl

theorem receive_awaiting {r : Reply} {x : Handler} : (x.receive r).phase ≠ .awaiting := by
  unfold Handler.receive
  split
  · exact fun h => by cases h
  · assumption

theorem receive_finished {r r' : Reply} {x : Handler} (h : (x.receive r).phase = .finished r') :
    x.phase = .finished r' ∨ (x.phase = .awaiting ∧ r' = r) := by
  unfold Handler.receive at h
  split at h
  · rename_i hp
    cases h
    exact Or.inr ⟨hp, rfl⟩
  · exact Or.inl h

theorem panic {s : Server} {m : Msg} {q : List Msg} {p : Panic} {w : World} (h : FrontInv W env calls es φ P) (hw : φ.sys.worker = some s)
    (ho : φ.sys.wOut = []) (hq : φ.sys.lspQ = m :: q) (hh : s.handle env w m = .error p) (hW : W w) :
    FrontInv W env calls es
      { φ with sys := { φ.sys with worker := none, lspQ := [], wOut := [] }, tags := [], running := φ.running.map (Handler.receive .none) } P := by
  have hid : ∀ x : Handler, (x.receive .none).id = x.id := fun x => (receive_id .none x).1
  refine ⟨?_, h.asked, h.inc, h.below, rfl, fun _ => rfl, ?_, ?_, ?_, h.worlds, ?_, ?_, ?_, ?_, ?_, ?_, h.cancelled, h.once, ?_, ?_,
    fun hn => absurd rfl hn⟩
  · obtain ⟨as, he⟩ := h.exec
    exact ⟨_, he.task (.workerPanic w hw ho hq hh hW)⟩
  · obtain ⟨Q, h1, _⟩ := h.split
    exact ⟨Q, h1, fun hn => absurd rfl hn⟩
  · intro x hx hn
    refine h.own x ?_ hn
    simp only [List.zip_nil_left, List.append_nil] at hx
    exact List.mem_append_left _ hx
  · obtain ⟨s₀, h1, _⟩ := h.state
    exact ⟨s₀, h1, fun s hs => by cases hs⟩
  · intro y hy
    obtain ⟨x, hx, rfl⟩ := List.mem_map.mp hy
    rw [(receive_id _ x).1, (receive_id _ x).2]
    exact h.known x hx
  · refine order_of h.order ?_
    simp only [List.map_map, Function.comp_def, hid]
  · intro y hy m' hm'
    obtain ⟨x, hx, rfl⟩ := List.mem_map.mp hy
    rw [(receive_id _ x).1, (receive_id _ x).2]
    exact h.sending x hx m' (receive_sending.mp hm')
  · intro y hy hm'
    obtain ⟨x, hx, rfl⟩ := List.mem_map.mp hy
    exact absurd hm' receive_awaiting
  · intro y hy r hm'
    obtain ⟨x, hx, rfl⟩ := List.mem_map.mp hy
    rw [(receive_id _ x).1, (receive_id _ x).2]
    rcases receive_finished hm' with h1 | ⟨_, rfl⟩
    · rcases h.finished x hx r h1 with h2 | h2 | h2
      · exact Or.inl h2
      · exact Or.inr (Or.inl ⟨rfl, h2.2⟩)
      · exact Or.inr (Or.inr h2)
    · exact Or.inr (Or.inl ⟨rfl, rfl⟩)
  · intro n r hr
    obtain ⟨c, h1, h2⟩ := h.answers n r hr
    refine ⟨c, h1, ?_⟩
    rcases h2 with h2 | h2 | h2
    · exact Or.inl h2
    · exact Or.inr (Or.inl ⟨rfl, h2.2⟩)
    · exact Or.inr (Or.inr h2)
  · intro a ha
    refine ⟨(h.gone a ha).1, fun y hy => ?_⟩
    obtain ⟨x, hx, rfl⟩ := List.mem_map.mp hy
    rw [hid]
    exact (h.gone a ha).2 x hx
  · intro k hk
    rcases h.every k hk with h1 | ⟨y, h1, h2⟩
    · exact Or.inl h1
    · exact Or.inr ⟨_, List.mem_map_of_mem h1, by rw [hid]; exact h2⟩

/-- what steps of the tasks other than receiving put into the queue -/
theorem task_extra {σ τ : Sys} {extra : List Msg} (hs : TaskStepIn W env σ τ) (hq : τ.lspQ = σ.lspQ ++ extra) :
    τ.worker = σ.worker ∧ (∀ m ∈ extra, internal m) ∧ (σ.worker = none → extra = []) := by
  have hnil : ∀ {l : List Msg}, l = l ++ extra → extra = [] := by
    intro l hl
    exact List.append_right_eq_self.mp hl.symm
  cases hs with
  | workerRecv w hw ho hq' hh hW =>
    simp only [hq'] at hq
    have := congrArg List.length hq
    simp at this
    omega
  | workerPanic w hw ho hq' hh hW =>
    simp only [hq'] at hq
    cases hq
  | workerSendDiag hw ho ha hc => rw [hnil hq]; exact ⟨rfl, by simp, fun _ => rfl⟩
  | workerSendDiagDead hw ho ha => rw [hnil hq]; exact ⟨rfl, by simp, fun _ => rfl⟩
  | workerSendSelf hw ho hc =>
    rw [← List.append_cancel_left hq]
    refine ⟨rfl, fun m hm => Or.inl (List.mem_singleton.mp hm), fun hn => ?_⟩
    rw [hw] at hn
    cases hn
  | diagRecv o ha hd hq' hp => rw [hnil hq]; exact ⟨rfl, by simp, fun _ => rfl⟩
  | diagPanic o ha hd hq' hp => rw [hnil hq]; exact ⟨rfl, by simp, fun _ => rfl⟩
  | diagSend ha hd hw hc =>
    rw [← List.append_cancel_left hq]
    refine ⟨rfl, fun m hm => Or.inr (Or.inr ⟨_, List.mem_singleton.mp hm⟩), fun hn => ?_⟩
    rw [hw] at hn
    cases hn
  | diagSendDead ha hd hw => rw [hnil hq]; exact ⟨rfl, by simp, fun _ => rfl⟩
  | diagStop ha hd hq' hw => rw [hnil hq]; exact ⟨rfl, by simp, fun _ => rfl⟩

theorem delayed_extra {σ τ : Sys} {s : Server} {t : Timer} {extra : List Msg} (hs : EnvStep σ τ) (hw : σ.worker = some s)
    (ht : t ∈ s.timers) (hτ : τ.worker = some { s with timers := s.timers.erase t }) (hq : τ.lspQ = σ.lspQ ++ extra) : ∀ m ∈ extra, internal m := by
  cases hs with
  | client m hm hw2 hc =>
    exfalso
    rw [hw] at hτ
    injection hτ with hτ
    have := congrArg (fun s => s.timers.length) hτ
    simp only [List.length_erase, ht, if_true] at this
    have : 0 < s.timers.length := List.length_pos_of_mem ht
    omega
  | clientDead hw2 => rw [hw] at hw2; cases hw2
  | timer hw2 ht2 hl hc =>
    rw [← List.append_cancel_left hq]
    exact fun m hm => Or.inr (Or.inl ⟨_, List.mem_singleton.mp hm⟩)
  | timerMute hw2 ht2 hl =>
    rw [List.append_right_eq_self.mp hq.symm]
    simp

/-- steps that put only messages of the server itself into the queue -/
theorem quiet {τ : Sys} {extra : List Msg} (h : FrontInv W env calls es φ P) (he : ∃ as, Execution W env (P.map Prod.snd) as τ)
    (hq : τ.lspQ = φ.sys.lspQ ++ extra) (hi : ∀ m ∈ extra, internal m) (hn : τ.worker = none ↔ φ.sys.worker = none)
    (hx : φ.sys.worker = none → extra = [])
    (hs : ∀ s', τ.worker = some s' → ∃ s, φ.sys.worker = some s ∧ ∀ s₀, SameUpToExpiry s s₀ → SameUpToExpiry s' s₀) :
    FrontInv W env calls es { φ with sys := τ, tags := φ.tags ++ extra.map fun _ => none } P := by
  have hzip : (φ.tags ++ extra.map fun _ => none).zip τ.lspQ = φ.tags.zip φ.sys.lspQ ++ (extra.map fun _ => none).zip extra := by
    rw [hq]
    exact List.zip_append h.len
  have hj : ∀ {n c r}, Justified env calls es (φ.sys.worker = none) n c r → Justified env calls es (τ.worker = none) n c r := by
    rintro n c r (h2 | h2 | h2)
    · exact Or.inl h2
    · exact Or.inr (Or.inl ⟨hn.mpr h2.1, h2.2⟩)
    · exact Or.inr (Or.inr h2)
  refine ⟨he, h.asked, h.inc, h.below, ?_, ?_, ?_, ?_, ?_, h.worlds, h.known, h.order, h.sending, ?_, fun x hx' r hr => hj (h.finished x hx' r hr),
    ?_, h.cancelled, h.once, h.gone, h.every, fun hw => h.given (fun e => hw (hn.mpr e))⟩
  · simp only [List.length_append, List.length_map, h.len, hq]
  · intro hw
    rw [h.dead (hn.mp hw), hx (hn.mp hw)]
    rfl
  · obtain ⟨Q, h1, h2⟩ := h.split
    refine ⟨Q, h1, fun hw => ?_⟩
    rw [hzip, byClient_append, byClient_own, List.append_nil]
    exact h2 (fun e => hw (hn.mpr e))
  · simp only [hzip]
    intro x hx' he'
    rw [← List.append_assoc] at hx'
    rcases List.mem_append.mp hx' with hx' | hx'
    · exact h.own x hx' he'
    · exact hi _ (List.of_mem_zip hx').2
  · obtain ⟨s₀, h1, h2⟩ := h.state
    refine ⟨s₀, h1, fun s' hs' => ?_⟩
    obtain ⟨s, h3, h4⟩ := hs s' hs'
    exact h4 _ (h2 s h3)
  · intro x hx' hp
    exact ⟨(h.awaiting x hx' hp).1, List.mem_append_left _ (h.awaiting x hx' hp).2⟩
  · intro n r hr
    obtain ⟨c, h1, h2⟩ := h.answers n r hr
    exact ⟨c, h1, hj h2⟩

theorem mem_byClient {l : List (Option Nat × Msg)} {n : Nat} {m : Msg} : (n, m) ∈ byClient l ↔ (some n, m) ∈ l := by
  unfold byClient
  rw [List.mem_filterMap]
  constructor
  · rintro ⟨⟨t, m'⟩, h1, h2⟩
    cases t with
    | none => cases h2
    | some k => cases h2; exact h1
  · exact fun h => ⟨_, h, rfl⟩

/-- the message of a call comes after those of all earlier calls -/
theorem before {t : Nat} {m : Msg} {ts : List (Option Nat)} {q : List Msg} {s : Server} (h : FrontInv W env calls es φ P)
    (hw : φ.sys.worker = some s) (ht : φ.tags = some t :: ts) (hq : φ.sys.lspQ = m :: q) :
    (∃ c, calls[t]? = some c ∧ c.msg = some m) ∧
    ∀ k, k < t → ∀ c' m', calls[k]? = some c' → c'.msg = some m' → (k, m') ∈ byClient (tagged (processedOf es)) ∨ (k, none) ∈ answersOf es := by
  obtain ⟨Q, h1, h2⟩ := h.split
  have hQ : Q = (t, m) :: byClient (ts.zip q) := by
    rw [h2 (by rw [hw]; simp), ht, hq]
    rfl
  subst hQ
  have hmem : (t, m) ∈ P := by rw [← h1]; exact List.mem_append_right _ List.mem_cons_self
  refine ⟨h.asked _ hmem, fun k hk c' m' hc hm => ?_⟩
  have hstarted : k < φ.started := Nat.lt_trans hk (h.below _ hmem)
  rcases h.given (by rw [hw]; simp) k hstarted c' m' hc hm with h3 | ⟨x, h3, h4, h5⟩ | h3
  · rw [← h1] at h3
    rcases List.mem_append.mp h3 with h3 | h3
    · exact Or.inl h3
    · exfalso
      rcases List.mem_cons.mp h3 with h3 | h3
      · cases h3
        exact Nat.lt_irrefl _ hk
      · have := h.inc
        rw [← h1] at this
        have := (List.pairwise_cons.mp (List.pairwise_append.mp this).2.1).1 _ h3
        exact Nat.lt_asymm hk this
  · exfalso
    have := (h.sending x h3 m' h5).2 _ hmem
    rw [h4] at this
    exact Nat.lt_asymm hk this
  · exact Or.inr h3

theorem process {s s' : Server} {m : Msg} {q : List Msg} {outs : List Send} {r : Reply} {t : Option Nat} {ts : List (Option Nat)} {w : World}
    (h : FrontInv W env calls es φ P) (hw : φ.sys.worker = some s) (ho : φ.sys.wOut = []) (hq : φ.sys.lspQ = m :: q) (ht : φ.tags = t :: ts)
    (hh : s.handle env w m = .ok (s', outs, r)) (hW : W w) :
    FrontInv W env calls (es ++ [.processed t w m])
      { φ with sys := { φ.sys with worker := some s', lspQ := q, wOut := outs }, tags := ts
               running := φ.running.map fun h => if t = some h.id then h.receive r else h } P := by
  have hpr : processedOf (es ++ [.processed t w m]) = processedOf es ++ [(t, w, m)] := by rw [processedOf_append]; rfl
  have han : answersOf (es ++ [.processed t w m]) = answersOf es := by rw [answersOf_append]; exact List.append_nil _
  obtain ⟨s₀, hrun, hsame⟩ := h.state
  obtain ⟨s₀', hh₀, hsame'⟩ := handle_sameUpToExpiry (hsame s hw) hh
  have hf : ∀ x : Handler, (if t = some x.id then x.receive r else x).id = x.id ∧ (if t = some x.id then x.receive r else x).call = x.call := by
    intro x
    split
    · exact receive_id r x
    · exact ⟨rfl, rfl⟩
  have hdead : (φ.sys.worker = none) → (some s' : Option Server) = none := by
    intro e
    rw [hw] at e
    cases e
  refine ⟨?_, h.asked, h.inc, h.below, ?_, fun hn => (by cases hn), ?_, ?_, ?_, ?_, ?_, ?_, ?_, ?_, ?_, ?_, ?_, ?_, ?_, ?_, ?_⟩
  · obtain ⟨as, he⟩ := h.exec
    exact ⟨_, he.task (.workerRecv w hw ho hq hh hW)⟩
  · have := h.len
    rw [ht, hq] at this
    exact Nat.succ.inj this
  · obtain ⟨Q, h1, h2⟩ := h.split
    have hQ := h2 (by rw [hw]; simp)
    rw [ht, hq] at hQ
    rw [hpr, tagged_append, byClient_append]
    refine ⟨byClient (ts.zip q), ?_, fun _ => rfl⟩
    rw [← h1, hQ, List.append_assoc, ← byClient_append]
    rfl
  · intro x hx hn
    refine h.own x ?_ hn
    rw [hpr, tagged_append, List.append_assoc] at hx
    rw [ht, hq]
    exact hx
  · refine ⟨s₀', ?_, fun s1 h1 => by cases h1; exact hsame'⟩
    rw [hpr, show plain (processedOf es ++ [(t, w, m)]) = plain (processedOf es) ++ [(w, m)] from List.map_append .., run_append hrun]
    simp only [Server.run, hh₀]
  · intro x hx
    rw [hpr] at hx
    rcases List.mem_append.mp hx with hx | hx
    · exact h.worlds x hx
    · rw [List.mem_singleton.mp hx]
      exact hW
  · intro y hy
    obtain ⟨x, hx, rfl⟩ := List.mem_map.mp hy
    rw [(hf x).1, (hf x).2]
    exact h.known x hx
  · refine order_of h.order ?_
    simp only [List.map_map, Function.comp_def, (hf _).1]
  · intro y hy m' hm'
    obtain ⟨x, hx, rfl⟩ := List.mem_map.mp hy
    rw [(hf x).1, (hf x).2]
    refine h.sending x hx m' ?_
    split at hm'
    · exact receive_sending.mp hm'
    · exact hm'
  · intro y hy hm'
    obtain ⟨x, hx, rfl⟩ := List.mem_map.mp hy
    rw [(hf x).1, (hf x).2]
    split at hm'
    · exact absurd hm' receive_awaiting
    · rename_i hne
      refine ⟨(h.awaiting x hx hm').1, ?_⟩
      have := (h.awaiting x hx hm').2
      rw [ht] at this
      rcases List.mem_cons.mp this with h1 | h1
      · exact absurd h1.symm hne
      · exact h1
  · intro y hy r' hm'
    obtain ⟨x, hx, rfl⟩ := List.mem_map.mp hy
    rw [(hf x).1, (hf x).2]
    split at hm'
    · rename_i heq
      rcases receive_finished hm' with h1 | ⟨h1, rfl⟩
      · exact (h.finished x hx r' h1).later _ hdead
      · subst heq
        obtain ⟨⟨c, h2, h3⟩, h4⟩ := h.before hw ht hq
        rw [(h.known x hx).1] at h2
        cases h2
        refine Or.inr (Or.inr ⟨(h.awaiting x hx h1).1, processedOf es, [], w, m, hpr, h3, ⟨s₀, s₀', outs, hrun, hh₀⟩, ?_⟩)
        rw [han]
        exact h4
    · exact (h.finished x hx r' hm').later _ hdead
  · intro n r' hr
    rw [han] at hr
    obtain ⟨c, h1, h2⟩ := h.answers n r' hr
    exact ⟨c, h1, h2.later _ hdead⟩
  · rw [han]; exact h.cancelled
  · rw [han]; exact h.once
  · rw [han]
    intro a ha
    refine ⟨(h.gone a ha).1, fun y hy => ?_⟩
    obtain ⟨x, hx, rfl⟩ := List.mem_map.mp hy
    rw [(hf x).1]
    exact (h.gone a ha).2 x hx
  · rw [han]
    intro k hk
    rcases h.every k hk with h1 | ⟨y, h1, h2⟩
    · exact Or.inl h1
    · exact Or.inr ⟨_, List.mem_map_of_mem h1, by rw [(hf y).1]; exact h2⟩
  · rw [han]
    intro _ k hk c m' hc hm'
    rcases h.given (by rw [hw]; simp) k hk c m' hc hm' with h1 | ⟨y, h1, h2, h3⟩ | h1
    · exact Or.inl h1
    · refine Or.inr (Or.inl ⟨_, List.mem_map_of_mem h1, by rw [(hf y).1]; exact h2, ?_⟩)
      split
      · exact receive_sending.mpr h3
      · exact h3
    · exact Or.inr (Or.inr h1)

/-- a handler is gone, after the answer `o` -/
theorem leave {pre post : List Handler} {x : Handler} {o : Option Reply} (h : FrontInv W env calls es φ P) (hr : φ.running = pre ++ x :: post)
    (ho : (∃ r, o = some r ∧ x.phase = .finished r) ∨ (o = none ∧ x.call.request = true)) :
    FrontInv W env calls (es ++ [.answered x.id o]) { φ with running := pre ++ post } P := by
  have hpr : processedOf (es ++ [.answered x.id o]) = processedOf es := by rw [processedOf_append]; exact List.append_nil _
  have han : answersOf (es ++ [.answered x.id o]) = answersOf es ++ [(x.id, o)] := by rw [answersOf_append]; rfl
  have hx : x ∈ φ.running := (mem_mid hr).mpr (Or.inr (Or.inl rfl))
  have hsub : (pre ++ post).Sublist φ.running := by
    rw [hr]
    exact (List.Sublist.refl pre).append (List.sublist_cons_self x post)
  have hback : ∀ y ∈ φ.running, y = x ∨ y ∈ pre ++ post := by
    intro y hy
    rcases (mem_mid hr).mp hy with h1 | h1 | h1
    · exact Or.inr (List.mem_append_left _ h1)
    · exact Or.inl h1
    · exact Or.inr (List.mem_append_right _ h1)
  have hne : ∀ y ∈ pre ++ post, y.id ≠ x.id := by
    intro y hy
    have := h.order
    rw [hr] at this
    rw [List.pairwise_append, List.pairwise_cons] at this
    rcases List.mem_append.mp hy with hy | hy
    · exact Nat.ne_of_lt (this.2.2 y hy x List.mem_cons_self)
    · exact Nat.ne_of_gt (this.2.1.1 y hy)
  refine ⟨h.exec, h.asked, h.inc, h.below, h.len, h.dead, ?_, ?_, ?_, ?_, fun y hy => h.known y (hsub.mem hy), h.order.sublist hsub,
    fun y hy => h.sending y (hsub.mem hy), fun y hy => h.awaiting y (hsub.mem hy), fun y hy r hm => (h.finished y (hsub.mem hy) r hm).later _ id,
    ?_, ?_, ?_, ?_, ?_, ?_⟩
  · rw [hpr]; exact h.split
  · rw [hpr]; exact h.own
  · rw [hpr]; exact h.state
  · rw [hpr]; exact h.worlds
  · intro n r hm
    rw [han] at hm
    rcases List.mem_append.mp hm with hm | hm
    · obtain ⟨c, h1, h2⟩ := h.answers n r hm
      exact ⟨c, h1, h2.later _ id⟩
    · have hm := List.mem_singleton.mp hm
      injection hm with h1 h2
      rcases ho with ⟨r', h3, h4⟩ | ⟨h3, _⟩
      · rw [h3] at h2
        cases h2
        subst h1
        exact ⟨_, (h.known x hx).1, (h.finished x hx r h4).later _ id⟩
      · rw [h3] at h2
        cases h2
  · intro n hm
    rw [han] at hm
    rcases List.mem_append.mp hm with hm | hm
    · exact h.cancelled n hm
    · have hm := List.mem_singleton.mp hm
      injection hm with h1 h2
      rcases ho with ⟨r', h3, h4⟩ | ⟨_, h3⟩
      · rw [h3] at h2
        cases h2
      · subst h1
        exact ⟨_, (h.known x hx).1, h3⟩
  · rw [han, List.map_append]
    refine List.nodup_append.mpr ⟨h.once, List.nodup_cons.mpr ⟨List.not_mem_nil, .nil⟩, fun a ha b hb => ?_⟩
    obtain ⟨a', ha', rfl⟩ := List.mem_map.mp ha
    rw [List.map_cons, List.map_nil] at hb
    rw [List.mem_singleton.mp hb]
    exact fun e => (h.gone a' ha').2 x hx e.symm
  · rw [han]
    intro a ha
    rcases List.mem_append.mp ha with ha | ha
    · exact ⟨(h.gone a ha).1, fun y hy => (h.gone a ha).2 y (hsub.mem hy)⟩
    · rw [List.mem_singleton.mp ha]
      exact ⟨(h.known x hx).2, hne⟩
  · rw [han]
    intro k hk
    rcases h.every k hk with ⟨r, h1⟩ | ⟨y, h1, h2⟩
    · exact Or.inl ⟨r, List.mem_append_left _ h1⟩
    · rcases hback y h1 with rfl | h3
      · exact Or.inl ⟨o, List.mem_append_right _ (by rw [h2]; exact List.mem_cons_self)⟩
      · exact Or.inr ⟨y, h3, h2⟩
  · rw [han]
    intro hw k hk c m' hc hm'
    rcases h.given hw k hk c m' hc hm' with h1 | ⟨y, h1, h2, h3⟩ | h1
    · exact Or.inl h1
    · rcases hback y h1 with rfl | h4
      · refine Or.inr (Or.inr (List.mem_append_right _ ?_))
        rcases ho with ⟨r', _, h5⟩ | ⟨h5, _⟩
        · rw [h3] at h5
          cases h5
        · rw [h2, h5]
          exact List.mem_cons_self
      · exact Or.inr (Or.inl ⟨y, h4, h2, h3⟩)
    · exact Or.inr (Or.inr (List.mem_append_left _ h1))

theorem step {ψ : Front} {e : FrontEvent} (h : FrontInv W env calls es φ P) (hs : FrontStep W env lim calls φ e ψ) :
    ∃ P', FrontInv W env calls (es ++ [e]) ψ P' := by
  cases hs with
  | start hl hc => exact ⟨P, (h.start hc).silent⟩
  | send hr hp hf hw hq => exact ⟨_, (h.send hr hp hf hw hq).silent⟩
  | sendDead hr hp hw => exact ⟨P, (h.sendDead hr hp hw).silent⟩
  | process w hw ho hq ht hh hW => exact ⟨P, h.process hw ho hq ht hh hW⟩
  | panic w hw ho hq hh hW => exact ⟨P, (h.panic hw ho hq hh hW).silent⟩
  | task hs hq =>
    obtain ⟨h1, h2, h3⟩ := task_extra hs hq
    obtain ⟨as, he⟩ := h.exec
    exact ⟨P, (h.quiet ⟨_, he.task hs⟩ hq h2 (by rw [h1]) h3 (fun s' hs' => ⟨s', by rw [← h1]; exact hs', fun _ h => h⟩)).silent⟩
  | delayed hs hw ht hτ hq =>
    obtain ⟨as, he⟩ := h.exec
    refine ⟨P, (h.quiet ⟨_, he.delayed hs hw ht hτ⟩ hq (delayed_extra hs hw ht hτ hq) (by rw [hw, hτ]; simp) (fun hn => ?_) (fun s' hs' => ?_)).silent⟩
    · rw [hw] at hn
      cases hn
    · rw [hτ] at hs'
      cases hs'
      exact ⟨_, hw, fun s₀ h => ⟨h.config, h.files, h.next, List.erase_sublist.trans h.timers⟩⟩
  | answer hr hp => exact ⟨P, h.leave hr (Or.inl ⟨_, rfl, hp⟩)⟩
  | cancel hr hc => exact ⟨P, h.leave hr (Or.inr ⟨rfl, hc⟩)⟩

end FrontInv

theorem FrontInv.notNotification {W : World → Prop} {env : Env} {calls : List ClientCall} {es : List FrontEvent} {φ : Front} {P : List (Nat × Msg)}
    {n : Nat} {c : ClientCall} (h : FrontInv W env calls es φ P) (hn : (n, none) ∈ answersOf es) (hc : calls[n]? = some c) : ¬ Notification c := by
  obtain ⟨c', h1, h2⟩ := h.cancelled n hn
  rw [hc] at h1
  cases h1
  exact request_iff.mp h2

theorem FrontRun.inv {W : World → Prop} {env : Env} {lim : Nat} {calls : List ClientCall} {es : List FrontEvent} {φ : Front}
    (h : FrontRun W env lim calls es φ) : ∃ P, FrontInv W env calls es φ P := by
  induction h with
  | init => exact ⟨[], .init⟩
  | step _ hs ih =>
    obtain ⟨P, ih⟩ := ih
    exact ih.step hs

/-! ### Lists of numbered messages -/

/-- two increasing lists with the same members are the same -/
theorem sorted_unique : ∀ {a b : List (Nat × Msg)}, a.Pairwise (fun x y => x.1 < y.1) → b.Pairwise (fun x y => x.1 < y.1) →
    (∀ x, x ∈ a ↔ x ∈ b) → a = b
  | [], [], _, _, _ => rfl
  | [], y :: b, _, _, h => by cases (h y).mpr List.mem_cons_self
  | x :: a, [], _, _, h => by cases (h x).mp List.mem_cons_self
  | x :: a, y :: b, ha, hb, h => by
    rw [List.pairwise_cons] at ha hb
    have hxy : x = y := by
      rcases List.mem_cons.mp ((h x).mp List.mem_cons_self) with h1 | h1
      · exact h1
      · rcases List.mem_cons.mp ((h y).mpr List.mem_cons_self) with h2 | h2
        · exact h2.symm
        · exact absurd (hb.1 x h1) (Nat.lt_asymm (ha.1 y h2))
    subst hxy
    rw [sorted_unique ha.2 hb.2]
    intro z
    constructor
    · intro hz
      rcases List.mem_cons.mp ((h z).mp (List.mem_cons_of_mem _ hz)) with h1 | h1
      · subst h1
        exact absurd (ha.1 z hz) (Nat.lt_irrefl _)
      · exact h1
    · intro hz
      rcases List.mem_cons.mp ((h z).mpr (List.mem_cons_of_mem _ hz)) with h1 | h1
      · subst h1
        exact absurd (hb.1 z hz) (Nat.lt_irrefl _)
      · exact h1

/-- the messages of the first calls, with their numbers from `k` on -/
def numbered : Nat → List ClientCall → List (Nat × Msg)
  | _, [] => []
  | k, c :: cs => (match c.msg with
    | some m => [(k, m)]
    | none => []) ++ numbered (k + 1) cs

theorem numbered_snd : ∀ (k : Nat) (cs : List ClientCall), (numbered k cs).map Prod.snd = cs.filterMap ClientCall.msg
  | _, [] => rfl
  | k, c :: cs => by
    simp only [numbered, List.filterMap_cons, List.map_append, numbered_snd (k + 1) cs]
    cases c.msg <;> rfl

theorem mem_numbered : ∀ (cs : List ClientCall) (k n : Nat) (m : Msg),
    (n, m) ∈ numbered k cs ↔ ∃ i c, n = k + i ∧ cs[i]? = some c ∧ c.msg = some m
  | [], k, n, m => by simp [numbered]
  | c :: cs, k, n, m => by
    rw [numbered, List.mem_append, mem_numbered cs (k + 1) n m]
    constructor
    · rintro (h | ⟨i, c', h1, h2, h3⟩)
      · split at h
        · rename_i m' hm
          cases List.mem_singleton.mp h
          exact ⟨0, c, rfl, rfl, hm⟩
        · cases h
      · exact ⟨i + 1, c', by omega, h2, h3⟩
    · rintro ⟨i, c', h1, h2, h3⟩
      cases i with
      | zero =>
        cases h2
        left
        rw [h3, h1]
        exact List.mem_cons_self
      | succ i => exact Or.inr ⟨i, c', by omega, h2, h3⟩

theorem numbered_sorted : ∀ (cs : List ClientCall) (k : Nat), (numbered k cs).Pairwise fun x y => x.1 < y.1
  | [], _ => .nil
  | c :: cs, k => by
    rw [numbered]
    refine List.pairwise_append.mpr ⟨?_, numbered_sorted cs (k + 1), fun a ha b hb => ?_⟩
    · split
      · exact List.pairwise_singleton ..
      · exact .nil
    · split at ha
      · rw [List.mem_singleton.mp ha]
        obtain ⟨i, _, h1, _⟩ := (mem_numbered cs (k + 1) b.1 b.2).mp hb
        show k < b.1
        omega
      · cases ha

/-- an increasing list that contains the message of each of the first `n` calls is the list of these messages -/
theorem eq_numbered {calls : List ClientCall} {ps : List (Nat × Msg)} {n : Nat} (hs : ps.Pairwise fun x y => x.1 < y.1)
    (hp : ∀ p ∈ ps, p.1 < n ∧ ∃ c, calls[p.1]? = some c ∧ c.msg = some p.2)
    (ha : ∀ k < n, ∀ c m, calls[k]? = some c → c.msg = some m → (k, m) ∈ ps) :
    ps.map Prod.snd = (calls.take n).filterMap ClientCall.msg := by
  rw [← numbered_snd 0, sorted_unique hs (numbered_sorted _ 0)]
  rintro ⟨k, m⟩
  rw [mem_numbered]
  constructor
  · intro h
    obtain ⟨h1, c, h2, h3⟩ := hp _ h
    exact ⟨k, c, by simp, by rw [List.getElem?_take_of_lt h1]; exact h2, h3⟩
  · rintro ⟨i, c, h1, h2, h3⟩
    rw [Nat.zero_add] at h1
    subst h1
    have hlt : k < n := by
      have := (List.getElem?_eq_some_iff.mp h2).1
      rw [List.length_take] at this
      omega
    rw [List.getElem?_take_of_lt hlt] at h2
    exact ha k hlt c m h2 h3

theorem merge_tagged : ∀ (l : List (Option Nat × Msg)) {a b acc : List Msg}, Merge a b acc →
    Merge (a ++ (byClient l).map Prod.snd) (b ++ (l.filter fun x => x.1.isNone).map Prod.snd) (acc ++ l.map Prod.snd)
  | [], a, b, acc, h => by simpa [byClient] using h
  | (none, m) :: l, a, b, acc, h => by
    have := merge_tagged l (h.right m)
    simpa [byClient] using this
  | (some k, m) :: l, a, b, acc, h => by
    have := merge_tagged l (h.left m)
    simpa [byClient] using this

/-! ### The property -/

/-- **C106, order** However the handlers are interleaved, what they do is an execution of the process in which the client's messages arrive in
the order of its calls; of the calls made so far only those are missing whose handlers still wait for room in the queue, or requests that were
cancelled while they waited. -/
theorem C106_order (W : World → Prop) (env : Env) (lim : Nat) (calls : List ClientCall) (es : List FrontEvent) (φ : Front)
    (h : FrontRun W env lim calls es φ) :
    ∃ (ps : List (Nat × Msg)) (as : List (HMap Str Diags)), Execution W env (ps.map Prod.snd) as φ.sys ∧ (ps.Pairwise fun a b => a.1 < b.1) ∧
      (∀ p ∈ ps, p.1 < φ.started ∧ ∃ c, calls[p.1]? = some c ∧ c.msg = some p.2) ∧
      (φ.sys.worker ≠ none → ∀ k < φ.started, ∀ c m, calls[k]? = some c → c.msg = some m →
        (k, m) ∈ ps ∨ (∃ x ∈ φ.running, x.id = k ∧ x.phase = .sending m) ∨ ((k, none) ∈ answersOf es ∧ ¬ Notification c)) := by
  obtain ⟨P, hi⟩ := h.inv
  obtain ⟨as, he⟩ := hi.exec
  refine ⟨P, as, he, hi.inc, fun p hp => ⟨hi.below p hp, hi.asked p hp⟩, fun hw k hk c m hc hm => ?_⟩
  exact (hi.given hw k hk c m hc hm).imp id (Or.imp id fun h => ⟨h, hi.notNotification h hc⟩)

/-- **C106, refinement** In particular, when nothing was cancelled and nobody waits for room, the process is in a state it reaches by getting
exactly the messages of the calls made so far, in order. -/
theorem C106_execution (W : World → Prop) (env : Env) (lim : Nat) (calls : List ClientCall) (es : List FrontEvent) (φ : Front)
    (h : FrontRun W env lim calls es φ) (hc : ∀ n, (n, none) ∉ answersOf es) (hw : φ.sys.worker ≠ none)
    (hs : ∀ x ∈ φ.running, ∀ m, x.phase ≠ .sending m) :
    ∃ as, Execution W env ((calls.take φ.started).filterMap ClientCall.msg) as φ.sys := by
  obtain ⟨ps, as, h1, h2, h3, h4⟩ := C106_order W env lim calls es φ h
  refine ⟨as, ?_⟩
  rw [← eq_numbered h2 h3 fun k hk c m hk' hm => ?_]
  · exact h1
  · rcases h4 hw k hk c m hk' hm with h5 | ⟨x, h5, _, h6⟩ | h5
    · exact h5
    · exact absurd h6 (hs x h5 m)
    · exact absurd h5.1 (hc k)

/-- **C106, answers** The answer to a call is null if its handler does not wait for one or the worker is gone; otherwise it is the answer a
sequential server gives after processing messages of its own and, in order, those of the earlier calls, except cancelled ones. -/
theorem C106_answer (W : World → Prop) (env : Env) (lim : Nat) (calls : List ClientCall) (es : List FrontEvent) (φ : Front)
    (h : FrontRun W env lim calls es φ) (n : Nat) (r : Reply) (hr : (n, some r) ∈ answersOf es) :
    ∃ c, calls[n]? = some c ∧ ((¬ ToWorker c ∧ r = .none) ∨ (φ.sys.worker = none ∧ r = .none) ∨
      (ToWorker c ∧ ∃ (ms : List (World × Msg)) (ps : List (Nat × Msg)) (is : List Msg) (w : World) (m : Msg) (s s' : Server) (o : List Send),
        c.msg = some m ∧ Server.init.run env ms = .ok s ∧ s.handle env w m = .ok (s', o, r) ∧ Merge (ps.map Prod.snd) is (ms.map Prod.snd) ∧
        (∀ i ∈ is, internal i) ∧ (∀ x ∈ ms, W x.1) ∧ W w ∧ (ps.Pairwise fun a b => a.1 < b.1) ∧
        (∀ p ∈ ps, p.1 < n ∧ ∃ c', calls[p.1]? = some c' ∧ c'.msg = some p.2) ∧
        ∀ k < n, ∀ c' m', calls[k]? = some c' → c'.msg = some m' → (k, m') ∈ ps ∨ ((k, none) ∈ answersOf es ∧ ¬ Notification c'))) := by
  obtain ⟨P, hi⟩ := h.inv
  obtain ⟨c, hc, hj⟩ := hi.answers n r hr
  refine ⟨c, hc, ?_⟩
  rcases hj with hj | hj | ⟨ha, pre, post, w, m, h1, h2, ⟨s, s', o, h3, h4⟩, h5⟩
  · refine Or.inl ⟨fun h => ?_, hj.2⟩
    rw [toWorker_iff.mpr h] at hj
    cases hj.1
  · exact Or.inr (Or.inl hj)
  · obtain ⟨Q, h6, _⟩ := hi.split
    rw [h1, tagged_append, byClient_append, List.append_assoc] at h6
    have hP : P = byClient (tagged pre) ++ ((n, m) :: (byClient (tagged post) ++ Q)) := by
      rw [← h6]
      rfl
    have hinc := hi.inc
    rw [hP, List.pairwise_append] at hinc
    refine Or.inr (Or.inr ⟨toWorker_iff.mp ha, plain pre, byClient (tagged pre), ((tagged pre).filter fun x => x.1.isNone).map Prod.snd, w, m, s, s', o, h2, h3, h4,
      ?_, ?_, ?_, ?_, hinc.1, ?_, fun k hk c' m' hk' hm => (h5 k hk c' m' hk' hm).imp id fun h => ⟨h, hi.notNotification h hk'⟩⟩)
    · have := merge_tagged (tagged pre) Merge.nil
      simp only [List.nil_append] at this
      rw [show (plain pre).map Prod.snd = (tagged pre).map Prod.snd by simp [plain, tagged]]
      exact this
    · intro i hx
      obtain ⟨x, hx0, rfl⟩ := List.mem_map.mp hx
      obtain ⟨hx1, hx2⟩ := List.mem_filter.mp hx0
      refine hi.own x ?_ (Option.isNone_iff_eq_none.mp hx2)
      rw [h1, tagged_append]
      exact List.mem_append_left _ (List.mem_append_left _ hx1)
    · intro x hx
      obtain ⟨y, hy, rfl⟩ := List.mem_map.mp hx
      exact hi.worlds y (by rw [h1]; exact List.mem_append_left _ hy)
    · exact hi.worlds (some n, w, m) (by rw [h1]; exact List.mem_append_right _ List.mem_cons_self)
    · intro p hp
      refine ⟨hinc.2.2 p hp (n, m) List.mem_cons_self, hi.asked p ?_⟩
      rw [hP]
      exact List.mem_append_left _ hp

/-- **C106, sequential** When nothing is cancelled and the worker lives, a request is answered as by a sequential server that got the messages of
all earlier calls and of no later one, in order. -/
theorem C106_sequential (W : World → Prop) (env : Env) (lim : Nat) (calls : List ClientCall) (es : List FrontEvent) (φ : Front)
    (h : FrontRun W env lim calls es φ) (hn : ∀ k, (k, none) ∉ answersOf es) (hw : φ.sys.worker ≠ none) (n : Nat) (r : Reply) (c : ClientCall)
    (hr : (n, some r) ∈ answersOf es) (hc : calls[n]? = some c) (ha : ToWorker c) :
    ∃ (ms : List (World × Msg)) (is : List Msg) (w : World) (m : Msg) (s s' : Server) (o : List Send), c.msg = some m ∧
      Server.init.run env ms = .ok s ∧ s.handle env w m = .ok (s', o, r) ∧
      Merge ((calls.take n).filterMap ClientCall.msg) is (ms.map Prod.snd) ∧ (∀ i ∈ is, internal i) ∧ (∀ x ∈ ms, W x.1) ∧ W w := by
  obtain ⟨c', hc', h1⟩ := C106_answer W env lim calls es φ h n r hr
  rw [hc] at hc'
  cases hc'
  rcases h1 with h1 | h1 | ⟨_, ms, ps, is, w, m, s, s', o, h1, h2, h3, h4, h5, h6, h7, h8, h9, h10⟩
  · exact absurd ha h1.1
  · exact absurd h1.1 hw
  · refine ⟨ms, is, w, m, s, s', o, h1, h2, h3, ?_, h5, h6, h7⟩
    rw [← eq_numbered h8 h9 fun k hk c' m' hk' hm => (h10 k hk c' m' hk' hm).resolve_right fun h => hn k h.1]
    exact h4

/-- **C106, once** No call is answered twice, and each call is either answered or its handler still runs. -/
theorem C106_once (W : World → Prop) (env : Env) (lim : Nat) (calls : List ClientCall) (es : List FrontEvent) (φ : Front)
    (h : FrontRun W env lim calls es φ) :
    ((answersOf es).map Prod.fst).Nodup ∧ (∀ n, (∃ r, (n, r) ∈ answersOf es) → n < φ.started) ∧
    ∀ n < φ.started, ((∃ r, (n, r) ∈ answersOf es) ↔ ¬ ∃ x ∈ φ.running, x.id = n) := by
  obtain ⟨P, hi⟩ := h.inv
  refine ⟨hi.once, fun n ⟨r, hr⟩ => (hi.gone _ hr).1, fun n hn => ⟨?_, ?_⟩⟩
  · rintro ⟨r, hr⟩ ⟨x, hx, he⟩
    exact (hi.gone _ hr).2 x hx he
  · intro hx
    exact (hi.every n hn).resolve_right hx

/-- **C106, waiting** A handler that waits for an answer has its message in the queue of a living worker: no answer is lost. -/
theorem C106_waiting (W : World → Prop) (env : Env) (lim : Nat) (calls : List ClientCall) (es : List FrontEvent) (φ : Front)
    (h : FrontRun W env lim calls es φ) (x : Handler) (hx : x ∈ φ.running) (hp : x.phase = .awaiting) :
    φ.sys.worker ≠ none ∧ ∃ m ∈ φ.sys.lspQ, x.call.msg = some m := by
  obtain ⟨P, hi⟩ := h.inv
  obtain ⟨_, ht⟩ := hi.awaiting x hx hp
  have hw : φ.sys.worker ≠ none := by
    intro hn
    rw [hi.dead hn] at ht
    cases ht
  obtain ⟨i, hi1, hi2⟩ := List.getElem_of_mem ht
  have hlt : i < φ.sys.lspQ.length := by rw [← hi.len]; exact hi1
  have hz : (some x.id, φ.sys.lspQ[i]) ∈ φ.tags.zip φ.sys.lspQ := by
    refine List.mem_iff_getElem.mpr ⟨i, by rw [List.length_zip]; omega, ?_⟩
    rw [List.getElem_zip, hi2]
  obtain ⟨Q, h1, h2⟩ := hi.split
  have hP : (x.id, φ.sys.lspQ[i]) ∈ P := by
    rw [← h1, h2 hw]
    exact List.mem_append_right _ (FrontInv.mem_byClient.mpr hz)
  obtain ⟨c, h3, h4⟩ := hi.asked _ hP
  rw [(hi.known x hx).1] at h3
  cases h3
  exact ⟨hw, _, List.getElem_mem hlt, h4⟩

namespace Fix

/-- a template is opened, asked for its symbols twice and the server shut down -/
def frontCalls : List ClientCall := [.didOpen uriT c!"bbb", .documentSymbol uriT, .hover uriT ⟨0, 1⟩, .shutdown]

def openHandler (p : Phase) : Handler := ⟨0, .didOpen uriT c!"bbb", p⟩
def symbolHandler (p : Phase) : Handler := ⟨1, .documentSymbol uriT, p⟩
def hoverHandler (p : Phase) : Handler := ⟨2, .hover uriT ⟨0, 1⟩, p⟩

/-- all four handlers are started before anything is sent, and the shutdown is answered first, then the notification -/
theorem front_start : ∃ es, FrontRun (fun _ => True) apartEnv 4 frontCalls es
      ⟨{ Sys.init with lspQ := [.didOpen uriT c!"bbb", .documentSymbol uriT, .hover uriT ⟨0, 1⟩] }, [some 0, some 1, some 2],
        [symbolHandler .awaiting, hoverHandler .awaiting], 4⟩ ∧
    answersOf es = [(3, some .none), (0, some .none)] := by
  have h1 := FrontRun.step (W := fun _ => True) (env := apartEnv) (lim := 4) (calls := frontCalls) .init
    (.start (c := .didOpen uriT c!"bbb") (by decide) rfl)
  have h2 := h1.step (.start (c := .documentSymbol uriT) (by decide) rfl)
  have h3 := h2.step (.start (c := .hover uriT ⟨0, 1⟩) (by decide) rfl)
  have h4 := h3.step (.start (c := .shutdown) (by decide) rfl)
  have h5 := h4.step (.answer (pre := [openHandler (.sending (.didOpen uriT c!"bbb")), symbolHandler (.sending (.documentSymbol uriT)),
    hoverHandler (.sending (.hover uriT ⟨0, 1⟩))]) (h := ⟨3, .shutdown, .finished .none⟩) (r := .none) (post := []) rfl rfl)
  have h6 := h5.step (.send (pre := []) (h := openHandler (.sending (.didOpen uriT c!"bbb")))
    (post := [symbolHandler (.sending (.documentSymbol uriT)), hoverHandler (.sending (.hover uriT ⟨0, 1⟩))])
    (m := .didOpen uriT c!"bbb") (s := Server.init) rfl rfl (by simp) rfl (by decide))
  have h7 := h6.step (.answer (pre := []) (h := openHandler (.finished .none))
    (post := [symbolHandler (.sending (.documentSymbol uriT)), hoverHandler (.sending (.hover uriT ⟨0, 1⟩))]) (r := .none) rfl rfl)
  have h8 := h7.step (.send (pre := []) (h := symbolHandler (.sending (.documentSymbol uriT)))
    (post := [hoverHandler (.sending (.hover uriT ⟨0, 1⟩))]) (m := .documentSymbol uriT) (s := Server.init) rfl rfl (by simp) rfl (by decide))
  have h9 := h8.step (.send (pre := [symbolHandler .awaiting]) (h := hoverHandler (.sending (.hover uriT ⟨0, 1⟩)))
    (post := []) (m := .hover uriT ⟨0, 1⟩) (s := Server.init) rfl rfl
    (by intro x hx m'; rw [List.mem_singleton.mp hx]; exact fun h => by cases h) rfl (by decide))
  exact ⟨_, h9, rfl⟩

/-- then the symbols are answered; the hover request still waits -/
theorem front_run : ∃ es φ ss, FrontRun (fun _ => True) apartEnv 4 frontCalls es φ ∧
    answersOf es = [(3, some .none), (0, some .none), (1, some (.symbols (some ss)))] ∧ ss ≠ [] ∧ φ.sys.worker ≠ none ∧
    φ.running = [hoverHandler .awaiting] ∧ φ.started = 4 := by
  obtain ⟨es, h, ha⟩ := front_start
  have hx : ∃ s1 o1 s2 ss, Server.init.handle apartEnv rootWorld (.didOpen uriT c!"bbb") = .ok (s1, [.diag o1], .none) ∧
      s1.handle apartEnv rootWorld (.documentSymbol uriT) = .ok (s2, [], .symbols (some ss)) ∧ ss ≠ [] := ⟨_, _, _, _, rfl, rfl, by decide⟩
  obtain ⟨s1, o1, s2, ss, hx1, hx2, hx3⟩ := hx
  have h1 := h.step (.process rootWorld rfl rfl rfl rfl hx1 trivial)
  have h2 := h1.step (.task (extra := []) (.workerSendDiag rfl rfl rfl (show 0 < diagCap by decide)) (List.append_nil _).symm)
  have h3 := h2.step (.process rootWorld rfl rfl rfl rfl hx2 trivial)
  have h4 := h3.step (.answer (pre := []) (h := symbolHandler (.finished (.symbols (some ss)))) (post := [hoverHandler .awaiting]) rfl rfl)
  refine ⟨_, _, ss, h4, ?_, hx3, fun h => (by cases h), rfl, rfl⟩
  simp only [answersOf_append, ha, answersOf]
  rfl

end Fix

/-- not vacuous: the symbols are those a sequential server gives, and the hover request waits for its answer -/
example : ∃ es φ ss, FrontRun (fun _ => True) Fix.apartEnv 4 Fix.frontCalls es φ ∧ ss ≠ [] ∧ (1, some (.symbols (some ss))) ∈ answersOf es ∧
    (∃ (ms : List (World × Msg)) (is : List Msg) (w : World) (s s' : Server) (o : List Send), Server.init.run Fix.apartEnv ms = .ok s ∧
      s.handle Fix.apartEnv w (.documentSymbol Fix.uriT) = .ok (s', o, .symbols (some ss)) ∧
      Merge [.didOpen Fix.uriT c!"bbb"] is (ms.map Prod.snd) ∧ ∀ i ∈ is, internal i) ∧
    (∃ as, Execution (fun _ => True) Fix.apartEnv [.didOpen Fix.uriT c!"bbb", .documentSymbol Fix.uriT, .hover Fix.uriT ⟨0, 1⟩] as φ.sys) ∧
    ∃ x ∈ φ.running, x.phase = .awaiting ∧ .hover Fix.uriT ⟨0, 1⟩ ∈ φ.sys.lspQ := by
  obtain ⟨es, φ, ss, h, ha, hs, hw, hr, hst⟩ := Fix.front_run
  have hn : ∀ k, (k, none) ∉ answersOf es := by
    intro k hk
    rw [ha] at hk
    simp at hk
  refine ⟨es, φ, ss, h, hs, by rw [ha]; simp, ?_, ?_, ?_⟩
  · obtain ⟨ms, is, w, m, s, s', o, h1, h2, h3, h4, h5, _⟩ := C106_sequential _ _ _ _ _ _ h hn hw 1 (.symbols (some ss)) (.documentSymbol Fix.uriT)
      (by rw [ha]; simp) rfl trivial
    cases h1
    exact ⟨ms, is, w, s, s', o, h2, h3, h4, h5⟩
  · obtain ⟨as, he⟩ := C106_execution _ _ _ _ _ _ h hn hw (by rw [hr]; simp [Fix.hoverHandler])
    rw [hst] at he
    exact ⟨as, he⟩
  · obtain ⟨_, m, h1, h2⟩ := C106_waiting _ _ _ _ _ _ h (Fix.hoverHandler .awaiting) (by rw [hr]; simp) rfl
    cases h2
    exact ⟨_, by rw [hr]; exact List.mem_singleton.mpr rfl, rfl, h1⟩

end JinjaLsp
