import Verif.Props.Moved
import Verif.Props.Shifted
/-
  C127: text and comments between the tags do not matter.
-/

namespace JinjaLsp
open Spec

namespace Spec

/-- no part of the node means anything to a query: text between the tags, a comment -/
def Tagless (n : Syn) : Prop := ∀ m ∈ n.flat, m.kind = .other

instance (n : Syn) : Decidable (Tagless n) := by unfold Tagless; infer_instance

/-- the tags among nodes -/
def tagsAmong (cs : List Syn) : List Syn := cs.filter fun c => decide (¬ Tagless c)

/-- a document without what is between its tags -/
def tagsOnly : Syn → Syn
  | .node k f i a b t cs => .node k f i a b t (if k = .other then tagsAmong cs else cs)

end Spec

/-! ### Queries do not see what is between the tags -/

theorem Spec.Tagless.kind {n : Syn} (h : Tagless n) : n.kind = .other := by
  cases n with
  | node k f i a b t cs => exact h _ (by rw [Syn.flat]; exact List.mem_cons_self)

theorem Spec.Tagless.children {n : Syn} (h : Tagless n) : ∀ m ∈ Syn.flatAll n.children, m.kind = .other := by
  cases n with
  | node k f i a b t cs => exact fun m hm => h m (by rw [Syn.flat]; exact List.mem_cons_of_mem _ hm)

/-- a query that reports nothing at a node of no interest -/
def Unheard (q : Reports) : Prop := ∀ v up left n, n.kind = .other → q v up left n = []

mutual
theorem walk_tagless {q : Reports} (hq : Unheard q) (up : List Above) (left : List Syn) : (n : Syn) → (∀ m ∈ n.flat, m.kind = .other) →
    Syn.walk q up left n = []
  | .node k f i a b t cs, h => by
    rw [Syn.flat] at h
    have hk := h _ List.mem_cons_self
    rw [Syn.walk, hq _ _ _ _ hk, hq _ _ _ _ hk, walkAll_tagless hq _ _ cs fun m hm => h m (List.mem_cons_of_mem _ hm)]
    rfl

theorem walkAll_tagless {q : Reports} (hq : Unheard q) (up : List Above) (left : List Syn) : (cs : List Syn) → (∀ m ∈ Syn.flatAll cs, m.kind = .other) →
    Syn.walkAll q up left cs = []
  | [], _ => by rw [Syn.walkAll]
  | c :: cs, h => by
    rw [Syn.flatAll] at h
    rw [Syn.walkAll, walk_tagless hq _ _ c fun m hm => h m (List.mem_append_left _ hm),
      walkAll_tagless hq _ _ cs fun m hm => h m (List.mem_append_right _ hm)]
    rfl
end

/-- nodes that a query takes for the same ancestor; the places of those of no interest are only looked at when there are errors -/
structure SameAbove (e : Prop) (n n' : Syn) : Prop where
  kind : n'.kind = n.kind
  start : e → n'.start = n.start
  same : n.kind ≠ .other → n' = n

def SameBeside (l l' : List Syn) : Prop := tagsAmong l' = tagsAmong l

def SameUps (e : Prop) : List Above → List Above → Prop := Zip fun a a' => SameAbove e a.1 a'.1 ∧ SameBeside a.2 a'.2

/-- a query that looks at tags only -/
def TagLocal (q : Reports) : Prop :=
  ∀ e v up up' left left' n, SameUps e up up' → SameBeside left left' → (n.kind = .error → e) → q v up' left' n = q v up left n

theorem SameAbove.refl (e : Prop) (n : Syn) : SameAbove e n n := ⟨rfl, fun _ => rfl, fun _ => rfl⟩

theorem SameBeside.snoc {l l' : List Syn} (h : SameBeside l l') (n : Syn) : SameBeside (l ++ [n]) (l' ++ [n]) := by
  unfold SameBeside tagsAmong at h ⊢
  rw [List.filter_append, List.filter_append, h]

theorem SameBeside.snoc_tagless {l l' : List Syn} (h : SameBeside l l') {n : Syn} (hn : Tagless n) : SameBeside (l ++ [n]) l' := by
  unfold SameBeside tagsAmong at h ⊢
  rw [List.filter_append, h]
  simp [hn]

mutual
theorem TagLocal.walk {q : Reports} (hq : TagLocal q) {e : Prop} {up up' : List Above} {left left' : List Syn} (hu : SameUps e up up')
    (hl : SameBeside left left') : (n : Syn) → (∀ m ∈ n.flat, m.kind = .error → e) → Syn.walk q up' left' n = Syn.walk q up left n
  | .node k f i a b t cs, h => by
    rw [Syn.flat] at h
    have h0 := h _ List.mem_cons_self
    rw [Syn.walk, Syn.walk, hq _ _ _ _ _ _ _ hu hl h0, hq _ _ _ _ _ _ _ hu hl h0,
      TagLocal.walkAll hq (up := (.node k f i a b t cs, left) :: up) (up' := (.node k f i a b t cs, left') :: up') (.cons ⟨.refl _ _, hl⟩ hu) rfl cs
        fun m hm => h m (List.mem_cons_of_mem _ hm)]

theorem TagLocal.walkAll {q : Reports} (hq : TagLocal q) {e : Prop} {up up' : List Above} {left left' : List Syn} (hu : SameUps e up up')
    (hl : SameBeside left left') : (cs : List Syn) → (∀ m ∈ Syn.flatAll cs, m.kind = .error → e) → Syn.walkAll q up' left' cs = Syn.walkAll q up left cs
  | [], _ => by rw [Syn.walkAll, Syn.walkAll]
  | c :: cs, h => by
    rw [Syn.flatAll] at h
    rw [Syn.walkAll, Syn.walkAll, TagLocal.walk hq hu hl c fun m hm => h m (List.mem_append_left _ hm),
      TagLocal.walkAll hq hu (hl.snoc c) cs fun m hm => h m (List.mem_append_right _ hm)]
end

theorem TagLocal.walkTags {q : Reports} (hq : TagLocal q) (hs : Unheard q) {e : Prop} {up up' : List Above} (hu : SameUps e up up') :
    ∀ (cs left left' : List Syn), SameBeside left left' → (∀ m ∈ Syn.flatAll cs, m.kind = .error → e) →
      Syn.walkAll q up' left' (tagsAmong cs) = Syn.walkAll q up left cs
  | [], left, left', _, _ => by
    show Syn.walkAll q up' left' [] = _
    rw [Syn.walkAll, Syn.walkAll]
  | c :: cs, left, left', hl, h => by
    rw [Syn.flatAll] at h
    have h2 : ∀ m ∈ Syn.flatAll cs, m.kind = .error → e := fun m hm => h m (List.mem_append_right _ hm)
    by_cases hc : Tagless c
    · have : tagsAmong (c :: cs) = tagsAmong cs := by simp [tagsAmong, hc]
      rw [this, Syn.walkAll, walk_tagless hs _ _ c hc, TagLocal.walkTags hq hs hu cs _ _ (hl.snoc_tagless hc) h2]
      rfl
    · have : tagsAmong (c :: cs) = c :: tagsAmong cs := by simp [tagsAmong, hc]
      rw [this, Syn.walkAll, Syn.walkAll, TagLocal.walk hq hu hl c fun m hm => h m (List.mem_append_left _ hm),
        TagLocal.walkTags hq hs hu cs _ _ (hl.snoc c) h2]

theorem TagLocal.bare {q : Reports} (hq : TagLocal q) (hs : Unheard q) {n n' : Syn} (hk : n.kind = .other) (hk' : n'.kind = .other)
    (hc : n'.children = tagsAmong n.children) (he : ∀ m ∈ n.flat, m.kind = .error → n'.start = n.start) :
    Syn.walk q [] [] n' = Syn.walk q [] [] n := by
  cases n with
  | node k f i a b t cs =>
    cases n' with
    | node k' f' i' a' b' t' cs' =>
      simp only [Syn.children] at hc
      subst hc
      rw [Syn.walk, Syn.walk, hs _ _ _ _ hk, hs _ _ _ _ hk, hs _ _ _ _ hk', hs _ _ _ _ hk']
      rw [TagLocal.walkTags hq hs (e := a' = a) (up := [(.node k f i a b t cs, [])]) (up' := [(.node k' f' i' a' b' t' (tagsAmong cs), [])]) (.cons ⟨⟨hk'.trans hk.symm, fun h => h, fun h => absurd hk h⟩, rfl⟩ .nil)
        cs [] [] rfl fun m hm => he m (by rw [Syn.flat]; exact List.mem_cons_of_mem _ hm)]

theorem flatMap_beside {β : Type} {l l' : List Syn} (h : SameBeside l l') {g : Syn → List β} (hg : ∀ n, n.kind = .other → g n = []) :
    l'.flatMap g = l.flatMap g := by
  have key : ∀ l : List Syn, l.flatMap g = (tagsAmong l).flatMap g := by
    intro l
    induction l with
    | nil => rfl
    | cons c l ih =>
      by_cases hc : Tagless c
      · have : tagsAmong (c :: l) = tagsAmong l := by simp [tagsAmong, hc]
        rw [this, List.flatMap_cons, hg c hc.kind, ih]; rfl
      · have : tagsAmong (c :: l) = c :: tagsAmong l := by simp [tagsAmong, hc]
        rw [this, List.flatMap_cons, List.flatMap_cons, ih]
  rw [key l', key l, h]

theorem filter_beside {l l' : List Syn} (h : SameBeside l l') {p : Syn → Bool} (hp : ∀ n, n.kind = .other → p n = false) : l'.filter p = l.filter p := by
  have key : ∀ l : List Syn, l.filter p = (tagsAmong l).filter p := by
    intro l
    induction l with
    | nil => rfl
    | cons c l ih =>
      by_cases hc : Tagless c
      · have : tagsAmong (c :: l) = tagsAmong l := by simp [tagsAmong, hc]
        rw [this, List.filter_cons, hp c hc.kind, ih]; rfl
      · have : tagsAmong (c :: l) = c :: tagsAmong l := by simp [tagsAmong, hc]
        rw [this, List.filter_cons, List.filter_cons, ih]
  rw [key l', key l, h]

theorem filterMap_beside {β : Type} {l l' : List Syn} (h : SameBeside l l') {p : Syn → Bool} {g : Syn → List β} (hg : ∀ n, n.kind = .other → g n = []) :
    (l'.filter p).flatMap g = (l.filter p).flatMap g := by
  have key : ∀ l : List Syn, (l.filter p).flatMap g = l.flatMap fun x => if p x then g x else [] := by
    intro l
    induction l with
    | nil => rfl
    | cons c l ih =>
      rw [List.filter_cons, List.flatMap_cons, ← ih]
      split <;> simp
  rw [key, key]
  refine flatMap_beside h fun n hn => ?_
  split
  · exact hg n hn
  · rfl

theorem picks_tags (ps : List (Syn → Bool)) (hp : ∀ p ∈ ps, ∀ n : Syn, n.kind = .other → p n = false) :
    ∀ (l : List Syn), ps ≠ [] → picks ps l = picks ps (tagsAmong l) := by
  induction ps with
  | nil => intro l h; exact absurd rfl h
  | cons p ps ih =>
    intro l _
    have tail : ∀ l, picks ps l = picks ps (tagsAmong l) := by
      intro l
      cases ps with
      | nil => rw [picks, picks]
      | cons q qs => exact ih (fun r hr => hp r (List.mem_cons_of_mem _ hr)) l (by simp)
    induction l with
    | nil => rfl
    | cons c l ihl =>
      by_cases hc : Tagless c
      · have : tagsAmong (c :: l) = tagsAmong l := by simp [tagsAmong, hc]
        rw [this, picks, hp p List.mem_cons_self c hc.kind, ihl]; rfl
      · have : tagsAmong (c :: l) = c :: tagsAmong l := by simp [tagsAmong, hc]
        rw [this, picks, picks, ihl, tail l]

theorem picks_beside {l l' : List Syn} (h : SameBeside l l') {ps : List (Syn → Bool)} (hne : ps ≠ [])
    (hp : ∀ p ∈ ps, ∀ n : Syn, n.kind = .other → p n = false) : picks ps l' = picks ps l := by
  rw [picks_tags ps hp l' hne, picks_tags ps hp l hne, h]

theorem local_definitions (digit : Char → Bool) : TagLocal (qDefinitions digit) := by
  intro e v up up' left left' n hu hl hn
  cases v with
  | leave => rfl
  | enter =>
    simp only [qDefinitions]
    split
    · cases hu with
      | nil => rfl
      | cons hp hup =>
        simp only [hp.1.kind]
        split
        · rw [picks_beside hl (by simp) (by intro p hp n hn; cases List.mem_singleton.mp hp; simp [hn])]
          rfl
        · rfl
    all_goals rfl

theorem local_objects (digit : Char → Bool) : TagLocal (qObjects digit) := by
  intro e v up up' left left' n hu hl hn
  cases v <;> rfl

theorem local_imports (options : Syn → Syn → List (List Capture)) : TagLocal (qImports options) := by
  intro e v up up' left left' n hu hl hn
  cases v with
  | leave => rfl
  | enter =>
    simp only [qImports]
    split
    · cases hu with
      | nil => rfl
      | cons hp hup =>
        simp only [hp.1.kind]
        split
        · rename_i hk
          rw [picks_beside hl (by simp) (by
            intro p hp n hn
            simp only [List.mem_cons, List.not_mem_nil, or_false] at hp
            rcases hp with rfl | rfl | rfl <;> simp [hn]), hp.1.same (by rw [hk]; decide)]
          rfl
        · rfl
    all_goals rfl

theorem local_snippets : TagLocal qSnippets := by
  intro e v up up' left left' n hu hl hn
  cases v with
  | leave => rfl
  | enter =>
    simp only [qSnippets]
    split
    case h_4 =>
      cases hu with
      | nil => rfl
      | cons hp hup =>
        simp only [hp.1.kind]
        split
        · rename_i hk
          rw [hp.1.same (by rw [hk]; decide)]; rfl
        · rfl
    all_goals rfl

theorem local_rust : TagLocal qRustDefinitions := by
  intro e v up up' left left' n hu hl hn
  cases v with
  | leave =>
    simp only [qRustDefinitions]
    rw [picks_beside hl (by simp) (by intro p hp n hn; cases List.mem_singleton.mp hp; simp [hn])]
    rfl
  | enter =>
    simp only [qRustDefinitions]
    split
    · cases hu with
      | nil => rfl
      | cons hp hup =>
        simp only [hp.1.kind]
        split
        · rename_i hk
          simp only [Bool.and_eq_true, decide_eq_true_eq] at hk
          rw [hp.1.same (by rw [hk.1]; decide)]; rfl
        · rfl
    all_goals rfl

theorem local_templates (loose : Syn → Bool) (callKind argsKind via part literal : SKind) (hv : via ≠ .other) :
    TagLocal (qTemplates loose callKind argsKind via part literal) := by
  intro e v up up' left left' n hu hl hn
  cases v with
  | enter => rfl
  | leave =>
    simp only [qTemplates]
    cases hu with
    | nil => rfl
    | cons hp hup =>
      simp only [hp.1.kind]
      have : ∀ x, callees .identifier via part x left' = callees .identifier via part x left := fun x =>
        flatMap_beside hl (by
          intro n hn
          simp [hn, Ne.symm hv])
      rw [this]
      rfl

theorem local_python : TagLocal qPythonDefinitions := by
  intro e v up up' left left' n hu hl hn
  cases v with
  | leave => rfl
  | enter =>
    simp only [qPythonDefinitions]
    split
    · cases hu with
      | nil => rfl
      | cons h1 hup =>
        cases hup with
        | nil => rfl
        | cons h2 hup =>
          simp only [h1.1.kind, h2.1.kind]
          rw [filter_beside h1.2 (by intro n hn; simp [hn])]
          rfl
    · cases hu with
      | nil => rfl
      | cons h1 hup =>
        cases hup with
        | nil => rfl
        | @cons a2 b2 _ _ h2 hup =>
          cases hup with
          | nil => rfl
          | cons h3 hup =>
            have hf : (b2.1.kind = .argumentList ∧ b2.1.field = some SField.arguments) ↔ (a2.1.kind = .argumentList ∧ a2.1.field = some SField.arguments) := by
              rw [h2.1.kind]
              refine and_congr_right fun hk => ?_
              rw [h2.1.same (by rw [hk]; decide)]
            have hf' : ∀ P : Prop, (b2.1.kind = .argumentList ∧ b2.1.field = some SField.arguments ∧ P) ↔
                (a2.1.kind = .argumentList ∧ a2.1.field = some SField.arguments ∧ P) := fun P => by rw [← and_assoc, ← and_assoc, hf]
            simp only [hf', h1.1.kind, h3.1.kind]
            rw [filterMap_beside h2.2 (by intro n hn; simp [hn])]
            rfl
    all_goals rfl

theorem local_identifiers : TagLocal qPythonIdentifiers := by
  intro e v up up' left left' n hu hl hn
  cases v with
  | leave => rfl
  | enter =>
    simp only [qPythonIdentifiers]
    split
    · cases hu with
      | nil => rfl
      | cons hp hup =>
        simp only [hp.1.kind, single]
        split
        · rename_i hk
          simp only [decide_eq_true_eq] at hk
          have := hp.1.same (by rw [hk]; decide)
          simp only [Syn.cap, List.head?_cons, Option.map_some, this]
        · rfl
    · rename_i hk
      cases hu with
      | nil => rfl
      | cons hp hup => simp only [List.head?_cons, Option.map_some, hp.1.start (hn hk)]; rfl
    · rfl

theorem reports_local (sx : Syntax) (q : QueryId) : TagLocal (sx.reports q) := by
  cases q with
  | jinjaDefinitions => exact local_definitions _
  | jinjaObjects => exact local_objects _
  | jinjaImports => exact local_imports _
  | jinjaSnippets => exact local_snippets
  | pythonIdentifiers => exact local_identifiers
  | backendDefinitions g => cases g <;> first | exact local_rust | exact local_python
  | backendTemplates g => cases g <;> exact local_templates _ _ _ _ _ _ (by decide)

theorem reports_unheard (sx : Syntax) (q : QueryId) : Unheard (sx.reports q) := by
  intro v up left n hn
  cases q with
  | backendDefinitions g =>
    cases g <;> cases v <;> simp [Syntax.reports, qRustDefinitions, qPythonDefinitions, hn]
  | backendTemplates g =>
    cases g <;> cases v <;> simp only [Syntax.reports, qTemplates] <;> first | rfl | (split <;> simp [hn])
  | _ => cases v <;> simp [Syntax.reports, qDefinitions, qObjects, qImports, qSnippets, qPythonIdentifiers, hn]

theorem tagsOnly_walk (sx : Syntax) (q : QueryId) (n : Syn) : Syn.walk (sx.reports q) [] [] (tagsOnly n) = Syn.walk (sx.reports q) [] [] n := by
  cases n with
  | node k f i a b t cs =>
    by_cases hk : k = .other
    · subst hk
      exact (reports_local sx q).bare (reports_unheard sx q) rfl rfl (by simp [Spec.tagsOnly, Syn.children]) fun _ _ _ => rfl
    · simp only [Spec.tagsOnly, if_neg hk]

/-! ### The same tags at the same places -/

namespace Spec

/-- documents of which a parser makes the same tags -/
structure SameParser (sx sx' : Syntax) : Prop where
  digit : sx'.digit = sx.digit
  options : sx'.options = sx.options
  loose : sx'.loose = sx.loose
  tags : ∀ tree text, tagsOnly (sx'.root tree text) = tagsOnly (sx.root tree text)

end Spec

theorem over_tags (env : Env) {sx sx' : Syntax} (h : SameParser sx sx') : env.over sx' = env.over sx := by
  have : sx'.run = sx.run := by
    funext q tree text
    have hr : sx'.reports q = sx.reports q := by
      cases q <;> first
        | rfl
        | (simp only [Syntax.reports, h.digit, h.options, h.loose]; done)
        | (rename_i g; cases g <;> simp only [Syntax.reports, h.loose])
    show Syn.walk (sx'.reports q) [] [] (sx'.root tree text) = _
    rw [hr, ← tagsOnly_walk, h.tags, tagsOnly_walk]
    rfl
  simp only [Env.over, this]

/-- **C127** (parser) Whatever a parser makes of the text and the comments between the tags — one node, many, or none — every session with the
server goes the same way. -/
theorem C127_parser (W : World → Prop) (env : Env) (sx sx' : Syntax) (h : SameParser sx sx') (cs : List Msg) (as : List (HMap Str Diags)) (σ : Sys) :
    Execution W (env.over sx') cs as σ ↔ Execution W (env.over sx) cs as σ := by
  rw [over_tags env h]

/-! ### The same tags, renamed and moved -/

namespace Spec

/-- The tags of the second document are those of the first one rewritten; what is between them may be anything. -/
structure Recast.SameTags (φ : Recast) (r r' : Syn) : Prop where
  kind : r.kind = .other
  kind' : r'.kind = .other
  tags : Zip φ.Tree (tagsAmong r.children) (tagsAmong r'.children)

end Spec

theorem mem_tagsAmong {cs : List Syn} {m : Syn} (h : m ∈ Syn.flatAll (tagsAmong cs)) : m ∈ Syn.flatAll cs := by
  induction cs with
  | nil => exact h
  | cons c cs ih =>
    rw [Syn.flatAll]
    by_cases hc : Tagless c
    · have : tagsAmong (c :: cs) = tagsAmong cs := by simp [tagsAmong, hc]
      rw [this] at h
      exact List.mem_append_right _ (ih h)
    · have : tagsAmong (c :: cs) = c :: tagsAmong cs := by simp [tagsAmong, hc]
      rw [this, Syn.flatAll] at h
      rcases List.mem_append.mp h with h | h
      · exact List.mem_append_left _ h
      · exact List.mem_append_right _ (ih h)

theorem mem_tagsAmong_of {cs : List Syn} {m : Syn} (h : m ∈ Syn.flatAll cs) (hk : m.kind ≠ .other) : m ∈ Syn.flatAll (tagsAmong cs) := by
  induction cs with
  | nil => exact h
  | cons c cs ih =>
    rw [Syn.flatAll] at h
    by_cases hc : Tagless c
    · have : tagsAmong (c :: cs) = tagsAmong cs := by simp [tagsAmong, hc]
      rw [this]
      rcases List.mem_append.mp h with h | h
      · exact absurd (hc m h) hk
      · exact ih h
    · have : tagsAmong (c :: cs) = c :: tagsAmong cs := by simp [tagsAmong, hc]
      rw [this, Syn.flatAll]
      rcases List.mem_append.mp h with h | h
      · exact List.mem_append_left _ h
      · exact List.mem_append_right _ (ih h)

theorem mem_flat_other {n m : Syn} (h : m ∈ n.flat) (hn : n.kind = .other) (hk : m.kind ≠ .other) : m ∈ Syn.flatAll n.children := by
  cases n with
  | node k f i a b t cs =>
    rw [Syn.flat] at h
    rcases List.mem_cons.mp h with rfl | h
    · exact absurd hn hk
    · exact h

theorem mem_flat_children {n m : Syn} (h : m ∈ Syn.flatAll n.children) : m ∈ n.flat := by
  cases n with
  | node k f i a b t cs => rw [Syn.flat]; exact List.mem_cons_of_mem _ h

/-- a document with nothing but its tags, at some place -/
def bareDoc (p : Point) (i : Nat) (n : Syn) : Syn := .node .other none i p p none (tagsAmong n.children)

theorem mem_bareDoc {p : Point} {i : Nat} {n m : Syn} (h : m ∈ (bareDoc p i n).flat) (hk : m.kind ≠ .other) : m ∈ n.flat :=
  mem_flat_children (mem_tagsAmong (mem_flat_other h rfl hk))

open Classical in
/-- the grammar, but for two documents of which only the tags are kept -/
noncomputable def retold (sx : Syntax) (φ : Recast) (tree tree' : Tree) (text text' : Str) : Syntax :=
  { sx with root := fun T x =>
      if T = tree ∧ x = text then bareDoc ⟨0, 0⟩ 0 (sx.root tree text)
      else if T = tree' ∧ x = text' then bareDoc (φ.place ⟨0, 0⟩) (φ.node 0) (sx.root tree' text')
      else sx.root T x }

section
variable {sx : Syntax} {φ : Recast} {tree tree' : Tree} {text text' : Str}

theorem sameTags_noError (h : φ.SameTags (sx.root tree text) (sx.root tree' text')) (hno : ¬ HasError (sx.root tree text)) :
    ¬ HasError (sx.root tree' text') := by
  rintro ⟨m', hm', hk⟩
  have h1 := mem_tagsAmong_of (mem_flat_other hm' h.kind' (by rw [hk]; decide)) (by rw [hk]; decide)
  obtain ⟨m, hm, hr⟩ := (Recast.Tree.flatAll _ _ h.tags).mem_right h1
  exact hno ⟨m, mem_flat_children (mem_tagsAmong hm), hr.kind ▸ hk⟩

theorem retold_run (h : φ.SameTags (sx.root tree text) (sx.root tree' text')) (hno : ¬ HasError (sx.root tree text)) :
    (retold sx φ tree tree' text text').run = sx.run := by
  have hno' := sameTags_noError h hno
  funext q T x
  have hr : (retold sx φ tree tree' text text').reports q = sx.reports q := by
    cases q <;> first | rfl | (rename_i g; cases g <;> rfl)
  show Syn.walk ((retold sx φ tree tree' text text').reports q) [] [] ((retold sx φ tree tree' text text').root T x) = Syn.walk (sx.reports q) [] [] (sx.root T x)
  rw [hr]
  simp only [retold]
  split
  · rename_i hc
    rw [hc.1, hc.2]
    exact (reports_local sx q).bare (reports_unheard sx q) h.kind rfl rfl fun m hm hk => absurd ⟨m, hm, hk⟩ hno
  · split
    · rename_i hc
      rw [hc.1, hc.2]
      exact (reports_local sx q).bare (reports_unheard sx q) h.kind' rfl rfl fun m hm hk => absurd ⟨m, hm, hk⟩ hno'
    · rfl

theorem retold_over (env : Env) (h : φ.SameTags (sx.root tree text) (sx.root tree' text')) (hno : ¬ HasError (sx.root tree text)) :
    env.over (retold sx φ tree tree' text text') = env.over sx := by
  simp only [Env.over, retold_run h hno]

theorem retold_first : (retold sx φ tree tree' text text').root tree text = bareDoc ⟨0, 0⟩ 0 (sx.root tree text) := by
  simp only [retold, and_self, if_true]

theorem retold_second (hne : text' ≠ text) :
    (retold sx φ tree tree' text text').root tree' text' = bareDoc (φ.place ⟨0, 0⟩) (φ.node 0) (sx.root tree' text') := by
  simp only [retold, hne, and_false, if_false, and_self, if_true]

theorem retold_tree (hne : text' ≠ text) (h : φ.SameTags (sx.root tree text) (sx.root tree' text')) :
    φ.Tree ((retold sx φ tree tree' text text').root tree text) ((retold sx φ tree tree' text text').root tree' text') := by
  rw [retold_first, retold_second hne]
  exact .node trivial (by intro e; cases e) h.tags

theorem retold_noError (hno : ¬ HasError (sx.root tree text)) : ¬ HasError ((retold sx φ tree tree' text text').root tree text) := by
  rw [retold_first]
  rintro ⟨m, hm, hk⟩
  exact hno ⟨m, mem_bareDoc hm (by rw [hk]; decide), hk⟩

theorem measured_bare {p : Point} {i : Nat} {n : Syn} (h : Measured n) : Measured (bareDoc p i n) :=
  ⟨fun m hm hk => h.small m (mem_bareDoc hm (by rw [hk]; decide)) hk, fun m hm hk => h.solid m (mem_bareDoc hm (by rw [hk]; decide)) hk⟩

end

/-- **C127** (reports) Two templates whose tags correspond, renamed and moved in any way that keeps the order of places, with any text and any
comments between them: the same names are reported in the same way, at the corresponding places. -/
theorem C127_reports (env : Env) (sx : Syntax) (φ : Recast) (w w' : World) (s s' t t' : Server) (uri uri' text text' : Str)
    (tree tree' : Tree) (out out' : List Send) (ok : φ.Ok sx.digit) (hne : text' ≠ text) (ht : φ.SameTags (sx.root tree text) (sx.root tree' text'))
    (he : env.rootEnd tree' = φ.place (env.rootEnd tree)) (hno : ¬ HasError (sx.root tree text))
    (h : Analysed (env.over sx) w s uri text tree s' out) (h' : Analysed (env.over sx) w' t uri' text' tree' t' out')
    (hi : s.files.ignoreGlobals = false) (hi' : t.files.ignoreGlobals = false)
    (hk : ∀ n, φ.name n ∈ knownElsewhere t.files.variables uri' ↔ n ∈ knownElsewhere s.files.variables uri)
    (hv : φ.place ⟨0, 0⟩ = ⟨0, 0⟩ ∨ ∀ vs, s'.files.variables.get? uri = some vs → ∀ v ∈ vs, v.scopeEnd ≠ ⟨0, 0⟩) :
    ∃ ds ds', out = [.diag (HMap.empty.insert uri ds)] ∧ out' = [.diag (HMap.empty.insert uri' ds')] ∧
      useDiags ds' = (useDiags ds).map φ.report := by
  rw [← retold_over env ht hno] at h h'
  exact C92_reports env (retold sx φ tree tree' text text') φ w w' s s' t t' uri uri' text text' tree tree' out out' ok (retold_tree hne ht) he (retold_noError hno) h h' hi hi' hk hv

/-- **C127** (references) The same templates are reported missing, at the corresponding places. -/
theorem C127_references (env : Env) (sx : Syntax) (φ : Recast) (w w' : World) (s s' t t' : Server) (uri uri' text text' : Str)
    (tree tree' : Tree) (out out' : List Send) (ok : φ.Ok sx.digit) (hne : text' ≠ text) (ht : φ.SameTags (sx.root tree text) (sx.root tree' text'))
    (he : env.rootEnd tree' = φ.place (env.rootEnd tree)) (hno : ¬ HasError (sx.root tree text)) (ho : φ.Options sx.options)
    (h : Analysed (env.over sx) w s uri text tree s' out) (h' : Analysed (env.over sx) w' t uri' text' tree' t' out')
    (hdir : t.files.config.templates = s.files.config.templates) (hw : ∀ p, w'.canonicalize p = w.canonicalize p) :
    ∃ ds ds', out = [.diag (HMap.empty.insert uri ds)] ∧ out' = [.diag (HMap.empty.insert uri' ds')] ∧
      (missingDiags ds').Perm ((missingDiags ds).map φ.missing) := by
  rw [← retold_over env ht hno] at h h'
  exact C92_references env (retold sx φ tree tree' text text') φ w w' s s' t t' uri uri' text text' tree tree' out out' ok (retold_tree hne ht) he (retold_noError hno) ho h h' hdir hw

/-- **C127** (outline) The outline has the same entries, at the corresponding places. -/
theorem C127_symbols (env : Env) (sx : Syntax) (φ : Recast) (w w' w1 w2 : World) (s s' t t' : Server) (uri uri' text text' : Str)
    (tree tree' : Tree) (out out' : List Send) (ok : φ.Ok sx.digit) (hne : text' ≠ text) (ht : φ.SameTags (sx.root tree text) (sx.root tree' text'))
    (he : env.rootEnd tree' = φ.place (env.rootEnd tree)) (hno : ¬ HasError (sx.root tree text))
    (h : Analysed (env.over sx) w s uri text tree s' out) (h' : Analysed (env.over sx) w' t uri' text' tree' t' out') :
    ∃ bs : List Binding,
      s'.handle (env.over sx) w1 (.documentSymbol uri) = .ok (s', [], .symbols (some
        (bs.map fun b => ⟨b.name, b.kind.symbolKind, toRange (b.start, b.stop), toRange (b.start, b.stop)⟩))) ∧
      t'.handle (env.over sx) w2 (.documentSymbol uri') = .ok (t', [], .symbols (some
        ((bs.map φ.binding).map fun b => ⟨b.name, b.kind.symbolKind, toRange (b.start, b.stop), toRange (b.start, b.stop)⟩))) := by
  rw [← retold_over env ht hno] at h h' ⊢
  exact C92_symbols env (retold sx φ tree tree' text text') φ w w' w1 w2 s s' t t' uri uri' text text' tree tree' out out' ok (retold_tree hne ht) he (retold_noError hno) h h'

/-- **C127** (goto-definition) Asked at corresponding positions, goto-definition leads to corresponding places. -/
theorem C127_goto (env : Env) (sx : Syntax) (φ : Recast) (w w' w1 w2 : World) (s s' t t' : Server) (uri text text' : Str)
    (tree tree' : Tree) (out out' : List Send) (pos pos' : Position)
    (ok : φ.Ok sx.digit) (hne : text' ≠ text) (ht : φ.SameTags (sx.root tree text) (sx.root tree' text')) (ho : φ.Options sx.options)
    (he : env.rootEnd tree' = φ.place (env.rootEnd tree)) (hno : ¬ HasError (sx.root tree text))
    (hm : Measured (sx.root tree text)) (hm' : Measured (sx.root tree' text'))
    (h : Analysed (env.over sx) w s uri text tree s' out) (h' : Analysed (env.over sx) w' t uri text' tree' t' out')
    (hs : φ.SameElse uri s.files t.files) (hw : ∀ p, w2.canonicalize p = w1.canonicalize p)
    (hpos : toPoint pos' = φ.place (toPoint pos)) (hp : toPoint pos ≠ ⟨0, 0⟩ ∨ φ.place ⟨0, 0⟩ = ⟨0, 0⟩) :
    (∃ r r', s'.handle (env.over sx) w1 (.goto uri pos) = .ok (s', [], .goto r) ∧
      t'.handle (env.over sx) w2 (.goto uri pos') = .ok (t', [], .goto r') ∧ φ.GotoAs uri r r') ∨
    ∃ e, s'.handle (env.over sx) w1 (.goto uri pos) = .error e ∧ t'.handle (env.over sx) w2 (.goto uri pos') = .error e := by
  rw [← retold_over env ht hno] at h h' ⊢
  exact C115_goto env (retold sx φ tree tree' text text') φ w w' w1 w2 s s' t t' uri text text' tree tree' out out' pos pos' ok (retold_tree hne ht) ho he (retold_noError hno)
    (by rw [retold_first]; exact measured_bare hm) (by rw [retold_second hne]; exact measured_bare hm') h h' hs hw hpos hp

/-- **C127** (hover) Asked at corresponding positions, hover shows the same text. -/
theorem C127_hover (env : Env) (sx : Syntax) (φ : Recast) (w w' w1 w2 : World) (s s' t t' : Server) (uri text text' : Str)
    (tree tree' : Tree) (out out' : List Send) (pos pos' : Position)
    (ok : φ.Ok sx.digit) (hne : text' ≠ text) (ht : φ.SameTags (sx.root tree text) (sx.root tree' text'))
    (he : env.rootEnd tree' = φ.place (env.rootEnd tree)) (hno : ¬ HasError (sx.root tree text))
    (hm : Measured (sx.root tree text)) (hm' : Measured (sx.root tree' text'))
    (h : Analysed (env.over sx) w s uri text tree s' out) (h' : Analysed (env.over sx) w' t uri text' tree' t' out')
    (hs : φ.SameElse uri s.files t.files)
    (hkind : ∀ vs, s'.files.variables.get? uri = some vs → ∀ a ∈ vs, ∀ b ∈ vs, a.name = b.name → a.start = b.start → a.stop = b.stop →
      a.idType = b.idType)
    (hdocs : ∀ e ∈ filterTable ++ testTable, φ.name e.1 = e.1)
    (hpos : toPoint pos' = φ.place (toPoint pos)) (hp : toPoint pos ≠ ⟨0, 0⟩ ∨ φ.place ⟨0, 0⟩ = ⟨0, 0⟩) :
    (∃ r, s'.handle (env.over sx) w1 (.hover uri pos) = .ok (s', [], .hover r) ∧
      t'.handle (env.over sx) w2 (.hover uri pos') = .ok (t', [], .hover r)) ∨
    ∃ e, s'.handle (env.over sx) w1 (.hover uri pos) = .error e ∧ t'.handle (env.over sx) w2 (.hover uri pos') = .error e := by
  rw [← retold_over env ht hno] at h h' ⊢
  exact C115_hover env (retold sx φ tree tree' text text') φ w w' w1 w2 s s' t t' uri text text' tree tree' out out' pos pos' ok (retold_tree hne ht) he (retold_noError hno)
    (by rw [retold_first]; exact measured_bare hm) (by rw [retold_second hne]; exact measured_bare hm') h h' hs hkind hdocs hpos hp

/-- **C127** (completion) When tags are moved by whole lines, completion offers the same items, moved alike. -/
theorem C127_completion_partial (env : Env) (sx : Syntax) (φ : Recast) (g : Nat → Nat) (w w' w1 w2 : World) (s s' t t' : Server) (uri text text' : Str)
    (tree tree' : Tree) (out out' : List Send) (pos : Position) (trigger : TriggerKind)
    (ok : φ.Ok sx.digit) (hl : φ.Lines g) (hne : text' ≠ text) (ht : φ.SameTags (sx.root tree text) (sx.root tree' text')) (ho : φ.Options sx.options)
    (he : env.rootEnd tree' = φ.place (env.rootEnd tree)) (hno : ¬ HasError (sx.root tree text))
    (hm : Measured (sx.root tree text)) (hm' : Measured (sx.root tree' text'))
    (hr : MeasuredRefs sx tree text) (hr' : MeasuredRefs sx tree' text')
    (h : Analysed (env.over sx) w s uri text tree s' out) (h' : Analysed (env.over sx) w' t uri text' tree' t' out')
    (hs : φ.SameTemplates uri s.files t.files) (hp : toPoint pos ≠ ⟨0, 0⟩ ∨ φ.place ⟨0, 0⟩ = ⟨0, 0⟩) :
    (∃ r r', s'.handle (env.over sx) w1 (.completion uri pos trigger) = .ok (s', [], .completion r) ∧
      t'.handle (env.over sx) w2 (.completion uri (movedPosition g pos) trigger) = .ok (t', [], .completion r') ∧
      OptPerm (r.map (List.map (movedItem g))) r') ∨
    ∃ e, s'.handle (env.over sx) w1 (.completion uri pos trigger) = .error e ∧
      t'.handle (env.over sx) w2 (.completion uri (movedPosition g pos) trigger) = .error e := by
  rw [← retold_over env ht hno] at h h' ⊢
  refine C116_completion_partial env (retold sx φ tree tree' text text') φ g w w' w1 w2 s s' t t' uri text text' tree tree' out out' pos trigger ok hl (retold_tree hne ht) ho he
    (retold_noError hno) (by rw [retold_first]; exact measured_bare hm) (by rw [retold_second hne]; exact measured_bare hm') ?_ ?_ h h' hs hp
  · unfold MeasuredRefs at hr ⊢; rw [retold_run ht hno]; exact hr
  · unfold MeasuredRefs at hr' ⊢; rw [retold_run ht hno]; exact hr'

/-! ### Examples -/

namespace Fix

/-- a comment of two lines -/
def remark : Syn := .node .other none 77 ⟨2, 0⟩ ⟨3, 9⟩ (some c!"{# {{ b }}\n and so #}") [lf .other 78 2 0 2 c!"{#", lf .other 79 3 7 9 c!"#}"]

/-- `short` with a comment in place of the empty line -/
def noisy : Syn :=
  match recast gapped short with
  | .node k f i _ b t (c :: _ :: cs) => .node k f i ⟨0, 4⟩ b t (lf .other 76 0 4 9 c!"hello" :: c :: remark :: cs)
  | n => n

/-- the tree of the text `n` is the one with the comment -/
def synNoisy : Syntax := { syn with root := fun _ text => if text = c!"n" then noisy else short }

theorem noisy_tags : gapped.SameTags (synNoisy.root treeOne []) (synNoisy.root treeTwo c!"n") := by
  refine ⟨rfl, rfl, ?_⟩
  have h1 : tagsAmong short.children = [short.children[0], short.children[2]] := by rfl
  have h2 : tagsAmong noisy.children = [recast gapped short.children[0], recast gapped short.children[2]] := by rfl
  show Zip gapped.Tree (tagsAmong short.children) (tagsAmong noisy.children)
  rw [h1, h2]
  exact .cons (recast_tree gapped _ (by decide)) (.cons (recast_tree gapped _ (by decide)) .nil)

end Fix

/-- the hypotheses of the theorems about moved tags hold, and `ab` is offered for `a` on row 3, or on row 5 with text and a comment above -/
example : Fix.gapped.Ok Fix.synNoisy.digit ∧ Fix.gapped.Lines Fix.gap ∧ Fix.gapped.SameTags (Fix.synNoisy.root Fix.treeOne []) (Fix.synNoisy.root Fix.treeTwo c!"n") ∧
    Fix.gapped.Options Fix.synNoisy.options ∧ Fix.envGap.rootEnd Fix.treeTwo = Fix.gapped.place (Fix.envGap.rootEnd Fix.treeOne) ∧
    ¬ HasError (Fix.synNoisy.root Fix.treeOne []) ∧ Measured (Fix.synNoisy.root Fix.treeOne []) ∧ Measured (Fix.synNoisy.root Fix.treeTwo c!"n") ∧
    MeasuredRefs Fix.synNoisy Fix.treeOne [] ∧ MeasuredRefs Fix.synNoisy Fix.treeTwo c!"n" ∧
    Fix.gapped.SameTemplates Fix.uriA Fix.server.files Fix.server.files ∧ Fix.gapped.place ⟨0, 0⟩ = ⟨0, 0⟩ ∧
    (∀ n, Fix.gapped.name n ∈ knownElsewhere Fix.server.files.variables Fix.uriA ↔ n ∈ knownElsewhere Fix.server.files.variables Fix.uriA) ∧
    (∀ e ∈ filterTable ++ testTable, Fix.gapped.name e.1 = e.1) ∧
    ∃ s' out t' out', Analysed (Fix.envGap.over Fix.synNoisy) Fix.world Fix.server Fix.uriA [] Fix.treeOne s' out ∧
      Analysed (Fix.envGap.over Fix.synNoisy) Fix.world Fix.server Fix.uriA c!"n" Fix.treeTwo t' out' ∧
      (∀ vs, s'.files.variables.get? Fix.uriA = some vs → ∀ a ∈ vs, ∀ b ∈ vs, a.name = b.name → a.start = b.start → a.stop = b.stop →
        a.idType = b.idType) ∧
      s'.handle (Fix.envGap.over Fix.synNoisy) Fix.world (.completion Fix.uriA ⟨3, 4⟩ .invoked) = .ok (s', [], .completion (some [Fix.itemAt 3])) ∧
      t'.handle (Fix.envGap.over Fix.synNoisy) Fix.world (.completion Fix.uriA (movedPosition Fix.gap ⟨3, 4⟩) .invoked) =
        .ok (t', [], .completion (some [Fix.itemAt 5])) ∧ movedItem Fix.gap (Fix.itemAt 3) = Fix.itemAt 5 := by
  refine ⟨Fix.gapped_ok, Fix.gapped_lines, Fix.noisy_tags, fun _ _ _ _ _ _ => .single .nil, rfl, ?_, ⟨by unfold SmallPoint; decide, by decide⟩,
    ⟨by unfold SmallPoint; decide, by decide⟩, ?_, ?_, ⟨⟨fun _ _ => rfl, rfl, fun _ _ _ _ _ _ _ _ => rfl⟩, fun _ _ => rfl, rfl⟩, rfl, fun _ => Iff.rfl,
    fun _ _ => rfl, _, _, _, _,
    ⟨⟨.didOpen Fix.uriA [], _, .opened _, rfl⟩, by decide, rfl, rfl⟩, ⟨⟨.didOpen Fix.uriA c!"n", _, .opened _, rfl⟩, by decide, rfl, rfl⟩,
    ?_, rfl, rfl, rfl⟩
  · rintro ⟨n, hn, hk⟩
    exact absurd hk (by revert n; decide)
  · unfold MeasuredRefs SmallPoint; decide
  · unfold MeasuredRefs SmallPoint; decide
  · intro vs h
    cases h
    decide

/-- parsers that keep and that drop what is between the tags (`C127_parser`): the trees differ -/
example : SameParser Fix.synNoisy { Fix.synNoisy with root := fun tree text => tagsOnly (Fix.synNoisy.root tree text) } ∧
    (tagsOnly (Fix.synNoisy.root Fix.treeTwo c!"n")).children.length = 2 ∧ (Fix.synNoisy.root Fix.treeTwo c!"n").children.length = 4 := by
  refine ⟨⟨rfl, rfl, rfl, fun tree text => ?_⟩, rfl, rfl⟩
  show tagsOnly (tagsOnly (Fix.synNoisy.root tree text)) = _
  cases Fix.synNoisy.root tree text with
  | node k f i a b t cs =>
    simp only [tagsOnly]
    split
    · simp [tagsAmong, List.filter_filter]
    · rfl

end JinjaLsp
