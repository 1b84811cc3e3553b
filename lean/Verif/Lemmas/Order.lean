import Verif.Props.Goto
import Verif.Props.Actions
/- Lemmas about the iteration order of hash maps: what may differ and what may not. -/

namespace JinjaLsp
open Spec

/-! ## Equality up to ordering -/

/-- the same list up to ordering, or no list on both sides -/
def Spec.OptPerm {α : Type} : Option (List α) → Option (List α) → Prop
  | none, none => True
  | some a, some b => a.Perm b
  | _, _ => False

/-- both computations panic in the same way, or both succeed with related results -/
def Spec.Agree {α β : Type} (R : α → β → Prop) : Res α → Res β → Prop
  | .error e, .error e' => e = e'
  | .ok a, .ok b => R a b
  | _, _ => False

/-- two lists of the same length whose elements are related one by one -/
inductive Spec.Each.{u, v} {α : Type u} {β : Type v} (R : α → β → Prop) : List α → List β → Prop where
  | nil : Each R [] []
  | cons {a b as bs} : R a b → Each R as bs → Each R (a :: as) (b :: bs)

/-- lists of (file, list) that are the same up to the order of the files and the order within each list -/
inductive Spec.SameLists {α : Type} : List (Str × List α) → List (Str × List α) → Prop where
  | nil : SameLists [] []
  | cons {u ds ds' l l'} : ds.Perm ds' → SameLists l l' → SameLists ((u, ds) :: l) ((u, ds') :: l')
  | swap {x y l} : SameLists (x :: y :: l) (y :: x :: l)
  | trans {a b c} : SameLists a b → SameLists b c → SameLists a c

/-- the file system is the same, only the iteration order of hash maps may be different -/
structure Spec.SameDisk (w w' : World) : Prop where
  canonicalize : w'.canonicalize = w.canonicalize
  readFile : w'.readFile = w.readFile
  walk : w'.walk = w.walk

theorem Spec.SameDisk.eq {w w' : World} (h : SameDisk w w') : ∃ o, w' = { w with order := o } := by
  obtain ⟨h1, h2, h3⟩ := h
  refine ⟨w'.order, ?_⟩
  cases w; cases w'
  simp only at h1 h2 h3
  subst h1; subst h2; subst h3
  rfl

theorem OptPerm.refl {α : Type} : ∀ (a : Option (List α)), OptPerm a a
  | none => trivial
  | some _ => List.Perm.refl _

theorem OptPerm.trans {α : Type} : ∀ {a b c : Option (List α)}, OptPerm a b → OptPerm b c → OptPerm a c
  | none, none, none, _, _ => trivial
  | some _, some _, some _, h, h' => List.Perm.trans h h'

theorem Agree.refl {α : Type} {R : α → α → Prop} (h : ∀ a, R a a) : ∀ (a : Res α), Agree R a a
  | .error _ => rfl
  | .ok a => h a

theorem SameLists.refl {α : Type} : ∀ (l : List (Str × List α)), SameLists l l
  | [] => .nil
  | (_, _) :: l => .cons (List.Perm.refl _) (SameLists.refl l)

theorem SameLists.of_perm {α : Type} {l l' : List (Str × List α)} (h : l.Perm l') : SameLists l l' := by
  induction h with
  | nil => exact .nil
  | cons x _ ih => exact .cons (List.Perm.refl _) ih
  | swap x y l => exact .swap
  | trans _ _ h1 h2 => exact .trans h1 h2

theorem SameLists.of_lookup {α : Type} : ∀ (es es' : List (Str × List α)), (es.map Prod.fst).Nodup → (es'.map Prod.fst).Nodup →
    (∀ k v, (k, v) ∈ es → ∃ v', (k, v') ∈ es' ∧ v.Perm v') → (∀ k v', (k, v') ∈ es' → ∃ v, (k, v) ∈ es) → SameLists es es'
  | [], es', _, _, _, h2 => by
    cases es' with
    | nil => exact .nil
    | cons e es' => obtain ⟨v, hv⟩ := h2 e.1 e.2 (by simp); cases hv
  | (k, v) :: es, es', n1, n2, h1, h2 => by
    obtain ⟨v', hv', hp⟩ := h1 k v (by simp)
    obtain ⟨a, b, rfl⟩ := List.append_of_mem hv'
    have hperm : (a ++ (k, v') :: b).Perm ((k, v') :: (a ++ b)) := List.perm_middle
    have n2' := (hperm.map Prod.fst).nodup_iff.mp n2
    simp only [List.map_cons, List.nodup_cons] at n1 n2'
    refine .trans (b := (k, v') :: (a ++ b)) (.cons hp ?_) (SameLists.of_perm hperm.symm)
    refine SameLists.of_lookup es (a ++ b) n1.2 n2'.2 ?_ ?_
    · intro j x hx
      obtain ⟨x', hx', hxp⟩ := h1 j x (List.mem_cons_of_mem _ hx)
      refine ⟨x', ?_, hxp⟩
      rcases List.mem_cons.mp (hperm.mem_iff.mp hx') with he | he
      · cases he
        exact absurd (List.mem_map_of_mem (f := Prod.fst) hx) n1.1
      · exact he
    · intro j x hx
      obtain ⟨y, hy⟩ := h2 j x (hperm.mem_iff.mpr (List.mem_cons_of_mem _ hx))
      rcases List.mem_cons.mp hy with he | he
      · cases he
        exact absurd (List.mem_map_of_mem (f := Prod.fst) hx) n2'.1
      · exact ⟨y, he⟩

theorem SameLists.map {α β : Type} {l l' : List (Str × List α)} (h : SameLists l l') (g : Str → Str) (f : List α → List β)
    (hf : ∀ a b : List α, a.Perm b → (f a).Perm (f b)) :
    SameLists (l.map fun e => (g e.1, f e.2)) (l'.map fun e => (g e.1, f e.2)) := by
  induction h with
  | nil => exact .nil
  | cons hp _ ih => exact .cons (hf _ _ hp) ih
  | swap => exact .swap
  | trans _ _ h1 h2 => exact .trans h1 h2

theorem shuffle_perm (o o' : HashOrder) {α : Type} (n : Nat) (l : List α) : (o.shuffle n l).Perm (o'.shuffle n l) :=
  (o.perm n l).trans (o'.perm n l).symm

/-! ## Analysis -/

theorem objectDiag_order (o o' : HashOrder) (vs : Variables) (this : List Identifier) (ig : Bool) (obj : JinjaObject) :
    objectDiag o vs this ig obj = objectDiag o' vs this ig obj := by
  unfold objectDiag
  rw [(shuffle_perm o o' 1 vs.entries).any_eq]

theorem searchErrors_order (env : Env) (w : World) (o : HashOrder) (t : Tree) (c : Str) (vs : Variables) (n d : Str) (l : LangType) (ig : Bool) :
    Agree OptPerm (searchErrors env w t c vs n d l ig) (searchErrors env { w with order := o } t c vs n d l ig) := by
  cases l with
  | backend =>
    unfold searchErrors
    simp only
    cases vs.get? n with
    | none => trivial
    | some a => exact List.Perm.refl _
  | template =>
    unfold searchErrors
    simp only
    cases objectsQuery env t Point.zero c true with
    | error e => rfl
    | ok objs =>
      cases vs.get? n with
      | none => trivial
      | some this =>
        have h1 : (objectDiag o vs this ig) = objectDiag w.order vs this ig := by
          funext x; exact objectDiag_order _ _ _ _ _ _
        simp only [h1, Agree, OptPerm]
        refine List.Perm.append (List.Perm.refl _) ?_
        unfold JinjaImports.collect
        exact (((shuffle_perm w.order o 0 _).flatMap_right _).filter _).filterMap _

theorem readTree_order (env : Env) (w : World) (o : HashOrder) (f : LspFiles) (n : Str) :
    Agree OptPerm (f.readTree env w n) (f.readTree env { w with order := o } n) := by
  unfold LspFiles.readTree
  cases f.documents.get? n with
  | none => trivial
  | some c =>
    simp only
    cases fileExt n with
    | none => trivial
    | some l =>
      simp only
      cases (f.trees l).get? n with
      | none => trivial
      | some t => exact searchErrors_order env w o t c f.variables n f.config.templates l f.ignoreGlobals

/-- what `read_trees` stores for a key -/
theorem readTreesLoop_get {env : Env} {w : World} {f : LspFiles} : ∀ (ns : List Str) (m : HMap Str Diags),
    ∃ m', f.readTreesLoop env w ns m = .ok m' ∧ ∀ k, ∃ v, f.readTree env w k = .ok v ∧
      m'.get? k = if k ∈ ns then v.or (m.get? k) else m.get? k
  | [], m => ⟨m, rfl, fun k => by
      obtain ⟨v, hv⟩ := readTree_ok env w f k
      exact ⟨v, hv, by simp⟩⟩
  | n :: ns, m => by
    unfold LspFiles.readTreesLoop
    obtain ⟨v, hv⟩ := readTree_ok env w f n
    rw [hv]
    cases v with
    | none =>
      obtain ⟨m', h1, h2⟩ := readTreesLoop_get ns m
      refine ⟨m', h1, fun k => ?_⟩
      obtain ⟨v, h3, h4⟩ := h2 k
      refine ⟨v, h3, ?_⟩
      rw [h4]
      by_cases hk : k = n
      · subst hk
        rw [hv] at h3; cases h3
        simp
      · simp [hk]
    | some x =>
      obtain ⟨m', h1, h2⟩ := readTreesLoop_get ns (m.insert n x)
      refine ⟨m', h1, fun k => ?_⟩
      obtain ⟨v, h3, h4⟩ := h2 k
      refine ⟨v, h3, ?_⟩
      rw [h4]
      by_cases hk : k = n
      · subst hk
        rw [hv] at h3; cases h3
        simp
      · simp [hk, HMap.get?_insert_ne _ _ hk]

theorem readTrees_order (env : Env) (w : World) (o : HashOrder) (f : LspFiles) :
    Agree (fun m m' => ∀ k, OptPerm (m.get? k) (m'.get? k)) (f.readTrees env w) (f.readTrees env { w with order := o }) := by
  unfold LspFiles.readTrees
  obtain ⟨m, h1, h2⟩ := readTreesLoop_get (env := env) (w := w) (f := f) ((w.order.shuffle 4 (f.trees .template).entries).map Prod.fst) HMap.empty
  obtain ⟨m', h1', h2'⟩ := readTreesLoop_get (env := env) (w := { w with order := o }) (f := f)
    ((o.shuffle 4 (f.trees .template).entries).map Prod.fst) HMap.empty
  rw [h1, h1']
  intro k
  obtain ⟨v, h3, h4⟩ := h2 k
  obtain ⟨v', h3', h4'⟩ := h2' k
  have hv := readTree_order env w o f k
  rw [h3, h3'] at hv
  have hmem : k ∈ (w.order.shuffle 4 (f.trees .template).entries).map Prod.fst ↔ k ∈ (o.shuffle 4 (f.trees .template).entries).map Prod.fst :=
    ((shuffle_perm w.order o 4 _).map _).mem_iff
  rw [h4, h4']
  by_cases hk : k ∈ (w.order.shuffle 4 (f.trees .template).entries).map Prod.fst
  · rw [if_pos hk, if_pos (hmem.mp hk)]
    change OptPerm v v' at hv
    simpa using hv
  · rw [if_neg hk, if_neg (fun h => hk (hmem.mpr h))]
    exact OptPerm.refl _

/-! ## Initialization -/

theorem readFile_order (env : Env) (w : World) (o : HashOrder) (f : LspFiles) (p : Str) (l : LangType) :
    f.readFile env { w with order := o } p l = f.readFile env w p l := rfl

theorem walkItems_order (env : Env) (w : World) (o : HashOrder) : ∀ (is : List WalkItem) (f : LspFiles),
    walkItems env { w with order := o } f is = walkItems env w f is
  | [], _ => rfl
  | .err :: _, _ => rfl
  | .nonFile _ :: is, f => walkItems_order env w o is f
  | .file p :: is, f => by
    unfold walkItems
    cases fileExt p with
    | none => exact walkItems_order env w o is f
    | some l =>
      simp only [readFile_order]
      cases f.readFile env w p l with
      | error e => rfl
      | ok g => exact walkItems_order env w o is g

theorem walkDirs_order (env : Env) (w : World) (o : HashOrder) : ∀ (ds : List Str) (f : LspFiles),
    walkDirs env { w with order := o } f ds = walkDirs env w f ds
  | [], _ => rfl
  | d :: ds, f => by
    unfold walkDirs
    rw [walkItems_order env w o]
    cases walkItems env w f (w.walk d) with
    | error e => rfl
    | ok r => cases r with
      | none => rfl
      | some g => exact walkDirs_order env w o ds g

theorem searchConfigIn_order (env : Env) (w : World) (o : HashOrder) : ∀ (l : List Str),
    searchConfigIn env { w with order := o } l = searchConfigIn env w l
  | [] => rfl
  | n :: l => by
    unfold searchConfigIn
    rw [searchConfigIn_order env w o l]

/-! ## Requests -/

theorem readVariables_order (w : World) (o : HashOrder) (f : LspFiles) (u : Str) (p : Position) (st : Option (Str × Range)) (js : Option Str) :
    OptPerm (f.readVariables w u p st js) (f.readVariables { w with order := o } u p st js) := by
  unfold LspFiles.readVariables
  cases f.variables.get? u with
  | none => trivial
  | some this =>
    exact List.Perm.append (List.Perm.refl _) (((shuffle_perm w.order o 5 _).filter _).flatMap_right _)

theorem templateItems_perm (f : LspFiles) (r : Range) (p : Position) {l l' : List Str} (h : l.Perm l') :
    OptPerm (f.templateItems r p l) (f.templateItems r p l') := by
  induction h with
  | nil => exact List.Perm.refl _
  | @cons x l l' _ ih =>
    unfold LspFiles.templateItems
    cases f.templateItem r p x with
    | none => trivial
    | some i =>
      cases h1 : f.templateItems r p l with
      | none => cases h2 : f.templateItems r p l' with
        | none => trivial
        | some y => rw [h1, h2] at ih; exact ih
      | some y => cases h2 : f.templateItems r p l' with
        | none => rw [h1, h2] at ih; exact ih
        | some y' => rw [h1, h2] at ih; exact List.Perm.cons _ ih
  | swap x y l =>
    simp only [LspFiles.templateItems]
    cases f.templateItem r p x with
    | none => cases f.templateItem r p y <;> trivial
    | some i => cases f.templateItem r p y with
      | none => trivial
      | some j => cases f.templateItems r p l with
        | none => trivial
        | some is => exact List.Perm.swap _ _ _
  | trans _ _ h1 h2 => exact OptPerm.trans h1 h2

theorem readTemplates_order (w : World) (o : HashOrder) (f : LspFiles) (pfx : Str) (r : Range) (p : Position) :
    OptPerm (f.readTemplates w pfx r p) (f.readTemplates { w with order := o } pfx r p) := by
  unfold LspFiles.readTemplates
  exact templateItems_perm f r p (((shuffle_perm w.order o 6 _).map _).filter _)

theorem completionItems_order (w : World) (o : HashOrder) (f : LspFiles) (u : Str) (p : Position) (t : CompletionType) :
    OptPerm (completionItems w f u p t) (completionItems { w with order := o } f u p t) := by
  cases t with
  | filter => exact OptPerm.refl _
  | test => exact OptPerm.refl _
  | snippets => exact OptPerm.refl _
  | incompleteFilter => exact OptPerm.refl _
  | identifier => exact readVariables_order w o f u p none none
  | incompleteIdentifier n r => exact readVariables_order w o f u p (some (n, r)) none
  | includedTemplate n r => exact readTemplates_order w o f n r p

theorem dataType_order (w : World) (o : HashOrder) (f : LspFiles) (u : Str) (h : Identifier) :
    f.dataType { w with order := o } u h = f.dataType w u h := by
  unfold LspFiles.dataType
  simp only [(shuffle_perm o w.order 7 f.variables.entries).any_eq]

theorem hoverText_order (w : World) (o : HashOrder) (f : LspFiles) (u : Str) (h : Identifier × CompletionType) :
    hoverText { w with order := o } f u h = hoverText w f u h := by
  unfold hoverText
  rw [dataType_order]

theorem collectFiles_perm (env : Env) (u n : Str) {l l' : List (Str × List Identifier)} (h : l.Perm l') :
    Agree List.Perm (LspFiles.collectFiles env u n l) (LspFiles.collectFiles env u n l') := by
  induction h with
  | nil => exact List.Perm.refl _
  | @cons x l l' _ ih =>
    unfold LspFiles.collectFiles
    split
    · exact ih
    · rcases collectLocations_cases env x.1 (LspFiles.segmentMatches n x.2) with ⟨a, ha⟩ | ha
      · rw [ha]
        rcases collectFiles_cases env u n l with ⟨b, hb⟩ | hb <;> rcases collectFiles_cases env u n l' with ⟨b', hb'⟩ | hb' <;>
          rw [hb, hb'] at ih <;> simp only [hb, hb']
        · exact List.Perm.append (List.Perm.refl _) ih
        · exact ih
        · exact ih
        · rfl
      · rw [ha]; rfl
  | swap x y l =>
    simp only [LspFiles.collectFiles]
    rcases collectLocations_cases env x.1 (LspFiles.segmentMatches n x.2) with ⟨a, ha⟩ | ha <;>
      rcases collectLocations_cases env y.1 (LspFiles.segmentMatches n y.2) with ⟨b, hb⟩ | hb <;>
      rcases collectFiles_cases env u n l with ⟨c, hc⟩ | hc <;> simp only [ha, hb, hc] <;>
      by_cases hx : x.1 = u <;> by_cases hy : y.1 = u <;> simp only [hx, hy, if_true, if_false] <;>
      first
        | rfl
        | exact List.Perm.refl _
        | (show List.Perm _ _
           rw [← List.append_assoc, ← List.append_assoc]
           exact List.Perm.append List.perm_append_comm (List.Perm.refl _))
  | trans _ _ h1 h2 =>
    rename_i a b c _ _
    rcases collectFiles_cases env u n a with ⟨x, hx⟩ | hx <;> rcases collectFiles_cases env u n b with ⟨y, hy⟩ | hy <;>
      rcases collectFiles_cases env u n c with ⟨z, hz⟩ | hz <;> rw [hx, hy] at h1 <;> rw [hy, hz] at h2 <;> rw [hx, hz] <;>
      first
        | exact List.Perm.trans h1 h2
        | rfl
        | exact False.elim h1
        | exact False.elim h2

end JinjaLsp
