import Verif.Lemmas.Queries
/-
  The places of a syntax tree, and what a walk reports in terms of them.
-/

namespace JinjaLsp
open Spec

/-- a node of a tree with its ancestors and the siblings to its left -/
abbrev Place := List Above × List Syn × Syn

namespace Syn

mutual
/-- all places of a tree -/
def places (up : List Above) (left : List Syn) : Syn → List Place
  | .node k fd i a b t cs =>
    (up, left, .node k fd i a b t cs) :: placesAll ((.node k fd i a b t cs, left) :: up) [] cs

def placesAll (up : List Above) (left : List Syn) : List Syn → List Place
  | [] => []
  | c :: cs => places up left c ++ placesAll up (left ++ [c]) cs
end

mutual
theorem mem_walk {f : Reports} {m : List Capture} (up : List Above) (left : List Syn) :
    (n : Syn) → (m ∈ walk f up left n ↔ ∃ x ∈ places up left n, ∃ v, m ∈ f v x.1 x.2.1 x.2.2)
  | .node k fd i a b t cs => by
    rw [walk, places, List.mem_append, List.mem_append, mem_walkAll]
    constructor
    · rintro ((h | ⟨x, hx, h⟩) | h)
      · exact ⟨_, List.mem_cons_self .., _, h⟩
      · exact ⟨x, List.mem_cons_of_mem _ hx, h⟩
      · exact ⟨_, List.mem_cons_self .., _, h⟩
    · rintro ⟨x, hx, v, h⟩
      rcases List.mem_cons.mp hx with rfl | hx
      · cases v with
        | enter => exact .inl (.inl h)
        | leave => exact .inr h
      · exact .inl (.inr ⟨x, hx, v, h⟩)

theorem mem_walkAll {f : Reports} {m : List Capture} (up : List Above) (left : List Syn) :
    (ns : List Syn) → (m ∈ walkAll f up left ns ↔ ∃ x ∈ placesAll up left ns, ∃ v, m ∈ f v x.1 x.2.1 x.2.2)
  | [] => by simp [walkAll, placesAll]
  | n :: ns => by
    rw [walkAll, placesAll, List.mem_append, mem_walk, mem_walkAll]
    constructor
    · rintro (⟨x, hx, h⟩ | ⟨x, hx, h⟩)
      · exact ⟨x, List.mem_append_left _ hx, h⟩
      · exact ⟨x, List.mem_append_right _ hx, h⟩
    · rintro ⟨x, hx, h⟩
      rcases List.mem_append.mp hx with hx | hx
      · exact .inl ⟨x, hx, h⟩
      · exact .inr ⟨x, hx, h⟩
end

mutual
/-- the nodes at the places are the nodes of the tree, in document order -/
theorem places_flat (up : List Above) (left : List Syn) : (n : Syn) → (places up left n).map (fun x => x.2.2) = n.flat
  | .node k fd i a b t cs => by rw [places, List.map_cons, placesAll_flat, flat]

theorem placesAll_flat (up : List Above) (left : List Syn) : (ns : List Syn) → (placesAll up left ns).map (fun x => x.2.2) = flatAll ns
  | [] => by rw [placesAll, flatAll]; rfl
  | n :: ns => by rw [placesAll, List.map_append, places_flat, placesAll_flat, flatAll]
end

theorem places_self (up : List Above) (left : List Syn) (n : Syn) : (up, left, n) ∈ places up left n := by
  cases n with
  | node => rw [places]; exact List.mem_cons_self ..

theorem placesAll_split (up : List Above) : ∀ {left ns a b : List Syn} {c : Syn}, ns = a ++ c :: b → (up, left ++ a, c) ∈ placesAll up left ns
  | left, _, [], b, c, rfl => by
    rw [List.nil_append, placesAll, List.append_nil]
    exact List.mem_append_left _ (places_self ..)
  | left, _, x :: a, b, c, rfl => by
    rw [List.cons_append, placesAll]
    have := placesAll_split up (left := left ++ [x]) (ns := a ++ c :: b) rfl
    rw [List.append_assoc] at this
    exact List.mem_append_right _ this

mutual
/-- the children of a place are places -/
theorem places_child {x : Place} {c : Syn} {as bs : List Syn} (up : List Above) (left : List Syn) :
    (n : Syn) → x ∈ places up left n → x.2.2.children = as ++ c :: bs → ((x.2.2, x.2.1) :: x.1, as, c) ∈ places up left n
  | .node k fd i a b t cs => by
    intro hx hc
    rw [places] at hx ⊢
    refine List.mem_cons_of_mem _ ?_
    rcases List.mem_cons.mp hx with rfl | hx
    · exact placesAll_split _ hc
    · exact placesAll_child _ _ cs hx hc

theorem placesAll_child {x : Place} {c : Syn} {as bs : List Syn} (up : List Above) (left : List Syn) :
    (ns : List Syn) → x ∈ placesAll up left ns → x.2.2.children = as ++ c :: bs → ((x.2.2, x.2.1) :: x.1, as, c) ∈ placesAll up left ns
  | [] => by intro hx; rw [placesAll] at hx; cases hx
  | n :: ns => by
    intro hx hc
    rw [placesAll] at hx ⊢
    rcases List.mem_append.mp hx with hx | hx
    · exact List.mem_append_left _ (places_child _ _ n hx hc)
    · exact List.mem_append_right _ (placesAll_child _ _ ns hx hc)
end

/-- where a place is: at the given siblings, or a child of another place -/
def Rooted (up : List Above) (left ns : List Syn) (all : List Place) (x : Place) : Prop :=
  (x.1 = up ∧ ∃ a b, ns = a ++ x.2.2 :: b ∧ x.2.1 = left ++ a) ∨
    ∃ y ∈ all, ∃ b, y.2.2.children = x.2.1 ++ x.2.2 :: b ∧ x.1 = (y.2.2, y.2.1) :: y.1

mutual
/-- every place is the given one or a child of a place -/
theorem places_inv {x : Place} (up : List Above) (left : List Syn) :
    (n : Syn) → x ∈ places up left n → x = (up, left, n) ∨
      ∃ y ∈ places up left n, ∃ b, y.2.2.children = x.2.1 ++ x.2.2 :: b ∧ x.1 = (y.2.2, y.2.1) :: y.1
  | .node k fd i a b t cs => by
    intro hx
    rw [places] at hx ⊢
    rcases List.mem_cons.mp hx with rfl | hx
    · exact .inl rfl
    · right
      rcases placesAll_inv _ _ cs hx with ⟨h1, a', b', h2, h3⟩ | ⟨y, hy, b', h2, h3⟩
      · exact ⟨_, List.mem_cons_self .., b', by rw [h3, List.nil_append]; exact h2, h1⟩
      · exact ⟨y, List.mem_cons_of_mem _ hy, b', h2, h3⟩

theorem placesAll_inv {x : Place} (up : List Above) (left : List Syn) :
    (ns : List Syn) → x ∈ placesAll up left ns → Rooted up left ns (placesAll up left ns) x
  | [] => by intro hx; rw [placesAll] at hx; cases hx
  | n :: ns => by
    intro hx
    rw [placesAll] at hx ⊢
    rcases List.mem_append.mp hx with hx | hx
    · rcases places_inv _ _ n hx with rfl | ⟨y, hy, h⟩
      · exact .inl ⟨rfl, [], ns, rfl, by simp⟩
      · exact .inr ⟨y, List.mem_append_left _ hy, h⟩
    · rcases placesAll_inv _ _ ns hx with ⟨h1, a, b, h2, h3⟩ | ⟨y, hy, h⟩
      · exact .inl ⟨h1, n :: a, b, by rw [h2]; rfl, by rw [h3, List.append_assoc]; rfl⟩
      · exact .inr ⟨y, List.mem_append_right _ hy, h⟩
end

theorem mem_flat_iff {m : Syn} (up : List Above) (left : List Syn) (n : Syn) :
    m ∈ n.flat ↔ ∃ x ∈ places up left n, x.2.2 = m := by
  rw [← places_flat up left n, List.mem_map]

mutual
theorem flat_children {m c : Syn} : (n : Syn) → m ∈ n.flat → c ∈ m.children → c ∈ n.flat
  | .node k fd i a b t cs => by
    intro hm hc
    rw [flat] at hm ⊢
    refine List.mem_cons_of_mem _ ?_
    rcases List.mem_cons.mp hm with rfl | hm
    · obtain ⟨as, bs, h⟩ := List.append_of_mem hc
      change cs = _ at h
      rw [← placesAll_flat [] [] cs, List.mem_map]
      exact ⟨_, placesAll_split [] h, rfl⟩
    · exact flatAll_children cs hm hc

theorem flatAll_children {m c : Syn} : (ns : List Syn) → m ∈ flatAll ns → c ∈ m.children → c ∈ flatAll ns
  | [] => by intro hm; rw [flatAll] at hm; cases hm
  | n :: ns => by
    intro hm hc
    rw [flatAll] at hm ⊢
    rcases List.mem_append.mp hm with hm | hm
    · exact List.mem_append_left _ (flat_children n hm hc)
    · exact List.mem_append_right _ (flatAll_children ns hm hc)
end

end Syn

/-! ### Syntax errors -/

/-- the query for syntax errors finds a broken statement exactly if the tree has an error node -/
theorem errorBlock_iff (root : Syn) :
    (∃ c ∈ (Syn.walk qSnippets [] [] root).flatten, c.name = .errorBlock) ↔ ∃ n ∈ root.flat, n.kind = .error := by
  constructor
  · rintro ⟨c, hc, hn⟩
    obtain ⟨m, hm, hc⟩ := List.mem_flatten.mp hc
    obtain ⟨x, hx, v, h⟩ := (Syn.mem_walk [] [] root).mp hm
    refine Classical.byContradiction fun hno => ?_
    have hk : ∀ y ∈ Syn.places [] [] root, y.2.2.kind ≠ .error :=
      fun y hy he => hno ⟨_, (Syn.mem_flat_iff [] [] root).mpr ⟨y, hy, rfl⟩, he⟩
    have hx' := hk x hx
    cases v with
    | leave =>
      simp only [qSnippets, hx', false_and, if_false] at h
      cases h
    | enter =>
      simp only [qSnippets] at h
      split at h <;> first
        | (rename_i he; exact absurd he hx')
        | (simp only [single, if_true, List.mem_singleton] at h
           subst h
           simp only [List.mem_singleton] at hc
           subst hc
           simp [Syn.cap] at hn)
        | cases h
  · rintro ⟨n, hn, he⟩
    obtain ⟨x, hx, rfl⟩ := (Syn.mem_flat_iff [] [] root).mp hn
    by_cases hc : ∀ c ∈ x.2.2.children, c.kind ≠ .error
    · refine ⟨x.2.2.cap .errorBlock x.1, List.mem_flatten.mpr ⟨_, (Syn.mem_walk [] [] root).mpr ⟨x, hx, .leave, ?_⟩, List.mem_singleton.mpr rfl⟩, rfl⟩
      simp only [qSnippets]
      rw [if_pos ⟨he, hc⟩]
      exact List.mem_singleton.mpr rfl
    · obtain ⟨c, h1, h2⟩ : ∃ c ∈ x.2.2.children, c.kind = .error := by
        refine Classical.byContradiction fun hno => hc fun c h1 h2 => hno ⟨c, h1, h2⟩
      obtain ⟨as, bs, h3⟩ := List.append_of_mem h1
      refine ⟨x.2.2.cap .errorBlock x.1, List.mem_flatten.mpr ⟨[x.2.2.cap .errorBlock x.1, c.cap .other ((x.2.2, x.2.1) :: x.1)],
        (Syn.mem_walk [] [] root).mpr ⟨_, Syn.places_child [] [] root hx h3, .enter, ?_⟩, List.mem_cons_self ..⟩, rfl⟩
      · simp only [qSnippets, h2, he, if_true]
        exact List.mem_singleton.mpr rfl

/-! ### A template read as tags has no error node -/

theorem token_flat {n m : Syn} (h : n.children = []) (hm : m ∈ n.flat) : m = n := by
  cases n with
  | node k fd i a b t cs =>
    change cs = [] at h
    subst h
    rw [Syn.flat, Syn.flatAll] at hm
    exact List.mem_singleton.mp hm

theorem mem_flatAll {m : Syn} : ∀ {ns : List Syn}, m ∈ Syn.flatAll ns ↔ ∃ n ∈ ns, m ∈ n.flat
  | [] => by simp [Syn.flatAll]
  | n :: ns => by rw [Syn.flatAll, List.mem_append, mem_flatAll]; simp

theorem header_noError {digit : Char → Bool} {ns : List Syn} {ts : List HTok} (h : Header digit ns ts) :
    ∀ n ∈ ns, n.children = [] ∧ n.kind ≠ .error := by
  induction h with
  | nil => intro n hn; cases hn
  | cons h1 h2 _ ih =>
    intro n hn
    rcases List.mem_cons.mp hn with rfl | hn
    · exact ⟨h1.leaf, by cases h2 <;> simp_all⟩
    · exact ih n hn

theorem inline_noError {digit : Char → Bool} {ns : List Syn} {ts : List HTok} {is : List Item} (h : Inline digit ns ts is) :
    ∀ n ∈ ns, n.children = [] ∧ n.kind ≠ .error := by
  induction h with
  | nil => intro n hn; cases hn
  | tok h1 h2 _ ih =>
    intro n hn
    rcases List.mem_cons.mp hn with rfl | hn
    · exact ⟨h1.leaf, by cases h2 <;> simp_all⟩
    · exact ih n hn
  | branch h1 h2 _ _ ih =>
    intro n hn
    rcases List.mem_cons.mp hn with rfl | hn
    · exact ⟨h1.leaf, by simp [h2]⟩
    · exact ih n hn

theorem tag_noError {digit : Char → Bool} {d : Delims} {ns : List Syn} {i : Item} (h : Tag digit d ns i) :
    ∀ n ∈ ns, n.children = [] ∧ n.kind ≠ .error := by
  have key : ∀ {kw : Syn} {ns : List Syn} {ts : List HTok}, Token kw → kw.kind = .keyword → Header digit ns ts →
      ∀ n ∈ kw :: ns, n.children = [] ∧ n.kind ≠ .error := by
    intro kw ns ts h1 h2 h3 n hn
    rcases List.mem_cons.mp hn with rfl | hn
    · exact ⟨h1.leaf, by simp [h2]⟩
    · exact header_noError h3 n hn
  cases h with
  | plain h => exact header_noError h
  | set h1 h2 _ h3 => exact key h1 h2 h3
  | for_ h1 h2 _ h3 => exact key h1 h2 h3
  | with_ h1 h2 _ h3 => exact key h1 h2 h3
  | macro_ h1 h2 _ h3 => exact key h1 h2 h3
  | block h1 h2 _ h3 => exact key h1 h2 h3
  | open_ h1 h2 _ h3 => exact key h1 h2 h3
  | close h1 h2 _ h3 => exact key h1 h2 h3

theorem flat_shallow {n m : Syn} (h : ∀ c ∈ n.children, c.children = []) (hm : m ∈ n.flat) : m = n ∨ m ∈ n.children := by
  cases n with
  | node k fd i a b t cs =>
    rw [Syn.flat] at hm
    rcases List.mem_cons.mp hm with rfl | hm
    · exact .inl rfl
    · obtain ⟨c, hc, hm⟩ := mem_flatAll.mp hm
      right
      rw [token_flat (h c hc) hm]
      exact hc

theorem tags_noError {digit : Char → Bool} {ns : List Syn} {is : List Item} (h : Tags digit ns is) :
    ∀ m ∈ Syn.flatAll ns, m.kind ≠ .error := by
  induction h with
  | nil => intro m hm; rw [Syn.flatAll] at hm; cases hm
  | text h1 h2 _ ih =>
    intro m hm
    rw [Syn.flatAll] at hm
    rcases List.mem_append.mp hm with hm | hm
    · rw [token_flat h2 hm, h1]; simp
    · exact ih m hm
  | expr h1 h2 _ ih =>
    intro m hm
    rw [Syn.flatAll] at hm
    rcases List.mem_append.mp hm with hm | hm
    · rcases flat_shallow (fun c hc => (inline_noError h2 c hc).1) hm with rfl | hm
      · simp [h1]
      · exact (inline_noError h2 m hm).2
    · exact ih m hm
  | @stmt n _ _ _ _ _ _ h1 h2 hb hb' he he' h3 _ ih =>
    intro m hm
    rw [Syn.flatAll] at hm
    rcases List.mem_append.mp hm with hm | hm
    · have hall : ∀ c ∈ n.children, c.children = [] ∧ c.kind ≠ .error := by
        intro c hc
        rw [h2] at hc
        rcases List.mem_append.mp hc with hc | hc
        · rcases List.mem_cons.mp hc with rfl | hc
          · exact ⟨hb.leaf, by simp [hb']⟩
          · exact tag_noError h3 c hc
        · rw [List.mem_singleton.mp hc]; exact ⟨he.leaf, by simp [he']⟩
      rcases flat_shallow (fun c hc => (hall c hc).1) hm with rfl | hm
      · simp [h1]
      · exact (hall m hm).2
    · exact ih m hm

/-! ### A reading of a sound tree is well-formed -/

theorem header_names {digit : Char → Bool} {ns : List Syn} {ts : List HTok} (h : Header digit ns ts) :
    ∀ t, .name t ∈ ts → ∃ n ∈ ns, n.kind = .identifier ∧ n.text = some t.text := by
  induction h with
  | nil => intro t ht; cases ht
  | cons h1 h2 _ ih =>
    intro t ht
    rcases List.mem_append.mp ht with ht | ht
    · cases h2 with
      | name hk _ =>
        cases List.mem_singleton.mp ht
        exact ⟨_, List.mem_cons_self .., hk, tokOf_text h1.text⟩
      | eq => cases List.mem_singleton.mp ht
      | numeral => cases ht
      | op => cases ht
      | word => cases ht
      | string => cases ht
      | other => cases ht
    · obtain ⟨n, hn, h⟩ := ih t ht
      exact ⟨n, List.mem_cons_of_mem _ hn, h⟩

theorem flatAll_self {n : Syn} {ns : List Syn} (h : n ∈ ns) : n ∈ Syn.flatAll ns := by
  refine mem_flatAll.mpr ⟨n, h, ?_⟩
  cases n with
  | node => rw [Syn.flat]; exact List.mem_cons_self ..

theorem ids_sublist : ∀ ns : List Syn, (ns.map Syn.id).Sublist ((Syn.flatAll ns).map Syn.id)
  | [] => by rw [Syn.flatAll]; exact List.Sublist.refl _
  | n :: ns => by
    rw [Syn.flatAll, List.map_append, List.map_cons]
    have h1 : [n.id].Sublist (n.flat.map Syn.id) := by
      cases n with
      | node => rw [Syn.flat]; exact List.singleton_sublist.mpr (by simp)
    exact h1.append (ids_sublist ns)

theorem flat_eq (n : Syn) : n.flat = n :: Syn.flatAll n.children := by
  cases n with
  | node => rw [Syn.flat]; rfl

theorem children_sublist (n : Syn) : (n.children.map Syn.id).Sublist (n.flat.map Syn.id) := by
  rw [flat_eq, List.map_cons]
  exact List.Sublist.cons _ (ids_sublist _)

/-- the keywords that open something are nodes of the tag -/
theorem tag_nodes {digit : Char → Bool} {d : Delims} {ns : List Syn} {i : Item} (h : Tag digit d ns i) :
    i.nodes.Sublist (ns.map Syn.id) := by
  have key : ∀ (kw : Syn) (ns : List Syn), [(tokOf kw).node].Sublist ((kw :: ns).map Syn.id) :=
    fun kw ns => List.singleton_sublist.mpr (by simp [tokOf])
  cases h with
  | plain h => exact List.nil_sublist _
  | set => exact key _ _
  | for_ => exact key _ _
  | with_ => exact key _ _
  | macro_ => exact key _ _
  | block => exact key _ _
  | open_ => exact key _ _
  | close => exact List.nil_sublist _

theorem inline_nodes {digit : Char → Bool} {ns : List Syn} {ts : List HTok} {is : List Item} (h : Inline digit ns ts is) :
    (is.flatMap Item.nodes).Sublist (ns.map Syn.id) := by
  induction h with
  | nil => exact List.Sublist.refl _
  | tok _ _ _ ih => exact List.Sublist.cons _ ih
  | branch _ _ _ _ ih => exact ih.cons_cons _

theorem inline_ok {digit : Char → Bool} {ns : List Syn} {ts : List HTok} {is : List Item} (h : Inline digit ns ts is) :
    ∀ i ∈ is, i.Ok := by
  induction h with
  | nil => intro i hi; cases hi
  | tok _ _ _ ih => exact ih
  | branch _ _ _ _ ih =>
    intro i hi
    rcases List.mem_cons.mp hi with rfl | hi
    · trivial
    · exact ih i hi

theorem tag_ok {digit : Char → Bool} {d : Delims} {ns : List Syn} {i : Item} (h : Tag digit d ns i)
    (hn : ∀ n ∈ ns, n.kind = .identifier → n.text ≠ some []) : i.Ok := by
  have key : ∀ {kw : Syn} {ms : List Syn} {t : Tok} {ts : List HTok}, ns = kw :: ms → Header digit ms (.name t :: ts) → t.text ≠ [] := by
    intro kw ms t ts e h3 h0
    obtain ⟨n, h4, h5, h6⟩ := header_names h3 t (List.mem_cons_self ..)
    rw [h0] at h6
    exact hn n (by rw [e]; exact List.mem_cons_of_mem _ h4) h5 h6
  cases h with
  | plain h => trivial
  | set _ _ _ h3 => exact key rfl h3
  | for_ _ _ _ h3 => exact key rfl h3
  | with_ => trivial
  | macro_ _ _ _ h3 => exact key rfl h3
  | block _ _ _ h3 => exact key rfl h3
  | open_ => trivial
  | close => trivial

theorem tags_nodes {digit : Char → Bool} {ns : List Syn} {is : List Item} (h : Tags digit ns is) :
    (is.flatMap Item.nodes).Sublist ((Syn.flatAll ns).map Syn.id) := by
  induction h with
  | nil => exact List.nil_sublist _
  | text h1 h2 _ ih =>
    rw [Syn.flatAll, List.map_append]
    exact ih.trans (List.sublist_append_right ..)
  | expr h1 h2 _ ih =>
    rw [Syn.flatAll, List.map_append, List.cons_append, List.flatMap_cons, List.flatMap_append]
    exact ((inline_nodes h2).trans (children_sublist _)).append ih
  | stmt h1 h2 hb hb' he he' h3 _ ih =>
    rw [Syn.flatAll, List.map_append, List.flatMap_cons]
    refine List.Sublist.append ?_ ih
    refine ((tag_nodes h3).trans ?_).trans (children_sublist _)
    rw [h2, List.map_append, List.map_cons]
    exact (List.Sublist.cons _ (List.Sublist.refl _)).trans (List.sublist_append_left ..)

theorem tags_ok {digit : Char → Bool} {ns : List Syn} {is : List Item} (h : Tags digit ns is)
    (hn : ∀ n ∈ Syn.flatAll ns, n.kind = .identifier → n.text ≠ some []) : ∀ i ∈ is, i.Ok := by
  induction h with
  | nil => intro i hi; cases hi
  | text h1 h2 _ ih =>
    refine ih fun n hm => hn n ?_
    rw [Syn.flatAll]; exact List.mem_append_right _ hm
  | expr h1 h2 _ ih =>
    intro i hi
    rw [List.cons_append] at hi
    rcases List.mem_cons.mp hi with rfl | hi
    · trivial
    · rcases List.mem_append.mp hi with hi | hi
      · exact inline_ok h2 i hi
      · refine ih (fun n hm => hn n ?_) i hi
        rw [Syn.flatAll]; exact List.mem_append_right _ hm
  | stmt h1 h2 hb hb' he he' h3 _ ih =>
    intro i hi
    rcases List.mem_cons.mp hi with rfl | hi
    · refine tag_ok h3 fun n hm => hn n ?_
      rw [Syn.flatAll, flat_eq]
      refine List.mem_append_left _ (List.mem_cons_of_mem _ (flatAll_self ?_))
      rw [h2]; exact List.mem_append_left _ (List.mem_cons_of_mem _ hm)
    · refine ih (fun n hm => hn n ?_) i hi
      rw [Syn.flatAll]; exact List.mem_append_right _ hm

/-- tags read from a sound tree are well-formed -/
theorem tags_wf {digit : Char → Bool} {root : Syn} {is : List Item} (hs : WellFormed root) (h : Tags digit root.children is) : Items.Wf is := by
  have sub : ∀ n ∈ Syn.flatAll root.children, n ∈ root.flat := by
    intro n hn; rw [flat_eq]; exact List.mem_cons_of_mem _ hn
  have hids := hs.ids
  rw [flat_eq, List.map_cons] at hids
  refine ⟨tags_ok h fun n hn => hs.names n (sub n hn), (List.nodup_cons.mp hids).2.sublist (tags_nodes h), ?_⟩
  intro h0
  obtain ⟨n, hn, e⟩ := List.mem_map.mp ((tags_nodes h).subset h0)
  exact hs.nonzero n (sub n hn) e

end JinjaLsp
