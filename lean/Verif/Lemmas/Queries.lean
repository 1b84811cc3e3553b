import Verif.Spec.Syntax
/-
  Lemmas about the walk over syntax trees and the queries (Model/Queries.lean).
-/

namespace JinjaLsp
open Spec

namespace Syn

mutual
theorem walk_flat {f : Reports} {g : Syn → List (List Capture)} (he : ∀ up left n, f .enter up left n = g n)
    (hl : ∀ up left n, f .leave up left n = []) (up : List Above) (left : List Syn) : (n : Syn) → walk f up left n = n.flat.flatMap g
  | .node k fd i a b t cs => by
    rw [walk, he, hl, walkAll_flat he hl, flat, List.flatMap_cons, List.append_nil]

theorem walkAll_flat {f : Reports} {g : Syn → List (List Capture)} (he : ∀ up left n, f .enter up left n = g n)
    (hl : ∀ up left n, f .leave up left n = []) (up : List Above) (left : List Syn) :
    (ns : List Syn) → walkAll f up left ns = (flatAll ns).flatMap g
  | [] => by rw [walkAll, flatAll]; rfl
  | n :: ns => by rw [walkAll, flatAll, List.flatMap_append, walk_flat he hl, walkAll_flat he hl]
end

theorem walkAll_append (f : Reports) (up : List Above) : ∀ (left ns ms : List Syn),
    walkAll f up left (ns ++ ms) = walkAll f up left ns ++ walkAll f up (left ++ ns) ms
  | left, [], ms => by simp [walkAll]
  | left, n :: ns, ms => by
    rw [List.cons_append, walkAll, walkAll, walkAll_append f up (left ++ [n]) ns ms]
    simp [List.append_assoc]

theorem walk_leaf {f : Reports} {up : List Above} {left : List Syn} {n : Syn} (h : n.children = []) :
    walk f up left n = f .enter up left n ++ f .leave up left n := by
  cases n with
  | node k fd i a b t cs =>
    change cs = [] at h
    subst h
    rw [walk, walkAll, List.append_nil]

theorem walk_node {f : Reports} {up : List Above} {left : List Syn} {n : Syn} :
    walk f up left n = f .enter up left n ++ walkAll f ((n, left) :: up) [] n.children ++ f .leave up left n := by
  cases n with
  | node k fd i a b t cs => rw [walk]; rfl

/-- leaves that report by themselves -/
theorem walkAll_leaves {f : Reports} {up : List Above} {g : Syn → List (List Capture)} : ∀ {left ns : List Syn},
    (∀ n ∈ ns, n.children = [] ∧ ∀ l, f .enter up l n ++ f .leave up l n = g n) → walkAll f up left ns = ns.flatMap g
  | left, [], _ => by rw [walkAll]; rfl
  | left, n :: ns, h => by
    rw [walkAll, walk_leaf (h n (by simp)).1, (h n (by simp)).2, List.flatMap_cons,
      walkAll_leaves (fun m hm => h m (List.mem_cons_of_mem _ hm))]

end Syn

/-! ### Predicates -/

theorem tokOf_text {n : Syn} (h : n.text ≠ none) : n.text = some (tokOf n).text := by
  cases ht : n.text with
  | none => exact absurd ht h
  | some t => simp [tokOf, ht]

theorem numeral_iff {digit : Char → Bool} {n : Syn} (h : n.text ≠ none) : numeral digit n = true ↔ IsNumeral digit (tokOf n).text := by
  unfold numeral
  rw [tokOf_text h]
  simp only [digits, IsNumeral]
  cases (tokOf n).text <;> simp

theorem containsSub_char (c : Char) : ∀ s : Str, containsSub [c] s = true ↔ c ∈ s
  | [] => by simp [containsSub]
  | d :: s => by
    simp only [containsSub, Bool.or_eq_true, containsSub_char c s, List.mem_cons, List.isPrefixOf, List.isPrefixOf, beq_iff_eq,
      Bool.and_true]

theorem hasText_eq_iff {n : Syn} (h : n.text ≠ none) : hasText n c!"=" = true ↔ '=' ∈ (tokOf n).text := by
  unfold hasText
  rw [tokOf_text h]
  exact containsSub_char '=' _

theorem anyText_iff {n : Syn} (h : n.text ≠ none) {ws : List Str} : anyText n ws = true ↔ (tokOf n).text ∈ ws := by
  unfold anyText
  rw [tokOf_text h]
  simp

theorem startsText_iff {n : Syn} (h : n.text ≠ none) {p : Str} : startsText n p = true ↔ p <+: (tokOf n).text := by
  unfold startsText
  rw [tokOf_text h]
  simp

/-- captures that are read without children and parents -/
theorem cap_tok {n : Syn} (h : n.text ≠ none) {cn : CapName} (h1 : cn ≠ .expr) (h2 : cn ≠ .identifier) (up : List Above) :
    n.cap cn up = (tokOf n).cap cn := by
  have := tokOf_text h
  cases cn <;> first | exact absurd rfl h1 | exact absurd rfl h2 | (simp only [Syn.cap, Tok.cap, this]; rfl)

/-! ### DEFINITIONS -/

/-- what a token inside a tag reports -/
def defCaps (digit : Char → Bool) (n : Syn) : List (List Capture) := qDefinitions digit .enter [] [] n

theorem defCaps_token {digit : Char → Bool} {up : List Above} {left : List Syn} {n : Syn} (h : n.kind ≠ .statementEnd) :
    qDefinitions digit .enter up left n = defCaps digit n := by
  unfold defCaps
  simp only [qDefinitions]
  split <;> first | (rename_i hk; exact absurd hk h) | rfl

theorem single_cap {n : Syn} (h : n.text ≠ none) {cn : CapName} (h1 : cn ≠ .expr) (h2 : cn ≠ .identifier) (b : Bool) (up : List Above) :
    single b cn up n = if b then [[(tokOf n).cap cn]] else [] := by
  rw [single, cap_tok h h1 h2]

theorem defCaps_contributes {digit : Char → Bool} {n : Syn} {hs : List HTok} (ht : n.text ≠ none) (h : Contributes digit n hs) :
    n.kind ≠ .statementEnd ∧ (defCaps digit n).flatten = hcaps hs := by
  cases h with
  | name hk hn =>
    have : numeral digit n = false := by rw [← Bool.not_eq_true, numeral_iff ht]; exact hn
    refine ⟨by rw [hk]; decide, ?_⟩
    simp only [defCaps, qDefinitions, hk, single_cap ht (cn := .id) (by decide) (by decide), this]
    rfl
  | numeral hk hn =>
    have : numeral digit n = true := (numeral_iff ht).mpr hn
    refine ⟨by rw [hk]; decide, ?_⟩
    simp only [defCaps, qDefinitions, hk, single_cap ht (cn := .id) (by decide) (by decide), this]
    rfl
  | eq hk hn =>
    have : hasText n c!"=" = true := (hasText_eq_iff ht).mpr hn
    refine ⟨by rw [hk]; decide, ?_⟩
    simp only [defCaps, qDefinitions, hk, single_cap ht (cn := .equals) (by decide) (by decide), this]
    rfl
  | op hk hn =>
    have : hasText n c!"=" = false := by rw [← Bool.not_eq_true, hasText_eq_iff ht]; exact hn
    refine ⟨by rw [hk]; decide, ?_⟩
    simp only [defCaps, qDefinitions, hk, single_cap ht (cn := .equals) (by decide) (by decide), this]
    rfl
  | word hk hn =>
    have h1 : anyText n definitionWords = false := by
      rw [← Bool.not_eq_true, anyText_iff ht]
      intro h; exact hn (Or.inl (List.mem_append_left scopeWords h))
    have h2 : anyText n scopeWords = false := by
      rw [← Bool.not_eq_true, anyText_iff ht]
      intro h; exact hn (Or.inl (List.mem_append_right definitionWords h))
    have h3 : startsText n c!"end" = false := by
      rw [← Bool.not_eq_true, startsText_iff ht]
      intro h; exact hn (Or.inr h)
    refine ⟨by rw [hk]; decide, ?_⟩
    simp only [defCaps, qDefinitions, hk, single, h1, h2, h3]
    rfl
  | string hk => exact ⟨by rw [hk]; decide, by simp only [defCaps, qDefinitions, hk]; rfl⟩
  | other hk => exact ⟨by rw [hk]; decide, by simp only [defCaps, qDefinitions, hk]; rfl⟩

/-- a structural keyword reports itself under one name -/
theorem defCaps_keyword {digit : Char → Bool} {n : Syn} (ht : n.text ≠ none) (hk : n.kind = .keyword) {cn : CapName}
    (h : (cn = .definition ∧ (tokOf n).text ∈ definitionWords) ∨ (cn = .scope ∧ (tokOf n).text ∈ scopeWords) ∨
      (cn = .endblock ∧ c!"end" <+: (tokOf n).text)) :
    (defCaps digit n).flatten = [(tokOf n).cap cn] := by
  have hx : ∀ t : Str, t ∈ definitionWords → t ∉ scopeWords ∧ ¬ c!"end" <+: t := by
    intro t h
    simp only [definitionWords, List.mem_cons, List.not_mem_nil, or_false] at h
    rcases h with rfl | rfl | rfl | rfl | rfl <;> decide
  have hy : ∀ t : Str, t ∈ scopeWords → ¬ c!"end" <+: t := by
    intro t h
    simp only [scopeWords, List.mem_cons, List.not_mem_nil, or_false] at h
    rcases h with rfl | rfl | rfl | rfl | rfl | rfl <;> decide
  simp only [defCaps, qDefinitions, hk, single_cap ht (cn := .definition) (by decide) (by decide),
    single_cap ht (cn := .scope) (by decide) (by decide), single_cap ht (cn := .endblock) (by decide) (by decide),
    anyText_iff ht, startsText_iff ht]
  rcases h with ⟨rfl, h⟩ | ⟨rfl, h⟩ | ⟨rfl, h⟩
  · rw [if_pos h, if_neg (hx _ h).1, if_neg (hx _ h).2]; rfl
  · rw [if_neg (fun h' => (hx _ h').1 h), if_pos h, if_neg (hy _ h)]; rfl
  · rw [if_neg (fun h' => (hx _ h').2 h), if_neg (fun h' => hy _ h' h), if_pos h]; rfl

/-- the tokens inside a tag or expression -/
structure Inside (n : Syn) : Prop where
  leaf : n.children = []
  text : n.text ≠ none
  kind : n.kind ≠ .statementEnd ∧ n.kind ≠ .statementBegin

theorem Contributes.kinds {digit : Char → Bool} {n : Syn} {hs : List HTok} (h : Contributes digit n hs) :
    n.kind ≠ .statementEnd ∧ n.kind ≠ .statementBegin := by
  cases h with
  | name hk | numeral hk | eq hk | op hk | word hk | string hk | other hk => rw [hk]; decide

theorem header_caps {digit : Char → Bool} {ns : List Syn} {ts : List HTok} (h : Header digit ns ts) :
    (∀ n ∈ ns, Inside n) ∧ (ns.flatMap fun n => (defCaps digit n).flatten) = hcaps ts := by
  induction h with
  | nil => exact ⟨by simp, rfl⟩
  | @cons n ns hs ts htok hc _ ih =>
    refine ⟨?_, ?_⟩
    · intro m hm
      rcases List.mem_cons.mp hm with rfl | hm
      · exact ⟨htok.leaf, htok.text, Contributes.kinds hc⟩
      · exact ih.1 m hm
    · rw [List.flatMap_cons, (defCaps_contributes htok.text hc).2, ih.2, hcaps, hcaps, hcaps, List.map_append]

theorem inline_caps {digit : Char → Bool} {ns : List Syn} {ts : List HTok} {is : List Item} (h : Inline digit ns ts is) :
    (∀ n ∈ ns, Inside n) ∧ (ns.flatMap fun n => (defCaps digit n).flatten) = hcaps ts ++ is.flatMap Item.caps := by
  induction h with
  | nil => exact ⟨by simp, rfl⟩
  | @tok n ns hs ts is htok hc _ ih =>
    refine ⟨?_, ?_⟩
    · intro m hm
      rcases List.mem_cons.mp hm with rfl | hm
      · exact ⟨htok.leaf, htok.text, Contributes.kinds hc⟩
      · exact ih.1 m hm
    · rw [List.flatMap_cons, (defCaps_contributes htok.text hc).2, ih.2]
      simp only [hcaps, List.map_append, List.append_assoc]
  | @branch n ns ts is htok hk hw _ ih =>
    refine ⟨?_, ?_⟩
    · intro m hm
      rcases List.mem_cons.mp hm with rfl | hm
      · exact ⟨htok.leaf, htok.text, by rw [hk]; decide⟩
      · exact ih.1 m hm
    · rw [List.flatMap_cons, defCaps_keyword htok.text hk (Or.inr (Or.inl ⟨rfl, ?_⟩)), ih.2]
      · rfl
      · simp only [scopeWords, List.mem_cons, List.not_mem_nil, or_false] at hw ⊢
        rcases hw with h | h <;> simp [h]

theorem tag_caps {digit : Char → Bool} {d : Delims} {ns : List Syn} {i : Item} (h : Tag digit d ns i) :
    (∀ n ∈ ns, Inside n) ∧ (ns.flatMap fun n => (defCaps digit n).flatten) ++ d.caps = i.caps := by
  have key : ∀ (kw : Syn) (ns : List Syn) (ts : List HTok) (cn : CapName), Token kw → kw.kind = .keyword → Header digit ns ts →
      ((cn = .definition ∧ (tokOf kw).text ∈ definitionWords) ∨ (cn = .scope ∧ (tokOf kw).text ∈ scopeWords) ∨
        (cn = .endblock ∧ c!"end" <+: (tokOf kw).text)) →
      (∀ n ∈ kw :: ns, Inside n) ∧ ((kw :: ns).flatMap fun n => (defCaps digit n).flatten) = (tokOf kw).cap cn :: hcaps ts := by
    intro kw ns ts cn htok hk hh hw
    obtain ⟨h1, h2⟩ := header_caps hh
    refine ⟨?_, ?_⟩
    · intro m hm
      rcases List.mem_cons.mp hm with rfl | hm
      · exact ⟨htok.leaf, htok.text, by rw [hk]; decide⟩
      · exact h1 m hm
    · rw [List.flatMap_cons, defCaps_keyword htok.text hk hw, h2]; rfl
  have kwText : ∀ (kw : Syn) (w : Str), kw.text = some w → (tokOf kw).text = w := by intro kw w h; simp [tokOf, h]
  have kwCap : ∀ (kw : Syn) (w : Str), kw.text = some w → (tokOf kw).cap .definition = (tokOf kw).kwCap w := by
    intro kw w h; simp [Tok.kwCap, Tok.cap, kwText kw w h]
  cases h with
  | plain hh => obtain ⟨h1, h2⟩ := header_caps hh; exact ⟨h1, by rw [h2]; rfl⟩
  | set htok hk hw hh =>
    obtain ⟨h1, h2⟩ := key _ _ _ .definition htok hk hh (Or.inl ⟨rfl, by rw [kwText _ _ hw]; decide⟩)
    exact ⟨h1, by rw [h2, kwCap _ _ hw]; simp [Item.caps, Leaf.caps, hcaps, HTok.cap]⟩
  | for_ htok hk hw hh =>
    obtain ⟨h1, h2⟩ := key _ _ _ .definition htok hk hh (Or.inl ⟨rfl, by rw [kwText _ _ hw]; decide⟩)
    exact ⟨h1, by rw [h2, kwCap _ _ hw]; simp [Item.caps, Head.caps, hcaps, HTok.cap]⟩
  | with_ htok hk hw hh =>
    obtain ⟨h1, h2⟩ := key _ _ _ .definition htok hk hh (Or.inl ⟨rfl, by rw [kwText _ _ hw]; decide⟩)
    exact ⟨h1, by rw [h2, kwCap _ _ hw]; simp [Item.caps, Head.caps, hcaps]⟩
  | macro_ htok hk hw hh =>
    obtain ⟨h1, h2⟩ := key _ _ _ .definition htok hk hh (Or.inl ⟨rfl, by rw [kwText _ _ hw]; decide⟩)
    exact ⟨h1, by rw [h2, kwCap _ _ hw]; simp [Item.caps, Head.caps, hcaps, HTok.cap]⟩
  | block htok hk hw hh =>
    obtain ⟨h1, h2⟩ := key _ _ _ .definition htok hk hh (Or.inl ⟨rfl, by rw [kwText _ _ hw]; decide⟩)
    exact ⟨h1, by rw [h2, kwCap _ _ hw]; simp [Item.caps, Head.caps, hcaps, HTok.cap]⟩
  | open_ htok hk hw hh =>
    obtain ⟨h1, h2⟩ := key _ _ _ .scope htok hk hh (Or.inr (Or.inl ⟨rfl, hw⟩))
    exact ⟨h1, by rw [h2]; simp [Item.caps, Head.caps, hcaps]⟩
  | close htok hk hw hh =>
    obtain ⟨h1, h2⟩ := key _ _ _ .endblock htok hk hh (Or.inr (Or.inr ⟨rfl, hw⟩))
    exact ⟨h1, by rw [h2]; simp [Item.caps, EndTag.caps, hcaps]⟩

theorem picks_none {p : Syn → Bool} {ps : List (Syn → Bool)} : ∀ {ns : List Syn}, (∀ n ∈ ns, p n = false) → picks (p :: ps) ns = []
  | [], _ => by rw [picks]
  | n :: ns, h => by
    rw [picks, h n (by simp), picks_none (fun m hm => h m (List.mem_cons_of_mem _ hm))]
    rfl

theorem flatten_flatMap {α β : Type} (f : α → List (List β)) (l : List α) : (l.flatMap f).flatten = l.flatMap fun a => (f a).flatten := by
  induction l with
  | nil => rfl
  | cons a l ih => simp [List.flatMap_cons, ih]

/-- tokens inside a node that is not a statement -/
theorem inside_walk {digit : Char → Bool} {up : List Above} {left ns : List Syn} (h : ∀ n ∈ ns, Inside n) :
    (Syn.walkAll (qDefinitions digit) up left ns).flatten = ns.flatMap fun n => (defCaps digit n).flatten := by
  rw [Syn.walkAll_leaves (g := defCaps digit) (fun n hn => ⟨(h n hn).leaf, fun l => by
    rw [defCaps_token (h n hn).kind.1]; simp [qDefinitions]⟩), flatten_flatMap]

theorem tags_caps {digit : Char → Bool} {up : List Above} {ns : List Syn} {is : List Item} (h : Tags digit ns is) : ∀ left : List Syn,
    (Syn.walkAll (qDefinitions digit) up left ns).flatten = is.flatMap Item.caps := by
  induction h with
  | nil => intro left; rw [Syn.walkAll]; rfl
  | @text n ns is hk hc _ ih =>
    intro left
    rw [Syn.walkAll, Syn.walk_leaf hc, List.flatten_append, ih]
    simp [qDefinitions, hk]
  | @expr n ns ts is rest hk hi _ ih =>
    intro left
    obtain ⟨h1, h2⟩ := inline_caps hi
    rw [Syn.walkAll, Syn.walk_node, List.flatten_append, ih]
    simp only [qDefinitions, hk, List.nil_append, List.append_nil]
    rw [inside_walk h1, h2]
    simp [Item.caps, Leaf.caps]
  | @stmt n b e inner ns i rest hk hc htb hb hte he ht _ ih =>
    intro left
    obtain ⟨h1, h2⟩ := tag_caps ht
    rw [Syn.walkAll, Syn.walk_node, List.flatten_append, ih, hc]
    have e1 : qDefinitions digit .enter up left n = [] := by simp [qDefinitions, hk]
    have e2 : qDefinitions digit .leave up left n = [] := rfl
    rw [e1, e2, List.nil_append, List.append_nil, List.cons_append, Syn.walkAll, Syn.walkAll_append, List.flatten_append,
      List.flatten_append, inside_walk h1, Syn.walk_leaf htb.leaf, Syn.walkAll, Syn.walkAll, List.append_nil, Syn.walk_leaf hte.leaf]
    have e3 : qDefinitions digit .enter ((n, left) :: up) [] b = [] := by simp [qDefinitions, hb]
    have e4 : qDefinitions digit .enter ((n, left) :: up) ([] ++ [b] ++ inner) e = [(⟨tokOf b, tokOf e⟩ : Delims).caps] := by
      simp only [qDefinitions, he, hk, if_true, List.nil_append, List.singleton_append]
      rw [picks, picks_none (fun m hm => by simp [(h1 m hm).kind.2])]
      simp only [hb, decide_true, if_true, picks, List.map_cons, List.map_nil, List.append_nil]
      rw [cap_tok htb.text (by decide) (by decide), cap_tok hte.text (by decide) (by decide)]
      rfl
    rw [e3, e4]
    simp only [qDefinitions, List.append_nil, List.flatten_cons, List.flatten_nil, List.nil_append, List.flatMap_cons]
    rw [← h2]

/-! ### OBJECTS -/

def objCaps (digit : Char → Bool) (n : Syn) : List (List Capture) := qObjects digit .enter [] [] n

theorem objects_flat (digit : Char → Bool) (n : Syn) (up : List Above) (left : List Syn) :
    Syn.walk (qObjects digit) up left n = n.flat.flatMap (objCaps digit) := by
  apply Syn.walk_flat
  · intro up left n
    unfold objCaps
    simp only [qObjects]
    split <;> rfl
  · intro _ _ _; rfl

theorem isNumeral_of_numeral {digit : Char → Bool} {n : Syn} (h : numeral digit n = true) : IsNumeral digit (tokOf n).text := by
  have ht : n.text ≠ none := by intro h'; simp [numeral, h'] at h
  exact (numeral_iff ht).mp h

theorem numeral_of_isNumeral {digit : Char → Bool} {n : Syn} (h : IsNumeral digit (tokOf n).text) : numeral digit n = true := by
  have ht : n.text ≠ none := by intro h'; apply h.1; simp [tokOf, h']
  exact (numeral_iff ht).mpr h

theorem objCaps_irrelevant {digit : Char → Bool} {n : Syn} (h : ¬ Relevant digit n) : objCaps digit n = [] := by
  simp only [objCaps, qObjects]
  split
  · rename_i hk; exact absurd (Or.inl hk) h
  · rename_i hk
    by_cases hn : numeral digit n = true
    · simp [single, hn]
    · exact absurd (Or.inr (Or.inl ⟨hk, fun h' => hn (numeral_of_isNumeral h')⟩)) h
  · rename_i hk; exact absurd (Or.inr (Or.inr (Or.inr (Or.inl hk)))) h
  · rename_i hk
    by_cases hn : eqText n c!"is" = true
    · exact absurd (Or.inr (Or.inr (Or.inl ⟨hk, by simpa [eqText] using hn⟩))) h
    · simp [single, hn]
  · rename_i hk; exact absurd (Or.inr (Or.inr (Or.inr (Or.inr hk)))) h
  · rfl

theorem objCaps_name {digit : Char → Bool} {n : Syn} (h : IsName digit n) : (objCaps digit n).flatten = [(tokOf n).cap .justId] := by
  have hn : numeral digit n = false := by
    rw [← Bool.not_eq_true]; intro h'; exact h.name (isNumeral_of_numeral h')
  simp only [objCaps, qObjects, h.kind, single_cap h.text (cn := .justId) (by decide) (by decide), hn]
  rfl

theorem objCaps_op {digit : Char → Bool} {n : Syn} (h : IsOp n) : (objCaps digit n).flatten = [(tokOf n).cap .pipe] := by
  have hn : eqText n c!"." = false := by simpa [eqText] using h.op
  simp only [objCaps, qObjects, h.kind, single_cap h.text (cn := .dot) (by decide) (by decide),
    single_cap h.text (cn := .pipe) (by decide) (by decide), hn]
  rfl

theorem objCaps_dot {digit : Char → Bool} {n : Syn} (h : IsDot n) : (objCaps digit n).flatten = dotCaps (tokOf n) := by
  have ht : n.text ≠ none := by rw [h.text]; simp
  have hn : eqText n c!"." = true := by simp [eqText, h.text]
  simp only [objCaps, qObjects, h.kind, single_cap ht (cn := .dot) (by decide) (by decide),
    single_cap ht (cn := .pipe) (by decide) (by decide), hn]
  rfl

theorem objCaps_is {digit : Char → Bool} {n : Syn} (hk : n.kind = .keyword) (h : n.text = some c!"is") :
    (objCaps digit n).flatten = [(tokOf n).cap .is] := by
  have ht : n.text ≠ none := by rw [h]; simp
  have hn : eqText n c!"is" = true := by simp [eqText, h]
  simp only [objCaps, qObjects, hk, single_cap ht (cn := .is) (by decide) (by decide), hn]
  rfl

theorem objCaps_expr {digit : Char → Bool} {n : Syn} (hk : n.kind = .expression) :
    (objCaps digit n).flatten = (Elem.expr n.id n.start n.stop n.first n.last).caps := by
  simp only [objCaps, qObjects, hk, single]
  rfl

theorem attrs_caps {digit : Char → Bool} {ns : List Syn} {fs : List (Tok × Tok)} (h : Attrs digit ns fs) :
    (ns.flatMap fun n => (objCaps digit n).flatten) = fs.flatMap fun f => dotCaps f.1 ++ [f.2.cap .justId] := by
  induction h with
  | nil => rfl
  | cons hd hn _ ih => rw [List.flatMap_cons, List.flatMap_cons, objCaps_dot hd, objCaps_name hn, ih, List.flatMap_cons]; simp

theorem names_caps {digit : Char → Bool} : ∀ {ws : List Syn}, (∀ w ∈ ws, IsName digit w) →
    (ws.flatMap fun n => (objCaps digit n).flatten) = (ws.map tokOf).map (·.cap .justId)
  | [], _ => rfl
  | w :: ws, h => by
    rw [List.flatMap_cons, objCaps_name (h w (by simp)), names_caps (fun x hx => h x (List.mem_cons_of_mem _ hx))]; rfl

theorem marks_caps {digit : Char → Bool} {ms : List Syn} {m : Mark} (h : Marks digit ms m) :
    (ms.flatMap fun n => (objCaps digit n).flatten) = m.caps := by
  cases h with
  | «variable» => rfl
  | filter hp => rw [List.flatMap_cons, objCaps_op hp]; rfl
  | test hk ht hw => rw [List.flatMap_cons, objCaps_is hk ht, names_caps hw]; rfl

theorem reads_caps {digit : Char → Bool} {ns : List Syn} {es : List Elem} (h : ReadsOff digit ns es) :
    (ns.flatMap fun n => (objCaps digit n).flatten) = es.flatMap Elem.caps := by
  induction h with
  | nil => rfl
  | expr hk _ ih => rw [List.flatMap_cons, objCaps_expr hk, ih]; rfl
  | op ho _ ih => rw [List.flatMap_cons, objCaps_op ho, ih]; rfl
  | word hn _ ih => rw [List.flatMap_cons, objCaps_name hn, ih]; rfl
  | use hm hr hf _ ih =>
    rw [List.flatMap_append, List.flatMap_append, List.flatMap_cons, marks_caps hm, objCaps_name hr, attrs_caps hf, ih]
    simp [Elem.caps, Use.caps]

theorem flatMap_filter_nil {α β : Type} {p : α → Bool} {f : α → List β} : ∀ {l : List α}, (∀ a ∈ l, p a = false → f a = []) →
    (l.filter p).flatMap f = l.flatMap f
  | [], _ => rfl
  | a :: l, h => by
    have ih := flatMap_filter_nil (l := l) (fun b hb => h b (List.mem_cons_of_mem _ hb))
    cases hp : p a with
    | true => simp [hp, ih]
    | false => simp [hp, ih, h a (by simp) hp]

theorem readsTree_caps {digit : Char → Bool} {root : Syn} {es : List Elem} (h : ReadsTree digit root es) (up : List Above)
    (left : List Syn) : (Syn.walk (qObjects digit) up left root).flatten = es.flatMap Elem.caps := by
  obtain ⟨p, hp, h⟩ := h
  rw [objects_flat, flatten_flatMap, ← reads_caps h]
  symm
  apply flatMap_filter_nil
  intro a _ ha
  rw [objCaps_irrelevant]
  · rfl
  · intro hr; rw [(hp a).mpr hr] at ha; cases ha

/-! ### JINJA_IMPORTS -/

/-- a choice of a begin, a keyword and a string when there is one begin in front -/
theorem picks_one {p : Syn → Bool} {ps : List (Syn → Bool)} {b : Syn} {ns : List Syn} (hb : p b = true) (h : ∀ n ∈ ns, p n = false) :
    picks (p :: ps) (b :: ns) = (picks ps ns).map (b :: ·) := by
  rw [picks, hb, picks_none h]; simp

theorem picks_last (p : Syn → Bool) : ∀ ns : List Syn, picks [p] ns = (ns.filter p).map fun n => [n]
  | [] => by rw [picks]; rfl
  | n :: ns => by
    rw [picks, picks_last p ns]
    cases h : p n <;> simp [h, picks]

/-- the matches of a statement -/
def stmtMatch (options : Syn → Syn → List (List Capture)) (p : Syn) (above up : List Above) (kw s : Syn) : List (List Capture) :=
  if eqText kw c!"extends" then [[p.cap .extends above, kw.cap .other up, s.cap .templateName up]]
  else if eqText kw c!"include" then [[p.cap .include above, kw.cap .other up, s.cap .templateName up]]
  else if eqText kw c!"from" then (options p s).map fun o => [p.cap .from_ above, kw.cap .other up, s.cap .templateName up] ++ o
  else if eqText kw c!"import" then (options p s).map fun o => [p.cap .import_ above, kw.cap .other up, s.cap .templateName up] ++ o
  else []

theorem stmtMatch_none {options : Syn → Syn → List (List Capture)} {p : Syn} {above up : List Above} {kw s : Syn}
    (h : (tokOf kw).text ∉ importWords) : stmtMatch options p above up kw s = [] := by
  have : ∀ w, w ∈ importWords → eqText kw w = false := by
    intro w hw
    rw [eqText, decide_eq_false_iff_not]
    intro ht
    apply h
    have : (tokOf kw).text = w := by simp [tokOf, ht]
    rw [this]; exact hw
  rw [stmtMatch, this _ (by decide), this _ (by decide), this _ (by decide), this _ (by decide)]
  rfl

/-- all matches of keywords and strings among the tokens of a statement -/
def pairs (f : Syn → Syn → List (List Capture)) : List Syn → List (List Capture)
  | [] => []
  | n :: ns => (if n.kind = .keyword then (strings ns).flatMap (f n) else []) ++ pairs f ns

theorem pairs_noRef {options : Syn → Syn → List (List Capture)} {p : Syn} {above up : List Above} : ∀ {ns : List Syn}, NoRef ns →
    pairs (stmtMatch options p above up) ns = []
  | [], _ => rfl
  | n :: ns, h => by
    rw [pairs, pairs_noRef h.2, List.append_nil]
    by_cases hk : n.kind = .keyword
    · rw [if_pos hk]
      by_cases hw : (tokOf n).text ∈ importWords
      · rw [h.1 hk hw]; rfl
      · rw [List.flatMap_eq_nil_iff]; intro s _; exact stmtMatch_none hw
    · rw [if_neg hk]

theorem qImports_end (options : Syn → Syn → List (List Capture)) {n b e : Syn} {inner : List Syn} (h : IsStmt n b inner e)
    (above : List Above) (l0 : List Syn) :
    qImports options .enter ((n, l0) :: above) (b :: inner) e =
      pairs (stmtMatch options n above ((n, l0) :: above)) inner := by
  simp only [qImports, h.closing.2, h.kind, if_true]
  rw [picks_one (by simp [h.opening.2]) (fun m hm => by simp [(h.inner m hm).2.1]), List.flatMap_map]
  have : ∀ ns : List Syn, ((picks [fun m => decide (m.kind = .keyword), fun m => decide (m.kind = .string)] ns).flatMap fun a =>
      match b :: a with
      | [_, kw, s] => stmtMatch options n above ((n, l0) :: above) kw s
      | _ => []) = pairs (stmtMatch options n above ((n, l0) :: above)) ns := by
    intro ns
    induction ns with
    | nil => rfl
    | cons m ns ih =>
      rw [picks, List.flatMap_append, ih, pairs]
      congr 1
      by_cases hk : m.kind = .keyword
      · rw [if_pos (by simp [hk]), if_pos hk, picks_last, List.map_map, List.flatMap_map]
        rfl
      · rw [if_neg (by simp [hk]), if_neg hk]; rfl
  exact this inner

theorem stmt_walk (options : Syn → Syn → List (List Capture)) {n b e : Syn} {inner : List Syn} (h : IsStmt n b inner e)
    (above : List Above) (l0 : List Syn) :
    Syn.walk (qImports options) above l0 n = pairs (stmtMatch options n above ((n, l0) :: above)) inner := by
  rw [Syn.walk_node, h.parts, List.cons_append, Syn.walkAll, Syn.walkAll_append]
  have e1 : qImports options .enter above l0 n = [] := by simp [qImports, h.kind]
  have e2 : ∀ (up : List Above) (l : List Syn) (m : Syn), qImports options .leave up l m = [] := fun _ _ _ => rfl
  rw [e1, e2, Syn.walk_leaf h.opening.1.leaf, e2, Syn.walkAll_leaves (g := fun _ => []) (ns := inner), Syn.walkAll, Syn.walkAll,
    Syn.walk_leaf h.closing.1.leaf, e2]
  · have e3 : qImports options .enter ((n, l0) :: above) [] b = [] := by simp [qImports, h.opening.2]
    rw [e3]
    simp only [List.nil_append, List.append_nil, List.singleton_append]
    rw [qImports_end options h]
    simp
  · intro m hm
    refine ⟨(h.inner m hm).1.leaf, fun l => ?_⟩
    obtain ⟨_, _, h3, h4⟩ := h.inner m hm
    simp only [qImports, List.append_nil]

theorem stmt_match (options : Syn → Syn → List (List Capture)) {n b e kw : Syn} {rest : List Syn} (h : IsStmt n b (kw :: rest) e)
    (hk : kw.kind = .keyword) (hr : NoRef rest) (above : List Above) (l0 : List Syn) :
    Syn.walk (qImports options) above l0 n = (strings rest).flatMap (stmtMatch options n above ((n, l0) :: above) kw) := by
  rw [stmt_walk options h, pairs, if_pos hk, pairs_noRef hr, List.append_nil]

theorem mem_strings {s : Syn} {ns : List Syn} : s ∈ strings ns → s ∈ ns := fun h => (List.mem_filter.mp h).1

theorem refs_caps {options : Syn → Syn → List (List Capture)} {ns : List Syn} {ss : List ImpStmt} (h : Refs options ns ss)
    (up : List Above) : ∀ left : List Syn, (Syn.walkAll (qImports options) up left ns).flatten = ss.flatMap ImpStmt.caps := by
  have e2 : ∀ (up : List Above) (l : List Syn) (m : Syn), qImports options .leave up l m = [] := fun _ _ _ => rfl
  induction h with
  | nil => intro left; rw [Syn.walkAll]; rfl
  | @other n ns ss hk hc _ ih =>
    intro left
    rw [Syn.walkAll, Syn.walk_node, e2, Syn.walkAll_leaves (g := fun _ => []), List.flatten_append, ih]
    · rcases hk with hk | hk <;> simp [qImports, hk]
    · intro m hm
      refine ⟨(hc m hm).1, fun l => ?_⟩
      simp only [qImports, List.append_nil]
      split
      · rename_i hk; exact absurd hk (hc m hm).2.2
      · rename_i hk; exact absurd hk (hc m hm).2.1
      · rfl
  | stmt hs hn _ ih =>
    intro left
    rw [Syn.walkAll, stmt_walk options hs, pairs_noRef hn, List.nil_append, ih]
  | @«extends» n b kw e s rest ns ss hs ht hk hw hone hr _ ih =>
    intro left
    have hst := ((hs.inner s (List.mem_cons_of_mem _ (mem_strings (by rw [hone]; simp)))).1).text
    have hkt := ((hs.inner kw (by simp)).1).text
    rw [Syn.walkAll, stmt_match options hs hk hr, hone, List.flatten_append, ih]
    simp [stmtMatch, eqText, hw, cap_tok ht (cn := .«extends») (by decide) (by decide), cap_tok hkt (cn := .other) (by decide) (by decide),
      cap_tok hst (cn := .templateName) (by decide) (by decide), ImpStmt.caps]
  | @«include» n b kw e rest ns ss hs ht hk hw hr _ ih =>
    intro left
    have hkt := ((hs.inner kw (by simp)).1).text
    rw [Syn.walkAll, stmt_match options hs hk hr, List.flatten_append, ih, flatten_flatMap, List.flatMap_cons]
    congr 1
    rw [ImpStmt.caps, List.flatMap_map]
    have : ∀ l : List Syn, (∀ s ∈ l, s.text ≠ none) →
        (l.flatMap fun a => (stmtMatch options n up ((n, left) :: up) kw a).flatten) =
          l.flatMap fun a => [(tokOf n).cap .«include», (tokOf kw).cap .other, (tokOf a).cap .templateName] := by
      intro l hl
      induction l with
      | nil => rfl
      | cons s l ih =>
        rw [List.flatMap_cons, List.flatMap_cons, ih (fun x hx => hl x (List.mem_cons_of_mem _ hx))]
        simp [stmtMatch, eqText, hw, cap_tok ht (cn := .«include») (by decide) (by decide),
          cap_tok hkt (cn := .other) (by decide) (by decide), cap_tok (hl s (by simp)) (cn := .templateName) (by decide) (by decide)]
    exact this _ (fun s h => ((hs.inner s (List.mem_cons_of_mem _ (mem_strings h))).1).text)
  | @from_ n b kw e s rest ns ss hs ht hk hw hone hr _ ih =>
    intro left
    have hst := ((hs.inner s (List.mem_cons_of_mem _ (mem_strings (by rw [hone]; simp)))).1).text
    have hkt := ((hs.inner kw (by simp)).1).text
    rw [Syn.walkAll, stmt_match options hs hk hr, hone, List.flatten_append, ih]
    simp [stmtMatch, eqText, hw, cap_tok ht (cn := .from_) (by decide) (by decide), cap_tok hkt (cn := .other) (by decide) (by decide),
      cap_tok hst (cn := .templateName) (by decide) (by decide), ImpStmt.caps, List.flatMap_def]
  | @import_ n b kw e s rest ns ss hs ht hk hw hone hr _ ih =>
    intro left
    have hst := ((hs.inner s (List.mem_cons_of_mem _ (mem_strings (by rw [hone]; simp)))).1).text
    have hkt := ((hs.inner kw (by simp)).1).text
    rw [Syn.walkAll, stmt_match options hs hk hr, hone, List.flatten_append, ih]
    simp [stmtMatch, eqText, hw, cap_tok ht (cn := .import_) (by decide) (by decide), cap_tok hkt (cn := .other) (by decide) (by decide),
      cap_tok hst (cn := .templateName) (by decide) (by decide), ImpStmt.caps, List.flatMap_def]

end JinjaLsp
