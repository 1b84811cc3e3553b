import Verif.Spec.Paths
import Verif.Lemmas.Path
/- `path_items` and `PathBuf::push` against the specification of look-up paths. -/

namespace JinjaLsp
open Spec

theorem splitChar_join (c : Char) : ∀ s : Str, (splitChar c s).foldr (fun x acc => match acc with | none => some x | some y => some (x ++ c :: y)) none = some s
  | [] => rfl
  | d :: r => by
    have ih := splitChar_join c r
    unfold splitChar
    split
    · rename_i h
      subst h
      simp only [List.foldr_cons, ih, List.nil_append]
    · split
      · rename_i h; exact absurd h (splitChar_ne_nil c r)
      · rename_i x xs h
        rw [h] at ih
        simp only [List.foldr_cons] at ih ⊢
        cases hx : xs.foldr (fun x acc => match acc with | none => some x | some y => some (x ++ c :: y)) none with
        | none => simp only [hx] at ih ⊢; cases ih; rfl
        | some y => simp only [hx] at ih ⊢; cases ih; rfl

/-- a piece without a slash is never absolute -/
theorem pathPush_piece {acc p : Str} (hp : '/' ∉ p) :
    pathPush acc p = if acc = [] ∨ acc.getLast? = some '/' then acc ++ p else acc ++ '/' :: p := by
  unfold pathPush
  rw [if_neg]
  · simp only [Bool.or_eq_true, List.isEmpty_iff, decide_eq_true_eq]
  · cases p with
    | nil => simp
    | cons c p => simp only [List.head?_cons, Option.some.injEq]; rintro rfl; exact hp (by simp)

theorem getLast?_append_slash (a : Str) : (a ++ ['/']).getLast? = some '/' := by simp

/-- pushing onto `b/` is pushing onto `b` -/
theorem pathPush_slash {b p : Str} (hb : b ≠ []) (hl : b.getLast? ≠ some '/') (hp : '/' ∉ p) : pathPush (b ++ ['/']) p = pathPush b p := by
  rw [pathPush_piece hp, pathPush_piece hp, if_pos (Or.inr (getLast?_append_slash b)), if_neg (by simp [hb, hl])]
  simp

theorem getLast?_notMem {p : Str} {c : Char} (h : c ∉ p) : p.getLast? ≠ some c := by
  intro hh
  exact h (List.mem_of_getLast? hh)

/-- the pieces pushed onto a non-empty path -/
theorem foldl_push : ∀ (segs : List Str) (b : Str), b ≠ [] → b.getLast? ≠ some '/' → (∀ s ∈ segs, '/' ∉ s) →
    segs.foldl pathPush b =
      b ++ (segs.filter fun s => decide (s ≠ [])).flatMap (fun s => '/' :: s) ++ (if segs.getLast? = some [] then ['/'] else [])
  | [], b, _, _, _ => by simp
  | s :: segs, b, hb, hl, hs => by
    have hs0 := hs s (by simp)
    have hs' : ∀ x ∈ segs, '/' ∉ x := fun x hx => hs x (by simp [hx])
    have hpush : pathPush b s = b ++ '/' :: s := by rw [pathPush_piece hs0, if_neg (by simp [hb, hl])]
    rw [List.foldl_cons, hpush]
    by_cases h0 : s = []
    · subst h0
      cases segs with
      | nil => simp
      | cons x segs =>
        have hx := hs' x (by simp)
        have e : (x :: segs).foldl pathPush (b ++ ['/']) = (x :: segs).foldl pathPush b := by
          rw [List.foldl_cons, List.foldl_cons, pathPush_slash hb hl hx]
        rw [e, foldl_push (x :: segs) b hb hl hs']
        simp
    · have hne : b ++ '/' :: s ≠ [] := by simp
      have hlast : (b ++ '/' :: s).getLast? ≠ some '/' := by
        rw [List.getLast?_append]
        cases s with
        | nil => exact absurd rfl h0
        | cons c s =>
          have := getLast?_notMem hs0
          rw [List.getLast?_cons_cons]
          cases hh : (c :: s).getLast? with
          | none => simp at hh
          | some d => rw [hh] at this; simpa using this
      rw [foldl_push segs _ hne hlast hs']
      have hcond : ((s :: segs).getLast? = some []) ↔ (segs.getLast? = some []) := by
        cases segs with
        | nil => simp [h0]
        | cons x segs => simp [List.getLast?_cons_cons]
      simp [hcond, h0]

theorem join_flatMap : ∀ (s : Str) (ss : List Str), join (s :: ss) = s ++ ss.flatMap (fun s => '/' :: s)
  | s, [] => by simp [join]
  | s, x :: ss => by rw [join, join_flatMap x ss]; simp; simp

theorem splitChar_cons (c d : Char) (r : Str) (h : d ≠ c) : ∃ x xs, splitChar c r = x :: xs ∧ splitChar c (d :: r) = (d :: x) :: xs := by
  cases hh : splitChar c r with
  | nil => exact absurd hh (splitChar_ne_nil c _)
  | cons x xs => exact ⟨x, xs, rfl, by simp [splitChar, h, hh]⟩

theorem getLast?_splitChar_nil (c : Char) : ∀ s : Str, s ≠ [] → ((splitChar c s).getLast? = some [] ↔ s.getLast? = some c)
  | [d], _ => by
    by_cases h : d = c
    · subst h; simp [splitChar]
    · simp [splitChar, h]
  | d :: e :: r, _ => by
    have ih := getLast?_splitChar_nil c (e :: r) (by simp)
    rw [List.getLast?_cons_cons, ← ih]
    by_cases h : d = c
    · have e1 : splitChar c (d :: e :: r) = [] :: splitChar c (e :: r) := by rw [splitChar, if_pos h]
      rw [e1]
      cases hh : splitChar c (e :: r) with
      | nil => exact absurd hh (splitChar_ne_nil c _)
      | cons x xs => rw [List.getLast?_cons_cons]
    · obtain ⟨x, xs, h1, h2⟩ := splitChar_cons c d (e :: r) h
      rw [h1, h2]
      cases xs with
      | nil =>
        have := splitChar_join c (e :: r)
        rw [h1] at this
        simp only [List.foldr_cons, List.foldr_nil, Option.some.injEq] at this
        subst this
        simp
      | cons y ys => simp only [List.getLast?_cons_cons]

/-- skipping leading empty pieces -/
theorem foldl_push_nil : ∀ (segs : List Str), (∀ s ∈ segs, '/' ∉ s) →
    segs.foldl pathPush [] =
      join (segs.filter fun s => decide (s ≠ [])) ++
        (if segs.getLast? = some [] ∧ (segs.filter fun s => decide (s ≠ [])) ≠ [] then ['/'] else [])
  | [], _ => rfl
  | s :: segs, hs => by
    have hs0 := hs s (by simp)
    have hs' : ∀ x ∈ segs, '/' ∉ x := fun x hx => hs x (by simp [hx])
    have hpush : pathPush [] s = s := by rw [pathPush_piece hs0]; simp
    rw [List.foldl_cons, hpush]
    by_cases h0 : s = []
    · subst h0
      rw [foldl_push_nil segs hs']
      cases segs with
      | nil => rfl
      | cons x segs => simp [List.getLast?_cons_cons]
    · rw [foldl_push segs s h0 (getLast?_notMem hs0) hs']
      have hf : ((s :: segs).filter fun s => decide (s ≠ [])) = s :: segs.filter fun s => decide (s ≠ []) := by simp [h0]
      rw [hf, join_flatMap]
      have hcond : ((s :: segs).getLast? = some []) ↔ (segs.getLast? = some []) := by
        cases segs with
        | nil => simp [h0]
        | cons x segs => simp [List.getLast?_cons_cons]
      simp [hcond]

theorem pathItems_eq (name : Str) : pathItems name = relative name := by
  unfold pathItems relative segments
  rw [foldl_push_nil _ (fun s hs => splitChar_pieces '/' name s hs)]
  cases name with
  | nil => rfl
  | cons c name =>
    simp only [getLast?_splitChar_nil '/' (c :: name) (by simp)]
    split <;> simp

/-- a path made of components never starts with a slash -/
theorem join_head : ∀ (ss : List Str), (∀ s ∈ ss, s ≠ [] ∧ '/' ∉ s) → (join ss).head? ≠ some '/'
  | [], _ => by simp [join]
  | s :: ss, h => by
    rw [join_flatMap]
    obtain ⟨h1, h2⟩ := h s (by simp)
    cases s with
    | nil => exact absurd rfl h1
    | cons c s =>
      simp only [List.cons_append, List.head?_cons, ne_eq, Option.some.injEq]
      rintro rfl
      exact h2 (by simp)

theorem segments_ok (name : Str) : ∀ s ∈ segments name, s ≠ [] ∧ '/' ∉ s := by
  intro s hs
  unfold segments at hs
  rw [List.mem_filter] at hs
  exact ⟨by simpa using hs.2, splitChar_pieces '/' name s hs.1⟩

theorem relative_head (name : Str) : (relative name).head? ≠ some '/' := by
  have h := join_head (segments name) (segments_ok name)
  unfold relative
  split
  · rename_i hh
    have hne : join (segments name) ≠ [] := by
      cases hs : segments name with
      | nil => exact absurd hs hh.2
      | cons s ss =>
        rw [join_flatMap]
        have := (segments_ok name s (by rw [hs]; simp)).1
        simp [this]
    cases hj : join (segments name) with
    | nil => exact absurd hj hne
    | cons c r => rw [hj] at h; simpa using h
  · exact h

/-- the path that is checked is the specified one -/
theorem checkedPath_eq (dir name : Str) : checkedPath dir name = lookupPath dir name := by
  unfold checkedPath lookupPath pathPush
  rw [pathItems_eq, if_neg (relative_head name)]
  simp only [Bool.or_eq_true, List.isEmpty_iff, decide_eq_true_eq]

theorem splitChar_flatMap (c : Char) : ∀ (ss : List Str) (b : Str), (∀ s ∈ ss, c ∉ s) →
    splitChar c (b ++ ss.flatMap (fun s => c :: s)) = splitChar c b ++ ss
  | [], b, _ => by simp
  | s :: ss, b, h => by
    have e : b ++ (s :: ss).flatMap (fun s => c :: s) = b ++ c :: (s ++ ss.flatMap (fun s => c :: s)) := by simp
    rw [e, splitChar_append, splitChar_flatMap c ss s (fun x hx => h x (by simp [hx])), splitChar_notMem c s (h s (by simp))]
    simp

theorem segments_append_slash (a b : Str) : segments (a ++ '/' :: b) = segments a ++ segments b := by
  unfold segments; rw [splitChar_append, List.filter_append]

theorem segments_join (ss : List Str) (h : ∀ s ∈ ss, s ≠ [] ∧ '/' ∉ s) : segments (join ss) = ss := by
  cases ss with
  | nil => simp [join, segments, splitChar]
  | cons s ss =>
    rw [join_flatMap]
    unfold segments
    rw [splitChar_flatMap '/' ss s (fun x hx => (h x (by simp [hx])).2), splitChar_notMem '/' s (h s (by simp)).2]
    show List.filter _ (s :: ss) = s :: ss
    rw [List.filter_eq_self]
    intro x hx
    simpa using (h x hx).1

theorem segments_relative (name : Str) : segments (relative name) = segments name := by
  have h := segments_join (segments name) (segments_ok name)
  unfold relative
  split
  · have : join (segments name) ++ ['/'] = join (segments name) ++ '/' :: [] := rfl
    rw [this, segments_append_slash, h]
    simp [segments, splitChar]
  · exact h

/-- the components of the path are those of the directory followed by those of the name -/
theorem segments_lookupPath (dir name : Str) : segments (lookupPath dir name) = segments dir ++ segments name := by
  unfold lookupPath
  split
  · rename_i h
    rcases h with rfl | h
    · rw [List.nil_append, segments_relative]
      simp [segments, splitChar]
    · obtain ⟨d, rfl⟩ : ∃ d, dir = d ++ ['/'] := by
        obtain ⟨d, c, rfl⟩ : ∃ d c, dir = d ++ [c] := by
          cases hd : dir.reverse with
          | nil => have : dir = [] := by simpa using hd
                   subst this; simp at h
          | cons c r => exact ⟨r.reverse, c, by have := congrArg List.reverse hd; simpa using this⟩
        simp at h; exact ⟨d, by rw [h]⟩
      have e : d ++ ['/'] ++ relative name = d ++ '/' :: relative name := by simp
      have e2 : d ++ ['/'] = d ++ '/' :: [] := rfl
      rw [e, e2, segments_append_slash, segments_append_slash, segments_relative]
      simp [segments, splitChar]
  · rw [segments_append_slash, segments_relative]

theorem join_splitChar (name : Str) : join (splitChar '/' name) = name := by
  have h := splitChar_join '/' name
  have key : ∀ l : List Str, l ≠ [] →
      l.foldr (fun x acc => match acc with | none => some x | some y => some (x ++ '/' :: y)) none = some (join l) := by
    intro l
    induction l with
    | nil => intro h; exact absurd rfl h
    | cons x l ih =>
      intro _
      cases l with
      | nil => rfl
      | cons y l =>
        rw [List.foldr_cons, ih (by simp)]
        rfl
  rw [key _ (splitChar_ne_nil '/' name)] at h
  exact Option.some.inj h

/-- a plain name is its own relative path -/
theorem relative_plain {name : Str} (h : Plain name) : relative name = name := by
  have hs : segments name = splitChar '/' name := by
    unfold segments
    rw [List.filter_eq_self]
    intro s hs
    simpa using h.2 s hs
  unfold relative
  rw [if_neg, hs, join_splitChar]
  rintro ⟨hl, _⟩
  rw [← getLast?_splitChar_nil '/' name h.1] at hl
  exact h.2 [] (List.mem_of_getLast? hl) rfl

theorem plain_head {name : Str} (h : Plain name) : name.head? ≠ some '/' := by
  rw [← relative_plain h]; exact relative_head name

/-- for a plain name `PathBuf::push(name)` gives the same path -/
theorem pathPush_plain (dir : Str) {name : Str} (h : Plain name) : pathPush dir name = lookupPath dir name := by
  unfold pathPush lookupPath
  rw [if_neg (plain_head h), relative_plain h]
  simp only [Bool.or_eq_true, List.isEmpty_iff, decide_eq_true_eq]

end JinjaLsp
