import Verif.Lemmas.Cursor
import Verif.Lemmas.Open
/- Inversion of the completion request and of the completion prefix. -/

namespace JinjaLsp

/-! ### Prefixes -/

theorem bytePrefix_prefix : ∀ (s : Str) (n : Nat) (r : Str), bytePrefix s n = some r → r <+: s ∧ utf8Len r = n
  | s, 0, r, h => by
    have : r = [] := by cases s <;> simpa [bytePrefix, eq_comm] using h
    subst this; simp [utf8Len]
  | [], n + 1, r, h => by simp [bytePrefix] at h
  | c :: s, n + 1, r, h => by
    simp only [bytePrefix] at h
    split at h
    · rename_i hc
      cases hb : bytePrefix s (n + 1 - c.utf8Size) with
      | none => rw [hb] at h; cases h
      | some r' =>
        rw [hb] at h
        simp only [Option.map_some, Option.some.injEq] at h
        subst h
        obtain ⟨h1, h2⟩ := bytePrefix_prefix s _ r' hb
        refine ⟨List.cons_prefix_cons.mpr ⟨rfl, h1⟩, ?_⟩
        simp only [utf8Len, List.map_cons, List.sum_cons] at h2 ⊢
        omega
    · cases h

theorem utf8Size_pos (c : Char) : 0 < c.utf8Size := Char.utf8Size_pos c

theorem bytePrefix_append : ∀ (a b : Str), bytePrefix (a ++ b) (utf8Len a) = some a
  | [], b => by cases b <;> rfl
  | c :: a, b => by
    have hp := utf8Size_pos c
    have hl : utf8Len (c :: a) = c.utf8Size + utf8Len a := by simp [utf8Len]
    obtain ⟨n, hn⟩ : ∃ n, c.utf8Size + utf8Len a = n + 1 := ⟨c.utf8Size + utf8Len a - 1, by omega⟩
    rw [hl, hn]
    simp only [List.cons_append, bytePrefix]
    have h1 : c.utf8Size ≤ n + 1 := by omega
    have h2 : n + 1 - c.utf8Size = utf8Len a := by omega
    simp [h1, h2, bytePrefix_append a b]

theorem utf8Len_pos {s : Str} (h : s ≠ []) : 0 < utf8Len s := by
  cases s with
  | nil => exact absurd rfl h
  | cons c s => have := utf8Size_pos c; simp [utf8Len]; omega

theorem utf8Len_append (a b : Str) : utf8Len (a ++ b) = utf8Len a + utf8Len b := by simp [utf8Len]

/-- the prefix is a prefix of the name -/
theorem completionStart_prefix {prof : Profile} {p : Point} {i : Identifier} {s : Str}
    (h : completionStart prof p i = .ok (some s)) : s <+: i.name := by
  unfold completionStart at h
  simp only at h
  split at h
  · injection h with h; injection h with h; subst h; exact List.nil_prefix
  · split at h
    · cases h
    · split at h
      · injection h with h; injection h with h; subst h; exact List.prefix_rfl
      · split at h
        · injection h with h; injection h with h; subst h; exact List.prefix_rfl
        · injection h with h
          exact (bytePrefix_prefix _ _ _ h).1

/-- no overflow when the cursor is not right of the end of the token by more than one column -/
theorem completionStart_ok {prof : Profile} {p : Point} {i : Identifier} (h : p.column ≤ i.stop.column + 1) :
    ∃ r, completionStart prof p i = .ok r := by
  unfold completionStart
  simp only
  split
  · exact ⟨_, rfl⟩
  · have hcol : (if p.column > 0 then p.column - 1 else p.column) ≤ i.stop.column := by split <;> omega
    rw [JinjaObjects.usub_ok prof hcol]
    generalize i.stop.column - _ = d
    simp only
    by_cases h1 : (d = 0 || d = 1) = true
    · simp only [h1, if_true]; exact ⟨_, rfl⟩
    · simp only [h1]
      by_cases h2 : d > utf8Len i.name
      · simp only [h2, if_true]; exact ⟨_, rfl⟩
      · simp only [h2, if_false]; exact ⟨_, rfl⟩

/-- the exact prefix for an unquoted name -/
theorem completionStart_exact (prof : Profile) (p : Point) (i : Identifier) (a b : Str) (hn : i.name = a ++ b) (ha : a ≠ [])
    (hcol : i.stop.column = i.start.column + utf8Len i.name) (hp : p.column = i.start.column + utf8Len a) :
    completionStart prof p i = .ok (some a) := by
  have hap := utf8Len_pos ha
  have hlen : utf8Len i.name = utf8Len a + utf8Len b := by rw [hn, utf8Len_append]
  unfold completionStart
  have h1 : p.column > 0 := by omega
  have h2 : ¬ utf8Len i.name = 0 := by omega
  have h3 : p.column - 1 ≤ i.stop.column := by omega
  have h4 : i.stop.column - (p.column - 1) = utf8Len b + 1 := by omega
  simp only [h1, if_true, h2, if_false, JinjaObjects.usub_ok prof h3, h4]
  by_cases hb : utf8Len b = 0
  · have hbn : b = [] := by
      apply Decidable.byContradiction
      intro hh
      have := utf8Len_pos hh
      omega
    simp [hb]; simp [hn, hbn]
  · have h5 : (decide (utf8Len b + 1 = 0) || decide (utf8Len b + 1 = 1)) = false := by simp [hb]
    have h6 : ¬ utf8Len b + 1 > utf8Len i.name := by omega
    have h7 : utf8Len i.name - (utf8Len b + 1) + 1 = utf8Len a := by omega
    simp only [h5, Bool.false_eq_true, if_false, h6, h7]
    rw [hn, bytePrefix_append]

namespace LspFiles

/-- the three sources of an answer in a template, and the one in a backend file -/
theorem completion_inv {env : Env} {f : LspFiles} {uri : Str} {pos : Position} {tr : TriggerKind} {r : CompletionType × Bool}
    (h : f.completion env uri pos tr = .ok (some r)) :
    ∃ ext tree content, fileExt uri = some ext ∧ (f.trees ext).get? uri = some tree ∧ f.documents.get? uri = some content ∧
      ((ext = .template ∧
        ((∃ x ch, (snippetsQuery env tree (toPoint pos) content false).toComplete env.profile (toPoint pos) = .ok (some x) ∧
            uadd32 env.profile (toPosition2 (toPoint pos)).character 1 = .ok ch ∧
            r = (.snippets ⟨toPosition2 (toPoint pos), ⟨(toPosition2 (toPoint pos)).line, ch⟩⟩, false)) ∨
          ((snippetsQuery env tree (toPoint pos) content false).toComplete env.profile (toPoint pos) = .ok none ∧
            ∃ objects, objectsQuery env tree (toPoint pos) content false = .ok objects ∧
              (objects.completion env.profile (toPoint pos) = .ok (some r) ∨
                (objects.completion env.profile (toPoint pos) = .ok none ∧ ∃ i s,
                  ((templatesQuery env tree (toPoint pos) content false).inTemplate.bind fun i => i.getIdentifier (toPoint pos)) = some i ∧
                  completionStart env.profile (toPoint pos) i = .ok (some s) ∧
                  r = (.includedTemplate s (toRange (i.start, i.stop)), false)))))) ∨
       (ext = .backend ∧ ∃ i s,
          (backendTemplatesQuery env f.queriesBackend tree (toPoint pos) content false).inTemplate (toPoint pos) = some i ∧
          completionStart env.profile (toPoint pos) i = .ok (some s) ∧
          r = (.includedTemplate s (toRange (i.start, i.stop)), false))) := by
  unfold completion at h
  split at h
  · cases h
  · simp only at h
    split at h
    · cases h
    · rename_i ext hext
      split at h
      · rename_i tree content ht hd
        refine ⟨ext, tree, content, hext, ht, hd, ?_⟩
        cases ext with
        | template =>
          left
          refine ⟨rfl, ?_⟩
          simp only at h
          split at h
          · cases h
          · rename_i x hx
            split at h
            · cases h
            · rename_i ch hch
              injection h with h; injection h with h
              exact Or.inl ⟨x, ch, hx, hch, h.symm⟩
          · rename_i hx
            right
            refine ⟨hx, ?_⟩
            split at h
            · cases h
            · rename_i objects ho
              refine ⟨objects, ho, ?_⟩
              split at h
              · cases h
              · rename_i c hc
                injection h with h; injection h with h
                subst h
                exact Or.inl hc
              · rename_i hc
                right
                refine ⟨hc, ?_⟩
                split at h
                · cases h
                · rename_i i hi
                  split at h
                  · cases h
                  · cases h
                  · rename_i s hs
                    injection h with h; injection h with h
                    exact ⟨i, s, hi, hs, h.symm⟩
        | backend =>
          right
          refine ⟨rfl, ?_⟩
          simp only at h
          split at h
          · cases h
          · rename_i i hi
            split at h
            · cases h
            · cases h
            · rename_i s hs
              injection h with h; injection h with h
              exact ⟨i, s, hi, hs, h.symm⟩
      · cases h

end LspFiles

namespace JinjaObjects

/-- what each kind of answer says about the state -/
theorem completion_inv {prof : Profile} {s : JinjaObjects} {p : Point} {ct : CompletionType} {b : Bool}
    (h : s.completion prof p = .ok (some (ct, b))) :
    (ct = .filter ∧ s.inPipe p = true) ∨
    (ct = .identifier ∧ s.inExpr p = true) ∨
    (∃ v x, ct = .incompleteIdentifier x s.fullRange ∧ s.inExpr p = true ∧ s.isIdent p = some v ∧
      completionStart prof p (Identifier.new v s.ident.1 s.ident.2) = .ok (some x)) ∨
    (ct = .test ∧ s.isTest p = true) := by
  unfold completion at h
  simp only at h
  split at h
  · rename_i hp
    injection h with h; injection h with h; injection h with h _
    exact Or.inl ⟨h.symm, hp⟩
  · split at h
    · rename_i he
      split at h
      · injection h with h; injection h with h; injection h with h _
        exact Or.inr (Or.inl ⟨h.symm, he⟩)
      · split at h
        · injection h with h; injection h with h; injection h with h _
          exact Or.inr (Or.inl ⟨h.symm, he⟩)
        · split at h
          · rename_i v hv
            split at h
            · cases h
            · cases h
            · rename_i x hx
              injection h with h; injection h with h; injection h with h _
              exact Or.inr (Or.inr (Or.inl ⟨v, x, h.symm, he, hv, hx⟩))
          · injection h with h; injection h with h; injection h with h _
            exact Or.inr (Or.inl ⟨h.symm, he⟩)
    · split at h
      · rename_i ht
        injection h with h; injection h with h; injection h with h _
        exact Or.inr (Or.inr (Or.inr ⟨h.symm, ht⟩))
      · cases h

theorem inExpr_cover {s : JinjaObjects} {p : Point} (h : s.inExpr p = true) : s.expr.1 ≤ p ∧ p < s.expr.2 := by
  unfold inExpr at h
  simp only at h
  split at h
  · cases h
  · rename_i hh
    simpa using hh

end JinjaObjects
end JinjaLsp
