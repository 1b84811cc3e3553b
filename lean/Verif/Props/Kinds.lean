import Verif.Props.Offers
/-
  C105: completion, hover and the outline describe a name alike.
-/

namespace JinjaLsp
open Spec

/-- the icon of completion items that stands for the same thing as an icon of the outline -/
def Spec.iconOf : SymKind → ItemKind
  | .variable => .variable
  | .field => .field
  | .function => .function
  | .module => .module
  | .constant => .constant
  | .file => .file

theorem completionKind_eq (t : IdType) : t.completionKind = iconOf (symbolOf t) := by cases t <;> rfl

/-- the item of a variable is described by its kind -/
theorem variableItem_kind {vs : Bool} {st : Str} {r : Range} {v : Identifier} {i : CompletionItem}
    (h : LspFiles.variableItem vs st r v = some i) : i.detail = some (kindText v.idType) ∧ i.kind = some (iconOf (symbolOf v.idType)) := by
  rw [← completionDetail_eq, ← completionKind_eq]
  unfold LspFiles.variableItem at h
  simp only at h
  split at h
  · cases h; exact ⟨rfl, rfl⟩
  · split at h
    · split at h <;> (cases h; exact ⟨rfl, rfl⟩)
    · cases h

/-- the items come from the first variable of each name -/
theorem variableItems_first {vs : Bool} {st : Str} {r : Range} : ∀ (l : List Identifier) (names : List Str) (i : CompletionItem),
    i ∈ LspFiles.variableItems vs st r names l →
    ∃ pre v post, l = pre ++ v :: post ∧ (∀ d ∈ pre, d.name ≠ i.label) ∧ i.label ∉ names ∧ LspFiles.variableItem vs st r v = some i
  | [], _, _, h => by simp [LspFiles.variableItems] at h
  | v :: l, names, i, h => by
    simp only [LspFiles.variableItems] at h
    split at h
    · rename_i hn
      obtain ⟨pre, v', post, rfl, h1, h2, h3⟩ := variableItems_first l names i h
      exact ⟨v :: pre, v', post, rfl, List.forall_mem_cons.mpr ⟨fun e => h2 (e ▸ hn), h1⟩, h2, h3⟩
    · rename_i hn
      have next : i ∈ LspFiles.variableItems vs st r (v.name :: names) l →
          ∃ pre v' post, v :: l = pre ++ v' :: post ∧ (∀ d ∈ pre, d.name ≠ i.label) ∧ i.label ∉ names ∧ LspFiles.variableItem vs st r v' = some i := by
        intro h
        obtain ⟨pre, v', post, rfl, h1, h2, h3⟩ := variableItems_first l _ i h
        exact ⟨v :: pre, v', post, rfl, List.forall_mem_cons.mpr ⟨fun e => h2 (by simp [e]), h1⟩, fun hm => h2 (by simp [hm]), h3⟩
      split at h
      · rename_i item hi
        rcases List.mem_cons.mp h with rfl | h
        · exact ⟨[], v, l, rfl, by simp, by rw [(LspFiles.variableItem_label hi).1]; exact hn, hi⟩
        · exact next h
      · exact next h

/-- the first element of a filtered list among those with a property -/
theorem first_of_filter {α : Type} {q : α → Bool} : ∀ {l pre post : List α} {v : α}, l.filter q = pre ++ v :: post →
    ∃ pre' post', l = pre' ++ v :: post' ∧ pre'.filter q = pre ∧ q v = true
  | [], pre, post, v, h => by simp at h
  | x :: l, pre, post, v, h => by
    by_cases hx : q x = true
    · rw [List.filter_cons_of_pos hx] at h
      cases pre with
      | nil =>
        simp only [List.nil_append, List.cons.injEq] at h
        exact ⟨[], l, by rw [h.1]; rfl, rfl, h.1 ▸ hx⟩
      | cons y pre =>
        simp only [List.cons_append, List.cons.injEq] at h
        obtain ⟨a, b, rfl, h2, h3⟩ := first_of_filter h.2
        exact ⟨x :: a, b, rfl, by rw [List.filter_cons_of_pos hx, h2, h.1], h3⟩
    · rw [List.filter_cons_of_neg hx] at h
      obtain ⟨a, b, rfl, h2, h3⟩ := first_of_filter h
      exact ⟨x :: a, b, rfl, by rw [List.filter_cons_of_neg hx, h2], h3⟩

theorem inj_of_nodup_map {α β : Type} {f : α → β} : ∀ {l : List α}, (l.map f).Nodup → ∀ {x y : α}, x ∈ l → y ∈ l → f x = f y → x = y
  | a :: l, h, x, y, hx, hy, e => by
    simp only [List.map_cons, List.nodup_cons] at h
    rcases List.mem_cons.mp hx with ex | hx'
    · rcases List.mem_cons.mp hy with ey | hy'
      · exact ex.trans ey.symm
      · exact absurd (List.mem_map.mpr ⟨y, hy', e.symm.trans (congrArg f ex)⟩) h.1
    · rcases List.mem_cons.mp hy with ey | hy'
      · exact absurd (List.mem_map.mpr ⟨x, hx', e.trans (congrArg f ey)⟩) h.1
      · exact inj_of_nodup_map h.2 hx' hy' e

/-- **C105** In a completion of names, the item of a variable of the document says the kind, in words and as an icon, of the first of the
definitions of the name that can be used at the cursor; all other items are marked as variables of the backend. -/
theorem C105_described (env : Env) (w : World) (s : Server) (uri : Str) (pos : Position) (tr : TriggerKind) (ct : CompletionType)
    (b : Bool) (typed : Str) (vs : List Identifier) (hk : s.files.completion env uri pos tr = .ok (some (ct, b)))
    (hct : OfNames typed ct) (hv : s.files.variables.get? uri = some vs) :
    ∃ own rest, s.handle env w (.completion uri pos tr) = .ok (s, [], .completion (some (own ++ rest))) ∧
      (own.map (·.label)).Nodup ∧
      (∀ n, n ∈ own.map (·.label) ↔ (∃ v ∈ vs, Visible (toPoint pos) v ∧ v.name = n) ∧ typed <+: n) ∧
      (∀ i ∈ own, ∃ pre v post, vs = pre ++ v :: post ∧ Visible (toPoint pos) v ∧ v.name = i.label ∧
        (∀ d ∈ pre, d.name = i.label → ¬ Visible (toPoint pos) d) ∧
        i.detail = some (kindText v.idType) ∧ i.kind = some (iconOf (symbolOf v.idType))) ∧
      ∀ i ∈ rest, i.detail = some c!"Backend variable" ∧ i.kind = some .variable := by
  obtain ⟨r, rest, _, h, hrest⟩ := names_reply (w := w) hk hct hv
  refine ⟨_, rest, h, LspFiles.variableItems_nodup _ _, ?_, ?_, ?_⟩
  · intro n
    rw [List.mem_map]
    constructor
    · rintro ⟨i, hi, rfl⟩
      obtain ⟨v, hv, _, hvi⟩ := LspFiles.variableItems_from _ _ _ hi
      obtain ⟨h1, h2⟩ := LspFiles.variableItem_label hvi
      rw [List.mem_filter, visibleAt_iff] at hv
      rw [h1]
      exact ⟨⟨v, hv.1, hv.2, rfl⟩, h2⟩
    · rintro ⟨⟨v, hv, hvis, rfl⟩, hp⟩
      exact LspFiles.variableItems_mem _ [] v (List.mem_filter.mpr ⟨hv, visibleAt_iff.mpr hvis⟩) (by simp) hp
  · intro i hi
    obtain ⟨pre, v, post, he, h1, _, h3⟩ := variableItems_first _ _ _ hi
    obtain ⟨pre', post', rfl, h4, h5⟩ := first_of_filter he
    refine ⟨pre', v, post', rfl, visibleAt_iff.mp h5, (LspFiles.variableItem_label h3).1.symm, ?_, variableItem_kind h3⟩
    intro d hd hn hvis
    exact h1 d (h4 ▸ List.mem_filter.mpr ⟨hd, visibleAt_iff.mpr hvis⟩) hn
  · intro i hi
    obtain ⟨_, _, v, _, _, h3, rfl⟩ := (hrest i).mp hi
    simp only [LspFiles.backendItem, h3]
    exact ⟨rfl, rfl⟩

/-- the item of a used name, its definition, and what hover and the outline say about the name -/
theorem described_use {env : Env} {w w₁ : World} {s : Server} {uri text : Str} {tree : Tree} {vars : List Identifier}
    {before : List Elem} {u : Use} {rest : List Capture} {pos : Position}
    (he : fileExt uri = some .template) (hd : s.files.documents.get? uri = some text)
    (ht : (s.files.trees .template).get? uri = some tree) (hv : s.files.variables.get? uri = some vars)
    (hon : OnUse (env.queryMatches .jinjaObjects tree text).flatten before u rest (toPoint pos))
    (hvar : u.info.filter = false ∧ u.info.test = false)
    (hs : ¬ Spec.Broken (env.queryMatches .jinjaSnippets tree text).flatten (toPoint pos))
    {typed untyped : Str} (hn : u.root.text = typed ++ untyped) (hty : typed ≠ [])
    (hrow : u.root.stop.column = u.root.start.column + utf8Len u.root.text)
    (hcol : pos.character = u.root.start.column + utf8Len typed) (hline : pos.line = u.root.start.row)
    (hin : (lastExpr ((Point.zero, Point.zero), ExprRange.default) before).1.1 ≤ toPoint pos ∧
      toPoint pos < (lastExpr ((Point.zero, Point.zero), ExprRange.default) before).1.2)
    (hbeg : (lastExpr ((Point.zero, Point.zero), ExprRange.default) before).2.beginR.2 ≤ u.root.start)
    (hap : ∀ d ∈ vars, d.name = u.root.text → d.idType ≠ .templateBlock → Apart u.root d ∧ d.idType ≠ .jinjaTemplate)
    (hex : ∃ d ∈ vars, DefinesAt u.root.text u.root.start d) :
    ∃ own more i first latest pre post,
      s.handle env w (.completion uri pos .invoked) = .ok (s, [], .completion (some (own ++ more))) ∧
      i ∈ own ∧ i.label = u.root.text ∧ (∀ j ∈ own, j.label = u.root.text → j = i) ∧
      vars = pre ++ first :: post ∧ DefinesAt u.root.text u.root.start first ∧
      (∀ d ∈ pre, ¬ DefinesAt u.root.text u.root.start d) ∧
      i.detail = some (kindText first.idType) ∧ i.kind = some (iconOf (symbolOf first.idType)) ∧
      latest ∈ vars ∧ DefinesAt u.root.text u.root.start latest ∧
      (∀ d ∈ vars, DefinesAt u.root.text u.root.start d → d.start ≤ latest.start) ∧
      s.handle env w₁ (.hover uri pos) = .ok (s, [], .hover (some (kindText latest.idType))) := by
  obtain ⟨rg, b, hk⟩ := C20_typed_partial env s.files uri tree text pos he hd ht hs before u rest hon typed untyped hn hty hrow hcol hline hin hbeg
  have hct : OfNames typed (.incompleteIdentifier typed rg) := Or.inr ⟨rg, rfl⟩
  obtain ⟨own, more, h1, hnd, h2, h3, _⟩ := C105_described env w s uri pos .invoked _ b typed vars hk hct hv
  have ho : u.root.start ≤ u.root.stop := Point.le_trans hon.start hon.stop
  have hiff : ∀ d ∈ vars, d.name = u.root.text → (Visible (toPoint pos) d ↔ DefinesAt u.root.text u.root.start d) := by
    intro d hdm hdn
    constructor
    · intro hvis
      obtain ⟨g1, g2⟩ := hap d hdm hdn hvis.1
      exact (g1.defines ho).mpr ⟨hdn, (g1.usable hon.start hon.stop g2).mp hvis⟩
    · intro hdef
      obtain ⟨g1, g2⟩ := hap d hdm hdn hdef.1
      exact (g1.usable hon.start hon.stop g2).mpr ((g1.defines ho).mp hdef).2
  obtain ⟨d, hdm, hdef⟩ := hex
  obtain ⟨i, hi, hl⟩ := List.mem_map.mp ((h2 u.root.text).mpr ⟨⟨d, hdm, (hiff d hdm hdef.2.1).mpr hdef, hdef.2.1⟩, untyped, hn.symm⟩)
  obtain ⟨pre, first, post, e, f1, f2, f3, f4, f5⟩ := h3 i hi
  obtain ⟨latest, l1, l2, l3, l4⟩ := C43_local_partial env w₁ s uri tree text pos he hd ht before u rest hon hvar vars hv ⟨d, hdm, hdef⟩
  refine ⟨own, more, i, first, latest, pre, post, h1, hi, hl, ?_, e, ?_, ?_, f4, f5, l1, l2, l3, l4⟩
  · intro j hj hjl
    exact inj_of_nodup_map hnd hj hi (hjl.trans hl.symm)
  · exact (hiff first (by rw [e]; simp) (f2.trans hl)).mp f1
  · intro d' hd' hdef'
    exact f3 d' hd' (hdef'.2.1.trans hl.symm) ((hiff d' (by rw [e]; simp [hd']) hdef'.2.1).mpr hdef')

/-- **C105** (part) For every variable used in an expression of a template, with the cursor in or behind its name after the first character:
if the definitions of the name that count there are all of one kind, the one item that completion offers for the name among the variables of
the document is described by exactly the text that hover shows, and it has the icon that the outline gives to each of these definitions.
Missing: names with definitions of several kinds (`C105_shadowed_refuted`). -/
theorem C105_agree_partial (env : Env) (w w₁ w₂ : World) (s : Server) (uri text : Str) (tree : Tree) (vars : List Identifier)
    (before : List Elem) (u : Use) (rest : List Capture) (pos : Position)
    (he : fileExt uri = some .template) (hd : s.files.documents.get? uri = some text)
    (ht : (s.files.trees .template).get? uri = some tree) (hv : s.files.variables.get? uri = some vars)
    (hon : OnUse (env.queryMatches .jinjaObjects tree text).flatten before u rest (toPoint pos))
    (hvar : u.info.filter = false ∧ u.info.test = false)
    (hs : ¬ Spec.Broken (env.queryMatches .jinjaSnippets tree text).flatten (toPoint pos))
    (typed untyped : Str) (hn : u.root.text = typed ++ untyped) (hty : typed ≠ [])
    (hrow : u.root.stop.column = u.root.start.column + utf8Len u.root.text)
    (hcol : pos.character = u.root.start.column + utf8Len typed) (hline : pos.line = u.root.start.row)
    (hin : (lastExpr ((Point.zero, Point.zero), ExprRange.default) before).1.1 ≤ toPoint pos ∧
      toPoint pos < (lastExpr ((Point.zero, Point.zero), ExprRange.default) before).1.2)
    (hbeg : (lastExpr ((Point.zero, Point.zero), ExprRange.default) before).2.beginR.2 ≤ u.root.start)
    (hap : ∀ d ∈ vars, d.name = u.root.text → d.idType ≠ .templateBlock → Apart u.root d ∧ d.idType ≠ .jinjaTemplate)
    (hex : ∃ d ∈ vars, DefinesAt u.root.text u.root.start d)
    (hone : ∀ d ∈ vars, ∀ d' ∈ vars, DefinesAt u.root.text u.root.start d → DefinesAt u.root.text u.root.start d' → d.idType = d'.idType) :
    ∃ own more i shown syms,
      s.handle env w (.completion uri pos .invoked) = .ok (s, [], .completion (some (own ++ more))) ∧
      (∀ j ∈ own, j.label = u.root.text ↔ j = i) ∧ i ∈ own ∧
      s.handle env w₁ (.hover uri pos) = .ok (s, [], .hover (some shown)) ∧ i.detail = some shown ∧
      s.handle env w₂ (.documentSymbol uri) = .ok (s, [], .symbols (some syms)) ∧ syms.length = vars.length ∧
      ∀ n (h1 : n < syms.length) (h2 : n < vars.length), DefinesAt u.root.text u.root.start vars[n] → i.kind = some (iconOf syms[n].kind) := by
  obtain ⟨own, more, i, first, latest, pre, post, h1, h2, h3, h4, e, h5, _, h7, h8, h9, h10, _, h12⟩ :=
    described_use (w := w) (w₁ := w₁) he hd ht hv hon hvar hs hn hty hrow hcol hline hin hbeg hap hex
  have hf : first ∈ vars := by rw [e]; simp
  refine ⟨own, more, i, _, vars.map fun v => ⟨v.name, v.idType.symbolKind, toRange (v.start, v.stop), toRange (v.start, v.stop)⟩, h1,
    fun j hj => ⟨h4 j hj, fun e => e ▸ h3⟩, h2, h12, ?_, ?_, ?_⟩
  · rw [h7, hone first hf latest h9 h5 h10]
  · simp [Server.handle, LspFiles.documentSymbols, hv]
  · refine ⟨List.length_map .., fun n k1 k2 hdef => ?_⟩
    rw [h8, hone first hf _ (List.getElem_mem k2) h5 hdef]
    simp [symbolKind_eq]

/-- **C105 is false for redefined names**: if the first and the last definition of a name that count at its use are of different kinds (a macro
that is overwritten by a variable, a loop variable named as a variable outside), completion describes the first one and hover the last one. -/
theorem C105_shadowed_refuted (env : Env) (w w₁ : World) (s : Server) (uri text : Str) (tree : Tree) (vars : List Identifier)
    (before : List Elem) (u : Use) (rest : List Capture) (pos : Position)
    (he : fileExt uri = some .template) (hd : s.files.documents.get? uri = some text)
    (ht : (s.files.trees .template).get? uri = some tree) (hv : s.files.variables.get? uri = some vars)
    (hon : OnUse (env.queryMatches .jinjaObjects tree text).flatten before u rest (toPoint pos))
    (hvar : u.info.filter = false ∧ u.info.test = false)
    (hs : ¬ Spec.Broken (env.queryMatches .jinjaSnippets tree text).flatten (toPoint pos))
    (typed untyped : Str) (hn : u.root.text = typed ++ untyped) (hty : typed ≠ [])
    (hrow : u.root.stop.column = u.root.start.column + utf8Len u.root.text)
    (hcol : pos.character = u.root.start.column + utf8Len typed) (hline : pos.line = u.root.start.row)
    (hin : (lastExpr ((Point.zero, Point.zero), ExprRange.default) before).1.1 ≤ toPoint pos ∧
      toPoint pos < (lastExpr ((Point.zero, Point.zero), ExprRange.default) before).1.2)
    (hbeg : (lastExpr ((Point.zero, Point.zero), ExprRange.default) before).2.beginR.2 ≤ u.root.start)
    (hap : ∀ d ∈ vars, d.name = u.root.text → d.idType ≠ .templateBlock → Apart u.root d ∧ d.idType ≠ .jinjaTemplate)
    (pre post : List Identifier) (first last : Identifier) (hvars : vars = pre ++ first :: post)
    (hfirst : DefinesAt u.root.text u.root.start first) (hpre : ∀ d ∈ pre, ¬ DefinesAt u.root.text u.root.start d)
    (hlast : last ∈ vars ∧ DefinesAt u.root.text u.root.start last)
    (hlater : ∀ d ∈ vars, DefinesAt u.root.text u.root.start d → d = last ∨ d.start < last.start)
    (hkind : first.idType ≠ last.idType) :
    ∃ own more i shown,
      s.handle env w (.completion uri pos .invoked) = .ok (s, [], .completion (some (own ++ more))) ∧
      (∀ j ∈ own, j.label = u.root.text ↔ j = i) ∧ i ∈ own ∧ i.detail = some (kindText first.idType) ∧
      s.handle env w₁ (.hover uri pos) = .ok (s, [], .hover (some shown)) ∧ shown = kindText last.idType ∧ i.detail ≠ some shown := by
  obtain ⟨own, more, i, first', latest, pre', post', h1, h2, h3, h4, e, h5, h6, h7, _, h9, h10, h11, h12⟩ :=
    described_use (w := w) (w₁ := w₁) he hd ht hv hon hvar hs hn hty hrow hcol hline hin hbeg hap ⟨last, hlast⟩
  have e1 : first' = first := by
    rw [hvars] at e
    rcases List.append_eq_append_iff.mp e with ⟨a, rfl, ha⟩ | ⟨a, rfl, ha⟩
    · cases a with
      | nil => simp only [List.nil_append, List.cons.injEq] at ha; exact ha.1.symm
      | cons x a =>
        simp only [List.cons_append, List.cons.injEq] at ha
        exact absurd hfirst (h6 first (by rw [ha.1]; simp))
    · cases a with
      | nil => simp only [List.nil_append, List.cons.injEq] at ha; exact ha.1
      | cons x a =>
        simp only [List.cons_append, List.cons.injEq] at ha
        exact absurd h5 (hpre first' (by rw [ha.1]; simp))
  have e2 : latest = last := by
    rcases hlater latest h9 h10 with h | h
    · exact h
    · exact absurd (Point.lt_of_lt_of_le h (h11 last hlast.1 hlast.2)) (Point.lt_irrefl _)
  subst e1 e2
  refine ⟨own, more, i, _, h1, fun j hj => ⟨h4 j hj, fun e => e ▸ h3⟩, h2, h7, h12, rfl, ?_⟩
  rw [h7]
  intro e
  exact hkind (kindText_injective _ _ (Option.some.inj e))

/-! ## Examples -/

namespace Fix

/-- in front of the loop variable `i` of `tplVars`, a variable of the same name was set -/
def shadowVars : List Identifier := { Identifier.new c!"i" ⟨0, 1⟩ ⟨0, 2⟩ with idType := .setVariable, scopeEnd := ⟨99, 0⟩ } :: tplVars

def kindServer (vars : List Identifier) : Server := { server with files := { files with
  documents := HMap.empty.insert uriA []
  trees := fun l => match l with
    | .template => HMap.empty.insert uriA (.parsed .jinja [] none)
    | .backend => HMap.empty
  variables := HMap.empty.insert uriA vars } }

end Fix

/-- `C105_agree_partial` applies to a loop variable in its loop, … -/
example := C105_agree_partial Fix.shownEnv Fix.world Fix.world Fix.world (Fix.kindServer Fix.tplVars) Fix.uriA [] (.parsed .jinja [] none)
  Fix.tplVars _ _ _ ⟨3, 8⟩ rfl rfl rfl rfl (Fix.on_shown_i _ _) ⟨rfl, rfl⟩ (Fix.shown_intact _ _ _) c!"i" [] rfl (by decide) (by decide)
  (by decide) rfl (by decide) (by decide) (fun d hd hn hb => ⟨.of (by revert d; decide), by revert d; decide⟩)
  ⟨⟨⟨2, 9⟩, ⟨2, 10⟩, c!"i", 8, ⟨4, 2⟩, .forLoopKey, []⟩, by decide, by unfold DefinesAt; decide⟩ (by unfold DefinesAt; decide)

/-- … which is a loop key for completion, hover and the outline -/
example : ∃ items syms, (Fix.kindServer Fix.tplVars).handle Fix.shownEnv Fix.world (.completion Fix.uriA ⟨3, 8⟩ .invoked) =
      .ok (Fix.kindServer Fix.tplVars, [], .completion (some items)) ∧ items.map (fun i => (i.label, i.detail, i.kind)) =
      [(c!"i", some c!"For loop key", some .variable)] ∧
    (Fix.kindServer Fix.tplVars).handle Fix.shownEnv Fix.world (.hover Fix.uriA ⟨3, 8⟩) =
      .ok (Fix.kindServer Fix.tplVars, [], .hover (some c!"For loop key")) ∧
    (Fix.kindServer Fix.tplVars).handle Fix.shownEnv Fix.world (.documentSymbol Fix.uriA) =
      .ok (Fix.kindServer Fix.tplVars, [], .symbols (some syms)) ∧ syms.map (fun y => (y.name, y.kind)) =
      [(c!"m", .function), (c!"p", .field), (c!"a", .variable), (c!"i", .variable), (c!"b", .variable)] :=
  ⟨_, _, rfl, by decide, rfl, rfl, by decide⟩

/-- `C105_shadowed_refuted` applies to it if a variable of that name was set before the loop, … -/
example := C105_shadowed_refuted Fix.shownEnv Fix.world Fix.world (Fix.kindServer Fix.shadowVars) Fix.uriA [] (.parsed .jinja [] none)
  Fix.shadowVars _ _ _ ⟨3, 8⟩ rfl rfl rfl rfl (Fix.on_shown_i _ _) ⟨rfl, rfl⟩ (Fix.shown_intact _ _ _) c!"i" [] rfl (by decide) (by decide)
  (by decide) rfl (by decide) (by decide) (fun d hd hn hb => ⟨.of (by revert d; decide), by revert d; decide⟩)
  [] Fix.tplVars _ ⟨⟨2, 9⟩, ⟨2, 10⟩, c!"i", 8, ⟨4, 2⟩, .forLoopKey, []⟩ rfl (by unfold DefinesAt; decide) (by simp)
  ⟨by decide, by unfold DefinesAt; decide⟩ (by unfold DefinesAt; decide) (by decide)

/-- … where completion calls it a set variable and hover a loop key -/
example : ∃ items, (Fix.kindServer Fix.shadowVars).handle Fix.shownEnv Fix.world (.completion Fix.uriA ⟨3, 8⟩ .invoked) =
      .ok (Fix.kindServer Fix.shadowVars, [], .completion (some items)) ∧ items.map (fun i => (i.label, i.detail)) =
      [(c!"i", some c!"Set variable")] ∧
    (Fix.kindServer Fix.shadowVars).handle Fix.shownEnv Fix.world (.hover Fix.uriA ⟨3, 8⟩) =
      .ok (Fix.kindServer Fix.shadowVars, [], .hover (some c!"For loop key")) :=
  ⟨_, rfl, by decide, rfl⟩

/-- `C105_described` applies there, too -/
example := C105_described Fix.shownEnv Fix.world (Fix.kindServer Fix.shadowVars) Fix.uriA ⟨3, 8⟩ .invoked _ _ c!"i" Fix.shadowVars
  rfl (Or.inr ⟨_, rfl⟩) rfl

end JinjaLsp
