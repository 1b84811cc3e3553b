import Verif.Lemmas.Places
import Verif.Props.Moved
import Verif.Props.Snippet
import Verif.Props.Offered
/-
  C117: the places the server speaks of, on the screen.
-/

namespace JinjaLsp
open Spec Rope

/-! ### Bytes and UTF-16 units -/

theorem noLoneCR_whole : ∀ {above rest : Str}, WholeLines above → NoLoneCR (above ++ rest) → NoLoneCR above
  | [], _, _, _ => trivial
  | c :: t, rest, h, hcr => by
    by_cases ht : t = []
    · subst ht
      refine ⟨fun e => ?_, trivial⟩
      rw [h.single] at e
      exact absurd e (by decide)
    · refine ⟨fun e => ?_, noLoneCR_whole (h.tail ht) hcr.2⟩
      have := hcr.1 e
      cases t with
      | nil => exact absurd rfl ht
      | cons d t => exact this

theorem noLoneCR_mid : ∀ {a b : Str}, NoLoneCR (a ++ '\r' :: b) → b.head? = some '\n'
  | [], _, h => h.1 rfl
  | _ :: _, _, h => noLoneCR_mid h.2

/-- in a text without lone CR a line that goes on has no CR -/
theorem line_noCR {above line rest : Str} (hcr : NoLoneCR (above ++ line ++ rest)) (hl : ∀ c ∈ line, c ≠ '\n') (hr : rest.head? ≠ some '\n') :
    ∀ c ∈ line, c ≠ '\n' ∧ c ≠ '\r' := by
  intro c hc
  refine ⟨hl c hc, ?_⟩
  rintro rfl
  obtain ⟨l1, l2, rfl⟩ := List.append_of_mem hc
  have hh : above ++ (l1 ++ '\r' :: l2) ++ rest = (above ++ l1) ++ '\r' :: (l2 ++ rest) := by simp
  rw [hh] at hcr
  have := noLoneCR_mid hcr
  cases l2 with
  | nil => exact hr this
  | cons d l2 =>
    simp only [List.cons_append, List.head?_cons, Option.some.injEq] at this
    exact hl d (by simp) this

theorem toU32_advance {pre post text : Str} (h : text = pre ++ post) (hs : utf8Len text < 4294967296) :
    toU32 (advance ⟨0, 0⟩ pre).row = (advance ⟨0, 0⟩ pre).row ∧ toU32 (advance ⟨0, 0⟩ pre).column = (advance ⟨0, 0⟩ pre).column := by
  have hb := advance_bound pre ⟨0, 0⟩
  simp only [Nat.zero_add] at hb
  have : utf8Len pre ≤ utf8Len text := by rw [h, utf8Len_append]; omega
  simp only [toU32]
  constructor <;> apply Nat.mod_eq_of_lt <;> omega

/-- where an editor sees the point after `pre`: at `pre` exactly if the line is ASCII so far -/
theorem offset_iff {text pre rest : Str} {x : Char} (h : text = pre ++ x :: rest) (hx : x ≠ '\n' ∧ x ≠ '\r') (hu : utf16Len x = 1)
    (hcr : NoLoneCR text) : offset text ⟨(advance ⟨0, 0⟩ pre).row, (advance ⟨0, 0⟩ pre).column⟩ = some pre.length ↔
      ∀ c ∈ lineOf pre, c.toNat < 128 := by
  obtain ⟨above, hp, hw, hl⟩ := lineOf_split pre
  generalize lineOf pre = line at hp hl
  subst hp
  have ht : text = above ++ (line ++ x :: rest) := by rw [h, List.append_assoc]
  have hl' := line_noCR (above := above) (rest := x :: rest) (by rw [List.append_assoc, ← ht]; exact hcr) hl (by simpa using hx.1)
  rw [advance_at_line hw hl]
  have ho := offset_at_line (rest := line ++ x :: rest) hw (noLoneCR_whole hw (ht ▸ hcr)) (utf8Len line)
  rw [← ht] at ho
  rw [ho, List.length_append, Option.some.injEq, ← units_eq_iff]
  constructor
  · intro he
    refine Nat.le_antisymm (units_le line) (Nat.le_of_not_lt fun hlt => ?_)
    have := columnChars_within (k := utf8Len line - units line) hl' (by omega) (rfl : x :: rest = x :: rest) hx hu
    rw [show units line + (utf8Len line - units line) = utf8Len line by omega] at this
    omega
  · intro he
    rw [← he]
    have := columnChars_units line (x :: rest) 0 hl'
    rw [Nat.add_zero] at this
    rw [this]
    simp [columnChars]

/-- … and the end of a word there -/
theorem offset_stop {text pre s post : Str} (h : text = pre ++ s ++ post) (hs : AsciiWord s) (hcr : NoLoneCR text)
    (ha : ∀ c ∈ lineOf pre, c.toNat < 128) :
    offset text ⟨(advance ⟨0, 0⟩ (pre ++ s)).row, (advance ⟨0, 0⟩ (pre ++ s)).column⟩ = some (pre.length + s.length) := by
  obtain ⟨above, hp, hw, hl⟩ := lineOf_split pre
  generalize lineOf pre = line at hp hl ha
  subst hp
  obtain ⟨x, r, rfl⟩ := List.exists_cons_of_ne_nil hs.1
  have ht : text = above ++ ((line ++ x :: r) ++ post) := by rw [h]; simp
  have hl' := line_noCR (above := above) (rest := x :: r ++ post) (by rw [List.append_assoc above, show line ++ (x :: r ++ post) = line ++ x :: r ++ post by simp, ← ht]; exact hcr)
    hl (by simpa using (hs.2 x (by simp)).2.1)
  have hall : ∀ c ∈ line ++ x :: r, c.toNat < 128 ∧ c ≠ '\n' ∧ c ≠ '\r' := by
    intro c hc
    rcases List.mem_append.mp hc with hc | hc
    · exact ⟨ha c hc, hl' c hc⟩
    · exact hs.2 c hc
  have hlen : units (line ++ x :: r) = utf8Len (line ++ x :: r) := (units_eq_iff _).mpr fun c hc => (hall c hc).1
  rw [List.append_assoc above, advance_at_line hw (fun c hc => (hall c hc).2.1), ht,
    offset_at_line (rest := line ++ x :: r ++ post) hw (noLoneCR_whole hw (ht ▸ hcr)), ← hlen]
  have := columnChars_units (line ++ x :: r) post 0 (fun c hc => (hall c hc).2)
  rw [Nat.add_zero] at this
  rw [this]
  have h0 : columnChars post 0 = 0 := by cases post <;> rfl
  simp only [h0, Nat.add_zero, List.length_append]
  congr 1; omega

/-- **The range of a word, on the screen**: it covers the word exactly if the line before the word is ASCII. -/
theorem selects_iff {text pre s : Str} {a b : Point} (h : Occurs text a b pre s) (hs : AsciiWord s) (hcr : NoLoneCR text)
    (hsm : utf8Len text < 4294967296) : Selects text (toRange (a, b)) pre s ↔ ∀ c ∈ lineOf pre, c.toNat < 128 := by
  obtain ⟨post, ht⟩ := h.text
  obtain ⟨x, r, hsx⟩ := List.exists_cons_of_ne_nil hs.1
  have hx := hs.2 x (by rw [hsx]; simp)
  have ht1 : text = pre ++ x :: (r ++ post) := by rw [ht, hsx]; simp
  have h1 := offset_iff ht1 hx.2 (by unfold utf16Len; rw [if_pos (by omega)]) hcr
  have e1 := toU32_advance (pre := pre) ht1 hsm
  have e2 := toU32_advance (pre := pre ++ s) ht hsm
  have hr : toRange (a, b) = ⟨⟨(advance ⟨0, 0⟩ pre).row, (advance ⟨0, 0⟩ pre).column⟩,
      ⟨(advance ⟨0, 0⟩ (pre ++ s)).row, (advance ⟨0, 0⟩ (pre ++ s)).column⟩⟩ := by
    simp only [toRange, h.start, h.stop, e1.1, e1.2, e2.1, e2.2]
  rw [hr]
  constructor
  · rintro ⟨_, h2, _⟩
    exact h1.mp h2
  · intro ha
    exact ⟨⟨post, ht⟩, h1.mpr ha, offset_stop ht hs hcr ha⟩

theorem lineStart_whole : ∀ (t : Str) (l k : Nat), NoLoneCR t → lineStart t l = some k → WholeLines (t.take k) ∧ (t.take k).count '\n' = l
  | t, 0, k, _, h => by
    have : k = 0 := by cases t <;> simpa [lineStart] using h.symm
    subst this
    exact ⟨.inl (by simp), by simp⟩
  | [], l + 1, k, _, h => by simp [lineStart] at h
  | c :: r, l + 1, k, hcr, h => by
    rw [lineStart] at h
    split at h
    · rename_i hc
      cases hj : lineStart r l with
      | none => rw [hj] at h; cases h
      | some j =>
        rw [hj] at h
        cases h
        have ih := lineStart_whole r l j hcr.2 hj
        have hc' : c = '\n' := by
          rcases hc with hc | ⟨hc, hn⟩
          · exact hc
          · exact absurd (hcr.1 hc) hn
        subst hc'
        refine ⟨.inr ?_, by simp [ih.2]⟩
        rw [List.take_succ_cons]
        rcases ih.1 with e | e
        · rw [e]; rfl
        · cases hr : r.take j with
          | nil => rfl
          | cons d q => rw [hr] at e; rw [List.getLast?_cons_cons]; exact e
    · rename_i hc
      cases hj : lineStart r (l + 1) with
      | none => rw [hj] at h; cases h
      | some j =>
        rw [hj] at h
        cases h
        have ih := lineStart_whole r (l + 1) j hcr.2 hj
        have hc' : c ≠ '\n' := fun e => hc (.inl e)
        refine ⟨.inr ?_, by rw [List.take_succ_cons, List.count_cons_of_ne (fun e => hc' (by simpa using e)), ih.2]⟩
        rw [List.take_succ_cons]
        rcases ih.1 with e | e
        · have := ih.2
          rw [e] at this
          simp at this
        · cases hr : r.take j with
          | nil => rw [hr] at e; cases e
          | cons d q => rw [hr] at e; rw [List.getLast?_cons_cons]; exact e

/-- **The cursor**: the point the server looks at is the place of the cursor exactly if the line before the cursor is ASCII. -/
theorem cursor_iff {text pre post : Str} {pos : Position} (h : Stands text pos pre post) (hcr : NoLoneCR text) :
    toPoint pos = advance ⟨0, 0⟩ pre ↔ ∀ c ∈ lineOf pre, c.toNat < 128 := by
  obtain ⟨rfl, above, line, rfl, hl, hb, hu⟩ := h
  have hw := lineStart_whole _ _ _ hcr hl
  have ht : (above ++ line ++ post).take above.length = above := by rw [List.append_assoc, List.take_left]
  rw [ht] at hw
  rw [lineOf_append hw.1 (fun c hc => (hb c hc).1), advance_at_line hw.1 (fun c hc => (hb c hc).1), ← units_eq_iff]
  simp [toPoint, hw.2, hu]

/-- the point the server looks at is too far to the left by the bytes the line has more than UTF-16 code units -/
theorem cursor_shift {text pre post : Str} {pos : Position} (h : Stands text pos pre post) (hcr : NoLoneCR text) :
    toPoint pos = ⟨(advance ⟨0, 0⟩ pre).row, (advance ⟨0, 0⟩ pre).column - (utf8Len (lineOf pre) - units (lineOf pre))⟩ := by
  obtain ⟨rfl, above, line, rfl, hl, hb, hu⟩ := h
  have hw := lineStart_whole _ _ _ hcr hl
  have ht : (above ++ line ++ post).take above.length = above := by rw [List.append_assoc, List.take_left]
  rw [ht] at hw
  rw [lineOf_append hw.1 (fun c hc => (hb c hc).1), advance_at_line hw.1 (fun c hc => (hb c hc).1)]
  have := units_le line
  simp only [toPoint, hw.2, Point.mk.injEq, true_and]
  omega

theorem units_append : ∀ a b : Str, units (a ++ b) = units a + units b
  | [], b => by simp [units]
  | c :: r, b => by simp [units, units_append r b, Nat.add_assoc]

theorem lineOf_more {pre x : Str} (hx : ∀ c ∈ x, c ≠ '\n') : lineOf (pre ++ x) = lineOf pre ++ x := by
  obtain ⟨above, hp, hw, hl⟩ := lineOf_split pre
  rw [hp, List.append_assoc, lineOf_append hw hl, lineOf_append hw (by
    intro c hc
    rcases List.mem_append.mp hc with hc | hc
    · exact hl c hc
    · exact hx c hc)]

/-! ### Where names come from -/

section
variable {env : Env} {sx : Syntax} {tree : Tree} {text : Str}

/-- what is recorded and named stands in the text -/
theorem recorded_spelled {w : World} {s s' : Server} {uri : Str} {out : List Send} (hno : ¬ HasError (sx.root tree text))
    (hsp : Spelled text (sx.root tree text)) (h : JinjaLsp.Analysed (env.over sx) w s uri text tree s' out) {vs : List Identifier}
    (hv : s'.files.variables.get? uri = some vs) : ∀ v ∈ vs, (v.name = [] ∧ v.start = Point.zero ∧ v.stop = Point.zero) ∨
      ∃ pre, Occurs text v.start v.stop pre v.name := by
  obtain ⟨m, r, hma, hh⟩ := h.handled
  obtain ⟨defs, hd, hv'⟩ := (analyses_records hma h.template hh h.document h.parsed).1 (fun e => hno ((over_error ..).mp e))
  rw [hv] at hv'
  cases hv'
  intro v hmem
  rcases C14_from_text _ _ _ _ _ _ hd v hmem with h0 | ⟨c, hc, hn, ht, e1, e2⟩
  · exact .inl h0
  · obtain ⟨n, h1, h2, h3, h4, h5, _⟩ := definitions_names hc hn
    obtain ⟨pre, q, hq, ho⟩ := hsp n h1 (.inl h2)
    rw [h3, ht] at hq
    cases hq
    rw [h4, h5, e1, e2] at ho
    exact .inr ⟨pre, ho⟩

theorem use_spelled (hsp : Spelled text (sx.root tree text)) {o : JinjaObject} (ho : o ∈ usesIn (env.over sx) tree text) :
    ∃ pre, Occurs text o.location.1 o.location.2 pre o.name := by
  have hq := JinjaObjects.from_query (objectsQuery_all (env.over sx) tree text Point.zero)
  obtain ⟨c, hc, hn, ht, hl⟩ := hq.objects o ho
  have hc' : c ∈ (Syn.walk (qObjects sx.digit) [] [] (sx.root tree text)).flatten := hc
  rw [objects_flat] at hc'
  obtain ⟨m, hm, hcm⟩ := List.mem_flatten.mp hc'
  obtain ⟨n, hnf, hmn⟩ := List.mem_flatMap.mp hm
  obtain ⟨e1, e2, h3, _⟩ := objCaps_mem (List.mem_flatten.mpr ⟨m, hmn, hcm⟩)
  obtain ⟨hk, _, htx⟩ := h3 hn
  obtain ⟨pre, q, hq, hoc⟩ := hsp n hnf (.inl hk)
  rw [← htx, ht] at hq
  cases hq
  rw [hl, e1, e2]
  exact ⟨pre, hoc⟩

theorem ref_spelled (hsp : Spelled text (sx.root tree text)) (hk : (sx.root tree text).kind = .other) {ss : List ImpStmt}
    (hr : Refs sx.options (sx.root tree text).children ss) (hss : ImpStmt.Wf ss) (o : HashOrder) {i : Identifier}
    (hi : i ∈ refsIn (env.over sx) o tree text) :
    ∃ pre lit, i.name = lit.filter (fun c => c ≠ '"' && c ≠ '\'') ∧ Occurs text i.start i.stop pre lit := by
  have hp := refs_of_stmts (env.over sx) tree Point.zero text ss hss (over_imports hk hr) o
  have hm : i.ref ∈ ImpStmt.refs ss := hp.subset (List.mem_map_of_mem hi)
  obtain ⟨st, hst, hm⟩ := List.mem_flatMap.mp hm
  obtain ⟨t, ht, he⟩ := List.mem_map.mp hm
  obtain ⟨n, hn, parts, hrn⟩ := refs_node hr hst
  rw [hrn.names] at ht
  obtain ⟨q, hq, rfl⟩ := List.mem_map.mp ht
  have hnr : n ∈ (sx.root tree text).flat := by rw [flat_eq]; exact List.mem_cons_of_mem _ (flatAll_self hn)
  obtain ⟨pre, lit, hl, ho⟩ := hsp q (Syn.flat_children _ hnr (hrn.within q hq).1) (.inr (hrn.within q hq).2)
  have e : (tokOf q).text = lit := by simp [tokOf, hl]
  simp only [Tok.ref, Identifier.ref, Ref.mk.injEq, e] at he
  refine ⟨pre, lit, he.1.symm, ?_⟩
  rw [← he.2.1, ← he.2.2]
  exact ho

end

/-! ### Symbols -/

/-- **C117** (symbols) The template is analysed without errors.  Every symbol of the outline that has a name stands for an occurrence of this name
in the text; in the editor its range covers this occurrence exactly if the line before it is ASCII. -/
theorem C117_symbols_partial (env : Env) (sx : Syntax) (w w' : World) (s s' : Server) (uri text : Str) (tree : Tree) (out : List Send)
    (h : JinjaLsp.Analysed (env.over sx) w s uri text tree s' out) (hno : ¬ HasError (sx.root tree text)) (hsp : Spelled text (sx.root tree text))
    (hcr : NoLoneCR text) (hsm : utf8Len text < 4294967296) :
    ∃ ys, s'.handle (env.over sx) w' (.documentSymbol uri) = .ok (s', [], .symbols (some ys)) ∧
      ∀ y ∈ ys, AsciiWord y.name → ∃ (a b : Point) (pre : Str), Occurs text a b pre y.name ∧ y.range = toRange (a, b) ∧ y.selectionRange = y.range ∧
        (Selects text y.range pre y.name ↔ ∀ c ∈ lineOf pre, c.toNat < 128) := by
  obtain ⟨m, r, hma, hh⟩ := h.handled
  obtain ⟨defs, hd, hv⟩ := (analyses_records hma h.template hh h.document h.parsed).1 (fun e => hno ((over_error ..).mp e))
  refine ⟨defs.identifiers.map fun v => ⟨v.name, v.idType.symbolKind, toRange (v.start, v.stop), toRange (v.start, v.stop)⟩, ?_, ?_⟩
  · simp only [Server.handle, LspFiles.documentSymbols, hv]
  · intro y hy hw
    obtain ⟨v, hvm, rfl⟩ := List.mem_map.mp hy
    rcases recorded_spelled hno hsp h hv v hvm with h0 | ⟨pre, ho⟩
    · exact absurd h0.1 hw.1
    · exact ⟨v.start, v.stop, pre, ho, rfl, rfl, selects_iff ho hw hcr hsm⟩

/-! ### Diagnostics -/

/-- **C117** (diagnostics) Every diagnostic of a template about a name stands for an occurrence of this name in the text; every one about a missing
template for an occurrence of the string that names it.  In the editor its range covers the occurrence exactly if the line before it is ASCII. -/
theorem C117_diagnostics_partial (env : Env) (sx : Syntax) (w : World) (s s' : Server) (uri text : Str) (tree : Tree) (ds : Diags) (ss : List ImpStmt)
    (h : JinjaLsp.Analysed (env.over sx) w s uri text tree s' [.diag (HMap.empty.insert uri ds)]) (hsp : Spelled text (sx.root tree text))
    (hk : (sx.root tree text).kind = .other) (hr : Refs sx.options (sx.root tree text).children ss) (hss : ImpStmt.Wf ss)
    (hcr : NoLoneCR text) (hsm : utf8Len text < 4294967296) :
    ∀ d ∈ ds, ∃ pre lit, Occurs text d.2.start d.2.stop pre lit ∧ (d.1 ≠ .templateNotFound → lit = d.2.name) ∧
      (d.1 = .templateNotFound → d.2.name = lit.filter (fun c => c ≠ '"' && c ≠ '\'')) ∧
      (AsciiWord lit → (Selects text (createDiagnostic d.2 d.1.severity d.1.message).range pre lit ↔ ∀ c ∈ lineOf pre, c.toNat < 128)) := by
  intro d hd
  obtain ⟨m, r, hma, hh⟩ := h.handled
  rcases analyses_inv hma h.template hh rfl with h1 | ⟨_, rfl⟩
  case inr => cases hd
  obtain ⟨text', tree', vars, hd', ht', _, rfl⟩ := readTree_inv h.template h1
  cases h.document.symm.trans hd'
  cases h.parsed.symm.trans ht'
  have hrange : (createDiagnostic d.2 d.1.severity d.1.message).range = toRange (d.2.start, d.2.stop) := rfl
  rw [hrange]
  unfold templateDiags at hd
  rcases List.mem_append.mp hd with hd | hd
  · obtain ⟨o, ho, hod⟩ := List.mem_filterMap.mp hd
    have hkind := objectDiag_kind hod
    obtain ⟨pre, hoc⟩ := use_spelled hsp ho
    have hdo : d.2 = Identifier.ofObject o := by
      cases hig : s'.files.ignoreGlobals with
      | true => rw [hig, objectDiag_ignore] at hod; cases hod
      | false =>
        rw [hig, objectDiag_eq] at hod
        obtain ⟨k, _, rfl⟩ := Option.map_eq_some_iff.mp hod
        rfl
    rw [hdo]
    refine ⟨pre, o.name, hoc, fun _ => rfl, fun e => absurd e hkind, fun ha => selects_iff hoc ha hcr hsm⟩
  · obtain ⟨i, hi, hid⟩ := List.mem_filterMap.mp hd
    have hkind := importDiag_kind hid
    have hdi : d.2 = i := by
      rw [importDiag_eq] at hid
      split at hid
      · cases hid; rfl
      · cases hid
    obtain ⟨pre, lit, hl, ho⟩ := ref_spelled hsp hk hr hss w.order hi
    rw [hdi]
    exact ⟨pre, lit, ho, fun e => absurd hkind e, fun _ => hl, fun ha => selects_iff ho ha hcr hsm⟩

/-- **C117** (refuted) A name after a character that is not ASCII: no editor shows the symbol or diagnostic at the name. -/
theorem C117_shifted_refuted {text pre s : Str} {a b : Point} (h : Occurs text a b pre s) (hs : AsciiWord s) (hcr : NoLoneCR text)
    (hsm : utf8Len text < 4294967296) (hna : ∃ c ∈ lineOf pre, 128 ≤ c.toNat) : ¬ Selects text (toRange (a, b)) pre s := by
  rw [selects_iff h hs hcr hsm]
  obtain ⟨c, h1, h2⟩ := hna
  intro hh
  have := hh c h1
  omega

/-! ### Goto-definition -/

/-- the cursor stands in the word `s` that comes after `pre` -/
def Spec.OnWord (text : Str) (pos : Position) (pre s : Str) : Prop :=
  ∃ x y post, s = x ++ y ∧ y ≠ [] ∧ Stands text pos (pre ++ x) (y ++ post)

/-- **C117** (goto-definition) With the cursor in a name on an ASCII line, goto-definition answers with the range of an occurrence of this very
name, if some binding of it reaches the cursor; in the editor the range covers the occurrence exactly if the line before that is ASCII. -/
theorem C117_goto_partial (env : Env) (sx : Syntax) (w w' : World) (s s' : Server) (uri text : Str) (tree : Tree) (out : List Send)
    (is : List Item) (es : List Elem) (u : Use) (pos : Position) (pre : Str)
    (h : JinjaLsp.Analysed (env.over sx) w s uri text tree s' out) (hs : WellFormed (sx.root tree text)) (hl : Laid (sx.root tree text))
    (hk : (sx.root tree text).kind = .other) (hsp : Spelled text (sx.root tree text)) (ht : Tags sx.digit (sx.root tree text).children is)
    (hr : ReadsTree sx.digit (sx.root tree text) es) (hw : Elems.Wf es) (hu : .use u ∈ es) (hcr : NoLoneCR text)
    (hsm : utf8Len text < 4294967296) (ho : Occurs text u.root.start u.root.stop pre u.root.text) (ha : AsciiWord u.root.text)
    (hc : OnWord text pos pre u.root.text) (hline : ∀ c ∈ lineOf pre, c.toNat < 128)
    (hex : ∃ b ∈ Items.bindings (env.rootEnd tree) 0 is, Reaches u.root.text (toPoint pos) b) :
    ∃ b ∈ Items.bindings (env.rootEnd tree) 0 is, Reaches u.root.text (toPoint pos) b ∧
      (∀ b' ∈ Items.bindings (env.rootEnd tree) 0 is, Reaches u.root.text (toPoint pos) b' → b'.start ≤ b.start) ∧
      ∃ r pre', s'.handle (env.over sx) w' (.goto uri pos) = .ok (s', [], .goto (some (.scalar ⟨uri, r⟩))) ∧
        Occurs text b.start b.stop pre' u.root.text ∧ (Selects text r pre' u.root.text ↔ ∀ c ∈ lineOf pre', c.toNat < 128) := by
  obtain ⟨m, r, hma, hh⟩ := h.handled
  have han := C83_analysed env sx w s s' m uri text tree out r is hma h.template hh h.document h.parsed hs hk ht
  obtain ⟨vs, hv, hb⟩ := han.vars
  have hrec := recorded_spelled (tags_no_error hk ht) hsp h hv
  have hocc : ∀ b ∈ Items.bindings (env.rootEnd tree) 0 is, (b.name = [] ∧ b.start = Point.zero ∧ b.stop = Point.zero) ∨
      ∃ p, Occurs text b.start b.stop p b.name := by
    intro b hbm
    rw [← hb] at hbm
    obtain ⟨v, hvm, rfl⟩ := List.mem_map.mp hbm
    exact hrec v hvm
  have hshort : ∀ b ∈ Items.bindings (env.rootEnd tree) 0 is, Short b := by
    intro b hbm
    rcases hocc b hbm with ⟨_, e1, e2⟩ | ⟨p, hp⟩
    · unfold Short; rw [e1, e2]; decide
    · obtain ⟨post, hpost⟩ := hp.text
      have k1 := toU32_advance (pre := p) (post := b.name ++ post) (by rw [hpost]; simp) hsm
      have k2 := toU32_advance (pre := p ++ b.name) hpost hsm
      unfold Short
      rw [hp.start, hp.stop]
      simp only [toU32] at k1 k2
      have lt : ∀ {n : Nat}, n % 4294967296 = n → n < 4294967296 := fun e => e ▸ Nat.mod_lt _ (by decide)
      exact ⟨⟨lt k1.1, lt k1.2⟩, lt k2.1, lt k2.2⟩
  obtain ⟨x, y, post, hxy, hy, hst⟩ := hc
  have hxa : ∀ c ∈ x, c.toNat < 128 ∧ c ≠ '\n' ∧ c ≠ '\r' := fun c hc => ha.2 c (by rw [hxy]; simp [hc])
  have hpt : toPoint pos = advance ⟨0, 0⟩ (pre ++ x) := by
    rw [cursor_iff hst hcr, lineOf_more (fun c hc => (hxa c hc).2.1)]
    intro c hc
    rcases List.mem_append.mp hc with hc | hc
    · exact hline c hc
    · exact (hxa c hc).1
  have h1 : u.root.start ≤ toPoint pos := by rw [ho.start, hpt, advance_append]; exact advance_le _ _
  have h2 : toPoint pos < u.root.stop := by rw [ho.stop, hpt, hxy, ← List.append_assoc, advance_append _ (pre ++ x)]; exact advance_lt _ _ hy
  obtain ⟨b, hbm, hbr, hlast, hgo⟩ := C83_goto env sx w' s' uri text tree is es u pos h.template han hs hl hr hw hu h1 h2 hshort hex
  refine ⟨b, hbm, hbr, hlast, ?_⟩
  rcases hocc b hbm with ⟨e0, _⟩ | ⟨p, hp⟩
  · exact absurd (hbr.1 ▸ e0) ha.1
  · rw [hbr.1] at hp
    refine ⟨_, p, hgo, hp, ?_⟩
    obtain ⟨⟨q1, q2⟩, q3, q4⟩ := hshort b hbm
    have := selects_iff hp ha hcr hsm
    simpa [toRange, toU32, Nat.mod_eq_of_lt q1, Nat.mod_eq_of_lt q2, Nat.mod_eq_of_lt q3, Nat.mod_eq_of_lt q4] using this

/-- **C117** (goto-definition, refuted) With the cursor in a name `u` after characters that are not ASCII, the server looks further to the left,
by the bytes the line has more than UTF-16 code units.  If another name `v` is there, goto-definition leads to the binding of `v`. -/
theorem C117_goto_refuted (env : Env) (sx : Syntax) (w : World) (s : Server) (uri text : Str) (tree : Tree) (is : List Item) (es : List Elem)
    (u v : Use) (pos : Position) (pre x y post : Str) (hx : fileExt uri = some .template) (h : Spec.Analysed env s.files uri text tree is)
    (hs : WellFormed (sx.root tree text)) (hl : Laid (sx.root tree text)) (hr : ReadsTree sx.digit (sx.root tree text) es) (hw : Elems.Wf es)
    (hv : .use v ∈ es) (hcr : NoLoneCR text) (ho : Occurs text u.root.start u.root.stop pre u.root.text) (hne : v.root.text ≠ u.root.text)
    (_hxy : u.root.text = x ++ y) (hxw : ∀ c ∈ x, c.toNat < 128 ∧ c ≠ '\n') (hc : Stands text pos (pre ++ x) (y ++ post))
    (h1 : v.root.start ≤ (⟨u.root.start.row, u.root.start.column + x.length - (utf8Len (lineOf pre) - units (lineOf pre))⟩ : Point))
    (h2 : (⟨u.root.start.row, u.root.start.column + x.length - (utf8Len (lineOf pre) - units (lineOf pre))⟩ : Point) < v.root.stop)
    (hfit : ∀ b ∈ Items.bindings (env.rootEnd tree) 0 is, Short b)
    (hex : ∃ b ∈ Items.bindings (env.rootEnd tree) 0 is, Reaches v.root.text (toPoint pos) b) :
    ∃ b ∈ Items.bindings (env.rootEnd tree) 0 is, b.name = v.root.text ∧ b.name ≠ u.root.text ∧
      s.handle (env.over sx) w (.goto uri pos) = .ok (s, [], .goto (some (.scalar
        ⟨uri, ⟨⟨b.start.row, b.start.column⟩, ⟨b.stop.row, b.stop.column⟩⟩⟩))) := by
  have hux : units x = utf8Len x := (units_eq_iff x).mpr fun c hc => (hxw c hc).1
  have hlen : utf8Len x = x.length := by
    clear _hxy hc h1 h2 hux
    induction x with
    | nil => rfl
    | cons c r ih =>
      rw [utf8Len_cons, ih (fun d hd => hxw d (by simp [hd])), List.length_cons]
      have h1 := (units_eq_iff [c]).mpr (by simpa using (hxw c (by simp)).1)
      have h2 := (hxw c (by simp)).1
      simp only [units, utf8Len_cons, utf8Len_nil, utf16Len] at h1
      rw [if_pos (by omega)] at h1
      omega
  have hmore := lineOf_more (pre := pre) (fun c hc => (hxw c hc).2)
  have hpt : toPoint pos = ⟨u.root.start.row, u.root.start.column + x.length - (utf8Len (lineOf pre) - units (lineOf pre))⟩ := by
    rw [cursor_shift hc hcr, hmore, ho.start, advance_append]
    have hp := advance_piece x (advance ⟨0, 0⟩ pre).row (advance ⟨0, 0⟩ pre).column (fun c hc => (hxw c hc).2)
    rw [show advance (advance ⟨0, 0⟩ pre) x = _ from hp, utf8Len_append, units_append, hux, hlen]
    simp only [Point.mk.injEq, true_and]
    omega
  rw [← hpt] at h1 h2
  obtain ⟨b, k1, k2, _, k4⟩ := C83_goto env sx w s uri text tree is es v pos hx h hs hl hr hw hv h1 h2 hfit hex
  exact ⟨b, k1, k2.1, by rw [k2.1]; exact hne, k4⟩

/-! ### Examples -/

/-- a test for `Spelled` -/
theorem spelled_of {text : Str} {root : Syn} (h : ∀ n ∈ root.flat, n.kind = .identifier ∨ n.kind = .string →
    ∃ i ∈ List.range text.length, ∃ l ∈ List.range text.length, n.text = some ((text.drop i).take l) ∧ n.start = advance ⟨0, 0⟩ (text.take i) ∧
      n.stop = advance ⟨0, 0⟩ (text.take i ++ (text.drop i).take l)) : Spelled text root := by
  intro n hn hk
  obtain ⟨i, _, l, _, h1, h2, h3⟩ := h n hn hk
  refine ⟨text.take i, (text.drop i).take l, h1, ⟨(text.drop i).drop l, ?_⟩, h2, h3⟩
  rw [List.append_assoc, List.take_append_drop, List.take_append_drop]

/-- a test for `NoLoneCR` -/
theorem noLoneCR_of : ∀ {t : Str}, (∀ c ∈ t, c ≠ '\r') → NoLoneCR t
  | [], _ => trivial
  | _ :: _, h => ⟨fun e => absurd e (h _ (by simp)), noLoneCR_of fun d hd => h d (by simp [hd])⟩

namespace Fix

def flatText : Str := c!"{% set a = 1 %}\n{{ a }}{{ b |upper }}"

theorem flat_cr : NoLoneCR flatText := noLoneCR_of (by decide +kernel)

theorem flat_spelled : Spelled flatText flatRoot := spelled_of (by decide +kernel)

/-- ```
é{% set a = 1 %}
ééééééé{{ a }}{{ b }}
``` -/
def accentText : Str := c!"é{% set a = 1 %}\nééééééé{{ a }}{{ b }}"

def accentNodes : List Syn :=
  [.node .statement none 3 ⟨0, 2⟩ ⟨0, 17⟩ (some []) [lf .statementBegin 103 0 2 4 c!"{%", lf .keyword 15 0 5 8 c!"set",
     lf .identifier 16 0 9 10 c!"a", lf .operator 17 0 11 12 c!"=", lf .identifier 18 0 13 14 c!"1", lf .statementEnd 203 0 15 17 c!"%}"],
   ex 6 1 14 21 [lf .identifier 20 1 17 18 c!"a"], ex 7 1 21 28 [lf .identifier 21 1 24 25 c!"b"]]

def accentRoot : Syn := .node .other none 900 ⟨0, 0⟩ ⟨1, 28⟩ (some []) accentNodes

def accentSyn : Syntax := ⟨fun _ _ => accentRoot, digit, fun _ _ => [[]], fun _ => true⟩

theorem accent_cr : NoLoneCR accentText := noLoneCR_of (by decide +kernel)

theorem accent_spelled : Spelled accentText accentRoot := spelled_of (by decide +kernel)

def accentTags : List Item :=
  [.leaf (.set ⟨tok 0 2 4 c!"{%" 103, tok 0 15 17 c!"%}" 203⟩ (tok 0 5 8 c!"set" 15) (tok 0 9 10 c!"a" 16) [.eq (tok 0 11 12 c!"=" 17)]),
   .leaf (.expr [.name (tok 1 17 18 c!"a" 20)]), .leaf (.expr [.name (tok 1 24 25 c!"b" 21)])]

def accentA : Use := ⟨.variable, tok 1 17 18 c!"a" 20, []⟩
def accentB : Use := ⟨.variable, tok 1 24 25 c!"b" 21, []⟩

def accentElems : List Elem :=
  [.use ⟨.variable, tok 0 9 10 c!"a" 16, []⟩, .op (tok 0 11 12 c!"=" 17),
   .expr 6 ⟨1, 14⟩ ⟨1, 21⟩ (⟨1, 14⟩, ⟨1, 16⟩) (⟨1, 19⟩, ⟨1, 21⟩), .use accentA,
   .expr 7 ⟨1, 21⟩ ⟨1, 28⟩ (⟨1, 21⟩, ⟨1, 23⟩) (⟨1, 26⟩, ⟨1, 28⟩), .use accentB]

theorem accentTags_read : Tags digit accentNodes accentTags := by
  refine Tags.stmt (b := lf .statementBegin 103 0 2 4 c!"{%") (e := lf .statementEnd 203 0 15 17 c!"%}")
    (inner := [lf .keyword 15 0 5 8 c!"set", lf .identifier 16 0 9 10 c!"a", lf .operator 17 0 11 12 c!"=", lf .identifier 18 0 13 14 c!"1"])
    rfl rfl (token_lf ..) rfl (token_lf ..) rfl (.set (token_lf ..) rfl rfl ?_) ?_
  · exact Header.cons (hs := [_]) (token_lf ..) (.name rfl (by decide)) (Header.cons (hs := [_]) (token_lf ..) (.eq rfl (by decide))
      (Header.cons (hs := []) (token_lf ..) (.numeral rfl (by decide)) .nil))
  refine Tags.expr (is := []) rfl ?_ ?_
  · exact Inline.tok (hs := []) (token_lf ..) (.other rfl) (Inline.tok (hs := [_]) (token_lf ..) (.name rfl (by decide))
      (Inline.tok (hs := []) (token_lf ..) (.other rfl) .nil))
  refine Tags.expr (is := []) rfl ?_ .nil
  exact Inline.tok (hs := []) (token_lf ..) (.other rfl) (Inline.tok (hs := [_]) (token_lf ..) (.name rfl (by decide))
    (Inline.tok (hs := []) (token_lf ..) (.other rfl) .nil))

theorem accentElems_read : ReadsTree digit accentRoot accentElems := by
  refine ⟨relevant, fun n => by simp [relevant, Relevant], ?_⟩
  have hf : accentRoot.flat.filter relevant = [lf .identifier 16 0 9 10 c!"a", lf .operator 17 0 11 12 c!"=",
      ex 6 1 14 21 [lf .identifier 20 1 17 18 c!"a"], lf .identifier 20 1 17 18 c!"a",
      ex 7 1 21 28 [lf .identifier 21 1 24 25 c!"b"], lf .identifier 21 1 24 25 c!"b"] := rfl
  rw [hf]
  have nm : ∀ (i l a b : Nat) (t : Str), ¬ IsNumeral digit t → IsName digit (lf .identifier i l a b t) :=
    fun i l a b t h => ⟨rfl, by simp [lf, Syn.text], h⟩
  have op : ∀ (i l a b : Nat) (t : Str), t ≠ c!"." → IsOp (lf .operator i l a b t) :=
    fun i l a b t h => ⟨rfl, by simp [lf, Syn.text], by simpa [lf, Syn.text] using h⟩
  have use : ∀ (i l a b : Nat) (t : Str) {ns : List Syn} {es : List Elem}, ¬ IsNumeral digit t → ReadsOff digit ns es →
      ReadsOff digit (lf .identifier i l a b t :: ns) (.use ⟨.variable, tokOf (lf .identifier i l a b t), []⟩ :: es) :=
    fun i l a b t ns es h hr => ReadsOff.use (ms := []) (fs := []) .variable (nm i l a b t h) .nil hr
  exact use _ _ _ _ _ (by decide) (.op (op _ _ _ _ _ (by decide)) (.expr rfl (use _ _ _ _ _ (by decide)
    (.expr rfl (use _ _ _ _ _ (by decide) .nil)))))

theorem accentElems_wf : Elems.Wf accentElems := by
  refine ⟨?_, ⟨⟨0, 2⟩, by decide, ?_⟩⟩
  · simp [accentElems, accentA, accentB, Elem.Ok, Mark.Ok, reserved, tok]
  · simp [accentElems, accentA, accentB, Elem.toks, Use.toks, Mark.toks, Ordered, tok, Point.lt_def, Point.le_def]

theorem accent_laid : Laid accentRoot := ⟨by decide, by decide, by decide, by decide⟩

theorem accent_wellFormed : WellFormed accentRoot := ⟨by decide, by decide, by decide⟩

theorem accent_refs : Refs accentSyn.options accentRoot.children [] := by
  refine Refs.stmt (b := lf .statementBegin 103 0 2 4 c!"{%") (e := lf .statementEnd 203 0 15 17 c!"%}")
    (inner := [lf .keyword 15 0 5 8 c!"set", lf .identifier 16 0 9 10 c!"a", lf .operator 17 0 11 12 c!"=", lf .identifier 18 0 13 14 c!"1"])
    ⟨rfl, rfl, ⟨token_lf .., rfl⟩, ⟨token_lf .., rfl⟩, ?_⟩
    (by simp [NoRef, strings, lf, Syn.kind]) (Refs.other (.inr rfl) ?_ (Refs.other (.inr rfl) ?_ .nil))
  · simp [lf, Syn.kind]; exact ⟨token_lf .., token_lf .., token_lf .., token_lf ..⟩
  · simp [ex, lf, Syn.children, Syn.kind]
  · simp [ex, lf, Syn.children, Syn.kind]

/-- opening a template -/
theorem opened_here (sx : Syntax) (text : Str) (hok : ∃ s' out r, server.handle (env.over sx) emptyWorld (.didOpen uriA text) = .ok (s', out, r) ∧
    s'.files.documents.get? uriA = some text ∧
    (s'.files.trees .template).get? uriA = some (.parsed .jinja text (some (.parsed .jinja c!"aaa" none)))) :
    ∃ s' out tree, JinjaLsp.Analysed (env.over sx) emptyWorld server uriA text tree s' out ∧ env.rootEnd tree = ⟨9, 9⟩ := by
  obtain ⟨s', out, r, h1, h2, h3⟩ := hok
  exact ⟨s', out, _, ⟨⟨_, r, .opened _, h1⟩, rfl, h2, h3⟩, rfl⟩

end Fix

/-- on ASCII lines: the outline, and goto-definition from `a` -/
example : ∃ s' out tree, JinjaLsp.Analysed (Fix.env.over Fix.flatSyn) Fix.emptyWorld Fix.server Fix.uriA Fix.flatText tree s' out ∧
    (∃ ys, s'.handle (Fix.env.over Fix.flatSyn) Fix.emptyWorld (.documentSymbol Fix.uriA) = .ok (s', [], .symbols (some ys)) ∧
      ∀ y ∈ ys, AsciiWord y.name → ∃ (a b : Point) (pre : Str), Occurs Fix.flatText a b pre y.name ∧ y.range = toRange (a, b) ∧ y.selectionRange = y.range ∧
        (Selects Fix.flatText y.range pre y.name ↔ ∀ c ∈ lineOf pre, c.toNat < 128)) ∧
    ∃ r pre', s'.handle (Fix.env.over Fix.flatSyn) Fix.emptyWorld (.goto Fix.uriA ⟨1, 3⟩) = .ok (s', [], .goto (some (.scalar ⟨Fix.uriA, r⟩))) ∧
      (Selects Fix.flatText r pre' c!"a" ↔ ∀ c ∈ lineOf pre', c.toNat < 128) := by
  obtain ⟨s', out, tree, h, he⟩ := Fix.opened_here Fix.flatSyn Fix.flatText ⟨_, _, _, rfl, rfl, rfl⟩
  refine ⟨s', out, tree, h, ?_, ?_⟩
  · exact C117_symbols_partial Fix.env Fix.flatSyn _ _ _ _ _ _ tree _ h (tags_no_error rfl Fix.flatTags_read) Fix.flat_spelled Fix.flat_cr (by decide +kernel)
  · obtain ⟨b, _, _, _, r, pre', k1, _, k2⟩ := C117_goto_partial Fix.env Fix.flatSyn _ Fix.emptyWorld _ _ _ _ tree _ Fix.flatTags Fix.flatElems Fix.useA ⟨1, 3⟩
      c!"{% set a = 1 %}\n{{ " h Fix.flat_wellFormed Fix.flat_laid rfl Fix.flat_spelled Fix.flatTags_read Fix.flatElems_read Fix.flatElems_wf
      (by simp [Fix.flatElems]) Fix.flat_cr (by decide +kernel) ⟨⟨c!" }}{{ b |upper }}", by decide +kernel⟩, by decide +kernel, by decide +kernel⟩
      ⟨by decide, by decide⟩ ⟨[], c!"a", c!" }}{{ b |upper }}", rfl, by decide, by decide +kernel, c!"{% set a = 1 %}\n", c!"{{ ", by decide +kernel, by decide +kernel,
        by decide, by decide +kernel⟩ (by decide +kernel)
      ⟨⟨c!"a", ⟨0, 7⟩, ⟨0, 8⟩, .setVariable, ⟨9, 9⟩⟩, by rw [he]; decide, by unfold Reaches; decide⟩
    exact ⟨r, pre', k1, k2⟩

/-- after `é`: no range covers the `a` of the assignment, and goto-definition from `b` leads to the binding of `a` -/
example : ∃ s' out tree, JinjaLsp.Analysed (Fix.env.over Fix.accentSyn) Fix.emptyWorld Fix.server Fix.uriA Fix.accentText tree s' out ∧
    ¬ Selects Fix.accentText (toRange (⟨0, 9⟩, ⟨0, 10⟩)) c!"é{% set " c!"a" ∧
    ∃ b : Binding, b.name = c!"a" ∧ s'.handle (Fix.env.over Fix.accentSyn) Fix.emptyWorld (.goto Fix.uriA ⟨1, 17⟩) = .ok (s', [], .goto (some (.scalar
        ⟨Fix.uriA, ⟨⟨b.start.row, b.start.column⟩, ⟨b.stop.row, b.stop.column⟩⟩⟩))) := by
  obtain ⟨s', out, tree, h, he⟩ := Fix.opened_here Fix.accentSyn Fix.accentText ⟨_, _, _, rfl, rfl, rfl⟩
  refine ⟨s', out, tree, h, ?_, ?_⟩
  · exact C117_shifted_refuted ⟨⟨c!" = 1 %}\nééééééé{{ a }}{{ b }}", by decide +kernel⟩, by decide +kernel, by decide +kernel⟩ ⟨by decide, by decide⟩
      Fix.accent_cr (by decide +kernel) ⟨'é', by decide +kernel, by decide⟩
  · obtain ⟨m, r, hma, hh⟩ := h.handled
    have han := C83_analysed Fix.env Fix.accentSyn _ _ s' m Fix.uriA Fix.accentText tree out r Fix.accentTags hma h.template hh h.document h.parsed
      Fix.accent_wellFormed rfl Fix.accentTags_read
    obtain ⟨b, _, k1, _, k2⟩ := C117_goto_refuted Fix.env Fix.accentSyn Fix.emptyWorld s' Fix.uriA Fix.accentText tree Fix.accentTags Fix.accentElems Fix.accentB
      Fix.accentA ⟨1, 17⟩ c!"é{% set a = 1 %}\nééééééé{{ a }}{{ " [] c!"b" c!" }}" rfl han Fix.accent_wellFormed Fix.accent_laid Fix.accentElems_read
      Fix.accentElems_wf (by simp [Fix.accentElems]) Fix.accent_cr ⟨⟨c!" }}", by decide +kernel⟩, by decide +kernel, by decide +kernel⟩ (by decide)
      rfl (by simp) ⟨by decide +kernel, c!"é{% set a = 1 %}\n", c!"ééééééé{{ a }}{{ ", by decide +kernel, by decide +kernel, by decide, by decide +kernel⟩
      (by decide +kernel) (by decide +kernel) (by rw [he]; unfold Short; decide)
      ⟨⟨c!"a", ⟨0, 9⟩, ⟨0, 10⟩, .setVariable, ⟨9, 9⟩⟩, by rw [he]; decide, by unfold Reaches; decide⟩
    exact ⟨b, k1, k2⟩

/-- the undefined `b` is reported, at a place 7 columns to the right of it -/
example : ∃ s' ds tree, JinjaLsp.Analysed (Fix.env.over Fix.accentSyn) Fix.emptyWorld Fix.server Fix.uriA Fix.accentText tree s'
      [.diag (HMap.empty.insert Fix.uriA ds)] ∧ ds.map report = [⟨.undefined, c!"b", ⟨1, 24⟩, ⟨1, 25⟩⟩] ∧
    (∀ d ∈ ds, ∃ pre lit, Occurs Fix.accentText d.2.start d.2.stop pre lit ∧ (d.1 ≠ .templateNotFound → lit = d.2.name)) ∧
    ¬ Selects Fix.accentText (toRange (⟨1, 24⟩, ⟨1, 25⟩)) c!"é{% set a = 1 %}\nééééééé{{ a }}{{ " c!"b" := by
  have : ∃ s' ds r, Fix.server.handle (Fix.env.over Fix.accentSyn) Fix.emptyWorld (.didOpen Fix.uriA Fix.accentText) =
      .ok (s', [.diag (HMap.empty.insert Fix.uriA ds)], r) ∧ s'.files.documents.get? Fix.uriA = some Fix.accentText ∧
    (s'.files.trees .template).get? Fix.uriA = some (.parsed .jinja Fix.accentText (some (.parsed .jinja c!"aaa" none))) ∧
    ds.map report = [⟨.undefined, c!"b", ⟨1, 24⟩, ⟨1, 25⟩⟩] := ⟨_, _, _, rfl, rfl, rfl, rfl⟩
  obtain ⟨s', ds, r, h1, h2, h3, h4⟩ := this
  refine ⟨s', ds, _, ⟨⟨_, r, .opened _, h1⟩, rfl, h2, h3⟩, h4, ?_, ?_⟩
  · intro d hd
    obtain ⟨pre, lit, k1, k2, _⟩ := C117_diagnostics_partial Fix.env Fix.accentSyn _ _ _ _ _ _ ds [] ⟨⟨_, r, .opened _, h1⟩, rfl, h2, h3⟩ Fix.accent_spelled rfl Fix.accent_refs
      ⟨by simp, by simp, by simp⟩ Fix.accent_cr (by decide +kernel) d hd
    exact ⟨pre, lit, k1, k2⟩
  exact C117_shifted_refuted ⟨⟨c!" }}", by decide +kernel⟩, by decide +kernel, by decide +kernel⟩ ⟨by decide, by decide⟩
      Fix.accent_cr (by decide +kernel) ⟨'é', by decide +kernel, by decide⟩

end JinjaLsp
