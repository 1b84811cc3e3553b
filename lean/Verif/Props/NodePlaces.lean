import Verif.Props.NodeDocs
import Verif.Props.Places
/-
  C118: places in embedded templates are places in the host document.
-/

namespace JinjaLsp
open Node Spec NodeFiles Rope

/-- The template `content` stands in the document `host`: after the lines `above` (`line` lines) and the characters `margin` of the next one, which
takes `col` UTF-16 code units. -/
structure Spec.Embedded (host above margin content below : Str) (line col : Nat) : Prop where
  host_eq : host = above ++ margin ++ content ++ below
  line_eq : lineStart host line = some above.length
  margin_line : ∀ c ∈ margin, c ≠ '\n' ∧ c ≠ '\r'
  col_eq : units margin = col

/-- what the server stores for a template that begins in column `col` -/
abbrev Spec.padded (col : Nat) (content : Str) : Str := List.replicate col ' ' ++ content

/-- all characters of the line before are ASCII -/
def Spec.AsciiLine (p : Str) : Prop := ∀ c ∈ lineOf p, c.toNat < 128

theorem columnChars_bytes {line rest : Str} {x : Char} (hl : ∀ c ∈ line, c ≠ '\n' ∧ c ≠ '\r') (hx : x ≠ '\n' ∧ x ≠ '\r') (hu : utf16Len x = 1) :
    columnChars (line ++ x :: rest) (utf8Len line) = line.length ↔ ∀ c ∈ line, c.toNat < 128 := by
  rw [← units_eq_iff]
  constructor
  · intro he
    refine Nat.le_antisymm (units_le line) (Nat.le_of_not_lt fun hlt => ?_)
    have := columnChars_within (k := utf8Len line - units line) hl (by omega) (rfl : x :: rest = x :: rest) hx hu
    rw [show units line + (utf8Len line - units line) = utf8Len line by omega] at this
    omega
  · intro he
    rw [← he]
    have := columnChars_units line (x :: rest) 0 hl
    rw [Nat.add_zero] at this
    rw [this]
    simp [columnChars]

theorem utf8Len_spaces (n : Nat) : utf8Len (List.replicate n ' ') = n := by
  induction n with
  | zero => rfl
  | succ n ih => rw [List.replicate_succ, utf8Len_cons, ih]; have : (' ' : Char).utf8Size = 1 := rfl; omega

namespace Spec.Embedded
variable {host above margin content below : Str} {line col : Nat}

theorem whole (h : Embedded host above margin content below line col) (hcr : NoLoneCR host) : WholeLines above ∧ above.count '\n' = line := by
  have := lineStart_whole _ _ _ hcr h.line_eq
  have ht : host.take above.length = above := by rw [h.host_eq, List.append_assoc, List.append_assoc, List.take_left]
  rwa [ht] at this

/-- the offset in the host document of a place in the template -/
theorem offset_eq (h : Embedded host above margin content below line col) (hcr : NoLoneCR host) {p rest : Str} (hp : content = p ++ rest) :
    offset host ⟨(advance ⟨0, 0⟩ (padded col p)).row + line, (advance ⟨0, 0⟩ (padded col p)).column⟩ =
      some ((above ++ margin ++ p).length - (lineOf p).length + columnChars (lineOf p ++ (rest ++ below)) (utf8Len (lineOf p))) := by
  obtain ⟨hw, hn⟩ := h.whole hcr
  obtain ⟨p1, hps, hw1, hl⟩ := lineOf_split p
  generalize hlo : lineOf p = l at *
  have hsp : ∀ c ∈ List.replicate col ' ', c ≠ '\n' := by
    intro c hc
    rw [(List.mem_replicate.mp hc).2]; decide
  by_cases he : p1 = []
  · subst he
    rw [List.nil_append] at hps
    subst hps
    have ha : advance ⟨0, 0⟩ (padded col p) = ⟨0, col + utf8Len p⟩ := by
      rw [advance_piece _ 0 0 (by
        intro c hc
        rcases List.mem_append.mp hc with hc | hc
        · exact hsp c hc
        · exact hl c hc), utf8Len_append, utf8Len_spaces, Nat.zero_add]
    have ht : host = above ++ (margin ++ (p ++ (rest ++ below))) := by rw [h.host_eq, hp]; simp
    rw [ha]
    simp only [Nat.zero_add]
    have ho := offset_at_line (rest := margin ++ (p ++ (rest ++ below))) hw (noLoneCR_whole hw (ht ▸ hcr)) (col + utf8Len p)
    rw [← ht, hn] at ho
    rw [ho, ← h.col_eq, columnChars_units _ _ _ h.margin_line]
    simp only [List.length_append]
    congr 1; omega
  · have hw2 : WholeLines (above ++ margin ++ p1) ∧ WholeLines (List.replicate col ' ' ++ p1) := by
      have hlast : p1.getLast? = some '\n' := by
        rcases hw1 with e | e
        · exact absurd e he
        · exact e
      constructor <;> exact .inr (by rw [List.getLast?_append, hlast]; rfl)
    have ha : advance ⟨0, 0⟩ (padded col p) = ⟨p1.count '\n', utf8Len l⟩ := by
      rw [padded, hps, ← List.append_assoc, advance_at_line hw2.2 hl, List.count_append]
      have : (List.replicate col ' ').count '\n' = 0 := List.count_eq_zero.mpr fun hc => hsp _ hc rfl
      rw [this, Nat.zero_add]
    have hm : margin.count '\n' = 0 := List.count_eq_zero.mpr fun hc => (h.margin_line _ hc).1 rfl
    have ht : host = (above ++ margin ++ p1) ++ (l ++ (rest ++ below)) := by rw [h.host_eq, hp, hps]; simp
    rw [ha]
    have ho := offset_at_line (rest := l ++ (rest ++ below)) hw2.1 (noLoneCR_whole hw2.1 (ht ▸ hcr)) (utf8Len l)
    rw [← ht, List.count_append, List.count_append, hn, hm, Nat.add_zero, Nat.add_comm line] at ho
    rw [ho, hps]
    simp only [List.length_append]
    congr 1; omega

theorem line_cr (h : Embedded host above margin content below line col) (hcr : NoLoneCR host) {p rest : Str} {x : Char} (hp : content = p ++ x :: rest)
    (hx : x ≠ '\n') : ∀ c ∈ lineOf p, c ≠ '\n' ∧ c ≠ '\r' := by
  obtain ⟨p1, hps, _, hl⟩ := lineOf_split p
  refine line_noCR (above := above ++ margin ++ p1) (rest := x :: rest ++ below) ?_ hl (by simpa using hx)
  have : host = above ++ margin ++ p1 ++ lineOf p ++ (x :: rest ++ below) := by
    rw [h.host_eq, hp]
    conv => lhs; rw [hps]
    simp
  rw [← this]; exact hcr

/-- a place in the template is the one in the host document exactly if the line of the template is ASCII so far -/
theorem offset_iff (h : Embedded host above margin content below line col) (hcr : NoLoneCR host) {p rest : Str} {x : Char}
    (hp : content = p ++ x :: rest) (hx : x ≠ '\n' ∧ x ≠ '\r') (hu : utf16Len x = 1) :
    offset host ⟨(advance ⟨0, 0⟩ (padded col p)).row + line, (advance ⟨0, 0⟩ (padded col p)).column⟩ = some (above ++ margin ++ p).length ↔
      AsciiLine p := by
  have hle : (lineOf p).length ≤ (above ++ margin ++ p).length := by
    obtain ⟨p1, hps, _⟩ := lineOf_split p
    have := congrArg List.length hps
    simp only [List.length_append] at this ⊢
    omega
  rw [h.offset_eq hcr hp, AsciiLine, ← columnChars_bytes (rest := rest ++ below) (h.line_cr hcr hp hx.1) hx hu, Option.some.injEq]
  simp only [List.cons_append]
  omega

/-- the end of a word -/
theorem offset_stop (h : Embedded host above margin content below line col) (hcr : NoLoneCR host) {p s rest : Str} (hp : content = p ++ s ++ rest)
    (hs : AsciiWord s) (ha : AsciiLine p) :
    offset host ⟨(advance ⟨0, 0⟩ (padded col (p ++ s))).row + line, (advance ⟨0, 0⟩ (padded col (p ++ s))).column⟩ =
      some ((above ++ margin ++ p).length + s.length) := by
  obtain ⟨x, r, rfl⟩ := List.exists_cons_of_ne_nil hs.1
  have hlc := h.line_cr hcr (p := p) (rest := r ++ rest) (by rw [hp]; simp) (hs.2 x (by simp)).2.1
  have hl : lineOf (p ++ x :: r) = lineOf p ++ x :: r := lineOf_more fun c hc => (hs.2 c hc).2.1
  have hall : ∀ c ∈ lineOf p ++ x :: r, c.toNat < 128 ∧ c ≠ '\n' ∧ c ≠ '\r' := by
    intro c hc
    rcases List.mem_append.mp hc with hc | hc
    · exact ⟨ha c hc, hlc c hc⟩
    · exact hs.2 c hc
  have hle : (lineOf p).length ≤ p.length := by
    obtain ⟨p1, hps, _⟩ := lineOf_split p
    have := congrArg List.length hps
    simp only [List.length_append] at this
    omega
  rw [h.offset_eq hcr hp, hl, ← (units_eq_iff _).mpr fun c hc => (hall c hc).1]
  have := columnChars_units (lineOf p ++ x :: r) (rest ++ below) 0 (fun c hc => (hall c hc).2)
  rw [Nat.add_zero] at this
  rw [this]
  have h0 : columnChars (rest ++ below) 0 = 0 := by cases rest ++ below <;> rfl
  simp only [h0, Nat.add_zero, List.length_append]
  congr 1; omega

/-- a word without spaces stands in the template, not in the padding -/
theorem within {a b : Point} {pre s : Str} (ho : Occurs (padded col content) a b pre s) (hs : s ≠ []) (hb : ' ' ∉ s) :
    ∃ p post, pre = padded col p ∧ content = p ++ s ++ post := by
  obtain ⟨post, ht⟩ := ho.text
  rw [List.append_assoc] at ht
  rcases List.append_eq_append_iff.mp ht with ⟨p, h1, h2⟩ | ⟨q, h1, h2⟩
  · exact ⟨p, post, h1, by rw [h2, List.append_assoc]⟩
  · cases q with
    | nil => exact ⟨[], post, by rw [List.append_nil] at h1; simp [padded, h1], by simpa using h2.symm⟩
    | cons c q =>
      obtain ⟨x, r, rfl⟩ := List.exists_cons_of_ne_nil hs
      have hc : c = ' ' := by
        have : c ∈ List.replicate col ' ' := by rw [h1]; simp
        exact (List.mem_replicate.mp this).2
      simp only [List.cons_append, List.cons.injEq] at h2
      exact absurd (by rw [h2.1, hc]; simp) hb

/-- the range of a word -/
theorem selects_iff (h : Embedded host above margin content below line col) (hcr : NoLoneCR host) {a b : Point} {p s post : Str}
    (ho : Occurs (padded col content) a b (padded col p) s) (hp : content = p ++ s ++ post) (hs : AsciiWord s) :
    Selects host ⟨⟨a.row + line, a.column⟩, ⟨b.row + line, b.column⟩⟩ (above ++ margin ++ p) s ↔ AsciiLine p := by
  obtain ⟨x, r, hsx⟩ := List.exists_cons_of_ne_nil hs.1
  have hx := hs.2 x (by rw [hsx]; simp)
  have h1 := h.offset_iff hcr (p := p) (rest := r ++ post) (x := x) (by rw [hp, hsx]; simp) hx.2 (by unfold utf16Len; rw [if_pos (by omega)])
  have hstop : b = advance ⟨0, 0⟩ (padded col (p ++ s)) := by rw [ho.stop]; simp [padded]
  rw [ho.start, hstop]
  constructor
  · rintro ⟨_, h2, _⟩
    exact h1.mp h2
  · intro ha
    exact ⟨⟨post ++ below, by rw [h.host_eq, hp]; simp⟩, h1.mpr ha, h.offset_stop hcr hp hs ha⟩

theorem bound (h : Embedded host above margin content below line col) (hcr : NoLoneCR host) {pre post : Str} (ht : padded col content = pre ++ post) :
    (advance ⟨0, 0⟩ pre).row + line ≤ utf8Len host ∧ (advance ⟨0, 0⟩ pre).column ≤ utf8Len host := by
  have hb := advance_bound pre ⟨0, 0⟩
  simp only [Nat.zero_add] at hb
  have h1 : utf8Len pre ≤ col + utf8Len content := by
    have := congrArg utf8Len ht
    rw [padded, utf8Len_append, utf8Len_append, utf8Len_spaces] at this
    omega
  have h2 : col ≤ utf8Len margin := by rw [← h.col_eq]; exact units_le margin
  have h3 : line ≤ utf8Len above := by
    rw [← (h.whole hcr).2]
    exact Nat.le_trans List.count_le_length (length_le_utf8Len above)
  rw [h.host_eq, utf8Len_append, utf8Len_append, utf8Len_append]
  omega

/-- the cursor: where the server looks, after the lines above are taken off -/
theorem cursor (h : Embedded host above margin content below line col) (hcr : NoLoneCR host) {p rest post : Str} {pos : Position}
    (hp : content = p ++ rest) (hst : Stands host pos (above ++ margin ++ p) post) :
    line ≤ pos.line ∧ (toPoint ⟨pos.line - line, pos.character⟩ = advance ⟨0, 0⟩ (padded col p) ↔ AsciiLine p) := by
  obtain ⟨hw, hn⟩ := h.whole hcr
  obtain ⟨_, ab, ln, hpre, hls, hb, hu⟩ := hst
  have hw' := lineStart_whole _ _ _ hcr hls
  have htk : host.take ab.length = ab := by
    rw [h.host_eq, hp, ← List.append_assoc, hpre, List.append_assoc, List.append_assoc, List.take_left]
  rw [htk] at hw'
  obtain ⟨p1, hps, hw1, hl⟩ := lineOf_split p
  have hln : ln = lineOf (above ++ margin ++ p) := by rw [hpre, lineOf_append hw'.1 fun c hc => (hb c hc).1]
  have hm : margin.count '\n' = 0 := List.count_eq_zero.mpr fun hc => (h.margin_line _ hc).1 rfl
  have hsp : ∀ c ∈ List.replicate col ' ', c ≠ '\n' := by
    intro c hc
    rw [(List.mem_replicate.mp hc).2]; decide
  have hsc : (List.replicate col ' ').count '\n' = 0 := List.count_eq_zero.mpr fun hc => hsp _ hc rfl
  have hlc : ln.count '\n' = 0 := List.count_eq_zero.mpr fun hc => (hb _ hc).1 rfl
  have hlp : (lineOf p).count '\n' = 0 := List.count_eq_zero.mpr fun hc => hl _ hc rfl
  have hcount : pos.line = line + p1.count '\n' := by
    have := congrArg (List.count '\n') hpre
    rw [List.count_append, List.count_append, List.count_append, hn, hm, hw'.2, hlc, hps, List.count_append, hlp] at this
    omega
  refine ⟨by omega, ?_⟩
  by_cases he : p1 = []
  · subst he
    rw [List.nil_append] at hps
    have hl' : ∀ c ∈ p, c ≠ '\n' := by rw [hps]; exact hl
    have hlo : lineOf (above ++ margin ++ p) = margin ++ p := by
      rw [List.append_assoc]
      refine lineOf_append hw fun c hc => ?_
      rcases List.mem_append.mp hc with hc | hc
      · exact (h.margin_line c hc).1
      · exact hl' c hc
    rw [hlo] at hln
    subst hln
    rw [units_append, h.col_eq] at hu
    rw [advance_piece _ 0 0 (by
        intro c hc
        rcases List.mem_append.mp hc with hc | hc
        · exact hsp c hc
        · exact hl' c hc), utf8Len_append, utf8Len_spaces, AsciiLine, ← units_eq_iff, ← hps]
    simp only [List.count_nil, Nat.add_zero] at hcount
    simp only [toPoint, Point.mk.injEq]
    omega
  · have hlast : p1.getLast? = some '\n' := by
      rcases hw1 with e | e
      · exact absurd e he
      · exact e
    have hw2 : WholeLines (above ++ margin ++ p1) ∧ WholeLines (List.replicate col ' ' ++ p1) := by
      constructor <;> exact .inr (by rw [List.getLast?_append, hlast]; rfl)
    have hlo : lineOf (above ++ margin ++ p) = lineOf p := by
      conv => lhs; rw [hps, ← List.append_assoc, lineOf_append hw2.1 hl]
    rw [hlo] at hln
    subst hln
    have ha : advance ⟨0, 0⟩ (padded col p) = ⟨p1.count '\n', utf8Len (lineOf p)⟩ := by
      conv => lhs; rw [padded, hps, ← List.append_assoc, advance_at_line hw2.2 hl, List.count_append, hsc, Nat.zero_add]
    rw [ha, AsciiLine, ← units_eq_iff, hu]
    simp only [toPoint, Point.mk.injEq]
    omega

end Spec.Embedded

/-! ### Templates added to the Node API -/

/-- After the calls `calls`, the last content given for the embedded template `id` of the file `fn` (with the name `uri`) is `content`; it stands in
`host`, and tree-sitter parses what is stored as `root`. -/
structure Spec.Hosted (env : Env) (sx : Syntax) (w : World) (calls : List Call) (n : NodeFiles) (id : Nat) (fn uri host above margin content below : Str)
    (line : Nat) (col : Option Nat) (root : Syn) : Prop where
  run : Call.run (env.over sx) w NodeFiles.new calls = .ok n
  last : ∃ pre post l₀, calls = pre ++ .addOne id fn content l₀ c!"jinja" col :: post ∧ ∀ c ∈ post, c.leaves (env.over sx) uri
  uri_eq : docUri (env.over sx) fn id c!"jinja" = .ok uri
  template : fileExt uri = some .template
  place : Embedded host above margin content below line (col.getD 0)
  noCR : NoLoneCR host
  small : utf8Len host < 4294967296
  parses : ∀ old, env.parseFails .jinja (padded (col.getD 0) content) old = false ∧
    sx.root (.parsed .jinja (padded (col.getD 0) content) old) (padded (col.getD 0) content) = root
  noError : ¬ HasError root
  spelled : Spelled (padded (col.getD 0) content) root

namespace Spec.Hosted
variable {env : Env} {sx : Syntax} {w : World} {calls : List Call} {n : NodeFiles} {id : Nat} {fn uri host above margin content below : Str}
  {line : Nat} {col : Option Nat} {root : Syn}

/-- what is recorded -/
theorem recorded (h : Hosted env sx w calls n id fn uri host above margin content below line col root) :
    ∃ old defs, n.files.documents.get? uri = some (padded (col.getD 0) content) ∧
      (n.files.trees .template).get? uri = some (.parsed .jinja (padded (col.getD 0) content) old) ∧
      definitionQuery (env.over sx) (.parsed .jinja (padded (col.getD 0) content) old) Point.zero (padded (col.getD 0) content) true = .ok defs ∧
      n.files.variables.get? uri = some defs.identifiers := by
  obtain ⟨pre, post, l₀, rfl, hpost⟩ := h.last
  obtain ⟨m, _, h2⟩ := Call.run_append pre _ h.run
  unfold Call.run at h2
  split at h2
  · cases h2
  · rename_i m1 h1
    have hsame := leaves_run post hpost h2
    simp only [Call.step, Except.map] at h1
    split at h1
    · cases h1
    · rename_i r hr
      cases h1
      obtain ⟨u, m', hu', ho, _⟩ := addOne_files (n1 := r.1) (links := r.2) hr
      rw [h.uri_eq] at hu'; cases hu'
      obtain ⟨hp, hroot⟩ := h.parses ((m.files.trees .template).get? uri)
      obtain ⟨h3, _⟩ := LspFiles.didOpen_inv_ignore h.template ho
      have htree := LspFiles.openBase_tree (env := env.over sx) (f := m.files) (n := uri) (l := .template) hp
      have hs : (snippetsQuery (env.over sx) (.parsed .jinja (padded (col.getD 0) content) ((m.files.trees .template).get? uri)) Point.zero
          (padded (col.getD 0) content) true).isError = false := by
        rw [Bool.eq_false_iff]
        intro e
        exact h.noError (hroot ▸ (over_error ..).mp ((isError_iff ..).mp e))
      obtain ⟨defs, hd, hg⟩ := LspFiles.addVariables_template htree hs h3
      refine ⟨_, defs, ?_, ?_, hd, ?_⟩
      · rw [hsame.doc, hg]; exact LspFiles.openBase_document ..
      · rw [hsame.tree, hg]; exact htree
      · rw [hsame.vars, hg]; exact HMap.get?_insert_self ..

/-- what is recorded has no name or stands in the text -/
theorem occurs (h : Hosted env sx w calls n id fn uri host above margin content below line col root) {vs : List Identifier}
    (hv : n.files.variables.get? uri = some vs) : ∀ v ∈ vs, (v.name = [] ∧ v.start = Point.zero ∧ v.stop = Point.zero) ∨
      ∃ pre, Occurs (padded (col.getD 0) content) v.start v.stop pre v.name := by
  obtain ⟨old, defs, _, _, hd, hv'⟩ := h.recorded
  rw [hv] at hv'
  cases hv'
  intro v hmem
  rcases C14_from_text _ _ _ _ _ _ hd v hmem with h0 | ⟨c, hc, hn, ht, e1, e2⟩
  · exact .inl h0
  · have hc' : c ∈ (Syn.walk (qDefinitions sx.digit) [] [] (sx.root (.parsed .jinja (padded (col.getD 0) content) old)
        (padded (col.getD 0) content))).flatten := hc
    rw [(h.parses old).2] at hc'
    obtain ⟨x, h1, h2, h3, h4, h5, _⟩ := definitions_names hc' hn
    obtain ⟨pre, q, hq, ho⟩ := h.spelled x h1 (.inl h2)
    rw [h3, ht] at hq
    cases hq
    rw [h4, h5, e1, e2] at ho
    exact .inr ⟨pre, ho⟩

theorem line_small (h : Hosted env sx w calls n id fn uri host above margin content below line col root) : line < 4294967296 := by
  have := (h.place.bound h.noCR (pre := []) (post := padded (col.getD 0) content) (by simp)).1
  have := h.small
  omega

/-- places in the text fit in 32 bits -/
theorem fits (h : Hosted env sx w calls n id fn uri host above margin content below line col root) {a b : Point} {pre s : Str}
    (ho : Occurs (padded (col.getD 0) content) a b pre s) :
    (a.row + line < 4294967296 ∧ a.column < 4294967296) ∧ b.row + line < 4294967296 ∧ b.column < 4294967296 := by
  obtain ⟨post, hp⟩ := ho.text
  have h1 := h.place.bound h.noCR (pre := pre) (post := s ++ post) (by rw [hp]; simp)
  have h2 := h.place.bound h.noCR (pre := pre ++ s) (post := post) hp
  have := h.small
  rw [← ho.start] at h1
  rw [← ho.stop] at h2
  omega

end Spec.Hosted

/-! ## C118 -/

/-- a name: ASCII, without spaces -/
def Spec.PlainWord (s : Str) : Prop := AsciiWord s ∧ ' ' ∉ s

/-- **C118** (variables) Every named variable the Node API lists for an embedded template stands for an occurrence of its name in the template; in
the host document the range given for it covers this very occurrence exactly if the line of the template before it is ASCII. -/
theorem C118_variables_partial (env : Env) (sx : Syntax) (w : World) (calls : List Call) (n : NodeFiles) (id : Nat)
    (fn uri host above margin content below : Str) (line : Nat) (col : Option Nat) (root : Syn)
    (h : Hosted env sx w calls n id fn uri host above margin content below line col root) :
    ∃ ys, n.getVariables (env.over sx) uri line = .ok (some ys) ∧ ∀ y ∈ ys, PlainWord y.name → ∃ p post, content = p ++ y.name ++ post ∧
      (Selects host ⟨y.start, y.stop⟩ (above ++ margin ++ p) y.name ↔ AsciiLine p) := by
  obtain ⟨old, defs, _, _, _, hv⟩ := h.recorded
  have hocc := h.occurs hv
  have hline := h.line_small
  refine ⟨defs.identifiers.map fun v => listed line v.binding, ?_, ?_⟩
  · simp only [getVariables, hv]
    rw [shiftAll_listed]
    intro v hvm
    rcases hocc v hvm with ⟨_, e1, e2⟩ | ⟨pre, ho⟩
    · simp only [Fits, RangeFits, rangeOf, e1, e2, Point.zero]; omega
    · have := h.fits ho
      simp only [Fits, RangeFits, rangeOf]; omega
  · intro y hy hw
    obtain ⟨v, hvm, rfl⟩ := List.mem_map.mp hy
    rcases hocc v hvm with ⟨e, _⟩ | ⟨pre, ho⟩
    · exact absurd e hw.1.1
    · obtain ⟨p, post, rfl, hp⟩ := Embedded.within ho hw.1.1 hw.2
      exact ⟨p, post, hp, h.place.selects_iff h.noCR ho hp hw.1⟩

/-- **C118 is false after a character that is not ASCII**, on the same line of the template. -/
theorem C118_shifted_refuted {host above margin content below p s post : Str} {line col : Nat} {a b : Point}
    (h : Embedded host above margin content below line col) (hcr : NoLoneCR host) (ho : Occurs (padded col content) a b (padded col p) s)
    (hp : content = p ++ s ++ post) (hs : AsciiWord s) (hna : ∃ c ∈ lineOf p, 128 ≤ c.toNat) :
    ¬ Selects host ⟨⟨a.row + line, a.column⟩, ⟨b.row + line, b.column⟩⟩ (above ++ margin ++ p) s := by
  rw [h.selects_iff hcr ho hp hs]
  obtain ⟨c, h1, h2⟩ := hna
  intro hh
  have := hh c h1
  omega

theorem mem_allLinks {prof : Profile} {line : Nat} {hints : List (List Str)} {cands : List (List Str × Point × Point × Str)} {links : List JsIdentifier}
    (hf : ∀ c ∈ cands, LinkFits line c.2.1 ∧ LinkFits line c.2.2.1) (h : allLinks prof line hints cands = .ok links) :
    ∀ l ∈ links, ∃ c ∈ cands, c.1 ∈ hints ∧ l = linkAt line c.2.1 c.2.2.1 c.2.2.2 := by
  rw [allLinks_fits _ _ _ _ hf] at h
  cases h
  intro l hl
  obtain ⟨c, hc, hl⟩ := List.mem_flatMap.mp hl
  obtain ⟨g, hg, rfl⟩ := List.mem_map.mp hl
  obtain ⟨hg, e⟩ := List.mem_filter.mp hg
  simp only [decide_eq_true_eq] at e
  exact ⟨c, hc, e ▸ hg, rfl⟩

/-- **C118** (links) Every link is for a hint in force, begins at an occurrence of its first part in the template and ends at the end of an occurrence
of its last part.  In the host document it begins there exactly if the line of the template before it is ASCII, and ends there if the line before the
last part is. -/
theorem C118_links_partial (env : Env) (sx : Syntax) (w : World) (calls : List Call) (n n1 : NodeFiles) (links : List JsIdentifier) (id : Nat)
    (fn uri host above margin content below : Str) (line : Nat) (col : Option Nat) (root : Syn)
    (hrun : Call.run (env.over sx) w NodeFiles.new calls = .ok n)
    (hadd : n.addOne (env.over sx) w id fn content line c!"jinja" col = .ok (n1, links)) (huri : docUri (env.over sx) fn id c!"jinja" = .ok uri)
    (he : fileExt uri = some .template) (hpl : Embedded host above margin content below line (col.getD 0)) (hcr : NoLoneCR host)
    (hsm : utf8Len host < 4294967296)
    (hparse : ∀ old, env.parseFails .jinja (padded (col.getD 0) content) old = false ∧
      sx.root (.parsed .jinja (padded (col.getD 0) content) old) (padded (col.getD 0) content) = root)
    (hsp : Spelled (padded (col.getD 0) content) root) :
    ∀ l ∈ links, ∃ a ∈ linkHints [] calls, ∃ parts last, a.name = dotted parts ∧ (∀ q ∈ parts, '.' ∉ q) ∧ parts.head? = some l.name ∧
      parts.getLast? = some last ∧
      (PlainWord l.name → ∃ p post, content = p ++ l.name ++ post ∧
        (offset host l.start = some (above ++ margin ++ p).length ↔ AsciiLine p)) ∧
      (PlainWord last → ∃ q post, content = q ++ last ++ post ∧
        (AsciiLine q → offset host l.stop = some ((above ++ margin ++ q).length + last.length))) := by
  obtain ⟨u, m, hu', ho, _⟩ := addOne_files hadd
  rw [huri] at hu'; cases hu'
  obtain ⟨hp, hroot⟩ := hparse ((n.files.trees .template).get? uri)
  obtain ⟨hopen, _⟩ := LspFiles.didOpen_inv_ignore he ho
  have hdoc : n1.files.documents.get? uri = some (padded (col.getD 0) content) := by
    rw [(documents_addVariables hopen).1]; exact LspFiles.openBase_document ..
  have htree : (n1.files.trees .template).get? uri = some (.parsed .jinja (padded (col.getD 0) content) ((n.files.trees .template).get? uri)) := by
    rw [(documents_addVariables hopen).2]; exact LspFiles.openBase_tree (env := env.over sx) (f := n.files) (n := uri) (l := .template) hp
  generalize htr : Tree.parsed .jinja (padded (col.getD 0) content) ((n.files.trees .template).get? uri) = tree at *
  have hq := JinjaObjects.from_query (objectsQuery_all (env.over sx) tree (padded (col.getD 0) content) Point.zero)
  have hocc : ∀ c ∈ ((env.over sx).queryMatches .jinjaObjects tree (padded (col.getD 0) content)).flatten, c.name = .justId →
      ∀ t, c.text = some t → ∃ pre, Occurs (padded (col.getD 0) content) c.start c.stop pre t := by
    intro c hc hn t ht
    have hc' : c ∈ (Syn.walk (qObjects sx.digit) [] [] (sx.root tree (padded (col.getD 0) content))).flatten := hc
    rw [objects_flat, hroot] at hc'
    obtain ⟨m, hm, hcm⟩ := List.mem_flatten.mp hc'
    obtain ⟨x, hnf, hmn⟩ := List.mem_flatMap.mp hm
    obtain ⟨e1, e2, h3, _⟩ := objCaps_mem (List.mem_flatten.mpr ⟨m, hmn, hcm⟩)
    obtain ⟨hk, _, htx⟩ := h3 hn
    obtain ⟨pre, q, hq, hoc⟩ := hsp x hnf (.inl hk)
    rw [← htx, ht] at hq
    cases hq
    rw [e1, e2]
    exact ⟨pre, hoc⟩
  have fits : ∀ {a b : Point} {pre s : Str}, Occurs (padded (col.getD 0) content) a b pre s → LinkFits line a ∧ LinkFits line b := by
    intro a b pre s ho
    obtain ⟨post, hp⟩ := ho.text
    have h1 := hpl.bound hcr (pre := pre) (post := s ++ post) (by rw [hp]; simp)
    have h2 := hpl.bound hcr (pre := pre ++ s) (post := post) hp
    rw [← ho.start] at h1
    rw [← ho.stop] at h2
    unfold LinkFits
    omega
  generalize hos : JinjaObjects.feed JinjaObjects.default ((env.over sx).queryMatches .jinjaObjects tree (padded (col.getD 0) content)).flatten = os at hq
  have hlast : ∀ o ∈ os.objects, ∃ last pre a, (objectFields o).getLast? = some last ∧ Occurs (padded (col.getD 0) content) a o.lastFieldEnd pre last := by
    intro o hom
    cases hg : o.fields.getLast? with
    | none =>
      have hnil : o.fields = [] := by simpa using hg
      obtain ⟨c, hc, hn, ht, hl⟩ := hq.objects o hom
      obtain ⟨pre, hpre⟩ := hocc c hc hn _ ht
      refine ⟨o.name, pre, c.start, by simp [objectFields, hnil], ?_⟩
      simp only [JinjaObject.lastFieldEnd, hg, hl]
      exact hpre
    | some f =>
      obtain ⟨c, hc, hn, ht, hl⟩ := hq.fields o hom f (List.mem_of_getLast? hg)
      obtain ⟨pre, hpre⟩ := hocc c hc hn _ ht
      refine ⟨f.1, pre, c.start, by simp [objectFields, List.getLast?_cons, hg], ?_⟩
      simp only [JinjaObject.lastFieldEnd, hg, hl]
      exact hpre
  have hstart : ∀ o ∈ os.objects, ∃ pre, Occurs (padded (col.getD 0) content) o.location.1 o.location.2 pre o.name := by
    intro o hom
    obtain ⟨c, hc, hn, ht, hl⟩ := hq.objects o hom
    rw [hl]
    exact hocc c hc hn _ ht
  have hhints := linkHints_run calls (n := NodeFiles.new) (cur := []) rfl hrun
  unfold addOne at hadd
  simp only [huri, ho, if_true, LspFiles.readObjects, hdoc, he, htree, objectsQuery_all, hos] at hadd
  intro l hl
  cases hact : n.actionObjects.get? c!"temp" with
  | none =>
    rw [hact] at hadd
    simp only [Except.ok.injEq, Prod.mk.injEq] at hadd
    rw [← hadd.2] at hl
    cases hl
  | some hints =>
    rw [hact] at hadd hhints
    simp only [Option.getD_some] at hhints
    simp only at hadd
    split at hadd
    · cases hadd
    · rename_i ls hls
      simp only [Except.ok.injEq, Prod.mk.injEq] at hadd
      obtain ⟨_, rfl⟩ := hadd
      obtain ⟨c, hc, hch, rfl⟩ := mem_allLinks (by
        intro c hc
        obtain ⟨o, hom, rfl⟩ := List.mem_map.mp hc
        obtain ⟨_, _, _, _, h1⟩ := hlast o hom
        obtain ⟨_, h2⟩ := hstart o hom
        exact ⟨(fits h2).1, (fits h1).2⟩) hls l hl
      obtain ⟨o, hom, rfl⟩ := List.mem_map.mp hc
      obtain ⟨last, pl, al, hl1, hl2⟩ := hlast o hom
      obtain ⟨ps, hs1⟩ := hstart o hom
      rw [hhints] at hch
      obtain ⟨a, ha, hae⟩ := List.mem_map.mp hch
      simp only at hae
      refine ⟨a, ha, objectFields o, last, ?_, ?_, rfl, hl1, ?_, ?_⟩
      · rw [← hae, dotted_splitChar]
      · rw [← hae]; exact fun q hq => splitChar_pieces '.' _ q hq
      · intro (hw : PlainWord o.name)
        obtain ⟨p, post, rfl, hp'⟩ := Embedded.within hs1 hw.1.1 hw.2
        refine ⟨p, post, hp', ?_⟩
        obtain ⟨x, r, hsx⟩ := List.exists_cons_of_ne_nil hw.1.1
        have hx := hw.1.2 x (by rw [hsx]; simp)
        have h1 := hpl.offset_iff hcr (p := p) (rest := r ++ post) (x := x) (by rw [hp', hsx]; simp) hx.2 (by unfold utf16Len; rw [if_pos (by omega)])
        simp only [linkAt, hs1.start]
        exact h1
      · intro hw
        obtain ⟨q, post, rfl, hq'⟩ := Embedded.within hl2 hw.1.1 hw.2
        refine ⟨q, post, hq', fun hasc => ?_⟩
        have h1 := hpl.offset_stop hcr hq' hw.1 hasc
        simp only [linkAt, hl2.stop]
        rw [show padded (col.getD 0) q ++ last = padded (col.getD 0) (q ++ last) by simp [padded]]
        exact h1

/-- the cursor of the host document is in a name of the template -/
theorem Spec.Hosted.onUse {env : Env} {sx : Syntax} {w : World} {calls : List Call} {n : NodeFiles} {id : Nat}
    {fn uri host above margin content below : Str} {line : Nat} {col : Option Nat} {root : Syn}
    (h : Hosted env sx w calls n id fn uri host above margin content below line col root) (hs : WellFormed root) (hl : Laid root)
    {es : List Elem} {u : Use} (hr : ReadsTree sx.digit root es) (hw : Elems.Wf es) (hu : .use u ∈ es) {p x y post : Str} {pos : Position}
    (ho : Occurs (padded (col.getD 0) content) u.root.start u.root.stop (padded (col.getD 0) p) u.root.text)
    (hp : content = p ++ u.root.text ++ post) (ha : AsciiWord u.root.text) (hxy : u.root.text = x ++ y) (hy : y ≠ [])
    (hc : Stands host pos (above ++ margin ++ (p ++ x)) (y ++ (post ++ below))) (hline : AsciiLine p) :
    line ≤ pos.line ∧ (⟨pos.line - line, pos.character⟩ : Point) = advance ⟨0, 0⟩ (padded (col.getD 0) (p ++ x)) ∧
      ∃ vars, OnEmbedded (env.over sx) w calls n id fn uri line (pos.line - line) pos.character u vars := by
  obtain ⟨old, defs, hd, ht, _, hv⟩ := h.recorded
  have hxa : ∀ c ∈ x, c.toNat < 128 ∧ c ≠ '\n' ∧ c ≠ '\r' := fun c hc => ha.2 c (by rw [hxy]; simp [hc])
  obtain ⟨h1, h2⟩ := h.place.cursor h.noCR (p := p ++ x) (rest := y ++ post) (by rw [hp, hxy]; simp) hc
  have hpt := h2.mpr (by
    unfold AsciiLine
    rw [lineOf_more (fun c hc => (hxa c hc).2.1)]
    intro c hc
    rcases List.mem_append.mp hc with hc | hc
    · exact hline c hc
    · exact (hxa c hc).1)
  refine ⟨h1, hpt, _, h.run, h.uri_eq, h.template, ?_, hv, ?_⟩
  · have hroot := (h.parses old).2
    have k1 : u.root.start ≤ toPoint ⟨pos.line - line, pos.character⟩ := by
      rw [ho.start, hpt, padded, padded, ← List.append_assoc, advance_append _ (_ ++ p)]; exact advance_le _ _
    have k2 : toPoint ⟨pos.line - line, pos.character⟩ < u.root.stop := by
      rw [ho.stop, hpt, hxy, padded, padded, ← List.append_assoc, ← List.append_assoc, advance_append _ (_ ++ p ++ x)]; exact advance_lt _ _ hy
    obtain ⟨e1, e2, hon⟩ := onUse_tree (env := env) (sx := sx) (tree := .parsed .jinja (padded (col.getD 0) content) old)
      (text := padded (col.getD 0) content) (by rw [hroot]; exact hs) (by rw [hroot]; exact hl) (by rw [hroot]; exact hr) hw hu k1 k2
    exact ⟨_, _, e1, e2, hd, ht, hon⟩
  · have := h.fits ho
    simp only [RangeFits, toRange, toU32]
    rw [Nat.mod_eq_of_lt (by omega), Nat.mod_eq_of_lt (by omega)]
    omega

/-- **C118** (hover) With the cursor of the host document in a name of an embedded template, on a line of the template that is ASCII up to it, the
range that hover answers covers this name. -/
theorem C118_hover_partial (env : Env) (sx : Syntax) (w : World) (calls : List Call) (n : NodeFiles) (id : Nat)
    (fn uri host above margin content below : Str) (line : Nat) (col : Option Nat) (root : Syn)
    (h : Hosted env sx w calls n id fn uri host above margin content below line col root) (hs : WellFormed root) (hl : Laid root)
    (es : List Elem) (u : Use) (hr : ReadsTree sx.digit root es) (hw : Elems.Wf es) (hu : .use u ∈ es) (p x y post : Str) (pos : Position)
    (ho : Occurs (padded (col.getD 0) content) u.root.start u.root.stop (padded (col.getD 0) p) u.root.text)
    (hp : content = p ++ u.root.text ++ post) (ha : AsciiWord u.root.text) (hxy : u.root.text = x ++ y) (hy : y ≠ [])
    (hc : Stands host pos (above ++ margin ++ (p ++ x)) (y ++ (post ++ below))) (hline : AsciiLine p) :
    ∃ r, n.hover (env.over sx) w id fn line pos = .ok r ∧ ∀ v, r = some v → Selects host v.range (above ++ margin ++ p) u.root.text := by
  obtain ⟨hle, _, vars, hon⟩ := h.onUse hs hl hr hw hu ho hp ha hxy hy hc hline
  obtain ⟨i, _, _, hans⟩ := hon.answer
  have hpos : (⟨pos.line - line + line, pos.character⟩ : Position) = pos := by rw [Nat.sub_add_cancel hle]
  rw [hpos] at hans
  have hsel := (h.place.selects_iff h.noCR ho hp ha).mpr hline
  have hf := h.fits ho
  have hrange : downRange line (toRange (u.root.start, u.root.stop)) =
      ⟨⟨u.root.start.row + line, u.root.start.column⟩, ⟨u.root.stop.row + line, u.root.stop.column⟩⟩ := by
    simp only [downRange, downPos, toRange, toU32]
    rw [Nat.mod_eq_of_lt (by omega), Nat.mod_eq_of_lt (by omega), Nat.mod_eq_of_lt (by omega), Nat.mod_eq_of_lt (by omega)]
  refine ⟨_, hans, ?_⟩
  intro v hv
  have : v.range = downRange line (toRange (u.root.start, u.root.stop)) := by
    cases hflt : u.info.filter with
    | true =>
      rw [hflt, if_pos rfl] at hv
      obtain ⟨t, _, rfl⟩ := Option.map_eq_some_iff.mp hv
      rfl
    | false =>
      rw [hflt] at hv
      simp only [Bool.false_eq_true, if_false] at hv
      obtain ⟨t, _, rfl⟩ := Option.map_eq_some_iff.mp hv
      rfl
  rw [this, hrange]
  exact hsel

/-- **C118** (goto-definition) With the cursor of the host document in such a name, and a binding of it in the template that reaches the cursor,
goto-definition answers with a place in the host document: the range of an occurrence of the very name, which it covers exactly if the line of the
template before that is ASCII.  (Part: the name of the file is a URL and part of the name of the document, as in `C102_local_partial`.) -/
theorem C118_goto_partial (env : Env) (sx : Syntax) (w : World) (calls : List Call) (n : NodeFiles) (id : Nat)
    (fn uri host above margin content below url : Str) (line : Nat) (col : Option Nat) (root : Syn)
    (h : Hosted env sx w calls n id fn uri host above margin content below line col root) (hs : WellFormed root) (hl : Laid root)
    (hk : root.kind = .other) (is : List Item) (ht : Tags sx.digit root.children is) (e : Point)
    (hend : ∀ old, env.rootEnd (.parsed .jinja (padded (col.getD 0) content) old) = e)
    (es : List Elem) (u : Use) (hr : ReadsTree sx.digit root es) (hw : Elems.Wf es) (hu : .use u ∈ es) (p x y post : Str) (pos : Position)
    (ho : Occurs (padded (col.getD 0) content) u.root.start u.root.stop (padded (col.getD 0) p) u.root.text)
    (hp : content = p ++ u.root.text ++ post) (ha : PlainWord u.root.text) (hxy : u.root.text = x ++ y) (hy : y ≠ [])
    (hc : Stands host pos (above ++ margin ++ (p ++ x)) (y ++ (post ++ below))) (hline : AsciiLine p)
    (hin : PartOf fn uri) (hurl : env.urlParse fn = some url)
    (hex : ∃ b ∈ Items.bindings e 0 is, Reaches u.root.text (advance ⟨0, 0⟩ (padded (col.getD 0) (p ++ x))) b) :
    ∃ b ∈ Items.bindings e 0 is, Reaches u.root.text (advance ⟨0, 0⟩ (padded (col.getD 0) (p ++ x))) b ∧
      (∀ b' ∈ Items.bindings e 0 is, Reaches u.root.text (advance ⟨0, 0⟩ (padded (col.getD 0) (p ++ x))) b' → b'.start ≤ b.start) ∧
      ∃ r p' post', n.gotoDefinition (env.over sx) w id fn line pos = .ok (some [⟨url, r, false⟩]) ∧ content = p' ++ u.root.text ++ post' ∧
        Occurs (padded (col.getD 0) content) b.start b.stop (padded (col.getD 0) p') u.root.text ∧
        (Selects host r (above ++ margin ++ p') u.root.text ↔ AsciiLine p') := by
  obtain ⟨hle, hpt, vars, hon⟩ := h.onUse hs hl hr hw hu ho hp ha.1 hxy hy hc hline
  obtain ⟨old, defs, _, _, hdq, hv⟩ := h.recorded
  have hroot := (h.parses old).2
  obtain ⟨defs', h2, h3⟩ := C64_bracket_matching (env.over sx) (.parsed .jinja (padded (col.getD 0) content) old) Point.zero (padded (col.getD 0) content) is
    (tags_wf hs ht) (over_definitions (by rw [hroot]; exact hk) (by rw [hroot]; exact ht))
  rw [hdq] at h2
  cases h2
  have hvars := hon.read
  rw [hv] at hvars
  cases hvars
  have hb : defs.identifiers.map Identifier.binding = Items.bindings e 0 is := by rw [h3, ← hend old]; rfl
  have hocc := h.occurs hv
  have hline' := h.line_small
  rw [← hb] at hex ⊢
  have hm : ∀ d ∈ defs.identifiers, d.binding ∈ defs.identifiers.map Identifier.binding := fun d hd => List.mem_map_of_mem hd
  rw [← hpt] at hex ⊢
  obtain ⟨d, k1, k2, k3, k4⟩ := C102_local_partial (env.over sx) w calls n id fn uri url line (pos.line - line) pos.character u defs.identifiers hon
    (by
      intro v hvm
      rcases hocc v hvm with ⟨_, e1, e2⟩ | ⟨pre, ho'⟩
      · simp only [Fits, RangeFits, rangeOf, e1, e2, Point.zero]; omega
      · have := h.fits ho'
        simp only [Fits, RangeFits, rangeOf]; omega)
    (by
      obtain ⟨b, hb1, hb2⟩ := hex
      obtain ⟨d, hd, rfl⟩ := List.mem_map.mp hb1
      exact ⟨d, hd, hb2⟩) hin hurl
  refine ⟨d.binding, hm d k1, k2, ?_, ?_⟩
  · intro b' hb' hc'
    obtain ⟨e, he, rfl⟩ := List.mem_map.mp hb'
    exact k3 e he hc'
  · rw [Nat.sub_add_cancel hle] at k4
    have hname : d.name = u.root.text := k2.1
    rcases hocc d k1 with ⟨e0, _⟩ | ⟨pre, ho'⟩
    · exact absurd (hname ▸ e0) ha.1.1
    · rw [hname] at ho'
      obtain ⟨p', post', rfl, hp'⟩ := Embedded.within ho' ha.1.1 ha.2
      exact ⟨_, p', post', k4, hp', ho', h.place.selects_iff h.noCR ho' hp' ha.1⟩

/-! ### Examples -/

namespace Fix

/-- ```
import jinja2
é = '''{% set a = 1 %}
  {{ a }}{{ user.name }}'''
``` -/
def hostText : Str := c!"import jinja2\né = '''{% set a = 1 %}\n  {{ a }}{{ user.name }}'''\n"

def hostAbove : Str := c!"import jinja2\n"
def hostMargin : Str := c!"é = '''"
def hostContent : Str := c!"{% set a = 1 %}\n  {{ a }}{{ user.name }}"
def hostBelow : Str := c!"'''\n"

def hostNodes : List Syn :=
  [.node .statement none 3 ⟨0, 7⟩ ⟨0, 22⟩ (some []) [lf .statementBegin 103 0 7 9 c!"{%", lf .keyword 15 0 10 13 c!"set",
     lf .identifier 16 0 14 15 c!"a", lf .operator 17 0 16 17 c!"=", lf .identifier 18 0 18 19 c!"1", lf .statementEnd 203 0 20 22 c!"%}"],
   ex 6 1 2 9 [lf .identifier 20 1 5 6 c!"a"],
   ex 7 1 9 24 [lf .identifier 21 1 12 16 c!"user", lf .operator 22 1 16 17 c!".", lf .identifier 23 1 17 21 c!"name"]]

def hostRoot : Syn := .node .other none 900 ⟨0, 0⟩ ⟨1, 24⟩ (some []) hostNodes

def hostSyn : Syntax := ⟨fun _ _ => hostRoot, digit, fun _ _ => [[]], fun _ => true⟩

theorem host_cr : NoLoneCR hostText := noLoneCR_of (by decide +kernel)

theorem host_spelled : Spelled (padded 7 hostContent) hostRoot := spelled_of (by decide +kernel)

theorem host_embedded : Embedded hostText hostAbove hostMargin hostContent hostBelow 1 7 :=
  ⟨by decide +kernel, by decide +kernel, by decide +kernel, by decide +kernel⟩

def hostTags : List Item :=
  [.leaf (.set ⟨tok 0 7 9 c!"{%" 103, tok 0 20 22 c!"%}" 203⟩ (tok 0 10 13 c!"set" 15) (tok 0 14 15 c!"a" 16) [.eq (tok 0 16 17 c!"=" 17)]),
   .leaf (.expr [.name (tok 1 5 6 c!"a" 20)]), .leaf (.expr [.name (tok 1 12 16 c!"user" 21), .name (tok 1 17 21 c!"name" 23)])]

def hostA : Use := ⟨.variable, tok 1 5 6 c!"a" 20, []⟩

def hostElems : List Elem :=
  [.use ⟨.variable, tok 0 14 15 c!"a" 16, []⟩, .op (tok 0 16 17 c!"=" 17),
   .expr 6 ⟨1, 2⟩ ⟨1, 9⟩ (⟨1, 2⟩, ⟨1, 4⟩) (⟨1, 7⟩, ⟨1, 9⟩), .use hostA,
   .expr 7 ⟨1, 9⟩ ⟨1, 24⟩ (⟨1, 9⟩, ⟨1, 11⟩) (⟨1, 22⟩, ⟨1, 24⟩),
   .use ⟨.variable, tok 1 12 16 c!"user" 21, [(tok 1 16 17 c!"." 22, tok 1 17 21 c!"name" 23)]⟩]

theorem hostTags_read : Tags digit hostNodes hostTags := by
  refine Tags.stmt (b := lf .statementBegin 103 0 7 9 c!"{%") (e := lf .statementEnd 203 0 20 22 c!"%}")
    (inner := [lf .keyword 15 0 10 13 c!"set", lf .identifier 16 0 14 15 c!"a", lf .operator 17 0 16 17 c!"=", lf .identifier 18 0 18 19 c!"1"])
    rfl rfl (token_lf ..) rfl (token_lf ..) rfl (.set (token_lf ..) rfl rfl ?_) ?_
  · exact Header.cons (hs := [_]) (token_lf ..) (.name rfl (by decide)) (Header.cons (hs := [_]) (token_lf ..) (.eq rfl (by decide))
      (Header.cons (hs := []) (token_lf ..) (.numeral rfl (by decide)) .nil))
  refine Tags.expr (is := []) rfl ?_ ?_
  · exact Inline.tok (hs := []) (token_lf ..) (.other rfl) (Inline.tok (hs := [_]) (token_lf ..) (.name rfl (by decide))
      (Inline.tok (hs := []) (token_lf ..) (.other rfl) .nil))
  refine Tags.expr (is := []) rfl ?_ .nil
  exact Inline.tok (hs := []) (token_lf ..) (.other rfl) (Inline.tok (hs := [_]) (token_lf ..) (.name rfl (by decide))
    (Inline.tok (hs := []) (token_lf ..) (.op rfl (by decide)) (Inline.tok (hs := [_]) (token_lf ..) (.name rfl (by decide))
      (Inline.tok (hs := []) (token_lf ..) (.other rfl) .nil))))

theorem hostElems_read : ReadsTree digit hostRoot hostElems := by
  refine ⟨relevant, fun n => by simp [relevant, Relevant], ?_⟩
  have hf : hostRoot.flat.filter relevant = [lf .identifier 16 0 14 15 c!"a", lf .operator 17 0 16 17 c!"=",
      ex 6 1 2 9 [lf .identifier 20 1 5 6 c!"a"], lf .identifier 20 1 5 6 c!"a",
      ex 7 1 9 24 [lf .identifier 21 1 12 16 c!"user", lf .operator 22 1 16 17 c!".", lf .identifier 23 1 17 21 c!"name"],
      lf .identifier 21 1 12 16 c!"user", lf .operator 22 1 16 17 c!".", lf .identifier 23 1 17 21 c!"name"] := rfl
  rw [hf]
  have nm : ∀ (i l a b : Nat) (t : Str), ¬ IsNumeral digit t → IsName digit (lf .identifier i l a b t) :=
    fun i l a b t h => ⟨rfl, by simp [lf, Syn.text], h⟩
  have op : ∀ (i l a b : Nat) (t : Str), t ≠ c!"." → IsOp (lf .operator i l a b t) :=
    fun i l a b t h => ⟨rfl, by simp [lf, Syn.text], by simpa [lf, Syn.text] using h⟩
  have use : ∀ (i l a b : Nat) (t : Str) {ns : List Syn} {es : List Elem}, ¬ IsNumeral digit t → ReadsOff digit ns es →
      ReadsOff digit (lf .identifier i l a b t :: ns) (.use ⟨.variable, tokOf (lf .identifier i l a b t), []⟩ :: es) :=
    fun i l a b t ns es h hr => ReadsOff.use (ms := []) (fs := []) .variable (nm i l a b t h) .nil hr
  refine use _ _ _ _ _ (by decide) (.op (op _ _ _ _ _ (by decide)) (.expr rfl (use _ _ _ _ _ (by decide) (.expr rfl ?_))))
  exact ReadsOff.use (ms := []) (fs := [_, _]) .variable (nm _ _ _ _ _ (by decide)) (.cons ⟨rfl, rfl⟩ (nm _ _ _ _ _ (by decide)) .nil) .nil

theorem hostElems_wf : Elems.Wf hostElems := by
  refine ⟨?_, ⟨⟨0, 2⟩, by decide, ?_⟩⟩
  · simp [hostElems, hostA, Elem.Ok, Mark.Ok, reserved, tok]
  · simp [hostElems, hostA, Elem.toks, Use.toks, Mark.toks, Ordered, tok, Point.lt_def, Point.le_def]

theorem host_laid : Laid hostRoot := ⟨by decide, by decide, by decide, by decide⟩

theorem host_wellFormed : WellFormed hostRoot := ⟨by decide, by decide, by decide⟩

/-- hints, then the template -/
def hostedCalls : List Call := [.saveLinkHint (some [⟨c!"user.name", c!"the name"⟩]) none, .addOne 7 c!"f" hostContent 1 c!"jinja" (some 7)]

theorem hosted : ∃ n, Hosted env hostSyn world hostedCalls n 7 c!"f" offsetUri hostText hostAbove hostMargin hostContent hostBelow 1 (some 7) hostRoot := by
  have : ∃ n, Call.run (env.over hostSyn) world NodeFiles.new hostedCalls = .ok n := ⟨_, rfl⟩
  obtain ⟨n, hn⟩ := this
  exact ⟨n, hn, ⟨[_], [], 1, rfl, by simp⟩, rfl, by decide, host_embedded, host_cr, by decide +kernel, fun _ => ⟨rfl, rfl⟩,
    tags_no_error rfl hostTags_read, host_spelled⟩

theorem host_stands : Stands hostText ⟨2, 5⟩ (hostAbove ++ hostMargin ++ (c!"{% set a = 1 %}\n  {{ " ++ [])) (c!"a" ++ (c!" }}{{ user.name }}" ++ hostBelow)) :=
  ⟨by decide +kernel, c!"import jinja2\né = '''{% set a = 1 %}\n", c!"  {{ ", by decide +kernel, by decide +kernel, by decide, by decide +kernel⟩

end Fix

/-- the variable `a`, of which the first line of the template begins after `é = '''` -/
example : ∃ (n : NodeFiles) (ys : List JsIdentifier), n.getVariables (Fix.env.over Fix.hostSyn) Fix.offsetUri 1 = .ok (some ys) ∧ (∀ y ∈ ys, PlainWord y.name → ∃ p post,
      Fix.hostContent = p ++ y.name ++ post ∧ (Selects Fix.hostText ⟨y.start, y.stop⟩ (Fix.hostAbove ++ Fix.hostMargin ++ p) y.name ↔ AsciiLine p)) ∧
    ys.map (fun y => (y.start, y.stop, y.name)) = [(⟨1, 14⟩, ⟨1, 15⟩, c!"a")] := by
  obtain ⟨n, h⟩ := Fix.hosted
  obtain ⟨ys, h1, h2⟩ := C118_variables_partial _ _ _ _ _ _ _ _ _ _ _ _ _ _ _ _ h
  refine ⟨n, ys, h1, h2, ?_⟩
  have : ∃ n ys, Call.run (Fix.env.over Fix.hostSyn) Fix.world NodeFiles.new Fix.hostedCalls = .ok n ∧
      n.getVariables (Fix.env.over Fix.hostSyn) Fix.offsetUri 1 = .ok (some ys) ∧
      ys.map (fun y => (y.start, y.stop, y.name)) = [(⟨1, 14⟩, ⟨1, 15⟩, c!"a")] := ⟨_, _, rfl, rfl, rfl⟩
  obtain ⟨n', ys', k1, k2, k3⟩ := this
  rw [h.run] at k1
  cases k1
  rw [h1] at k2
  cases k2
  exact k3

/-- the link for `user.name` -/
example : ∃ n n1 l, Call.run (Fix.env.over Fix.hostSyn) Fix.world NodeFiles.new [.saveLinkHint (some [⟨c!"user.name", c!"the name"⟩]) none] = .ok n ∧
    n.addOne (Fix.env.over Fix.hostSyn) Fix.world 7 c!"f" Fix.hostContent 1 c!"jinja" (some 7) = .ok (n1, [l]) ∧ l.name = c!"user" ∧
    l.start = ⟨2, 12⟩ ∧ l.stop = ⟨2, 21⟩ ∧
    ∃ p post, Fix.hostContent = p ++ l.name ++ post ∧ (offset Fix.hostText l.start = some (Fix.hostAbove ++ Fix.hostMargin ++ p).length ↔ AsciiLine p) := by
  have : ∃ n n1 l, Call.run (Fix.env.over Fix.hostSyn) Fix.world NodeFiles.new [.saveLinkHint (some [⟨c!"user.name", c!"the name"⟩]) none] = .ok n ∧
    n.addOne (Fix.env.over Fix.hostSyn) Fix.world 7 c!"f" Fix.hostContent 1 c!"jinja" (some 7) = .ok (n1, [l]) ∧
    l = ⟨⟨2, 12⟩, ⟨2, 21⟩, c!"user", .link⟩ := ⟨_, _, _, rfl, rfl, rfl⟩
  obtain ⟨n, n1, l, e1, e2, e3⟩ := this
  refine ⟨n, n1, l, e1, e2, by rw [e3], by rw [e3], by rw [e3], ?_⟩
  obtain ⟨a, _, parts, last, _, _, _, _, h1, _⟩ := C118_links_partial Fix.env Fix.hostSyn Fix.world
    [.saveLinkHint (some [⟨c!"user.name", c!"the name"⟩]) none] _ _ _ 7 c!"f" Fix.offsetUri Fix.hostText Fix.hostAbove Fix.hostMargin Fix.hostContent
    Fix.hostBelow 1 (some 7) Fix.hostRoot e1 e2 rfl (by decide) Fix.host_embedded Fix.host_cr (by decide +kernel) (fun _ => ⟨rfl, rfl⟩) Fix.host_spelled _
    List.mem_cons_self
  exact h1 (by rw [e3]; unfold PlainWord AsciiWord; decide)

/-- hover over `a`, and goto-definition from it: to line 2 of the host document, column 15 -/
example : ∃ n : NodeFiles, (∃ r, n.hover (Fix.env.over Fix.hostSyn) Fix.world 7 c!"f" 1 ⟨2, 5⟩ = .ok r ∧
      ∀ v, r = some v → Selects Fix.hostText v.range (Fix.hostAbove ++ Fix.hostMargin ++ c!"{% set a = 1 %}\n  {{ ") c!"a") ∧
    ∃ r p', n.gotoDefinition (Fix.env.over Fix.hostSyn) Fix.world 7 c!"f" 1 ⟨2, 5⟩ = .ok (some [⟨c!"f", r, false⟩]) ∧
      (Selects Fix.hostText r (Fix.hostAbove ++ Fix.hostMargin ++ p') c!"a" ↔ AsciiLine p') := by
  obtain ⟨n, h⟩ := Fix.hosted
  have ho : Occurs (padded 7 Fix.hostContent) ⟨1, 5⟩ ⟨1, 6⟩ (padded 7 c!"{% set a = 1 %}\n  {{ ") c!"a" :=
    ⟨⟨c!" }}{{ user.name }}", by decide +kernel⟩, by decide +kernel, by decide +kernel⟩
  refine ⟨n, ?_, ?_⟩
  · exact C118_hover_partial _ _ _ _ _ _ _ _ _ _ _ _ _ _ _ _ h Fix.host_wellFormed Fix.host_laid Fix.hostElems Fix.hostA Fix.hostElems_read
      Fix.hostElems_wf (by simp [Fix.hostElems]) c!"{% set a = 1 %}\n  {{ " [] c!"a" c!" }}{{ user.name }}" ⟨2, 5⟩ ho (by decide +kernel)
      (by unfold AsciiWord; decide) rfl (by decide) Fix.host_stands (by unfold AsciiLine; decide +kernel)
  · obtain ⟨b, _, _, _, r, p', post', k1, _, _, k2⟩ := C118_goto_partial _ _ _ _ _ _ _ _ _ _ _ _ _ c!"f" _ _ _ h Fix.host_wellFormed Fix.host_laid rfl
      Fix.hostTags Fix.hostTags_read ⟨9, 9⟩ (fun _ => rfl) Fix.hostElems Fix.hostA Fix.hostElems_read Fix.hostElems_wf (by simp [Fix.hostElems])
      c!"{% set a = 1 %}\n  {{ " [] c!"a" c!" }}{{ user.name }}" ⟨2, 5⟩ ho (by decide +kernel) (by unfold PlainWord AsciiWord; decide) rfl (by decide)
      Fix.host_stands (by unfold AsciiLine; decide +kernel) ⟨c!"file:///home/", c!".7.jinja", rfl⟩ rfl
      ⟨⟨c!"a", ⟨0, 14⟩, ⟨0, 15⟩, .setVariable, ⟨9, 9⟩⟩, by decide, by unfold Reaches; decide +kernel⟩
    exact ⟨r, p', k1, k2⟩

/-- after `é` in the template -/
example : ¬ Selects Fix.accentText ⟨⟨0 + 0, 9⟩, ⟨0 + 0, 10⟩⟩ ([] ++ [] ++ c!"é{% set ") c!"a" :=
  C118_shifted_refuted (host := Fix.accentText) (above := []) (margin := []) (content := Fix.accentText) (below := []) (line := 0) (col := 0)
    (a := ⟨0, 9⟩) (b := ⟨0, 10⟩) (post := c!" = 1 %}\nééééééé{{ a }}{{ b }}")
    ⟨by decide +kernel, by decide +kernel, by simp, rfl⟩ Fix.accent_cr
    ⟨⟨c!" = 1 %}\nééééééé{{ a }}{{ b }}", by decide +kernel⟩, by decide +kernel, by decide +kernel⟩ (by decide +kernel) (by unfold AsciiWord; decide)
    ⟨'é', by decide +kernel, by decide⟩

end JinjaLsp
