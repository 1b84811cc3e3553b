import Verif.Props.OfferedFiles
import Verif.Props.Actions
import Verif.Props.Publish
import Verif.Props.Goto
/-
  C112: the URIs that the server sends name the files they are about.
-/

namespace JinjaLsp
open Spec

namespace Spec

/-- the bytes of a path -/
def utf8 (p : Str) : List UInt8 := p.flatMap String.utf8EncodeChar

/-- the value of a hexadecimal digit -/
def hexValue (c : Char) : Option Nat :=
  if '0' ≤ c ∧ c ≤ '9' then some (c.toNat - 48)
  else if 'A' ≤ c ∧ c ≤ 'F' then some (c.toNat - 55)
  else if 'a' ≤ c ∧ c ≤ 'f' then some (c.toNat - 87)
  else none

/-- percent-decoding (RFC 3986, 2.1) -/
def unescape : Str → List UInt8
  | [] => []
  | [c] => String.utf8EncodeChar c
  | [c, a] => String.utf8EncodeChar c ++ String.utf8EncodeChar a
  | c :: a :: b :: r =>
    if c = '%' then
      match hexValue a, hexValue b with
      | some x, some y => UInt8.ofNat (16 * x + y) :: unescape r
      | _, _ => String.utf8EncodeChar c ++ unescape (a :: b :: r)
    else String.utf8EncodeChar c ++ unescape (a :: b :: r)

/-- a character ends the path of a URI -/
def EndsPath (c : Char) : Prop := c = '?' ∨ c = '#'

instance : DecidablePred EndsPath := fun _ => by unfold EndsPath; infer_instance

/-- the file a client takes a URI to name (RFC 8089): the path of the URI, decoded -/
def fileNamed (uri : Str) : Option (List UInt8) :=
  if c!"file://".isPrefixOf uri then some (unescape ((uri.drop 7).takeWhile fun c => decide (¬ EndsPath c))) else none

/-- what the `url` crate escapes in a path (url 2.5.2, parser.rs: `PATH`) -/
def UrlEscapes (c : Char) : Prop := c.toNat < 32 ∨ 126 < c.toNat ∨ c ∈ [' ', '"', '#', '<', '>', '?', '`', '{', '}']

instance : DecidablePred UrlEscapes := fun _ => by unfold UrlEscapes; infer_instance

def urlPath (p : Str) : Str := p.flatMap fun c => if UrlEscapes c then (String.utf8EncodeChar c).flatMap percentByte else [c]

/-- An absolute path that the URL parser leaves as it is, apart from escapes: no control characters, no backslash (a slash for the parser), no bar (a
colon, in places), no blank at the end, no dot segments, one slash in front. -/
structure UrlSafe (p : Str) : Prop where
  front : ∃ c r, p = '/' :: c :: r ∧ c ≠ '/'
  chars : ∀ c ∈ p, 32 ≤ c.toNat ∧ c ≠ '\\' ∧ c ≠ '|' ∧ ¬ EndsPath c
  last : p.getLast? ≠ some ' '
  dots : ∀ s ∈ splitChar '/' p, unescape s ≠ [46] ∧ unescape s ≠ [46, 46]

/-- `Url::parse` of `file://` or `file:///`, such a path, and a query or fragment: slashes in front are dropped but one, the path is escaped -/
structure UrlStandard (env : Env) : Prop where
  path : ∀ p, UrlSafe p → env.urlParse (c!"file://" ++ p) = some (c!"file://" ++ urlPath p) ∧ env.urlParse (c!"file:///" ++ p) = some (c!"file://" ++ urlPath p)
  rest : ∀ p c t, UrlSafe p → EndsPath c → ∃ t', env.urlParse (c!"file://" ++ (p ++ c :: t)) = some (c!"file://" ++ urlPath p ++ c :: t') ∧
    env.urlParse (c!"file:///" ++ (p ++ c :: t)) = some (c!"file://" ++ urlPath p ++ c :: t')

end Spec

/-! ### Escaping and decoding -/

theorem hexValue_digit {n : Nat} (h : n < 16) : hexValue (hexDigit n) = some n := by
  have : ∀ n, n < 16 → hexValue (hexDigit n) = some n := by decide
  exact this n h

theorem unescape_byte (b : UInt8) (r : Str) : unescape (percentByte b ++ r) = b :: unescape r := by
  have h1 : b.toNat / 16 < 16 := by have := b.toNat_lt; omega
  have h2 : b.toNat % 16 < 16 := Nat.mod_lt _ (by decide)
  have : UInt8.ofNat (16 * (b.toNat / 16) + b.toNat % 16) = b := by
    rw [Nat.div_add_mod]; simp
  simp only [percentByte, List.cons_append, List.nil_append, unescape, if_true, hexValue_digit h1, hexValue_digit h2, this]

theorem unescape_bytes (bs : List UInt8) (r : Str) : unescape (bs.flatMap percentByte ++ r) = bs ++ unescape r := by
  induction bs with
  | nil => rfl
  | cons b bs ih => rw [List.flatMap_cons, List.append_assoc, unescape_byte, ih]; rfl

theorem unescape_other {c : Char} (h : c ≠ '%') : ∀ r, unescape (c :: r) = String.utf8EncodeChar c ++ unescape r
  | [] => by simp [unescape]
  | [a] => by simp [unescape]
  | a :: b :: r => by simp only [unescape, h, if_false]

theorem percentByte_ends (b : UInt8) : ∀ c ∈ percentByte b, ¬ EndsPath c := by
  intro c hc
  simp only [percentByte, List.mem_cons, List.not_mem_nil, or_false] at hc
  have hd : ∀ n, ¬ EndsPath (hexDigit n) := by
    intro n h
    have := hexDigit_plain n
    rcases h with h | h <;> (rw [h] at this; revert this; unfold PathPlain; decide)
  rcases hc with rfl | rfl | rfl
  · decide
  · exact hd _
  · exact hd _

/-- escaping leaves nothing that would end the path -/
theorem urlPath_ends (p : Str) : ∀ c ∈ urlPath p, ¬ EndsPath c := by
  intro c hc
  obtain ⟨x, _, hx⟩ := List.mem_flatMap.mp hc
  split at hx
  · obtain ⟨b, _, hb⟩ := List.mem_flatMap.mp hx
    exact percentByte_ends b c hb
  · rename_i hne
    rw [List.mem_singleton.mp hx]
    rintro (h | h) <;> (rw [h] at hne; exact hne (by decide))

theorem takeWhile_front {P : Char → Bool} : ∀ (p r : Str), (∀ c ∈ p, P c = true) → (p ++ r).takeWhile P = p ++ r.takeWhile P
  | [], _, _ => rfl
  | c :: p, r, h => by
    rw [List.cons_append, List.takeWhile_cons, h c (by simp), if_pos rfl, takeWhile_front p r fun c hc => h c (by simp [hc])]
    rfl

theorem fileNamed_path (p : Str) : fileNamed (c!"file://" ++ urlPath p) = some (unescape (urlPath p)) := by
  unfold fileNamed
  have h1 : (c!"file://").isPrefixOf (c!"file://" ++ urlPath p) = true := List.isPrefixOf_iff_prefix.mpr (List.prefix_append _ _)
  have h2 : (c!"file://" ++ urlPath p).drop 7 = urlPath p := rfl
  have h3 := takeWhile_front (P := fun c => decide (¬ EndsPath c)) (urlPath p) [] (fun c hc => by simpa using urlPath_ends p c hc)
  rw [List.append_nil] at h3
  rw [h1, if_pos rfl, h2, h3, List.takeWhile_nil, List.append_nil]

theorem fileNamed_rest (p t : Str) (c : Char) (hc : EndsPath c) : fileNamed (c!"file://" ++ urlPath p ++ c :: t) = some (unescape (urlPath p)) := by
  unfold fileNamed
  have h1 : (c!"file://").isPrefixOf (c!"file://" ++ urlPath p ++ c :: t) = true :=
    List.isPrefixOf_iff_prefix.mpr (by rw [List.append_assoc]; exact List.prefix_append _ _)
  have h2 : (c!"file://" ++ urlPath p ++ c :: t).drop 7 = urlPath p ++ c :: t := rfl
  have h3 := takeWhile_front (P := fun c => decide (¬ EndsPath c)) (urlPath p) (c :: t) (fun c hc => by simpa using urlPath_ends p c hc)
  rw [h1, if_pos rfl, h2, h3, List.takeWhile_cons, if_neg (by simpa using hc), List.append_nil]

namespace Spec

/-- The path goes on where a URI would end it: `front` is what a client sees of it. -/
def CutAt (p front : Str) : Prop := ∃ c t, EndsPath c ∧ p = front ++ c :: t

/-- The path contains what looks like an escape: a percent sign and two hexadecimal digits. -/
def LooksEscaped (p : Str) : Prop := ∃ a x y b, p = a ++ '%' :: x :: y :: b ∧ hexValue x ≠ none ∧ hexValue y ≠ none

end Spec

theorem hexValue_lt {c : Char} {k : Nat} (h : hexValue c = some k) : k < 16 ∧ ¬ UrlEscapes c := by
  have le : ∀ {a b : Char}, a ≤ b → a.toNat ≤ b.toNat := fun h => h
  have ne : ∀ {a : Char}, 48 ≤ c.toNat → c.toNat ≤ 102 → a.toNat < 48 ∨ 102 < a.toNat ∨ (57 < a.toNat ∧ a.toNat < 65) ∨ (70 < a.toNat ∧ a.toNat < 97) →
      (c.toNat ≤ 57 ∨ (65 ≤ c.toNat ∧ c.toNat ≤ 70) ∨ 97 ≤ c.toNat) → c ≠ a := by
    intro a h1 h2 h3 h4 e
    rw [e] at h1 h2 h4
    omega
  have key : 48 ≤ c.toNat → c.toNat ≤ 102 → (c.toNat ≤ 57 ∨ (65 ≤ c.toNat ∧ c.toNat ≤ 70) ∨ 97 ≤ c.toNat) → ¬ UrlEscapes c := by
    intro h1 h2 h3 he
    rcases he with he | he | he
    · omega
    · omega
    · simp only [List.mem_cons, List.not_mem_nil, or_false] at he
      rcases he with he | he | he | he | he | he | he | he | he <;> exact ne h1 h2 (by decide) h3 he
  unfold hexValue at h
  split at h
  · rename_i hc
    cases h
    have h1 := le hc.1
    have h2 := le hc.2
    change 48 ≤ c.toNat at h1
    change c.toNat ≤ 57 at h2
    exact ⟨by omega, key h1 (by omega) (by omega)⟩
  · split at h
    · rename_i hc
      cases h
      have h1 := le hc.1
      have h2 := le hc.2
      change 65 ≤ c.toNat at h1
      change c.toNat ≤ 70 at h2
      exact ⟨by omega, key (by omega) (by omega) (by omega)⟩
    · split at h
      · rename_i hc
        cases h
        have h1 := le hc.1
        have h2 := le hc.2
        change 97 ≤ c.toNat at h1
        change c.toNat ≤ 102 at h2
        exact ⟨by omega, key (by omega) h2 (by omega)⟩
      · cases h

theorem utf8_append (p q : Str) : utf8 (p ++ q) = utf8 p ++ utf8 q := List.flatMap_append

/-- the bytes determine the path -/
theorem utf8_inj {p q : Str} (h : utf8 p = utf8 q) : p = q := by
  have : p.utf8Encode = q.utf8Encode := congrArg List.toByteArray h
  exact String.ofList_injective (String.toByteArray_inj.mp (by simpa using this))

theorem encode_pos (c : Char) : 0 < (String.utf8EncodeChar c).length := by
  unfold String.utf8EncodeChar
  dsimp only
  split
  · simp
  · split
    · simp
    · split <;> simp

theorem unescape_percent {q : Str} (h : ¬ ∃ x y b, q = x :: y :: b ∧ hexValue x ≠ none ∧ hexValue y ≠ none) : unescape ('%' :: q) = 37 :: unescape q := by
  match q with
  | [] => rfl
  | [_] => rfl
  | x :: y :: b =>
    cases hx : hexValue x with
    | none => simp only [unescape, if_true, hx]; rfl
    | some m =>
      cases hy : hexValue y with
      | none => simp only [unescape, if_true, hx, hy]; rfl
      | some n => exact absurd ⟨x, y, b, rfl, by simp [hx], by simp [hy]⟩ h

theorem urlPath_cons (c : Char) (p : Str) : urlPath (c :: p) = (if UrlEscapes c then (String.utf8EncodeChar c).flatMap percentByte else [c]) ++ urlPath p := by
  unfold urlPath; rw [List.flatMap_cons]

theorem urlPath_head {x : Char} {p q : Str} (h : urlPath p = x :: q) (hx : hexValue x ≠ none) : ∃ p', p = x :: p' ∧ q = urlPath p' := by
  cases p with
  | nil => cases h
  | cons c p =>
    rw [urlPath_cons] at h
    split at h
    · have : ∃ b bs, String.utf8EncodeChar c = b :: bs := by
        have := encode_pos c
        cases hb : String.utf8EncodeChar c with
        | nil => rw [hb] at this; simp at this
        | cons b bs => exact ⟨b, bs, rfl⟩
      obtain ⟨b, bs, hb⟩ := this
      rw [hb, List.flatMap_cons] at h
      have : x = '%' := by
        simp only [percentByte, List.cons_append] at h
        exact (List.cons.inj h).1.symm
      rw [this] at hx
      exact absurd rfl hx
    · obtain ⟨e, h⟩ := List.cons.inj h
      exact ⟨p, by rw [e], h.symm⟩

theorem Spec.LooksEscaped.tail {c : Char} {p : Str} (h : LooksEscaped p) : LooksEscaped (c :: p) := by
  obtain ⟨a, x, y, b, e, hx, hy⟩ := h
  exact ⟨c :: a, x, y, b, by rw [e]; rfl, hx, hy⟩

/-- Escaped by the URL parser and decoded: the same, unless there is something like an escape in the path; then it is shorter. -/
theorem unescape_plain : ∀ p : Str, (¬ LooksEscaped p → unescape (urlPath p) = utf8 p) ∧ (unescape (urlPath p)).length ≤ (utf8 p).length ∧
    (LooksEscaped p → (unescape (urlPath p)).length < (utf8 p).length)
  | [] => ⟨fun _ => rfl, Nat.le_refl _, fun ⟨a, _, _, _, e, _⟩ => by cases a <;> cases e⟩
  | c :: p => by
    have ucons : utf8 (c :: p) = String.utf8EncodeChar c ++ utf8 p := by unfold utf8; rw [List.flatMap_cons]
    -- one character, then the rest
    have step : unescape (urlPath (c :: p)) = String.utf8EncodeChar c ++ unescape (urlPath p) →
        (∀ x y b, c :: p = '%' :: x :: y :: b → hexValue x ≠ none → hexValue y ≠ none → False) →
        (¬ LooksEscaped (c :: p) → unescape (urlPath (c :: p)) = utf8 (c :: p)) ∧ (unescape (urlPath (c :: p))).length ≤ (utf8 (c :: p)).length ∧
        (LooksEscaped (c :: p) → (unescape (urlPath (c :: p))).length < (utf8 (c :: p)).length) := by
      intro e hno
      obtain ⟨h1, h2, h3⟩ := unescape_plain p
      refine ⟨fun h => ?_, ?_, fun h => ?_⟩
      · rw [e, ucons, h1 fun h' => h h'.tail]
      · rw [e, ucons, List.length_append, List.length_append]; omega
      · have : LooksEscaped p := by
          obtain ⟨a, x, y, b, e, hx, hy⟩ := h
          cases a with
          | nil => exact absurd (hno x y b e hx hy) id
          | cons _ a => exact ⟨a, x, y, b, (List.cons.inj e).2, hx, hy⟩
        have := h3 this
        rw [e, ucons, List.length_append, List.length_append]; omega
    by_cases hc : c = '%'
    · subst hc
      have e0 : urlPath ('%' :: p) = '%' :: urlPath p := by rw [urlPath_cons, if_neg (by decide)]; rfl
      by_cases hh : ∃ x y b, p = x :: y :: b ∧ hexValue x ≠ none ∧ hexValue y ≠ none
      · obtain ⟨x, y, b, rfl, hx, hy⟩ := hh
        obtain ⟨m, hm⟩ := Option.ne_none_iff_exists'.mp hx
        obtain ⟨n, hn⟩ := Option.ne_none_iff_exists'.mp hy
        have ih := (unescape_plain b).2.1
        have e : unescape (urlPath ('%' :: x :: y :: b)) = UInt8.ofNat (16 * m + n) :: unescape (urlPath b) := by
          rw [e0, urlPath_cons, urlPath_cons, if_neg (hexValue_lt hm).2, if_neg (hexValue_lt hn).2]
          simp only [List.cons_append, List.nil_append, unescape, if_true, hm, hn]
        have hlen : (unescape (urlPath ('%' :: x :: y :: b))).length < (utf8 ('%' :: x :: y :: b)).length := by
          have k1 := encode_pos x
          have k2 := encode_pos y
          rw [e, ucons]
          unfold utf8 at ih ⊢
          rw [List.flatMap_cons, List.flatMap_cons, List.length_append, List.length_append, List.length_append]
          have : (String.utf8EncodeChar '%').length = 1 := rfl
          simp only [List.length_cons]
          omega
        exact ⟨fun h => absurd ⟨[], x, y, b, rfl, hx, hy⟩ h, Nat.le_of_lt hlen, fun _ => hlen⟩
      · refine step ?_ ?_
        · rw [e0, unescape_percent]
          · rfl
          · rintro ⟨x, y, b, e, hx, hy⟩
            obtain ⟨p', rfl, e'⟩ := urlPath_head e hx
            obtain ⟨p'', rfl, _⟩ := urlPath_head e'.symm hy
            exact hh ⟨x, y, p'', rfl, hx, hy⟩
        · intro x y b e hx hy
          exact hh ⟨x, y, b, (List.cons.inj e).2, hx, hy⟩
    · refine step ?_ ?_
      · rw [urlPath_cons]
        split
        · rw [unescape_bytes]
        · rw [List.singleton_append, unescape_other hc]
      · intro x y b e _ _
        exact hc (List.cons.inj e).1
termination_by p => p.length

theorem named_plain {env : Env} (hs : UrlStandard env) {p : Str} (hp : UrlSafe p) (h : ¬ LooksEscaped p) :
    ∃ u, env.urlParse (c!"file://" ++ p) = some u ∧ env.urlParse (c!"file:///" ++ p) = some u ∧ fileNamed u = some (utf8 p) := by
  obtain ⟨h1, h2⟩ := hs.path p hp
  refine ⟨_, h1, h2, ?_⟩
  rw [fileNamed_path, (unescape_plain p).1 h]

theorem named_cut {env : Env} (hs : UrlStandard env) {p front : Str} (hp : UrlSafe front) (hc : CutAt p front) :
    ∃ u b, env.urlParse (c!"file://" ++ p) = some u ∧ env.urlParse (c!"file:///" ++ p) = some u ∧ fileNamed u = some b ∧ b ≠ utf8 p ∧
      (¬ LooksEscaped front → b = utf8 front) := by
  obtain ⟨c, t, he, rfl⟩ := hc
  obtain ⟨t', h1, h2⟩ := hs.rest front c t hp he
  refine ⟨_, _, h1, h2, fileNamed_rest _ _ _ he, ?_, (unescape_plain front).1⟩
  intro e
  have h3 := congrArg List.length e
  have h4 := (unescape_plain front).2.1
  have h5 : 0 < (utf8 (c :: t)).length := by
    have := encode_pos c
    unfold utf8
    rw [List.flatMap_cons, List.length_append]
    omega
  rw [utf8_append, List.length_append] at h3
  omega

theorem named_escaped {env : Env} (hs : UrlStandard env) {p : Str} (hp : UrlSafe p) (h : LooksEscaped p) :
    ∃ u b, env.urlParse (c!"file://" ++ p) = some u ∧ env.urlParse (c!"file:///" ++ p) = some u ∧ fileNamed u = some b ∧ b ≠ utf8 p := by
  obtain ⟨h1, h2⟩ := hs.path p hp
  refine ⟨_, _, h1, h2, fileNamed_path p, fun e => ?_⟩
  have := (unescape_plain p).2.2 h
  rw [e] at this
  omega

/-! ### Goto-definition -/

/-- **C112** (goto-definition) With the cursor strictly inside the quotes of the name of an extends, include, from or import statement: the answer is a
URI that names the file found, when nothing in the path of that file would end the path of a URI or looks like an escape. -/
theorem C112_goto_partial (env : Env) (sx : Syntax) (w : World) (s : Server) (uri text : Str) (tree : Tree) (ss : List ImpStmt) (i : ImpStmt) (t : Tok)
    (pos : Position) (hu : UrlStandard env) (hx : fileExt uri = some .template) (hd : s.files.documents.get? uri = some text)
    (ht : (s.files.trees .template).get? uri = some tree) (hs : WellFormed (sx.root tree text)) (hl : Laid (sx.root tree text))
    (hk : (sx.root tree text).kind = .other) (hr : Refs sx.options (sx.root tree text).children ss) (hw : ImpStmt.Wf ss) (he : ExtrasAfter ss)
    (hi : i ∈ ss) (htn : t ∈ i.names) (h1 : t.start < toPoint pos) (h2 : toPoint pos < t.stop) (name target : Str)
    (hraw : Quoted t.text name) (hq : ∀ c ∈ name, c ≠ '"' ∧ c ≠ '\'')
    (hfile : w.canonicalize (pathPush s.files.config.templates name) = .ok target) (hsafe : UrlSafe target) (hpc : ¬ LooksEscaped target) :
    ∃ url, s.handle (env.over sx) w (.goto uri pos) = .ok (s, [], .goto (some (.scalar ⟨url, ⟨⟨0, 0⟩, ⟨0, 0⟩⟩⟩))) ∧ fileNamed url = some (utf8 target) := by
  obtain ⟨url, hurl, _, hn⟩ := named_plain hu hsafe hpc
  exact ⟨url, C84_goto env sx w s uri text tree ss i t pos hx hd ht hs hl hk hr hw he hi htn h1 h2 name target url hraw hq hfile hurl, hn⟩

/-- **C112** (goto-definition, refuted) Otherwise the answer names another file: what comes before the question mark or the number sign, or the path
decoded. -/
theorem C112_goto_refuted (env : Env) (sx : Syntax) (w : World) (s : Server) (uri text : Str) (tree : Tree) (ss : List ImpStmt) (i : ImpStmt) (t : Tok)
    (pos : Position) (hu : UrlStandard env) (hx : fileExt uri = some .template) (hd : s.files.documents.get? uri = some text)
    (ht : (s.files.trees .template).get? uri = some tree) (hs : WellFormed (sx.root tree text)) (hl : Laid (sx.root tree text))
    (hk : (sx.root tree text).kind = .other) (hr : Refs sx.options (sx.root tree text).children ss) (hw : ImpStmt.Wf ss) (he : ExtrasAfter ss)
    (hi : i ∈ ss) (htn : t ∈ i.names) (h1 : t.start < toPoint pos) (h2 : toPoint pos < t.stop) (name target : Str)
    (hraw : Quoted t.text name) (hq : ∀ c ∈ name, c ≠ '"' ∧ c ≠ '\'')
    (hfile : w.canonicalize (pathPush s.files.config.templates name) = .ok target)
    (hbad : (∃ front, UrlSafe front ∧ CutAt target front) ∨ (UrlSafe target ∧ LooksEscaped target)) :
    ∃ url b, s.handle (env.over sx) w (.goto uri pos) = .ok (s, [], .goto (some (.scalar ⟨url, ⟨⟨0, 0⟩, ⟨0, 0⟩⟩⟩))) ∧ fileNamed url = some b ∧
      b ≠ utf8 target ∧ ∀ front, UrlSafe front → ¬ LooksEscaped front → CutAt target front → b = utf8 front := by
  have go := C84_goto env sx w s uri text tree ss i t pos hx hd ht hs hl hk hr hw he hi htn h1 h2 name target
  rcases hbad with ⟨front, hf, hc⟩ | ⟨hs', hl'⟩
  · obtain ⟨url, b, hurl, _, hn, hne, _⟩ := named_cut hu hf hc
    refine ⟨url, _, go url hraw hq hfile hurl, hn, hne, ?_⟩
    intro front' hf' hp' hc'
    obtain ⟨url', b', hurl', _, hn', _, hb'⟩ := named_cut hu hf' hc'
    rw [hurl] at hurl'
    cases hurl'
    rw [hn] at hn'
    exact (Option.some.inj hn').trans (hb' hp')
  · obtain ⟨url, b, hurl, _, hn, hne⟩ := named_escaped hu hs' hl'
    refine ⟨url, b, go url hraw hq hfile hurl, hn, hne, ?_⟩
    intro front' hf' hp' hc'
    obtain ⟨c, _, hc, e⟩ := hc'
    exact absurd hc (hs'.chars c (by rw [e]; simp)).2.2.2

/-- **C112** (definitions in other files) The place in another file where a name is defined is in that file: unless it is the start of the file, where
templates stand that backend files refer to by name. -/
theorem C112_place_partial (env : Env) (name : Str) (v : Identifier) (hu : UrlStandard env) (hsafe : UrlSafe name) (hpc : ¬ LooksEscaped name)
    (hv : ¬ (v.start = ⟨0, 0⟩ ∧ v.stop = ⟨0, 0⟩)) : fileNamed (placeOf env (c!"file://" ++ name) v).uri = some (utf8 name) := by
  obtain ⟨url, hurl, _, hn⟩ := named_plain hu hsafe hpc
  unfold placeOf targetOf
  rw [if_neg hv, hurl]
  exact hn

/-! ### The quick fix -/

/-- **C112** (quick fix) The file that a code action offers to create is the missing template: its path is that of the templates directory followed by
the name that is reported, when nothing in it would end the path of a URI or looks like an escape. -/
theorem C112_fix_partial (env : Env) (w : World) (s s' : Server) (uri : Str) (pos : Position) (out : List Send) (items : List CodeActionItem)
    (title u : Str) (overwrite ignoreIfExists : Bool) (hu : UrlStandard env)
    (h : s.handle env w (.codeAction uri pos) = .ok (s', out, .codeAction (some items)))
    (hi : .createFile title u overwrite ignoreIfExists ∈ items)
    (hsafe : ∀ acts i dir, s.files.codeActions.get? uri = some acts → i ∈ acts → w.canonicalize s.files.config.templates = .ok dir →
      UrlSafe (lookupPath dir i.name) ∧ ¬ LooksEscaped (lookupPath dir i.name)) :
    ∃ acts i dir, s.files.codeActions.get? uri = some acts ∧ i ∈ acts ∧ (i.start ≤ toPoint pos ∧ toPoint pos ≤ i.stop) ∧
      w.canonicalize s.files.config.templates = .ok dir ∧ fileNamed u = some (utf8 (lookupPath dir i.name)) := by
  obtain ⟨_, _, _, acts, i, dir, path, ha, hmem, hpos, hdir, hurl, rfl, _⟩ := C47_created env w s s' uri pos out items title u overwrite ignoreIfExists h hi
  obtain ⟨a, b⟩ := hsafe acts i dir ha hmem hdir
  obtain ⟨u', _, h2, hn⟩ := named_plain hu a b
  rw [h2] at hurl
  cases hurl
  exact ⟨acts, i, dir, ha, hmem, hpos, hdir, hn⟩

/-- **C112** (quick fix, refuted) When the name of the missing template has a question mark, a number sign or something like an escape in it, the file
that is created is another one. -/
theorem C112_fix_refuted (env : Env) (w : World) (s s' : Server) (uri : Str) (pos : Position) (out : List Send) (items : List CodeActionItem)
    (title u name dir : Str) (overwrite ignoreIfExists : Bool) (acts : List Identifier) (hu : UrlStandard env)
    (h : s.handle env w (.codeAction uri pos) = .ok (s', out, .codeAction (some items)))
    (hi : .createFile title u overwrite ignoreIfExists ∈ items) (ha : s.files.codeActions.get? uri = some acts)
    (hname : ∀ i ∈ acts, i.start ≤ toPoint pos ∧ toPoint pos ≤ i.stop → i.name = name) (hdir : w.canonicalize s.files.config.templates = .ok dir)
    (hbad : (∃ front, UrlSafe front ∧ CutAt (lookupPath dir name) front) ∨
      (UrlSafe (lookupPath dir name) ∧ LooksEscaped (lookupPath dir name))) :
    ∃ b, fileNamed u = some b ∧ b ≠ utf8 (lookupPath dir name) := by
  obtain ⟨_, _, _, acts', i, dir', path, ha', hmem, hpos, hdir', hurl, rfl, _⟩ := C47_created env w s s' uri pos out items title u overwrite ignoreIfExists h hi
  rw [ha] at ha'
  cases ha'
  rw [hdir] at hdir'
  cases hdir'
  rw [hname i hmem hpos] at hurl
  rcases hbad with ⟨front, hf, hc⟩ | ⟨hs', hl'⟩
  · obtain ⟨u', b, _, h2, hn, hne, _⟩ := named_cut hu hf hc
    rw [h2] at hurl
    cases hurl
    exact ⟨_, hn, hne⟩
  · obtain ⟨u', b, _, h2, hn, hne⟩ := named_escaped hu hs' hl'
    rw [h2] at hurl
    cases hurl
    exact ⟨_, hn, hne⟩

namespace Spec

/-- the file that the URI names is there -/
def Created (w : World) (u : Str) : Prop := ∀ p, fileNamed u = some (utf8 p) → ∃ c, w.canonicalize p = .ok c

/-- the directory is looked up under its own canonical path as under its name -/
def SameDirectory (w : World) (templates dir : Str) : Prop := ∀ n c, w.canonicalize (lookupPath dir n) = .ok c → w.canonicalize (lookupPath templates n) = .ok c

end Spec

/-- **C112** (quick fix, then analysis) Once the client has created the file that the code action offers, no analysis reports that name any more: under
the same condition on the path. -/
theorem C112_created_partial (env : Env) (w w' : World) (s s' : Server) (uri : Str) (pos : Position) (out : List Send) (items : List CodeActionItem)
    (title u name dir : Str) (overwrite ignoreIfExists : Bool) (acts : List Identifier) (hu : UrlStandard env)
    (h : s.handle env w (.codeAction uri pos) = .ok (s', out, .codeAction (some items)))
    (hi : .createFile title u overwrite ignoreIfExists ∈ items) (ha : s.files.codeActions.get? uri = some acts)
    (hname : ∀ i ∈ acts, i.start ≤ toPoint pos ∧ toPoint pos ≤ i.stop → i.name = name) (hdir : w.canonicalize s.files.config.templates = .ok dir)
    (hsafe : UrlSafe (lookupPath dir name)) (hpc : ¬ LooksEscaped (lookupPath dir name)) (hne : name ≠ [])
    (hcr : Created w' u) (hsame : SameDirectory w' s.files.config.templates dir)
    (t t' : Server) (m : Msg) (uri' : Str) (out' : List Send) (r' : Reply) (ds : Diags) (text : Str) (tree : Tree) (ss : List ImpStmt)
    (hconf : t.files.config = s.files.config) (hm : m.Analyses uri') (he : fileExt uri' = some .template) (h' : t.handle env w' m = .ok (t', out', r'))
    (hd : t'.files.documents.get? uri' = some text) (ht : (t'.files.trees .template).get? uri' = some tree)
    (hv : ∃ vars, t'.files.variables.get? uri' = some vars) (hss : ImpStmt.Wf ss)
    (hc : (env.queryMatches .jinjaImports tree text).flatten = ss.flatMap ImpStmt.caps) (ho : out' = [.diag (HMap.empty.insert uri' ds)]) :
    ∀ d ∈ missingDiags ds, d.name ≠ name := by
  obtain ⟨_, _, _, acts', i, dir', path, ha', hmem, hpos, hdir', hurl, rfl, _⟩ := C47_created env w s s' uri pos out items title u overwrite ignoreIfExists h hi
  rw [ha] at ha'
  cases ha'
  rw [hdir] at hdir'
  cases hdir'
  rw [hname i hmem hpos] at hurl
  obtain ⟨u', _, h2, hn⟩ := named_plain hu hsafe hpc
  rw [h2] at hurl
  cases hurl
  obtain ⟨c, hcan⟩ := hcr _ hn
  exact not_missing hm he h' hd ht hv hss hc ho hne (by rw [hconf]; exact hsame _ _ hcan)

/-! ### Published diagnostics -/

theorem readTreesLoop_keys {env : Env} {w : World} {f : LspFiles} : ∀ (ns : List Str) (m d : HMap Str Diags), f.readTreesLoop env w ns m = .ok d →
    ∀ u, d.get? u ≠ none → u ∈ ns ∨ m.get? u ≠ none
  | [], m, d, h => by
    simp only [LspFiles.readTreesLoop] at h
    cases h
    exact fun u hu => .inr hu
  | n :: ns, m, d, h => by
    simp only [LspFiles.readTreesLoop] at h
    split at h
    · cases h
    · intro u hu
      rcases readTreesLoop_keys ns m d h u hu with hn | hn
      · exact .inl (by simp [hn])
      · exact .inr hn
    · intro u hu
      rcases readTreesLoop_keys ns _ d h u hu with hn | hn
      · exact .inl (by simp [hn])
      · rw [HMap.get?_insert] at hn
        split at hn
        · rename_i e; exact .inl (by simp [e])
        · exact .inr hn

theorem initialized_published {env : Env} {w : World} {s s' : Server} {d : HMap Str Diags} {r : Reply}
    (h : s.handle env w .initialized = .ok (s', [.diag d], r)) : ∀ u, d.get? u ≠ none → OnDisk w u := by
  have hk := (initialized_known h (by simp)).1
  obtain ⟨f, d', _, hd, ho, _, rfl⟩ := initialized_inv h (by simp)
  cases ho
  intro u hu
  refine hk u ?_
  rcases readTreesLoop_keys _ _ _ hd u hu with hn | hn
  · obtain ⟨⟨k, t⟩, he, rfl⟩ := List.mem_map.mp hn
    exact ⟨t, (HMap.get?_eq_some_iff ..).mpr ((HMap.mem_shuffle ..).mp he)⟩
  · exact absurd rfl hn

/-- **C112** (diagnostics) After the workspace has been read, each list of diagnostics is published for a URI that names the file it is about – a file on
disk – and each file with a result gets its list: when nothing in the paths would end the path of a URI or looks like an escape. -/
theorem C112_published_partial (env : Env) (w : World) (s s' : Server) (d : HMap Str Diags) (r : Reply) (o : HashOrder) (hu : UrlStandard env)
    (h : s.handle env w .initialized = .ok (s', [.diag d], r))
    (hsafe : ∀ path name, w.canonicalize path = .ok name → d.get? (c!"file://" ++ name) ≠ none → UrlSafe name ∧ ¬ LooksEscaped name) :
    ∃ pubs ca, diagProcess env o d = .ok (pubs, ca) ∧
      (∀ x ∈ pubs, ∃ path name ds, w.canonicalize path = .ok name ∧ fileNamed x.1 = some (utf8 name) ∧
        d.get? (c!"file://" ++ name) = some ds ∧ x.2 = toDiagnostics ds) ∧
      ∀ k ds, d.get? k = some ds → ∃ x ∈ pubs, ∃ path name, w.canonicalize path = .ok name ∧ k = c!"file://" ++ name ∧
        fileNamed x.1 = some (utf8 name) ∧ x.2 = toDiagnostics ds := by
  have hkey : ∀ e ∈ o.shuffle 9 d.entries, ∃ path name u, w.canonicalize path = .ok name ∧ e.1 = c!"file://" ++ name ∧
      d.get? (c!"file://" ++ name) = some e.2 ∧ env.urlParse e.1 = some u ∧ fileNamed u = some (utf8 name) := by
    intro e he
    have hg : d.get? e.1 = some e.2 := (HMap.get?_eq_some_iff ..).mpr ((HMap.mem_shuffle ..).mp he)
    obtain ⟨path, name, hn, e1⟩ := initialized_published h e.1 (by rw [hg]; simp)
    rw [e1] at hg
    obtain ⟨a, b⟩ := hsafe path name hn (by rw [hg]; simp)
    obtain ⟨u, h1, _, h2⟩ := named_plain hu a b
    exact ⟨path, name, u, hn, e1, hg, by rw [e1]; exact h1, h2⟩
  obtain ⟨ca, hl⟩ := diagLoop_ok env (o.shuffle 9 d.entries) HMap.empty (fun e he => by
    obtain ⟨_, _, u, _, _, _, hu, _⟩ := hkey e he
    rw [hu]; simp)
  refine ⟨_, ca, hl, ?_, ?_⟩
  · intro x hx
    obtain ⟨e, he, rfl⟩ := List.mem_map.mp hx
    obtain ⟨path, name, u, hn, _, hg, hu, hf⟩ := hkey e he
    exact ⟨path, name, e.2, hn, by simpa only [hu, Option.getD_some] using hf, hg, rfl⟩
  · intro k ds hk
    have he : (k, ds) ∈ o.shuffle 9 d.entries := (HMap.mem_shuffle ..).mpr ((HMap.get?_eq_some_iff ..).mp hk)
    obtain ⟨path, name, u, hn, e1, _, hu, hf⟩ := hkey _ he
    exact ⟨_, List.mem_map_of_mem he, path, name, hn, e1, by simpa only [hu, Option.getD_some] using hf, rfl⟩

/-- **C112** (diagnostics, refuted) The list of a file whose path has a question mark or a number sign in it, or looks escaped, is published for another
file. -/
theorem C112_published_refuted (env : Env) (o : HashOrder) (d : HMap Str Diags) (name : Str) (ds : Diags) (hu : UrlStandard env)
    (hd : d.get? (c!"file://" ++ name) = some ds) (hurl : ∀ k v, d.get? k = some v → env.urlParse k ≠ none)
    (hbad : (∃ front, UrlSafe front ∧ CutAt name front) ∨ (UrlSafe name ∧ LooksEscaped name)) :
    ∃ pubs ca u b, diagProcess env o d = .ok (pubs, ca) ∧ (u, toDiagnostics ds) ∈ pubs ∧ fileNamed u = some b ∧ b ≠ utf8 name := by
  obtain ⟨u, b, h1, h2, h3⟩ : ∃ u b, env.urlParse (c!"file://" ++ name) = some u ∧ fileNamed u = some b ∧ b ≠ utf8 name := by
    rcases hbad with ⟨front, hf, hc⟩ | ⟨hs', hl'⟩
    · obtain ⟨u, b, h1, _, h2, h3, _⟩ := named_cut hu hf hc
      exact ⟨u, _, h1, h2, h3⟩
    · obtain ⟨u, b, h1, _, h2, h3⟩ := named_escaped hu hs' hl'
      exact ⟨u, b, h1, h2, h3⟩
  obtain ⟨ca, hl⟩ := diagLoop_ok env (o.shuffle 9 d.entries) HMap.empty (fun e he =>
    hurl _ _ ((HMap.get?_eq_some_iff ..).mpr ((HMap.mem_shuffle ..).mp he)))
  refine ⟨_, ca, u, b, hl, List.mem_map.mpr ⟨(c!"file://" ++ name, ds), (HMap.mem_shuffle ..).mpr ((HMap.get?_eq_some_iff ..).mp hd), ?_⟩, h2, h3⟩
  simp only [h1, Option.getD_some]

/-! ### Examples -/

namespace Fix

theorem not_escaped {p : Str} (h : (utf8 p).length ≤ (unescape (urlPath p)).length) : ¬ LooksEscaped p := by
  intro he
  have := (unescape_plain p).2.2 he
  omega

/-- a URL parser like the one of the server, for URLs of files -/
def stdUrl (s : Str) : Option Str :=
  if (c!"file://").isPrefixOf s then
    let body := (s.drop 7).dropWhile (· = '/')
    some (c!"file://" ++ urlPath ('/' :: body.takeWhile fun c => decide (¬ EndsPath c)) ++ body.dropWhile fun c => decide (¬ EndsPath c))
  else none

theorem dropWhile_safe : ∀ (r t : Str), (∀ c ∈ r, ¬ EndsPath c) → (r ++ t).dropWhile (fun c => decide (¬ EndsPath c)) = t.dropWhile fun c => decide (¬ EndsPath c)
  | [], _, _ => rfl
  | c :: r, t, h => by
    rw [List.cons_append, List.dropWhile_cons, if_pos (by simpa using h c (by simp))]
    exact dropWhile_safe r t fun c hc => h c (by simp [hc])

theorem stdUrl_body {p t x : Str} (hp : UrlSafe p) (hx : x = c!"file://" ++ (p ++ t) ∨ x = c!"file:///" ++ (p ++ t)) :
    stdUrl x = some (c!"file://" ++ urlPath (p ++ t.takeWhile fun c => decide (¬ EndsPath c)) ++ t.dropWhile fun c => decide (¬ EndsPath c)) := by
  obtain ⟨⟨c, r, rfl, hc⟩, hch, _, _⟩ := hp
  have hends : ∀ x ∈ c :: r, ¬ EndsPath x := fun x hx => (hch x (List.mem_cons_of_mem _ hx)).2.2.2
  have h1 : (c!"file://").isPrefixOf x = true := by
    apply List.isPrefixOf_iff_prefix.mpr
    rcases hx with rfl | rfl
    · exact List.prefix_append _ _
    · exact ⟨'/' :: ('/' :: c :: r ++ t), rfl⟩
  have h2 : (x.drop 7).dropWhile (fun c => decide (c = '/')) = (c :: r) ++ t := by
    have : ((c :: r) ++ t).dropWhile (fun c => decide (c = '/')) = (c :: r) ++ t := by
      rw [List.cons_append, List.dropWhile_cons, if_neg (by simpa using hc)]
    rcases hx with rfl | rfl
    · exact this
    · exact this
  unfold stdUrl
  rw [h1, if_pos rfl]
  simp only [h2]
  rw [takeWhile_front _ _ (fun x hx => by simpa using hends x hx), dropWhile_safe _ _ hends]
  rfl

theorem std_url (env : Env) : UrlStandard { env with urlParse := stdUrl } := by
  refine ⟨fun p hp => ?_, fun p c t hp hc => ⟨t, ?_⟩⟩
  · have := fun x => stdUrl_body (t := []) (x := x) hp
    simp only [List.append_nil, List.takeWhile_nil, List.dropWhile_nil] at this
    exact ⟨this _ (.inl rfl), this _ (.inr rfl)⟩
  · have := fun x => stdUrl_body (t := c :: t) (x := x) hp
    simp only [List.takeWhile_cons, List.dropWhile_cons, decide_not, decide_eq_true hc, Bool.not_true, Bool.false_eq_true, if_false, List.append_nil] at this
    exact ⟨this _ (.inl rfl), this _ (.inr rfl)⟩

end Fix

namespace Fix

/-- the templates directory is `/p/templates`; the files that are there are `x.html` and those of `created` -/
def addrWorld (created : List Str) : World where
  canonicalize p :=
    if p = c!"./templates" then .ok c!"/p/templates"
    else if p = c!"./templates/x.html" ∨ p = c!"/p/templates/x.html" then .ok c!"/p/templates/x.html"
    else match created.find? fun n => p = c!"./templates/" ++ n ∨ p = c!"/p/templates/" ++ n with
      | some n => .ok (c!"/p/templates/" ++ n)
      | none => .error .notFound
  readFile p := if p = c!"./templates/x.html" ∨ p = c!"/p/templates/x.html" then some inText else none
  walk d := if d = c!"./templates" then [.file c!"./templates/x.html"] else []
  order := HashOrder.id

def addrEnv : Env := { shelfEnv with urlParse := stdUrl }

/-- `x.html` refers to a missing template -/
def addrServer (name : Str) : Server :=
  let s := inServer c!"./templates" [] false
  { s with files := { s.files with codeActions := HMap.empty.insert inUri [Identifier.new name ⟨0, 11⟩ ⟨0, 21⟩] } }

theorem addr_url : UrlStandard addrEnv := std_url shelfEnv

theorem addr_new : UrlSafe c!"/p/templates/new.html" ∧ ¬ LooksEscaped c!"/p/templates/new.html" :=
  ⟨⟨⟨_, _, rfl, by decide⟩, by decide, by decide, by decide⟩, not_escaped (by decide)⟩

theorem addr_created : SameDirectory (addrWorld [c!"new.html"]) c!"./templates" c!"/p/templates" := by
  have key : ∀ n, (addrWorld [c!"new.html"]).canonicalize (c!"./templates/" ++ n) = (addrWorld [c!"new.html"]).canonicalize (c!"/p/templates/" ++ n) := by
    intro n
    simp only [addrWorld, List.find?_cons, List.find?_nil]
    by_cases h1 : n = c!"x.html"
    · rw [h1]; rfl
    · by_cases h2 : n = c!"new.html"
      · rw [h2]; rfl
      · simp [h1, h2]
  intro n c h
  exact (key _).trans h

end Fix

/-- the file that is offered for `new.html` is `/p/templates/new.html`, … -/
example : ∃ s' u, (Fix.addrServer c!"new.html").handle Fix.addrEnv (Fix.addrWorld []) (.codeAction Fix.inUri ⟨0, 13⟩) =
      .ok (s', [], .codeAction (some [.createFile c!"Generate new template" u false true])) ∧ fileNamed u = some (utf8 c!"/p/templates/new.html") := by
  have h : ∃ s' u, (Fix.addrServer c!"new.html").handle Fix.addrEnv (Fix.addrWorld []) (.codeAction Fix.inUri ⟨0, 13⟩) =
      .ok (s', [], .codeAction (some [.createFile c!"Generate new template" u false true])) := ⟨_, _, rfl⟩
  obtain ⟨s', u, h⟩ := h
  obtain ⟨acts, i, dir, h1, h2, _, h4, h5⟩ := C112_fix_partial _ _ _ _ _ _ _ _ _ _ _ _ Fix.addr_url h (List.mem_singleton.mpr rfl) (by
    intro acts i dir ha hi hd
    cases ha
    cases List.mem_singleton.mp hi
    cases hd
    exact Fix.addr_new)
  cases h1
  cases List.mem_singleton.mp h2
  cases h4
  exact ⟨s', u, h, h5⟩

/-- … and once it is there, `{% include "new.html" %}` is not reported any more, … -/
example : ∃ s' u t' ds, (Fix.addrServer c!"new.html").handle Fix.addrEnv (Fix.addrWorld []) (.codeAction Fix.inUri ⟨0, 13⟩) =
      .ok (s', [], .codeAction (some [.createFile c!"Generate new template" u false true])) ∧ Created (Fix.addrWorld [c!"new.html"]) u ∧
    s'.handle Fix.addrEnv (Fix.addrWorld [c!"new.html"]) (.didOpen Fix.inUri Fix.shelfText) = .ok (t', [.diag (HMap.empty.insert Fix.inUri ds)], .none) ∧
    ∀ d ∈ missingDiags ds, d.name ≠ c!"new.html" := by
  have h : ∃ s' u, (Fix.addrServer c!"new.html").handle Fix.addrEnv (Fix.addrWorld []) (.codeAction Fix.inUri ⟨0, 13⟩) =
      .ok (s', [], .codeAction (some [.createFile c!"Generate new template" u false true])) ∧ u = c!"file://" ++ urlPath c!"/p/templates/new.html" ∧
      ∃ t' ds, s'.handle Fix.addrEnv (Fix.addrWorld [c!"new.html"]) (.didOpen Fix.inUri Fix.shelfText) =
        .ok (t', [.diag (HMap.empty.insert Fix.inUri ds)], .none) ∧ s'.files.config = (Fix.addrServer c!"new.html").files.config ∧
        t'.files.documents.get? Fix.inUri = some Fix.shelfText ∧ (∃ vars, t'.files.variables.get? Fix.inUri = some vars) ∧
        ∃ tree, (t'.files.trees .template).get? Fix.inUri = some tree :=
    ⟨_, _, rfl, rfl, _, _, rfl, rfl, rfl, ⟨_, rfl⟩, _, rfl⟩
  obtain ⟨s', u, h, hu, t', ds, h', hc, hd, hv, tree, ht⟩ := h
  have hcr : Created (Fix.addrWorld [c!"new.html"]) u := by
    intro p hp
    rw [hu, fileNamed_path, (unescape_plain _).1 Fix.addr_new.2] at hp
    have hp := Option.some.inj hp
    rw [← utf8_inj hp]
    exact ⟨_, rfl⟩
  refine ⟨s', u, t', ds, h, hcr, h', ?_⟩
  exact C112_created_partial _ _ _ _ _ _ _ _ _ _ _ c!"new.html" _ _ _ _ Fix.addr_url h (List.mem_singleton.mpr rfl) rfl
    (by intro i hi _; cases List.mem_singleton.mp hi; rfl) rfl Fix.addr_new.1 Fix.addr_new.2 (by decide) hcr Fix.addr_created
    _ _ _ _ _ _ _ _ _ [Fix.shelfStmt] hc (.opened _) (by decide) h' hd ht hv ⟨by decide, by decide, by decide⟩ (by rfl) rfl

/-- … but for `a?b.html` it is `/p/templates/a`. -/
example : ∃ s' u b, (Fix.addrServer c!"a?b.html").handle Fix.addrEnv (Fix.addrWorld []) (.codeAction Fix.inUri ⟨0, 13⟩) =
      .ok (s', [], .codeAction (some [.createFile c!"Generate new template" u false true])) ∧ fileNamed u = some b ∧
    b ≠ utf8 c!"/p/templates/a?b.html" := by
  have h : ∃ s' u, (Fix.addrServer c!"a?b.html").handle Fix.addrEnv (Fix.addrWorld []) (.codeAction Fix.inUri ⟨0, 13⟩) =
      .ok (s', [], .codeAction (some [.createFile c!"Generate new template" u false true])) := ⟨_, _, rfl⟩
  obtain ⟨s', u, h⟩ := h
  obtain ⟨b, h1, h2⟩ := C112_fix_refuted _ _ _ _ _ _ _ _ _ u c!"a?b.html" c!"/p/templates" _ _ _ Fix.addr_url h (List.mem_singleton.mpr rfl) rfl
    (by intro i hi _; cases List.mem_singleton.mp hi; rfl) rfl
    (.inl ⟨c!"/p/templates/a", ⟨⟨_, _, rfl, by decide⟩, by decide, by decide, by decide⟩, '?', c!"b.html", .inl rfl, rfl⟩)
  exact ⟨s', u, b, h, h1, h2⟩

/-- a path that looks escaped, and one with a percent sign that does not -/
example : UrlSafe c!"/p/templates/100%25.html" ∧ LooksEscaped c!"/p/templates/100%25.html" ∧ UrlSafe c!"/p/templates/100%.html" ∧
    ¬ LooksEscaped c!"/p/templates/100%.html" :=
  ⟨⟨⟨_, _, rfl, by decide⟩, by decide, by decide, by decide⟩, ⟨c!"/p/templates/100", '2', '5', c!".html", rfl, by decide, by decide⟩,
    ⟨⟨_, _, rfl, by decide⟩, by decide, by decide, by decide⟩, Fix.not_escaped (by decide)⟩

/-- reading the workspace: `x.html` is published for `/p/templates/x.html` -/
example : ∃ s' d r pubs ca, Fix.shelfServer.handle Fix.addrEnv (Fix.addrWorld []) .initialized = .ok (s', [.diag d], r) ∧
    diagProcess Fix.addrEnv HashOrder.id d = .ok (pubs, ca) ∧ pubs.map (fun x => fileNamed x.1) = [some (utf8 c!"/p/templates/x.html")] := by
  have h : ∃ s' d r ds, Fix.shelfServer.handle Fix.addrEnv (Fix.addrWorld []) .initialized = .ok (s', [.diag d], r) ∧ d = HMap.empty.insert Fix.inUri ds :=
    ⟨_, _, _, _, rfl, rfl⟩
  obtain ⟨s', d, r, ds, h, rfl⟩ := h
  obtain ⟨pubs, ca, h1, h2, h3⟩ := C112_published_partial _ _ _ _ _ _ HashOrder.id Fix.addr_url h (by
    intro path name _ hn
    rw [HMap.get?_insert] at hn
    split at hn
    · rename_i e
      have : name = c!"/p/templates/x.html" := List.append_cancel_left e
      rw [this]
      exact ⟨⟨⟨_, _, rfl, by decide⟩, by decide, by decide, by decide⟩, Fix.not_escaped (by decide)⟩
    · exact absurd rfl hn)
  refine ⟨s', _, r, pubs, ca, h, h1, ?_⟩
  cases h1
  rfl

/-- the same with a number sign: the list is published for `/p/templates/c` -/
example : ∃ pubs ca u b, diagProcess Fix.addrEnv HashOrder.id (HMap.empty.insert c!"file:///p/templates/c#.html" []) = .ok (pubs, ca) ∧
    (u, toDiagnostics []) ∈ pubs ∧ fileNamed u = some b ∧ b ≠ utf8 c!"/p/templates/c#.html" :=
  C112_published_refuted Fix.addrEnv HashOrder.id _ c!"/p/templates/c#.html" [] Fix.addr_url (HMap.get?_insert_self ..) (by
    intro k v hk
    rw [HMap.get?_insert] at hk
    split at hk
    · rename_i e
      rw [e]
      exact Option.ne_none_iff_exists'.mpr ⟨_, rfl⟩
    · cases hk)
    (.inl ⟨c!"/p/templates/c", ⟨⟨_, _, rfl, by decide⟩, by decide, by decide, by decide⟩, '#', c!".html", .inr rfl, rfl⟩)

/-- the hypotheses on goto-definition (those on the document are as in C84): what is found is `/p/templates/x.html`, or has a question mark in it -/
example : UrlSafe c!"/p/templates/x.html" ∧ ¬ LooksEscaped c!"/p/templates/x.html" ∧
    (∃ front, UrlSafe front ∧ CutAt c!"/p/templates/a?b.html" front) ∧
    ¬ ((Identifier.new c!"a" ⟨0, 3⟩ ⟨0, 4⟩).start = ⟨0, 0⟩ ∧ (Identifier.new c!"a" ⟨0, 3⟩ ⟨0, 4⟩).stop = ⟨0, 0⟩) :=
  ⟨⟨⟨_, _, rfl, by decide⟩, by decide, by decide, by decide⟩, Fix.not_escaped (by decide),
    ⟨c!"/p/templates/a", ⟨⟨_, _, rfl, by decide⟩, by decide, by decide, by decide⟩, '?', c!"b.html", .inl rfl, rfl⟩, by decide⟩

end JinjaLsp
