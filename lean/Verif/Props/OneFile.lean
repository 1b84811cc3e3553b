import Verif.Props.Others
import Verif.Props.Startup
import Verif.Props.References
import Verif.Props.InStep
/-
  C109: a file is one document.
-/

namespace JinjaLsp
open Spec

namespace Spec

/-- characters that stand for themselves in every URI (RFC 3986, 2.3), and the slash -/
def PathPlain (c : Char) : Prop := c.isAlphanum = true ∨ c ∈ ['-', '.', '_', '~', '/']

/-- characters that may stand for themselves in the path of a URI (RFC 3986, 3.3) -/
def PathAllowed (c : Char) : Prop := PathPlain c ∨ c ∈ ['!', '$', '&', '\'', '(', ')', '*', '+', ',', ';', '=', ':', '@']

/-- a hexadecimal digit -/
def hexDigit (n : Nat) : Char := ['0', '1', '2', '3', '4', '5', '6', '7', '8', '9', 'A', 'B', 'C', 'D', 'E', 'F'].getD n '0'

/-- a byte as `%XX` -/
def percentByte (b : UInt8) : Str := ['%', hexDigit (b.toNat / 16), hexDigit (b.toNat % 16)]

/-- a path as it is written in a URI: which of the allowed characters are escaped is up to the client -/
inductive Escaped : Str → Str → Prop where
  | nil : Escaped [] []
  | plain {c : Char} {p q : Str} (h : PathAllowed c) : Escaped p q → Escaped (c :: p) (c :: q)
  | escaped {c : Char} {p q : Str} (h : ¬ PathPlain c) : Escaped p q → Escaped (c :: p) ((String.utf8EncodeChar c).flatMap percentByte ++ q)

/-- the URI by which a client names the file of that absolute path -/
def NamesFile (path uri : Str) : Prop := ∃ q, Escaped path q ∧ uri = c!"file://" ++ q

/-- a message of a client that writes URIs as it should, and which does not make the server read the workspace again -/
def ByUri : Msg → Prop
  | .didOpen u _ | .didChange u _ | .didSave u => ∃ path, NamesFile path u
  | .initialized => False
  | _ => True

end Spec

/-! ### URIs -/

theorem escaped_plain {p q : Str} (h : Escaped p q) (hp : ∀ c ∈ p, PathPlain c) : q = p := by
  induction h with
  | nil => rfl
  | plain _ _ ih => rw [ih fun c hc => hp c (by simp [hc])]
  | escaped h _ _ => exact absurd (hp _ (by simp)) h

theorem hexDigit_plain (n : Nat) : PathPlain (hexDigit n) := by
  unfold hexDigit PathPlain
  rw [List.getD_eq_getElem?_getD]
  by_cases h : n < 16
  · left
    have : ∀ n, n < 16 → ((['0', '1', '2', '3', '4', '5', '6', '7', '8', '9', 'A', 'B', 'C', 'D', 'E', 'F'] : List Char)[n]?.getD '0').isAlphanum = true := by
      decide
    exact this n h
  · left
    rw [List.getElem?_eq_none (by simp; omega)]
    decide

theorem escaped_chars {p q : Str} (h : Escaped p q) : ∀ c ∈ q, PathAllowed c ∨ c = '%' := by
  induction h with
  | nil => simp
  | plain h _ ih =>
    intro c hc
    rcases List.mem_cons.mp hc with rfl | hc
    · exact .inl h
    · exact ih c hc
  | escaped _ _ ih =>
    intro c hc
    rcases List.mem_append.mp hc with hc | hc
    · obtain ⟨b, _, hc⟩ := List.mem_flatMap.mp hc
      simp only [percentByte, List.mem_cons, List.not_mem_nil, or_false] at hc
      rcases hc with rfl | rfl | rfl
      · exact .inr rfl
      · exact .inl (.inl (hexDigit_plain _))
      · exact .inl (.inl (hexDigit_plain _))
    · exact ih c hc

/-- a URI does not contain what has to be escaped -/
theorem namesFile_ne {path p u : Str} {c : Char} (h : NamesFile path u) (hc : c ∈ p) (ha : ¬ PathAllowed c) (h1 : c ≠ '%') : u ≠ c!"file://" ++ p := by
  obtain ⟨q, hq, rfl⟩ := h
  intro e
  have := List.append_cancel_left e
  rw [this] at hq
  rcases escaped_chars hq c hc with h | h
  · exact ha h
  · exact h1 h

/-! ### What messages leave alone -/

theorem byUri_step {env : Env} {w : World} {s s' : Server} {m : Msg} {out : List Send} {r : Reply} {p : Str} {c : Char} (hm : ByUri m) (hc : c ∈ p)
    (ha : ¬ PathAllowed c) (h1 : c ≠ '%') (h : s.handle env w m = .ok (s', out, r)) :
    s'.files.documents.get? (c!"file://" ++ p) = s.files.documents.get? (c!"file://" ++ p) ∧
      s'.files.variables.get? (c!"file://" ++ p) = s.files.variables.get? (c!"file://" ++ p) := by
  have frame : ∀ {u}, (∃ path, NamesFile path u) → Frame u s.files s'.files →
      s'.files.documents.get? (c!"file://" ++ p) = s.files.documents.get? (c!"file://" ++ p) ∧
      s'.files.variables.get? (c!"file://" ++ p) = s.files.variables.get? (c!"file://" ++ p) := by
    rintro u ⟨path, hu⟩ hf
    have := hf.same (c!"file://" ++ p) (Ne.symm (namesFile_ne hu hc ha h1))
    exact ⟨this.doc, this.vars⟩
  cases handle_files h with
  | query _ hf => rw [hf]; exact ⟨rfl, rfl⟩
  | command _ hf => rw [hf]; exact ⟨rfl, rfl⟩
  | config _ hf => rw [hf]; exact ⟨rfl, rfl⟩
  | «initialize» _ _ hf => rcases hf with hf | hf <;> rw [hf] <;> exact ⟨rfl, rfl⟩
  | codeActions _ hf => rw [hf]; obtain ⟨a, _, b, _⟩ := addCodeActions_frame w.order s.files ‹_›; exact ⟨by rw [a], by rw [b]⟩
  | didOpen u t m hh => exact frame hm (Frame.didOpen hh)
  | didSave u m hh => exact frame hm (Frame.didSave hh)
  | didChange u cs b hh => exact frame hm (Frame.didChange hh)
  | notInitialized _ => exact absurd hm id
  | initialized _ _ _ _ => exact absurd hm id

theorem byUri_run {env : Env} {p : Str} {c : Char} (hc : c ∈ p) (ha : ¬ PathAllowed c) (h1 : c ≠ '%') :
    ∀ {h : List (World × Msg)} {s s' : Server}, (∀ e ∈ h, ByUri e.2) → s.run env h = .ok s' →
    s'.files.documents.get? (c!"file://" ++ p) = s.files.documents.get? (c!"file://" ++ p) ∧
      s'.files.variables.get? (c!"file://" ++ p) = s.files.variables.get? (c!"file://" ++ p)
  | [], s, s', _, h => by cases h; exact ⟨rfl, rfl⟩
  | e :: es, s, s', hm, h => by
    simp only [Server.run] at h
    split at h
    · cases h
    · rename_i t _ _ ht
      obtain ⟨a, b⟩ := byUri_step (hm e (by simp)) hc ha h1 ht
      obtain ⟨a', b'⟩ := byUri_run hc ha h1 (fun e he => hm e (by simp [he])) h
      exact ⟨a'.trans a, b'.trans b⟩

theorem open_text {env : Env} {w : World} {s s' : Server} {uri text : Str} {out : List Send} {r : Reply} (hx : fileExt uri ≠ none)
    (h : s.handle env w (.didOpen uri text) = .ok (s', out, r)) : s'.files.documents.get? uri = some text := by
  cases handle_files h with
  | query hq => cases hq
  | didOpen _ _ m hh => exact documents_didOpen hh hx

/-! ### C109 -/

/-- **C109** (part) If the path of a file consists of letters, digits, `-`, `.`, `_`, `~` and `/`, a document that is opened takes the place of the
one read from disk: all names of the file mean the text of the editor.  Missing: `C109_two_refuted`. -/
theorem C109_one_partial (env : Env) (w : World) (s s' : Server) (path uri text : Str) (out : List Send) (r : Reply)
    (hp : ∀ c ∈ path, PathPlain c) (hu : NamesFile path uri) (h : s.handle env w (.didOpen uri text) = .ok (s', out, r))
    (hx : fileExt uri ≠ none) :
    ∀ k, k = c!"file://" ++ path ∨ NamesFile path k → s'.files.documents.get? k = some text ∧
      s'.files.variables.get? k = s'.files.variables.get? uri := by
  have key : ∀ k, NamesFile path k → k = c!"file://" ++ path := by
    rintro k ⟨q, hq, rfl⟩
    rw [escaped_plain hq hp]
  intro k hk
  have hk : k = uri := (hk.elim id (key k)).trans (key _ hu).symm
  subst hk
  exact ⟨open_text hx h, rfl⟩

/-- **C109 is false for other paths**.  If the path contains a character that has to be escaped in a URI (a blank, a letter outside ASCII), then the
file read from disk stays what it was, whatever the client sends, and once the client opened it the file is two documents. -/
theorem C109_two_refuted (env : Env) (w w' : World) (s s₀ s₁ s₂ : Server) (out out₂ : List Send) (r r₂ : Reply) (l : LangType)
    (path name disk uri text : Str) (c : Char) (h₀ : s.handle env w .initialized = .ok (s₀, out, r)) (ho : out ≠ [])
    (hd : Reads w (entries w s.config) (c!"file://" ++ name) disk l path name) (hc : c ∈ name) (ha : ¬ PathAllowed c) (h1 : c ≠ '%')
    (h : List (World × Msg)) (hh : ∀ e ∈ h, ByUri e.2) (hr : s₀.run env h = .ok s₁) (hu : NamesFile name uri)
    (h₂ : s₁.handle env w' (.didOpen uri text) = .ok (s₂, out₂, r₂)) (hx : fileExt uri ≠ none) :
    uri ≠ c!"file://" ++ name ∧ s₂.files.documents.get? uri = some text ∧ s₂.files.documents.get? (c!"file://" ++ name) = some disk ∧
      s₂.files.variables.get? (c!"file://" ++ name) = s₀.files.variables.get? (c!"file://" ++ name) := by
  have hdoc := (C56_documents env w s s₀ out r h₀ ho _ _).mpr ⟨l, path, name, hd⟩
  obtain ⟨a, b⟩ := byUri_run hc ha h1 hh hr
  obtain ⟨a', b'⟩ := byUri_step (m := .didOpen uri text) ⟨name, hu⟩ hc ha h1 h₂
  exact ⟨namesFile_ne hu hc ha h1, open_text hx h₂, by rw [a', a, hdoc], by rw [b', b]⟩

/-- **C109 is false for other paths** (what the user sees).  A name that was defined in the file when the workspace was read, and is no longer
defined anywhere, is still reported as defined in another file, for ever (until the workspace is read again). -/
theorem C109_report_refuted (env : Env) (w' : World) (s₀ s₁ s₂ : Server) (out₂ : List Send) (r₂ : Reply) (name uri : Str) (m : Msg) (c : Char)
    (hc : c ∈ name) (ha : ¬ PathAllowed c) (h1 : c ≠ '%') (vs : List Identifier)
    (hvs : s₀.files.variables.get? (c!"file://" ++ name) = some vs)
    (h : List (World × Msg)) (hh : ∀ e ∈ h, ByUri e.2) (hr : s₀.run env h = .ok s₁) (hu : NamesFile name uri) (hm : m.Analyses uri)
    (he : fileExt uri = some .template) (hig : s₁.files.ignoreGlobals = false) (h₂ : s₁.handle env w' m = .ok (s₂, out₂, r₂))
    (vars : List Identifier) (uses : List JinjaObject) (hread : s₂.files.readObjects env uri = .ok (some uses))
    (hv : s₂.files.variables.get? uri = some vars) (u : JinjaObject) (huse : u ∈ uses) (hft : u.isFilter = false ∧ u.isTest = false)
    (hno : ∀ v ∈ vars, v.name ≠ u.name) (hold : ∃ v ∈ vs, v.name = u.name) :
    ∃ ds, out₂ = [.diag (HMap.empty.insert uri ds)] ∧ (⟨.definedSomewhere, u.name, u.location.1, u.location.2⟩ : Report) ∈ useDiags ds := by
  obtain ⟨_, b⟩ := byUri_run hc ha h1 hh hr
  obtain ⟨v, hv1, hv2⟩ := hold
  exact report_unbound env w' s₁ s₂ m uri out₂ r₂ vars uses hm he hig h₂ hread hv u huse hft (fun v a b => absurd b (hno v a))
    (.inr ((mem_knownElsewhere ..).mpr ⟨_, vs, Ne.symm (namesFile_ne hu hc ha h1), by rw [b, hvs], v, hv1, hv2⟩))

/-- escaping makes longer -/
theorem escaped_length {p q : Str} (h : Escaped p q) : p.length ≤ q.length ∧ (p.length = q.length → ∀ c ∈ p, PathAllowed c) := by
  induction h with
  | nil => simp
  | plain h _ ih =>
    refine ⟨by simpa using ih.1, fun e c hc => ?_⟩
    rcases List.mem_cons.mp hc with rfl | hc
    · exact h
    · exact ih.2 (by simpa using e) c hc
  | @escaped c p q _ _ ih =>
    have : 3 ≤ ((String.utf8EncodeChar c).flatMap percentByte).length := by
      cases hb : String.utf8EncodeChar c with
      | nil => have := String.length_utf8EncodeChar c; rw [hb] at this; exact absurd this.symm (Nat.ne_of_gt (Char.utf8Size_pos c))
      | cons b bs => simp [percentByte]
    have := ih.1
    refine ⟨by simp only [List.length_cons, List.length_append]; omega, fun e => ?_⟩
    simp only [List.length_cons, List.length_append] at e
    omega

/-- what was escaped contains `%` -/
theorem escaped_percent {p q : Str} (h : Escaped p q) (hne : q ≠ p) : '%' ∈ q := by
  induction h with
  | nil => exact absurd rfl hne
  | plain _ _ ih => exact List.mem_cons_of_mem _ (ih fun e => hne (by rw [e]))
  | @escaped c p q _ _ _ =>
    cases hb : String.utf8EncodeChar c with
    | nil => have := String.length_utf8EncodeChar c; rw [hb] at this; exact absurd this.symm (Nat.ne_of_gt (Char.utf8Size_pos c))
    | cons b bs => simp [percentByte]

/-- **C109 is false for other paths** (the other way round).  If the path of a file reads like the escaped path of another one, opening the other
file replaces the text of this one. -/
theorem C109_other_refuted (env : Env) (w : World) (s s' : Server) (path path' uri text : Str) (out : List Send) (r : Reply)
    (hne : path' ≠ path) (hu : NamesFile path uri) (hp : uri = c!"file://" ++ path')
    (h : s.handle env w (.didOpen uri text) = .ok (s', out, r)) (hx : fileExt uri ≠ none) :
    ¬ NamesFile path' uri ∧ s'.files.documents.get? (c!"file://" ++ path') = some text := by
  refine ⟨?_, by rw [← hp]; exact open_text hx h⟩
  obtain ⟨q, hq, rfl⟩ := hu
  obtain rfl := List.append_cancel_left hp
  rintro ⟨q', hq', e⟩
  obtain rfl := List.append_cancel_left e
  rcases (escaped_length hq').2 rfl '%' (escaped_percent hq hne) with h | h
  · unfold PathPlain at h; exact absurd h (by decide)
  · exact absurd h (by decide)

/-! ### Examples -/

namespace Fix

/-- a project with the template `my page.html` -/
def blankTree : World where
  canonicalize := .ok
  readFile := fun p => if p = c!"/t/my page.html" then some c!"d" else none
  walk := fun d => if d = c!"/t" then [.file c!"/t/my page.html"] else []
  order := HashOrder.id

/-- `{% set gone = 1 %}` -/
def setGone : Tpl := .leaf (.set (dl 0 0 16) (tok 0 3 6 c!"set" 1) (tok 0 7 11 c!"gone" 2) [.eq (tok 0 12 13 c!"=" 3)]) .nil

/-- the text on disk sets `gone`, other texts use it -/
def blankEnv : Env :=
  { env with queryMatches := fun q tree text =>
      if text = c!"d" then (docEnv setGone [] []).queryMatches q tree text
      else (docEnv .nil [.use ⟨.variable, tok 0 3 7 c!"gone" 50, []⟩] []).queryMatches q tree text }

def blankName : Str := c!"/t/my page.html"
def blankUri : Str := c!"file:///t/my%20page.html"

theorem blank_names : NamesFile blankName blankUri := by
  have pl : ∀ (c : Char) {p q : Str}, c.isAlphanum = true ∨ c ∈ ['-', '.', '_', '~', '/'] → Escaped p q → Escaped (c :: p) (c :: q) :=
    fun c _ _ h => .plain (.inl h)
  refine ⟨c!"/t/my%20page.html", ?_, rfl⟩
  refine pl _ (by decide) (pl _ (by decide) (pl _ (by decide) (pl _ (by decide) (pl _ (by decide) ?_))))
  refine Escaped.escaped (c := ' ') (q := c!"page.html") (by unfold PathPlain; decide) ?_
  iterate 9 refine pl _ (by decide) ?_
  exact .nil

end Fix

/-- `my page.html` is read from disk and then opened without its definition: there are two documents, and `gone` is reported as defined in another
file, although nothing defines it. -/
example : ∃ s₀ s₁ s₂ out out₁ out₂ r r₁ r₂, ({ Server.init with config := Fix.project } : Server).handle Fix.blankEnv Fix.blankTree .initialized = .ok (s₀, out, r) ∧
    s₀.handle Fix.blankEnv Fix.blankTree (.didOpen Fix.blankUri []) = .ok (s₁, out₁, r₁) ∧
    s₁.handle Fix.blankEnv Fix.blankTree (.didSave Fix.blankUri) = .ok (s₂, out₂, r₂) ∧
    s₁.files.documents.get? Fix.blankUri = some [] ∧ s₁.files.documents.get? (c!"file://" ++ Fix.blankName) = some c!"d" ∧
    ∃ ds, out₂ = [.diag (HMap.empty.insert Fix.blankUri ds)] ∧ (⟨.definedSomewhere, c!"gone", ⟨0, 3⟩, ⟨0, 7⟩⟩ : Report) ∈ useDiags ds := by
  have hc : ' ' ∈ Fix.blankName := by decide
  have ha : ¬ PathAllowed ' ' := by unfold PathAllowed PathPlain; decide
  have : ∃ s₀ s₁ s₂ out out₁ out₂ r r₁ r₂ vs uses, ({ Server.init with config := Fix.project } : Server).handle Fix.blankEnv Fix.blankTree .initialized = .ok (s₀, out, r) ∧
      s₀.handle Fix.blankEnv Fix.blankTree (.didOpen Fix.blankUri []) = .ok (s₁, out₁, r₁) ∧
      s₁.handle Fix.blankEnv Fix.blankTree (.didSave Fix.blankUri) = .ok (s₂, out₂, r₂) ∧ out ≠ [] ∧
      s₀.files.variables.get? (c!"file://" ++ Fix.blankName) = some vs ∧ s₁.files.ignoreGlobals = false ∧
      s₂.files.readObjects Fix.blankEnv Fix.blankUri = .ok (some uses) ∧ s₂.files.variables.get? Fix.blankUri = some [] ∧
      (∃ v ∈ vs, v.name = c!"gone") ∧ (∃ u ∈ uses, u.name = c!"gone" ∧ u.location = (⟨0, 3⟩, ⟨0, 7⟩) ∧ u.isFilter = false ∧ u.isTest = false) :=
    ⟨_, _, _, _, _, _, _, _, _, _, _, rfl, rfl, rfl, List.cons_ne_nil _ _, rfl, rfl, rfl, rfl, ⟨_, List.mem_singleton.mpr rfl, rfl⟩,
      ⟨_, List.mem_singleton.mpr rfl, rfl, rfl, rfl, rfl⟩⟩
  obtain ⟨s₀, s₁, s₂, out, out₁, out₂, r, r₁, r₂, vs, uses, h₀, h₁, h₂, ho, hvs, hig, hread, hv, hold, u, hu, e1, e2, hft⟩ := this
  obtain ⟨_, a, b, _⟩ := C109_two_refuted Fix.blankEnv Fix.blankTree Fix.blankTree _ s₀ s₀ s₁ out out₁ r r₁ .template Fix.blankName Fix.blankName c!"d" Fix.blankUri []
    ' ' h₀ ho ⟨by decide, by decide, rfl, rfl, rfl⟩ hc ha (by decide) [] (by simp) rfl Fix.blank_names h₁ (by decide)
  refine ⟨s₀, s₁, s₂, out, out₁, out₂, r, r₁, r₂, h₀, h₁, h₂, a, b, ?_⟩
  obtain ⟨ds, k1, k2⟩ := C109_report_refuted Fix.blankEnv Fix.blankTree s₀ s₁ s₂ out₂ r₂ Fix.blankName Fix.blankUri (.didSave Fix.blankUri) ' ' hc ha (by decide) vs hvs
    [(Fix.blankTree, .didOpen Fix.blankUri [])] (by simpa using ⟨_, Fix.blank_names⟩) (by simp [Server.run, h₁]) Fix.blank_names .saved (by decide) hig h₂ [] uses hread hv
    u hu hft (by simp) (by rw [e1]; exact hold)
  refine ⟨ds, k1, ?_⟩
  rw [e1, e2] at k2
  exact k2

/-- `my%20page.html` and `my page.html` -/
example : ∃ s' out r, Fix.server.handle Fix.env Fix.world (.didOpen Fix.blankUri c!"x") = .ok (s', out, r) ∧
    s'.files.documents.get? (c!"file://" ++ c!"/t/my%20page.html") = some c!"x" := by
  have : ∃ s' out r, Fix.server.handle Fix.env Fix.world (.didOpen Fix.blankUri c!"x") = .ok (s', out, r) := ⟨_, _, _, rfl⟩
  obtain ⟨s', out, r, h⟩ := this
  exact ⟨s', out, r, h, (C109_other_refuted Fix.env Fix.world Fix.server s' Fix.blankName c!"/t/my%20page.html" Fix.blankUri c!"x" out r (by decide)
    Fix.blank_names rfl h (by decide)).2⟩

/-- a plain path -/
example : (∀ c ∈ c!"/t/my_page.html", PathPlain c) ∧ NamesFile c!"/t/my_page.html" c!"file:///t/my_page.html" ∧ fileExt c!"file:///t/my_page.html" ≠ none := by
  refine ⟨by unfold PathPlain; decide, ⟨_, ?_, rfl⟩, by decide⟩
  iterate 15 refine Escaped.plain (.inl (by unfold PathPlain; decide)) ?_
  exact .nil

end JinjaLsp
