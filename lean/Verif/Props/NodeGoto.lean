import Verif.Props.NodeHover
/-
  C102: goto-definition in embedded templates.
-/

namespace JinjaLsp
open Node Spec NodeFiles JinjaObjects

/-- `a` occurs in `b` -/
def Spec.PartOf (a b : Str) : Prop := ∃ x y, b = x ++ a ++ y

/-- the place of an entry of another file, as the Node API gives it to the editor: marked as one of the backend, and as many lines further down
as the template is -/
def Spec.backendPlace (env : Env) (line : Nat) (file : Str) (v : Identifier) : JsLocation :=
  ⟨(placeOf env file v).uri, downRange line (rangeOf v), true⟩

namespace Spec.OnEmbedded
variable {env : Env} {w : World} {calls : List Call} {n : NodeFiles} {id : Nat} {fn uri : Str} {line l ch : Nat} {u : Use}
  {vars : List Identifier}

/-- the answer of the server below, when the template defines the name -/
theorem goto_local (h : OnEmbedded env w calls n id fn uri line l ch u vars) (hfit : ∀ d ∈ vars, Fits d)
    (hex : ∃ d ∈ vars, Binds u.root.text ⟨l, ch⟩ d) : ∃ d ∈ vars, Binds u.root.text ⟨l, ch⟩ d ∧
      (∀ d' ∈ vars, Binds u.root.text ⟨l, ch⟩ d' → d'.start ≤ d.start) ∧
      n.gotoDefinition env w id fn line ⟨l + line, ch⟩ =
        if containsSub fn uri then
          match env.urlParse fn with
          | none => .error .unwrap
          | some u =>
            match shiftRange env.profile (rangeOf d) line with
            | .error e => .error e
            | .ok r => .ok (some [⟨u, r, false⟩])
        else .ok (some []) := by
  obtain ⟨tree, text, es, rest, hd, ht, hu⟩ := h.use
  obtain ⟨d, h1, h2, h3, h4⟩ := C35_latest env w n.files uri tree text ⟨l, ch⟩ h.template hd ht es u rest hu vars h.read hfit hex
  refine ⟨d, h1, h2, h3, ?_⟩
  simp only [gotoDefinition, usub32_add, h.uri_eq, h4]
  rfl

/-- the answer, when it does not -/
theorem goto_others (h : OnEmbedded env w calls n id fn uri line l ch u vars) (hno : ∀ d ∈ vars, ¬ Binds u.root.text ⟨l, ch⟩ d)
    (htp : ∀ tree text, (n.files.trees .template).get? uri = some tree → n.files.documents.get? uri = some text →
      NoTemplate (env.queryMatches .jinjaImports tree text).flatten ⟨l, ch⟩) :
    n.gotoDefinition env w id fn line ⟨l + line, ch⟩ =
      match LspFiles.collectFiles env uri u.root.text (w.order.shuffle 2 n.files.variables.entries) with
      | .error e => .error e
      | .ok all =>
        match shiftLocations env line all with
        | .error e => .error e
        | .ok r => .ok (some r) := by
  obtain ⟨tree, text, es, rest, hd, ht, hu⟩ := h.use
  have hg := goto_elsewhere (env := env) (w := w) (pos := ⟨l, ch⟩) h.template hd ht hu
    (fun vs hv d hd' => by rw [h.read] at hv; cases hv; exact hno d hd') (htp tree text ht hd)
  simp only [gotoDefinition, usub32_add, h.uri_eq, hg]
  cases LspFiles.collectFiles env uri u.root.text (w.order.shuffle 2 n.files.variables.entries) <;> rfl

end Spec.OnEmbedded

/-- only the places under a name with `temp` in it are kept -/
theorem shiftLocations_mem {env : Env} {line : Nat} : ∀ (ls : List Location),
    (∀ l ∈ ls, env.urlParse l.uri = some l.uri ∧ RangeFits line l.range) →
    ∃ r, shiftLocations env line ls = .ok r ∧
      r = (ls.filter fun l => containsSub c!"temp" l.uri).map fun l => ⟨l.uri, downRange line l.range, true⟩
  | [], _ => ⟨[], rfl, rfl⟩
  | l :: ls, h => by
    obtain ⟨r, h1, h2⟩ := shiftLocations_mem ls fun x hx => h x (List.mem_cons_of_mem _ hx)
    obtain ⟨h3, h4⟩ := h l List.mem_cons_self
    rw [shiftLocations_cons, List.filter_cons]
    cases hc : containsSub c!"temp" l.uri with
    | false => exact ⟨r, by simpa using h1, by simpa using h2⟩
    | true =>
      simp only [if_true, h3, shiftRange_down h4, h1, List.map_cons]
      exact ⟨_, rfl, by rw [h2]⟩

/-! ## C102 -/

/-- **C102, names of the template** (part: the file is given by a URL that is part of the name of the document) Goto-definition on the name of
a use leads to the latest definition of the name that is visible there, at its place in the host file. -/
theorem C102_local_partial (env : Env) (w : World) (calls : List Call) (n : NodeFiles) (id : Nat) (fn uri host : Str) (line l ch : Nat) (u : Use)
    (vars : List Identifier) (h : OnEmbedded env w calls n id fn uri line l ch u vars)
    (hfit : ∀ d ∈ vars, Fits d ∧ RangeFits line (rangeOf d)) (hex : ∃ d ∈ vars, Binds u.root.text ⟨l, ch⟩ d)
    (hin : PartOf fn uri) (hurl : env.urlParse fn = some host) :
    ∃ d ∈ vars, Binds u.root.text ⟨l, ch⟩ d ∧ (∀ d' ∈ vars, Binds u.root.text ⟨l, ch⟩ d' → d'.start ≤ d.start) ∧
      n.gotoDefinition env w id fn line ⟨l + line, ch⟩ = .ok (some [⟨host, downRange line (rangeOf d), false⟩]) := by
  obtain ⟨d, h1, h2, h3, h4⟩ := h.goto_local (fun d hd => (hfit d hd).1) hex
  refine ⟨d, h1, h2, h3, ?_⟩
  rw [h4, if_pos (containsSub_iff.mpr hin)]
  simp only [hurl, shiftRange_down (hfit d h1).2]

/-- **C102 is false for file names that are no URLs**: the name of the file is read as a URL, the call panics. -/
theorem C102_filename_refuted (env : Env) (w : World) (calls : List Call) (n : NodeFiles) (id : Nat) (fn uri : Str) (line l ch : Nat) (u : Use)
    (vars : List Identifier) (h : OnEmbedded env w calls n id fn uri line l ch u vars) (hfit : ∀ d ∈ vars, Fits d)
    (hex : ∃ d ∈ vars, Binds u.root.text ⟨l, ch⟩ d) (hin : PartOf fn uri) (hurl : env.urlParse fn = none) :
    n.gotoDefinition env w id fn line ⟨l + line, ch⟩ = .error .unwrap := by
  obtain ⟨d, _, _, _, h4⟩ := h.goto_local hfit hex
  rw [h4, if_pos (containsSub_iff.mpr hin)]
  simp only [hurl]

/-- **C102 is false for file names that are written differently in a URL**: nothing is found then. -/
theorem C102_encoded_refuted (env : Env) (w : World) (calls : List Call) (n : NodeFiles) (id : Nat) (fn uri : Str) (line l ch : Nat) (u : Use)
    (vars : List Identifier) (h : OnEmbedded env w calls n id fn uri line l ch u vars) (hfit : ∀ d ∈ vars, Fits d)
    (hex : ∃ d ∈ vars, Binds u.root.text ⟨l, ch⟩ d) (hin : ¬ PartOf fn uri) :
    n.gotoDefinition env w id fn line ⟨l + line, ch⟩ = .ok (some []) := by
  obtain ⟨d, _, _, _, h4⟩ := h.goto_local hfit hex
  rw [h4, if_neg (fun e => hin (containsSub_iff.mp e))]

/-- **C102 is false for hints**: with hints in force under the default name, goto-definition on the name of one of them (or on the first part of
it) panics, because what it leads to is not a URL. -/
theorem C102_hint_refuted (env : Env) (w : World) (calls : List Call) (n : NodeFiles) (id : Nat) (fn uri : Str) (line l ch : Nat) (u : Use)
    (vars : List Identifier) (h : OnEmbedded env w calls n id fn uri line l ch u vars) (hno : ∀ d ∈ vars, ¬ Binds u.root.text ⟨l, ch⟩ d)
    (htp : ∀ tree text, (n.files.trees .template).get? uri = some tree → n.files.documents.get? uri = some text →
      NoTemplate (env.queryMatches .jinjaImports tree text).flatten ⟨l, ch⟩)
    (hc : ∀ c ∈ calls, c.avoids env c!"temp") (hne : uri ≠ c!"temp") (as : List Action) (hs : savedUnder c!"temp" none calls = some as)
    (a : Action) (ha : a ∈ as) (hn : FirstSegment u.root.text a.name) (hbad : env.urlParse (c!"temp-" ++ a.name) = none) :
    n.gotoDefinition env w id fn line ⟨l + line, ch⟩ = .error .unwrap := by
  have hv := temp_variables hc h.run hs
  rw [h.goto_others hno htp, collectFiles_err (env := env) (w.order.shuffle 2 n.files.variables.entries)
    (c!"temp", as.map actionVariable) (actionVariable a) (mem_entries.mpr hv) hne.symm (List.mem_map_of_mem ha) hn hbad]

/-- **C102, names of other files** (part: all places are URLs, and their names contain `temp`) Goto-definition on the name of a use that
the template does not define leads to the entries of the other files, those only whose names contain `temp`. -/
theorem C102_elsewhere_partial (env : Env) (w : World) (calls : List Call) (n : NodeFiles) (id : Nat) (fn uri : Str) (line l ch : Nat) (u : Use)
    (vars : List Identifier) (h : OnEmbedded env w calls n id fn uri line l ch u vars) (hno : ∀ d ∈ vars, ¬ Binds u.root.text ⟨l, ch⟩ d)
    (htp : ∀ tree text, (n.files.trees .template).get? uri = some tree → n.files.documents.get? uri = some text →
      NoTemplate (env.queryMatches .jinjaImports tree text).flatten ⟨l, ch⟩)
    (hnorm : ∀ s t, env.urlParse s = some t → env.urlParse t = some t)
    (hurl : ∀ file v, Elsewhere n.files uri u.root.text file v → env.urlParse (targetOf file v) ≠ none ∧ Fits v ∧ RangeFits line (rangeOf v)) :
    ∃ r, n.gotoDefinition env w id fn line ⟨l + line, ch⟩ = .ok (some r) ∧
      ∀ x, x ∈ r ↔ ∃ file v, Elsewhere n.files uri u.root.text file v ∧ PartOf c!"temp" (placeOf env file v).uri ∧ x = backendPlace env line file v := by
  have hok := collectFiles_ok (env := env) (uri := uri) (n := u.root.text) (w.order.shuffle 2 n.files.variables.entries)
    (fun e he hne v hv hs => ⟨(hurl e.1 v ⟨hne, e.2, mem_entries.mp he, hv, hs⟩).1, (hurl e.1 v ⟨hne, e.2, mem_entries.mp he, hv, hs⟩).2.1⟩)
  have hmem : ∀ p, p ∈ places env uri u.root.text (w.order.shuffle 2 n.files.variables.entries) ↔
      ∃ file v, Elsewhere n.files uri u.root.text file v ∧ p = placeOf env file v := by
    intro p
    unfold places
    simp only [List.mem_flatMap, List.mem_filter, List.mem_map, decide_eq_true_eq, decide_not, Bool.not_eq_true', decide_eq_false_iff_not]
    constructor
    · rintro ⟨e, ⟨he, hne⟩, v, ⟨hv, hs⟩, rfl⟩
      exact ⟨e.1, v, ⟨hne, e.2, mem_entries.mp he, hv, hs⟩, rfl⟩
    · rintro ⟨file, v, ⟨hne, vs, hg, hv, hs⟩, rfl⟩
      exact ⟨(file, vs), ⟨mem_entries.mpr hg, hne⟩, v, ⟨hv, hs⟩, rfl⟩
  obtain ⟨r, h1, h2⟩ := shiftLocations_mem (env := env) (line := line) (places env uri u.root.text (w.order.shuffle 2 n.files.variables.entries))
    (by
      intro p hp
      obtain ⟨file, v, he, rfl⟩ := (hmem p).mp hp
      obtain ⟨h1, _, h3⟩ := hurl file v he
      refine ⟨?_, h3⟩
      cases ht : env.urlParse (targetOf file v) with
      | none => exact absurd ht h1
      | some t => simp only [placeOf, ht, Option.getD_some]; exact hnorm _ _ ht)
  refine ⟨r, ?_, ?_⟩
  · rw [h.goto_others hno htp, hok]
    simp only [h1]
  · intro x
    rw [h2]
    simp only [List.mem_map, List.mem_filter, hmem]
    constructor
    · rintro ⟨p, ⟨⟨file, v, he, rfl⟩, ht⟩, rfl⟩
      exact ⟨file, v, he, containsSub_iff.mp ht, rfl⟩
    · rintro ⟨file, v, he, ht, rfl⟩
      exact ⟨_, ⟨⟨file, v, he, rfl⟩, containsSub_iff.mpr ht⟩, rfl⟩

/-- **C102 is false for definitions in the other templates of the file**: unless their names contain `temp`, nothing is found. -/
theorem C102_others_refuted (env : Env) (w : World) (calls : List Call) (n : NodeFiles) (id : Nat) (fn uri : Str) (line l ch : Nat) (u : Use)
    (vars : List Identifier) (h : OnEmbedded env w calls n id fn uri line l ch u vars) (hno : ∀ d ∈ vars, ¬ Binds u.root.text ⟨l, ch⟩ d)
    (htp : ∀ tree text, (n.files.trees .template).get? uri = some tree → n.files.documents.get? uri = some text →
      NoTemplate (env.queryMatches .jinjaImports tree text).flatten ⟨l, ch⟩)
    (hnorm : ∀ s t, env.urlParse s = some t → env.urlParse t = some t)
    (hurl : ∀ file v, Elsewhere n.files uri u.root.text file v → env.urlParse (targetOf file v) ≠ none ∧ Fits v ∧ RangeFits line (rangeOf v) ∧
      ¬ PartOf c!"temp" (placeOf env file v).uri) :
    n.gotoDefinition env w id fn line ⟨l + line, ch⟩ = .ok (some []) := by
  obtain ⟨r, h1, h2⟩ := C102_elsewhere_partial env w calls n id fn uri line l ch u vars h hno htp hnorm
    (fun file v he => ⟨(hurl file v he).1, (hurl file v he).2.1, (hurl file v he).2.2.1⟩)
  rw [h1]
  cases r with
  | nil => rfl
  | cons x r =>
    obtain ⟨file, v, he, ht, _⟩ := (h2 x).mp List.mem_cons_self
    exact absurd ht (hurl file v he).2.2.2

/-- **C102 is false for definitions in files whose names contain `temp`** (those below a directory `templates`): the place returned is as many
lines below the definition as the template with the cursor is below the start of its own file. -/
theorem C102_templates_refuted (env : Env) (w : World) (calls : List Call) (n : NodeFiles) (id : Nat) (fn uri : Str) (line l ch : Nat) (u : Use)
    (vars : List Identifier) (h : OnEmbedded env w calls n id fn uri line l ch u vars) (hno : ∀ d ∈ vars, ¬ Binds u.root.text ⟨l, ch⟩ d)
    (htp : ∀ tree text, (n.files.trees .template).get? uri = some tree → n.files.documents.get? uri = some text →
      NoTemplate (env.queryMatches .jinjaImports tree text).flatten ⟨l, ch⟩)
    (hnorm : ∀ s t, env.urlParse s = some t → env.urlParse t = some t)
    (hurl : ∀ file v, Elsewhere n.files uri u.root.text file v → env.urlParse (targetOf file v) ≠ none ∧ Fits v ∧ RangeFits line (rangeOf v))
    (file : Str) (v : Identifier) (he : Elsewhere n.files uri u.root.text file v) (ht : PartOf c!"temp" (placeOf env file v).uri)
    (honly : ∀ file' v', Elsewhere n.files uri u.root.text file' v' → v' = v) (hl : line ≠ 0) :
    ∃ r, n.gotoDefinition env w id fn line ⟨l + line, ch⟩ = .ok (some r) ∧ backendPlace env line file v ∈ r ∧ ∀ x ∈ r, x.range ≠ rangeOf v := by
  obtain ⟨r, h1, h2⟩ := C102_elsewhere_partial env w calls n id fn uri line l ch u vars h hno htp hnorm hurl
  refine ⟨r, h1, (h2 _).mpr ⟨file, v, he, ht, rfl⟩, ?_⟩
  intro x hx
  obtain ⟨file', v', he', _, rfl⟩ := (h2 x).mp hx
  rw [honly file' v' he']
  intro e
  have := congrArg (fun r : Range => r.start.line) e
  simp only [backendPlace, downRange, downPos, rangeOf] at this
  omega

namespace Fix

/-- what a URL is -/
def onlyFiles (s : Str) : Option Str := if (c!"file:").isPrefixOf s then some s else none

/-- spaces are written differently in URLs -/
def escaping (s : Str) : Option Str := (onlyFiles s).map fun s => s.flatMap fun c => if c = ' ' then c!"%20" else [c]

/-- the macro template `Fix.tpl`, embedded in the file `fn` -/
def macroCalls (fn : Str) : List Call := [.addOne 7 fn [] 0 c!"jinja" none]

def macroEnv (parse : Str → Option Str) : Env := { envOf tplCaps with urlParse := parse }

/-- `{% set user = 1 %}` -/
def setUser : Tpl := .leaf (.set (dl 0 0 16) (tok 0 3 6 c!"set" 1) (tok 0 7 11 c!"user" 2) [.eq (tok 0 12 13 c!"=" 3)]) .nil

/-- a text that sets `user`, and others that use it -/
def hostEnv : Env :=
  { envWith .jinjaObjects userCaps with
    urlParse := onlyFiles
    queryMatches := fun q tree text =>
      if q = .jinjaDefinitions ∧ text = c!"{% set user = 1 %}" then setUser.caps.map fun c => [c]
      else (envWith .jinjaObjects userCaps).queryMatches q tree text }

/-- two templates of the file `fn`: the first sets `user`, the second uses it -/
def hostCalls (fn : Str) : List Call :=
  [.addOne 3 fn c!"{% set user = 1 %}" 0 c!"jinja" none, .addOne 7 fn c!"{{ user }}" 0 c!"jinja" none]

theorem onlyFiles_norm (s t : Str) (h : onlyFiles s = some t) : onlyFiles t = some t := by
  unfold onlyFiles at h
  split at h
  · cases h; unfold onlyFiles; rw [if_pos (by assumption)]
  · cases h

/-- what the macro template defines -/
def macroVars : List Identifier :=
  [⟨⟨0, 9⟩, ⟨0, 10⟩, c!"m", 0, ⟨9, 9⟩, .macroName, []⟩, ⟨⟨0, 11⟩, ⟨0, 12⟩, c!"p", 1, ⟨5, 0⟩, .macroParameter, []⟩,
   ⟨⟨1, 9⟩, ⟨1, 10⟩, c!"a", 1, ⟨5, 0⟩, .setVariable, []⟩, ⟨⟨2, 9⟩, ⟨2, 10⟩, c!"i", 8, ⟨4, 2⟩, .forLoopKey, []⟩,
   ⟨⟨6, 7⟩, ⟨6, 8⟩, c!"b", 0, ⟨9, 9⟩, .setVariable, []⟩]

/-- the state after the calls -/
def Holds (env : Env) (calls : List Call) (uri text : Str) (vars : List (Str × List Identifier)) : Prop :=
  ∃ n, Call.run env world NodeFiles.new calls = .ok n ∧ n.files.documents.get? uri = some text ∧
    (n.files.trees .template).get? uri = some (.parsed .jinja text none) ∧ n.files.variables.entries = vars

theorem macro_url : Holds (macroEnv onlyFiles) (macroCalls c!"file:///x.py") c!"file:///home/file:///x.py.7.jinja" []
    [(c!"file:///home/file:///x.py.7.jinja", macroVars)] := ⟨_, rfl, by decide, rfl, by decide⟩

theorem macro_name : Holds (macroEnv onlyFiles) (macroCalls c!"x.py") c!"file:///home/x.py.7.jinja" []
    [(c!"file:///home/x.py.7.jinja", macroVars)] := ⟨_, rfl, by decide, rfl, by decide⟩

theorem macro_space : Holds (macroEnv escaping) (macroCalls c!"file:///x y.py") c!"file:///home/file:///x%20y.py.7.jinja" []
    [(c!"file:///home/file:///x%20y.py.7.jinja", macroVars)] := ⟨_, rfl, by decide, rfl, by decide⟩

def userSet : Identifier := ⟨⟨0, 7⟩, ⟨0, 11⟩, c!"user", 0, ⟨9, 9⟩, .setVariable, []⟩

theorem host_plain : Holds hostEnv (hostCalls c!"f") c!"file:///home/f.7.jinja" c!"{{ user }}"
    [(c!"file:///home/f.7.jinja", []), (c!"file:///home/f.3.jinja", [userSet])] := ⟨_, rfl, by decide, rfl, by decide⟩

theorem host_templates : Holds hostEnv (hostCalls c!"templates/f") c!"file:///home/templates/f.7.jinja" c!"{{ user }}"
    [(c!"file:///home/templates/f.7.jinja", []), (c!"file:///home/templates/f.3.jinja", [userSet])] := ⟨_, rfl, by decide, rfl, by decide⟩

theorem host_hint : Holds hostEnv (embeddedCalls [.saveLinkHint (some [⟨c!"user.name", c!"the name"⟩]) none]) c!"file:///home/f.7.jinja" c!"{{ user }}"
    [(c!"file:///home/f.7.jinja", []), (c!"temp", [actionVariable ⟨c!"user.name", c!"the name"⟩])] := ⟨_, rfl, by decide, rfl, by decide⟩

theorem read_of {n : NodeFiles} {k : Str} {vs : List Identifier} {es : List (Str × List Identifier)}
    (h : n.files.variables.entries = es) (hm : (k, vs) ∈ es) : n.files.variables.get? k = some vs :=
  (HMap.get?_eq_some_iff ..).mpr (h ▸ hm)

theorem entry_of {n : NodeFiles} {uri name file : Str} {v : Identifier} {es : List (Str × List Identifier)}
    (h : n.files.variables.entries = es) (he : Elsewhere n.files uri name file v) : ∃ vs, (file, vs) ∈ es ∧ v ∈ vs ∧ file ≠ uri := by
  obtain ⟨hne, vs, hg, hv, _⟩ := he
  exact ⟨vs, h ▸ (HMap.get?_eq_some_iff ..).mp hg, hv, hne⟩

end Fix

/-- the loop variable `i` of a macro template, from twenty lines down … -/
example : ∃ n, Call.run (Fix.macroEnv Fix.onlyFiles) Fix.world NodeFiles.new (Fix.macroCalls c!"file:///x.py") = .ok n ∧
    n.gotoDefinition (Fix.macroEnv Fix.onlyFiles) Fix.world 7 c!"file:///x.py" 20 ⟨3 + 20, 7⟩ =
      .ok (some [⟨c!"file:///x.py", ⟨⟨22, 9⟩, ⟨22, 10⟩⟩, false⟩]) := by
  obtain ⟨n, hr, hd, ht, hv⟩ := Fix.macro_url
  refine ⟨n, hr, ?_⟩
  obtain ⟨d, hd, hb, _, h⟩ := C102_local_partial (Fix.macroEnv Fix.onlyFiles) Fix.world (Fix.macroCalls c!"file:///x.py") n 7 c!"file:///x.py"
    c!"file:///home/file:///x.py.7.jinja" c!"file:///x.py" 20 3 7 ⟨.variable, Fix.tok 3 7 8 c!"i" 11, []⟩ Fix.macroVars
    ⟨hr, rfl, by decide, ⟨.parsed .jinja [] none, [], _, _, hd, ht, Fix.tpl_use (.parsed .jinja [] none) []⟩, Fix.read_of hv List.mem_cons_self, by unfold RangeFits; decide⟩
    (by unfold Fits RangeFits; decide) (by unfold Binds; decide) ⟨c!"file:///home/", c!".7.jinja", rfl⟩ rfl
  refine h.trans ?_
  have key : ∀ d ∈ Fix.macroVars, d.name = c!"i" → rangeOf d = ⟨⟨2, 9⟩, ⟨2, 10⟩⟩ := by decide
  rw [key d hd hb.1]
  rfl

/-- … in a file that is no URL … -/
example : ∃ n, Call.run (Fix.macroEnv Fix.onlyFiles) Fix.world NodeFiles.new (Fix.macroCalls c!"x.py") = .ok n ∧
    n.gotoDefinition (Fix.macroEnv Fix.onlyFiles) Fix.world 7 c!"x.py" 20 ⟨3 + 20, 7⟩ = .error .unwrap := by
  obtain ⟨n, hr, hd, ht, hv⟩ := Fix.macro_name
  exact ⟨n, hr, C102_filename_refuted (Fix.macroEnv Fix.onlyFiles) Fix.world (Fix.macroCalls c!"x.py") n 7 c!"x.py"
    c!"file:///home/x.py.7.jinja" 20 3 7 ⟨.variable, Fix.tok 3 7 8 c!"i" 11, []⟩ Fix.macroVars
    ⟨hr, rfl, by decide, ⟨.parsed .jinja [] none, [], _, _, hd, ht, Fix.tpl_use (.parsed .jinja [] none) []⟩, Fix.read_of hv List.mem_cons_self, by unfold RangeFits; decide⟩
    (by unfold Fits; decide) (by unfold Binds; decide) ⟨c!"file:///home/", c!".7.jinja", rfl⟩ rfl⟩

/-- … and in one with a space in its name -/
example : ∃ n, Call.run (Fix.macroEnv Fix.escaping) Fix.world NodeFiles.new (Fix.macroCalls c!"file:///x y.py") = .ok n ∧
    n.gotoDefinition (Fix.macroEnv Fix.escaping) Fix.world 7 c!"file:///x y.py" 20 ⟨3 + 20, 7⟩ = .ok (some []) := by
  obtain ⟨n, hr, hd, ht, hv⟩ := Fix.macro_space
  exact ⟨n, hr, C102_encoded_refuted (Fix.macroEnv Fix.escaping) Fix.world (Fix.macroCalls c!"file:///x y.py") n 7 c!"file:///x y.py"
    c!"file:///home/file:///x%20y.py.7.jinja" 20 3 7 ⟨.variable, Fix.tok 3 7 8 c!"i" 11, []⟩ Fix.macroVars
    ⟨hr, rfl, by decide, ⟨.parsed .jinja [] none, [], _, _, hd, ht, Fix.tpl_use (.parsed .jinja [] none) []⟩, Fix.read_of hv List.mem_cons_self, by unfold RangeFits; decide⟩
    (by unfold Fits; decide) (by unfold Binds; decide) (fun h => absurd (containsSub_iff.mpr h) (by decide))⟩

/-- a hint for `user.name` and a use of `user` -/
example : ∃ n, Call.run Fix.hostEnv Fix.world NodeFiles.new
      (Fix.embeddedCalls [.saveLinkHint (some [⟨c!"user.name", c!"the name"⟩]) none]) = .ok n ∧
    n.gotoDefinition Fix.hostEnv Fix.world 7 c!"f" 10 ⟨0 + 10, 5⟩ = .error .unwrap := by
  obtain ⟨n, hr, hd, ht, hv⟩ := Fix.host_hint
  refine ⟨n, hr, ?_⟩
  exact C102_hint_refuted Fix.hostEnv Fix.world (Fix.embeddedCalls [.saveLinkHint (some [⟨c!"user.name", c!"the name"⟩]) none]) n 7 c!"f"
    Fix.offsetUri 10 0 5 ⟨.variable, Fix.tok 0 3 7 c!"user" 2, []⟩ []
    ⟨hr, rfl, by decide, ⟨.parsed .jinja c!"{{ user }}" none, c!"{{ user }}", _, _, hd, ht, Fix.user_on (.parsed .jinja c!"{{ user }}" none) c!"{{ user }}"⟩,
      Fix.read_of hv List.mem_cons_self, by unfold RangeFits; decide⟩ (by intro d hd; cases hd)
    (fun tree text _ _ => Fix.user_no_template tree text _) (by
      intro c hc
      simp only [Fix.embeddedCalls, List.cons_append, List.nil_append, List.mem_cons, List.not_mem_nil, or_false] at hc
      rcases hc with rfl | rfl
      · trivial
      · intro h; cases h) (by decide) [⟨c!"user.name", c!"the name"⟩] rfl ⟨c!"user.name", c!"the name"⟩ (by decide)
    ⟨by decide, Or.inr ⟨c!"name", rfl⟩⟩ rfl

/-- the other template of the file sets `user` … -/
example : ∃ n, Call.run Fix.hostEnv Fix.world NodeFiles.new (Fix.hostCalls c!"f") = .ok n ∧
    n.gotoDefinition Fix.hostEnv Fix.world 7 c!"f" 10 ⟨0 + 10, 5⟩ = .ok (some []) := by
  obtain ⟨n, hr, hd, ht, hv⟩ := Fix.host_plain
  refine ⟨n, hr, C102_others_refuted Fix.hostEnv Fix.world (Fix.hostCalls c!"f") n 7 c!"f" Fix.offsetUri 10 0 5
    ⟨.variable, Fix.tok 0 3 7 c!"user" 2, []⟩ []
    ⟨hr, rfl, by decide, ⟨.parsed .jinja c!"{{ user }}" none, c!"{{ user }}", _, _, hd, ht, Fix.user_on (.parsed .jinja c!"{{ user }}" none) c!"{{ user }}"⟩, Fix.read_of hv List.mem_cons_self, by unfold RangeFits; decide⟩
    (by intro d hd; cases hd) (fun tree text _ _ => Fix.user_no_template tree text _) Fix.onlyFiles_norm ?_⟩
  intro file v he
  obtain ⟨vs, hm, hv', hne⟩ := Fix.entry_of hv he
  simp only [List.mem_cons, Prod.mk.injEq, List.not_mem_nil, or_false] at hm
  rcases hm with ⟨rfl, rfl⟩ | ⟨rfl, rfl⟩
  · cases hv'
  · cases List.mem_singleton.mp hv'
    exact ⟨by decide, by unfold Fits; decide, by unfold RangeFits; decide, fun h => absurd (containsSub_iff.mpr h) (by decide)⟩

/-- … and in a directory `templates` -/
example : ∃ n r, Call.run Fix.hostEnv Fix.world NodeFiles.new (Fix.hostCalls c!"templates/f") = .ok n ∧
    n.gotoDefinition Fix.hostEnv Fix.world 7 c!"templates/f" 10 ⟨0 + 10, 5⟩ = .ok (some r) ∧
    ⟨c!"file:///home/templates/f.3.jinja", ⟨⟨10, 7⟩, ⟨10, 11⟩⟩, true⟩ ∈ r := by
  obtain ⟨n, hr, hd, ht, hv⟩ := Fix.host_templates
  have key : ∀ file v, Elsewhere n.files c!"file:///home/templates/f.7.jinja" c!"user" file v →
      file = c!"file:///home/templates/f.3.jinja" ∧ v = Fix.userSet := by
    intro file v he
    obtain ⟨vs, hm, hv', hne⟩ := Fix.entry_of hv he
    simp only [List.mem_cons, Prod.mk.injEq, List.not_mem_nil, or_false] at hm
    rcases hm with ⟨rfl, rfl⟩ | ⟨rfl, rfl⟩
    · cases hv'
    · exact ⟨rfl, List.mem_singleton.mp hv'⟩
  obtain ⟨r, h1, h2, _⟩ := C102_templates_refuted Fix.hostEnv Fix.world (Fix.hostCalls c!"templates/f") n 7 c!"templates/f"
    c!"file:///home/templates/f.7.jinja" 10 0 5 ⟨.variable, Fix.tok 0 3 7 c!"user" 2, []⟩ []
    ⟨hr, rfl, by decide, ⟨.parsed .jinja c!"{{ user }}" none, c!"{{ user }}", _, _, hd, ht, Fix.user_on (.parsed .jinja c!"{{ user }}" none) c!"{{ user }}"⟩, Fix.read_of hv List.mem_cons_self, by unfold RangeFits; decide⟩
    (by intro d hd; cases hd) (fun tree text _ _ => Fix.user_no_template tree text _) Fix.onlyFiles_norm
    (by
      intro file v he
      obtain ⟨rfl, rfl⟩ := key file v he
      exact ⟨by decide, by unfold Fits; decide, by unfold RangeFits; decide⟩)
    c!"file:///home/templates/f.3.jinja" Fix.userSet
    ⟨by decide, _, Fix.read_of hv (List.mem_cons_of_mem _ List.mem_cons_self), List.mem_singleton.mpr rfl, by decide, Or.inl rfl⟩
    (containsSub_iff.mp (by decide)) (fun file v he => (key file v he).2) (by decide)
  exact ⟨n, r, hr, h1, h2⟩

end JinjaLsp
