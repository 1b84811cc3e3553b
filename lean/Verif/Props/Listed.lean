import Verif.Props.Settles
/-
  C141: goto-definition leads to entries of the outline.
-/

namespace JinjaLsp
open Spec

namespace Spec

/-- the places an answer of goto-definition leads to -/
def locationsOf : GotoResponse → List Location
  | .scalar l => [l]
  | .array ls => ls

/-- the outline of the file has an entry with this range, whose name is as described -/
def Lists (env : Env) (w : World) (s : Server) (l : Location) (named : Str → Prop) : Prop :=
  ∃ ds, s.handle env w (.documentSymbol l.uri) = .ok (s, [], .symbols (some ds)) ∧ ∃ d ∈ ds, d.range = l.range ∧ d.selectionRange = l.range ∧ named d.name

/-- the URIs under which files are recorded are as the URL parser writes them -/
def KeysNormal (env : Env) (s : Server) : Prop :=
  ∀ key vs, s.files.variables.get? key = some vs → ∀ u, env.urlParse key = some u → u = key

end Spec

theorem lists_of {env : Env} {w : World} {s : Server} {uri : Str} {vs : List Identifier} {v : Identifier} {named : Str → Prop}
    (h : s.files.variables.get? uri = some vs) (hv : v ∈ vs) (hn : named v.name) :
    Lists env w s ⟨uri, ⟨toPosition2 v.start, toPosition2 v.stop⟩⟩ named := by
  refine ⟨_, by simp only [Server.handle, LspFiles.documentSymbols, h]; rfl, _, List.mem_map_of_mem hv, rfl, rfl, hn⟩

theorem located_lists {env : Env} {w : World} {s : Server} (hk : KeysNormal env s) {file n : Str} {all : List Identifier}
    (hf : s.files.variables.get? file = some all) : ∀ {vs : List Identifier} {ls : List Location}, (∀ v ∈ vs, v ∈ all ∧ FirstSegment n v.name) →
      LspFiles.collectLocations env file vs = .ok ls → ∀ l ∈ ls, l.range = Range.zero ∨ Lists env w s l (FirstSegment n)
  | [], ls, _, h => by cases h; simp
  | v :: vs, ls, hv, h => by
    unfold LspFiles.collectLocations at h
    split at h
    · cases h
    · rename_i l hl
      split at h
      · cases h
      · rename_i ls' hls
        cases h
        intro x hx
        rcases List.mem_cons.mp hx with rfl | hx
        · unfold LspFiles.variableLocation at hl
          by_cases hz : v.start = Point.zero ∧ v.stop = Point.zero
          · rw [if_pos hz] at hl
            dsimp only at hl
            split at hl
            · cases hl
            · cases hl
              left
              rw [hz.1, hz.2]
              rfl
          · rw [if_neg hz] at hl
            dsimp only at hl
            split at hl
            · cases hl
            · rename_i u hu
              cases hl
              right
              rw [hk file all hf u hu]
              exact lists_of hf (hv v List.mem_cons_self).1 (hv v List.mem_cons_self).2
        · exact located_lists hk hf (fun v h => hv v (List.mem_cons_of_mem _ h)) hls x hx

theorem collected_lists {env : Env} {w : World} {s : Server} (hk : KeysNormal env s) {uri n : Str} :
    ∀ {fs : List (Str × List Identifier)} {ls : List Location}, (∀ e ∈ fs, s.files.variables.get? e.1 = some e.2) →
      LspFiles.collectFiles env uri n fs = .ok ls → ∀ l ∈ ls, l.range = Range.zero ∨ Lists env w s l (FirstSegment n)
  | [], ls, _, h => by cases h; simp
  | f :: fs, ls, hf, h => by
    unfold LspFiles.collectFiles at h
    split at h
    · exact collected_lists hk (fun e h => hf e (List.mem_cons_of_mem _ h)) h
    · split at h
      · cases h
      · rename_i a ha
        split at h
        · cases h
        · rename_i b hb
          cases h
          intro l hl
          rcases List.mem_append.mp hl with hl | hl
          · refine located_lists hk (hf f List.mem_cons_self) (fun v hv => ?_) ha l hl
            obtain ⟨h1, h2⟩ := List.mem_filter.mp hv
            exact ⟨h1, (LspFiles.firstSegment_iff _ _).mp (of_decide_eq_true h2)⟩
          · exact collected_lists hk (fun e h => hf e (List.mem_cons_of_mem _ h)) hb l hl

theorem template_zero {env : Env} {w : World} {f : LspFiles} {n : Str} {r : GotoResponse} (h : f.templateLocation env w n = some r) :
    ∀ l ∈ locationsOf r, l.range = Range.zero := by
  unfold LspFiles.templateLocation at h
  split at h
  · cases h
  · split at h
    · cases h
    · cases h
      intro l hl
      cases List.mem_singleton.mp hl
      rfl

/-- answers of goto-definition in a template, in terms of what is read under the cursor -/
theorem goto_lists {env : Env} {w : World} {s : Server} (hk : KeysNormal env s) {uri : Str} {pos : Position} {r : GotoResponse}
    (h : s.files.gotoDefinition env w uri pos = .ok (some r)) :
    ∀ l ∈ locationsOf r, l.range = Range.zero ∨ ∃ tree text objects, (s.files.trees .template).get? uri = some tree ∧ s.files.documents.get? uri = some text ∧
      objectsQuery env tree (toPoint pos) text false = .ok objects ∧
      Lists env w s l fun n => (objects.isIdent (toPoint pos) = some n ∧ l.uri = uri) ∨ FirstSegment ((objects.isIdent (toPoint pos)).getD []) n := by
  unfold LspFiles.gotoDefinition at h
  split at h
  · cases h
  · rename_i lang _
    dsimp only at h
    split at h
    · rename_i tree text ht hd
      cases lang with
      | backend =>
        dsimp only at h
        split at h
        · cases h
        · injection h with h
          exact fun l hl => .inl (template_zero h l hl)
      | template =>
        dsimp only at h
        split at h
        · cases h
        · rename_i objects ho
          split at h
          · rename_i r' hloc
            cases h
            cases hid : objects.isIdent (toPoint pos) with
            | none => rw [hid] at hloc; cases hloc
            | some n =>
              rw [hid, Option.bind_some] at hloc
              unfold LspFiles.localDefinition at hloc
              split at hloc
              · cases hloc
              · rename_i vs hv
                split at hloc
                · cases hloc
                · rename_i m hm
                  cases hloc
                  intro l hl
                  cases List.mem_singleton.mp hl
                  obtain ⟨h1, h2⟩ := List.mem_filter.mp (iterMax_some hm).1
                  simp only [Bool.and_eq_true, decide_eq_true_eq] at h2
                  exact .inr ⟨tree, text, objects, ht, hd, ho, lists_of hv h1 (.inl ⟨by rw [hid, h2.1.1], rfl⟩)⟩
          · split at h
            · rename_i r' htl
              cases h
              intro l hl
              obtain ⟨i, _, hi⟩ := Option.bind_eq_some_iff.mp htl
              exact .inl (template_zero hi l hl)
            · split at h
              · cases h
              · rename_i all hall
                cases h
                intro l hl
                rcases collected_lists hk (fun e he => mem_entries.mp he) hall l hl with e | ⟨ds, e1, d, e2, e3, e4, e5⟩
                · exact .inl e
                · exact .inr ⟨tree, text, objects, ht, hd, ho, ds, e1, d, e2, e3, e4, .inr e5⟩
    · cases h

/-! ## C141 -/

/-- **C141** (part) In every state of the server and from every cursor position: each place goto-definition leads to is the beginning of a file, or the
range of an entry of the outline of the file it leads to.  Missing: files recorded under a URI that the URL parser writes differently. -/
theorem C141_listed_partial (env : Env) (w : World) (s s' : Server) (uri : Str) (pos : Position) (out : List Send) (r : GotoResponse) (hk : KeysNormal env s)
    (h : s.handle env w (.goto uri pos) = .ok (s', out, .goto (some r))) :
    ∀ l ∈ locationsOf r, l.range = Range.zero ∨ Lists env w s l fun _ => True := by
  simp only [Server.handle] at h
  split at h
  · cases h
  · rename_i x hx
    cases h
    intro l hl
    rcases goto_lists hk hx l hl with e | ⟨_, _, _, _, _, _, ds, e1, d, e2, e3, e4, _⟩
    · exact .inl e
    · exact .inr ⟨ds, e1, d, e2, e3, e4, trivial⟩

/-- **C141** (names; part) With the cursor on a name of a template, the entry has that name, or that name with attributes.  Missing: as above. -/
theorem C141_named_partial (env : Env) (sx : Syntax) (w : World) (s s' : Server) (uri text : Str) (tree : Tree) (pos : Position) (out : List Send)
    (r : GotoResponse) (es : List Elem) (u : Use) (hk : KeysNormal (env.over sx) s) (hd : s.files.documents.get? uri = some text)
    (ht : (s.files.trees .template).get? uri = some tree) (hs : WellFormed (sx.root tree text)) (hl : Laid (sx.root tree text))
    (hr : ReadsTree sx.digit (sx.root tree text) es) (hw : Elems.Wf es) (hu : .use u ∈ es) (h1 : u.root.start ≤ toPoint pos) (h2 : toPoint pos < u.root.stop)
    (h : s.handle (env.over sx) w (.goto uri pos) = .ok (s', out, .goto (some r))) :
    ∀ l ∈ locationsOf r, l.range = Range.zero ∨ Lists (env.over sx) w s l fun n => n = u.root.text ∨ ∃ attrs, n = u.root.text ++ '.' :: attrs := by
  simp only [Server.handle] at h
  split at h
  · cases h
  · rename_i x hx
    cases h
    obtain ⟨pre, rest, hon⟩ := onUse_tree (env := env) hs hl hr hw hu h1 h2
    obtain ⟨q, hq, hid⟩ := ident_of_use hon
    intro l hl
    rcases goto_lists hk hx l hl with e | ⟨tree', text', objects, e1, e2, e3, ds, e4, d, e5, e6, e7, e8⟩
    · exact .inl e
    · cases ht.symm.trans e1
      cases hd.symm.trans e2
      cases hq.symm.trans e3
      refine .inr ⟨ds, e4, d, e5, e6, e7, ?_⟩
      rw [hid] at e8
      rcases e8 with ⟨e8, _⟩ | e8
      · exact .inl (Option.some.inj e8).symm
      · exact e8.2

/-- **C141** is false for files whose URI the parser rewrites, such as files found at startup in directories with a space in their name: goto-definition leads
to a URI whose outline is empty, although the variable is an entry of the outline of the file. -/
theorem C141_rewritten_refuted (env : Env) (sx : Syntax) (w : World) (s : Server) (uri text : Str) (tree : Tree) (pos : Position)
    (es : List Elem) (u : Use) (ss : List ImpStmt) (hx : fileExt uri = some .template) (hd : s.files.documents.get? uri = some text)
    (ht : (s.files.trees .template).get? uri = some tree) (hs : WellFormed (sx.root tree text)) (hl : Laid (sx.root tree text))
    (hr : ReadsTree sx.digit (sx.root tree text) es) (hw : Elems.Wf es) (hu : .use u ∈ es) (h1 : u.root.start ≤ toPoint pos) (h2 : toPoint pos < u.root.stop)
    (hno : ∀ vars, s.files.variables.get? uri = some vars → ∀ d ∈ vars, ¬ Binds u.root.text (toPoint pos) d)
    (hrefs : Refs sx.options (sx.root tree text).children ss) (hwf : ImpStmt.Wf ss) (hrk : (sx.root tree text).kind = .other)
    (hin : ∀ i ∈ ss, ∀ t ∈ i.names, ¬ (t.start ≤ toPoint pos ∧ toPoint pos ≤ t.stop))
    (hurl : ∀ file v, Elsewhere s.files uri u.root.text file v → env.urlParse (targetOf file v) ≠ none ∧ Fits v)
    (file file' : Str) (v : Identifier) (hv : Elsewhere s.files uri u.root.text file v) (hz : Point.zero < v.stop) (hp : env.urlParse file = some file')
    (hf : s.files.variables.get? file' = none) :
    (∃ ls, s.handle (env.over sx) w (.goto uri pos) = .ok (s, [], .goto (some (.array ls))) ∧
      ∃ l ∈ ls, l = ⟨file', rangeOf v⟩ ∧ l.range ≠ Range.zero ∧ s.handle (env.over sx) w (.documentSymbol l.uri) = .ok (s, [], .symbols none)) ∧
    Lists (env.over sx) w s ⟨file, rangeOf v⟩ fun n => n = v.name := by
  obtain ⟨pre, rest, hon⟩ := onUse_tree (env := env) hs hl hr hw hu h1 h2
  obtain ⟨ls, k1, _, k2⟩ := C36_cross_file_partial (env.over sx) w s.files uri tree text pos hx hd ht pre u rest hon hno
    (noTemplate_refs hrk hrefs hwf hin) hurl
  have hfits := (hurl file v hv).2
  have hne : ¬ (v.start = Point.zero ∧ v.stop = Point.zero) := fun e => Point.lt_irrefl _ (e.2 ▸ hz)
  have ht' : targetOf file v = file := if_neg hne
  refine ⟨⟨ls, by simp only [Server.handle, k1], _, (k2 _).mpr ⟨file, v, hv, rfl⟩, ?_, ?_, ?_⟩, ?_⟩
  · show (⟨((env.over sx).urlParse (targetOf file v)).getD [], rangeOf v⟩ : Location) = _
    rw [ht', show (((env.over sx).urlParse file).getD [] : Str) = file' from congrArg (·.getD []) hp]
  · intro e
    have e' : (rangeOf v).stop = ⟨0, 0⟩ := congrArg Range.stop e
    have hstop : v.stop = Point.zero := by
      have e1 : v.stop.row = 0 := congrArg Position.line e'
      have e2 : v.stop.column = 0 := congrArg Position.character e'
      rcases hs' : v.stop with ⟨a, b⟩
      rw [hs'] at e1 e2
      cases e1; cases e2; rfl
    exact Point.lt_irrefl _ (hstop ▸ hz)
  · show s.handle (env.over sx) w (.documentSymbol (((env.over sx).urlParse (targetOf file v)).getD [])) = _
    rw [ht', show (((env.over sx).urlParse file).getD [] : Str) = file' from congrArg (·.getD []) hp]
    simp only [Server.handle, LspFiles.documentSymbols, hf]
  · obtain ⟨_, vs, hg, hm, _⟩ := hv
    rw [← rangeOf_eq hfits]
    exact lists_of hg hm rfl

/-! ### Examples -/

namespace Fix

/-- the template `{{ x }}` -/
def soloP : Program := outOn 5 c!"x" .done

/-- a URL parser that encodes spaces -/
def encoding : Env := { envTwo with urlParse := fun u => some (u.flatMap fun c => if c = ' ' then c!"%20" else [c]) }

def spacedUri : Str := c!"file:///my app/main.rs"

/-- a backend file passes `x` -/
def passed : Identifier := { Identifier.default with name := c!"x", start := ⟨3, 5⟩, stop := ⟨3, 6⟩, idType := .backendVariable }

def listServer (file : Str) : Server :=
  { server with files := { files with
    documents := (HMap.empty.insert uriA []).insert file c!"rs"
    trees := fun l => match l with
      | .template => HMap.empty.insert uriA treeOne
      | .backend => HMap.empty
    variables := (HMap.empty.insert uriA []).insert file [passed] } }

end Fix

local macro "regular" : term =>
  `((⟨⟨by decide +kernel, by decide +kernel, by decide +kernel⟩, ⟨by decide +kernel, by decide +kernel, by decide +kernel, by decide +kernel⟩,
    by unfold Legible; decide +kernel, by unfold HasError; decide +kernel, by decide +kernel, by decide +kernel, by decide +kernel⟩ : Regular _))

theorem Fix.solo_regular : Regular (Fix.drawRoot Fix.soloP) := regular

theorem Fix.solo_use : .use ⟨.variable, Fix.tk 5 1 c!"x", []⟩ ∈ Fix.plainElems (Fix.drawRoot Fix.soloP) := Fix.uses_mem (by decide +kernel)

/-- `x` leads to the backend file, whose outline lists it -/
example : ∃ l, (Fix.listServer c!"file:///main.rs").handle (Fix.envTwo.over (Fix.synOf Fix.soloP Fix.soloP)) Fix.emptyWorld (.goto Fix.uriA ⟨5, 13⟩) =
      .ok (Fix.listServer c!"file:///main.rs", [], .goto (some (.array [l]))) ∧ l.range = ⟨⟨3, 5⟩, ⟨3, 6⟩⟩ ∧
    Lists (Fix.envTwo.over (Fix.synOf Fix.soloP Fix.soloP)) Fix.emptyWorld (Fix.listServer c!"file:///main.rs") l
      (fun n => n = c!"x" ∨ ∃ attrs, n = c!"x" ++ '.' :: attrs) := by
  have h : (Fix.listServer c!"file:///main.rs").handle (Fix.envTwo.over (Fix.synOf Fix.soloP Fix.soloP)) Fix.emptyWorld (.goto Fix.uriA ⟨5, 13⟩) =
      .ok (Fix.listServer c!"file:///main.rs", [], .goto (some (.array [⟨c!"file:///main.rs", ⟨⟨3, 5⟩, ⟨3, 6⟩⟩⟩]))) := rfl
  refine ⟨_, h, rfl, ?_⟩
  have := C141_named_partial Fix.envTwo (Fix.synOf Fix.soloP Fix.soloP) Fix.emptyWorld _ _ Fix.uriA [] Fix.treeOne ⟨5, 13⟩ _ _
    (Fix.plainElems (Fix.drawRoot Fix.soloP)) ⟨.variable, Fix.tk 5 1 c!"x", []⟩ (fun _ _ _ _ h => (Option.some.inj h).symm) rfl rfl Fix.solo_regular.formed
    Fix.solo_regular.laid (Fix.plainElems_read rfl) (Fix.elems_wf_of (by decide +kernel)) Fix.solo_use (by decide) (by decide) h _ List.mem_cons_self
  rcases this with e | e
  · cases e
  · exact e

/-- in a directory with a space in its name it leads to a file without an outline -/
example : ∃ l, (∃ ls, (Fix.listServer Fix.spacedUri).handle (Fix.encoding.over (Fix.synOf Fix.soloP Fix.soloP)) Fix.emptyWorld (.goto Fix.uriA ⟨5, 13⟩) =
      .ok (Fix.listServer Fix.spacedUri, [], .goto (some (.array ls))) ∧ l ∈ ls) ∧ l.uri = c!"file:///my%20app/main.rs" ∧
    (Fix.listServer Fix.spacedUri).handle (Fix.encoding.over (Fix.synOf Fix.soloP Fix.soloP)) Fix.emptyWorld (.documentSymbol l.uri) =
      .ok (Fix.listServer Fix.spacedUri, [], .symbols none) := by
  have only : ∀ file v, Elsewhere (Fix.listServer Fix.spacedUri).files Fix.uriA c!"x" file v → file = Fix.spacedUri ∧ v = Fix.passed := by
    rintro file v ⟨hne, vs, hg, hm, _⟩
    have hm' : (file, vs) ∈ (Fix.listServer Fix.spacedUri).files.variables.entries := (HMap.get?_eq_some_iff _ _ _).mp hg
    have hl : (Fix.listServer Fix.spacedUri).files.variables.entries = [(Fix.spacedUri, [Fix.passed]), (Fix.uriA, [])] := by decide +kernel
    rw [hl] at hm'
    rcases List.mem_cons.mp hm' with e | e
    · cases e
      exact ⟨rfl, List.mem_singleton.mp hm⟩
    · cases List.mem_singleton.mp e
      exact (hne rfl).elim
  have h := (C141_rewritten_refuted Fix.encoding (Fix.synOf Fix.soloP Fix.soloP) Fix.emptyWorld (Fix.listServer Fix.spacedUri) Fix.uriA [] Fix.treeOne ⟨5, 13⟩
    (Fix.plainElems (Fix.drawRoot Fix.soloP)) ⟨.variable, Fix.tk 5 1 c!"x", []⟩ [] (by decide) rfl rfl Fix.solo_regular.formed Fix.solo_regular.laid
    (Fix.plainElems_read rfl) (Fix.elems_wf_of (by decide +kernel)) Fix.solo_use (by decide) (by decide)
    (fun vars hv d hd => by
      have : vars = [] := (Option.some.inj (hv.symm.trans (by decide +kernel : (Fix.listServer Fix.spacedUri).files.variables.get? Fix.uriA = some []))) 
      rw [this] at hd; cases hd)
    (Refs.other (.inr rfl) (by decide +kernel) .nil) ⟨List.nodup_nil, by simp, by simp⟩ rfl (by simp)
    (fun file v h => by
      obtain ⟨rfl, rfl⟩ := only file v h
      exact ⟨by decide +kernel, by unfold Fits; decide⟩)
    Fix.spacedUri c!"file:///my%20app/main.rs" Fix.passed
    ⟨by decide, [Fix.passed], by decide +kernel, List.mem_cons_self, by decide +kernel⟩ (by decide) (by decide +kernel) (by decide +kernel)).1
  obtain ⟨ls, h1, l, h2, h3, _, h4⟩ := h
  exact ⟨l, ⟨ls, h1, h2⟩, by rw [h3], h4⟩

end JinjaLsp
