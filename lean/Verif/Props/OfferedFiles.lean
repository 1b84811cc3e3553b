import Verif.Props.OneFile
import Verif.Props.TemplateItems
import Verif.Props.Named
/-
  C110: the templates that completion offers are there.
-/

namespace JinjaLsp
open Spec

namespace Spec

/-- the URI belongs to a file on disk, under the path as it is -/
def OnDisk (w : World) (uri : Str) : Prop := ∃ path name, w.canonicalize path = .ok name ∧ uri = c!"file://" ++ name

/-- the message opens, changes or saves only files that are on disk, and does not make the server read the workspace again -/
def AboutDisk (w : World) : Msg → Prop
  | .didOpen u _ | .didChange u _ | .didSave u => OnDisk w u
  | .initialized => False
  | _ => True

/-- The file system is one: `dir` is the canonical path of the templates directory, and a file whose canonical path is below `dir` is found there
from the templates directory.  Canonical paths do not end in a slash. -/
structure Coherent (w : World) (templates dir : Str) : Prop where
  found : ∀ path rel, w.canonicalize path = .ok (dir ++ '/' :: rel) → w.canonicalize (lookupPath templates rel) = .ok (dir ++ '/' :: rel)
  slash : ∀ path, w.canonicalize path ≠ .ok (dir ++ ['/'])

end Spec

/-! ### The templates that are known -/

theorem initialized_known {env : Env} {w : World} {s s' : Server} {out : List Send} {r : Reply}
    (h : s.handle env w .initialized = .ok (s', out, r)) (ho : out ≠ []) :
    (∀ u, Known s'.files u → OnDisk w u) ∧ s'.files.config = s.config := by
  obtain ⟨f, d, hd, _, _, _, rfl⟩ := initialized_inv h ho
  refine ⟨?_, rfl⟩
  change ∀ u, Known f u → OnDisk w u
  refine walkDirs_seen (env := env) (w := w) (fun _ f => ∀ u, Known f u → OnDisk w u) (fun _ _ _ hp _ => hp) ?_ _ [] _ _ ?_ hd
  · intro _ f path l g hp _ hr u hu
    cases hn : w.canonicalize path with
    | error e =>
      unfold LspFiles.readFile at hr
      rw [hn] at hr
      cases hr
      exact hp u hu
    | ok name =>
      by_cases e : u = c!"file://" ++ name
      · exact ⟨path, name, hn, e⟩
      · refine hp u ?_
        obtain ⟨t, ht⟩ := hu
        exact ⟨t, by rw [← ((Frame.readFile hr hn).same u e).tree]; exact ht⟩
  · rintro u ⟨t, ht⟩
    have : (walkStart s.config).trees .template = HMap.empty := by unfold walkStart; dsimp only; split <;> rfl
    rw [this] at ht
    cases ht

theorem aboutDisk_step {env : Env} {w w' : World} {s s' : Server} {m : Msg} {out : List Send} {r : Reply} (hm : AboutDisk w m)
    (hs : ∀ u, Known s.files u → OnDisk w u) (h : s.handle env w' m = .ok (s', out, r)) :
    (∀ u, Known s'.files u → OnDisk w u) ∧ s'.files.config = s.files.config := by
  have frame : ∀ {u}, OnDisk w u → Frame u s.files s'.files → (∀ u, Known s'.files u → OnDisk w u) ∧ s'.files.config = s.files.config := by
    intro u hu hf
    refine ⟨fun u' hu' => ?_, hf.conf.conf⟩
    by_cases e : u' = u
    · rw [e]; exact hu
    · obtain ⟨t, ht⟩ := hu'
      exact hs u' ⟨t, by rw [← (hf.same u' e).tree]; exact ht⟩
  cases handle_files h with
  | query _ hf => rw [hf]; exact ⟨hs, rfl⟩
  | command _ hf => rw [hf]; exact ⟨hs, rfl⟩
  | config _ hf => rw [hf]; exact ⟨hs, rfl⟩
  | «initialize» _ _ hf => rcases hf with hf | hf <;> rw [hf] <;> exact ⟨hs, rfl⟩
  | codeActions _ hf =>
    rw [hf]
    obtain ⟨_, a, _, b, _⟩ := addCodeActions_frame w'.order s.files ‹_›
    refine ⟨fun u hu => hs u ?_, b.conf⟩
    unfold Known at hu ⊢
    rw [a] at hu
    exact hu
  | didOpen u t m hh => exact frame hm (Frame.didOpen hh)
  | didSave u m hh => exact frame hm (Frame.didSave hh)
  | didChange u cs b hh => exact frame hm (Frame.didChange hh)
  | notInitialized _ => exact absurd hm id
  | initialized _ _ _ _ => exact absurd hm id

theorem aboutDisk_run {env : Env} {w : World} : ∀ {h : List (World × Msg)} {s s' : Server}, (∀ e ∈ h, AboutDisk w e.2) →
    (∀ u, Known s.files u → OnDisk w u) → s.run env h = .ok s' → (∀ u, Known s'.files u → OnDisk w u) ∧ s'.files.config = s.files.config
  | [], s, s', _, hs, h => by cases h; exact ⟨hs, rfl⟩
  | e :: es, s, s', hm, hs, h => by
    simp only [Server.run] at h
    split at h
    · cases h
    · rename_i t _ _ ht
      obtain ⟨a, b⟩ := aboutDisk_step (hm e (by simp)) hs ht
      obtain ⟨a', b'⟩ := aboutDisk_run (fun e he => hm e (by simp [he])) a h
      exact ⟨a', b'.trans b⟩

/-- names of files that are there are not reported -/
theorem not_missing {env : Env} {w : World} {s s' : Server} {m : Msg} {uri : Str} {out : List Send} {r : Reply} {ds : Diags} {text name target : Str}
    {tree : Tree} {ss : List ImpStmt} (hm : m.Analyses uri) (he : fileExt uri = some .template) (h : s.handle env w m = .ok (s', out, r))
    (hd : s'.files.documents.get? uri = some text) (ht : (s'.files.trees .template).get? uri = some tree)
    (hv : ∃ vars, s'.files.variables.get? uri = some vars) (hss : ImpStmt.Wf ss)
    (hc : (env.queryMatches .jinjaImports tree text).flatten = ss.flatMap ImpStmt.caps) (ho : out = [.diag (HMap.empty.insert uri ds)])
    (hne : name ≠ []) (hf : w.canonicalize (lookupPath s.files.config.templates name) = .ok target) : ∀ d ∈ missingDiags ds, d.name ≠ name := by
  obtain ⟨vars, hv⟩ := hv
  obtain ⟨ds', h1, h2⟩ := C28_template_partial env w s s' m uri out r text tree vars ss hm he h hd ht hv hss hc
  have hds : ds' = ds := by
    rw [h1] at ho
    injection ho with ho
    injection ho with ho
    have : [(uri, ds')] = [(uri, ds)] := congrArg HMap.entries ho
    cases this; rfl
  subst hds
  intro d hd hn
  have := h2.mem_iff.mp hd
  unfold refReports at this
  obtain ⟨x, hx, rfl⟩ := List.mem_map.mp this
  simp only at hn
  have := (List.mem_filter.mp hx).2
  simp only [Bool.true_and, Bool.or_eq_true, decide_eq_true_eq, hn] at this
  rcases this with h | h
  · exact hne h
  · unfold Absent at h
    rw [hf] at h
    cases h

theorem known_open {env : Env} {w : World} {f g : LspFiles} {n c : Str} {ig : Bool} {m : Option (HMap Str Diags)}
    (hp : ∀ g t o, env.parseFails g t o = false) (he : fileExt n = some .template) (h : f.didOpen env w n c ig = .ok (g, m)) : Known g n := by
  unfold LspFiles.didOpen at h
  rw [he] at h
  simp only at h
  split at h
  · cases h
  · rename_i f1 hf1
    have key : Known f1 n := by
      unfold Known
      rw [(documents_addVariables hf1).2]
      unfold LspFiles.addTree LspFiles.parse
      simp only [hp, if_false, Bool.false_eq_true]
      exact ⟨_, LspFiles.setTree_get ..⟩
    split at h
    · cases h; exact key
    · split at h
      · cases h
      · cases h; exact key
      · cases h; exact key

/-! ### C110 -/

/-- **C110** (part) The workspace was read from disk, and the client opens only files that are there, under URIs without escapes.  Then what completion
offers for the name of a template are names of files that are there: accepting puts the name into the quotes, no later analysis of any template reports
the name as missing as long as the file system stays the same, and what is looked up is the very file.  Missing: `C110_missing_refuted`. -/
theorem C110_offered_partial (env : Env) (w : World) (s s₀ s₁ : Server) (out : List Send) (r : Reply) (h₀ : s.handle env w .initialized = .ok (s₀, out, r))
    (ho : out ≠ []) (h : List (World × Msg)) (hh : ∀ e ∈ h, AboutDisk w e.2) (hr : s₀.run env h = .ok s₁) (dir root : Str)
    (hdir : dir = root ++ undotted s.config.templates) (hne : undotted s.config.templates ≠ []) (hco : Coherent w s.config.templates dir)
    (uri text pre str post typed : Str) (pos : Position) (tr : TriggerKind) (b : Bool) (p q : Point) (hat : At text pre str post p q)
    (hk : s₁.files.completion env uri pos tr = .ok (some (.includedTemplate typed (toRange (p, q)), b)))
    (hall : ∀ u, Selected s₁.files typed u → (∃ rel, u = uriUnder dir rel) ∧ OnlyAfter (undotted s.config.templates) (c!"file://" ++ root) u)
    (hvs : s₁.files.isVscode = false) :
    ∃ items, s₁.handle env w (.completion uri pos tr) = .ok (s₁, [], .completion (some items)) ∧ ∀ i ∈ items,
      (∀ m, accepted m text i = some (pre ++ ('"' :: i.label ++ ['"']) ++ post)) ∧
      w.canonicalize (lookupPath s.config.templates i.label) = .ok (dir ++ '/' :: i.label) ∧
      ∀ (h' : List (World × Msg)) (s₂ s₃ : Server) (m : Msg) (uri' text' : Str) (out' : List Send) (r' : Reply) (ds : Diags) (tree : Tree)
        (ss : List ImpStmt), (∀ e ∈ h', AboutDisk w e.2) → s₁.run env h' = .ok s₂ → s₂.handle env w m = .ok (s₃, out', r') → m.Analyses uri' →
        fileExt uri' = some .template → s₃.files.documents.get? uri' = some text' → (s₃.files.trees .template).get? uri' = some tree →
        (∃ vars, s₃.files.variables.get? uri' = some vars) → ImpStmt.Wf ss →
        (env.queryMatches .jinjaImports tree text').flatten = ss.flatMap ImpStmt.caps → out' = [.diag (HMap.empty.insert uri' ds)] →
        ∀ d ∈ missingDiags ds, d.name ≠ i.label := by
  obtain ⟨k0, c0⟩ := initialized_known h₀ ho
  obtain ⟨k1, c1⟩ := aboutDisk_run hh k0 hr
  have hconf : s₁.files.config = s.config := c1.trans c0
  rw [← hconf] at hdir hne hall
  obtain ⟨items, hi, hl⟩ := C41_labels_partial env w s₁ uri pos tr typed _ b hk dir root hdir hne hall
  refine ⟨items, hi, fun i him => ?_⟩
  have hacc := C41_accepted_partial env w s₁ uri pos tr typed b text pre str post p q hat hk hvs items hi i him
  obtain ⟨path, name, hcan, hu⟩ := k1 _ ((hl i.label).mp (List.mem_map_of_mem him)).1
  have hname : name = dir ++ '/' :: i.label := by
    unfold uriUnder at hu
    rw [List.append_assoc] at hu
    exact (List.append_cancel_left hu).symm
  rw [hname] at hcan
  have hf := hco.found path i.label hcan
  refine ⟨hacc, hf, ?_⟩
  intro h' s₂ s₃ m uri' text' out' r' ds tree ss hh' hr' hm hma hx hd ht hv hss hc hout
  obtain ⟨_, c2⟩ := aboutDisk_run hh' k1 hr'
  refine not_missing (target := dir ++ '/' :: i.label) hma hx hm hd ht hv hss hc hout ?_ (by rw [c2, hconf]; exact hf)
  intro e
  rw [e] at hcan
  exact hco.slash path hcan

/-- **C110 is false otherwise**.  A template that is open but has not been saved, or whose path is escaped in its URI, is offered under a name that does
not exist, and this name is then reported as missing. -/
theorem C110_missing_refuted (env : Env) (w : World) (s s₁ s₃ : Server) (out : List Send) (r : Reply) (dir root rel new : Str)
    (hx : fileExt (uriUnder dir rel) = some .template) (hp : ∀ g t o, env.parseFails g t o = false)
    (h₁ : s.handle env w (.didOpen (uriUnder dir rel) new) = .ok (s₁, out, r))
    (hdir : dir = root ++ undotted s.files.config.templates) (hne : undotted s.files.config.templates ≠ [])
    (uri typed : Str) (pos : Position) (tr : TriggerKind) (b : Bool) (rg : Range)
    (hk : s₁.files.completion env uri pos tr = .ok (some (.includedTemplate typed rg, b)))
    (hall : ∀ u, Selected s₁.files typed u → (∃ rel, u = uriUnder dir rel) ∧ OnlyAfter (undotted s.files.config.templates) (c!"file://" ++ root) u)
    (hty : Typed (if typed = [] then c!"file:///" else typed) (uriUnder dir rel)) (habs : Absent w s.files.config.templates rel) :
    ∃ items, s₁.handle env w (.completion uri pos tr) = .ok (s₁, [], .completion (some items)) ∧ rel ∈ items.map (·.label) ∧
      ∀ (m : Msg) (uri' text' : Str) (out' : List Send) (r' : Reply) (tree : Tree) (ss : List ImpStmt) (x : Ref),
        s₁.handle env w m = .ok (s₃, out', r') → m.Analyses uri' →
        fileExt uri' = some .template → s₃.files.documents.get? uri' = some text' → (s₃.files.trees .template).get? uri' = some tree →
        (∃ vars, s₃.files.variables.get? uri' = some vars) → ImpStmt.Wf ss →
        (env.queryMatches .jinjaImports tree text').flatten = ss.flatMap ImpStmt.caps → x ∈ ImpStmt.refs ss → x.name = rel →
        ∃ ds, out' = [.diag (HMap.empty.insert uri' ds)] ∧ (⟨.templateNotFound, rel, x.start, x.stop⟩ : Report) ∈ missingDiags ds := by
  obtain ⟨hknown, hconf⟩ : Known s₁.files (uriUnder dir rel) ∧ s₁.files.config = s.files.config := by
    cases handle_files h₁ with
    | query hq => cases hq
    | didOpen _ _ m hh => exact ⟨known_open hp hx hh, (Frame.didOpen hh).conf.conf⟩
  rw [← hconf] at hdir hne hall habs
  obtain ⟨items, hi, hl⟩ := C41_labels_partial env w s₁ uri pos tr typed rg b hk dir root hdir hne hall
  refine ⟨items, hi, (hl rel).mpr ⟨hknown, hty⟩, ?_⟩
  intro m uri' text' out' r' tree ss x h hm he hd ht hv hss hc hxs hn
  obtain ⟨vars, hv⟩ := hv
  obtain ⟨ds, h1, h2⟩ := C28_template_partial env w s₁ s₃ m uri' out' r' text' tree vars ss hm he h hd ht hv hss hc
  refine ⟨ds, h1, h2.mem_iff.mpr ?_⟩
  unfold refReports
  refine List.mem_map.mpr ⟨x, List.mem_filter.mpr ⟨hxs, ?_⟩, by rw [hn]⟩
  rw [hn]
  simp [habs]

/-! ### Examples: `/p/templates` holds `x.html` with the text `{% include "a" %}` -/

namespace Fix

def shelf : World where
  canonicalize p := if p = c!"./templates/x.html" ∨ p = c!"/p/templates/x.html" then .ok c!"/p/templates/x.html" else .error .notFound
  readFile p := if p = c!"./templates/x.html" ∨ p = c!"/p/templates/x.html" then some inText else none
  walk d := if d = c!"./templates" then [.file c!"./templates/x.html"] else []
  order := HashOrder.id

def shelfText : Str := c!"{% include \"new.html\" %}"
def shelfStmt : ImpStmt := .include (tok 0 0 24 [] 30) (tok 0 3 10 c!"include" 31) [tok 0 11 21 c!"\"new.html\"" 32]
def shelfEnv : Env := { inEnv with
  queryMatches := fun q _ t => if q = .jinjaImports then (if t = inText then inStmt.caps else shelfStmt.caps).map fun c => [c] else [] }
def shelfServer : Server := { Server.init with config := { JinjaConfig.default with templates := c!"./templates", lang := c!"rust" } }
def shelfNew : Str := c!"file:///p/templates/new.html"

theorem shelf_coherent : Coherent shelf c!"./templates" c!"/p/templates" := by
  refine ⟨fun path rel h => ?_, fun path h => ?_⟩
  · simp only [shelf] at h
    split at h
    · injection h with h
      have : rel = c!"x.html" := by simpa using h.symm
      rw [this]
      rfl
    · cases h
  · simp only [shelf] at h
    split at h
    · injection h with h
      exact absurd h (by decide)
    · cases h

end Fix

/-- after reading the workspace and opening `x.html` again, only names of files that are there are offered -/
example : ∃ s₀ s₁ out r items, Fix.shelfServer.handle Fix.shelfEnv Fix.shelf .initialized = .ok (s₀, out, r) ∧
    s₀.run Fix.shelfEnv [(Fix.shelf, .didOpen Fix.inUri Fix.inText)] = .ok s₁ ∧
    s₁.handle Fix.shelfEnv Fix.shelf (.completion Fix.inUri ⟨0, 13⟩ .invoked) = .ok (s₁, [], .completion (some items)) ∧
    ∀ i ∈ items, ∃ t, Fix.shelf.canonicalize (lookupPath c!"./templates" i.label) = .ok t := by
  have h₀ : ∃ s₀ out r, Fix.shelfServer.handle Fix.shelfEnv Fix.shelf .initialized = .ok (s₀, out, r) ∧ out ≠ [] := ⟨_, _, _, rfl, by simp⟩
  obtain ⟨s₀, out, r, h₀, ho⟩ := h₀
  have h1 : ∃ s₁, s₀.run Fix.shelfEnv [(Fix.shelf, .didOpen Fix.inUri Fix.inText)] = .ok s₁ ∧ s₁.files.isVscode = false ∧
      s₁.files.completion Fix.shelfEnv Fix.inUri ⟨0, 13⟩ .invoked = .ok (some (.includedTemplate c!"a" (toRange (⟨0, 11⟩, ⟨0, 14⟩)), false)) := by
    cases h₀
    exact ⟨_, rfl, rfl, rfl⟩
  obtain ⟨s₁, hr, hvs, hk⟩ := h1
  have hm : ∀ e ∈ [(Fix.shelf, Msg.didOpen Fix.inUri Fix.inText)], AboutDisk Fix.shelf e.2 := by
    intro e he
    rw [List.mem_singleton.mp he]
    exact ⟨c!"./templates/x.html", c!"/p/templates/x.html", rfl, rfl⟩
  have hall : ∀ u, OnDisk Fix.shelf u → u = Fix.inUri := by
    rintro u ⟨path, name, hn, rfl⟩
    simp only [Fix.shelf] at hn
    split at hn
    · injection hn with hn
      rw [← hn]; rfl
    · cases hn
  obtain ⟨items, hi, hl⟩ := C110_offered_partial Fix.shelfEnv Fix.shelf _ s₀ s₁ out r h₀ ho _ hm hr c!"/p/templates" c!"/p" (by decide) (by decide)
    Fix.shelf_coherent Fix.inUri Fix.inText c!"{% include " c!"\"a\"" c!" %}" c!"a" ⟨0, 13⟩ .invoked false ⟨0, 11⟩ ⟨0, 14⟩
    ⟨by decide, by unfold PlainChar; decide, by decide, noLoneCR_line (by decide), by decide, by decide, by decide⟩ hk (by
      rintro u ⟨hu, _⟩
      rw [hall u ((aboutDisk_run hm (initialized_known h₀ ho).1 hr).1 u hu)]
      exact ⟨⟨c!"x.html", by decide⟩, Fix.occurs (by decide)⟩) hvs
  exact ⟨s₀, s₁, out, r, items, h₀, hr, hi, fun i him => ⟨_, (hl i him).2.1⟩⟩

/-- … and after opening `new.html` in the editor without saving it, `new.html` is offered, and reported once accepted and saved -/
example : ∃ s₁ s₃ out r items ds, (Fix.inServer c!"./templates" [] false).handle Fix.shelfEnv Fix.shelf (.didOpen Fix.shelfNew c!"{{ a }}") =
      .ok (s₁, out, r) ∧
    s₁.handle Fix.shelfEnv Fix.shelf (.completion Fix.inUri ⟨0, 13⟩ .invoked) = .ok (s₁, [], .completion (some items)) ∧
    c!"new.html" ∈ items.map (·.label) ∧
    s₁.handle Fix.shelfEnv Fix.shelf (.didOpen Fix.inUri Fix.shelfText) = .ok (s₃, [.diag (HMap.empty.insert Fix.inUri ds)], .none) ∧
    (⟨.templateNotFound, c!"new.html", ⟨0, 11⟩, ⟨0, 21⟩⟩ : Report) ∈ missingDiags ds := by
  have h₁ : ∃ s₁ out r, (Fix.inServer c!"./templates" [] false).handle Fix.shelfEnv Fix.shelf (.didOpen Fix.shelfNew c!"{{ a }}") =
      .ok (s₁, out, r) ∧
      s₁.files.completion Fix.shelfEnv Fix.inUri ⟨0, 13⟩ .invoked = .ok (some (.includedTemplate c!"a" (toRange (⟨0, 11⟩, ⟨0, 14⟩)), false)) ∧
      ∃ s₃ out' r', s₁.handle Fix.shelfEnv Fix.shelf (.didOpen Fix.inUri Fix.shelfText) = .ok (s₃, out', r') ∧ r' = .none ∧
        s₃.files.documents.get? Fix.inUri = some Fix.shelfText ∧ (∃ vars, s₃.files.variables.get? Fix.inUri = some vars) ∧
        ∃ tree, (s₃.files.trees .template).get? Fix.inUri = some tree := by
    exact ⟨_, _, _, rfl, rfl, _, _, _, rfl, rfl, rfl, ⟨_, rfl⟩, _, rfl⟩
  obtain ⟨s₁, out, r, h₁, hk, s₃, out', r', h₃, rfl, hd, hv, tree, ht⟩ := h₁
  have hkn : ∀ u, Known s₁.files u → u = Fix.inUri ∨ u = Fix.shelfNew := by
    rintro u ⟨t, ht⟩
    by_cases h1 : u = Fix.shelfNew
    · exact Or.inr h1
    · cases handle_files h₁ with
      | query hq => cases hq
      | didOpen _ _ m hh =>
        rcases Fix.inTrees_mem [] u t ((((Frame.didOpen hh).same u h1).tree .template).symm.trans ht) with h | h
        · exact Or.inl h
        · cases h
  obtain ⟨items, hi, hl, hm⟩ := C110_missing_refuted Fix.shelfEnv Fix.shelf _ s₁ s₃ out r c!"/p/templates" c!"/p" c!"new.html" c!"{{ a }}" (by decide)
    (fun _ _ _ => rfl) h₁ (by decide) (by decide) Fix.inUri c!"a" ⟨0, 13⟩ .invoked false _ hk (by
      rintro u ⟨hu, _⟩
      rcases hkn u hu with rfl | rfl
      · exact ⟨⟨c!"x.html", by decide⟩, Fix.occurs (by decide)⟩
      · exact ⟨⟨c!"new.html", by decide⟩, Fix.occurs (by decide)⟩) (containsSub_iff.mp (by decide)) rfl
  obtain ⟨ds, h1, h2⟩ := hm (.didOpen Fix.inUri Fix.shelfText) Fix.inUri Fix.shelfText out' _ tree [Fix.shelfStmt] _ h₃ (.opened _) (by decide) hd ht hv
    ⟨by decide, by decide, by decide⟩ (by rfl) (List.mem_singleton.mpr rfl) (by decide)
  exact ⟨s₁, s₃, out, r, items, ds, h₁, hi, hl, h1 ▸ h₃, h2⟩

end JinjaLsp
