import Verif.Props.Order
import Verif.Model.Client
/- (Re)initialisation, configuration and client identity: C50, C51, C52, C54, C55, C56. -/

namespace JinjaLsp
open Spec

/-! ## Which files are loaded -/

/-- the walk found a regular file of a supported kind, whose canonical path and (UTF-8) content can be read -/
structure Spec.Reads (w : World) (is : List WalkItem) (u c : Str) (l : LangType) (path name : Str) : Prop where
  found : .file path ∈ is
  kind : fileExt path = some l
  canonical : w.canonicalize path = .ok name
  content : w.readFile name = some c
  uri : u = c!"file://" ++ name

/-- everything found under the configured directories -/
def Spec.entries (w : World) (c : JinjaConfig) : List WalkItem := (c.templates :: c.backend).flatMap w.walk

theorem Spec.Reads.mono {w : World} {is is' : List WalkItem} {u c path name : Str} {l : LangType} (h : Reads w is u c l path name)
    (hs : ∀ i ∈ is, i ∈ is') : Reads w is' u c l path name := ⟨hs _ h.found, h.kind, h.canonical, h.content, h.uri⟩

theorem readFile_eq {env : Env} {w : World} {f g : LspFiles} {path : Str} {l : LangType} (h : f.readFile env w path l = .ok g) :
    (g = f ∧ ∀ name, w.canonicalize path = .ok name → w.readFile name = none) ∨
      ∃ name c, w.canonicalize path = .ok name ∧ w.readFile name = some c ∧ g.documents = f.documents.insert (c!"file://" ++ name) c ∧
        (LspFiles.addTree env { f with documents := f.documents.insert (c!"file://" ++ name) c } (c!"file://" ++ name) l c).addVariables env
          (c!"file://" ++ name) l c = .ok g := by
  unfold LspFiles.readFile at h
  cases hc : w.canonicalize path with
  | error e => rw [hc] at h; cases h; exact Or.inl ⟨rfl, fun _ hn => by cases hn⟩
  | ok name =>
    rw [hc] at h
    dsimp only at h
    cases hr : w.readFile name with
    | none =>
      rw [hr] at h; cases h
      exact Or.inl ⟨rfl, fun n hn => by cases hn; exact hr⟩
    | some c =>
      rw [hr] at h
      refine Or.inr ⟨name, c, rfl, hr, ?_, h⟩
      rw [(documents_addVariables h).1, documents_addTree]

/-- the documents held are those read so far -/
def DocsLoaded (w : World) (is : List WalkItem) (f : LspFiles) : Prop :=
  ∀ u c, f.documents.get? u = some c ↔ ∃ l path name, Reads w is u c l path name

theorem docsLoaded_skip {w : World} {is : List WalkItem} {f : LspFiles} {i : WalkItem} (h : DocsLoaded w is f)
    (hi : ∀ u c l path name, ¬ Reads w [i] u c l path name) : DocsLoaded w (is ++ [i]) f := by
  intro u c
  rw [h u c]
  refine ⟨fun ⟨l, p, n, hr⟩ => ⟨l, p, n, hr.mono fun i hi => List.mem_append_left _ hi⟩, fun ⟨l, p, n, hr⟩ => ⟨l, p, n, ?_⟩⟩
  rcases List.mem_append.mp hr.found with hf | hf
  · exact ⟨hf, hr.kind, hr.canonical, hr.content, hr.uri⟩
  · exact absurd ⟨hf, hr.kind, hr.canonical, hr.content, hr.uri⟩ (hi u c l p n)

theorem docsLoaded_read {env : Env} {w : World} {is : List WalkItem} {f g : LspFiles} {path : Str} {l : LangType} (h : DocsLoaded w is f)
    (he : fileExt path = some l) (hr : f.readFile env w path l = .ok g) : DocsLoaded w (is ++ [.file path]) g := by
  rcases readFile_eq hr with ⟨rfl, hn⟩ | ⟨name, c, hc, hr, hd, _⟩
  · refine docsLoaded_skip h fun u c l' p n hx => ?_
    have := List.mem_singleton.mp hx.found
    cases this
    have := hn n hx.canonical
    rw [hx.content] at this
    cases this
  · intro u c'
    rw [hd, HMap.get?_insert]
    split
    · rename_i hu
      constructor
      · intro h1; cases h1
        exact ⟨l, path, name, by simp, he, hc, hr, hu⟩
      · rintro ⟨l', p, n, hx⟩
        have : n = name := by
          have := hx.uri.symm.trans hu
          exact List.append_cancel_left this
        subst this
        rw [← hx.content, hr]
    · rename_i hu
      rw [h u c']
      refine ⟨fun ⟨l, p, n, hr⟩ => ⟨l, p, n, hr.mono fun i hi => List.mem_append_left _ hi⟩, fun ⟨l', p, n, hx⟩ => ⟨l', p, n, ?_⟩⟩
      rcases List.mem_append.mp hx.found with hf | hf
      · exact ⟨hf, hx.kind, hx.canonical, hx.content, hx.uri⟩
      · have := List.mem_singleton.mp hf
        cases this
        have h2 := hx.canonical
        rw [hc] at h2
        cases h2
        exact absurd hx.uri hu

/-- induction over a walk, with the entries seen so far -/
theorem walkItems_seen {env : Env} {w : World} (P : List WalkItem → LspFiles → Prop)
    (hskip : ∀ is f i, P is f → (∀ path, i = .file path → fileExt path = none) → P (is ++ [i]) f)
    (hread : ∀ is f path l g, P is f → fileExt path = some l → f.readFile env w path l = .ok g → P (is ++ [.file path]) g) :
    ∀ (is seen : List WalkItem) (f g : LspFiles), P seen f → walkItems env w f is = .ok (some g) → P (seen ++ is) g
  | [], seen, f, g, hp, h => by cases h; rw [List.append_nil]; exact hp
  | .err :: is, seen, f, g, hp, h => by cases h
  | .nonFile p :: is, seen, f, g, hp, h => by
    have := walkItems_seen P hskip hread is (seen ++ [.nonFile p]) f g (hskip _ _ _ hp fun _ e => by cases e) h
    simpa using this
  | .file path :: is, seen, f, g, hp, h => by
    unfold walkItems at h
    cases he : fileExt path with
    | none =>
      rw [he] at h
      have := walkItems_seen P hskip hread is (seen ++ [.file path]) f g (hskip _ _ _ hp fun p e => by cases e; exact he) h
      simpa using this
    | some l =>
      rw [he] at h
      dsimp only at h
      cases hr : f.readFile env w path l with
      | error e => rw [hr] at h; cases h
      | ok f' =>
        rw [hr] at h
        have := walkItems_seen P hskip hread is (seen ++ [.file path]) f' g (hread _ _ _ _ _ hp he hr) h
        simpa using this

theorem walkDirs_seen {env : Env} {w : World} (P : List WalkItem → LspFiles → Prop)
    (hskip : ∀ is f i, P is f → (∀ path, i = .file path → fileExt path = none) → P (is ++ [i]) f)
    (hread : ∀ is f path l g, P is f → fileExt path = some l → f.readFile env w path l = .ok g → P (is ++ [.file path]) g) :
    ∀ (ds : List Str) (seen : List WalkItem) (f g : LspFiles), P seen f → walkDirs env w f ds = .ok (some g) → P (seen ++ ds.flatMap w.walk) g
  | [], seen, f, g, hp, h => by cases h; simpa using hp
  | d :: ds, seen, f, g, hp, h => by
    unfold walkDirs at h
    cases hi : walkItems env w f (w.walk d) with
    | error e => rw [hi] at h; cases h
    | ok r =>
      rw [hi] at h
      cases r with
      | none => cases h
      | some f' =>
        have := walkDirs_seen P hskip hread ds (seen ++ w.walk d) f' g (walkItems_seen P hskip hread _ _ _ _ hp hi) h
        simpa [List.append_assoc] using this

/-- a successful initialisation: its result comes from a successful walk -/
theorem initialized_inv {env : Env} {w : World} {s s' : Server} {out : List Send} {r : Reply}
    (h : s.handle env w .initialized = .ok (s', out, r)) (ho : out ≠ []) :
    ∃ f d, walkDirs env w (walkStart s.config) (s.config.templates :: s.config.backend) = .ok (some f) ∧ f.readTrees env w = .ok d ∧
      out = [.diag d] ∧ (s.config.lang = c!"rust" ∨ s.config.lang = c!"python") ∧
      s' = { s with files := { f with isVscode := s.files.isVscode, config := s.config, mainChannel := true } } := by
  simp only [Server.handle] at h
  unfold Server.onInitialized at h
  by_cases hl : s.config.lang = c!"rust" ∨ s.config.lang = c!"python"
  · rw [if_pos hl] at h
    unfold walkdir at h
    cases hd : walkDirs env w (walkStart s.config) (s.config.templates :: s.config.backend) with
    | error e => rw [hd] at h; cases h
    | ok o =>
      rw [hd] at h
      cases o with
      | none => cases h; exact absurd rfl ho
      | some f =>
        dsimp only at h
        cases ht : f.readTrees env w with
        | error e => rw [ht] at h; cases h
        | ok d => rw [ht] at h; cases h; exact ⟨f, d, rfl, ht, rfl, hl, rfl⟩
  · rw [if_neg hl] at h
    cases h
    exact absurd rfl ho

theorem docsLoaded_start (w : World) (c : JinjaConfig) : DocsLoaded w [] (walkStart c) := by
  intro u t
  have : (walkStart c).documents = HMap.empty := by unfold walkStart; dsimp only; split <;> rfl
  rw [this]
  constructor
  · intro h; cases h
  · rintro ⟨_, _, _, hr⟩
    exact absurd hr.found List.not_mem_nil

/-- **C56** After a successful initialisation the documents held are exactly the supported regular files found under the configured
directories whose content can be read, each with the content on disk. -/
theorem C56_documents (env : Env) (w : World) (s s' : Server) (out : List Send) (r : Reply)
    (h : s.handle env w .initialized = .ok (s', out, r)) (ho : out ≠ []) (u c : Str) :
    s'.files.documents.get? u = some c ↔ ∃ l path name, Reads w (entries w s.config) u c l path name := by
  obtain ⟨f, d, hd, _, _, _, rfl⟩ := initialized_inv h ho
  have := walkDirs_seen (env := env) (w := w) (DocsLoaded w)
    (fun is f i hp hi => docsLoaded_skip hp fun u c l path name hx => by
      have he := List.mem_singleton.mp hx.found
      have := hi path he.symm
      rw [hx.kind] at this
      cases this)
    (fun is f path l g hp he hr => docsLoaded_read hp he hr) _ [] _ _ (docsLoaded_start w s.config) hd
  exact this u c

/-! ## Trees and grammars -/

/-- a regular file that is found keeps its extension when its path is made canonical (walkdir reports links as links, so the last component
of a reported regular file is its own name) -/
def Spec.WalkKeepsClass (w : World) : Prop :=
  ∀ dir path name l, .file path ∈ w.walk dir → w.canonicalize path = .ok name → fileExt path = some l → fileExt (c!"file://" ++ name) = some l

/-- each document has a tree of its kind made from its text, and there are no other trees -/
structure TreesLoaded (g : Grammar) (f : LspFiles) : Prop where
  tree : ∀ u c, f.documents.get? u = some c → ∃ l old, fileExt u = some l ∧ (f.trees l).get? u = some (.parsed (f.grammar l) c old)
  only : ∀ l u t, (f.trees l).get? u = some t → fileExt u = some l ∧ f.documents.get? u ≠ none
  pb : f.parserBackend = g

theorem treesLoaded_read {env : Env} (hp : ∀ g t o, env.parseFails g t o = false) {w : World} {f f' : LspFiles} {g : Grammar} {path : Str}
    {l : LangType} (h : TreesLoaded g f) (hk : ∀ name, w.canonicalize path = .ok name → fileExt (c!"file://" ++ name) = some l)
    (hr : f.readFile env w path l = .ok f') : TreesLoaded g f' := by
  rcases readFile_eq hr with ⟨rfl, hn⟩ | ⟨name, c, hc, hcon, hd, hv⟩
  · exact h
  · have hfr := Frame.readFile hr hc
    have hk := hk name hc
    have htree : ∃ old, (f'.trees l).get? (c!"file://" ++ name) = some (.parsed (f'.grammar l) c old) := by
      have := treeOf_addTree hp { f with documents := f.documents.insert (c!"file://" ++ name) c } (c!"file://" ++ name) l c
      exact treeOf_congr this (documents_addVariables hv).2 (Frame.addVariables hv).conf
    refine ⟨?_, ?_, hfr.conf.pb.trans h.pb⟩
    · intro u t ht
      by_cases hu : u = c!"file://" ++ name
      · subst hu
        rw [hd, HMap.get?_insert_self] at ht
        cases ht
        obtain ⟨old, ho⟩ := htree
        exact ⟨l, old, hk, ho⟩
      · rw [(hfr.same u hu).doc] at ht
        obtain ⟨l', old, h1, h2⟩ := h.tree u t ht
        exact ⟨l', old, h1, by rw [(hfr.same u hu).tree, h2, grammar_conf hfr.conf]⟩
    · intro l' u t ht
      by_cases hu : u = c!"file://" ++ name
      · subst hu
        refine ⟨?_, by rw [hd, HMap.get?_insert_self]; simp⟩
        by_cases hl : l' = l
        · subst hl; exact hk
        · have : (f'.trees l').get? (c!"file://" ++ name) = (f.trees l').get? (c!"file://" ++ name) := by
            rw [(documents_addVariables hv).2]
            unfold LspFiles.addTree LspFiles.parse
            simp only [hp]
            simp [LspFiles.setTree, hl]
          rw [this] at ht
          exact (h.only l' _ t ht).1
      · rw [(hfr.same u hu).tree] at ht
        rw [(hfr.same u hu).doc]
        exact h.only l' u t ht

theorem treesLoaded_start (c : JinjaConfig) : TreesLoaded (if c.lang = c!"python" then .python else .rust) (walkStart c) := by
  have hd : (walkStart c).documents = HMap.empty := by unfold walkStart; dsimp only; split <;> rfl
  have ht : (walkStart c).trees = fun _ => HMap.empty := by unfold walkStart; dsimp only; split <;> rfl
  refine ⟨?_, ?_, ?_⟩
  · intro u c h; rw [hd] at h; cases h
  · intro l u t h; rw [ht] at h; cases h
  · unfold walkStart; dsimp only; split <;> rfl

theorem treesLoaded_walk {env : Env} (hp : ∀ g t o, env.parseFails g t o = false) {w : World} (hk : WalkKeepsClass w) {c : JinjaConfig}
    {f : LspFiles} (h : walkDirs env w (walkStart c) (c.templates :: c.backend) = .ok (some f)) :
    TreesLoaded (if c.lang = c!"python" then .python else .rust) f := by
  have key : ∀ (ds : List Str) (seen : List WalkItem) (f g : LspFiles),
      (TreesLoaded (if c.lang = c!"python" then .python else .rust) f) → walkDirs env w f ds = .ok (some g) →
      TreesLoaded (if c.lang = c!"python" then .python else .rust) g := by
    intro ds
    induction ds with
    | nil => intro _ f g hf h; cases h; exact hf
    | cons d ds ih =>
      intro seen f g hf h
      unfold walkDirs at h
      cases hi : walkItems env w f (w.walk d) with
      | error e => rw [hi] at h; cases h
      | ok r =>
        rw [hi] at h
        cases r with
        | none => cases h
        | some f' =>
          refine ih seen f' g ?_ h
          have := walkItems_seen (env := env) (w := w)
            (fun is f => (∀ i ∈ is, i ∈ w.walk d) → TreesLoaded (if c.lang = c!"python" then .python else .rust) f)
            (fun is f i hf _ hs => hf fun x hx => hs x (by simp [hx]))
            (fun is f path l g hf he hr hs => treesLoaded_read hp (hf fun x hx => hs x (by simp [hx]))
              (fun name hc => hk d path name l (hs _ (by simp)) hc he) hr) (w.walk d) [] f f' (fun _ => hf) hi
          exact this (by simp)
  exact key _ [] _ _ (treesLoaded_start c) h

/-- **C56** Each document is parsed exactly with the grammar of its kind: templates with the template grammar, source files with the python
grammar exactly when the configured language is python (else rust); there are no other trees. -/
theorem C56_trees (env : Env) (hp : ∀ g t o, env.parseFails g t o = false) (w : World) (hk : WalkKeepsClass w) (s s' : Server)
    (out : List Send) (r : Reply) (h : s.handle env w .initialized = .ok (s', out, r)) (ho : out ≠ []) (l : LangType) (u : Str) :
    (∀ t, (s'.files.trees l).get? u = some t → fileExt u = some l ∧ ∃ c old, s'.files.documents.get? u = some c ∧
      t = .parsed (match l with | .template => .jinja | .backend => if s.config.lang = c!"python" then .python else .rust) c old) ∧
    (∀ c, s'.files.documents.get? u = some c → fileExt u = some l → (s'.files.trees l).get? u ≠ none) := by
  obtain ⟨f, d, hd, _, _, _, rfl⟩ := initialized_inv h ho
  have ht := treesLoaded_walk hp hk hd
  have hg : f.grammar l = (match l with | .template => .jinja | .backend => if s.config.lang = c!"python" then .python else .rust) := by
    cases l with
    | template => rfl
    | backend => exact ht.pb
  constructor
  · intro t h1
    have h1 : (f.trees l).get? u = some t := h1
    obtain ⟨h2, h3⟩ := ht.only l u t h1
    refine ⟨h2, ?_⟩
    obtain ⟨c, hc⟩ := Option.ne_none_iff_exists'.mp h3
    obtain ⟨l', old, h4, h5⟩ := ht.tree u c hc
    rw [h2] at h4; cases h4
    rw [h1] at h5; cases h5
    exact ⟨c, old, hc, by rw [hg]⟩
  · intro c hc he
    obtain ⟨l', old, h4, h5⟩ := ht.tree u c hc
    rw [he] at h4; cases h4
    show (f.trees l).get? u ≠ none
    rw [h5]
    simp

/-- **C56** The diagnostics computed at start-up: one list for each template that can be analysed, nothing for other files. -/
theorem C56_diagnostics (env : Env) (hp : ∀ g t o, env.parseFails g t o = false) (w : World) (hk : WalkKeepsClass w) (s s' : Server)
    (out : List Send) (r : Reply) (h : s.handle env w .initialized = .ok (s', out, r)) (ho : out ≠ []) :
    ∃ d, out = [.diag d] ∧ ∀ u,
      (∀ ds, d.get? u = some ds → fileExt u = some .template ∧ s'.files.readTree env w u = .ok (some ds)) ∧
      (∀ ds, fileExt u = some .template → s'.files.readTree env w u = .ok (some ds) → d.get? u = some ds) := by
  obtain ⟨f, d, hd, hr, rfl, _, rfl⟩ := initialized_inv h ho
  have ht := treesLoaded_walk hp hk hd
  have hconf : f.config = s.config := by
    have := walkDirs_seen (env := env) (w := w) (fun _ f => f.config = s.config) (fun _ _ _ hf _ => hf)
      (fun _ f path l g hf _ hr => by
        rcases readFile_eq hr with ⟨rfl, _⟩ | ⟨name, c, hc, _⟩
        · exact hf
        · exact (Frame.readFile hr hc).conf.conf.trans hf) _ [] _ _ (by unfold walkStart; dsimp only; split <;> rfl) hd
    exact this
  have hrt : ∀ u, LspFiles.readTree env w { f with isVscode := s.files.isVscode, config := s.config, mainChannel := true } u =
      f.readTree env w u := by
    intro u
    unfold LspFiles.readTree
    rw [← hconf]
  refine ⟨d, rfl, fun u => ?_⟩
  unfold LspFiles.readTrees at hr
  obtain ⟨d', h1, h2⟩ := readTreesLoop_get (env := env) (w := w) (f := f) ((w.order.shuffle 4 (f.trees .template).entries).map Prod.fst) HMap.empty
  rw [h1] at hr
  cases hr
  obtain ⟨v, h3, h4⟩ := h2 u
  have hmem : u ∈ (w.order.shuffle 4 (f.trees .template).entries).map Prod.fst ↔ ∃ t, (f.trees .template).get? u = some t := by
    rw [((w.order.perm 4 (f.trees .template).entries).map Prod.fst).mem_iff]
    have := HMap.get?_isSome_iff (f.trees .template) u
    rw [← Option.isSome_iff_exists]
    exact this.symm
  show (∀ ds, d.get? u = some ds → fileExt u = some .template ∧ LspFiles.readTree env w _ u = .ok (some ds)) ∧
    (∀ ds, fileExt u = some .template → LspFiles.readTree env w _ u = .ok (some ds) → d.get? u = some ds)
  rw [hrt u, h3]
  constructor
  · intro ds hds
    rw [h4] at hds
    by_cases hu : u ∈ (w.order.shuffle 4 (f.trees .template).entries).map Prod.fst
    · rw [if_pos hu] at hds
      obtain ⟨t, h5⟩ := hmem.mp hu
      refine ⟨(ht.only .template u t h5).1, ?_⟩
      cases v with
      | none => cases hds
      | some x => cases hds; rfl
    · rw [if_neg hu] at hds
      cases hds
  · intro ds he hds
    cases hds
    have hu : u ∈ (w.order.shuffle 4 (f.trees .template).entries).map Prod.fst := by
      refine hmem.mpr ?_
      unfold LspFiles.readTree at h3
      cases hdoc : f.documents.get? u with
      | none => rw [hdoc] at h3; cases h3
      | some c =>
        rw [hdoc, he] at h3
        dsimp only at h3
        cases htr : (f.trees .template).get? u with
        | none => rw [htr] at h3; cases h3
        | some t => exact ⟨t, rfl⟩
    rw [h4, if_pos hu]
    rfl

/-- a python project: two templates (one of them unreadable), a source file, a file of no interest -/
def Fix.tree : World where
  canonicalize := .ok
  readFile := fun p => if p = c!"/t/a.html" then some c!"aaa" else if p = c!"/s/m.py" then some c!"m" else if p = c!"/t/n.txt" then some c!"n" else none
  walk := fun d => if d = c!"/t" then [.nonFile c!"/t", .file c!"/t/a.html", .file c!"/t/bad.html", .file c!"/t/n.txt"]
    else if d = c!"/s" then [.file c!"/s/m.py"] else [.err]
  order := HashOrder.id

def Fix.project : JinjaConfig := { JinjaConfig.default with lang := c!"python", templates := c!"/t", backend := [c!"/s"] }

theorem Fix.tree_keeps : WalkKeepsClass Fix.tree := by
  intro d p n l _ h hl
  cases h
  exact fileExt_fileUri p l hl

example : ∃ s' out r, ({ Server.init with config := Fix.project } : Server).handle Fix.env Fix.tree .initialized = .ok (s', out, r) ∧ out ≠ [] ∧
    (∀ g t o, Fix.env.parseFails g t o = false) ∧ WalkKeepsClass Fix.tree ∧
    s'.files.documents.get? c!"file:///t/a.html" = some c!"aaa" ∧ s'.files.documents.get? c!"file:///t/n.txt" = none ∧
    (s'.files.trees .backend).get? c!"file:///s/m.py" = some (.parsed .python c!"m" none) :=
  ⟨_, _, _, rfl, List.cons_ne_nil _ _, fun _ _ _ => rfl, Fix.tree_keeps, rfl, rfl, rfl⟩

/-! ## C51 -/

theorem walkItems_stop {env : Env} {w : World} : ∀ (is : List WalkItem) (f : LspFiles) (g : Option LspFiles), .err ∈ is →
    walkItems env w f is = .ok g → g = none
  | [], _, _, h, _ => absurd h List.not_mem_nil
  | .err :: _, _, _, _, h => by cases h; rfl
  | .nonFile _ :: is, f, g, he, h => walkItems_stop is f g (by simpa using he) h
  | .file path :: is, f, g, he, h => by
    have he : .err ∈ is := by simpa using he
    unfold walkItems at h
    cases hk : fileExt path with
    | none => rw [hk] at h; exact walkItems_stop is f g he h
    | some l =>
      rw [hk] at h
      dsimp only at h
      cases hr : f.readFile env w path l with
      | error e => rw [hr] at h; cases h
      | ok f' => rw [hr] at h; exact walkItems_stop is f' g he h

theorem walkDirs_stop {env : Env} {w : World} : ∀ (ds : List Str) (f : LspFiles) (g : Option LspFiles), .err ∈ ds.flatMap w.walk →
    walkDirs env w f ds = .ok g → g = none
  | [], _, _, h, _ => absurd h List.not_mem_nil
  | d :: ds, f, g, he, h => by
    unfold walkDirs at h
    cases hi : walkItems env w f (w.walk d) with
    | error e => rw [hi] at h; cases h
    | ok r =>
      rw [hi] at h
      cases r with
      | none => cases h; rfl
      | some f' =>
        rcases List.mem_append.mp (by simpa using he : .err ∈ w.walk d ++ ds.flatMap w.walk) with h1 | h1
        · cases walkItems_stop _ _ _ h1 hi
        · exact walkDirs_stop ds f' g h1 h

theorem readFile_ok {env : Env} (hp : ∀ g t o, env.parseFails g t o = false) (hr : ∀ g t o, Readable env (.parsed g t o) t) (w : World)
    (f : LspFiles) (path : Str) (l : LangType) : ∃ g, f.readFile env w path l = .ok g := by
  unfold LspFiles.readFile
  cases w.canonicalize path with
  | error e => exact ⟨_, rfl⟩
  | ok name =>
    dsimp only
    cases w.readFile name with
    | none => exact ⟨_, rfl⟩
    | some c =>
      dsimp only
      refine addVariables_ok fun hl t ht => ?_
      subst hl
      obtain ⟨old, ho⟩ := treeOf_addTree hp { f with documents := f.documents.insert (c!"file://" ++ name) c } (c!"file://" ++ name) .template c
      rw [ho] at ht
      cases ht
      exact hr _ _ _

theorem walkItems_ok {env : Env} (hp : ∀ g t o, env.parseFails g t o = false) (hr : ∀ g t o, Readable env (.parsed g t o) t) (w : World) :
    ∀ (is : List WalkItem) (f : LspFiles), ∃ g, walkItems env w f is = .ok g
  | [], f => ⟨_, rfl⟩
  | .err :: _, f => ⟨_, rfl⟩
  | .nonFile _ :: is, f => walkItems_ok hp hr w is f
  | .file path :: is, f => by
    unfold walkItems
    cases hk : fileExt path with
    | none => exact walkItems_ok hp hr w is f
    | some l =>
      obtain ⟨g, hg⟩ := readFile_ok hp hr w f path l
      dsimp only
      rw [hg]
      exact walkItems_ok hp hr w is g

theorem walkDirs_ok {env : Env} (hp : ∀ g t o, env.parseFails g t o = false) (hr : ∀ g t o, Readable env (.parsed g t o) t) (w : World) :
    ∀ (ds : List Str) (f : LspFiles), ∃ g, walkDirs env w f ds = .ok g
  | [], f => ⟨_, rfl⟩
  | d :: ds, f => by
    unfold walkDirs
    obtain ⟨g, hg⟩ := walkItems_ok hp hr w (w.walk d) f
    rw [hg]
    cases g with
    | none => exact ⟨_, rfl⟩
    | some g => exact walkDirs_ok hp hr w ds g

/-- **C51** With an unsupported language, (re)initialisation changes nothing and nothing is sent to be published. -/
theorem C51_language (env : Env) (w : World) (s : Server) (h1 : s.config.lang ≠ c!"rust") (h2 : s.config.lang ≠ c!"python") :
    s.handle env w .initialized = .ok (s, [], .none) := by
  simp only [Server.handle, Server.onInitialized]
  rw [if_neg (by simp [h1, h2])]

example : ({ Fix.project with lang := c!"go" } : JinjaConfig).lang ≠ c!"rust" ∧ ({ Fix.project with lang := c!"go" } : JinjaConfig).lang ≠ c!"python" :=
  ⟨by decide, by decide⟩

/-- **C51** If walking a configured directory fails anywhere, however much has been read before, (re)initialisation changes nothing and nothing
is sent to be published. -/
theorem C51_walk (env : Env) (hp : ∀ g t o, env.parseFails g t o = false) (hr : ∀ g t o, Readable env (.parsed g t o) t) (w : World)
    (s : Server) (dir : Str) (hd : dir = s.config.templates ∨ dir ∈ s.config.backend) (he : .err ∈ w.walk dir) :
    s.handle env w .initialized = .ok (s, [], .none) := by
  simp only [Server.handle, Server.onInitialized, walkdir]
  by_cases hl : s.config.lang = c!"rust" ∨ s.config.lang = c!"python"
  · obtain ⟨g, hg⟩ := walkDirs_ok hp hr w (s.config.templates :: s.config.backend) (walkStart s.config)
    have := walkDirs_stop _ _ _ (List.mem_flatMap.mpr ⟨dir, by simpa using hd, he⟩) hg
    rw [if_pos hl, hg, this]
  · rw [if_neg hl]

/-- **C51** Conversely these are the only reasons: with a supported language and directories that can be walked, initialisation takes place. -/
theorem C51_otherwise (env : Env) (hp : ∀ g t o, env.parseFails g t o = false) (hr : ∀ g t o, Readable env (.parsed g t o) t) (w : World)
    (s : Server) (hl : s.config.lang = c!"rust" ∨ s.config.lang = c!"python")
    (he : ∀ dir, dir = s.config.templates ∨ dir ∈ s.config.backend → .err ∉ w.walk dir) :
    ∃ s' d, s.handle env w .initialized = .ok (s', [.diag d], .none) := by
  have items : ∀ (is : List WalkItem) (f : LspFiles), .err ∉ is → ∃ g, walkItems env w f is = .ok (some g) := by
    intro is
    induction is with
    | nil => intro f _; exact ⟨f, rfl⟩
    | cons i is ih =>
      intro f hn
      have hn' : WalkItem.err ∉ is := fun h => hn (by simp [h])
      cases i with
      | err => exact absurd (by simp) hn
      | nonFile p => exact ih f hn'
      | file path =>
        unfold walkItems
        cases hk : fileExt path with
        | none => exact ih f hn'
        | some l =>
          obtain ⟨g, hg⟩ := readFile_ok hp hr w f path l
          dsimp only
          rw [hg]
          exact ih g hn'
  have dirs : ∀ (ds : List Str) (f : LspFiles), (∀ d ∈ ds, .err ∉ w.walk d) → ∃ g, walkDirs env w f ds = .ok (some g) := by
    intro ds
    induction ds with
    | nil => intro f _; exact ⟨f, rfl⟩
    | cons d ds ih =>
      intro f hn
      unfold walkDirs
      obtain ⟨g, hg⟩ := items (w.walk d) f (hn d (by simp))
      rw [hg]
      exact ih g fun x hx => hn x (by simp [hx])
  obtain ⟨g, hg⟩ := dirs (s.config.templates :: s.config.backend) (walkStart s.config) (fun d hd => he d (by simpa using hd))
  obtain ⟨d, hd, _⟩ := readTreesLoop_get (env := env) (w := w) (f := g) ((w.order.shuffle 4 (g.trees .template).entries).map Prod.fst) HMap.empty
  refine ⟨{ s with files := { g with isVscode := s.files.isVscode, config := s.config, mainChannel := true } }, d, ?_⟩
  simp only [Server.handle, Server.onInitialized, walkdir]
  rw [if_pos hl, hg]
  dsimp only
  unfold LspFiles.readTrees
  rw [hd]

/-- the walk of the second directory fails after the first has been read -/
example : (∀ g t o, Fix.env.parseFails g t o = false) ∧ (∀ g t o, Readable Fix.env (.parsed g t o) t) ∧
    (.err ∈ Fix.tree.walk c!"/gone") ∧ c!"/gone" ∈ ({ Fix.project with backend := [c!"/s", c!"/gone"] } : JinjaConfig).backend ∧
    (∃ s' d, ({ Server.init with config := Fix.project } : Server).handle Fix.env Fix.tree .initialized = .ok (s', [.diag d], .none)) :=
  ⟨fun _ _ _ => rfl, fun _ _ _ c hc => by simp [Fix.env] at hc, by decide, by decide, _, _, rfl⟩

/-! ## C50 -/

/-- **C50** (first half) After a successful (re)initialisation the workspace depends on the configuration and the disk only: two servers with
the same configuration end up with the same workspace and send the same diagnostics, whatever happened before (each keeps its own client flag). -/
theorem C50_function_partial (env : Env) (w : World) (s t s' t' : Server) (os ot : List Send) (rs rt : Reply) (hc : s.config = t.config)
    (hs : s.handle env w .initialized = .ok (s', os, rs)) (ho : os ≠ []) (ht : t.handle env w .initialized = .ok (t', ot, rt)) :
    ot = os ∧ t'.files = { s'.files with isVscode := t.files.isVscode } := by
  obtain ⟨f, d, hd, hr, rfl, hl, rfl⟩ := initialized_inv hs ho
  rw [hc] at hd hl
  have : t.handle env w .initialized =
      .ok ({ t with files := { f with isVscode := t.files.isVscode, config := t.config, mainChannel := true } }, [.diag d], .none) := by
    simp only [Server.handle, Server.onInitialized, walkdir]
    rw [if_pos hl, hd]
    dsimp only
    rw [hr]
  rw [this] at ht
  cases ht
  exact ⟨rfl, by rw [hc]⟩

/-- **C50** (second half, refuted) Whatever document the editor holds with a text that differs from the file on disk: after the next
successful (re)initialisation the server no longer has that text. -/
theorem C50_open_text_refuted (env : Env) (w w' : World) (s s1 s2 : Server) (uri text : Str) (o1 o2 : List Send) (r1 r2 : Reply)
    (_ : s.handle env w (.didOpen uri text) = .ok (s1, o1, r1)) (h2 : s1.handle env w' .initialized = .ok (s2, o2, r2)) (ho : o2 ≠ [])
    (hdisk : ∀ name, uri = c!"file://" ++ name → w'.readFile name ≠ some text) : s2.files.documents.get? uri ≠ some text := by
  intro hx
  obtain ⟨l, p, n, hr⟩ := (C56_documents env w' s1 s2 o2 r2 h2 ho uri text).mp hx
  exact hdisk n hr.uri hr.content

/-- the unsaved text of an open template is replaced by the older text on disk -/
example : ∃ s1 s2 o1 o2 r1 r2, ({ Server.init with config := Fix.project } : Server).handle Fix.env Fix.tree (.didOpen c!"file:///t/a.html" c!"typed") =
      .ok (s1, o1, r1) ∧ s1.handle Fix.env Fix.tree .initialized = .ok (s2, o2, r2) ∧ o2 ≠ [] ∧
    s1.files.documents.get? c!"file:///t/a.html" = some c!"typed" ∧ s2.files.documents.get? c!"file:///t/a.html" = some c!"aaa" ∧
    (∀ name, c!"file:///t/a.html" = c!"file://" ++ name → Fix.tree.readFile name ≠ some c!"typed") := by
  refine ⟨_, _, _, _, _, _, rfl, rfl, List.cons_ne_nil _ _, rfl, rfl, ?_⟩
  intro name h
  have : name = c!"/t/a.html" := (List.append_cancel_left (as := c!"file://") (bs := c!"/t/a.html") h).symm
  subst this
  decide

/-- **C50** (what holds of the second half) A document that has been saved and lies in a configured directory keeps its text. -/
theorem C50_saved_partial (env : Env) (w : World) (s s' : Server) (out : List Send) (r : Reply)
    (h : s.handle env w .initialized = .ok (s', out, r)) (ho : out ≠ []) (dir path name text : Str) (l : LangType)
    (hd : dir = s.config.templates ∨ dir ∈ s.config.backend) (hf : .file path ∈ w.walk dir) (he : fileExt path = some l)
    (hc : w.canonicalize path = .ok name) (hr : w.readFile name = some text) :
    s'.files.documents.get? (c!"file://" ++ name) = some text :=
  (C56_documents env w s s' out r h ho _ _).mpr
    ⟨l, path, name, List.mem_flatMap.mpr ⟨dir, by simpa using hd, hf⟩, he, hc, hr, rfl⟩

example : ∃ s' out r, ({ Server.init with config := Fix.project } : Server).handle Fix.env Fix.tree .initialized = .ok (s', out, r) ∧ out ≠ [] ∧
    c!"/s" ∈ Fix.project.backend ∧ .file c!"/s/m.py" ∈ Fix.tree.walk c!"/s" ∧ fileExt c!"/s/m.py" = some .backend ∧
    Fix.tree.canonicalize c!"/s/m.py" = .ok c!"/s/m.py" ∧ Fix.tree.readFile c!"/s/m.py" = some c!"m" :=
  ⟨_, _, _, rfl, List.cons_ne_nil _ _, by decide, by decide, by decide, rfl, by decide⟩

/-! ## C52 -/

/-- a project file with a valid section -/
def Spec.ValidFile (env : Env) (w : World) (file : Str) (c : JinjaConfig) : Prop :=
  ∃ t, w.readFile file = some t ∧ t ≠ [] ∧ env.tomlConfig t = some c

/-- the first project file with a valid section -/
def Spec.ProjectConfig (env : Env) (w : World) (c : JinjaConfig) : Prop :=
  ValidFile env w c!"pyproject.toml" c ∨
  (¬ (∃ c', ValidFile env w c!"pyproject.toml" c') ∧ ValidFile env w c!"Cargo.toml" c) ∨
  (¬ (∃ c', ValidFile env w c!"pyproject.toml" c') ∧ ¬ (∃ c', ValidFile env w c!"Cargo.toml" c') ∧ ValidFile env w c!"jinja-lsp.toml" c)

theorem searchIn_valid {env : Env} {w : World} {file : Str} {files : List Str} {c : JinjaConfig} (h : ValidFile env w file c) :
    searchConfigIn env w (file :: files) = some { c with userDefined := true } := by
  obtain ⟨t, h1, h2, h3⟩ := h
  unfold searchConfigIn
  have : t.isEmpty = false := by cases t <;> simp_all
  simp [h1, this, h3]

theorem searchIn_invalid {env : Env} {w : World} {file : Str} {files : List Str} (h : ¬ ∃ c, ValidFile env w file c) :
    searchConfigIn env w (file :: files) = searchConfigIn env w files := by
  conv => lhs; unfold searchConfigIn
  dsimp only
  cases hr : w.readFile file with
  | none => simp
  | some t =>
    cases t with
    | nil => simp
    | cons a t =>
      cases hc : env.tomlConfig (a :: t) with
      | none => simp [hc]
      | some c => exact absurd ⟨c, a :: t, hr, by simp, hc⟩ h

theorem searchConfig_some {env : Env} {w : World} {c : JinjaConfig} (h : ProjectConfig env w c) :
    searchConfig env w = some { c with userDefined := true } := by
  unfold searchConfig
  rcases h with h | ⟨h1, h⟩ | ⟨h1, h2, h⟩
  · exact searchIn_valid h
  · rw [searchIn_invalid h1]; exact searchIn_valid h
  · rw [searchIn_invalid h1, searchIn_invalid h2]; exact searchIn_valid h

theorem searchConfig_none {env : Env} {w : World} (h : ¬ ∃ c, ProjectConfig env w c) : searchConfig env w = none := by
  have h1 : ¬ ∃ c, ValidFile env w c!"pyproject.toml" c := fun ⟨c, hc⟩ => h ⟨c, Or.inl hc⟩
  have h2 : ¬ ∃ c, ValidFile env w c!"Cargo.toml" c := fun ⟨c, hc⟩ => h ⟨c, Or.inr (Or.inl ⟨h1, hc⟩)⟩
  have h3 : ¬ ∃ c, ValidFile env w c!"jinja-lsp.toml" c := fun ⟨c, hc⟩ => h ⟨c, Or.inr (Or.inr ⟨h1, h2, hc⟩)⟩
  unfold searchConfig
  rw [searchIn_invalid h1, searchIn_invalid h2, searchIn_invalid h3]
  rfl

/-- **C52** Valid options of the client win, whatever the project files say. -/
theorem C52_options (env : Env) (w : World) (s s' : Server) (client : Option Str) (c : JinjaConfig) (out : List Send) (r : Reply)
    (h : s.handle env w (.initialize client (some (some c))) = .ok (s', out, r)) : s'.config = { c with userDefined := true } := by
  simp only [Server.handle] at h
  cases h
  rfl

/-- **C52** Without valid options the first project file with a valid section wins; without such a file the configuration stays. -/
theorem C52_project (env : Env) (w : World) (s s' : Server) (client : Option Str) (options : Option (Option JinjaConfig))
    (hopt : ∀ c, options ≠ some (some c)) (out : List Send) (r : Reply)
    (h : s.handle env w (.initialize client options) = .ok (s', out, r)) :
    (∀ c, ProjectConfig env w c → s'.config = { c with userDefined := true }) ∧
    ((¬ ∃ c, ProjectConfig env w c) → s'.config = s.config) := by
  simp only [Server.handle] at h
  cases h
  have : (s.onInitialize env w client options).config = (searchConfig env w).getD s.config := by
    unfold Server.onInitialize
    cases options with
    | none => rfl
    | some o =>
      cases o with
      | none => rfl
      | some c => exact absurd rfl (hopt c)
  rw [this]
  exact ⟨fun c hc => by rw [searchConfig_some hc]; rfl, fun hn => by rw [searchConfig_none hn]; rfl⟩

/-- the message carries a new valid configuration or starts a session -/
def Spec.Configures : Msg → Prop
  | .initialize _ _ => True
  | .didChangeConfiguration (some _) => True
  | _ => False

theorem config_kept {env : Env} {w : World} {s s' : Server} {m : Msg} {out : List Send} {r : Reply} (hm : ¬ Configures m)
    (h : s.handle env w m = .ok (s', out, r)) : s'.config = s.config := by
  cases m
  case «initialize» => exact absurd trivial hm
  case didChangeConfiguration c =>
    cases c with
    | some c => exact absurd trivial hm
    | none => simp only [Server.handle] at h; cases h; rfl
  case initialized =>
    by_cases ho : out = []
    · simp only [Server.handle, Server.onInitialized] at h
      split at h
      · cases h
      · rename_i s1 o1 h1
        cases h
        split at h1
        · split at h1
          · cases h1
          · cases h1; rfl
          · cases h1; rfl
        · cases h1; rfl
    · obtain ⟨f, d, _, _, _, _, rfl⟩ := initialized_inv h ho
      rfl
  case didOpen =>
    simp only [Server.handle] at h
    split at h
    · cases h
    · cases h; rfl
  case didSave =>
    simp only [Server.handle] at h
    split at h
    · cases h
    · cases h; rfl
  case didChange =>
    simp only [Server.handle] at h
    split at h
    · cases h
    · rename_i s1 h1
      cases h
      unfold Server.onDidChange at h1
      split at h1 <;> cases h1 <;> rfl
  case executeCommand => simp only [Server.handle] at h; cases h; rfl
  case documentSymbol => simp only [Server.handle] at h; cases h; rfl
  case codeActions => simp only [Server.handle] at h; cases h; rfl
  case completion =>
    simp only [Server.handle] at h
    split at h
    · cases h
    · cases h; rfl
  case hover =>
    simp only [Server.handle] at h
    split at h
    · cases h
    · cases h; rfl
  case goto =>
    simp only [Server.handle] at h
    split at h
    · cases h
    · cases h; rfl
  case codeAction =>
    simp only [Server.handle] at h
    split at h
    · cases h
    · rename_i s1 o1 h1
      cases h
      unfold Server.onCodeAction at h1
      split at h1
      · cases h1
      · cases h1; rfl
      · split at h1
        · cases h1
        · cases h1; rfl
        · cases h1; rfl

theorem config_run {env : Env} : ∀ (ms : List (World × Msg)) (s s' : Server), (∀ e ∈ ms, ¬ Configures e.2) → s.run env ms = .ok s' →
    s'.config = s.config
  | [], s, s', _, h => by cases h; rfl
  | m :: ms, s, s', hm, h => by
    unfold Server.run at h
    cases hh : s.handle env m.1 m.2 with
    | error e => rw [hh] at h; cases h
    | ok x =>
      obtain ⟨s1, out, r⟩ := x
      rw [hh] at h
      rw [config_run ms s1 s' (fun e he => hm e (by simp [he])) h, config_kept (hm m (by simp)) hh]

/-- **C52** A configuration sent by the client stays in force through every later sequence of messages that contains no other valid
configuration, in particular through invalid ones. -/
theorem C52_kept (env : Env) (w : World) (s s1 s' : Server) (c : JinjaConfig) (out : List Send) (r : Reply) (ms : List (World × Msg))
    (h : s.handle env w (.didChangeConfiguration (some c)) = .ok (s1, out, r)) (hm : ∀ e ∈ ms, ¬ Configures e.2)
    (hr : s1.run env ms = .ok s') : s'.config = { c with userDefined := true } := by
  rw [config_run ms s1 s' hm hr]
  simp only [Server.handle] at h
  cases h
  rfl

/-- **C52** The same for any configuration in force, however it was chosen; the next (re)initialisation uses it. -/
theorem C52_in_force (env : Env) (w : World) (s s1 s' : Server) (ms : List (World × Msg)) (hm : ∀ e ∈ ms, ¬ Configures e.2)
    (hr : s.run env ms = .ok s1) (out : List Send) (r : Reply) (h : s1.handle env w .initialized = .ok (s', out, r)) (ho : out ≠ []) :
    s'.config = s.config ∧ s'.files.config = s.config := by
  obtain ⟨f, d, _, _, _, _, rfl⟩ := initialized_inv h ho
  have := config_run ms s s1 hm hr
  exact ⟨this, this⟩

/-- the first file is empty, the second has no section, the third has one -/
def Fix.configEnv : Env := { Fix.env with tomlConfig := fun t => if t = c!"lsp" then some Fix.project else none }
def Fix.configWorld : World :=
  { Fix.tree with readFile := fun p => if p = c!"pyproject.toml" then some [] else if p = c!"Cargo.toml" then some c!"cargo"
      else if p = c!"jinja-lsp.toml" then some c!"lsp" else none }

example : ProjectConfig Fix.configEnv Fix.configWorld Fix.project ∧
    (Server.init.onInitialize Fix.configEnv Fix.configWorld none (some none)).config = { Fix.project with userDefined := true } := by
  refine ⟨Or.inr (Or.inr ⟨?_, ?_, c!"lsp", by decide, by decide, by decide⟩), by decide⟩
  · rintro ⟨c, t, h, hn, _⟩
    have : t = [] := by
      have e : Fix.configWorld.readFile c!"pyproject.toml" = some [] := by decide
      rw [e] at h; cases h; rfl
    exact hn this
  · rintro ⟨c, t, h, _, hc⟩
    have e : Fix.configWorld.readFile c!"Cargo.toml" = some c!"cargo" := by decide
    rw [e] at h; cases h
    have e : Fix.configEnv.tomlConfig c!"cargo" = none := by decide
    rw [e] at hc; cases hc

/-- valid settings, then invalid ones, then a reset -/
example : ∃ s1 s2 s3 o1 o3 r1 r3, Server.init.handle Fix.env Fix.tree (.didChangeConfiguration (some Fix.project)) = .ok (s1, o1, r1) ∧
    s1.run Fix.env [(Fix.tree, .didChangeConfiguration none), (Fix.tree, .didOpen c!"file:///t/a.html" c!"x")] = .ok s2 ∧
    s2.handle Fix.env Fix.tree .initialized = .ok (s3, o3, r3) ∧ o3 ≠ [] ∧ s3.files.config = { Fix.project with userDefined := true } :=
  ⟨_, _, _, _, _, _, _, rfl, rfl, rfl, List.cons_ne_nil _ _, rfl⟩

/-! ## C54 -/

def Spec.isClose : ClientCall → Bool
  | .didClose _ => true
  | _ => false

/-- **C54** Closing documents has no effect: in every session, whatever its state, the final state and the answers to all other calls are those
of the same session without the close notifications. -/
theorem C54_session (env : Env) : ∀ (cs : List (World × ClientCall)) (s : Option Server),
    (clientRun env s (cs.filter fun c => !isClose c.2)).1 = (clientRun env s cs).1 ∧
    (clientRun env s (cs.filter fun c => !isClose c.2)).2 =
      ((cs.zip (clientRun env s cs).2).filter fun e => !isClose e.1.2).map Prod.snd
  | [], s => ⟨rfl, rfl⟩
  | (w, c) :: cs, s => by
    cases c
    case didClose u => exact C54_session env cs s
    case shutdown => exact ⟨(C54_session env cs s).1, congrArg (Reply.none :: ·) (C54_session env cs s).2⟩
    all_goals
      simp only [List.filter_cons, isClose, Bool.not_false, if_true, clientRun, ClientCall.msg, List.zip_cons_cons, List.map_cons]
      exact ⟨(C54_session env cs _).1, congrArg (_ :: ·) (C54_session env cs _).2⟩

/-- **C54** Closed documents still contribute: after any number of documents are closed, their source variables are offered in every other
document for which the server has variables. -/
theorem C54_contributes (env : Env) (w : World) (s : Server) (cs : List (World × ClientCall)) (hc : ∀ c ∈ cs, isClose c.2 = true)
    (closed uri : Str) (vs ws : List Identifier) (v : Identifier) (hv : s.files.variables.get? closed = some vs) (hm : v ∈ vs)
    (hk : v.idType = .backendVariable) (hu : s.files.variables.get? uri = some ws) (pos : Position) :
    ∃ s', (clientRun env (some s) cs).1 = some s' ∧ ∃ items, s'.files.readVariables w uri pos none none = some items ∧
      ∃ i ∈ items, i.label = v.name := by
  have hs : (clientRun env (some s) cs).1 = some s := by
    rw [← (C54_session env cs (some s)).1, List.filter_eq_nil_iff.mpr (by simpa using hc)]
    rfl
  refine ⟨s, hs, ?_⟩
  unfold LspFiles.readVariables
  rw [hu]
  refine ⟨_, rfl, LspFiles.backendItem v, ?_, rfl⟩
  refine List.mem_append_right _ (List.mem_flatMap.mpr ⟨(closed, vs), ?_, List.mem_map.mpr ⟨v, by simp [hm, hk], rfl⟩⟩)
  refine List.mem_filter.mpr ⟨?_, rfl⟩
  exact (w.order.perm 5 _).mem_iff.mpr ((HMap.get?_eq_some_iff ..).mp hv)

/-- after closing the python file its variable is still offered in the template -/
example : ∃ items, (clientRun Fix.env (some { Server.init with files := { Fix.files with
      variables := Fix.files.variables.insert c!"file:///m.py" [{ Identifier.new c!"user" ⟨0, 0⟩ ⟨0, 4⟩ with idType := .backendVariable }] } })
      [(Fix.world, .didClose c!"file:///m.py")]).1.bind (fun s => s.files.readVariables Fix.world Fix.uriA ⟨0, 0⟩ none none) = some items ∧
    items.map CompletionItem.label = [c!"user"] := ⟨_, rfl, by decide⟩

/-! ## C55 -/

/-- the client says it is Visual Studio Code -/
def Spec.FromVscode (m : Msg) : Prop := ∃ o, m = .initialize (some c!"Visual Studio Code") o

theorem vscode_kept {env : Env} {w : World} {s s' : Server} {m : Msg} {out : List Send} {r : Reply} (h : s.handle env w m = .ok (s', out, r))
    (hm : ∀ c o, m ≠ .initialize c o) : s'.files.isVscode = s.files.isVscode := by
  cases handle_files h with
  | query _ g => rw [g]
  | command _ g => rw [g]
  | config _ g => rw [g]
  | «initialize» c o _ => exact absurd rfl (hm c o)
  | codeActions _ g => rw [g]; exact (addCodeActions_frame ..).2.2.2.1.vsc
  | didOpen _ _ _ g => exact (Frame.didOpen g).conf.vsc
  | didSave _ _ g => exact (Frame.didSave g).conf.vsc
  | didChange _ _ _ g => exact (Frame.didChange g).conf.vsc
  | notInitialized g => rw [g]
  | initialized _ _ _ g => rw [g]

theorem vscode_step {env : Env} {w : World} {s s' : Server} {m : Msg} {out : List Send} {r : Reply} (h : s.handle env w m = .ok (s', out, r)) :
    s'.files.isVscode = true ↔ s.files.isVscode = true ∨ FromVscode m := by
  cases m
  case «initialize» c o =>
    simp only [Server.handle] at h
    cases h
    unfold Server.onInitialize
    dsimp only
    by_cases hc : c = some c!"Visual Studio Code"
    · rw [if_pos hc]
      exact ⟨fun _ => Or.inr ⟨o, by rw [hc]⟩, fun _ => rfl⟩
    · rw [if_neg hc]
      refine ⟨Or.inl, fun h => h.elim id ?_⟩
      rintro ⟨o', h⟩
      cases h
      exact absurd rfl hc
  all_goals
    have key := vscode_kept h (fun _ _ e => by cases e)
    rw [key]
    refine ⟨Or.inl, fun h => h.elim id ?_⟩
    rintro ⟨o', h⟩
    cases h

/-- **C55** After every history the flag is set exactly if it was set before or the client identified itself as Visual Studio Code. -/
theorem C55_history (env : Env) : ∀ (ms : List (World × Msg)) (s s' : Server), s.run env ms = .ok s' →
    (s'.files.isVscode = true ↔ s.files.isVscode = true ∨ ∃ e ∈ ms, FromVscode e.2)
  | [], s, s', h => by cases h; simp
  | m :: ms, s, s', h => by
    unfold Server.run at h
    cases hh : s.handle env m.1 m.2 with
    | error e => rw [hh] at h; cases h
    | ok x =>
      obtain ⟨s1, out, r⟩ := x
      rw [hh] at h
      rw [C55_history env ms s1 s' h, vscode_step hh]
      simp [or_assoc]

/-- the edit format meant for Visual Studio Code: a plain edit with additional edits -/
def Spec.VscodeFormat (i : CompletionItem) : Prop := (∃ e, i.textEdit = some (.edit e)) ∨ i.additional ≠ none
/-- the edit format meant for all other clients -/
def Spec.OtherFormat (i : CompletionItem) : Prop := ∃ t a b, i.textEdit = some (.insertReplace t a b)

theorem variableItem_format {v : Bool} {st : Str} {rg : Range} {x : Identifier} {i : CompletionItem}
    (h : LspFiles.variableItem v st rg x = some i) : (VscodeFormat i → v = true) ∧ (OtherFormat i → v = false) := by
  unfold LspFiles.variableItem at h
  dsimp only at h
  split at h
  · cases h; simp [VscodeFormat, OtherFormat]
  · split at h
    · cases v
      · simp at h; cases h; simp [VscodeFormat, OtherFormat]
      · simp at h; cases h; simp [VscodeFormat, OtherFormat]
    · cases h

theorem variableItems_format {v : Bool} {st : Str} {rg : Range} : ∀ (xs : List Identifier) (names : List Str),
    ∀ i ∈ LspFiles.variableItems v st rg names xs, (VscodeFormat i → v = true) ∧ (OtherFormat i → v = false)
  | [], _, i, h => by cases h
  | x :: xs, names, i, h => by
    unfold LspFiles.variableItems at h
    split at h
    · exact variableItems_format xs names i h
    · split at h
      · rename_i it hi
        rcases List.mem_cons.mp h with rfl | h
        · exact variableItem_format hi
        · exact variableItems_format xs _ i h
      · exact variableItems_format xs _ i h

theorem templateItems_format {f : LspFiles} {rg : Range} {p : Position} : ∀ (ts : List Str) (is : List CompletionItem),
    f.templateItems rg p ts = some is → ∀ i ∈ is, (VscodeFormat i → f.isVscode = true) ∧ (OtherFormat i → f.isVscode = false)
  | [], is, h, i, hi => by cases h; cases hi
  | t :: ts, is, h, i, hi => by
    unfold LspFiles.templateItems at h
    cases ht : f.templateItem rg p t with
    | none => rw [ht] at h; cases h
    | some it =>
      rw [ht] at h
      dsimp only at h
      cases hts : f.templateItems rg p ts with
      | none => rw [hts] at h; cases h
      | some its =>
        rw [hts] at h
        cases h
        rcases List.mem_cons.mp hi with rfl | hi
        · unfold LspFiles.templateItem at ht
          dsimp only at ht
          split at ht
          · cases ht
          · cases hv : f.isVscode
            · simp [hv] at ht; cases ht; simp [VscodeFormat, OtherFormat]
            · simp [hv] at ht; cases ht; simp [VscodeFormat, OtherFormat]
        · exact templateItems_format ts its hts i hi

/-- **C55** The answers to completion requests use the Visual Studio Code format only if the flag is set and the other format only if it is not. -/
theorem C55_format (env : Env) (w : World) (s s' : Server) (uri : Str) (pos : Position) (tr : TriggerKind) (out : List Send)
    (items : List CompletionItem) (h : s.handle env w (.completion uri pos tr) = .ok (s', out, .completion (some items))) :
    ∀ i ∈ items, (VscodeFormat i → s.files.isVscode = true) ∧ (OtherFormat i → s.files.isVscode = false) := by
  simp only [Server.handle, Server.onCompletion] at h
  cases hc : s.files.completion env uri pos tr with
  | error e => rw [hc] at h; cases h
  | ok c =>
    rw [hc] at h
    cases c with
    | none => cases h
    | some c =>
      dsimp only at h
      have hi : completionItems w s.files uri pos c.1 = some items := by
        simp only [Except.ok.injEq, Prod.mk.injEq, Reply.completion.injEq] at h
        exact h.2.2
      have vars : ∀ st, s.files.readVariables w uri pos st none = some items →
          ∀ i ∈ items, (VscodeFormat i → s.files.isVscode = true) ∧ (OtherFormat i → s.files.isVscode = false) := by
        intro st hv i hm
        unfold LspFiles.readVariables at hv
        split at hv
        · cases hv
        · cases hv
          rcases List.mem_append.mp hm with hm | hm
          · exact variableItems_format _ _ i hm
          · obtain ⟨e, _, hm⟩ := List.mem_flatMap.mp hm
            obtain ⟨v, _, rfl⟩ := List.mem_map.mp hm
            simp [VscodeFormat, OtherFormat, LspFiles.backendItem]
      intro i hm
      cases hk : c.1 with
      | filter =>
        rw [hk] at hi; cases hi
        obtain ⟨v, _, rfl⟩ := List.mem_map.mp hm
        simp [VscodeFormat, OtherFormat, docItem]
      | test =>
        rw [hk] at hi; cases hi
        obtain ⟨v, _, rfl⟩ := List.mem_map.mp hm
        simp [VscodeFormat, OtherFormat, docItem]
      | identifier => rw [hk] at hi; exact vars none hi i hm
      | includedTemplate n rg => rw [hk] at hi; exact templateItems_format _ _ hi i hm
      | snippets rg =>
        rw [hk] at hi; cases hi
        obtain ⟨v, _, rfl⟩ := List.mem_map.mp hm
        cases hv : s.files.isVscode <;> simp [VscodeFormat, OtherFormat, snippetItem]
      | incompleteIdentifier n rg => rw [hk] at hi; exact vars (some (n, rg)) hi i hm
      | incompleteFilter => rw [hk] at hi; cases hi

/-- **C55** In every session: after the client identified itself as Visual Studio Code no later answer, whatever was reset in between, uses the
other format; if it never did, no answer uses the Visual Studio Code format. -/
theorem C55_session (env : Env) (w : World) (ms : List (World × Msg)) (s s' : Server) (hr : Server.init.run env ms = .ok s) (uri : Str)
    (pos : Position) (tr : TriggerKind) (out : List Send) (items : List CompletionItem)
    (h : s.handle env w (.completion uri pos tr) = .ok (s', out, .completion (some items))) :
    ((∃ e ∈ ms, FromVscode e.2) → ∀ i ∈ items, ¬ OtherFormat i) ∧ ((¬ ∃ e ∈ ms, FromVscode e.2) → ∀ i ∈ items, ¬ VscodeFormat i) := by
  have h1 := C55_history env ms _ _ hr
  have h2 := C55_format env w s s' uri pos tr out items h
  constructor
  · intro hv i hi ho
    have := (h2 i hi).2 ho
    rw [h1.mpr (Or.inr hv)] at this
    cases this
  · intro hv i hi ho
    rcases h1.mp ((h2 i hi).1 ho) with h3 | h3
    · cases h3
    · exact hv h3

/-- start-up, then new settings and another initialisation -/
def Fix.vscodeSession : List (World × Msg) :=
  [(Fix.tree, .initialize (some c!"Visual Studio Code") (some (some Fix.project))), (Fix.tree, .initialized),
    (Fix.tree, .didChangeConfiguration (some Fix.project)), (Fix.tree, .initialized)]

/-- the flag is still set after two initialisations; for another client it is not -/
example : (∃ s, Server.init.run Fix.env Fix.vscodeSession = .ok s ∧ s.files.isVscode = true ∧ s.files.documents.get? c!"file:///t/a.html" ≠ none) ∧
    (∃ e ∈ Fix.vscodeSession, FromVscode e.2) ∧
    (∃ s, Server.init.run Fix.env ((Fix.tree, .initialize (some c!"vim") none) :: Fix.vscodeSession.tail) = .ok s ∧ s.files.isVscode = false) :=
  ⟨⟨_, rfl, rfl, by decide⟩, ⟨_, List.mem_cons_self, _, rfl⟩, _, rfl, rfl⟩

end JinjaLsp
