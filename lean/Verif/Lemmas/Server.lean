import Verif.Lemmas.Files
/- The worker: inversion and frame lemmas for `Server.handle`. -/

namespace JinjaLsp

/-- messages that ask for something -/
def Msg.isQuery : Msg → Prop
  | .completion .. | .hover .. | .goto .. | .codeAction .. | .documentSymbol .. => True
  | _ => False

theorem onCodeAction_frame {env : Env} {w : World} {s s' : Server} {uri : Str} {p : Position}
    {r : Option (List CodeActionItem)} (h : s.onCodeAction env w uri p = .ok (s', r)) :
    s'.files = s.files ∧ s'.config = s.config ∧
      (s'.timers = s.timers ∧ s'.nextHandle = s.nextHandle ∨
        s'.timers = s.timers ++ [⟨s.nextHandle, uri, s.files.mainChannel, false⟩] ∧
          s'.nextHandle = s.nextHandle + 1) := by
  unfold Server.onCodeAction at h
  split at h
  · cases h
  · cases h; exact ⟨rfl, rfl, Or.inl ⟨rfl, rfl⟩⟩
  · split at h
    · cases h
    · cases h; exact ⟨rfl, rfl, Or.inl ⟨rfl, rfl⟩⟩
    · cases h; exact ⟨rfl, rfl, Or.inr ⟨rfl, rfl⟩⟩

theorem handle_query {env : Env} {w : World} {s s' : Server} {m : Msg} {out : List Send} {r : Reply}
    (hq : m.isQuery) (h : s.handle env w m = .ok (s', out, r)) :
    s'.files = s.files ∧ s'.config = s.config ∧ out = [] := by
  cases m <;> simp only [Msg.isQuery] at hq <;> unfold Server.handle at h <;> simp only at h
  case completion => split at h <;> cases h; exact ⟨rfl, rfl, rfl⟩
  case hover => split at h <;> cases h; exact ⟨rfl, rfl, rfl⟩
  case goto => split at h <;> cases h; exact ⟨rfl, rfl, rfl⟩
  case codeAction =>
    split at h
    · cases h
    · rename_i hc
      cases h
      exact ⟨(onCodeAction_frame hc).1, (onCodeAction_frame hc).2.1, rfl⟩
  case documentSymbol => cases h; exact ⟨rfl, rfl, rfl⟩

theorem onDidChange_cases {env : Env} {s s' : Server} {uri : Str} {cs : List TextChange}
    (h : s.onDidChange env uri cs = .ok s') :
    ∃ f b, s.files.didChange env uri cs s.nextHandle = .ok (f, b) ∧ s'.files = f ∧ s'.config = s.config ∧
      (b = false → s'.timers = s.timers ∧ s'.nextHandle = s.nextHandle) ∧
      (b = true → s'.timers = s.timers.filter (fun t => decide (s.files.diagnosticsTask ≠ some t.handle)) ++
          [⟨s.nextHandle, uri, s.files.mainChannel, true⟩] ∧ s'.nextHandle = s.nextHandle + 1) := by
  unfold Server.onDidChange at h
  split at h
  · cases h
  · rename_i f hf
    cases h
    exact ⟨f, false, hf, rfl, rfl, fun _ => ⟨rfl, rfl⟩, by simp⟩
  · rename_i f hf
    cases h
    exact ⟨f, true, hf, rfl, rfl, by simp, fun _ => ⟨rfl, rfl⟩⟩

/-- what each kind of message does to the workspace -/
inductive FilesStep (env : Env) (w : World) (s s' : Server) : Msg → Prop where
  | query {m : Msg} (hm : m.isQuery) (h : s'.files = s.files) : FilesStep env w s s' m
  | command (c : Str) (h : s'.files = s.files) : FilesStep env w s s' (.executeCommand c)
  | config (c : Option JinjaConfig) (h : s'.files = s.files) : FilesStep env w s s' (.didChangeConfiguration c)
  | initialize (c : Option Str) (o : Option (Option JinjaConfig))
      (h : s'.files = s.files ∨ s'.files = { s.files with isVscode := true }) :
      FilesStep env w s s' (.initialize c o)
  | codeActions (m : HMap Str (List Identifier)) (h : s'.files = s.files.addCodeActions w.order m) :
      FilesStep env w s s' (.codeActions m)
  | didOpen (uri text : Str) (m : Option (HMap Str Diags))
      (h : s.files.didOpen env w uri text false = .ok (s'.files, m)) : FilesStep env w s s' (.didOpen uri text)
  | didSave (uri : Str) (m : Option (HMap Str Diags)) (h : s.files.didSave env w uri = .ok (s'.files, m)) :
      FilesStep env w s s' (.didSave uri)
  | didChange (uri : Str) (cs : List TextChange) (b : Bool)
      (h : s.files.didChange env uri cs s.nextHandle = .ok (s'.files, b)) :
      FilesStep env w s s' (.didChange uri cs)
  | notInitialized (h : s'.files = s.files) : FilesStep env w s s' .initialized
  | initialized (f : LspFiles) (d : HMap Str Diags) (h : walkdir env w s.config = .ok (some (d, f)))
      (hf : s'.files = { f with isVscode := s.files.isVscode, config := s.config, mainChannel := true }) :
      FilesStep env w s s' .initialized

theorem handle_files {env : Env} {w : World} {s s' : Server} {m : Msg} {out : List Send} {r : Reply}
    (h : s.handle env w m = .ok (s', out, r)) : FilesStep env w s s' m := by
  cases m
  case «initialize» c o =>
    simp only [Server.handle, Except.ok.injEq, Prod.mk.injEq] at h
    obtain ⟨rfl, _⟩ := h
    refine FilesStep.«initialize» _ _ ?_
    simp only [Server.onInitialize]
    split
    · exact Or.inr rfl
    · exact Or.inl rfl
  case initialized =>
    simp only [Server.handle] at h
    split at h
    · cases h
    · rename_i s1 o1 h1
      cases h
      unfold Server.onInitialized at h1
      split at h1
      · split at h1
        · cases h1
        · cases h1; exact .notInitialized rfl
        · rename_i d f hw
          cases h1; exact .initialized f d hw rfl
      · cases h1; exact .notInitialized rfl
  case didOpen uri text =>
    simp only [Server.handle] at h
    split at h
    · cases h
    · rename_i f m hf; cases h; exact .didOpen _ _ _ hf
  case didSave uri =>
    simp only [Server.handle] at h
    split at h
    · cases h
    · rename_i f m hf; cases h; exact .didSave _ _ hf
  case didChange uri cs =>
    simp only [Server.handle] at h
    split at h
    · cases h
    · rename_i s1 h1
      cases h
      obtain ⟨f, b, hf, e, _⟩ := onDidChange_cases h1
      subst e
      exact .didChange _ _ b hf
  case executeCommand c => simp only [Server.handle] at h; cases h; exact .command _ rfl
  case didChangeConfiguration c => simp only [Server.handle] at h; cases h; exact .config _ rfl
  case codeActions m => simp only [Server.handle] at h; cases h; exact .codeActions _ rfl
  case completion => exact .query trivial (handle_query (by exact trivial) h).1
  case hover => exact .query trivial (handle_query (by exact trivial) h).1
  case goto => exact .query trivial (handle_query (by exact trivial) h).1
  case codeAction => exact .query trivial (handle_query (by exact trivial) h).1
  case documentSymbol => exact .query trivial (handle_query (by exact trivial) h).1

/-! ### Reading files during initialisation -/

/-- induction principle for `walkItems` -/
theorem walkItems_induct {env : Env} {w : World} (P : LspFiles → Prop)
    (hstep : ∀ f path l g, P f → fileExt path = some l → f.readFile env w path l = .ok g → P g) :
    ∀ (is : List WalkItem) (f g : LspFiles), P f → walkItems env w f is = .ok (some g) → P g
  | [], f, g, hf, h => by simp only [walkItems] at h; cases h; exact hf
  | .err :: is, f, g, hf, h => by simp only [walkItems] at h; cases h
  | .nonFile _ :: is, f, g, hf, h => by
    simp only [walkItems] at h; exact walkItems_induct P hstep is f g hf h
  | .file path :: is, f, g, hf, h => by
    simp only [walkItems] at h
    split at h
    · exact walkItems_induct P hstep is f g hf h
    · rename_i ext he
      split at h
      · cases h
      · rename_i f' hf'
        exact walkItems_induct P hstep is f' g (hstep f path ext f' hf he hf') h

theorem walkDirs_induct {env : Env} {w : World} (P : LspFiles → Prop)
    (hstep : ∀ f path l g, P f → fileExt path = some l → f.readFile env w path l = .ok g → P g) :
    ∀ (ds : List Str) (f g : LspFiles), P f → walkDirs env w f ds = .ok (some g) → P g
  | [], f, g, hf, h => by simp only [walkDirs] at h; cases h; exact hf
  | d :: ds, f, g, hf, h => by
    simp only [walkDirs] at h
    split at h
    · cases h
    · cases h
    · rename_i f' hf'
      exact walkDirs_induct P hstep ds f' g (walkItems_induct P hstep _ f f' hf hf') h

theorem walkdir_induct {env : Env} {w : World} {c : JinjaConfig} {d : HMap Str Diags} {g : LspFiles}
    (P : LspFiles → Prop) (h0 : P (walkStart c))
    (hstep : ∀ f path l g, P f → fileExt path = some l → f.readFile env w path l = .ok g → P g)
    (h : walkdir env w c = .ok (some (d, g))) : P g := by
  unfold walkdir at h
  split at h
  · cases h
  · cases h
  · rename_i f hf
    split at h
    · cases h
    · cases h; exact walkDirs_induct P hstep _ _ _ h0 hf

end JinjaLsp
