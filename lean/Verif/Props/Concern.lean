import Verif.Props.Reserved
import Verif.Props.Others
/-
  C149: what is said about a name depends on the definitions of that name only.
-/

namespace JinjaLsp
open Spec

namespace Spec

/-- the name itself, or an attribute of it -/
def Concerns (n name : Str) : Prop := name = n ∨ ∃ r, name = n ++ '.' :: r

open Classical in
/-- those of the definitions that concern the name -/
noncomputable def concerning (n : Str) (vs : List Identifier) : List Identifier := vs.filter fun v => decide (Concerns n v.name)

/-- The same document with the same definitions of the name, and the same definitions concerning the name in each other file.  Definitions of
other names may differ everywhere. -/
structure AlikeFor (n uri : Str) (f g : LspFiles) : Prop where
  doc : g.documents.get? uri = f.documents.get? uri
  tree : (g.trees .template).get? uri = (f.trees .template).get? uri
  templates : g.config.templates = f.config.templates
  globals : g.ignoreGlobals = f.ignoreGlobals
  home : (g.variables.get? uri).map (concerning n) = (f.variables.get? uri).map (concerning n)
  away : ∀ k, k ≠ uri → concerning n ((g.variables.get? k).getD []) = concerning n ((f.variables.get? k).getD [])

/-- the reports about uses of the name -/
def aboutName (n : Str) (ds : Diags) : Diags := ds.filter fun d => decide (d.1 ≠ .templateNotFound) && decide (d.2.name = n)

/-- the client opens, changes or saves the document -/
def Edits (u : Str) (m : Msg) : Prop := (∃ t, m = .didOpen u t) ∨ (∃ cs, m = .didChange u cs) ∨ m = .didSave u

end Spec

theorem mem_concerning {n : Str} {vs : List Identifier} {v : Identifier} : v ∈ concerning n vs ↔ v ∈ vs ∧ Concerns n v.name := by
  simp [concerning]

theorem concerning_filter {n : Str} {p : Identifier → Bool} (hp : ∀ v, p v = true → Concerns n v.name) (vs : List Identifier) :
    (concerning n vs).filter p = vs.filter p := by
  unfold concerning
  rw [List.filter_filter]
  congr 1
  funext v
  cases h : p v with
  | false => rfl
  | true => simpa using hp v h

theorem concerning_segment (n : Str) (vs : List Identifier) : LspFiles.segmentMatches n (concerning n vs) = LspFiles.segmentMatches n vs := by
  unfold LspFiles.segmentMatches
  exact concerning_filter (fun v hv => ((LspFiles.firstSegment_iff v.name n).mp (of_decide_eq_true hv)).2) vs

namespace Spec.AlikeFor

variable {env : Env} {n uri : Str} {f g : LspFiles}

/-- any choice among the definitions of the name in the document -/
theorem chosen (h : AlikeFor n uri f g) {p : Identifier → Bool} (hp : ∀ v, p v = true → v.name = n) :
    (g.variables.get? uri).map (fun vs => vs.filter p) = (f.variables.get? uri).map (fun vs => vs.filter p) := by
  have e : ∀ o : Option (List Identifier), o.map (fun vs => vs.filter p) = (o.map (concerning n)).map (fun vs => vs.filter p) := by
    intro o
    cases o with
    | none => rfl
    | some vs => simp only [Option.map_some, concerning_filter (fun v hv => Or.inl (hp v hv))]
  rw [e, h.home, ← e]

theorem localDefinition (h : AlikeFor n uri f g) (p : Point) : g.localDefinition uri n p = f.localDefinition uri n p := by
  have hc := h.chosen (p := fun item => decide (item.name = n) && decide (item.start ≤ p) && decide (p ≤ item.scopeEnd))
    (fun v hv => by simp only [Bool.and_eq_true, decide_eq_true_eq] at hv; exact hv.1.1)
  unfold LspFiles.localDefinition
  cases hg : g.variables.get? uri <;> cases hf : f.variables.get? uri <;> rw [hg, hf] at hc <;> simp only [Option.map_none, Option.map_some] at hc ⊢
  · cases hc
  · cases hc
  · injection hc with hc
    rw [hc]

/-- the files that have something to say about the name, with what they say -/
def _root_.JinjaLsp.relevantFiles (uri n : Str) (fs : List (Str × List Identifier)) : List (Str × List Identifier) :=
  (fs.filter fun e => decide (e.1 ≠ uri) && decide (LspFiles.segmentMatches n e.2 ≠ [])).map fun e => (e.1, LspFiles.segmentMatches n e.2)

theorem _root_.JinjaLsp.segment_segment (n : Str) (vs : List Identifier) :
    LspFiles.segmentMatches n (LspFiles.segmentMatches n vs) = LspFiles.segmentMatches n vs := by
  unfold LspFiles.segmentMatches
  simp [List.filter_filter]

theorem _root_.JinjaLsp.collect_relevant (env : Env) (uri n : Str) : ∀ (fs : List (Str × List Identifier)),
    LspFiles.collectFiles env uri n (relevantFiles uri n fs) = LspFiles.collectFiles env uri n fs
  | [] => rfl
  | e :: fs => by
    have ih := collect_relevant env uri n fs
    unfold relevantFiles at ih ⊢
    by_cases he : e.1 = uri
    · rw [List.filter_cons_of_neg (by simp [he]), ih, LspFiles.collectFiles, if_pos he]
    · by_cases hs : LspFiles.segmentMatches n e.2 = []
      · rw [List.filter_cons_of_neg (by simp [hs]), ih, LspFiles.collectFiles, if_neg he, hs]
        simp only [LspFiles.collectLocations]
        cases LspFiles.collectFiles env uri n fs <;> rfl
      · rw [List.filter_cons_of_pos (by simp [he, hs]), List.map_cons, LspFiles.collectFiles, if_neg he, LspFiles.collectFiles, if_neg he, ih,
          segment_segment]

theorem _root_.JinjaLsp.relevant_nodup (uri n : Str) (m : Variables) : (relevantFiles uri n m.entries).Nodup := by
  have hk : ((relevantFiles uri n m.entries).map Prod.fst).Nodup := by
    unfold relevantFiles
    rw [List.map_map]
    exact List.Nodup.sublist (List.filter_sublist.map Prod.fst) m.nodup
  exact List.Pairwise.imp (fun {a b} (hne : a.1 ≠ b.1) (e : a = b) => hne (congrArg _ e)) (List.pairwise_map.mp hk)

theorem _root_.JinjaLsp.mem_relevant {uri n : Str} {m : Variables} {e : Str × List Identifier} : e ∈ relevantFiles uri n m.entries ↔
    e.1 ≠ uri ∧ e.2 ≠ [] ∧ e.2 = LspFiles.segmentMatches n ((m.get? e.1).getD []) := by
  unfold relevantFiles
  simp only [List.mem_map, List.mem_filter, Bool.and_eq_true, decide_eq_true_eq]
  constructor
  · rintro ⟨x, ⟨h1, h2, h3⟩, rfl⟩
    refine ⟨h2, h3, ?_⟩
    rw [(HMap.get?_eq_some_iff m x.1 x.2).mpr h1]
    rfl
  · rintro ⟨h1, h2, h3⟩
    cases hg : m.get? e.1 with
    | none =>
      rw [hg] at h3
      exact absurd h3 h2
    | some vs =>
      rw [hg] at h3
      simp only [Option.getD_some] at h3
      exact ⟨(e.1, vs), ⟨(HMap.get?_eq_some_iff m e.1 vs).mp hg, h1, by rw [← h3]; exact h2⟩, by rw [← h3]⟩

theorem relevant (h : AlikeFor n uri f g) : (relevantFiles uri n f.variables.entries).Perm (relevantFiles uri n g.variables.entries) := by
  refine (List.perm_ext_iff_of_nodup (relevant_nodup ..) (relevant_nodup ..)).mpr fun e => ?_
  rw [mem_relevant, mem_relevant]
  have hs : e.1 ≠ uri → LspFiles.segmentMatches n ((g.variables.get? e.1).getD []) = LspFiles.segmentMatches n ((f.variables.get? e.1).getD []) := by
    intro hne
    rw [← concerning_segment n ((g.variables.get? e.1).getD []), h.away e.1 hne, concerning_segment]
  constructor
  · rintro ⟨h1, h2, h3⟩; exact ⟨h1, h2, by rw [hs h1]; exact h3⟩
  · rintro ⟨h1, h2, h3⟩; exact ⟨h1, h2, by rw [← hs h1]; exact h3⟩

theorem _root_.JinjaLsp.relevant_perm (uri n : Str) {l l' : List (Str × List Identifier)} (h : l.Perm l') :
    (relevantFiles uri n l).Perm (relevantFiles uri n l') := (h.filter _).map _

theorem collect (h : AlikeFor n uri f g) (o o' : HashOrder) : Agree List.Perm (LspFiles.collectFiles env uri n (o.shuffle 2 f.variables.entries))
    (LspFiles.collectFiles env uri n (o'.shuffle 2 g.variables.entries)) := by
  rw [← collect_relevant, ← collect_relevant env uri n (o'.shuffle 2 g.variables.entries)]
  exact collectFiles_perm env uri n
    (((relevant_perm uri n (o.perm 2 _)).trans h.relevant).trans (relevant_perm uri n (o'.perm 2 _)).symm)

theorem dataType (h : AlikeFor n uri f g) (w w' : World) (i : Identifier) (hi : i.name = n) : g.dataType w' uri i = f.dataType w uri i := by
  have hc := h.chosen (p := fun v => (decide (v.stop ≤ i.start) && decide (i.start ≤ v.scopeEnd) && decide (i.name = v.name)) && decide (v.idType ≠ .templateBlock))
    (fun v hv => by simp only [Bool.and_eq_true, decide_eq_true_eq] at hv; rw [← hi]; exact hv.1.2.symm)
  have ha : ((w'.order.shuffle 7 g.variables.entries).any fun file => decide (file.1 ≠ uri) && decide (0 < (LspFiles.segmentMatches i.name file.2).length)) =
      ((w.order.shuffle 7 f.variables.entries).any fun file => decide (file.1 ≠ uri) && decide (0 < (LspFiles.segmentMatches i.name file.2).length)) := by
    have e : ∀ fs : List (Str × List Identifier), (fs.any fun file => decide (file.1 ≠ uri) && decide (0 < (LspFiles.segmentMatches i.name file.2).length)) =
        !(relevantFiles uri n fs).isEmpty := by
      intro fs
      rw [Bool.eq_iff_iff]
      simp only [List.any_eq_true, Bool.and_eq_true, decide_eq_true_eq, Bool.not_eq_true', List.isEmpty_eq_false_iff_exists_mem, relevantFiles,
        List.mem_map, List.mem_filter, hi, List.length_pos_iff]
      constructor
      · rintro ⟨x, h1, h2⟩; exact ⟨_, x, ⟨h1, h2⟩, rfl⟩
      · rintro ⟨_, x, ⟨h1, h2⟩, _⟩; exact ⟨x, h1, h2⟩
    rw [e, e]
    have hp := ((relevant_perm uri n (w.order.perm 7 f.variables.entries)).trans h.relevant).trans (relevant_perm uri n (w'.order.perm 7 g.variables.entries)).symm
    rw [hp.isEmpty_eq]
  unfold LspFiles.dataType
  simp only [List.filter_filter, ha]
  cases hg : g.variables.get? uri <;> cases hf : f.variables.get? uri <;> rw [hg, hf] at hc <;> simp only [Option.map_none, Option.map_some] at hc ⊢
  · cases hc
  · cases hc
  · injection hc with hc
    rw [hc]

end Spec.AlikeFor

/-- **C149** (goto-definition) With the cursor on a name, goto-definition answers alike in two states of the server that may differ in everything
but the document itself and the definitions concerning the name: the same location, or the same locations in some order. -/
theorem C149_goto (env : Env) (sx : Syntax) (w w' : World) (hw : SameDisk w w') (s t : Server) (uri text : Str) (tree : Tree) (es : List Elem) (u : Use)
    (pos : Position) (hx : fileExt uri = some .template) (hd : s.files.documents.get? uri = some text)
    (ht : (s.files.trees .template).get? uri = some tree) (hs : WellFormed (sx.root tree text)) (hl : Laid (sx.root tree text))
    (hr : ReadsTree sx.digit (sx.root tree text) es) (hwf : Elems.Wf es) (hu : .use u ∈ es) (h1 : u.root.start ≤ toPoint pos)
    (h2 : toPoint pos < u.root.stop) (h : AlikeFor u.root.text uri s.files t.files) :
    Agree (fun a b => SameReply a.2.2 b.2.2) (s.handle (env.over sx) w (.goto uri pos)) (t.handle (env.over sx) w' (.goto uri pos)) := by
  obtain ⟨pre, rest, hon⟩ := onUse_tree (env := env) hs hl hr hwf hu h1 h2
  obtain ⟨r, hq, hid⟩ := ident_of_use hon
  obtain ⟨o, rfl⟩ := hw.eq
  have htl : ∀ m, t.files.templateLocation (env.over sx) { w with order := o } m = s.files.templateLocation (env.over sx) w m := by
    intro m
    unfold LspFiles.templateLocation
    rw [h.templates]
  have hc := h.collect (env := env.over sx) w.order o
  simp only [Server.handle, LspFiles.gotoDefinition, hx, ht, hd, h.tree, h.doc, hq, hid, Option.bind_some, Option.getD_some, h.localDefinition, htl]
  cases s.files.localDefinition uri u.root.text (toPoint pos) with
  | some a => exact .refl _
  | none =>
    generalize ((templatesQuery (env.over sx) tree (toPoint pos) text false).inTemplate.bind fun i => i.getIdentifier (toPoint pos)).bind
      (fun i => s.files.templateLocation (env.over sx) w i.name) = x
    cases x with
    | some a => exact .refl _
    | none =>
      dsimp only
      revert hc
      generalize LspFiles.collectFiles (env.over sx) uri u.root.text (w.order.shuffle 2 s.files.variables.entries) = a
      generalize LspFiles.collectFiles (env.over sx) uri u.root.text (o.shuffle 2 t.files.variables.entries) = b
      intro hc
      cases a <;> cases b <;> simp only [Agree] at hc ⊢
      · exact hc
      · exact .goto hc

/-- **C149** (hover) Hover says the same about the name in both. -/
theorem C149_hover (env : Env) (sx : Syntax) (w w' : World) (s t : Server) (uri text : Str) (tree : Tree) (es : List Elem) (u : Use)
    (pos : Position) (hx : fileExt uri = some .template) (hd : s.files.documents.get? uri = some text)
    (ht : (s.files.trees .template).get? uri = some tree) (hs : WellFormed (sx.root tree text)) (hl : Laid (sx.root tree text))
    (hr : ReadsTree sx.digit (sx.root tree text) es) (hwf : Elems.Wf es) (hu : .use u ∈ es) (h1 : u.root.start ≤ toPoint pos)
    (h2 : toPoint pos < u.root.stop) (h : AlikeFor u.root.text uri s.files t.files) :
    ∃ a, s.handle (env.over sx) w (.hover uri pos) = .ok (s, [], .hover a) ∧ t.handle (env.over sx) w' (.hover uri pos) = .ok (t, [], .hover a) := by
  obtain ⟨pre, rest, hon⟩ := onUse_tree (env := env) hs hl hr hwf hu h1 h2
  obtain ⟨i, hi, hn, _⟩ := hover_use hx hd ht hon
  have hg : t.files.hover (env.over sx) uri pos = s.files.hover (env.over sx) uri pos := by
    simp only [LspFiles.hover, h.tree, h.doc]
  refine ⟨hoverText w s.files uri (i, if u.info.filter then .filter else if u.info.test then .test else .identifier),
    by simp only [Server.handle, Server.onHover, hi], ?_⟩
  simp only [Server.handle, Server.onHover, hg, hi, hoverText, h.dataType w w' i hn]

/-- a report about a use of the name -/
theorem objectDiag_alike {n uri : Str} {f g : LspFiles} (h : AlikeFor n uri f g) {own own' : List Identifier} (hf : f.variables.get? uri = some own)
    (hg : g.variables.get? uri = some own') (o o' : HashOrder) (ig : Bool) (obj : JinjaObject) (hn : obj.name = n) :
    objectDiag o' g.variables own' ig obj = objectDiag o f.variables own ig obj := by
  have hc : own'.filter (sameName obj.name) = own.filter (sameName obj.name) := by
    have := h.chosen (p := sameName obj.name) (fun v hv => by
      simp only [sameName, Bool.and_eq_true, decide_eq_true_eq] at hv; exact hv.1.trans hn)
    rw [hf, hg] at this
    simpa using this
  have ha : ((o'.shuffle 1 g.variables.entries).any fun f => f.2.any fun v => v.name = obj.name) =
      ((o.shuffle 1 f.variables.entries).any fun f => f.2.any fun v => v.name = obj.name) := by
    rw [(o'.perm 1 _).any_eq, (o.perm 1 _).any_eq, Bool.eq_iff_iff]
    simp only [List.any_eq_true, decide_eq_true_eq]
    have key : ∀ k, concerning n ((g.variables.get? k).getD []) = concerning n ((f.variables.get? k).getD []) := by
      intro k
      by_cases hk : k = uri
      · have := h.home
        rw [hf, hg] at this
        rw [hk, hf, hg]
        simpa using this
      · exact h.away k hk
    have mem : ∀ (a b : Variables), (∀ k, concerning n ((b.get? k).getD []) = concerning n ((a.get? k).getD [])) →
        (∃ x ∈ a.entries, ∃ v ∈ x.2, v.name = obj.name) → ∃ x ∈ b.entries, ∃ v ∈ x.2, v.name = obj.name := by
      rintro a b hk ⟨x, hx, v, hv, he⟩
      have hm : v ∈ concerning n ((a.get? x.1).getD []) := by
        rw [(HMap.get?_eq_some_iff a x.1 x.2).mpr hx]
        exact mem_concerning.mpr ⟨hv, .inl (he.trans hn)⟩
      rw [← hk] at hm
      have hm := (mem_concerning.mp hm).1
      cases hb : b.get? x.1 with
      | none => rw [hb] at hm; cases hm
      | some vs =>
        rw [hb] at hm
        exact ⟨(x.1, vs), (HMap.get?_eq_some_iff b x.1 vs).mp hb, v, hm, he⟩
    exact ⟨mem _ _ (fun k => (key k).symm), mem _ _ key⟩
  unfold objectDiag
  simp only [hc, ha]

theorem aboutName_append (n : Str) (a b : Diags) : aboutName n (a ++ b) = aboutName n a ++ aboutName n b := List.filter_append ..

theorem aboutName_imports (n : Str) (w : World) (templates : Str) : ∀ (is : List Identifier), aboutName n (is.filterMap (importDiag w templates)) = []
  | [] => rfl
  | i :: is => by
    have ih := aboutName_imports n w templates is
    rw [List.filterMap_cons]
    cases h : importDiag w templates i with
    | none => exact ih
    | some d =>
      have : d.1 = .templateNotFound := by
        unfold importDiag at h
        split at h
        · cases h; rfl
        · split at h
          · cases h; rfl
          · cases h
      simp only [aboutName] at ih ⊢
      rw [List.filter_cons_of_neg (by simp [this]), ih]

theorem aboutName_objects {n uri : Str} {f g : LspFiles} (h : AlikeFor n uri f g) {own own' : List Identifier} (hf : f.variables.get? uri = some own)
    (hg : g.variables.get? uri = some own') (o o' : HashOrder) (ig : Bool) : ∀ (objs : List JinjaObject),
    aboutName n (objs.filterMap (objectDiag o' g.variables own' ig)) = aboutName n (objs.filterMap (objectDiag o f.variables own ig))
  | [] => rfl
  | obj :: objs => by
    have ih := aboutName_objects h hf hg o o' ig objs
    by_cases hn : obj.name = n
    · rw [List.filterMap_cons, List.filterMap_cons, objectDiag_alike h hf hg o o' ig obj hn]
      cases objectDiag o f.variables own ig obj with
      | none => exact ih
      | some d =>
        simp only [aboutName] at ih ⊢
        rw [List.filter_cons, List.filter_cons, ih]
    · have skip : ∀ (vs : Variables) (o : HashOrder) (own : List Identifier),
          aboutName n ((obj :: objs).filterMap (objectDiag o vs own ig)) = aboutName n (objs.filterMap (objectDiag o vs own ig)) := by
        intro vs o own
        rw [List.filterMap_cons]
        cases hd : objectDiag o vs own ig obj with
        | none => rfl
        | some d =>
          have : d.2.name = obj.name := by
            unfold objectDiag at hd
            dsimp only at hd
            repeat' split at hd
            all_goals first
              | (cases hd; rfl)
              | cases hd
          simp only [aboutName]
          rw [List.filter_cons_of_neg (by simp [this, hn])]
      rw [skip, skip, ih]

/-- **C149** (reports) An analysis of the template reports the same about the name in both: the same uses, with the same verdict, in the same order. -/
theorem C149_reports (env : Env) (w w' : World) (f g : LspFiles) (n uri : Str) (hx : fileExt uri = some .template) (h : AlikeFor n uri f g) :
    Agree (fun a b => a.map (aboutName n) = b.map (aboutName n)) (f.readTree env w uri) (g.readTree env w' uri) := by
  unfold LspFiles.readTree
  rw [h.doc]
  cases f.documents.get? uri with
  | none => rfl
  | some text =>
    simp only [hx, h.tree]
    cases (f.trees .template).get? uri with
    | none => rfl
    | some tree =>
      simp only [searchErrors, h.globals]
      cases objectsQuery env tree Point.zero text true with
      | error e => rfl
      | ok objs =>
        have hh := h.home
        cases hf : f.variables.get? uri <;> cases hg : g.variables.get? uri <;> rw [hf, hg] at hh
        · rfl
        · cases hh
        · cases hh
        · simp only [Agree, Option.map_some, aboutName_append, aboutName_imports, List.append_nil, aboutName_objects h hf hg w.order w'.order]

/-- after opening, changing or saving another document nothing is different for the name, if what that document says about the name is not -/
theorem edit_alike {env : Env} {w : World} {s s' : Server} {m : Msg} {out : List Send} {r : Reply} {n uri u : Str} (hm : Edits u m) (hne : u ≠ uri)
    (h : s.handle env w m = .ok (s', out, r))
    (hsame : concerning n ((s'.files.variables.get? u).getD []) = concerning n ((s.files.variables.get? u).getD [])) :
    AlikeFor n uri s.files s'.files := by
  have hf : Frame u s.files s'.files := by
    rcases hm with ⟨t, rfl⟩ | ⟨cs, rfl⟩ | rfl
    · simp only [Server.handle] at h
      split at h
      · cases h
      · rename_i hh; cases h; exact Frame.didOpen hh
    · simp only [Server.handle, Server.onDidChange] at h
      cases hc : s.files.didChange env u cs s.nextHandle with
      | error e => rw [hc] at h; cases h
      | ok p =>
        obtain ⟨p, b⟩ := p
        rw [hc] at h
        cases b <;> cases h <;> exact Frame.didChange hc
    · simp only [Server.handle] at h
      split at h
      · cases h
      · rename_i hh; cases h; exact Frame.didSave hh
  have hd := hf.same uri (Ne.symm hne)
  refine ⟨hd.doc, hd.tree _, by rw [hf.conf.conf], hf.conf.ign, by rw [hd.vars], fun k hk => ?_⟩
  by_cases e : k = u
  · rw [e]; exact hsame
  · rw [(hf.same k e).vars]

/-- **C149** (work on another document) However another document is opened, changed or saved: as long as this does not affect its definitions
concerning the name, hover says the same about the name as before, and goto-definition leads to the same places. -/
theorem C149_elsewhere (env : Env) (sx : Syntax) (w w₁ w₂ : World) (hw : SameDisk w₁ w₂) (s s' : Server) (m : Msg) (out : List Send) (r : Reply)
    (u' uri text : Str) (tree : Tree) (es : List Elem) (u : Use) (pos : Position) (hm : Edits u' m) (hne : u' ≠ uri)
    (hh : s.handle (env.over sx) w m = .ok (s', out, r)) (hx : fileExt uri = some .template) (hd : s.files.documents.get? uri = some text)
    (ht : (s.files.trees .template).get? uri = some tree) (hs : WellFormed (sx.root tree text)) (hl : Laid (sx.root tree text))
    (hr : ReadsTree sx.digit (sx.root tree text) es) (hwf : Elems.Wf es) (hu : .use u ∈ es) (h1 : u.root.start ≤ toPoint pos)
    (h2 : toPoint pos < u.root.stop)
    (hsame : concerning u.root.text ((s'.files.variables.get? u').getD []) = concerning u.root.text ((s.files.variables.get? u').getD [])) :
    Agree (fun a b => SameReply a.2.2 b.2.2) (s.handle (env.over sx) w₁ (.goto uri pos)) (s'.handle (env.over sx) w₂ (.goto uri pos)) ∧
    ∃ a, s.handle (env.over sx) w₁ (.hover uri pos) = .ok (s, [], .hover a) ∧ s'.handle (env.over sx) w₂ (.hover uri pos) = .ok (s', [], .hover a) := by
  have h := edit_alike hm hne hh hsame (uri := uri)
  exact ⟨C149_goto env sx w₁ w₂ hw s s' uri text tree es u pos hx hd ht hs hl hr hwf hu h1 h2 h,
    C149_hover env sx w₁ w₂ s s' uri text tree es u pos hx hd ht hs hl hr hwf hu h1 h2 h⟩

/-- the same document, and the same definitions concerning the name elsewhere -/
theorem alike_of_one {n uri : Str} {f g : LspFiles} (h : AsOne uri f g)
    (ha : ∀ k, k ≠ uri → concerning n ((g.variables.get? k).getD []) = concerning n ((f.variables.get? k).getD [])) : AlikeFor n uri f g :=
  ⟨h.doc.doc, h.doc.tree _, by rw [h.conf.conf], h.conf.ign, by rw [h.doc.vars], ha⟩

/-- **C149** (sessions) Take two sessions with the same messages about a template and about the workspace, and with any other messages about other
documents.  If the other documents end up with the same definitions concerning a name, then hover and goto-definition answer alike on it. -/
theorem C149_sessions (env : Env) (sx : Syntax) (w w' : World) (hw : SameDisk w w') (s s₁ s₂ : Server) (h₁ h₂ : List (World × Msg)) (uri text : Str)
    (tree : Tree) (es : List Elem) (u : Use) (pos : Position) (he : h₁.filter (fun e => concerns uri e.2) = h₂.filter (fun e => concerns uri e.2))
    (r₁ : s.run (env.over sx) h₁ = .ok s₁) (r₂ : s.run (env.over sx) h₂ = .ok s₂) (hx : fileExt uri = some .template)
    (hd : s₁.files.documents.get? uri = some text) (ht : (s₁.files.trees .template).get? uri = some tree) (hs : WellFormed (sx.root tree text))
    (hl : Laid (sx.root tree text)) (hr : ReadsTree sx.digit (sx.root tree text) es) (hwf : Elems.Wf es) (hu : .use u ∈ es)
    (h1 : u.root.start ≤ toPoint pos) (h2 : toPoint pos < u.root.stop)
    (ha : ∀ k, k ≠ uri → concerning u.root.text ((s₂.files.variables.get? k).getD []) = concerning u.root.text ((s₁.files.variables.get? k).getD [])) :
    Agree (fun a b => SameReply a.2.2 b.2.2) (s₁.handle (env.over sx) w (.goto uri pos)) (s₂.handle (env.over sx) w' (.goto uri pos)) ∧
    ∃ a, s₁.handle (env.over sx) w (.hover uri pos) = .ok (s₁, [], .hover a) ∧ s₂.handle (env.over sx) w' (.hover uri pos) = .ok (s₂, [], .hover a) := by
  have h := alike_of_one (AsOneServers.run (AsOneServers.refl uri s) he r₁ r₂).files ha
  exact ⟨C149_goto env sx w w' hw s₁ s₂ uri text tree es u pos hx hd ht hs hl hr hwf hu h1 h2 h,
    C149_hover env sx w w' s₁ s₂ uri text tree es u pos hx hd ht hs hl hr hwf hu h1 h2 h⟩

/-- **C149** (what is published) After two such sessions, opening or saving the template publishes the same reports about the name. -/
theorem C149_published (env : Env) (w w' : World) (hw : SameDisk w w') (s s₁ s₂ t₁ t₂ : Server) (h₁ h₂ : List (World × Msg)) (n uri text : Str)
    (m : Msg) (o₁ o₂ : List Send) (a₁ a₂ : Reply) (he : h₁.filter (fun e => concerns uri e.2) = h₂.filter (fun e => concerns uri e.2))
    (r₁ : s.run env h₁ = .ok s₁) (r₂ : s.run env h₂ = .ok s₂) (hx : fileExt uri = some .template) (hm : m.Analyses uri)
    (e₁ : s₁.handle env w m = .ok (t₁, o₁, a₁)) (e₂ : s₂.handle env w' m = .ok (t₂, o₂, a₂)) (hd : t₁.files.documents.get? uri = some text)
    (tree : Tree) (ht : (t₁.files.trees .template).get? uri = some tree) (vs : List Identifier) (hv : t₁.files.variables.get? uri = some vs)
    (ha : ∀ k, k ≠ uri → concerning n ((s₂.files.variables.get? k).getD []) = concerning n ((s₁.files.variables.get? k).getD [])) :
    ∃ ds ds', o₁ = [.diag (HMap.empty.insert uri ds)] ∧ o₂ = [.diag (HMap.empty.insert uri ds')] ∧ aboutName n ds' = aboutName n ds := by
  have h := (AsOneServers.run (AsOneServers.refl uri s) he r₁ r₂).files
  have hone : AsOne uri t₁.files t₂.files := by
    cases hm with
    | opened text =>
      have hk := h.didOpen (env := env) hw text
      simp only [Server.handle] at e₁ e₂
      split at e₁ <;> cases e₁
      split at e₂ <;> cases e₂
      rename_i k1 _ _ _ k2
      rw [k1, k2] at hk
      exact hk.1
    | saved =>
      have hk := h.didSave (env := env) hw
      simp only [Server.handle] at e₁ e₂
      split at e₁ <;> cases e₁
      split at e₂ <;> cases e₂
      rename_i k1 _ _ _ k2
      rw [k1, k2] at hk
      exact hk.1
  have hd' := hone.doc.doc.trans hd
  obtain ⟨v₁, k1, k2, k3⟩ := analyses_out hm hx e₁ hd
  obtain ⟨v₂, l1, l2, l3⟩ := analyses_out hm hx e₂ hd'
  have hal : AlikeFor n uri t₁.files t₂.files := alike_of_one hone fun k hk => by
    rw [(k3.same k hk).vars, (l3.same k hk).vars]
    exact ha k hk
  have hrep := C149_reports env w w' t₁.files t₂.files n uri hx hal
  rw [k1, l1] at hrep
  simp only [Agree] at hrep
  cases v₁ with
  | none =>
    simp only [LspFiles.readTree, hd, hx, ht, searchErrors, hv] at k1
    split at k1 <;> cases k1
  | some ds =>
    cases v₂ with
    | none => cases hrep
    | some ds' =>
      simp only [Option.map_some, Option.some.injEq] at hrep
      exact ⟨ds, ds', k2 ds rfl, l2 ds' rfl, hrep.symm⟩

namespace Fix

/-- the template of C83 opened, and then another one that defines `a` -/
theorem two_opened : ∃ s s' out out' r r' tree,
    server.handle (env.over flatSyn) emptyWorld (.didOpen uriA []) = .ok (s, out, r) ∧
    s.handle (env.over flatSyn) emptyWorld (.didOpen uriB []) = .ok (s', out', r') ∧
    s.files.documents.get? uriA = some [] ∧ (s.files.trees .template).get? uriA = some tree ∧ flatSyn.root tree [] = flatRoot ∧
    (∃ vs, s'.files.variables.get? uriB = some vs ∧ vs.map Identifier.binding = Items.bindings ⟨9, 9⟩ 0 flatTags) ∧
    (s.files.variables.get? uriB).getD [] = [] := by
  have h : ∃ s s' out out' r r', server.handle (env.over flatSyn) emptyWorld (.didOpen uriA []) = .ok (s, out, r) ∧
      s.handle (env.over flatSyn) emptyWorld (.didOpen uriB []) = .ok (s', out', r') ∧
      s.files.documents.get? uriA = some [] ∧
      (s.files.trees .template).get? uriA = some (.parsed .jinja [] (some (.parsed .jinja c!"aaa" none))) ∧
      s'.files.documents.get? uriB = some [] ∧
      (s'.files.trees .template).get? uriB = some (.parsed .jinja [] (some (.parsed .jinja c!"bbb" none))) ∧
      (s.files.variables.get? uriB).getD [] = [] := ⟨_, _, _, _, _, _, rfl, rfl, rfl, rfl, rfl, rfl, rfl⟩
  obtain ⟨s, s', out, out', r, r', h1, h2, h3, h4, h5, h6, h7⟩ := h
  exact ⟨s, s', out, out', r, r', _, h1, h2, h3, h4, rfl,
    (C83_analysed env flatSyn emptyWorld s s' (.didOpen uriB []) uriB [] _ out' r' _ (.opened _) rfl h2 h5 h6 flat_wellFormed rfl flatTags_read).vars, h7⟩

/-- the second template does not define `b` -/
theorem no_b {vs : List Identifier} (h7 : vs.map Identifier.binding = Items.bindings ⟨9, 9⟩ 0 flatTags) : concerning useB.root.text vs = [] := by
  refine List.eq_nil_iff_forall_not_mem.mpr fun v hv => ?_
  obtain ⟨k1, k2⟩ := mem_concerning.mp hv
  have hb : v.binding ∈ Items.bindings ⟨9, 9⟩ 0 flatTags := h7 ▸ List.mem_map_of_mem k1
  have key : ∀ b ∈ Items.bindings ⟨9, 9⟩ 0 flatTags, b.name = c!"a" := by decide
  have hn : v.name = c!"a" := key _ hb
  rw [hn] at k2
  rcases k2 with e | ⟨x, e⟩
  · exact absurd e (by decide)
  · injection e with e _
    exact absurd e (by decide)

end Fix

/-- the hypotheses of C149 hold after a second template is opened that defines `a`: nothing changes for `b`, although something does for `a` -/
example : ∃ (s s' : Server) (out : List Send) (r : Reply) (tree : Tree), s.handle (Fix.env.over Fix.flatSyn) Fix.emptyWorld (.didOpen Fix.uriB []) = .ok (s', out, r) ∧
    Edits Fix.uriB (.didOpen Fix.uriB []) ∧ Fix.uriB ≠ Fix.uriA ∧ fileExt Fix.uriA = some .template ∧
    s.files.documents.get? Fix.uriA = some [] ∧ (s.files.trees .template).get? Fix.uriA = some tree ∧ Fix.flatSyn.root tree [] = Fix.flatRoot ∧
    WellFormed Fix.flatRoot ∧ Laid Fix.flatRoot ∧ ReadsTree Fix.digit Fix.flatRoot Fix.flatElems ∧ Elems.Wf Fix.flatElems ∧
    .use Fix.useB ∈ Fix.flatElems ∧ Fix.useB.root.start ≤ (⟨1, 10⟩ : Point) ∧ (⟨1, 10⟩ : Point) < Fix.useB.root.stop ∧
    AlikeFor Fix.useB.root.text Fix.uriA s.files s'.files ∧ ¬ AlikeFor c!"a" Fix.uriA s.files s'.files := by
  obtain ⟨s, s', out, out', r, r', tree, h1, h2, h3, h4, h5, ⟨vs, h6, h7⟩, h8⟩ := Fix.two_opened
  refine ⟨s, s', out', r', tree, h2, .inl ⟨_, rfl⟩, by decide, by decide, h3, h4, h5, Fix.flat_wellFormed, Fix.flat_laid, Fix.flatElems_read,
    Fix.flatElems_wf, by simp [Fix.flatElems], by decide, by decide, edit_alike (.inl ⟨_, rfl⟩) (by decide) h2 ?_, ?_⟩
  · rw [h6, h8]
    have := Fix.no_b h7
    simpa [concerning] using this
  · intro h
    have := h.away Fix.uriB (by decide)
    rw [h6, h8] at this
    have hb : (⟨c!"a", ⟨0, 7⟩, ⟨0, 8⟩, .setVariable, ⟨9, 9⟩⟩ : Binding) ∈ vs.map Identifier.binding := h7 ▸ by decide
    obtain ⟨v, k1, k2⟩ := List.mem_map.mp hb
    have hm : v ∈ concerning c!"a" vs := mem_concerning.mpr ⟨k1, .inl (congrArg Binding.name k2)⟩
    have hm' : v ∈ concerning c!"a" [] := by
      rw [← this]; exact hm
    cases (mem_concerning.mp hm').1

/-- two sessions of C149: the second template is opened in one of them only -/
example : ∃ s₁ s₂ : Server,
    Fix.server.run (Fix.env.over Fix.flatSyn) [(Fix.emptyWorld, .didOpen Fix.uriA [])] = .ok s₁ ∧
    Fix.server.run (Fix.env.over Fix.flatSyn) [(Fix.emptyWorld, .didOpen Fix.uriA []), (Fix.emptyWorld, .didOpen Fix.uriB [])] = .ok s₂ ∧
    ([(Fix.emptyWorld, Msg.didOpen Fix.uriA [])].filter fun e => concerns Fix.uriA e.2) =
      ([(Fix.emptyWorld, Msg.didOpen Fix.uriA []), (Fix.emptyWorld, .didOpen Fix.uriB [])].filter fun e => concerns Fix.uriA e.2) ∧
    ∀ k, k ≠ Fix.uriA → concerning Fix.useB.root.text ((s₂.files.variables.get? k).getD []) = concerning Fix.useB.root.text ((s₁.files.variables.get? k).getD []) := by
  obtain ⟨s, s', out, out', r, r', tree, h1, h2, h3, h4, h5, ⟨vs, h6, h7⟩, h8⟩ := Fix.two_opened
  refine ⟨s, s', by simp only [Server.run, h1], by simp only [Server.run, h1, h2], by simp [concerns, Fix.uriA, Fix.uriB], ?_⟩
  exact (edit_alike (.inl ⟨_, rfl⟩) (by decide) h2 (by rw [h6, h8]; simpa [concerning] using Fix.no_b h7)).away

end JinjaLsp
