import Verif.Props.NodeComplete
import Verif.Props.Hover
/-
  C94: hover in embedded templates.
-/

namespace JinjaLsp
open Node Spec NodeFiles JinjaObjects

/-- the hints told under the name `h` after a sequence of calls, when `cur` were before -/
def Spec.toldUnder (h : Str) : Option (List Action) → List Call → Option (List Action)
  | cur, [] => cur
  | cur, .addLinkHints u (some as) :: cs => toldUnder h (if u = h then some as else cur) cs
  | cur, .saveLinkHint (some as) hint :: cs => toldUnder h (if hint.getD c!"temp" = h then some as else cur) cs
  | cur, .removeTempLinkHint hint :: cs => toldUnder h (if hint.getD c!"temp" = h then none else cur) cs
  | cur, _ :: cs => toldUnder h cur cs

/-- the recorded hints are those told -/
theorem actions_told {env : Env} {w : World} {h : Str} : ∀ (cs : List Call) {n n' : NodeFiles},
    Call.run env w n cs = .ok n' → n'.actions.get? h = toldUnder h (n.actions.get? h) cs
  | [], n, n', hr => by cases hr; rfl
  | c :: cs, n, n', hr => by
    unfold Call.run at hr
    split at hr
    · cases hr
    · rename_i n1 h1
      rw [actions_told cs hr]
      cases c with
      | addLinkHints u as =>
        cases as with
        | none => cases h1; rfl
        | some as => cases h1; simp only [addLinkHints, toldUnder, HMap.get?_insert]; simp only [eq_comm]
      | saveLinkHint as hint =>
        cases as with
        | none => cases h1; rfl
        | some as => cases h1; simp only [saveLinkHint, toldUnder, HMap.get?_insert]; simp only [eq_comm]
      | removeTempLinkHint hint => cases h1; simp only [removeTempLinkHint, toldUnder, HMap.get?_erase]; simp only [eq_comm]
      | deleteAll f => cases h1; rfl
      | addOne id f ct l e col =>
        simp only [Call.step, Except.map] at h1
        split at h1
        · cases h1
        · rename_i r hr'
          cases h1
          obtain ⟨_, _, _, _, ha, _⟩ := addOne_files (n1 := r.1) (links := r.2) hr'
          rw [ha]; rfl

/-- The cursor is on the name of the use `u` in the embedded template `id` of the file `fn`, after the calls `calls`. -/
structure Spec.OnEmbedded (env : Env) (w : World) (calls : List Call) (n : NodeFiles) (id : Nat) (fn uri : Str) (line l ch : Nat)
    (u : Use) (vars : List Identifier) : Prop where
  run : Call.run env w NodeFiles.new calls = .ok n
  uri_eq : docUri env fn id c!"jinja" = .ok uri
  template : fileExt uri = some .template
  use : ∃ tree text es rest, n.files.documents.get? uri = some text ∧ (n.files.trees .template).get? uri = some tree ∧
    OnUse (env.queryMatches .jinjaObjects tree text).flatten es u rest (toPoint ⟨l, ch⟩)
  read : n.files.variables.get? uri = some vars
  fits : RangeFits line (toRange (u.root.start, u.root.stop))

namespace Spec.OnEmbedded
variable {env : Env} {w : World} {calls : List Call} {n : NodeFiles} {id : Nat} {fn uri : Str} {line l ch : Nat} {u : Use}
  {vars : List Identifier}

/-- the answer of hover -/
theorem answer (h : OnEmbedded env w calls n id fn uri line l ch u vars) : ∃ i, i.name = u.root.text ∧ i.start = u.root.start ∧
    n.hover env w id fn line ⟨l + line, ch⟩ = .ok (if u.info.filter then
        ((filterTable.find? fun e => decide (e.1 = u.root.text)).map Prod.snd).map fun v => ⟨v, downRange line (toRange (u.root.start, u.root.stop))⟩
      else (n.files.dataType w uri i).map fun t => ⟨n.variableHover u.root.text t, downRange line (toRange (u.root.start, u.root.stop))⟩) := by
  obtain ⟨tree, text, es, rest, hd, ht, hu⟩ := h.use
  obtain ⟨r, o, os, hq, ho, h1, h2, h3, h4, h5, _⟩ := JinjaObjects.cursor_root hu
  have hh : r.isHover (toPoint ⟨l, ch⟩) = true := by simp [JinjaObjects.isHover, h5, hu.start, hu.stop]
  have hl : r.getLastId = some o := by simp [JinjaObjects.getLastId, ho]
  have hi : n.files.hover env uri ⟨l, ch⟩ = .ok (some (Identifier.ofObject o,
      if u.info.filter then .filter else if u.info.test then .test else .identifier)) := by
    simp only [LspFiles.hover, h.template, ne_eq, not_true, if_false, ht, hd, hq, hh, if_true, hl, h3, h4]
    cases u.info.filter <;> cases u.info.test <;> rfl
  have hn : (Identifier.ofObject o).name = u.root.text := h1
  have hs : (Identifier.ofObject o).start = u.root.start := by show o.location.1 = _; rw [h2]
  have ht' : (Identifier.ofObject o).stop = u.root.stop := by show o.location.2 = _; rw [h2]
  refine ⟨Identifier.ofObject o, hn, hs, ?_⟩
  have hr : shiftRange env.profile ⟨toPosition2 (Identifier.ofObject o).start, toPosition2 (Identifier.ofObject o).stop⟩ line =
      .ok (downRange line (toRange (u.root.start, u.root.stop))) := by
    rw [hs, ht']; exact shiftRange_down h.fits
  unfold NodeFiles.hover
  simp only [usub32_add, h.uri_eq, hi, hr, hn]
  cases u.info.filter with
  | true => simp
  | false => cases u.info.test <;> simp

end Spec.OnEmbedded

/-- the kind of definition hover shows for the name of the use: that of the latest definition in the template, or that of a backend variable
if the name is recorded in another file -/
def Spec.KnownAs (f : LspFiles) (uri : Str) (vars : List Identifier) (name : Str) (p : Point) (t : IdType) : Prop :=
  (∃ d ∈ vars, DefinesAt name p d ∧ (∀ d' ∈ vars, DefinesAt name p d' → d'.start ≤ d.start) ∧ d.idType = t) ∨
  ((∀ d ∈ vars, ¬ DefinesAt name p d) ∧ (∃ file v, Elsewhere f uri name file v) ∧ t = .backendVariable)

/-- the name of the use has no definition -/
def Spec.Unknown (f : LspFiles) (uri : Str) (vars : List Identifier) (name : Str) (p : Point) : Prop :=
  (∀ d ∈ vars, ¬ DefinesAt name p d) ∧ ¬ ∃ file v, Elsewhere f uri name file v

theorem dataType_known {w : World} {f : LspFiles} {uri : Str} {i : Identifier} {vars : List Identifier}
    (hv : f.variables.get? uri = some vars) :
    (∃ t, KnownAs f uri vars i.name i.start t ∧ f.dataType w uri i = some t) ∨
      (Unknown f uri vars i.name i.start ∧ f.dataType w uri i = none) := by
  by_cases hex : ∃ d ∈ vars, DefinesAt i.name i.start d
  · obtain ⟨d, h1, h2, h3, h4⟩ := dataType_some (w := w) hv hex
    exact Or.inl ⟨_, Or.inl ⟨d, h1, h2, h3, rfl⟩, h4⟩
  · have hno : ∀ d ∈ vars, ¬ DefinesAt i.name i.start d := fun d hd h => hex ⟨d, hd, h⟩
    have h4 := dataType_none (w := w) hv hno
    by_cases he : ∃ file v, Elsewhere f uri i.name file v
    · rw [if_pos he] at h4
      exact Or.inl ⟨_, Or.inr ⟨hno, he, rfl⟩, h4⟩
    · rw [if_neg he] at h4
      exact Or.inr ⟨⟨hno, he⟩, h4⟩

/-- the first hint whose name begins with the name -/
theorem variableHover_hint {n : NodeFiles} {name : Str} {t : IdType} {pre post : List Action} {a : Action}
    (ha : n.actions.get? c!"temp" = some (pre ++ a :: post)) (hp : name <+: a.name) (hpre : ∀ b ∈ pre, ¬ name <+: b.name) :
    n.variableHover name t = a.description := by
  unfold variableHover
  have : (pre ++ a :: post).find? (fun a => name.isPrefixOf a.name) = some a := by
    rw [List.find?_append, List.find?_eq_none.mpr (fun b hb => by simpa using hpre b hb)]
    simp [List.isPrefixOf_iff_prefix.mpr hp]
  rw [ha, Option.getD_some, this]

theorem variableHover_none {n : NodeFiles} {name : Str} {t : IdType} (ha : ∀ b ∈ (n.actions.get? c!"temp").getD [], ¬ name <+: b.name) :
    n.variableHover name t = kindText t ++ c!"\n\n---\n**" ++ name ++ c!"**" := by
  unfold variableHover
  rw [List.find?_eq_none.mpr (fun b hb => by simpa using ha b hb), completionDetail_eq]

/-! ## C94 -/

/-- **C94, hints** (part: names that are known, hints of exactly this name) Hovering over a known name shows the description of the hint told
under the default name, if no earlier one is for a longer name; the range is that of the name in the host document. -/
theorem C94_hint_partial (env : Env) (w : World) (calls : List Call) (n : NodeFiles) (id : Nat) (fn uri : Str) (line l ch : Nat) (u : Use)
    (vars : List Identifier) (h : OnEmbedded env w calls n id fn uri line l ch u vars) (hf : u.info.filter = false)
    (hk : ¬ Unknown n.files uri vars u.root.text u.root.start) (pre post : List Action) (a : Action)
    (ha : toldUnder c!"temp" none calls = some (pre ++ a :: post)) (hn : a.name = u.root.text)
    (hpre : ∀ b ∈ pre, ¬ u.root.text <+: b.name) :
    n.hover env w id fn line ⟨l + line, ch⟩ = .ok (some ⟨a.description, downRange line (toRange (u.root.start, u.root.stop))⟩) := by
  obtain ⟨i, h1, h2, h3⟩ := h.answer
  have hact := actions_told (h := c!"temp") calls h.run
  rw [show NodeFiles.new.actions.get? c!"temp" = none from rfl, ha] at hact
  rcases dataType_known (w := w) (i := i) h.read with ⟨t, _, ht⟩ | ⟨hu, _⟩
  · rw [h3, ht, hf]
    simp only [Bool.false_eq_true, if_false, Option.map_some, variableHover_hint hact (hn ▸ List.prefix_refl _) hpre]
  · rw [h1, h2] at hu; exact absurd hu hk

/-- **C94, kinds** Hovering over a known name for which nothing was told shows the kind of its definition and the name. -/
theorem C94_kind (env : Env) (w : World) (calls : List Call) (n : NodeFiles) (id : Nat) (fn uri : Str) (line l ch : Nat) (u : Use)
    (vars : List Identifier) (h : OnEmbedded env w calls n id fn uri line l ch u vars) (hf : u.info.filter = false)
    (hk : ¬ Unknown n.files uri vars u.root.text u.root.start)
    (ha : ∀ b ∈ (toldUnder c!"temp" none calls).getD [], ¬ u.root.text <+: b.name) :
    ∃ t, KnownAs n.files uri vars u.root.text u.root.start t ∧ n.hover env w id fn line ⟨l + line, ch⟩ =
      .ok (some ⟨kindText t ++ c!"\n\n---\n**" ++ u.root.text ++ c!"**", downRange line (toRange (u.root.start, u.root.stop))⟩) := by
  obtain ⟨i, h1, h2, h3⟩ := h.answer
  have hact := actions_told (h := c!"temp") calls h.run
  rw [show NodeFiles.new.actions.get? c!"temp" = none from rfl] at hact
  rcases dataType_known (w := w) (i := i) h.read with ⟨t, hk', ht⟩ | ⟨hu, _⟩
  · rw [h1, h2] at hk'
    refine ⟨t, hk', ?_⟩
    rw [h3, ht, hf]
    simp only [Bool.false_eq_true, if_false, Option.map_some]
    rw [variableHover_none (by rw [hact]; exact ha)]
  · rw [h1, h2] at hu; exact absurd hu hk

/-- **C94, filters** Hovering over a filter shows its documentation, whatever was told. -/
theorem C94_filter (env : Env) (w : World) (calls : List Call) (n : NodeFiles) (id : Nat) (fn uri : Str) (line l ch : Nat) (u : Use)
    (vars : List Identifier) (h : OnEmbedded env w calls n id fn uri line l ch u vars) (hf : u.info.filter = true) :
    (∀ d, (u.root.text, d) ∈ filterTable →
      n.hover env w id fn line ⟨l + line, ch⟩ = .ok (some ⟨d, downRange line (toRange (u.root.start, u.root.stop))⟩)) ∧
    ((∀ d, (u.root.text, d) ∉ filterTable) → n.hover env w id fn line ⟨l + line, ch⟩ = .ok none) := by
  obtain ⟨i, h1, h2, h3⟩ := h.answer
  rw [h3, hf]
  simp only [if_true]
  have hnd : (filterTable.map Prod.fst).Nodup := by decide
  constructor
  · intro d hd
    have : filterTable.find? (fun e => decide (e.1 = u.root.text)) = some (u.root.text, d) := by
      cases hx : filterTable.find? (fun e => decide (e.1 = u.root.text)) with
      | none => exact absurd (List.find?_eq_none.mp hx _ hd) (by simp)
      | some e =>
        have he := List.find?_some hx
        have hm := List.mem_of_find?_eq_some hx
        simp only [decide_eq_true_eq] at he
        obtain ⟨x, y⟩ := e
        simp only at he
        subst he
        have key : ∀ (t : List (Str × Str)) (x y z : Str), (t.map Prod.fst).Nodup → (x, y) ∈ t → (x, z) ∈ t → y = z := by
          intro t x y z
          induction t with
          | nil => intro _ h; cases h
          | cons e t ih =>
            intro hnd hy hz
            simp only [List.map_cons, List.nodup_cons] at hnd
            rcases List.mem_cons.mp hy with hy | hy <;> rcases List.mem_cons.mp hz with hz | hz
            · rw [← hy] at hz; injection hz with _ hz; exact hz.symm
            · exact absurd (List.mem_map_of_mem (f := Prod.fst) hz) (by rw [← hy] at hnd; exact hnd.1)
            · exact absurd (List.mem_map_of_mem (f := Prod.fst) hy) (by rw [← hz] at hnd; exact hnd.1)
            · exact ih hnd.2 hy hz
        rw [key _ _ _ _ hnd hm hd]
    rw [this]
    rfl
  · intro hno
    have : filterTable.find? (fun e => decide (e.1 = u.root.text)) = none := by
      rw [List.find?_eq_none]
      intro e he
      simp only [decide_eq_true_eq]
      intro hx
      exact hno e.2 (by rw [← hx]; exact he)
    rw [this]
    rfl

/-- **C94 is false for hints of longer names**.  The first hint whose name begins with the name is shown, also if there is one of exactly this
name after it, or none at all. -/
theorem C94_longer_refuted (env : Env) (w : World) (calls : List Call) (n : NodeFiles) (id : Nat) (fn uri : Str) (line l ch : Nat) (u : Use)
    (vars : List Identifier) (h : OnEmbedded env w calls n id fn uri line l ch u vars) (hf : u.info.filter = false)
    (hk : ¬ Unknown n.files uri vars u.root.text u.root.start) (pre post : List Action) (a : Action) (more : Str)
    (ha : toldUnder c!"temp" none calls = some (pre ++ a :: post)) (hn : a.name = u.root.text ++ more) (hm : more ≠ [])
    (hpre : ∀ b ∈ pre, ¬ u.root.text <+: b.name) :
    a.name ≠ u.root.text ∧
    n.hover env w id fn line ⟨l + line, ch⟩ = .ok (some ⟨a.description, downRange line (toRange (u.root.start, u.root.stop))⟩) := by
  obtain ⟨i, h1, h2, h3⟩ := h.answer
  have hact := actions_told (h := c!"temp") calls h.run
  rw [show NodeFiles.new.actions.get? c!"temp" = none from rfl, ha] at hact
  refine ⟨fun e => hm ?_, ?_⟩
  · rw [hn] at e; exact List.append_right_eq_self.mp e
  rcases dataType_known (w := w) (i := i) h.read with ⟨t, _, ht⟩ | ⟨hu, _⟩
  · rw [h3, ht, hf]
    simp only [Bool.false_eq_true, if_false, Option.map_some, variableHover_hint hact (hn ▸ List.prefix_append _ _) hpre]
  · rw [h1, h2] at hu; exact absurd hu hk

/-- **C94 is false for names without definition**.  Nothing is shown for them, whatever was told (`addLinkHints` defines no names). -/
theorem C94_unknown_refuted (env : Env) (w : World) (calls : List Call) (n : NodeFiles) (id : Nat) (fn uri : Str) (line l ch : Nat) (u : Use)
    (vars : List Identifier) (h : OnEmbedded env w calls n id fn uri line l ch u vars) (hf : u.info.filter = false)
    (hk : Unknown n.files uri vars u.root.text u.root.start) : n.hover env w id fn line ⟨l + line, ch⟩ = .ok none := by
  obtain ⟨i, h1, h2, h3⟩ := h.answer
  rcases dataType_known (w := w) (i := i) h.read with ⟨t, hk', _⟩ | ⟨_, ht⟩
  · rw [h1, h2] at hk'
    rcases hk' with ⟨d, hd, hdef, _⟩ | ⟨_, he, _⟩
    · exact absurd hdef (hk.1 d hd)
    · exact absurd he hk.2
  · rw [h3, ht, hf]; rfl

/-- **C94 is false for tests**.  They are looked up among the variables: nothing is shown for one that is no variable, and no documentation of
a test ever is when nothing was told. -/
theorem C94_test_refuted (env : Env) (w : World) (calls : List Call) (n : NodeFiles) (id : Nat) (fn uri : Str) (line l ch : Nat) (u : Use)
    (vars : List Identifier) (h : OnEmbedded env w calls n id fn uri line l ch u vars) (_ht : u.info.test = true) (hf : u.info.filter = false)
    (ha : toldUnder c!"temp" none calls = none) (d : Str) (hd : (u.root.text, d) ∈ testTable) (r : Range) :
    n.hover env w id fn line ⟨l + line, ch⟩ ≠ .ok (some ⟨d, r⟩) := by
  have hne : ∀ t : IdType, kindText t ++ c!"\n\n---\n**" ++ u.root.text ++ c!"**" ≠ d := by
    intro t e
    have h1 : d.head? = some 'm' := by
      have : ∀ e ∈ testTable, e.2.head? = some 'm' := by decide
      exact this _ hd
    rw [← e] at h1
    have : ∀ x : Str, (kindText t ++ c!"\n\n---\n**" ++ x ++ c!"**").head? ≠ some 'm' := by intro x; cases t <;> simp [kindText]
    exact this _ h1
  by_cases hk : Unknown n.files uri vars u.root.text u.root.start
  · rw [C94_unknown_refuted env w calls n id fn uri line l ch u vars h hf hk]
    intro e; cases e
  · obtain ⟨t, _, e⟩ := C94_kind env w calls n id fn uri line l ch u vars h hf hk (by rw [ha]; intro b hb; cases hb)
    rw [e]
    intro e
    injection e with e
    injection e with e
    injection e with e _
    exact hne t e

namespace Fix

/-- hints, then the template `{{ user }}` -/
def embeddedCalls (hints : List Call) : List Call := hints ++ [.addOne 7 c!"f" c!"{{ user }}" 0 c!"jinja" none]

/-- the name `user` is known if hints for it were saved -/
def embeddedEnv : Env := envWith .jinjaObjects userCaps

end Fix

/-- hints for `user` and `username`: that of `user` is shown, ten lines down, … -/
example : ∃ n, Call.run Fix.embeddedEnv Fix.world NodeFiles.new
      (Fix.embeddedCalls [.saveLinkHint (some [⟨c!"user", c!"the user"⟩, ⟨c!"username", c!"the name"⟩]) none]) = .ok n ∧
    n.hover Fix.embeddedEnv Fix.world 7 c!"f" 10 ⟨0 + 10, 5⟩ = .ok (some ⟨c!"the user", ⟨⟨10, 3⟩, ⟨10, 7⟩⟩⟩) := by
  refine ⟨_, rfl, ?_⟩
  refine C94_hint_partial Fix.embeddedEnv Fix.world
    (Fix.embeddedCalls [.saveLinkHint (some [⟨c!"user", c!"the user"⟩, ⟨c!"username", c!"the name"⟩]) none]) _ 7 c!"f" Fix.offsetUri 10 0 5
    ⟨.variable, Fix.tok 0 3 7 c!"user" 2, []⟩ []
    ⟨rfl, rfl, by decide, ⟨_, _, _, _, rfl, rfl, Fix.user_on _ _⟩, rfl, by unfold RangeFits; decide⟩ rfl ?_ []
    [⟨c!"username", c!"the name"⟩] ⟨c!"user", c!"the user"⟩ rfl rfl (by simp)
  rintro ⟨_, h⟩
  exact h ⟨c!"temp", _, by decide, _, rfl, List.mem_cons_self, by decide, Or.inl rfl⟩

/-- … the other way round that of `username` is, … -/
example : ∃ n, Call.run Fix.embeddedEnv Fix.world NodeFiles.new
      (Fix.embeddedCalls [.saveLinkHint (some [⟨c!"username", c!"the name"⟩, ⟨c!"user", c!"the user"⟩]) none]) = .ok n ∧
    n.hover Fix.embeddedEnv Fix.world 7 c!"f" 10 ⟨0 + 10, 5⟩ = .ok (some ⟨c!"the name", ⟨⟨10, 3⟩, ⟨10, 7⟩⟩⟩) := by
  refine ⟨_, rfl, ?_⟩
  refine (C94_longer_refuted Fix.embeddedEnv Fix.world
    (Fix.embeddedCalls [.saveLinkHint (some [⟨c!"username", c!"the name"⟩, ⟨c!"user", c!"the user"⟩]) none]) _ 7 c!"f" Fix.offsetUri 10 0 5
    ⟨.variable, Fix.tok 0 3 7 c!"user" 2, []⟩ []
    ⟨rfl, rfl, by decide, ⟨_, _, _, _, rfl, rfl, Fix.user_on _ _⟩, rfl, by unfold RangeFits; decide⟩ rfl ?_ []
    [⟨c!"user", c!"the user"⟩] ⟨c!"username", c!"the name"⟩ c!"name" rfl rfl (by decide) (by simp)).2
  rintro ⟨_, h⟩
  exact h ⟨c!"temp", _, by decide, _, rfl, List.mem_cons_of_mem _ List.mem_cons_self, by decide, Or.inl rfl⟩

/-- … with hints saved under another name the kind is shown, … -/
example : ∃ n, Call.run Fix.embeddedEnv Fix.world NodeFiles.new
      (Fix.embeddedCalls [.saveLinkHint (some [⟨c!"user", c!"the user"⟩]) (some c!"other")]) = .ok n ∧
    n.hover Fix.embeddedEnv Fix.world 7 c!"f" 10 ⟨0 + 10, 5⟩ =
      .ok (some ⟨c!"Backend variable\n\n---\n**user**", ⟨⟨10, 3⟩, ⟨10, 7⟩⟩⟩) := by
  refine ⟨_, rfl, ?_⟩
  obtain ⟨t, hk, h⟩ := C94_kind Fix.embeddedEnv Fix.world
    (Fix.embeddedCalls [.saveLinkHint (some [⟨c!"user", c!"the user"⟩]) (some c!"other")]) _ 7 c!"f" Fix.offsetUri 10 0 5
    ⟨.variable, Fix.tok 0 3 7 c!"user" 2, []⟩ []
    ⟨rfl, rfl, by decide, ⟨_, _, _, _, rfl, rfl, Fix.user_on _ _⟩, rfl, by unfold RangeFits; decide⟩ rfl (by
      rintro ⟨_, h⟩
      exact h ⟨c!"other", _, by decide, _, rfl, List.mem_cons_self, by decide, Or.inl rfl⟩) (by
      intro b hb
      have : ((toldUnder c!"temp" none (Fix.embeddedCalls [.saveLinkHint (some [⟨c!"user", c!"the user"⟩]) (some c!"other")])).getD []) = [] := rfl
      rw [this] at hb; cases hb)
  refine h.trans ?_
  rcases hk with ⟨d, hd, _⟩ | ⟨_, _, rfl⟩
  · cases hd
  · rfl

/-- … and with hints that are only linked nothing is. -/
example : ∃ n, Call.run Fix.embeddedEnv Fix.world NodeFiles.new
      (Fix.embeddedCalls [.addLinkHints c!"temp" (some [⟨c!"user", c!"the user"⟩])]) = .ok n ∧
    n.hover Fix.embeddedEnv Fix.world 7 c!"f" 10 ⟨0 + 10, 5⟩ = .ok none := by
  refine ⟨_, rfl, ?_⟩
  refine C94_unknown_refuted Fix.embeddedEnv Fix.world (Fix.embeddedCalls [.addLinkHints c!"temp" (some [⟨c!"user", c!"the user"⟩])]) _
    7 c!"f" Fix.offsetUri 10 0 5 ⟨.variable, Fix.tok 0 3 7 c!"user" 2, []⟩ []
    ⟨rfl, rfl, by decide, ⟨_, _, _, _, rfl, rfl, Fix.user_on _ _⟩, rfl, by unfold RangeFits; decide⟩ rfl ?_
  refine ⟨(by intro d hd; cases hd), ?_⟩
  rintro ⟨file, v, hne, vs, hg, hv, _⟩
  have hm : (file, vs) ∈ [(Fix.offsetUri, ([] : List Identifier))] := (HMap.get?_eq_some_iff ..).mp hg
  cases List.mem_singleton.mp hm
  cases hv

/-- filters and tests in an embedded template -/
example : ∃ n, Call.run (Fix.envWith .jinjaObjects (Fix.upperCaps (.filter (Fix.tok 0 5 6 c!"|" 4)) c!"upper")) Fix.world NodeFiles.new
      (Fix.embeddedCalls []) = .ok n ∧
    n.hover (Fix.envWith .jinjaObjects (Fix.upperCaps (.filter (Fix.tok 0 5 6 c!"|" 4)) c!"upper")) Fix.world 7 c!"f" 10 ⟨0 + 10, 8⟩ =
      .ok (some ⟨c!"md/filters/upper.md", ⟨⟨10, 6⟩, ⟨10, 11⟩⟩⟩) := by
  refine ⟨_, rfl, ?_⟩
  exact (C94_filter _ Fix.world (Fix.embeddedCalls []) _ 7 c!"f" Fix.offsetUri 10 0 8 _ []
    ⟨rfl, rfl, by decide, ⟨_, _, _, _, rfl, rfl, Fix.upper_on (.filter (Fix.tok 0 5 6 c!"|" 4)) c!"upper" (by simp [Mark.Ok, Fix.tok]) (by decide) (by
      simp only [Fix.opened, List.flatMap_cons, List.flatMap_nil, Elem.toks, Mark.toks, Fix.tok, List.append_nil, List.nil_append,
        List.cons_append, Ordered]
      decide) _ _⟩, rfl, by unfold RangeFits; decide⟩ rfl).1 c!"md/filters/upper.md" (by decide)

example : ∃ n, Call.run (Fix.envWith .jinjaObjects (Fix.upperCaps (.test (Fix.tok 0 3 5 c!"is" 4) []) c!"defined")) Fix.world NodeFiles.new
      (Fix.embeddedCalls []) = .ok n ∧
    ∀ r, n.hover (Fix.envWith .jinjaObjects (Fix.upperCaps (.test (Fix.tok 0 3 5 c!"is" 4) []) c!"defined")) Fix.world 7 c!"f" 10 ⟨0 + 10, 8⟩ ≠
      .ok (some ⟨c!"md/is_defined.md", r⟩) := by
  refine ⟨_, rfl, ?_⟩
  intro r
  exact C94_test_refuted _ Fix.world (Fix.embeddedCalls []) _ 7 c!"f" Fix.offsetUri 10 0 8 _ []
    ⟨rfl, rfl, by decide, ⟨_, _, _, _, rfl, rfl, Fix.upper_on (.test (Fix.tok 0 3 5 c!"is" 4) []) c!"defined" (by simp [Mark.Ok, Fix.tok]) (by decide) (by
      simp only [Fix.opened, List.flatMap_cons, List.flatMap_nil, Elem.toks, Mark.toks, Fix.tok, List.append_nil, List.nil_append,
        List.cons_append, Ordered]
      decide) _ _⟩, rfl, by unfold RangeFits; decide⟩ rfl rfl rfl _ (by decide) r

end JinjaLsp
