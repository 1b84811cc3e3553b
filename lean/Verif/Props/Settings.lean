import Verif.Model.Config
import Verif.Props.Startup
/-
  C100, C101: settings.
-/

namespace JinjaLsp
open Spec

/-! ## C100 -/

/-- The documented form of the settings (README.md:69-73, 131-138): a table with the directory of templates, the list of backend directories and
the language, and optionally whether undefined variables are hidden. -/
structure Spec.Settings (m : List (Str × Value)) (c : JinjaConfig) : Prop where
  templates : (c!"templates", .str c.templates) ∈ m
  backend : (c!"backend", .arr (c.backend.map .str)) ∈ m
  lang : (c!"lang", .str c.lang) ∈ m
  hide : (∃ b, c.hideUndefined = some b ∧ (c!"hide_undefined", .bool b) ∈ m) ∨
    (c.hideUndefined = none ∧ ∀ v, (c!"hide_undefined", v) ∈ m → v = .null)
  internal : c.userDefined = false

theorem asStr_iff {v : Value} {s : Str} : v.asStr = some s ↔ v = .str s := by
  cases v <;> simp [Value.asStr]

theorem allStrs_iff : ∀ {vs : List Value} {l : List Str}, Value.allStrs vs = some l ↔ vs = l.map .str
  | [], l => by cases l <;> simp [Value.allStrs]
  | v :: vs, l => by
    simp only [Value.allStrs, Option.bind_eq_some_iff, Option.map_eq_some_iff]
    constructor
    · rintro ⟨s, h1, l', h2, rfl⟩
      rw [asStr_iff.mp h1, allStrs_iff.mp h2]; rfl
    · intro h
      cases l with
      | nil => cases h
      | cons s l =>
        simp only [List.map_cons, List.cons.injEq] at h
        exact ⟨s, asStr_iff.mpr h.1, l, allStrs_iff.mpr h.2, rfl⟩

theorem asStrs_iff {v : Value} {l : List Str} : v.asStrs = some l ↔ v = .arr (l.map .str) := by
  cases v <;> simp [Value.asStrs, allStrs_iff]

theorem asFlag_some {v : Value} {b : Bool} : v.asFlag = some (some b) ↔ v = .bool b := by
  cases v <;> simp [Value.asFlag]

theorem asFlag_none {v : Value} : v.asFlag = some none ↔ v = .null := by
  cases v <;> simp [Value.asFlag]

/-- the value of a key -/
def member (m : List (Str × Value)) (k : Str) : Option Value := (m.find? fun e => decide (e.1 = k)).map (·.2)

theorem member_cons (e : Str × Value) (m : List (Str × Value)) (k : Str) :
    member (e :: m) k = if e.1 = k then some e.2 else member m k := by
  unfold member
  by_cases h : e.1 = k <;> simp [h]

theorem member_none {m : List (Str × Value)} {k : Str} : member m k = none ↔ k ∉ m.map Prod.fst := by
  induction m with
  | nil => simp [member]
  | cons e m ih =>
    rw [member_cons, List.map_cons, List.mem_cons, not_or]
    by_cases h : e.1 = k
    · simp [h]
    · rw [if_neg h, ih]
      exact ⟨fun g => ⟨fun x => h x.symm, g⟩, fun g => g.2⟩

theorem member_some {m : List (Str × Value)} (hn : (m.map Prod.fst).Nodup) {k : Str} {v : Value} : member m k = some v ↔ (k, v) ∈ m := by
  induction m with
  | nil => simp [member]
  | cons e m ih =>
    obtain ⟨a, u⟩ := e
    rw [List.map_cons, List.nodup_cons] at hn
    rw [member_cons, List.mem_cons]
    by_cases h : a = k
    · subst h
      simp only [if_pos, Option.some.injEq, Prod.mk.injEq, true_and]
      constructor
      · intro h; exact Or.inl h.symm
      · rintro (h | h)
        · exact h.symm
        · exact absurd (List.mem_map.mpr ⟨_, h, rfl⟩) hn.1
    · rw [if_neg h, ih hn.2]
      constructor
      · exact Or.inr
      · rintro (h' | h')
        · cases h'; exact absurd rfl h
        · exact h'

/-- a field after all members were read -/
def pick {α : Type} (old : Option α) (dec : Value → Option α) : Option Value → Option (Option α)
  | none => some old
  | some v => (dec v).map some

/-- the four fields together -/
def gather : Option (Option Str) → Option (Option (List Str)) → Option (Option Str) → Option (Option (Option Bool)) → Option Fields
  | some a, some b, some c, some d => some ⟨a, b, c, d⟩
  | _, _, _, _ => none

theorem readAll_eq : ∀ (m : List (Str × Value)) (f : Fields), (m.map Prod.fst).Nodup →
    (f.templates.isSome → c!"templates" ∉ m.map Prod.fst) → (f.backend.isSome → c!"backend" ∉ m.map Prod.fst) →
    (f.lang.isSome → c!"lang" ∉ m.map Prod.fst) → (f.hideUndefined.isSome → c!"hide_undefined" ∉ m.map Prod.fst) →
    f.readAll m = gather (pick f.templates Value.asStr (member m c!"templates")) (pick f.backend Value.asStrs (member m c!"backend"))
      (pick f.lang Value.asStr (member m c!"lang")) (pick f.hideUndefined Value.asFlag (member m c!"hide_undefined"))
  | [], f, _, _, _, _, _ => rfl
  | (k, v) :: m, f, hn, h1, h2, h3, h4 => by
    rw [List.map_cons, List.nodup_cons] at hn
    simp only [Fields.readAll, member_cons]
    have skip : ∀ {P : Prop} {x : Str}, (P → x ∉ ((k, v) :: m).map Prod.fst) → P → x ∉ m.map Prod.fst :=
      fun h p hx => h p (by simp only [List.map_cons, List.mem_cons]; exact Or.inr hx)
    unfold Fields.read
    by_cases k1 : k = c!"templates"
    · subst k1
      have hf : f.templates.isSome = false := by
        cases hh : f.templates.isSome with
        | false => rfl
        | true => exact absurd (by simp) (h1 hh)
      rw [if_pos rfl, hf]
      simp only [Bool.false_eq_true, if_false, if_true]
      rw [if_neg (by decide), if_neg (by decide), if_neg (by decide)]
      cases hv : v.asStr with
      | none => simp [pick, hv, gather]
      | some x =>
        simp only [Option.map_some, Option.bind_some]
        rw [readAll_eq m { f with templates := some x } hn.2 (fun _ => hn.1) (skip h2) (skip h3) (skip h4)]
        simp [pick, hv, member_none.mpr hn.1]
    rw [if_neg k1, if_neg k1]
    by_cases k2 : k = c!"backend"
    · subst k2
      have hf : f.backend.isSome = false := by
        cases hh : f.backend.isSome with
        | false => rfl
        | true => exact absurd (by simp) (h2 hh)
      rw [if_pos rfl, hf]
      simp only [Bool.false_eq_true, if_false, if_true]
      rw [if_neg (by decide), if_neg (by decide)]
      cases hv : v.asStrs with
      | none => cases pick f.templates Value.asStr (member m c!"templates") <;> simp [pick, hv, gather]
      | some x =>
        simp only [Option.map_some, Option.bind_some]
        rw [readAll_eq m { f with backend := some x } hn.2 (skip h1) (fun _ => hn.1) (skip h3) (skip h4)]
        simp [pick, hv, member_none.mpr hn.1]
    rw [if_neg k2, if_neg k2]
    by_cases k3 : k = c!"lang"
    · subst k3
      have hf : f.lang.isSome = false := by
        cases hh : f.lang.isSome with
        | false => rfl
        | true => exact absurd (by simp) (h3 hh)
      rw [if_pos rfl, hf]
      simp only [Bool.false_eq_true, if_false, if_true]
      rw [if_neg (by decide)]
      cases hv : v.asStr with
      | none =>
        cases pick f.templates Value.asStr (member m c!"templates") <;> cases pick f.backend Value.asStrs (member m c!"backend") <;>
          simp [pick, hv, gather]
      | some x =>
        simp only [Option.map_some, Option.bind_some]
        rw [readAll_eq m { f with lang := some x } hn.2 (skip h1) (skip h2) (fun _ => hn.1) (skip h4)]
        simp [pick, hv, member_none.mpr hn.1]
    rw [if_neg k3, if_neg k3]
    by_cases k4 : k = c!"hide_undefined"
    · subst k4
      have hf : f.hideUndefined.isSome = false := by
        cases hh : f.hideUndefined.isSome with
        | false => rfl
        | true => exact absurd (by simp) (h4 hh)
      rw [if_pos rfl, hf]
      simp only [Bool.false_eq_true, if_false, if_true]
      cases hv : v.asFlag with
      | none =>
        cases pick f.templates Value.asStr (member m c!"templates") <;> cases pick f.backend Value.asStrs (member m c!"backend") <;>
          cases pick f.lang Value.asStr (member m c!"lang") <;> simp [pick, hv, gather]
      | some x =>
        simp only [Option.map_some, Option.bind_some]
        rw [readAll_eq m { f with hideUndefined := some x } hn.2 (skip h1) (skip h2) (skip h3) (fun _ => hn.1)]
        simp [pick, hv, member_none.mpr hn.1]
    rw [if_neg k4, if_neg k4]
    simp only [Option.bind_some]
    exact readAll_eq m f hn.2 (skip h1) (skip h2) (skip h3) (skip h4)

/-- **C100** A table is accepted exactly when it has the documented form, and then exactly its settings are read; in what order they are given and
what else the table contains does not matter. -/
theorem C100_accepted (m : List (Str × Value)) (c : JinjaConfig) (hn : (m.map Prod.fst).Nodup) :
    decodeConfig (.obj m) = some c ↔ Settings m c := by
  show (Fields.none.readAll m).bind Fields.finish = some c ↔ _
  rw [readAll_eq m Fields.none hn (by simp [Fields.none]) (by simp [Fields.none]) (by simp [Fields.none]) (by simp [Fields.none])]
  constructor
  · intro h
    rw [Option.bind_eq_some_iff] at h
    obtain ⟨f, hg, hf⟩ := h
    unfold gather at hg
    split at hg
    · rename_i a b l d g1 g2 g3 g4
      cases hg
      unfold Fields.finish at hf
      simp only [Fields.none] at g1 g2 g3 g4
      split at hf
      · rename_i t b' l' e1 e2 e3
        simp only at e1 e2 e3
        subst e1 e2 e3
        cases hf
        refine ⟨?_, ?_, ?_, ?_, rfl⟩
        · cases hm : member m c!"templates" with
          | none => rw [hm] at g1; simp [pick] at g1
          | some v =>
            rw [hm] at g1
            simp only [pick, Option.map_eq_some_iff, Option.some.injEq] at g1
            obtain ⟨x, g, rfl⟩ := g1
            rw [← asStr_iff.mp g]
            exact (member_some hn).mp hm
        · cases hm : member m c!"backend" with
          | none => rw [hm] at g2; simp [pick] at g2
          | some v =>
            rw [hm] at g2
            simp only [pick, Option.map_eq_some_iff, Option.some.injEq] at g2
            obtain ⟨x, g, rfl⟩ := g2
            rw [← asStrs_iff.mp g]
            exact (member_some hn).mp hm
        · cases hm : member m c!"lang" with
          | none => rw [hm] at g3; simp [pick] at g3
          | some v =>
            rw [hm] at g3
            simp only [pick, Option.map_eq_some_iff, Option.some.injEq] at g3
            obtain ⟨x, g, rfl⟩ := g3
            rw [← asStr_iff.mp g]
            exact (member_some hn).mp hm
        · cases hm : member m c!"hide_undefined" with
          | none =>
            rw [hm] at g4
            simp only [pick, Option.some.injEq] at g4
            subst g4
            refine Or.inr ⟨rfl, fun v hv => ?_⟩
            rw [(member_some hn).mpr hv] at hm
            cases hm
          | some v =>
            rw [hm] at g4
            simp only [pick, Option.map_eq_some_iff] at g4
            obtain ⟨x, g, e⟩ := g4
            subst e
            cases x with
            | some b =>
              rw [asFlag_some.mp g] at hm
              exact Or.inl ⟨b, rfl, (member_some hn).mp hm⟩
            | none =>
              rw [asFlag_none.mp g] at hm
              refine Or.inr ⟨rfl, fun v hv => ?_⟩
              rw [(member_some hn).mpr hv] at hm
              cases hm; rfl
      · cases hf
    · cases hg
  · intro h
    rw [(member_some hn).mpr h.templates, (member_some hn).mpr h.backend, (member_some hn).mpr h.lang]
    have hb : (Value.arr (c.backend.map .str)).asStrs = some c.backend := asStrs_iff.mpr rfl
    have hu := h.internal
    obtain ⟨t, b, l, u, hd⟩ := c
    simp only at hu hb
    subst hu
    rcases h.hide with ⟨x, e, hx⟩ | ⟨e, hx⟩
    · simp only at e
      subst e
      rw [(member_some hn).mpr hx]
      simp [pick, Value.asStr, hb, Value.asFlag, gather, Fields.finish]
    · simp only at e
      subst e
      cases hm : member m c!"hide_undefined" with
      | none => simp [pick, Value.asStr, hb, gather, Fields.finish, Fields.none]
      | some v =>
        rw [hx v ((member_some hn).mp hm)]
        simp [pick, Value.asStr, hb, Value.asFlag, gather, Fields.finish]

/-- the settings of README.md, in another order and with more members than documented -/
def Fix.settings : List (Str × Value) :=
  [(c!"lang", .str c!"rust"), (c!"user_defined", .bool false), (c!"backend", .arr [.str c!"./src", .str c!"./app"]), (c!"trace", .num),
    (c!"hide_undefined", .bool true), (c!"templates", .str c!"./templates")]

example : (Fix.settings.map Prod.fst).Nodup ∧ Settings Fix.settings ⟨c!"./templates", [c!"./src", c!"./app"], c!"rust", false, some true⟩ :=
  ⟨by decide, by simp [Fix.settings], by simp [Fix.settings], by simp [Fix.settings], Or.inl ⟨true, rfl, by simp [Fix.settings]⟩, rfl⟩

example : decodeConfig (.obj Fix.settings) = some ⟨c!"./templates", [c!"./src", c!"./app"], c!"rust", false, some true⟩ := by decide

/-- **C100** The same four settings may also be given as a list, all of them, in the order templates, backend, language, hiding. -/
theorem C100_list (vs : List Value) (c : JinjaConfig) :
    decodeConfig (.arr vs) = some c ↔ c.userDefined = false ∧
      ∃ h, vs = [.str c.templates, .arr (c.backend.map .str), .str c.lang, h] ∧
        ((∃ b, c.hideUndefined = some b ∧ h = .bool b) ∨ (c.hideUndefined = none ∧ h = .null)) := by
  constructor
  · intro h
    unfold decodeConfig at h
    split at h
    · rename_i e; cases e
    · rename_i t b l x e
      cases e
      rw [Option.bind_eq_some_iff] at h
      obtain ⟨c', hf, hx⟩ := h
      rw [Option.map_eq_some_iff] at hx
      obtain ⟨y, hx, rfl⟩ := hx
      unfold Fields.finish at hf
      split at hf
      · rename_i t' b' l' e1 e2 e3
        cases hf
        refine ⟨rfl, x, by rw [asStr_iff.mp e1, asStrs_iff.mp e2, asStr_iff.mp e3], ?_⟩
        simp only [hx]
        cases y with
        | some b => exact Or.inl ⟨b, rfl, asFlag_some.mp hx⟩
        | none => exact Or.inr ⟨rfl, asFlag_none.mp hx⟩
      · cases hf
    · cases h
  · rintro ⟨hu, x, rfl, h⟩
    obtain ⟨t, b, l, u, hd⟩ := c
    simp only at hu h
    subst hu
    have hb : (Value.arr (b.map .str)).asStrs = some b := asStrs_iff.mpr rfl
    rcases h with ⟨y, rfl, rfl⟩ | ⟨rfl, rfl⟩ <;> simp [decodeConfig, Value.asStr, hb, Value.asFlag, Fields.finish]

example : decodeConfig (.arr [.str c!"./t", .arr [], .str c!"python", .null]) = some ⟨c!"./t", [], c!"python", false, none⟩ ∧
    decodeConfig (.arr [.str c!"./t", .arr [], .str c!"python"]) = none := by decide

/-- **C100** Nothing else is accepted. -/
theorem C100_nothing_else (v : Value) (c : JinjaConfig) (h : decodeConfig v = some c) : (∃ m, v = .obj m) ∨ ∃ vs, v = .arr vs := by
  cases v with
  | obj m => exact Or.inl ⟨m, rfl⟩
  | arr vs => exact Or.inr ⟨vs, rfl⟩
  | _ => cases h

/-- **C100** Tables that agree about the four settings are read alike: order and further members do not matter. -/
theorem C100_same (m m' : List (Str × Value)) (hn : (m.map Prod.fst).Nodup) (hn' : (m'.map Prod.fst).Nodup)
    (h : ∀ k, k = c!"templates" ∨ k = c!"backend" ∨ k = c!"lang" ∨ k = c!"hide_undefined" → ∀ v, (k, v) ∈ m ↔ (k, v) ∈ m') :
    decodeConfig (.obj m) = decodeConfig (.obj m') := by
  have key : ∀ c, Settings m c ↔ Settings m' c := by
    intro c
    have a := fun v => h c!"templates" (by simp) v
    have b := fun v => h c!"backend" (by simp) v
    have d := fun v => h c!"lang" (by simp) v
    have e := fun v => h c!"hide_undefined" (by simp) v
    constructor
    · rintro ⟨h1, h2, h3, h4, h5⟩
      exact ⟨(a _).mp h1, (b _).mp h2, (d _).mp h3, h4.imp (fun ⟨x, p, q⟩ => ⟨x, p, (e _).mp q⟩) (fun ⟨p, q⟩ => ⟨p, fun v hv => q v ((e v).mpr hv)⟩), h5⟩
    · rintro ⟨h1, h2, h3, h4, h5⟩
      exact ⟨(a _).mpr h1, (b _).mpr h2, (d _).mpr h3, h4.imp (fun ⟨x, p, q⟩ => ⟨x, p, (e _).mpr q⟩) (fun ⟨p, q⟩ => ⟨p, fun v hv => q v ((e v).mp hv)⟩), h5⟩
  apply Option.ext
  intro c
  rw [C100_accepted m c hn, C100_accepted m' c hn', key]

example : decodeConfig (.obj Fix.settings) = decodeConfig (.obj (Fix.settings.reverse ++ [(c!"jinja-lsp", .obj [])])) :=
  C100_same _ _ (by decide) (by decide) (by
    rintro k (rfl | rfl | rfl | rfl) v <;> simp [Fix.settings])

/-- **C100** Settings of the documented form sent with `initialize` are in force afterwards, whatever was in force before and whatever the files of
the project say. -/
theorem C100_initialize (env : Env) (w : World) (s s' : Server) (client : Option Str) (m : List (Str × Value)) (c : JinjaConfig)
    (hn : (m.map Prod.fst).Nodup) (hc : Settings m c) (out : List Send) (r : Reply)
    (h : s.handle env w (.initializeWith client (some (.obj m))) = .ok (s', out, r)) : s'.config = { c with userDefined := true } := by
  have e : decodeConfig (.obj m) = some c := (C100_accepted m c hn).mpr hc
  unfold Msg.initializeWith at h
  rw [Option.map_some, e] at h
  exact C52_options env w s s' client c out r h

/-- **C100** The same for settings sent later; the workspace is then read again with them. -/
theorem C100_changed (env : Env) (w : World) (s s' : Server) (m : List (Str × Value)) (c : JinjaConfig) (hn : (m.map Prod.fst).Nodup)
    (hc : Settings m c) (out : List Send) (r : Reply) (h : s.handle env w (.changeSettings (.obj m)) = .ok (s', out, r)) :
    s'.config = { c with userDefined := true } ∧ out = [.initialized] := by
  have e : decodeConfig (.obj m) = some c := (C100_accepted m c hn).mpr hc
  unfold Msg.changeSettings at h
  rw [e] at h
  simp only [Server.handle] at h
  cases h
  exact ⟨rfl, rfl⟩

/-- **C100** A table in which one of templates, backend and language is missing is not used at all, however good the rest is: sent with
`initialize` it leaves the choice to the files of the project, sent later it changes nothing. -/
theorem C100_missing (env : Env) (w : World) (s : Server) (client : Option Str) (m : List (Str × Value)) (hn : (m.map Prod.fst).Nodup)
    (hk : ∃ k, (k = c!"templates" ∨ k = c!"backend" ∨ k = c!"lang") ∧ k ∉ m.map Prod.fst) :
    s.handle env w (.initializeWith client (some (.obj m))) = s.handle env w (.initializeWith client none) ∧
    ∃ out, s.handle env w (.changeSettings (.obj m)) = .ok (s, out, .none) := by
  have e : decodeConfig (.obj m) = none := by
    cases hd : decodeConfig (.obj m) with
    | none => rfl
    | some c =>
      have hs := (C100_accepted m c hn).mp hd
      obtain ⟨k, hk, hm⟩ := hk
      exfalso
      apply hm
      rcases hk with rfl | rfl | rfl
      · exact List.mem_map.mpr ⟨_, hs.templates, rfl⟩
      · exact List.mem_map.mpr ⟨_, hs.backend, rfl⟩
      · exact List.mem_map.mpr ⟨_, hs.lang, rfl⟩
  unfold Msg.initializeWith Msg.changeSettings
  rw [Option.map_some, e]
  exact ⟨rfl, _, rfl⟩

/-- **C100** In particular settings wrapped in a section, as many editors send them, change nothing, whatever they are. -/
theorem C100_wrapped (env : Env) (w : World) (s : Server) (name : Str) (v : Value) (hname : name ≠ c!"templates") :
    ∃ out, s.handle env w (.changeSettings (.obj [(name, v)])) = .ok (s, out, .none) :=
  (C100_missing env w s none [(name, v)] (by simp) ⟨c!"templates", Or.inl rfl, by simpa using fun e => hname e.symm⟩).2

example : ∃ s' out r, Server.init.handle Fix.env Fix.tree (.changeSettings (.obj Fix.settings)) = .ok (s', out, r) ∧
    s'.config.hideUndefined = some true ∧ out = [.initialized] ∧
    ∃ out', s'.handle Fix.env Fix.tree (.changeSettings (.obj [(c!"jinja-lsp", .obj Fix.settings)])) = .ok (s', out', .none) :=
  ⟨_, _, _, rfl, rfl, rfl, C100_wrapped _ _ _ _ _ (by decide)⟩

/-- an environment in which project files are read with the given parser of TOML documents into tables -/
def Env.reading (env : Env) (parse : Str → Option (List (Str × Value))) : Env :=
  { env with tomlConfig := fun t => (parse t).bind decodeExternal }

/-- **C100** Without settings of the client, the first of the three files of the project whose table `jinja-lsp` has the documented form decides; a file
that cannot be parsed, has no such table or an incomplete one is passed over. -/
theorem C100_project (env : Env) (parse : Str → Option (List (Str × Value))) (w : World) (file text : Str) (doc m : List (Str × Value))
    (c : JinjaConfig) (hr : w.readFile file = some text) (hp : parse text = some doc) (hd : (doc.map Prod.fst).Nodup)
    (hm : (c!"jinja-lsp", .obj m) ∈ doc) (hn : (m.map Prod.fst).Nodup) (ht : text ≠ []) :
    ValidFile (env.reading parse) w file c ↔ Settings m c := by
  have hfind : (doc.find? fun e => decide (e.1 = c!"jinja-lsp")) = some (c!"jinja-lsp", .obj m) := by
    have := (member_some hd).mpr hm
    unfold member at this
    rw [Option.map_eq_some_iff] at this
    obtain ⟨⟨k, v⟩, h1, h2⟩ := this
    have hk := List.find?_some h1
    simp only [decide_eq_true_eq] at hk
    simp only at h2
    subst hk h2
    exact h1
  have hdec : (env.reading parse).tomlConfig text = decodeConfig (.obj m) := by
    simp [Env.reading, hp, decodeExternal, hfind]
  rw [← C100_accepted m c hn, ← hdec]
  constructor
  · rintro ⟨t, h1, _, h3⟩
    rw [hr] at h1; cases h1
    exact h3
  · intro h
    exact ⟨text, hr, ht, h⟩

/-- a project file with the settings beside other tables -/
example : ValidFile (Fix.env.reading fun t => if t = c!"lsp" then some [(c!"package", .obj []), (c!"jinja-lsp", .obj Fix.settings)] else none)
    Fix.configWorld c!"jinja-lsp.toml" ⟨c!"./templates", [c!"./src", c!"./app"], c!"rust", false, some true⟩ :=
  (C100_project Fix.env _ Fix.configWorld c!"jinja-lsp.toml" c!"lsp" [(c!"package", .obj []), (c!"jinja-lsp", .obj Fix.settings)] Fix.settings _
    (by decide) (if_pos rfl) (by decide) (by simp) (by decide) (by decide)).mpr
    ⟨by simp [Fix.settings], by simp [Fix.settings], by simp [Fix.settings], Or.inl ⟨true, rfl, by simp [Fix.settings]⟩, rfl⟩

/-! ## C101 -/

/-- what the user has set in the editor has the types the plugin documents -/
structure Spec.WellTyped (user : List (Str × Value)) : Prop where
  keys : (user.map Prod.fst).Nodup
  templates : ∀ v, (c!"templates", v) ∈ user → ∃ s, v = .str s
  backend : ∀ v, (c!"backend", v) ∈ user → ∃ l : List Str, v = .arr (l.map .str)
  lang : ∀ v, (c!"lang", v) ∈ user → ∃ s, v = .str s
  hide : ∀ v, (c!"hide_undefined", v) ∈ user → ∃ b, v = .bool b

theorem plugin_nodup {user : List (Str × Value)} (h : (user.map Prod.fst).Nodup) :
    ((user ++ pluginDefaults.filter fun d => decide (d.1 ∉ user.map Prod.fst)).map Prod.fst).Nodup := by
  rw [List.map_append, List.nodup_append]
  refine ⟨h, ?_, ?_⟩
  · have : (pluginDefaults.map Prod.fst).Nodup := by decide
    exact (List.filter_sublist.map Prod.fst).nodup this
  · intro a ha b hb e
    subst e
    obtain ⟨x, hx, rfl⟩ := List.mem_map.mp hb
    have := (List.mem_filter.mp hx).2
    simp only [decide_eq_true_eq] at this
    exact this ha

/-- a setting the plugin has a default for -/
theorem plugin_setting {user : List (Str × Value)} {k : Str} {d : Value} (hd : (k, d) ∈ pluginDefaults) {α : Type} {dec : α → Value} {a : α} (ha : d = dec a)
    (hty : ∀ v, (k, v) ∈ user → ∃ s, v = dec s) :
    ∃ s, (k, dec s) ∈ user ++ pluginDefaults.filter (fun d => decide (d.1 ∉ user.map Prod.fst)) ∧
      ((k, dec s) ∈ user ∨ (k ∉ user.map Prod.fst ∧ dec s = d)) := by
  by_cases hk : k ∈ user.map Prod.fst
  · obtain ⟨⟨k', v⟩, hv, rfl⟩ := List.mem_map.mp hk
    obtain ⟨s, rfl⟩ := hty v hv
    exact ⟨s, List.mem_append_left _ hv, Or.inl hv⟩
  · refine ⟨a, List.mem_append_right _ (List.mem_filter.mpr ⟨ha ▸ hd, by simpa using hk⟩), Or.inr ⟨hk, ha.symm⟩⟩

/-- **C101 is false for users of the plugin for Visual Studio Code**: whatever they have set or not set, the plugin sends complete settings, so the files
of the project are never considered; what is not set in the editor gets the default of the plugin. -/
theorem C101_plugin_refuted (env : Env) (s : Server) (client : Option Str) (user : List (Str × Value)) (h : WellTyped user) :
    ∃ c : JinjaConfig, (∀ w s' out r, s.handle env w (.initializeWith client (some (pluginOptions user))) = .ok (s', out, r) → s'.config = c) ∧
      ((c!"templates", .str c.templates) ∈ user ∨ (c!"templates" ∉ user.map Prod.fst ∧ c.templates = c!"./templates")) ∧
      ((c!"backend", .arr (c.backend.map .str)) ∈ user ∨ (c!"backend" ∉ user.map Prod.fst ∧ c.backend = [c!"./src"])) ∧
      ((c!"lang", .str c.lang) ∈ user ∨ (c!"lang" ∉ user.map Prod.fst ∧ c.lang = c!"rust")) := by
  have hn := plugin_nodup h.keys
  obtain ⟨t, t1, t2⟩ := plugin_setting (user := user) (k := c!"templates") (d := .str c!"./templates") (by simp [pluginDefaults]) (dec := Value.str) rfl h.templates
  obtain ⟨b, b1, b2⟩ := plugin_setting (user := user) (k := c!"backend") (d := .arr [.str c!"./src"]) (by simp [pluginDefaults])
    (dec := fun l : List Str => Value.arr (l.map .str)) (a := [c!"./src"]) rfl h.backend
  obtain ⟨l, l1, l2⟩ := plugin_setting (user := user) (k := c!"lang") (d := .str c!"rust") (by simp [pluginDefaults]) (dec := Value.str) rfl h.lang
  have hhide : ∃ x : Option Bool, (∃ y, x = some y ∧
      (c!"hide_undefined", Value.bool y) ∈ user ++ pluginDefaults.filter (fun d => decide (d.1 ∉ user.map Prod.fst))) ∨
      (x = none ∧ ∀ v, (c!"hide_undefined", v) ∈ user ++ pluginDefaults.filter (fun d => decide (d.1 ∉ user.map Prod.fst)) → v = .null) := by
    by_cases hk : c!"hide_undefined" ∈ user.map Prod.fst
    · obtain ⟨⟨k', v⟩, hv, hk'⟩ := List.mem_map.mp hk
      simp only at hk'
      subst hk'
      obtain ⟨y, rfl⟩ := h.hide v hv
      exact ⟨some y, Or.inl ⟨y, rfl, List.mem_append_left _ hv⟩⟩
    · refine ⟨none, Or.inr ⟨rfl, fun v hv => ?_⟩⟩
      rcases List.mem_append.mp hv with hv | hv
      · exact absurd (List.mem_map.mpr ⟨_, hv, rfl⟩) hk
      · have := (List.mem_filter.mp hv).1
        simp [pluginDefaults] at this
  obtain ⟨x, hx⟩ := hhide
  refine ⟨⟨t, b, l, true, x⟩, ?_, ?_, ?_, ?_⟩
  · intro w s' out r hh
    exact C100_initialize env w s s' client _ ⟨t, b, l, false, x⟩ hn ⟨t1, b1, l1, hx, rfl⟩ out r hh
  · rcases t2 with t2 | ⟨t2, t3⟩
    · exact Or.inl t2
    · exact Or.inr ⟨t2, by simpa using t3⟩
  · rcases b2 with b2 | ⟨b2, b3⟩
    · exact Or.inl b2
    · refine Or.inr ⟨b2, ?_⟩
      simp only [Value.arr.injEq] at b3
      cases b with
      | nil => cases b3
      | cons a b =>
        cases b with
        | nil => simpa using b3
        | cons _ _ => simp at b3
  · rcases l2 with l2 | ⟨l2, l3⟩
    · exact Or.inl l2
    · exact Or.inr ⟨l2, by simpa using l3⟩

/-- nothing set, and a project with other directories: the directories of the plugin are used -/
example : WellTyped [] ∧ (∃ c, ProjectConfig Fix.configEnv Fix.configWorld c ∧ c.templates ≠ c!"./templates") ∧
    ∃ s' out r, Server.init.handle Fix.configEnv Fix.configWorld (.initializeWith (some c!"Visual Studio Code") (some (pluginOptions []))) = .ok (s', out, r) ∧
      s'.config = ⟨c!"./templates", [c!"./src"], c!"rust", true, none⟩ := by
  refine ⟨⟨by simp, by simp, by simp, by simp, by simp⟩, ⟨Fix.project, Or.inr (Or.inr ⟨?_, ?_, c!"lsp", by decide, by decide, by decide⟩), by decide⟩,
    _, _, _, rfl, rfl⟩
  · rintro ⟨c, t, h, hn, _⟩
    have : t = [] := by
      have e : Fix.configWorld.readFile c!"pyproject.toml" = some [] := by decide
      rw [e] at h; cases h; rfl
    exact hn this
  · rintro ⟨c, t, h, _, hc⟩
    have e : Fix.configWorld.readFile c!"Cargo.toml" = some c!"cargo" := by decide
    rw [e] at h; cases h
    have e : Fix.configEnv.tomlConfig c!"cargo" = none := by decide
    rw [e] at hc; cases hc

/-- **C101** (part) A client that sends no settings gets those of the first project file that has some.
Missing: the plugin of this repository always sends some (`C101_plugin_refuted`). -/
theorem C101_unset_partial (env : Env) (w : World) (s s' : Server) (client : Option Str) (c : JinjaConfig) (hc : ProjectConfig env w c)
    (out : List Send) (r : Reply) (h : s.handle env w (.initializeWith client none) = .ok (s', out, r)) :
    s'.config = { c with userDefined := true } :=
  (C52_project env w s s' client none (by simp) out r h).1 c hc

example : ∃ s' out r, Server.init.handle Fix.configEnv Fix.configWorld (.initializeWith none none) = .ok (s', out, r) ∧
    s'.config = { Fix.project with userDefined := true } := ⟨_, _, _, rfl, by decide⟩

end JinjaLsp
