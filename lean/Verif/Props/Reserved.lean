import Verif.Props.Sites
import Verif.Props.NodeListed
/-
  C147: a reserved word is never taken for a variable.
-/

namespace JinjaLsp
open Node Spec NodeFiles

namespace Spec

/-- nothing read as a name is a reserved word -/
def Unreserved (o : JinjaObjects) : Prop := ∀ x ∈ o.objects, x.name ∉ reserved

/-- the message reports no reserved word as undefined or as defined in another file -/
def _root_.JinjaLsp.Send.NoReserved : Send → Prop
  | .diag m => ∀ e ∈ m.entries, ∀ d ∈ e.2, d.1 ≠ .templateNotFound → d.2.name ∉ reserved
  | .initialized => True

end Spec

theorem unreserved_push {s : JinjaObjects} (h : Unreserved s) (value : Str) (a b : Point) : Unreserved (s.pushObject value a b).1 := by
  unfold JinjaObjects.pushObject
  split
  · exact h
  · rename_i hv
    intro x hx
    rcases List.mem_append.mp hx with hx | hx
    · exact h x hx
    · rw [List.mem_singleton.mp hx]
      exact hv

theorem unreserved_build {s : JinjaObjects} (h : Unreserved s) (c : Capture) : Unreserved (s.buildObject c).1 := by
  unfold JinjaObjects.buildObject
  split
  · exact h
  · split
    · split
      · rename_i last hlast
        intro x hx
        rcases List.mem_append.mp hx with hx | hx
        · exact h x (List.dropLast_subset _ hx)
        · rw [List.mem_singleton.mp hx]
          exact h last (List.mem_of_getLast? hlast)
      · exact unreserved_push h _ _ _
    · exact unreserved_push h _ _ _

theorem unreserved_check {s o : JinjaObjects} {act : ObjectAction} (h : Unreserved s) {c : Capture} (hc : s.check c = some (o, act)) : Unreserved o := by
  unfold JinjaObjects.check at hc
  split at hc
  · cases hc
  · injection hc with hc
    have := unreserved_build h c
    rw [hc] at this
    exact this
  · cases hc; exact h
  · split at hc
    · cases hc
    · injection hc with hc
      injection hc with hc _
      subst hc
      split <;> exact h
  · cases hc; exact h
  · cases hc; exact h
  · cases hc; exact h

theorem unreserved_finish {prof : Profile} {o o' : JinjaObjects} {i : Nat} {e : (Point × Point) × ExprRange} (h : Unreserved o)
    (hf : objectsFinish prof o i e = .ok o') : Unreserved o' := by
  have h1 : Unreserved (match o.objects[i]? with
      | some obj => { o with ident := obj.location, objects := o.objects.set i { obj with captureFirst := true } }
      | none => o) := by
    split
    · rename_i obj ho
      intro x hx
      rcases List.mem_or_eq_of_mem_set hx with hx | rfl
      · exact h x hx
      · exact h obj (List.mem_of_getElem? ho)
    · exact h
  unfold objectsFinish at hf
  dsimp only at hf
  split at hf
  · cases hf
  · split at hf
    · cases hf
      exact fun x hx => h1 x (List.dropLast_subset _ hx)
    · cases hf
      exact h1

theorem unreserved_loop {prof : Profile} {p : Point} {all : Bool} : ∀ (cs : List Capture) (st : ObjLoop) {o : JinjaObjects}, Unreserved st.objects →
    objectsLoop prof p all st cs = .ok o → Unreserved o
  | [], st, o, h, hl => by unfold objectsLoop at hl; cases hl; exact h
  | c :: cs, st, o, h, hl => by
    unfold objectsLoop at hl
    split at hl
    · split at hl
      · cases hl; exact h
      · rename_i hc
        exact unreserved_loop cs _ (unreserved_check h hc) hl
    · split at hl
      · split at hl
        · cases hl; exact h
        · split at hl
          · split at hl
            · split at hl
              · cases hl
              · exact unreserved_loop cs _ (by exact h) hl
            · cases hl; exact h
          · split at hl
            · cases hl; exact h
            · rename_i hc
              have hu := unreserved_check h hc
              split at hl
              · exact unreserved_finish hu hl
              · exact unreserved_finish hu hl
              · exact unreserved_finish hu hl
              · exact unreserved_loop cs _ hu hl
      · exact unreserved_loop cs _ h hl

/-- nothing that is read of a text is a reserved word -/
theorem query_unreserved {env : Env} {tree : Tree} {p : Point} {text : Str} {all : Bool} {o : JinjaObjects}
    (h : objectsQuery env tree p text all = .ok o) : Unreserved o := by
  refine unreserved_loop _ _ ?_ h
  intro x hx
  cases hx

theorem ident_unreserved {o : JinjaObjects} (h : Unreserved o) {p : Point} {n : Str} (hn : o.isIdent p = some n) : n ∉ reserved := by
  unfold JinjaObjects.isIdent at hn
  split at hn
  · obtain ⟨x, h1, rfl⟩ := Option.map_eq_some_iff.mp hn
    exact h x (List.mem_of_getLast? h1)
  · cases hn

/-- a reserved word has no dots -/
theorem reserved_segment {n : Str} (h : n ∈ reserved) : LspFiles.firstSegment n = n := by
  simp only [reserved, List.mem_cons, List.not_mem_nil, or_false] at h
  rcases h with rfl | rfl | rfl | rfl | rfl | rfl | rfl | rfl <;> decide

/-! ## C147 -/

/-- **C147** (goto) In whatever state the server is: goto-definition never leads to a definition of a reserved word in the same document. -/
theorem C147_goto (env : Env) (w : World) (s s' : Server) (uri : Str) (pos : Position) (out : List Send) (l : Location)
    (h : s.handle env w (.goto uri pos) = .ok (s', out, .goto (some (.scalar l)))) :
    l.range = Range.zero ∨ ∃ vs v, s.files.variables.get? uri = some vs ∧ v ∈ vs ∧ v.name ∉ reserved ∧ l = ⟨uri, ⟨toPosition2 v.start, toPosition2 v.stop⟩⟩ := by
  simp only [Server.handle] at h
  split at h
  · cases h
  · rename_i r hr
    cases h
    rcases goto_scalar hr with e | ⟨_, _, objects, vs, _, _, ho, hv, v, hm, hid, e⟩
    · exact .inl e
    · exact .inr ⟨vs, v, hv, hm, ident_unreserved (query_unreserved ho) hid, e⟩

/-- **C147** (hover) In whatever state the server is: what hover says is the documentation of a filter or a test, or about a definition of a name that is
no reserved word. -/
theorem C147_hover (env : Env) (w : World) (s s' : Server) (uri : Str) (pos : Position) (out : List Send) (t : Str)
    (h : s.handle env w (.hover uri pos) = .ok (s', out, .hover (some t))) :
    (∃ n, (n, t) ∈ filterTable ∨ (n, t) ∈ testTable) ∨
    (∃ vs v, s.files.variables.get? uri = some vs ∧ v ∈ vs ∧ v.name ∉ reserved ∧ t = v.idType.completionDetail) ∨
    ∃ file v, file ∈ s.files.variables.entries ∧ file.1 ≠ uri ∧ v ∈ file.2 ∧ v.name ∉ reserved ∧ t = IdType.backendVariable.completionDetail := by
  simp only [Server.handle, Server.onHover] at h
  split at h
  · cases h
  rename_i r hr
  cases h
  split at hr
  · cases hr
  · cases hr
  rename_i x hx
  injection hr with hr
  have hname : x.1.name ∉ reserved := by
    unfold LspFiles.hover at hx
    split at hx
    · cases hx
    · dsimp only at hx
      split at hx
      · split at hx
        · cases hx
        · rename_i objects ho
          split at hx
          · split at hx
            · cases hx
            · rename_i object hl
              have := query_unreserved ho object (List.mem_of_getLast? hl)
              split at hx
              · cases hx; exact this
              · split at hx <;> cases hx <;> exact this
          · cases hx
      · cases hx
  have doc : ∀ {tab : List (Str × Str)} {n : Str}, lookupDoc tab n = some t → (n, t) ∈ tab := by
    intro tab n h
    obtain ⟨e, h1, rfl⟩ := Option.map_eq_some_iff.mp h
    have h2 := List.find?_some h1
    simp only [decide_eq_true_eq] at h2
    exact h2 ▸ List.mem_of_find?_eq_some h1
  unfold hoverText at hr
  split at hr
  · exact .inl ⟨_, .inl (doc hr)⟩
  split at hr
  · exact .inl ⟨_, .inr (doc hr)⟩
  obtain ⟨k, hk, rfl⟩ := Option.map_eq_some_iff.mp hr
  unfold LspFiles.dataType at hk
  split at hk
  · cases hk
  · rename_i vs hvs
    split at hk
    · rename_i v hv
      cases hk
      obtain ⟨h1, h2⟩ := List.mem_filter.mp (iterMax_some hv).1
      obtain ⟨h1, _⟩ := List.mem_filter.mp h1
      simp only [Bool.and_eq_true, decide_eq_true_eq] at h2
      exact .inr (.inl ⟨vs, v, hvs, h1, h2.2 ▸ hname, rfl⟩)
    · split at hk
      · rename_i hany
        cases hk
        obtain ⟨file, hfile, h2⟩ := List.any_eq_true.mp hany
        simp only [Bool.and_eq_true, decide_eq_true_eq] at h2
        obtain ⟨v, hv⟩ := List.length_pos_iff_exists_mem.mp h2.2
        obtain ⟨h3, h4⟩ := List.mem_filter.mp hv
        refine .inr (.inr ⟨file, v, ?_, h2.1, h3, fun hres => ?_, rfl⟩)
        · exact (w.order.perm _ _).mem_iff.mp hfile
        · rw [reserved_segment hres] at h4
          exact hname (of_decide_eq_true h4 ▸ hres)
      · cases hk

theorem readTree_unreserved {env : Env} {w : World} {f : LspFiles} {uri : Str} {ds : Diags} (h : f.readTree env w uri = .ok (some ds)) :
    ∀ d ∈ ds, d.1 ≠ .templateNotFound → d.2.name ∉ reserved := by
  unfold LspFiles.readTree searchErrors at h
  split at h
  · cases h
  · split at h
    · cases h
    · split at h
      · cases h
      · split at h
        · split at h
          · cases h
          · rename_i objs ho
            split at h
            · cases h
            · simp only [Except.ok.injEq, Option.some.injEq] at h
              subst h
              intro d hd hne
              rcases List.mem_append.mp hd with hd | hd
              · obtain ⟨a, h1, ha⟩ := List.mem_filterMap.mp hd
                have := query_unreserved ho a h1
                unfold objectDiag at ha
                split at ha
                · cases ha
                · dsimp only at ha
                  split at ha
                  · split at ha <;> cases ha
                    exact this
                  · split at ha
                    · split at ha <;> cases ha
                      exact this
                    · cases ha
              · obtain ⟨a, _, ha⟩ := List.mem_filterMap.mp hd
                exact (hne (importDiag_kind ha)).elim
        · split at h
          · cases h
          · simp only [Except.ok.injEq, Option.some.injEq] at h
            subst h
            intro d hd hne
            obtain ⟨a, _, ha⟩ := List.mem_filterMap.mp hd
            exact (hne (backendDiag_kind ha)).elim

theorem readTreesLoop_unreserved {env : Env} {w : World} {f : LspFiles} : ∀ (ns : List Str)
    (m m' : HMap Str Diags), (Send.diag m).NoReserved → f.readTreesLoop env w ns m = .ok m' → (Send.diag m').NoReserved
  | [], m, m', hm, h => by cases h; exact hm
  | n :: ns, m, m', hm, h => by
    unfold LspFiles.readTreesLoop at h
    split at h
    · cases h
    · exact readTreesLoop_unreserved ns m m' hm h
    · rename_i v hv
      refine readTreesLoop_unreserved ns _ m' ?_ h
      intro e he
      rcases List.mem_cons.mp he with rfl | he
      · exact readTree_unreserved hv
      · exact hm e (List.mem_filter.mp he).1

/-- **C147** (reports) Whatever the message and the state: no reserved word is reported as undefined or as defined in another file. -/
theorem C147_reports (env : Env) (w : World) (s s' : Server) (m : Msg) (out : List Send) (r : Reply) (h : s.handle env w m = .ok (s', out, r)) :
    ∀ x ∈ out, x.NoReserved := by
  have single : ∀ (u : Str) (ds : Diags), (∀ d ∈ ds, d.1 ≠ .templateNotFound → d.2.name ∉ reserved) →
      ∀ x ∈ [Send.diag (HMap.empty.insert u ds)], x.NoReserved := by
    intro u ds hds x hx
    cases List.mem_singleton.mp hx
    intro e he
    rw [HMap.entries_insert_empty] at he
    cases List.mem_singleton.mp he
    exact hds
  cases m with
  | «initialize» c o => simp only [Server.handle] at h; cases h; simp
  | didChangeConfiguration c =>
    simp only [Server.handle] at h
    have hx' : ∀ (b : Bool) (x : Send), x ∈ (if b = true then [Send.initialized] else []) → x.NoReserved := by
      intro b x hx
      cases b with
      | true => cases List.mem_singleton.mp hx; trivial
      | false => cases hx
    cases h
    exact fun x hx => hx' _ x hx
  | initialized =>
    simp only [Server.handle] at h
    split at h
    · cases h
    · rename_i hi
      cases h
      unfold Server.onInitialized at hi
      split at hi
      · split at hi
        · cases hi
        · cases hi; simp
        · rename_i d f hw
          cases hi
          intro x hx
          cases List.mem_singleton.mp hx
          unfold walkdir at hw
          split at hw
          · cases hw
          · cases hw
          · split at hw
            · cases hw
            · rename_i hr
              cases hw
              exact readTreesLoop_unreserved _ _ _ (by intro e he; cases he) hr
      · cases hi; simp
  | didOpen u t =>
    simp only [Server.handle] at h
    split at h
    · cases h
    · rename_i f msg hi
      cases h
      cases hl : fileExt u with
      | none =>
        unfold LspFiles.didOpen at hi; rw [hl] at hi; cases hi
        intro x hx; cases hx
      | some l =>
        obtain ⟨_, v, h2, rfl⟩ := LspFiles.didOpen_inv hl hi
        cases v with
        | none => intro x hx; cases hx
        | some ds => exact single u ds (readTree_unreserved h2)
  | didSave u =>
    simp only [Server.handle] at h
    split at h
    · cases h
    · rename_i f msg hi
      cases h
      cases hl : fileExt u with
      | none =>
        unfold LspFiles.didSave at hi; rw [hl] at hi; cases hi
        intro x hx; cases hx
      | some l =>
        cases hd : s.files.documents.get? u with
        | none =>
          unfold LspFiles.didSave at hi; simp only [hl, hd] at hi; cases hi
          intro x hx; cases hx
        | some c =>
          obtain ⟨_, v, h2, rfl⟩ := LspFiles.didSave_inv hl hd hi
          cases v with
          | none => exact single u [] (by simp)
          | some ds => exact single u ds (readTree_unreserved h2)
  | didChange u t => simp only [Server.handle] at h; split at h <;> cases h; simp
  | completion => obtain ⟨_, _, rfl⟩ := handle_query (by exact trivial) h; simp
  | hover => obtain ⟨_, _, rfl⟩ := handle_query (by exact trivial) h; simp
  | goto => obtain ⟨_, _, rfl⟩ := handle_query (by exact trivial) h; simp
  | codeAction => obtain ⟨_, _, rfl⟩ := handle_query (by exact trivial) h; simp
  | documentSymbol => obtain ⟨_, _, rfl⟩ := handle_query (by exact trivial) h; simp
  | executeCommand c =>
    simp only [Server.handle] at h; cases h
    intro x hx
    split at hx
    · cases List.mem_singleton.mp hx; trivial
    · cases hx
  | codeActions c => simp only [Server.handle] at h; cases h; simp

/-- **C147** (goto; Node API) goto_definition never leads to a definition of a reserved word in the embedded template. -/
theorem C147_node (env : Env) (w : World) (n : NodeFiles) (id line : Nat) (fn uri : Str) (pos : Position) (ls : List JsLocation) (hline : line < 4294967296)
    (hu : docUri env fn id c!"jinja" = .ok uri) (h : n.gotoDefinition env w id fn line pos = .ok (some ls)) :
    ∀ l ∈ ls, l.isBackend = false → l.range = ⟨⟨line, 0⟩, ⟨line, 0⟩⟩ ∨
      ∃ vs v, n.files.variables.get? uri = some vs ∧ v ∈ vs ∧ v.name ∉ reserved ∧
        shiftRange env.profile ⟨toPosition2 v.start, toPosition2 v.stop⟩ line = .ok l.range := by
  intro l hl hb
  obtain ⟨k, loc, _, hgo, hr⟩ := node_goto_cases hu h l hl hb
  rcases goto_scalar hgo with e | ⟨_, _, _, vs, _, _, ho, hv, v, hm, hid, rfl⟩
  · rw [e] at hr
    exact .inl (shift_zero hline hr)
  · exact .inr ⟨vs, v, hv, hm, ident_unreserved (query_unreserved ho) hid, hr⟩

/-- **C146** is false for reserved words: `{% set module = x %}` defines `module`, which is listed in the outline, but goto-definition leads there from
nowhere. -/
theorem C146_reserved_refuted (env : Env) (sx : Syntax) (s : Server) (uri text : Str) (tree : Tree) (is : List Item)
    (h : Spec.Analysed env s.files uri text tree is) (hs : WellFormed (sx.root tree text)) (hl : Laid (sx.root tree text)) (hf : Filled (sx.root tree text))
    (ht : Tags sx.digit (sx.root tree text).children is) (hfit : ∀ b ∈ Items.bindings (env.rootEnd tree) 0 is, Short b)
    (b : Binding) (hb : b ∈ Items.bindings (env.rootEnd tree) 0 is) (hn : b.name ∈ reserved) (w : World) :
    (∃ ds, s.handle (env.over sx) w (.documentSymbol uri) = .ok (s, [], .symbols (some ds)) ∧ ∃ d ∈ ds, d.name = b.name ∧ d.range = b.range) ∧
    ∀ pos s' out l, s.handle (env.over sx) w (.goto uri pos) = .ok (s', out, .goto (some (.scalar l))) → l.range ≠ b.range := by
  obtain ⟨a1, a2⟩ := bindings_apart (last := env.rootEnd tree) hs hl hf ht 0
  refine ⟨?_, fun pos s' out l hgo e => ?_⟩
  · obtain ⟨ds, k1, k2, _⟩ := C143_outline env sx w s uri text tree is h hs hl hf ht hfit
    have : (b.name, b.range) ∈ ds.map (fun d => (d.name, d.range)) := by
      rw [k2]; exact List.mem_map_of_mem hb
    obtain ⟨d, hd, e⟩ := List.mem_map.mp this
    injection e with e1 e2
    exact ⟨ds, k1, d, hd, e1, e2⟩
  · obtain ⟨_, _, vs, hv, hvs⟩ := h
    rcases C147_goto _ w s s' uri pos out l hgo with z | ⟨vs', v, k1, k2, k3, rfl⟩
    · rw [z] at e
      have := a1 b hb
      simp only [Range.zero, Binding.range, Range.mk.injEq, Position.mk.injEq] at e
      rw [Point.lt_def] at this
      omega
    · rw [hv] at k1
      cases k1
      have hm : v.binding ∈ Items.bindings (env.rootEnd tree) 0 is := hvs ▸ List.mem_map_of_mem k2
      have hsh := hfit _ hm
      have : v.binding = b := starts_of a1 a2 _ hm b hb (by
        simp only [Short, Identifier.binding] at hsh
        simp only [toPosition2, toU32, Binding.range, Range.mk.injEq, Position.mk.injEq] at e
        rw [Nat.mod_eq_of_lt (by omega), Nat.mod_eq_of_lt (by omega)] at e
        exact Point.ext e.1.1 e.1.2)
      exact k3 (by rw [← this] at hn; exact hn)

/-! ### Examples -/

namespace Fix

/-- ```
{% set module = 1 %}
{% set y = module %}
{% set z = y      %}
{% set v = u      %}
``` -/
def wordNodes : List Syn :=
  [st 3 0 20 [lf .keyword 15 0 3 6 c!"set", lf .identifier 16 0 7 13 c!"module", lf .operator 17 0 14 15 c!"=", lf .identifier 18 0 16 17 c!"1"],
   st 4 1 20 [lf .keyword 20 1 3 6 c!"set", lf .identifier 21 1 7 8 c!"y", lf .operator 22 1 9 10 c!"=", lf .identifier 23 1 11 17 c!"module"],
   st 5 2 20 [lf .keyword 30 2 3 6 c!"set", lf .identifier 31 2 7 8 c!"z", lf .operator 32 2 9 10 c!"=", lf .identifier 33 2 11 12 c!"y"],
   st 6 3 20 [lf .keyword 40 3 3 6 c!"set", lf .identifier 41 3 7 8 c!"v", lf .operator 42 3 9 10 c!"=", lf .identifier 43 3 11 12 c!"u"]]

def wordRoot : Syn := .node .other none 900 ⟨0, 0⟩ ⟨3, 20⟩ (some []) wordNodes

def wordSyn : Syntax := ⟨fun _ _ => wordRoot, digit, fun _ _ => [[]], fun _ => true⟩

def wordTags : List Item :=
  [.leaf (.set (dst 3 0 20) (tok 0 3 6 c!"set" 15) (tok 0 7 13 c!"module" 16) [.eq (tok 0 14 15 c!"=" 17)]),
   .leaf (.set (dst 4 1 20) (tok 1 3 6 c!"set" 20) (tok 1 7 8 c!"y" 21) [.eq (tok 1 9 10 c!"=" 22), .name (tok 1 11 17 c!"module" 23)]),
   .leaf (.set (dst 5 2 20) (tok 2 3 6 c!"set" 30) (tok 2 7 8 c!"z" 31) [.eq (tok 2 9 10 c!"=" 32), .name (tok 2 11 12 c!"y" 33)]),
   .leaf (.set (dst 6 3 20) (tok 3 3 6 c!"set" 40) (tok 3 7 8 c!"v" 41) [.eq (tok 3 9 10 c!"=" 42), .name (tok 3 11 12 c!"u" 43)])]

theorem wordTags_read : Tags digit wordNodes wordTags := readTags_sound rfl

theorem word_opened : ∃ s' out r tree, server.handle (env.over wordSyn) emptyWorld (.didOpen uriA []) = .ok (s', out, r) ∧
    Spec.Analysed env s'.files uriA [] tree wordTags ∧ wordSyn.root tree [] = wordRoot := by
  have : ∃ s' out r, server.handle (env.over wordSyn) emptyWorld (.didOpen uriA []) = .ok (s', out, r) ∧
      s'.files.documents.get? uriA = some [] ∧
      (s'.files.trees .template).get? uriA = some (.parsed .jinja [] (some (.parsed .jinja c!"aaa" none))) := ⟨_, _, _, rfl, rfl, rfl⟩
  obtain ⟨s', out, r, h, h1, h2⟩ := this
  exact ⟨s', out, r, _, h, C83_analysed env wordSyn emptyWorld server s' (.didOpen uriA []) uriA [] _ out r _ (.opened _) rfl h h1 h2
    (⟨by decide, by decide, by decide⟩ : WellFormed wordRoot) rfl wordTags_read, rfl⟩

end Fix

/-- the outline lists `module`, and goto-definition does not lead there -/
example : ∃ s : Server, (∃ ds, s.handle (Fix.env.over Fix.wordSyn) Fix.emptyWorld (.documentSymbol Fix.uriA) = .ok (s, [], .symbols (some ds)) ∧
      ∃ d ∈ ds, d.name = c!"module") ∧
    ∀ pos s' out l, s.handle (Fix.env.over Fix.wordSyn) Fix.emptyWorld (.goto Fix.uriA pos) = .ok (s', out, .goto (some (.scalar l))) →
      l.range ≠ ⟨⟨0, 7⟩, ⟨0, 13⟩⟩ := by
  obtain ⟨s, out, r, tree, h, ha, hr⟩ := Fix.word_opened
  obtain ⟨⟨ds, k1, d, hd, k2, _⟩, k3⟩ := C146_reserved_refuted Fix.env Fix.wordSyn s Fix.uriA [] tree Fix.wordTags ha
    (⟨by decide, by decide, by decide⟩ : WellFormed Fix.wordRoot) (⟨by decide, by decide, by decide, by decide⟩ : Laid Fix.wordRoot)
    (by unfold Filled; decide : Filled Fix.wordRoot) Fix.wordTags_read
    (by unfold Short; decide : ∀ b ∈ Items.bindings ⟨9, 9⟩ 0 Fix.wordTags, Short b) ((Fix.tok 0 7 13 c!"module" 16).bind .setVariable ⟨9, 9⟩)
    (by decide : _ ∈ Items.bindings ⟨9, 9⟩ 0 Fix.wordTags) (by decide) Fix.emptyWorld
  exact ⟨s, ⟨ds, k1, d, hd, k2⟩, k3⟩

/-- of the names `module`, `y` and `u`, only `u` is reported; goto-definition and hover on `y` are about `y`, and on `module` say nothing -/
example : ∃ s ds, Fix.server.handle (Fix.env.over Fix.wordSyn) Fix.emptyWorld (.didOpen Fix.uriA []) =
      .ok (s, [.diag (HMap.empty.insert Fix.uriA ds)], .none) ∧ (ds.map fun d => d.2.name) = [c!"u"] ∧
    s.handle (Fix.env.over Fix.wordSyn) Fix.emptyWorld (.goto Fix.uriA ⟨2, 11⟩) = .ok (s, [], .goto (some (.scalar ⟨Fix.uriA, ⟨⟨1, 7⟩, ⟨1, 8⟩⟩⟩))) ∧
    s.handle (Fix.env.over Fix.wordSyn) Fix.emptyWorld (.hover Fix.uriA ⟨2, 11⟩) = .ok (s, [], .hover (some IdType.setVariable.completionDetail)) ∧
    s.handle (Fix.env.over Fix.wordSyn) Fix.emptyWorld (.goto Fix.uriA ⟨1, 12⟩) = .ok (s, [], .goto (some (.array []))) ∧
    s.handle (Fix.env.over Fix.wordSyn) Fix.emptyWorld (.hover Fix.uriA ⟨1, 12⟩) = .ok (s, [], .hover none) :=
  ⟨_, _, rfl, by decide, rfl, rfl, rfl, rfl⟩

/-- in an embedded template, goto_definition leads to the definition of a variable -/
example : ∃ (n : NodeFiles) (vs : List Identifier) (v : Identifier), n.files.variables.get? Fix.offsetUri = some vs ∧ v ∈ vs ∧ v.name ∉ reserved ∧
    shiftRange (Fix.env.over Fix.piecesSyn).profile ⟨toPosition2 v.start, toPosition2 v.stop⟩ 1 = .ok ⟨⟨4, 7⟩, ⟨4, 8⟩⟩ := by
  obtain ⟨n, h⟩ := Fix.long_hosted
  have hgo := C143_node_home h (by unfold Filled; decide +kernel) (by decide +kernel) Fix.againUse Fix.long_set.2 _ _ _ c!"f" Fix.long_inAgain
    ⟨c!"file:///home/", c!".7.jinja", by decide⟩ rfl ((Fix.tok 3 7 8 c!"a" 62).bind .setVariable ⟨9, 9⟩) (by decide +kernel) ⟨rfl, rfl, rfl⟩
  rcases C147_node _ _ n 7 1 c!"f" Fix.offsetUri _ _ (by decide) rfl hgo _ (List.mem_singleton.mpr rfl) rfl with e | ⟨vs, v, h1, h2, h3, h4⟩
  · exact absurd e (by decide)
  · exact ⟨n, vs, v, h1, h2, h3, h4⟩

end JinjaLsp
