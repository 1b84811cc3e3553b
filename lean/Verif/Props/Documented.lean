import Verif.Props.Before
import Verif.Props.NodeHover
/-
  C111: completion documents filters and tests as hover does.
-/

namespace JinjaLsp
open Spec Node

namespace Spec

/-- wherever a filter of that name is used, hover shows `d` for it -/
def FilterShows (name d : Str) : Prop :=
  ∀ (env : Env) (w : World) (s : Server) (uri : Str) (tree : Tree) (text : Str) (pos : Position) (es : List Elem) (u : Use) (rest : List Capture),
    fileExt uri = some .template → s.files.documents.get? uri = some text → (s.files.trees .template).get? uri = some tree →
    OnUse (env.queryMatches .jinjaObjects tree text).flatten es u rest (toPoint pos) → u.info.filter = true → u.root.text = name →
    s.handle env w (.hover uri pos) = .ok (s, [], .hover (some d))

/-- wherever a test of that name is used, hover shows `d` for it -/
def TestShows (name d : Str) : Prop :=
  ∀ (env : Env) (w : World) (s : Server) (uri : Str) (tree : Tree) (text : Str) (pos : Position) (es : List Elem) (u : Use) (rest : List Capture),
    fileExt uri = some .template → s.files.documents.get? uri = some text → (s.files.trees .template).get? uri = some tree →
    OnUse (env.queryMatches .jinjaObjects tree text).flatten es u rest (toPoint pos) → u.info.test = true → u.root.text = name →
    s.handle env w (.hover uri pos) = .ok (s, [], .hover (some d))

end Spec

/-! ### Other items are not documented -/

theorem variableItems_undocumented (v : Bool) (st : Str) (r : Range) : ∀ (vs : List Identifier) (ns : List Str),
    ∀ i ∈ LspFiles.variableItems v st r ns vs, i.documentation = none
  | [], _, i, hi => by cases hi
  | x :: vs, ns, i, hi => by
    unfold LspFiles.variableItems at hi
    split at hi
    · exact variableItems_undocumented v st r vs _ i hi
    · split at hi
      · rename_i item hitem
        rcases List.mem_cons.mp hi with rfl | hi
        · unfold LspFiles.variableItem at hitem
          dsimp only at hitem
          split at hitem
          · cases hitem; rfl
          · split at hitem
            · split at hitem <;> (cases hitem; rfl)
            · cases hitem
        · exact variableItems_undocumented v st r vs _ i hi
      · exact variableItems_undocumented v st r vs _ i hi

theorem readVariables_undocumented {w : World} {f : LspFiles} {uri : Str} {pos : Position} {st : Option (Str × Range)} {items : List CompletionItem}
    (h : f.readVariables w uri pos st none = some items) : ∀ i ∈ items, i.documentation = none := by
  unfold LspFiles.readVariables at h
  split at h
  · cases h
  · cases h
    intro i hi
    rcases List.mem_append.mp hi with hi | hi
    · exact variableItems_undocumented _ _ _ _ _ i hi
    · obtain ⟨_, _, hi⟩ := List.mem_flatMap.mp hi
      obtain ⟨_, _, rfl⟩ := List.mem_map.mp hi
      rfl

theorem templateItems_undocumented {f : LspFiles} {r : Range} {p : Position} : ∀ {ts : List Str} {items : List CompletionItem},
    f.templateItems r p ts = some items → ∀ i ∈ items, i.documentation = none
  | [], items, h => by cases h; intro i hi; cases hi
  | t :: ts, items, h => by
    unfold LspFiles.templateItems at h
    split at h
    · cases h
    · rename_i i0 h0
      split at h
      · cases h
      · rename_i is his
        cases h
        intro i hi
        rcases List.mem_cons.mp hi with rfl | hi
        · unfold LspFiles.templateItem at h0
          dsimp only at h0
          split at h0
          · cases h0
          · split at h0 <;> (cases h0; rfl)
        · exact templateItems_undocumented his i hi

/-! ### C111 -/

theorem filterShows {name d : Str} (h : (name, d) ∈ filterTable) : FilterShows name d := by
  intro env w s uri tree text pos es u rest hx hd ht ho hf hn
  exact (C44_filter env w s uri tree text pos hx hd ht es u rest ho hf).1 d (hn ▸ h)

theorem testShows {name d : Str} (h : (name, d) ∈ testTable) : TestShows name d := by
  intro env w s uri tree text pos es u rest hx hd ht ho hf hn
  exact (C44_test_partial env w s uri tree text pos hx hd ht es u rest ho hf).1 d (hn ▸ h)

/-- **C111** Whatever the state and wherever the cursor: the documentation of an item that completion offers is what hover shows for a filter of
that name, everywhere, or it is what hover shows for a test of that name, everywhere – the same for all items of the list; and all items are
documented or none is. -/
theorem C111_item (env : Env) (w : World) (s s' : Server) (uri : Str) (pos : Position) (tr : TriggerKind) (out : List Send)
    (items : List CompletionItem) (h : s.handle env w (.completion uri pos tr) = .ok (s', out, .completion (some items))) :
    (∀ i ∈ items, ∃ d, i.documentation = some d ∧ FilterShows i.label d) ∨ (∀ i ∈ items, ∃ d, i.documentation = some d ∧ TestShows i.label d) ∨
      ∀ i ∈ items, i.documentation = none := by
  simp only [Server.handle, Server.onCompletion] at h
  cases hk : s.files.completion env uri pos tr with
  | error e => rw [hk] at h; cases h
  | ok o =>
    rw [hk] at h
    cases o with
    | none => cases h
    | some c =>
      obtain ⟨c, b⟩ := c
      have hi : completionItems w s.files uri pos c = some items := by
        simp only [Except.ok.injEq, Prod.mk.injEq, Reply.completion.injEq] at h
        exact h.2.2
      cases c with
      | filter =>
        left
        cases hi
        intro i hi
        obtain ⟨e, he, rfl⟩ := List.mem_map.mp hi
        exact ⟨e.2, rfl, filterShows he⟩
      | test =>
        right; left
        cases hi
        intro i hi
        obtain ⟨e, he, rfl⟩ := List.mem_map.mp hi
        exact ⟨e.2, rfl, testShows he⟩
      | identifier => exact Or.inr (Or.inr (readVariables_undocumented hi))
      | includedTemplate n r => exact Or.inr (Or.inr (templateItems_undocumented hi))
      | snippets r =>
        right; right
        cases hi
        intro i hi
        obtain ⟨e, _, rfl⟩ := List.mem_map.mp hi
        rfl
      | incompleteIdentifier n r => exact Or.inr (Or.inr (readVariables_undocumented hi))
      | incompleteFilter n r => cases hi

/-- the list is that of the table -/
theorem listed {items : List CompletionItem} {table : List (Str × Str)} (hl : items.map (fun i => (i.label, i.documentation)) = table.map fun e => (e.1, some e.2))
    (n d : Str) : (n, d) ∈ table ↔ ∃ i ∈ items, i.label = n ∧ i.documentation = some d := by
  constructor
  · intro h
    have : (n, some d) ∈ items.map fun i => (i.label, i.documentation) := by rw [hl]; exact List.mem_map.mpr ⟨_, h, rfl⟩
    obtain ⟨i, hi, e⟩ := List.mem_map.mp this
    exact ⟨i, hi, congrArg Prod.fst e, congrArg Prod.snd e⟩
  · rintro ⟨i, hi, rfl, e⟩
    have : (i.label, i.documentation) ∈ table.map fun e => (e.1, some e.2) := by rw [← hl]; exact List.mem_map.mpr ⟨_, hi, rfl⟩
    obtain ⟨x, hx, he⟩ := List.mem_map.mp this
    rw [e] at he
    injection he with h1 h2
    injection h2 with h2
    rw [← h1, ← h2]
    exact hx

theorem listed_nodup {items : List CompletionItem} {table : List (Str × Str)} (hl : items.map (fun i => (i.label, i.documentation)) = table.map fun e => (e.1, some e.2))
    (h : (table.map Prod.fst).Nodup) : (items.map (·.label)).Nodup := by
  have := congrArg (List.map Prod.fst) hl
  simp only [List.map_map] at this
  have e1 : items.map (·.label) = table.map Prod.fst := this
  rw [e1]
  exact h

/-- **C111** (filters) With the cursor at a bar and beside all names, completion offers exactly the filters for which hover shows something, each once,
with what hover shows. -/
theorem C111_filters (env : Env) (sx : Syntax) (w : World) (s : Server) (uri text : Str) (tree : Tree) (pos : Position) (tr : TriggerKind)
    (htr : Requested tr) (hx : fileExt uri = some .template) (hd : s.files.documents.get? uri = some text)
    (ht : (s.files.trees .template).get? uri = some tree) (hr : Regular (sx.root tree text))
    (hb : Beside sx.digit (sx.root tree text) (toPoint pos)) (hp : ∃ k ∈ (sx.root tree text).flat, IsPipe k ∧ Touches (toPoint pos) k) :
    ∃ items, s.handle (env.over sx) w (.completion uri pos tr) = .ok (s, [], .completion (some items)) ∧ (items.map (·.label)).Nodup ∧
      ∀ (env : Env) (w : World) (s : Server) (uri : Str) (tree : Tree) (text : Str) (pos : Position) (es : List Elem) (u : Use) (rest : List Capture),
        fileExt uri = some .template → s.files.documents.get? uri = some text → (s.files.trees .template).get? uri = some tree →
        OnUse (env.queryMatches .jinjaObjects tree text).flatten es u rest (toPoint pos) → u.info.filter = true →
        ∃ v, s.handle env w (.hover uri pos) = .ok (s, [], .hover v) ∧
          ∀ d, v = some d ↔ ∃ i ∈ items, i.label = u.root.text ∧ i.documentation = some d := by
  obtain ⟨items, h, hl⟩ := C86_filters env sx w s uri text tree pos tr htr hx hd ht hr hb hp
  refine ⟨items, h, listed_nodup hl C44_one_entry.1, ?_⟩
  intro env w s uri tree text pos es u rest hx hd ht ho hf
  obtain ⟨h1, h2⟩ := C44_filter env w s uri tree text pos hx hd ht es u rest ho hf
  by_cases hn : ∃ d, (u.root.text, d) ∈ filterTable
  · obtain ⟨d, hn⟩ := hn
    refine ⟨_, h1 d hn, fun d' => ?_⟩
    rw [← listed hl]
    constructor
    · intro e; cases e; exact hn
    · intro hn'
      have := (h1 d hn).symm.trans (h1 d' hn')
      simp only [Except.ok.injEq, Prod.mk.injEq, Reply.hover.injEq] at this
      exact this.2.2
  · refine ⟨_, h2 (fun d hd => hn ⟨d, hd⟩), fun d => ?_⟩
    rw [← listed hl]
    exact ⟨fun e => (by cases e), fun hd => absurd ⟨d, hd⟩ hn⟩

/-- **C111** (part: tests that are no reserved words) With the cursor after `is` in a statement, completion offers exactly the tests for which hover
shows something, each once, with what hover shows.  Missing: `true` and `false`, which are offered, but hover shows what is tested
(`C44_reserved_refuted`). -/
theorem C111_tests_partial (env : Env) (sx : Syntax) (w : World) (s : Server) (uri text : Str) (tree : Tree) (pos : Position) (tr : TriggerKind)
    (htr : Requested tr) (hx : fileExt uri = some .template) (hd : s.files.documents.get? uri = some text)
    (ht : (s.files.trees .template).get? uri = some tree) (hr : Regular (sx.root tree text))
    (hb : Beside sx.digit (sx.root tree text) (toPoint pos))
    (hp : ∀ k ∈ (sx.root tree text).flat, IsPipe k → ¬ Touches (toPoint pos) k)
    (hin : ∀ e ∈ (sx.root tree text).flat, ¬ Within (toPoint pos) e) (k : Syn) (hk : k ∈ (sx.root tree text).flat) (hi : IsIs k)
    (h1 : k.stop ≤ toPoint pos) (h2 : pos.line = k.stop.row)
    (hw : ∀ n ∈ (sx.root tree text).flat, IsName sx.digit n → k.start ≤ n.start → n.start ≤ toPoint pos → (tokOf n).text ∈ reserved)
    (ho : ∀ n ∈ (sx.root tree text).flat, IsIs n → n.start ≤ toPoint pos → n.stop ≤ toPoint pos) :
    ∃ items, s.handle (env.over sx) w (.completion uri pos tr) = .ok (s, [], .completion (some items)) ∧ (items.map (·.label)).Nodup ∧
      ∀ (env : Env) (w : World) (s : Server) (uri : Str) (tree : Tree) (text : Str) (pos : Position) (es : List Elem) (u : Use) (rest : List Capture),
        fileExt uri = some .template → s.files.documents.get? uri = some text → (s.files.trees .template).get? uri = some tree →
        OnUse (env.queryMatches .jinjaObjects tree text).flatten es u rest (toPoint pos) → u.info.test = true →
        ∃ v, s.handle env w (.hover uri pos) = .ok (s, [], .hover v) ∧
          ∀ d, v = some d ↔ ∃ i ∈ items, i.label = u.root.text ∧ i.documentation = some d := by
  obtain ⟨items, h, hl⟩ := C86_tests env sx w s uri text tree pos tr htr hx hd ht hr hb hp hin k hk hi h1 h2 hw ho
  refine ⟨items, h, listed_nodup hl C44_one_entry.2.1, ?_⟩
  intro env w s uri tree text pos es u rest hx hd ht ho hf
  obtain ⟨h1, h2⟩ := C44_test_partial env w s uri tree text pos hx hd ht es u rest ho hf
  by_cases hn : ∃ d, (u.root.text, d) ∈ testTable
  · obtain ⟨d, hn⟩ := hn
    refine ⟨_, h1 d hn, fun d' => ?_⟩
    rw [← listed hl]
    constructor
    · intro e; cases e; exact hn
    · intro hn'
      have := (h1 d hn).symm.trans (h1 d' hn')
      simp only [Except.ok.injEq, Prod.mk.injEq, Reply.hover.injEq] at this
      exact this.2.2
  · refine ⟨_, h2 (fun d hd => hn ⟨d, hd⟩), fun d => ?_⟩
    rw [← listed hl]
    exact ⟨fun e => (by cases e), fun hd => absurd ⟨d, hd⟩ hn⟩

/-- **C111** (embedded templates) Whatever the state of the Node API: an item that `complete` marks as a filter has as its description what `hover`
shows for a filter of that name in any embedded template; either all items are filters or none is. -/
theorem C111_embedded (env : Env) (w : World) (n : NodeFiles) (id : Nat) (fn : Str) (line : Nat) (pos : Position) (items : List JsItem)
    (h : n.complete env w id fn line pos = .ok (some items)) :
    (∀ i ∈ items, i.isFilter = false) ∨ (items.map (·.label)).Nodup ∧ (∀ i ∈ items, i.isFilter = true) ∧
      ∀ (env : Env) (w : World) (calls : List Call) (n : NodeFiles) (id : Nat) (fn uri : Str) (line l ch : Nat) (u : Use) (vars : List Identifier),
        OnEmbedded env w calls n id fn uri line l ch u vars → u.info.filter = true →
        ∃ v, n.hover env w id fn line ⟨l + line, ch⟩ = .ok v ∧
          ∀ x, v = some x ↔ x.range = downRange line (toRange (u.root.start, u.root.stop)) ∧ ∃ i ∈ items, i.label = u.root.text ∧ i.description = x.value := by
  unfold NodeFiles.complete at h
  split at h
  · cases h
  · split at h
    · cases h
    · split at h
      · cases h
      · cases h
      · rename_i c _ _
        cases c with
        | filter =>
          right
          simp only [Except.ok.injEq, Option.some.injEq] at h
          subst h
          refine ⟨by rw [List.map_map]; exact C44_one_entry.1, fun i hi => by obtain ⟨e, _, rfl⟩ := List.mem_map.mp hi; rfl, ?_⟩
          intro env w calls n id fn uri line l ch u vars ho hf
          obtain ⟨h1, h2⟩ := C94_filter env w calls n id fn uri line l ch u vars ho hf
          have hl : ∀ d, (∃ i ∈ filterTable.map (fun e => (⟨true, e.1, e.2, none, none⟩ : JsItem)), i.label = u.root.text ∧ i.description = d) ↔
              (u.root.text, d) ∈ filterTable := by
            intro d
            constructor
            · rintro ⟨i, hi, e1, e2⟩
              obtain ⟨e, he, rfl⟩ := List.mem_map.mp hi
              rw [← e1, ← e2]; exact he
            · intro hd
              exact ⟨_, List.mem_map.mpr ⟨_, hd, rfl⟩, rfl, rfl⟩
          by_cases hn : ∃ d, (u.root.text, d) ∈ filterTable
          · obtain ⟨d, hn⟩ := hn
            refine ⟨_, h1 d hn, fun x => ?_⟩
            rw [hl]
            constructor
            · intro e; cases e; exact ⟨rfl, hn⟩
            · rintro ⟨hr, hx⟩
              have := (h1 d hn).symm.trans (h1 _ hx)
              simp only [Except.ok.injEq] at this
              rw [this, ← hr]
          · refine ⟨_, h2 (fun d hd => hn ⟨d, hd⟩), fun x => ?_⟩
            rw [hl]
            exact ⟨fun e => (by cases e), fun hd => absurd ⟨_, hd.2⟩ hn⟩
        | identifier =>
          left
          simp only at h
          split at h
          · cases h
          · cases h
            intro i hi
            rcases List.mem_append.mp hi with hi | hi <;> (obtain ⟨_, _, rfl⟩ := List.mem_map.mp hi; rfl)
        | incompleteIdentifier nm r =>
          left
          simp only at h
          split at h
          · cases h
          · split at h
            · cases h
            · cases h
              intro i hi
              obtain ⟨_, _, rfl⟩ := List.mem_map.mp hi; rfl
        | _ => cases h

/-! ### Examples -/

namespace Fix

def barEnv : Env := envWith .jinjaObjects (upperCaps (.filter (tok 0 5 6 c!"|" 4)) c!"upper")

theorem bar_on (tree : Tree) (text : Str) : OnUse (barEnv.queryMatches .jinjaObjects tree text).flatten opened
    ⟨.filter (tok 0 5 6 c!"|" 4), tok 0 6 11 c!"upper" 5, []⟩ [] (toPoint ⟨0, 8⟩) :=
  upper_on (.filter (tok 0 5 6 c!"|" 4)) c!"upper" (by simp [Mark.Ok, tok]) (by decide) (by
    simp only [opened, List.flatMap_cons, List.flatMap_nil, Elem.toks, Mark.toks, tok, List.append_nil, List.nil_append,
      List.cons_append, Ordered]
    decide) _ _

end Fix

/-- `{{ b |upper }}`: at the bar `upper` is offered with what hover shows for it elsewhere -/
example : ∃ items, Fix.flatServer.handle (Fix.env.over Fix.flatSyn) Fix.world (.completion Fix.uriA ⟨1, 12⟩ .invoked) =
      .ok (Fix.flatServer, [], .completion (some items)) ∧
    ∃ i ∈ items, i.label = c!"upper" ∧
      Fix.server.handle Fix.barEnv Fix.world (.hover Fix.uriA ⟨0, 8⟩) = .ok (Fix.server, [], .hover i.documentation) := by
  obtain ⟨items, h, _, hl⟩ := C111_filters Fix.env Fix.flatSyn Fix.world Fix.flatServer Fix.uriA c!"aaa" Fix.flatTree ⟨1, 12⟩ .invoked (Or.inl rfl) (by decide)
    (by decide) rfl Fix.flat_regular
    ⟨by decide, by
      intro n hn h
      replace h := h.kind
      revert h
      revert n
      unfold Touches
      decide⟩
    ⟨Fix.lf .operator 22 1 12 13 c!"|", by simp [Fix.flatSyn, Fix.flatRoot, Fix.flatNodes, Syn.flat, Syn.flatAll, Fix.ex, Fix.st, Fix.lf], ⟨rfl, _, rfl, rfl⟩, by decide, by decide⟩
  refine ⟨items, h, ?_⟩
  obtain ⟨v, hv, hi⟩ := hl Fix.barEnv Fix.world Fix.server Fix.uriA (.parsed .jinja c!"aaa" none) c!"aaa" ⟨0, 8⟩ _ _ _ (by decide) (by decide) rfl
    (Fix.bar_on _ _) rfl
  have : v = some c!"md/filters/upper.md" := by
    have h2 := filterShows (show (c!"upper", c!"md/filters/upper.md") ∈ filterTable by decide) Fix.barEnv Fix.world Fix.server Fix.uriA
      (.parsed .jinja c!"aaa" none) c!"aaa" ⟨0, 8⟩ _ _ _ (by decide) (by decide) rfl (Fix.bar_on _ _) rfl rfl
    rw [hv] at h2
    simp only [Except.ok.injEq, Prod.mk.injEq, Reply.hover.injEq] at h2
    exact h2.2.2
  obtain ⟨i, hm, h1, h2⟩ := (hi _).mp this
  exact ⟨i, hm, h1, by rw [h2, ← this]; exact hv⟩

/-- … and so it is in an embedded template -/
example : ∃ n items, Call.run Fix.barEnv Fix.world NodeFiles.new (Fix.embeddedCalls []) = .ok n ∧
    n.complete Fix.barEnv Fix.world 7 c!"f" 10 ⟨10, 5⟩ = .ok (some items) ∧
    ∃ i ∈ items, i.label = c!"upper" ∧ n.hover Fix.barEnv Fix.world 7 c!"f" 10 ⟨10, 8⟩ = .ok (some ⟨i.description, ⟨⟨10, 6⟩, ⟨10, 11⟩⟩⟩) := by
  have : ∃ n items, Call.run Fix.barEnv Fix.world NodeFiles.new (Fix.embeddedCalls []) = .ok n ∧
      n.complete Fix.barEnv Fix.world 7 c!"f" 10 ⟨10, 5⟩ = .ok (some items) ∧ (∃ i ∈ items, i.isFilter = true) ∧
      OnEmbedded Fix.barEnv Fix.world (Fix.embeddedCalls []) n 7 c!"f" Fix.offsetUri 10 0 8
        ⟨.filter (Fix.tok 0 5 6 c!"|" 4), Fix.tok 0 6 11 c!"upper" 5, []⟩ [] ∧
      n.hover Fix.barEnv Fix.world 7 c!"f" 10 ⟨10, 8⟩ = .ok (some ⟨c!"md/filters/upper.md", ⟨⟨10, 6⟩, ⟨10, 11⟩⟩⟩) :=
    ⟨_, _, rfl, rfl, ⟨_, List.mem_cons_self, rfl⟩,
      ⟨rfl, rfl, by decide, ⟨_, _, _, _, rfl, rfl, Fix.bar_on _ _⟩, rfl, by unfold RangeFits; decide⟩, rfl⟩
  obtain ⟨n, items, h1, h2, ⟨j, hj, hjf⟩, h3, h4⟩ := this
  refine ⟨n, items, h1, h2, ?_⟩
  rcases C111_embedded _ _ _ _ _ _ _ _ h2 with h | ⟨_, _, h⟩
  · rw [h j hj] at hjf; cases hjf
  · obtain ⟨v, hv, hx⟩ := h _ _ _ _ _ _ _ _ _ _ _ _ h3 rfl
    have e := hv.symm.trans h4
    simp only [Except.ok.injEq] at e
    obtain ⟨_, i, hi, e1, e2⟩ := (hx _).mp e
    exact ⟨i, hi, e1, by rw [e2]; exact h4⟩

end JinjaLsp
