import Verif.Props.WrittenOn
import Verif.Props.Wrapping
/-
  C136: however a template is rewritten in other parts, in however many steps, the same is said about a name.
-/

namespace JinjaLsp
open Spec

namespace Spec

/-- One change to the tags of a template (with the end of its text) that does not concern the name between the two places. -/
inductive Retouch (n : Str) (q1 q2 : Point) : Point → List Item → Point → List Item → Prop
  /-- tags at the end -/
  | write {last last' is js} (here : q2 < last) (there : q2 < last') (behind : Items.Behind q2 js) : Retouch n q1 q2 last is last' (is ++ js)
  /-- a complete piece, behind the places, or in front of them and not leaving the name behind -/
  | insert {last last' pre seg post} (ends : last' = last ∨ q2 < last ∧ q2 < last') (complete : Items.Complete seg)
      (away : Items.Behind q2 seg ∨ Items.InFront q1 seg ∧ n ∉ Items.leaves 0 seg) :
      Retouch n q1 q2 last (pre ++ post) last' (pre ++ (seg ++ post))
  /-- a block around a complete piece -/
  | wrap {last last' pre seg post d h e} (ends : last' = last ∨ q2 < last ∧ q2 < last') (complete : Items.Complete seg)
      (away : Items.Inside q2 e post last last' ∧ h.Spares d n q2 ∨
        Items.Past q1 seg e ∧ n ∉ Items.leaves 0 seg ∧ n ∉ Items.leaves 0 [.opening d h]) :
      Retouch n q1 q2 last (pre ++ (seg ++ post)) last' (pre ++ Items.around d h seg e post)
  /-- another tag that opens a block in the place of one -/
  | reopen {last last' pre post d h d' h'} (ends : last' = last ∨ q2 < last ∧ q2 < last') (old : h.Spares d n q2) (new : h'.Spares d' n q2) :
      Retouch n q1 q2 last (pre ++ .opening d h :: post) last' (pre ++ .opening d' h' :: post)

/-- Any number of such changes, each made or taken back. -/
inductive Retouched (n : Str) (q1 q2 : Point) : Point → List Item → Point → List Item → Prop
  | refl (last is) : Retouched n q1 q2 last is last is
  | did {l1 l2 l3 i1 i2 i3} : Retouched n q1 q2 l1 i1 l2 i2 → Retouch n q1 q2 l2 i2 l3 i3 → Retouched n q1 q2 l1 i1 l3 i3
  | undid {l1 l2 l3 i1 i2 i3} : Retouched n q1 q2 l1 i1 l2 i2 → Retouch n q1 q2 l3 i3 l2 i2 → Retouched n q1 q2 l1 i1 l3 i3

end Spec

/-! ### To say the same is an equivalence -/

namespace Concur
variable {n : Str} {q1 q2 : Point} {as bs cs : List Binding}

theorem refl (bs : List Binding) : Concur n q1 q2 bs bs :=
  ⟨fun b hb => .inr ⟨b, hb, rfl, rfl, rfl, rfl, .inl rfl⟩, fun b hb => .inr ⟨b, hb, rfl, rfl, rfl, rfl, .inl rfl⟩⟩

theorem sameBut_symm {b b' : Binding} (h : b.SameBut (BothBehind q2) b') : b'.SameBut (BothBehind q2) b :=
  ⟨h.1.symm, h.2.1.symm, h.2.2.1.symm, h.2.2.2.1.symm, h.2.2.2.2.elim (fun e => .inl e.symm) (fun e => .inr ⟨e.2, e.1⟩)⟩

theorem sameBut_trans {a b c : Binding} (h : a.SameBut (BothBehind q2) b) (h' : b.SameBut (BothBehind q2) c) : a.SameBut (BothBehind q2) c := by
  obtain ⟨e1, e2, e3, e4, e5⟩ := h
  obtain ⟨f1, f2, f3, f4, f5⟩ := h'
  refine ⟨f1.trans e1, f2.trans e2, f3.trans e3, f4.trans e4, ?_⟩
  rcases e5 with e5 | e5 <;> rcases f5 with f5 | f5
  · exact .inl (f5.trans e5)
  · exact .inr (e5 ▸ f5)
  · exact .inr (f5 ▸ e5)
  · exact .inr ⟨e5.1, f5.2⟩

theorem away_of {b b' : Binding} (hq : q1 ≤ q2) (h : b.SameBut (BothBehind q2) b') (ha : b'.Away n q1 q2) : b.Away n q1 q2 := by
  obtain ⟨e1, e2, e3, _, e5⟩ := h
  rcases ha with ha | ha | ha
  · exact .inl (e1 ▸ ha)
  · exact .inr (.inl (by rw [← e2, ← e3]; exact ha))
  · rcases e5 with e5 | e5
    · exact .inr (.inr (e5 ▸ ha))
    · exact (Point.lt_irrefl _ (Point.lt_trans (Point.lt_of_lt_of_le ha.1 hq) e5.2)).elim

theorem symm (h : Concur n q1 q2 as bs) : Concur n q1 q2 bs as :=
  ⟨fun b hb => (h.back b hb).imp id fun ⟨a, ha, e⟩ => ⟨a, ha, sameBut_symm e⟩, fun a ha => (h.there a ha).imp id fun ⟨b, hb, e⟩ => ⟨b, hb, sameBut_symm e⟩⟩

theorem trans (hq : q1 ≤ q2) (h : Concur n q1 q2 as bs) (h' : Concur n q1 q2 bs cs) : Concur n q1 q2 as cs := by
  have go : ∀ {as bs cs : List Binding}, Concur n q1 q2 as bs → Concur n q1 q2 bs cs →
      ∀ a ∈ as, a.Away n q1 q2 ∨ ∃ c ∈ cs, a.SameBut (BothBehind q2) c := by
    intro as bs cs h h' a ha
    rcases h.there a ha with e | ⟨b, hb, e⟩
    · exact .inl e
    rcases h'.there b hb with f | ⟨c, hc, f⟩
    · exact .inl (away_of hq e f)
    · exact .inr ⟨c, hc, sameBut_trans e f⟩
  exact ⟨go h h', fun c hc => (go h'.symm h.symm c hc).imp id fun ⟨a, ha, e⟩ => ⟨a, ha, sameBut_symm e⟩⟩

end Concur

/-- another tag that opens a block -/
theorem concur_reopened {n : Str} {q1 q2 last last' : Point} {pre post : List Item} {d d' : Delims} {h h' : Head}
    (hl : last' = last ∨ q2 < last ∧ q2 < last') (ho : h.Spares d n q2) (hn : h'.Spares d' n q2) :
    Concur n q1 q2 (Items.bindings last 0 (pre ++ .opening d h :: post)) (Items.bindings last' 0 (pre ++ .opening d' h' :: post)) := by
  have hx : ∀ k, BothBehind q2 ((matchEnd k post).getD last) ((matchEnd k post).getD last') := by
    intro k
    cases matchEnd k post with
    | none => exact hl
    | some p => exact .inl rfl
  obtain ⟨old, old', h1, h2, h3⟩ := bindings_before (R := BothBehind q2) (last := last) (last' := last') (x := .opening d h :: post)
    (x' := .opening d' h' :: post) (fun _ => .inl rfl) hl (fun k => by simp only [matchEnd]; exact hx _) pre 0
  obtain ⟨end_, end', h6, h7, h8⟩ := bindings_before (R := BothBehind q2) (last := last) (last' := last') (x := []) (x' := [])
    (fun _ => .inl rfl) hl (fun _ => hl) post (Items.after 0 pre + 1)
  simp only [List.append_nil, Items.bindings] at h6 h7
  obtain ⟨k1, k2⟩ := zip_mem h3
  obtain ⟨k3, k4⟩ := zip_mem h8
  have own : ∀ {d : Delims} {h : Head} {i o : Point}, h.Spares d n q2 → ∀ b ∈ h.bindings i o, b.Away n q1 q2 := by
    intro d h i o hs b hm
    obtain ⟨⟨t, ht, e1, e2, e3⟩, _⟩ := head_bindings_tok (d := d) hm
    by_cases e : t.text = n
    · exact .inr (.inl ⟨e1 ▸ (hs t ht e).1, e2 ▸ (hs t ht e).2⟩)
    · exact .inl fun h => e (e3.symm.trans h)
  rw [h1, h2]
  simp only [Items.bindings]
  rw [h6, h7]
  refine ⟨fun b hm => ?_, fun b hm => ?_⟩
  · rcases List.mem_append.mp hm with hm | hm
    · obtain ⟨b', h9, h10⟩ := k1 b hm
      exact .inr ⟨b', List.mem_append_left _ h9, h10⟩
    rcases List.mem_append.mp hm with hm | hm
    · exact .inl (own ho b hm)
    · obtain ⟨b', h9, h10⟩ := k3 b hm
      exact .inr ⟨b', List.mem_append_right _ (List.mem_append_right _ h9), h10⟩
  · rcases List.mem_append.mp hm with hm | hm
    · obtain ⟨b', h9, h10⟩ := k2 b hm
      exact .inr ⟨b', List.mem_append_left _ h9, h10⟩
    rcases List.mem_append.mp hm with hm | hm
    · exact .inl (own hn b hm)
    · obtain ⟨b', h9, h10⟩ := k4 b hm
      exact .inr ⟨b', List.mem_append_right _ (List.mem_append_right _ h9), h10⟩

theorem concur_retouch {n : Str} {q1 q2 last last' : Point} {is is' : List Item} (h : Retouch n q1 q2 last is last' is') :
    Concur n q1 q2 (Items.bindings last 0 is) (Items.bindings last' 0 is') := by
  cases h with
  | write h1 h2 h3 => exact concur_appended h1 h2 h3
  | insert h1 h2 h3 => exact concur_piece h1 h2 h3
  | wrap h1 h2 h3 => exact concur_wrapped h1 h2 h3
  | reopen h1 h2 h3 => exact concur_reopened h1 h2 h3

theorem concur_retouched {n : Str} {q1 q2 last last' : Point} {is is' : List Item} (hq : q1 ≤ q2) (h : Retouched n q1 q2 last is last' is') :
    Concur n q1 q2 (Items.bindings last 0 is) (Items.bindings last' 0 is') := by
  induction h with
  | refl => exact Concur.refl _
  | did _ h ih => exact ih.trans hq (concur_retouch h)
  | undid _ h ih => exact ih.trans hq (concur_retouch h).symm

/-! ## C136 -/

/-- **C136** (reports) A template is rewritten in any number of steps, each of which adds or removes tags at the end, adds or removes a complete piece,
puts a block around one or removes it, or replaces the opening tag of a block; none binds the name of a use in front of it, nor leaves it behind for it.
Then the use is reported exactly if it was. -/
theorem C136_reports (env : Env) (sx : Syntax) (w w' : World) (s s' t t' : Server) (uri uri' text text' : Str)
    (tree tree' : Tree) (out out' : List Send) (es es' : List Elem) (is is' : List Item)
    (hk : (sx.root tree text).kind = .other) (hk' : (sx.root tree' text').kind = .other)
    (hs : WellFormed (sx.root tree text)) (hs' : WellFormed (sx.root tree' text'))
    (ht : Tags sx.digit (sx.root tree text).children is) (ht' : Tags sx.digit (sx.root tree' text').children is')
    (hr : ReadsTree sx.digit (sx.root tree text) es) (hw : Elems.Wf es) (hr' : ReadsTree sx.digit (sx.root tree' text') es') (hw' : Elems.Wf es')
    (h : Analysed (env.over sx) w s uri text tree s' out) (h' : Analysed (env.over sx) w' t uri' text' tree' t' out')
    (hi : s.files.ignoreGlobals = false) (hi' : t.files.ignoreGlobals = false)
    (u : Use) (hu : .use u ∈ es) (hu' : .use u ∈ es')
    (hc : Retouched u.root.text u.root.start u.root.stop (env.rootEnd tree) is (env.rootEnd tree') is') :
    Reported uri out u.root ↔ Reported uri' out' u.root :=
  reported_concurs hk hs ht hr hw hi h hk' hs' ht' hr' hw' hi' h' hu hu' (concur_retouched (Point.le_of_lt (use_spans hw hu)) hc)

/-- **C136** (goto-definition) … goto-definition leads to the same place. -/
theorem C136_goto (env : Env) (sx : Syntax) (w w' : World) (s t : Server) (uri uri' text text' : Str)
    (tree tree' : Tree) (es es' : List Elem) (is is' : List Item)
    (hx : fileExt uri = some .template) (hx' : fileExt uri' = some .template)
    (h : Spec.Analysed env s.files uri text tree is) (h' : Spec.Analysed env t.files uri' text' tree' is')
    (hs : WellFormed (sx.root tree text)) (hl : Laid (sx.root tree text)) (hr : ReadsTree sx.digit (sx.root tree text) es) (hw : Elems.Wf es)
    (hs' : WellFormed (sx.root tree' text')) (hl' : Laid (sx.root tree' text')) (hr' : ReadsTree sx.digit (sx.root tree' text') es') (hw' : Elems.Wf es')
    (u : Use) (hu : .use u ∈ es) (hu' : .use u ∈ es')
    (hc : Retouched u.root.text u.root.start u.root.stop (env.rootEnd tree) is (env.rootEnd tree') is')
    (pos : Position) (h1 : u.root.start ≤ toPoint pos) (h2 : toPoint pos < u.root.stop)
    (hf : ∀ b ∈ Items.bindings (env.rootEnd tree) 0 is, Short b) (hf' : ∀ b ∈ Items.bindings (env.rootEnd tree') 0 is', Short b)
    (ha : StartsApart (Items.bindings (env.rootEnd tree) 0 is))
    (hex : ∃ b ∈ Items.bindings (env.rootEnd tree) 0 is, Reaches u.root.text (toPoint pos) b) :
    ∃ b ∈ Items.bindings (env.rootEnd tree) 0 is, Reaches u.root.text (toPoint pos) b ∧
      (∀ b' ∈ Items.bindings (env.rootEnd tree) 0 is, Reaches u.root.text (toPoint pos) b' → b'.start ≤ b.start) ∧
      s.handle (env.over sx) w (.goto uri pos) = .ok (s, [], .goto (some (.scalar
        ⟨uri, ⟨⟨b.start.row, b.start.column⟩, ⟨b.stop.row, b.stop.column⟩⟩⟩))) ∧
      t.handle (env.over sx) w' (.goto uri' pos) = .ok (t, [], .goto (some (.scalar
        ⟨uri', ⟨⟨b.start.row, b.start.column⟩, ⟨b.stop.row, b.stop.column⟩⟩⟩))) :=
  goto_concurs hx hx' h h' hs hl hr hw hs' hl' hr' hw' hu hu' h1 h2 hf hf' ha (concur_retouched (Point.le_of_lt (use_spans hw hu)) hc) hex

/-- **C136** (hover) … hovering a variable shows the same kind. -/
theorem C136_hover (env : Env) (sx : Syntax) (w w' : World) (s t : Server) (uri uri' text text' : Str)
    (tree tree' : Tree) (es es' : List Elem) (is is' : List Item)
    (hx : fileExt uri = some .template) (hx' : fileExt uri' = some .template)
    (h : Spec.Analysed env s.files uri text tree is) (h' : Spec.Analysed env t.files uri' text' tree' is')
    (hs : WellFormed (sx.root tree text)) (hl : Laid (sx.root tree text)) (hr : ReadsTree sx.digit (sx.root tree text) es) (hw : Elems.Wf es)
    (hs' : WellFormed (sx.root tree' text')) (hl' : Laid (sx.root tree' text')) (hr' : ReadsTree sx.digit (sx.root tree' text') es') (hw' : Elems.Wf es')
    (u : Use) (hu : .use u ∈ es) (hu' : .use u ∈ es')
    (hc : Retouched u.root.text u.root.start u.root.stop (env.rootEnd tree) is (env.rootEnd tree') is')
    (hv : u.mark = .variable) (pos : Position) (h1 : u.root.start ≤ toPoint pos) (h2 : toPoint pos < u.root.stop)
    (ha : StartsApart (Items.bindings (env.rootEnd tree) 0 is))
    (hex : ∃ b ∈ Items.bindings (env.rootEnd tree) 0 is, InForce u.root.text u.root.start b) :
    ∃ b ∈ Items.bindings (env.rootEnd tree) 0 is, InForce u.root.text u.root.start b ∧
      (∀ b' ∈ Items.bindings (env.rootEnd tree) 0 is, InForce u.root.text u.root.start b' → b'.start ≤ b.start) ∧
      s.handle (env.over sx) w (.hover uri pos) = .ok (s, [], .hover (some (kindText b.kind))) ∧
      t.handle (env.over sx) w' (.hover uri' pos) = .ok (t, [], .hover (some (kindText b.kind))) :=
  hover_concurs hx hx' h h' hs hl hr hw hs' hl' hr' hw' hu hu' hv h1 h2 ha (concur_retouched (Point.le_of_lt (use_spans hw hu)) hc) hex

/-- **C136** (completion) … and a name is offered at a place exactly if it was. -/
theorem C136_offered (env : Env) (sx : Syntax) (w w' : World) (s t : Server) (uri uri' text text' : Str)
    (tree tree' : Tree) (is is' : List Item) (pos : Position) (tr : TriggerKind) (htr : Requested tr)
    (hx : fileExt uri = some .template) (hx' : fileExt uri' = some .template)
    (h : Spec.Analysed env s.files uri text tree is) (h' : Spec.Analysed env t.files uri' text' tree' is')
    (hr : Regular (sx.root tree text)) (hb : Beside sx.digit (sx.root tree text) (toPoint pos))
    (hp : ∀ k ∈ (sx.root tree text).flat, IsPipe k → ¬ Touches (toPoint pos) k) (hin : ∃ e ∈ (sx.root tree text).flat, Within (toPoint pos) e)
    (hr' : Regular (sx.root tree' text')) (hb' : Beside sx.digit (sx.root tree' text') (toPoint pos))
    (hp' : ∀ k ∈ (sx.root tree' text').flat, IsPipe k → ¬ Touches (toPoint pos) k) (hin' : ∃ e ∈ (sx.root tree' text').flat, Within (toPoint pos) e) :
    ∃ own rest own' rest', s.handle (env.over sx) w (.completion uri pos tr) = .ok (s, [], .completion (some (own ++ rest))) ∧
      t.handle (env.over sx) w' (.completion uri' pos tr) = .ok (t, [], .completion (some (own' ++ rest'))) ∧
      (∀ n, n ∈ rest.map (·.label) ↔ BackendName s.files n) ∧ (∀ n, n ∈ rest'.map (·.label) ↔ BackendName t.files n) ∧
      ∀ n, Retouched n (toPoint pos) (toPoint pos) (env.rootEnd tree) is (env.rootEnd tree') is' →
        (n ∈ own'.map (·.label) ↔ n ∈ own.map (·.label)) :=
  offered_concurs (w := w) (w' := w') htr hx hx' h h' hr hb hp hin hr' hb' hp' hin' _ (fun _ hn => concur_retouched (Point.le_refl _) hn)

/-- **C136** (at rest) Two moments at which typing has stopped and the server has come to rest, in one session or in two.  If the text in the editor at
the second is that at the first, rewritten as above, a use of the name is underlined in both or in none; goto-definition leads to the same place, and
hovering shows the same kind. -/
theorem C136_rest {W : World → Prop} (hO : ∀ w, W w → Orderly w) (env : Env) (sx : Syntax) (he : Sound (env.over sx)) (hu : NormalUrls env)
    (cs cs' : List Msg) (as as' : List (HMap Str Diags)) (σ σ' : Sys) (s s' : Server) (u u' : Str) (E E' : Editor)
    (h : Calm W env sx cs as σ s u E) (h' : Calm W env sx cs' as' σ' s' u' E') :
    ∃ text ds text' ds', E u = some text ∧ Displays σ u ds ∧ E' u' = some text' ∧ Displays σ' u' ds' ∧
      ∀ tree tree' is is' es es', TextReads sx s u text tree is es → TextReads sx s' u' text' tree' is' es' →
        ∀ v : Use, .use v ∈ es → .use v ∈ es' → Retouched v.root.text v.root.start v.root.stop (env.rootEnd tree) is (env.rootEnd tree') is' →
          (Underlined ds v.root ↔ Underlined ds' v.root) ∧
          ∀ pos, v.root.start ≤ toPoint pos → toPoint pos < v.root.stop → Laid (sx.root tree text) → Laid (sx.root tree' text') →
            StartsApart (Items.bindings (env.rootEnd tree) 0 is) →
            ((∀ b ∈ Items.bindings (env.rootEnd tree) 0 is, Short b) → (∀ b ∈ Items.bindings (env.rootEnd tree') 0 is', Short b) →
              (∃ b ∈ Items.bindings (env.rootEnd tree) 0 is, Reaches v.root.text (toPoint pos) b) →
              ∃ r : Range, ∀ w w', s.handle (env.over sx) w (.goto u pos) = .ok (s, [], .goto (some (.scalar ⟨u, r⟩))) ∧
                s'.handle (env.over sx) w' (.goto u' pos) = .ok (s', [], .goto (some (.scalar ⟨u', r⟩)))) ∧
            (v.mark = .variable → (∃ b ∈ Items.bindings (env.rootEnd tree) 0 is, InForce v.root.text v.root.start b) →
              ∃ k : IdType, ∀ w w', s.handle (env.over sx) w (.hover u pos) = .ok (s, [], .hover (some (kindText k))) ∧
                s'.handle (env.over sx) w' (.hover u' pos) = .ok (s', [], .hover (some (kindText k)))) := by
  obtain ⟨text, ds, e1, e2, e3⟩ := calm_shown hO he hu h
  obtain ⟨text', ds', f1, f2, f3⟩ := calm_shown hO he hu h'
  refine ⟨text, ds, text', ds', e1, e2, f1, f2, fun tree tree' is is' es es' hr hr' v hv hv' hc => ?_⟩
  have hq := Point.le_of_lt (use_spans hr.wf hv)
  have hc := concur_retouched hq hc
  refine ⟨?_, fun pos h1 h2 hl hl' ha => ⟨fun hf hf' hex => ?_, fun hm hex => ?_⟩⟩
  · rw [(e3 _ _ _ hr).2 v hv, (f3 _ _ _ hr').2 v hv', hc.exists_iff (P := fun b => b.VisibleAt v.info)
      (fun b hb => Concur.not_visible hb rfl rfl) (fun b b' hb => Concur.same_visible hq hb rfl)]
  · have go := fun w w' => goto_concurs (w := w) (w' := w') h.template h'.template (e3 _ _ _ hr).1 (f3 _ _ _ hr').1 hr.formed hl hr.reads hr.wf
      hr'.formed hl' hr'.reads hr'.wf hv hv' h1 h2 hf hf' ha hc hex
    obtain ⟨b, k1, k2, k3, _, _⟩ := go Fix.rootWorld Fix.rootWorld
    refine ⟨⟨⟨b.start.row, b.start.column⟩, ⟨b.stop.row, b.stop.column⟩⟩, fun w w' => ?_⟩
    obtain ⟨b', l1, l2, l3, l4, l5⟩ := go w w'
    cases ha b' l1 b k1 (Point.le_antisymm (k3 _ l1 l2) (l3 _ k1 k2))
    exact ⟨l4, l5⟩
  · have go := fun w w' => hover_concurs (w := w) (w' := w') h.template h'.template (e3 _ _ _ hr).1 (f3 _ _ _ hr').1 hr.formed hl hr.reads hr.wf
      hr'.formed hl' hr'.reads hr'.wf hv hv' hm h1 h2 ha hc hex
    obtain ⟨b, k1, k2, k3, _, _⟩ := go Fix.rootWorld Fix.rootWorld
    refine ⟨b.kind, fun w w' => ?_⟩
    obtain ⟨b', l1, l2, l3, l4, l5⟩ := go w w'
    cases ha b' l1 b k1 (Point.le_antisymm (k3 _ l1 l2) (l3 _ k1 k2))
    exact ⟨l4, l5⟩

/-! ### Examples -/

local macro "regular" : term =>
  `((⟨⟨by decide +kernel, by decide +kernel, by decide +kernel⟩, ⟨by decide +kernel, by decide +kernel, by decide +kernel, by decide +kernel⟩,
    by unfold Legible; decide +kernel, by unfold HasError; decide +kernel, by decide +kernel, by decide +kernel, by decide +kernel⟩ : Regular _))

local macro "both" : term =>
  `((⟨regular, regular, Fix.readTags_sound rfl, Fix.readTags_sound rfl, ⟨Fix.plainElems_read rfl, Fix.elems_wf_of (by decide +kernel)⟩,
    ⟨Fix.plainElems_read rfl, Fix.elems_wf_of (by decide +kernel)⟩, Fix.uses_mem (by decide +kernel), Fix.uses_mem (by decide +kernel), _, _, _, _,
    ⟨⟨.didOpen Fix.uriA [], _, .opened _, rfl⟩, by decide, rfl, rfl⟩, ⟨⟨.didOpen Fix.uriA c!"n", _, .opened _, rfl⟩, by decide, rfl, rfl⟩⟩ : Fix.Both _ _ _))

namespace Fix

/-- the template `loopedP` of C135 with another variable in the loop and `{% set z = 1 %}` at the end -/
def relooped : Program :=
  .set (tagOn 0) (tk 0 1 c!"set") (tk 0 2 c!"b") [.eq (tk 0 3 c!"=")]
    (.loop (tagOn 1) (tk 1 1 c!"for") (tk 1 2 c!"k") [] [.name (tk 1 4 c!"b")]
      (.set (tagOn 2) (tk 2 1 c!"set") (tk 2 2 c!"c") [.eq (tk 2 3 c!"=")]
        (.out [.name (tk 3 1 c!"b"), .name (tk 3 2 c!"c"), .name (tk 3 3 c!"z")] [] .done))
      (endOn 4 c!"endfor") (.out [.name (tk 5 1 c!"b"), .name (tk 5 2 c!"x")] []
        (.set (tagOn 6) (tk 6 1 c!"set") (tk 6 2 c!"z") [.eq (tk 6 3 c!"=")] .done)))

end Fix

/-- the hypotheses of C136 hold for three changes: a loop is put around two tags, its variable is exchanged, and `z` is set at the end; `z` in the loop is
reported before and after, and `c` leads to its `set` -/
example : ∀ n ∈ [c!"c", c!"z"], Retouched n (Fix.tk 3 2 c!"c").start (Fix.tk 3 3 c!"z").stop (Fix.envTwo.rootEnd Fix.treeOne) Fix.looseP.items
      (Fix.envTwo.rootEnd Fix.treeTwo) Fix.relooped.items := by
  intro n hn
  have hn : n = c!"c" ∨ n = c!"z" := by simpa using hn
  have in_ : Items.Inside (Fix.tk 3 3 c!"z").stop (Fix.endOn 4 c!"endfor") [Fix.looseP.items[3]] (Fix.envTwo.rootEnd Fix.treeOne) (Fix.envTwo.rootEnd Fix.treeTwo) :=
    ⟨by decide, fun c h => (by cases List.mem_singleton.mp h), by decide, by decide⟩
  have sp : ∀ m ∈ [c!"x", c!"k"], (Head.for_ (Fix.tk 1 1 c!"for") (Fix.tk 1 2 m) [.name (Fix.tk 1 4 c!"b")]).Spares (Fix.tagOn 1) n (Fix.tk 3 3 c!"z").stop := by
    rcases hn with rfl | rfl <;> unfold Head.Spares <;> decide +kernel
  have s1 : Retouched n (Fix.tk 3 2 c!"c").start (Fix.tk 3 3 c!"z").stop (Fix.envTwo.rootEnd Fix.treeOne) Fix.looseP.items
      (Fix.envTwo.rootEnd Fix.treeTwo) Fix.loopedP.items :=
    .did (.refl _ _) (.wrap (pre := [Fix.looseP.items[0]]) (seg := [Fix.looseP.items[1], Fix.looseP.items[2]]) (post := [Fix.looseP.items[3]])
      (d := Fix.tagOn 1) (e := Fix.endOn 4 c!"endfor") (.inr ⟨by decide, by decide⟩) rfl (.inl ⟨in_, sp c!"x" (.head _)⟩))
  refine (s1.did (.reopen (pre := [Fix.looseP.items[0]]) (d' := Fix.tagOn 1) (.inl rfl) (sp c!"x" (.head _)) (sp c!"k" (.tail _ (.head _))))).did
    (.write (js := [.leaf (.set (Fix.tagOn 6) (Fix.tk 6 1 c!"set") (Fix.tk 6 2 c!"z") [.eq (Fix.tk 6 3 c!"=")])]) (by decide) (by decide)
      ⟨by decide +kernel, fun e h => by cases List.mem_singleton.mp h⟩)

/-- … both templates are ones the server reads -/
example : Fix.Both Fix.looseP Fix.relooped ⟨.variable, Fix.tk 3 2 c!"c", []⟩ ∧ Fix.Both Fix.looseP Fix.relooped ⟨.variable, Fix.tk 3 3 c!"z", []⟩ ∧
    StartsApart (Items.bindings (Fix.envTwo.rootEnd Fix.treeOne) 0 Fix.looseP.items) ∧
    (∀ b ∈ Items.bindings (Fix.envTwo.rootEnd Fix.treeOne) 0 Fix.looseP.items, Short b) ∧
    (∀ b ∈ Items.bindings (Fix.envTwo.rootEnd Fix.treeTwo) 0 Fix.relooped.items, Short b) ∧
    (∃ b ∈ Items.bindings (Fix.envTwo.rootEnd Fix.treeOne) 0 Fix.looseP.items, Reaches c!"c" (Fix.tk 3 2 c!"c").start b) ∧
    ∃ b ∈ Items.bindings (Fix.envTwo.rootEnd Fix.treeOne) 0 Fix.looseP.items, InForce c!"c" (Fix.tk 3 2 c!"c").start b :=
  ⟨both, both, by unfold StartsApart; decide +kernel, by unfold Short; decide +kernel, by unfold Short; decide +kernel, by unfold Reaches; decide +kernel,
    by unfold InForce; decide +kernel⟩

/-- the hypotheses of C136 hold at rest: in the second session `a` is set below `{{ a customer b }}` -/
example : (∃ as σ s E text tree, Calm (· = Fix.rootWorld) Fix.showing Fix.synOn Fix.typing as σ s Fix.uriT E ∧ E Fix.uriT = some text ∧
      TextReads Fix.synOn s Fix.uriT text tree Fix.smallP.items (Fix.plainElems (Fix.drawRoot Fix.smallP)) ∧ Laid (Fix.synOn.root tree text)) ∧
    (∃ as σ s E text tree, Calm (· = Fix.rootWorld) Fix.showing Fix.synOn Fix.typingOn as σ s Fix.uriT E ∧ E Fix.uriT = some text ∧
      TextReads Fix.synOn s Fix.uriT text tree Fix.onP.items (Fix.plainElems (Fix.drawRoot Fix.onP)) ∧ Laid (Fix.synOn.root tree text)) ∧
    Sound (Fix.showing.over Fix.synOn) ∧
    .use ⟨.variable, Fix.tk 1 2 c!"customer", []⟩ ∈ Fix.plainElems (Fix.drawRoot Fix.smallP) ∧
    .use ⟨.variable, Fix.tk 1 2 c!"customer", []⟩ ∈ Fix.plainElems (Fix.drawRoot Fix.onP) ∧
    ∀ tree tree', Retouched c!"customer" (Fix.tk 1 2 c!"customer").start (Fix.tk 1 2 c!"customer").stop (Fix.showing.rootEnd tree) Fix.smallP.items
        (Fix.showing.rootEnd tree') Fix.onP.items ∧
      StartsApart (Items.bindings (Fix.showing.rootEnd tree) 0 Fix.smallP.items) ∧
      (∀ b ∈ Items.bindings (Fix.showing.rootEnd tree) 0 Fix.smallP.items, Short b) ∧
      (∃ b ∈ Items.bindings (Fix.showing.rootEnd tree) 0 Fix.smallP.items, Reaches c!"customer" (Fix.tk 1 2 c!"customer").start b) ∧
      ∃ b ∈ Items.bindings (Fix.showing.rootEnd tree) 0 Fix.smallP.items, InForce c!"customer" (Fix.tk 1 2 c!"customer").start b := by
  refine ⟨?_, ?_, Fix.on_sound, Fix.uses_mem (by decide +kernel), Fix.uses_mem (by decide +kernel), fun tree tree' => ?_⟩
  · obtain ⟨as, σ, s, E, tree, h1, h2, h3⟩ := Fix.on_first
    exact ⟨as, σ, s, E, _, tree, h1, h2, ⟨h3, (⟨by decide +kernel, by decide +kernel, by decide +kernel⟩ : WellFormed (Fix.drawRoot Fix.smallP)), rfl,
      (Fix.readTags_sound rfl : Tags Fix.digit (Fix.draw Fix.smallP) Fix.smallP.items),
      (Fix.plainElems_read rfl : ReadsTree Fix.digit (Fix.drawRoot Fix.smallP) _), Fix.elems_wf_of (by decide +kernel)⟩,
      (⟨by decide +kernel, by decide +kernel, by decide +kernel, by decide +kernel⟩ : Laid (Fix.drawRoot Fix.smallP))⟩
  · obtain ⟨as, σ, s, E, tree, h1, h2, h3⟩ := Fix.on_second
    exact ⟨as, σ, s, E, _, tree, h1, h2, ⟨h3, (⟨by decide +kernel, by decide +kernel, by decide +kernel⟩ : WellFormed (Fix.drawRoot Fix.onP)), rfl,
      (Fix.readTags_sound rfl : Tags Fix.digit (Fix.draw Fix.onP) Fix.onP.items),
      (Fix.plainElems_read rfl : ReadsTree Fix.digit (Fix.drawRoot Fix.onP) _), Fix.elems_wf_of (by decide +kernel)⟩,
      (⟨by decide +kernel, by decide +kernel, by decide +kernel, by decide +kernel⟩ : Laid (Fix.drawRoot Fix.onP))⟩
  · show Retouched _ _ _ (⟨9, 9⟩ : Point) _ (⟨9, 9⟩ : Point) _ ∧ StartsApart (Items.bindings ⟨9, 9⟩ 0 _) ∧ (∀ b ∈ Items.bindings ⟨9, 9⟩ 0 _, Short b) ∧
      (∃ b ∈ Items.bindings ⟨9, 9⟩ 0 _, Reaches _ _ b) ∧ ∃ b ∈ Items.bindings ⟨9, 9⟩ 0 _, InForce _ _ b
    refine ⟨.did (.refl _ _) (.write (is := Fix.smallP.items) (js := [.leaf (.set (Fix.tagOn 2) (Fix.tk 2 1 c!"set") (Fix.tk 2 2 c!"a") [.eq (Fix.tk 2 3 c!"=")])])
      (by decide) (by decide) ⟨by decide +kernel, fun e h => by cases List.mem_singleton.mp h⟩), by unfold StartsApart; decide +kernel,
      by unfold Short; decide +kernel, by unfold Reaches; decide +kernel, by unfold InForce; decide +kernel⟩

end JinjaLsp
