import Verif.Props.Edits
import Verif.Props.NodePieces
/-
  C137: however an embedded template is rewritten in other parts, the answers about a name stay the same.
-/

namespace JinjaLsp
open Node Spec NodeFiles

section
variable {env : Env} {sx : Syntax} {w w' : World} {calls calls' : List Call} {n n' : NodeFiles} {id id' : Nat}
  {fn uri host above margin content below fn' uri' host' above' margin' content' below' : Str} {line line' : Nat} {col col' : Option Nat}
  {root root' : Syn} {last last' : Point} {is is' : List Item} {es es' : List Elem}

/-! ## C137 -/

/-- **C137** (goto-definition; part) An embedded template is rewritten in any number of steps that do not concern the name of a use (C136).  Then
goto-definition leads from it to the binding it led to, at the place where it now is in the host document.  Missing: file names that are no URLs (C102). -/
theorem C137_goto_partial (h : HostedItems env sx w calls n id fn uri host above margin content below line col root last is es)
    (h' : HostedItems env sx w' calls' n' id' fn' uri' host' above' margin' content' below' line' col' root' last' is' es')
    (u : Use) (hu : .use u ∈ es) (hu' : .use u ∈ es') (hc : Retouched u.root.text u.root.start u.root.stop last is last' is')
    (pos pos' : Position) (before after before' after' url url' : Str)
    (hcu : InName host above margin content below col u.root pos before after)
    (hcu' : InName host' above' margin' content' below' col' u.root pos' before' after')
    (heq : (⟨pos'.line - line', pos'.character⟩ : Point) = ⟨pos.line - line, pos.character⟩)
    (hin : PartOf fn uri) (hurl : env.urlParse fn = some url) (hin' : PartOf fn' uri') (hurl' : env.urlParse fn' = some url')
    (ha : StartsApart (Items.bindings last 0 is))
    (hex : ∃ b ∈ Items.bindings last 0 is, Reaches u.root.text ⟨pos.line - line, pos.character⟩ b) :
    ∃ b ∈ Items.bindings last 0 is, Reaches u.root.text ⟨pos.line - line, pos.character⟩ b ∧
      (∀ b' ∈ Items.bindings last 0 is, Reaches u.root.text ⟨pos.line - line, pos.character⟩ b' → b'.start ≤ b.start) ∧
      n.gotoDefinition (env.over sx) w id fn line pos = .ok (some [⟨url, hostPlace line b, false⟩]) ∧
      n'.gotoDefinition (env.over sx) w' id' fn' line' pos' = .ok (some [⟨url', hostPlace line' b, false⟩]) :=
  hosted_goto h h' hu hu' hcu hcu' heq hin hurl hin' hurl' ha (concur_retouched (Point.le_of_lt (use_spans h.usesWf hu)) hc) hex

/-- **C137** (hover; part) … hovering it shows the same kind of variable, for the range of the name where it now is.
Missing: names that a hint in force begins with. -/
theorem C137_hover_partial (h : HostedItems env sx w calls n id fn uri host above margin content below line col root last is es)
    (h' : HostedItems env sx w' calls' n' id' fn' uri' host' above' margin' content' below' line' col' root' last' is' es')
    (u : Use) (hu : .use u ∈ es) (hu' : .use u ∈ es') (hc : Retouched u.root.text u.root.start u.root.stop last is last' is')
    (hvar : u.mark = .variable) (pos pos' : Position) (before after before' after' : Str)
    (hcu : InName host above margin content below col u.root pos before after)
    (hcu' : InName host' above' margin' content' below' col' u.root pos' before' after')
    (hhint : ∀ b ∈ (toldUnder c!"temp" none calls).getD [], ¬ u.root.text <+: b.name)
    (hhint' : ∀ b ∈ (toldUnder c!"temp" none calls').getD [], ¬ u.root.text <+: b.name)
    (ha : StartsApart (Items.bindings last 0 is)) (hex : ∃ b ∈ Items.bindings last 0 is, InForce u.root.text u.root.start b) :
    ∃ b ∈ Items.bindings last 0 is, InForce u.root.text u.root.start b ∧
      (∀ b' ∈ Items.bindings last 0 is, InForce u.root.text u.root.start b' → b'.start ≤ b.start) ∧
      n.hover (env.over sx) w id fn line pos = .ok (some ⟨kindText b.kind ++ c!"\n\n---\n**" ++ u.root.text ++ c!"**", hostRange line u.root⟩) ∧
      n'.hover (env.over sx) w' id' fn' line' pos' = .ok (some ⟨kindText b.kind ++ c!"\n\n---\n**" ++ u.root.text ++ c!"**", hostRange line' u.root⟩) :=
  hosted_hover h h' hu hu' hvar hcu hcu' hhint hhint' ha (concur_retouched (Point.le_of_lt (use_spans h.usesWf hu)) hc) hex

/-- **C137** (completion; part) … and a name is offered at a place exactly if it was, unless a backend file or a hint has it.
Missing: cursors in names (C126). -/
theorem C137_offered_partial (h : HostedItems env sx w calls n id fn uri host above margin content below line col root last is es)
    (h' : HostedItems env sx w' calls' n' id' fn' uri' host' above' margin' content' below' line' col' root' last' is' es')
    (hr : Regular root) (hr' : Regular root') (l ch : Nat) (hb : Beside sx.digit root ⟨l, ch⟩) (hb' : Beside sx.digit root' ⟨l, ch⟩)
    (hpipe : ∀ k ∈ root.flat, IsPipe k → ¬ Touches ⟨l, ch⟩ k) (hin : ∃ e ∈ root.flat, Within ⟨l, ch⟩ e)
    (hpipe' : ∀ k ∈ root'.flat, IsPipe k → ¬ Touches ⟨l, ch⟩ k) (hin' : ∃ e ∈ root'.flat, Within ⟨l, ch⟩ e) :
    ∃ items items', n.complete (env.over sx) w id fn line ⟨l + line, ch⟩ = .ok (some items) ∧
      n'.complete (env.over sx) w' id' fn' line' ⟨l + line', ch⟩ = .ok (some items') ∧
      ∀ m, Retouched m ⟨l, ch⟩ ⟨l, ch⟩ last is last' is' → ¬ BackendName n.files m → ¬ BackendName n'.files m →
        (∀ a ∈ (toldUnder c!"temp_" none calls).getD [], a.name ≠ m) →
        (∀ a ∈ (toldUnder c!"temp_" none calls').getD [], a.name ≠ m) → (m ∈ items'.map (·.label) ↔ m ∈ items.map (·.label)) :=
  hosted_offered h h' hr hr' hb hb' hpipe hin hpipe' hin' _ (fun _ hm => concur_retouched (Point.le_refl _) hm)

end

/-! ### Example -/

/-- The tags at the end are removed and a loop is put in: `a` leads to its `set` as before. -/
example : ∃ n₂ n₃ : NodeFiles,
    n₂.gotoDefinition (Fix.env.over Fix.piecesSyn) Fix.world 7 c!"f" 1 ⟨3, 5⟩ = .ok (some [⟨c!"f", ⟨⟨1, 14⟩, ⟨1, 15⟩⟩, false⟩]) ∧
    n₃.gotoDefinition (Fix.env.over Fix.piecesSyn) Fix.world 7 c!"f" 1 ⟨3, 5⟩ = .ok (some [⟨c!"f", ⟨⟨1, 14⟩, ⟨1, 15⟩⟩, false⟩]) ∧
    (∃ r, n₂.hover (Fix.env.over Fix.piecesSyn) Fix.world 7 c!"f" 1 ⟨3, 5⟩ = .ok (some ⟨kindText .setVariable ++ c!"\n\n---\n**a**", r⟩)) ∧
    Retouched c!"a" ⟨2, 7⟩ ⟨2, 7⟩ ⟨9, 9⟩ [Fix.setItem, Fix.outItem, Fix.againItem] ⟨9, 9⟩ [Fix.setItem, Fix.forItem, Fix.endItem, Fix.outItem] ∧
    Call.run (Fix.env.over Fix.piecesSyn) Fix.world NodeFiles.new (Fix.piecesCalls Fix.longContent) = .ok n₃ ∧
    Call.run (Fix.env.over Fix.piecesSyn) Fix.world NodeFiles.new (Fix.piecesCalls Fix.filledContent) = .ok n₂ := by
  obtain ⟨n₂, h₂⟩ := Fix.filled_hosted
  obtain ⟨n₃, h₃⟩ := Fix.long_hosted
  have part : PartOf c!"f" Fix.offsetUri := ⟨c!"file:///home/", c!".7.jinja", by decide⟩
  have hex : ∃ b ∈ Items.bindings ⟨9, 9⟩ 0 [Fix.setItem, Fix.outItem, Fix.againItem], Reaches Fix.aUse.root.text ⟨3 - 1, 5⟩ b := by
    unfold Reaches; decide +kernel
  have hin : ∃ b ∈ Items.bindings ⟨9, 9⟩ 0 [Fix.setItem, Fix.outItem, Fix.againItem], InForce Fix.aUse.root.text Fix.aUse.root.start b := by
    unfold InForce; decide +kernel
  have ap : StartsApart (Items.bindings ⟨9, 9⟩ 0 [Fix.setItem, Fix.outItem, Fix.againItem]) := by unfold StartsApart; decide +kernel
  have steps : ∀ q1 q2 : Point, Items.Behind q2 [Fix.againItem] → Items.InFront q1 [Fix.forItem, Fix.endItem] → q2 < (⟨9, 9⟩ : Point) →
      Retouched c!"a" q1 q2 ⟨9, 9⟩ [Fix.setItem, Fix.outItem, Fix.againItem] ⟨9, 9⟩ [Fix.setItem, Fix.forItem, Fix.endItem, Fix.outItem] :=
    fun q1 q2 h1 h2 h3 => .did (.undid (.refl _ _) (.write (is := [Fix.setItem, Fix.outItem]) h3 h3 h1))
      (.insert (pre := [Fix.setItem]) (seg := [Fix.forItem, Fix.endItem]) (post := [Fix.outItem]) (.inl rfl) rfl (.inr ⟨h2, by decide⟩))
  have st := steps Fix.aUse.root.start Fix.aUse.root.stop Fix.again_behind.1 Fix.loop_inFront.1 (by decide)
  obtain ⟨b, k1, k2, _, k3, k4⟩ := C137_goto_partial h₃ h₂ Fix.aUse Fix.short_uses.2.2 Fix.short_uses.2.1 st _ _ _ _ _ _ c!"f" c!"f"
    Fix.long_inName Fix.filled_inName rfl part rfl part rfl ap hex
  obtain ⟨d, m1, m2, _, _, m3⟩ := C137_hover_partial h₃ h₂ Fix.aUse Fix.short_uses.2.2 Fix.short_uses.2.1 st rfl _ _ _ _ _ _
    Fix.long_inName Fix.filled_inName (by decide) (by decide) ap hin
  have only : ∀ b ∈ Items.bindings ⟨9, 9⟩ 0 [Fix.setItem, Fix.outItem, Fix.againItem], Reaches Fix.aUse.root.text ⟨3 - 1, 5⟩ b →
      b = (Fix.tok 0 14 15 c!"a" 16).bind .setVariable ⟨9, 9⟩ := by unfold Reaches; decide +kernel
  have only' : ∀ b ∈ Items.bindings ⟨9, 9⟩ 0 [Fix.setItem, Fix.outItem, Fix.againItem], InForce Fix.aUse.root.text Fix.aUse.root.start b →
      b = (Fix.tok 0 14 15 c!"a" 16).bind .setVariable ⟨9, 9⟩ := by unfold InForce; decide +kernel
  cases only b k1 k2
  cases only' d m1 m2
  exact ⟨n₂, n₃, k4, k3, ⟨_, m3⟩, steps _ _ Fix.again_behind.2 Fix.loop_inFront.2 (by decide), h₃.run, h₂.run⟩

end JinjaLsp
