/- Deferring boxes does not change them: `constructSlots` makes what `constructContainer` makes. -/
import Verif.Layout.Slots
namespace Verif.Layout
open Verif.Style

mutual
/-- The nesting of elements. -/
def IdNode.depth : IdNode → Nat
  | .ignored => 0
  | .text _ => 0
  | .element _ _ children => depthAll children + 1
/-- The nesting of elements. -/
def depthAll : List IdNode → Nat
  | [] => 0
  | n :: ns => max n.depth (depthAll ns)
end

/-- What finishing a box comes to. -/
def taskResult : Intermediate → Option (BlockLevelBox × Bool)
  | .inlines style boxes => some (.sameFormattingContextBlock style (.inlineFormattingContext boxes), false)
  | .deferred style children =>
    (constructContainer style (forgetAll children)).map fun r => (.sameFormattingContextBlock style r.1, r.2)
  | .independent style children => (constructContainer style (forgetAll children)).map fun r => (.independent style r.2 r.1, false)
  | .absolutelyPositioned style children =>
    (constructContainer style (forgetAll children)).map fun r => (.outOfFlowAbsolutelyPositioned style r.2 r.1, false)
  | .float style children => (constructContainer style (forgetAll children)).map fun r => (.outOfFlowFloat style r.2 r.1, true)

/-- What finishing boxes comes to. -/
def tasksResult : List (Intermediate × Option Nat) → Option (List BlockLevelBox × Bool)
  | [] => some ([], false)
  | t :: ts =>
    match taskResult t.1, tasksResult ts with
    | some r, some rs => some (r.1 :: rs.1, r.2 || rs.2)
    | _, _ => none

theorem tasksResult_append (a b : List (Intermediate × Option Nat)) :
    tasksResult (a ++ b) =
      match tasksResult a, tasksResult b with
      | some x, some y => some (x.1 ++ y.1, x.2 || y.2)
      | _, _ => none := by
  induction a with
  | nil => simp only [List.nil_append, tasksResult]; rcases tasksResult b with _ | ⟨x, y⟩ <;> simp
  | cons t ts ih =>
    simp only [List.cons_append, tasksResult, ih]
    rcases taskResult t.1 with _ | r
    · rfl
    · rcases tasksResult ts with _ | x
      · rfl
      · rcases tasksResult b with _ | y
        · rfl
        · simp [Bool.or_assoc]

theorem tasksResult_snoc {a : List (Intermediate × Option Nat)} {t : Intermediate × Option Nat} :
    tasksResult (a ++ [t]) =
      match tasksResult a, taskResult t.1 with
      | some x, some y => some (x.1 ++ [y.1], x.2 || y.2)
      | _, _ => none := by
  rw [tasksResult_append]
  simp only [tasksResult]
  rcases tasksResult a with _ | x <;> rcases taskResult t.1 with _ | y <;> simp

/-- The builder with deferred boxes stands for the builder. -/
structure SameBuilder (b' : SlotBuilder) (b : Builder) : Prop where
  boxes : ∃ floats, tasksResult b'.boxes = some (b.blockLevelBoxes, floats) ∧ b.containsFloats = (b'.containsFloats || floats)
  ongoing : b'.ongoing = b.ongoing
  stack : b'.stack = b.stack

/-- The same, where the builder may have failed: then some deferred box will. -/
def SameOption (b' : SlotBuilder) : Option Builder → Prop
  | some b => SameBuilder b' b
  | none => tasksResult b'.boxes = none

/-- The outcome corresponds. -/
def SameOutcome (o : Outcome SlotBuilder) : Option Builder → Prop
  | some b => ∃ b', o = .ok b' ∧ SameBuilder b' b
  | none => o = .abort ∨ ∃ b', o = .ok b' ∧ tasksResult b'.boxes = none

theorem SameOutcome.ok {b' : SlotBuilder} {ob : Option Builder} (h : SameOption b' ob) : SameOutcome (.ok b') ob := by
  cases ob with
  | none => exact .inr ⟨b', rfl, h⟩
  | some b => exact ⟨b', rfl, h⟩

theorem SameOutcome.andThen {o : Outcome SlotBuilder} {ob : Option Builder} {f : SlotBuilder → Outcome SlotBuilder}
    {g : Builder → Option Builder} (h : SameOutcome o ob) (hf : ∀ b' ob, SameOption b' ob → SameOutcome (f b') (ob.bind g)) :
    SameOutcome (o.andThen f) (ob.bind g) := by
  cases ob with
  | none =>
    rcases h with rfl | ⟨b', rfl, h⟩
    · exact .inl rfl
    · exact hf b' none h
  | some b =>
    obtain ⟨b', rfl, h⟩ := h
    exact hf b' (some b) h

/-- The same before a frame that owns a slot is left: there may be a panic. -/
def WeakOutcome (o : Outcome SlotBuilder) : Option Builder → Prop
  | some b => ∃ b', o = .ok b' ∧ SameBuilder b' b
  | none => o = .panic ∨ o = .abort ∨ ∃ b', o = .ok b' ∧ tasksResult b'.boxes = none

theorem WeakOutcome.owning {o : Outcome SlotBuilder} {ob : Option Builder} (h : WeakOutcome o ob) : SameOutcome (o.owning true) ob := by
  cases ob with
  | none =>
    rcases h with rfl | rfl | ⟨b', rfl, h⟩
    · exact .inl rfl
    · exact .inl rfl
    · exact .inr ⟨b', rfl, h⟩
  | some b => obtain ⟨b', rfl, h⟩ := h; exact ⟨b', rfl, h⟩

theorem SameOutcome.andThenWeak {o : Outcome SlotBuilder} {ob : Option Builder} {f : SlotBuilder → Outcome SlotBuilder}
    {g : Builder → Option Builder} (h : SameOutcome o ob) (hf : ∀ b' ob, SameOption b' ob → WeakOutcome (f b') (ob.bind g)) :
    WeakOutcome (o.andThen f) (ob.bind g) := by
  cases ob with
  | none =>
    rcases h with rfl | ⟨b', rfl, h⟩
    · exact .inr (.inl rfl)
    · exact hf b' none h
  | some b =>
    obtain ⟨b', rfl, h⟩ := h
    exact hf b' (some b) h

/-- The function constructs what `constructContainer` does, for these children. -/
def SlotsAgree (C : ComputedValues → List IdNode → Outcome Built) (children : List IdNode) : Prop :=
  ∀ style, match constructContainer style (forgetAll children) with
    | some r => ∃ p, C style children = .ok ⟨r.1, r.2, p⟩
    | none => C style children = .abort

theorem emit_same {b' : SlotBuilder} {ob : Option Builder} (p : Program) (h : SameOption b' ob) : SameOption (b'.emit p) ob := by
  cases ob with
  | none => exact h
  | some b => exact ⟨h.boxes, h.ongoing, h.stack⟩

theorem handleText_inline (b : Builder) (boxes : List BlockLevelBox) (f : Bool) (text : List Nat) (ps : ComputedValues) :
    (b.handleText text ps).blockLevelBoxes = b.blockLevelBoxes ∧ (b.handleText text ps).containsFloats = b.containsFloats ∧
    (Builder.handleText ⟨boxes, b.ongoing, b.stack, f⟩ text ps).ongoing = (b.handleText text ps).ongoing ∧
    (Builder.handleText ⟨boxes, b.ongoing, b.stack, f⟩ text ps).stack = (b.handleText text ps).stack := by
  have e : Builder.handleLeadingWhitespace ⟨boxes, b.ongoing, b.stack, f⟩ text = b.handleLeadingWhitespace text := by
    unfold Builder.handleLeadingWhitespace Builder.current
    rfl
  unfold Builder.handleText
  rw [e]
  rcases b.handleLeadingWhitespace text with ⟨lw, input⟩
  dsimp only
  split
  · obtain ⟨bx, o, st, fl⟩ := b
    cases st <;> exact ⟨rfl, rfl, rfl, rfl⟩
  · exact ⟨rfl, rfl, rfl, rfl⟩

theorem setCurrent_same {b' : SlotBuilder} {b : Builder} (h : SameBuilder b' b) (extra : List InlineLevelBox) :
    SameBuilder (b'.setInlinePart (b'.inlinePart.setCurrent (b'.inlinePart.current ++ extra))) (b.setCurrent (b.current ++ extra)) := by
  obtain ⟨bx, o, st, fl⟩ := b
  obtain ⟨bx', o', st', fl', p⟩ := b'
  obtain ⟨h1, h2, h3⟩ := h
  simp only at h2 h3
  subst h2 h3
  cases st' <;> exact ⟨h1, rfl, rfl⟩

theorem endOngoing_same {b' : SlotBuilder} {b : Builder} (h : SameBuilder b' b) (cs : ComputedValues) :
    (b.endOngoing cs = none ∧ b'.endOngoing cs = .panic) ∨
      ∃ b2 b2', b.endOngoing cs = some b2 ∧ b'.endOngoing cs = .ok b2' ∧ SameBuilder b2' b2 := by
  obtain ⟨bx, o, st, fl⟩ := b
  obtain ⟨bx', o', st', fl', p⟩ := b'
  obtain ⟨⟨f, h1, h4⟩, h2, h3⟩ := h
  simp only at h1 h2 h3 h4
  subst h2 h3
  unfold Builder.endOngoing SlotBuilder.endOngoing
  dsimp only
  by_cases hs : (!st'.isEmpty) = true
  · left; simp [hs]
  · right
    simp only [hs, Bool.false_eq_true, if_false]
    by_cases ho : o'.isEmpty = true
    · simp only [ho, if_true]
      exact ⟨_, _, rfl, rfl, ⟨f, h1, h4⟩, rfl, rfl⟩
    · simp only [ho, Bool.false_eq_true, if_false]
      refine ⟨_, _, rfl, rfl, ⟨f, ?_, h4⟩, rfl, rfl⟩
      simp [tasksResult_snoc, h1, taskResult]

theorem splitInlines_same {b' : SlotBuilder} {b : Builder} (h : SameBuilder b' b) (cs : ComputedValues) :
    (b.splitInlines cs = none ∧ b'.splitInlines cs = .panic) ∨
      ∃ b2 b2', b.splitInlines cs = some b2 ∧ b'.splitInlines cs = .ok b2' ∧ SameBuilder b2' b2 := by
  refine endOngoing_same ?_ cs
  exact ⟨h.boxes, by simp [h.ongoing, h.stack], by simp [h.stack]⟩

theorem endOngoing_fails {b' : SlotBuilder} (h : tasksResult b'.boxes = none) (cs : ComputedValues) :
    b'.endOngoing cs = .panic ∨ ∃ b2', b'.endOngoing cs = .ok b2' ∧ tasksResult b2'.boxes = none := by
  unfold SlotBuilder.endOngoing
  split
  · exact .inl rfl
  · split
    · exact .inr ⟨_, rfl, h⟩
    · exact .inr ⟨_, rfl, by simp [tasksResult_append, h]⟩

theorem hasOngoing_same {b' : SlotBuilder} {b : Builder} (h : SameBuilder b' b) : b'.inlinePart.hasOngoing = b.hasOngoing := by
  simp only [Builder.hasOngoing, SlotBuilder.inlinePart, h.ongoing, h.stack]

theorem traverseNode_abs {cst ps style : ComputedValues} {ns : List StyledNode} {b : Builder} {inside : DisplayInside}
    (hd : displayOf style = .generatingBox .block inside) (hp : (positionOf style).isAbsolutelyPositioned = true) :
    traverseNode cst ps (.element style ns) b =
      match constructContainer style ns with
      | none => none
      | some r =>
        if b.hasOngoing then some (b.setCurrent (b.current ++ [InlineLevelBox.outOfFlowAbsolutelyPositioned style r.2 r.1]))
        else some { b with blockLevelBoxes := b.blockLevelBoxes ++ [BlockLevelBox.outOfFlowAbsolutelyPositioned style r.2 r.1] } := by
  simp only [traverseNode, hd, hp, if_true, constructContainer]
  rcases traverseNodes style style ns Builder.new with _ | inner
  · rfl
  · dsimp only
    rcases inner.finish style with _ | r <;> rfl

theorem traverseNode_float {cst ps style : ComputedValues} {ns : List StyledNode} {b : Builder} {inside : DisplayInside}
    (hd : displayOf style = .generatingBox .block inside) (hp : (positionOf style).isAbsolutelyPositioned = false)
    (hf : (floatOf style).isFloating = true) :
    traverseNode cst ps (.element style ns) b =
      match constructContainer style ns with
      | none => none
      | some r =>
        if ({ b with containsFloats := true } : Builder).hasOngoing then
          some (({ b with containsFloats := true } : Builder).setCurrent
            (({ b with containsFloats := true } : Builder).current ++ [InlineLevelBox.outOfFlowFloat style r.2 r.1]))
        else some { b with containsFloats := true, blockLevelBoxes := b.blockLevelBoxes ++ [BlockLevelBox.outOfFlowFloat style r.2 r.1] } := by
  simp only [traverseNode, hd, hp, hf, if_true, constructContainer, Bool.false_eq_true, if_false]
  rcases traverseNodes style style ns Builder.new with _ | inner
  · rfl
  · dsimp only
    rcases inner.finish style with _ | r <;> rfl

mutual
theorem slotNode_same {C : ComputedValues → List IdNode → Outcome Built} {d : Nat} (hC : ∀ cs, depthAll cs < d → SlotsAgree C cs) :
    ∀ (n : IdNode) (cst ps : ComputedValues) (b' : SlotBuilder) (ob : Option Builder), n.depth ≤ d → SameOption b' ob →
      SameOutcome (slotNode C cst ps n b') (ob.bind (traverseNode cst ps n.forget))
  | .ignored, cst, ps, b', ob, _, h => by
    have e : ob.bind (traverseNode cst ps IdNode.ignored.forget) = ob := by
      cases ob <;> simp [IdNode.forget, traverseNode]
    rw [e, slotNode]
    exact .ok h
  | .text contents, cst, ps, b', ob, _, h => by
    rw [slotNode]
    apply SameOutcome.ok
    cases ob with
    | none => exact h
    | some b =>
      simp only [IdNode.forget, Option.bind_some, traverseNode]
      obtain ⟨h1, h2, h3⟩ := h
      obtain ⟨g1, g2, g3, g4⟩ := handleText_inline b [] b'.containsFloats contents ps
      obtain ⟨f, h1, h5⟩ := h1
      refine ⟨⟨f, ?_, ?_⟩, ?_, ?_⟩
      · rw [g1]; exact h1
      · rw [g2]; exact h5
      · rw [← g3]; simp only [SlotBuilder.setInlinePart, SlotBuilder.inlinePart, h2, h3]
      · rw [← g4]; simp only [SlotBuilder.setInlinePart, SlotBuilder.inlinePart, h2, h3]
  | .element id style children, cst, ps, b', ob, hd, h => by
    have hdc : depthAll children < d := by simp only [IdNode.depth] at hd; omega
    rw [slotNode]
    have e : ∀ b, traverseNode cst ps (IdNode.element id style children).forget b
        = traverseNode cst ps (.element style (forgetAll children)) b := fun _ => rfl
    rw [funext e]
    have hne : ∀ {bx : List (Intermediate × Option Nat)} {t}, tasksResult bx = none → tasksResult (bx ++ t) = none := by
      intro bx t hb; rw [tasksResult_append, hb]
    rcases hdis : displayOf style with _ | _ | ⟨_ | _, inside⟩
    · have : ob.bind (traverseNode cst ps (.element style (forgetAll children))) = ob := by
        cases ob <;> simp [traverseNode, hdis]
      rw [this]
      exact .ok (emit_same _ h)
    · have : ob.bind (traverseNode cst ps (.element style (forgetAll children)))
          = ob.bind (traverseNodes cst style (forgetAll children)) := by
        cases ob <;> simp [traverseNode, hdis]
      rw [this]
      exact slotNodes_same hC children cst style _ ob (by omega) (emit_same _ h)
    · cases inside with
      | flow =>
        simp only
        apply WeakOutcome.owning
        have : ob.bind (traverseNode cst ps (.element style (forgetAll children)))
            = (((ob.map fun b => { b with stack := ⟨style, true, []⟩ :: b.stack }).bind (traverseNodes cst style (forgetAll children))).bind
              fun b => match b.stack with
                | [] => none
                | o :: rest =>
                  let b := { b with stack := rest }
                  some (b.setCurrent (b.current ++ [.inlineBox o.style o.firstFragment true o.children]))) := by
          cases ob with
          | none => rfl
          | some b =>
            simp only [Option.bind_some, Option.map_some, traverseNode, hdis]
            rcases traverseNodes cst style (forgetAll children) _ with _ | b2 <;> rfl
        rw [this]
        refine SameOutcome.andThenWeak (slotNodes_same hC children cst style _ _ (by omega) ?_) ?_
        · cases ob with
          | none => exact h
          | some b => exact ⟨h.boxes, h.ongoing, by simp [h.stack]⟩
        · intro b2' ob2 h2
          cases ob2 with
          | none =>
            rcases hst : b2'.stack with _ | ⟨o, rest⟩
            · exact .inl rfl
            · exact .inr (.inr ⟨_, rfl, h2⟩)
          | some b2 =>
            have hs2 := h2.stack
            rcases hst : b2.stack with _ | ⟨o, rest⟩
            · rw [hst] at hs2
              simp only [Option.bind_some, hst, hs2]
              exact .inl rfl
            · rw [hst] at hs2
              simp only [Option.bind_some, hst, hs2]
              refine ⟨_, rfl, ?_⟩
              have h3 : SameBuilder { b2' with stack := rest } { b2 with stack := rest } := ⟨h2.boxes, h2.ongoing, rfl⟩
              have h4 := setCurrent_same h3 [.inlineBox o.style o.firstFragment true o.children]
              exact ⟨h4.boxes, h4.ongoing, h4.stack⟩
      | flowRoot =>
        have : ob.bind (traverseNode cst ps (.element style (forgetAll children))) = none := by
          cases ob <;> simp [traverseNode, hdis]
        rw [this]
        exact .inl rfl
    · have hagree := hC children hdc style
      have hb : SameOption (b'.emit (.event (.borrow id))) ob := emit_same _ h
      generalize hg : b'.emit (.event (.borrow id)) = b1 at hb
      simp only [hg]
      by_cases hpos : (positionOf style).isAbsolutelyPositioned = true
      · simp only [hpos, if_true]
        -- inside an inline formatting context, the box is finished at once
        rcases ob with _ | b
        · by_cases ho : b1.inlinePart.hasOngoing = true
          · simp only [ho, if_true]
            apply WeakOutcome.owning
            rcases hc : constructContainer style (forgetAll children) with _ | r
            · simp only [hc] at hagree
              exact .inr (.inl (by rw [hagree]; rfl))
            · simp only [hc] at hagree
              obtain ⟨p, hp⟩ := hagree
              refine .inr (.inr ⟨_, (by rw [hp]; rfl), ?_⟩)
              exact hb
          · simp only [ho, Bool.false_eq_true, if_false]
            exact .inr ⟨_, rfl, hne hb⟩
        · rw [Option.bind_some, traverseNode_abs hdis hpos]
          rw [hasOngoing_same hb]
          by_cases ho : b.hasOngoing = true
          · simp only [ho, if_true]
            apply WeakOutcome.owning
            rcases hc : constructContainer style (forgetAll children) with _ | r
            · simp only [hc] at hagree
              exact .inr (.inl (by rw [hagree]; rfl))
            · simp only [hc] at hagree
              obtain ⟨p, hp⟩ := hagree
              refine ⟨_, by rw [hp]; rfl, ?_⟩
              have h4 := setCurrent_same (b' := b1.emit p) (b := b) ⟨hb.boxes, hb.ongoing, hb.stack⟩
                [.outOfFlowAbsolutelyPositioned style r.2 r.1]
              exact ⟨h4.boxes, h4.ongoing, h4.stack⟩
          · simp only [ho, Bool.false_eq_true, if_false]
            obtain ⟨f, hb1, hb2⟩ := hb.boxes
            rcases hc : constructContainer style (forgetAll children) with _ | r
            · exact .inr ⟨_, rfl, by simp [tasksResult_snoc, hb1, taskResult, hc]⟩
            · exact ⟨_, rfl, ⟨f, by simp [tasksResult_snoc, hb1, taskResult, hc], hb2⟩, hb.ongoing, hb.stack⟩
      · simp only [hpos, Bool.false_eq_true, if_false]
        by_cases hfl : (floatOf style).isFloating = true
        · simp only [hfl, if_true]
          rcases ob with _ | b
          · by_cases ho : ({ b1 with containsFloats := true } : SlotBuilder).inlinePart.hasOngoing = true
            · simp only [ho, if_true]
              apply WeakOutcome.owning
              rcases hc : constructContainer style (forgetAll children) with _ | r
              · simp only [hc] at hagree
                exact .inr (.inl (by rw [hagree]; rfl))
              · simp only [hc] at hagree
                obtain ⟨p, hp⟩ := hagree
                refine .inr (.inr ⟨_, (by rw [hp]; rfl), ?_⟩)
                exact hb
            · simp only [ho, Bool.false_eq_true, if_false]
              exact .inr ⟨_, rfl, hne hb⟩
          · rw [Option.bind_some, traverseNode_float hdis (by simpa using hpos) hfl]
            obtain ⟨f, hb1, hb2⟩ := hb.boxes
            have hb' : SameBuilder { b1 with containsFloats := true } { b with containsFloats := true } :=
              ⟨⟨f, hb1, by simp⟩, hb.ongoing, hb.stack⟩
            rw [hasOngoing_same hb']
            by_cases ho : ({ b with containsFloats := true } : Builder).hasOngoing = true
            · simp only [ho, if_true]
              apply WeakOutcome.owning
              rcases hc : constructContainer style (forgetAll children) with _ | r
              · simp only [hc] at hagree
                exact .inr (.inl (by rw [hagree]; rfl))
              · simp only [hc] at hagree
                obtain ⟨p, hp⟩ := hagree
                refine ⟨_, by rw [hp]; rfl, ?_⟩
                have h4 := setCurrent_same (b' := ({ b1 with containsFloats := true } : SlotBuilder).emit p)
                  ⟨hb'.boxes, hb'.ongoing, hb'.stack⟩ [.outOfFlowFloat style r.2 r.1]
                exact ⟨h4.boxes, h4.ongoing, h4.stack⟩
            · simp only [ho, Bool.false_eq_true, if_false]
              rcases hc : constructContainer style (forgetAll children) with _ | r
              · exact .inr ⟨_, rfl, by simp [tasksResult_snoc, hb1, taskResult, hc]⟩
              · exact ⟨_, rfl, ⟨true, by simp [tasksResult_snoc, hb1, taskResult, hc], by simp⟩, hb.ongoing, hb.stack⟩
        · simp only [hfl, Bool.false_eq_true, if_false]
          apply WeakOutcome.owning
          rcases ob with _ | b
          · have hb0 : tasksResult ({ b1 with
                ongoing := b1.ongoing ++ (fragmentStack none b1.stack).toList
                stack := b1.stack.map fun (o : OngoingInlineBox) => ⟨o.style, false, []⟩ } : SlotBuilder).boxes = none := hb
            rcases endOngoing_fails hb0 cst with e | ⟨b2', e, hb2⟩
            · exact .inl (by rw [SlotBuilder.splitInlines, e]; rfl)
            · refine .inr (.inr ?_)
              rw [SlotBuilder.splitInlines, e]
              cases inside <;> exact ⟨_, rfl, hne hb2⟩
          · simp only [Option.bind_some, traverseNode, hdis, hpos, hfl, Bool.false_eq_true, if_false]
            rcases splitInlines_same hb cst with ⟨e1, e2⟩ | ⟨b2, b2', e1, e2, hb2⟩
            · rw [e1, e2]; exact .inl rfl
            · rw [e1, e2]
              dsimp only
              have hcc : constructContainer style (forgetAll children)
                  = match traverseNodes style style (forgetAll children) Builder.new with | none => none | some b => b.finish style := rfl
              obtain ⟨f, hf1, hf2⟩ := hb2.boxes
              rcases ht : traverseNodes style style (forgetAll children) Builder.new with _ | inner
              · have hc : constructContainer style (forgetAll children) = none := by rw [hcc, ht]
                refine .inr (.inr ?_)
                cases inside <;> exact ⟨_, rfl, by simp [tasksResult_snoc, hf1, taskResult, hc]⟩
              · dsimp only
                rcases hfin : inner.finish style with _ | ⟨contents, floats⟩
                · have hc : constructContainer style (forgetAll children) = none := by rw [hcc, ht]; exact hfin
                  refine .inr (.inr ?_)
                  cases inside <;> exact ⟨_, rfl, by simp [tasksResult_snoc, hf1, taskResult, hc]⟩
                · have hc : constructContainer style (forgetAll children) = some (contents, floats) := by rw [hcc, ht]; exact hfin
                  cases inside with
                  | flow => exact ⟨_, rfl, ⟨f || floats, by simp [tasksResult_snoc, hf1, taskResult, hc], by simp [hf2, Bool.or_assoc]⟩,
                      hb2.ongoing, hb2.stack⟩
                  | flowRoot => exact ⟨_, rfl, ⟨f, by simp [tasksResult_snoc, hf1, taskResult, hc], hf2⟩, hb2.ongoing, hb2.stack⟩
theorem slotNodes_same {C : ComputedValues → List IdNode → Outcome Built} {d : Nat} (hC : ∀ cs, depthAll cs < d → SlotsAgree C cs) :
    ∀ (ns : List IdNode) (cst ps : ComputedValues) (b' : SlotBuilder) (ob : Option Builder), depthAll ns ≤ d → SameOption b' ob →
      SameOutcome (slotNodes C cst ps ns b') (ob.bind (traverseNodes cst ps (forgetAll ns)))
  | [], cst, ps, b', ob, _, h => by
    have e : ob.bind (traverseNodes cst ps (forgetAll [])) = ob := by
      cases ob <;> simp [forgetAll, traverseNodes]
    rw [e, slotNodes]
    exact .ok h
  | n :: ns, cst, ps, b', ob, hd, h => by
    simp only [depthAll] at hd
    have e : ob.bind (traverseNodes cst ps (forgetAll (n :: ns)))
        = (ob.bind (traverseNode cst ps n.forget)).bind (traverseNodes cst ps (forgetAll ns)) := by
      cases ob with
      | none => rfl
      | some b =>
        simp only [forgetAll, Option.bind_some, traverseNodes]
        rcases traverseNode cst ps n.forget b with _ | b2 <;> rfl
    rw [e, slotNodes]
    exact SameOutcome.andThen (slotNode_same hC n cst ps b' ob (by omega) h)
      fun b2' ob2 h2 => slotNodes_same hC ns cst ps b2' ob2 (by omega) h2
end

theorem finishTask_same {C : ComputedValues → List IdNode → Outcome Built} (t : Intermediate × Option Nat)
    (hC : ∀ style cs, t.1 = .deferred style cs ∨ t.1 = .independent style cs ∨ t.1 = .absolutelyPositioned style cs ∨ t.1 = .float style cs →
      SlotsAgree C cs) :
    match taskResult t.1 with
    | some r => ∃ p, finishTask C t = .ok (r.1, r.2, p)
    | none => finishTask C t = .abort := by
  obtain ⟨i, slot⟩ := t
  cases i with
  | inlines style boxes => cases slot <;> exact ⟨_, rfl⟩
  | deferred style cs =>
    have h := hC style cs (by simp) style
    simp only [taskResult]
    rcases hc : constructContainer style (forgetAll cs) with _ | r
    · simp only [hc] at h
      simp [finishTask, finishBox, h, Outcome.andThen, Outcome.owning]
    · simp only [hc] at h
      obtain ⟨p, hp⟩ := h
      cases slot <;> simp [finishTask, finishBox, hp, Outcome.andThen, Outcome.owning]
  | independent style cs =>
    have h := hC style cs (by simp) style
    simp only [taskResult]
    rcases hc : constructContainer style (forgetAll cs) with _ | r
    · simp only [hc] at h
      simp [finishTask, finishBox, h, Outcome.andThen, Outcome.owning]
    · simp only [hc] at h
      obtain ⟨p, hp⟩ := h
      cases slot <;> simp [finishTask, finishBox, hp, Outcome.andThen, Outcome.owning]
  | absolutelyPositioned style cs =>
    have h := hC style cs (by simp) style
    simp only [taskResult]
    rcases hc : constructContainer style (forgetAll cs) with _ | r
    · simp only [hc] at h
      simp [finishTask, finishBox, h, Outcome.andThen, Outcome.owning]
    · simp only [hc] at h
      obtain ⟨p, hp⟩ := h
      cases slot <;> simp [finishTask, finishBox, hp, Outcome.andThen, Outcome.owning]
  | float style cs =>
    have h := hC style cs (by simp) style
    simp only [taskResult]
    rcases hc : constructContainer style (forgetAll cs) with _ | r
    · simp only [hc] at h
      simp [finishTask, finishBox, h, Outcome.andThen, Outcome.owning]
    · simp only [hc] at h
      obtain ⟨p, hp⟩ := h
      cases slot <;> simp [finishTask, finishBox, hp, Outcome.andThen, Outcome.owning]

/-- The children that are to be traversed when the box is finished. -/
def Intermediate.children : Intermediate → List IdNode
  | .inlines _ _ => []
  | .deferred _ cs => cs
  | .independent _ cs => cs
  | .absolutelyPositioned _ cs => cs
  | .float _ cs => cs

theorem finishTasks_same {C : ComputedValues → List IdNode → Outcome Built} : ∀ (ts : List (Intermediate × Option Nat)),
    (∀ t ∈ ts, (∀ style boxes, t.1 ≠ .inlines style boxes) → SlotsAgree C t.1.children) →
    match tasksResult ts with
    | some r => ∃ p, finishTasks C ts = .ok (r.1, r.2, p)
    | none => finishTasks C ts = .abort
  | [], _ => ⟨_, rfl⟩
  | t :: ts, h => by
    have h1 := finishTask_same (C := C) t (by
      intro style cs hcs
      have := h t (by simp)
      rcases hcs with e | e | e | e <;> simpa [e, Intermediate.children] using this)
    have h2 := finishTasks_same ts fun t' ht' => h t' (List.mem_cons_of_mem _ ht')
    simp only [tasksResult]
    rcases hr : taskResult t.1 with _ | r
    · simp only [hr] at h1
      simp [finishTasks, h1, Outcome.andThen]
    · simp only [hr] at h1
      obtain ⟨p, hp⟩ := h1
      rcases hrs : tasksResult ts with _ | rs
      · simp only [hrs] at h2
        simp [finishTasks, hp, h2, Outcome.andThen]
      · simp only [hrs] at h2
        obtain ⟨q, hq⟩ := h2
        simp [finishTasks, hp, hq, Outcome.andThen]

/-- All that is deferred has this depth at most. -/
def Shallow (d : Nat) (ts : List (Intermediate × Option Nat)) : Prop :=
  ∀ t ∈ ts, (∀ style boxes, t.1 ≠ .inlines style boxes) → depthAll t.1.children < d

theorem Outcome.andThen_ok {α β : Type} {o : Outcome α} {f : α → Outcome β} {v : β} (h : o.andThen f = .ok v) : ∃ a, o = .ok a ∧ f a = .ok v := by
  cases o with
  | ok a => exact ⟨a, rfl, h⟩
  | panic => cases h
  | abort => cases h
  | running => cases h

theorem Outcome.owning_ok {α : Type} {o : Outcome α} {s : Bool} {v : α} (h : o.owning s = .ok v) : o = .ok v := by
  cases o with
  | ok a => exact h
  | panic => cases s <;> cases h
  | abort => cases h
  | running => cases h

theorem endOngoing_boxes {b b2 : SlotBuilder} {cs : ComputedValues} (h : b.endOngoing cs = .ok b2) :
    b2.program = b.program ∧ b2.containsFloats = b.containsFloats ∧ b2.stack = b.stack ∧
      ((b2.boxes = b.boxes ∧ b2.ongoing = b.ongoing) ∨
      (b2.ongoing = [] ∧ b2.boxes = b.boxes ++ [(.inlines (ComputedValues.anonymousInheritingFrom (some cs)) b.ongoing, none)])) := by
  unfold SlotBuilder.endOngoing at h
  split at h
  · cases h
  · split at h
    · cases h; exact ⟨rfl, rfl, rfl, .inl ⟨rfl, rfl⟩⟩
    · cases h; exact ⟨rfl, rfl, rfl, .inr ⟨rfl, rfl⟩⟩

theorem Shallow.snoc {d : Nat} {ts : List (Intermediate × Option Nat)} (h : Shallow d ts) {t : Intermediate × Option Nat}
    (ht : (∀ style boxes, t.1 ≠ .inlines style boxes) → depthAll t.1.children < d) : Shallow d (ts ++ [t]) := by
  intro t' ht'
  rcases List.mem_append.mp ht' with h' | h'
  · exact h t' h'
  · rw [List.mem_singleton.mp h']; exact ht

mutual
theorem slotNode_shallow {C : ComputedValues → List IdNode → Outcome Built} {d : Nat} :
    ∀ (n : IdNode) (cst ps : ComputedValues) (b b2 : SlotBuilder), n.depth ≤ d → Shallow d b.boxes → slotNode C cst ps n b = .ok b2 →
      Shallow d b2.boxes
  | .ignored, cst, ps, b, b2, _, h, e => by rw [slotNode] at e; cases e; exact h
  | .text contents, cst, ps, b, b2, _, h, e => by rw [slotNode] at e; cases e; exact h
  | .element id style children, cst, ps, b, b2, hd, h, e => by
    have hdc : depthAll children < d := by simp only [IdNode.depth] at hd; omega
    rw [slotNode] at e
    rcases hdis : displayOf style with _ | _ | ⟨_ | _, inside⟩ <;> rw [hdis] at e
    · cases e; exact h
    · exact slotNodes_shallow (d := d) children cst style (b.emit (.event (.contents id))) b2 (by omega) h e
    · cases inside with
      | flow =>
        obtain ⟨b3, e1, e2⟩ := Outcome.andThen_ok (Outcome.owning_ok e)
        have := slotNodes_shallow (d := d) children _ _ _ _ (by omega) (by exact h) e1
        rcases hst : b3.stack with _ | ⟨o, rest⟩
        · simp only [hst] at e2; cases e2
        · simp only [hst] at e2; cases e2; exact this
      | flowRoot => cases e
    · dsimp only at e
      split at e
      · split at e
        · obtain ⟨built, e1, e2⟩ := Outcome.andThen_ok (Outcome.owning_ok e)
          cases e2; exact h
        · cases e; exact h.snoc fun _ => hdc
      · split at e
        · split at e
          · obtain ⟨built, e1, e2⟩ := Outcome.andThen_ok (Outcome.owning_ok e)
            cases e2; exact h
          · cases e; exact h.snoc fun _ => hdc
        · obtain ⟨b3, e1, e2⟩ := Outcome.andThen_ok (Outcome.owning_ok e)
          have h3 : Shallow d b3.boxes := by
            rcases (endOngoing_boxes e1).2.2.2 with ⟨q, -⟩ | ⟨-, q⟩
            · rw [q]; exact h
            · rw [q]; exact Shallow.snoc h (by simp)
          cases inside <;> (cases e2; exact h3.snoc fun _ => hdc)
theorem slotNodes_shallow {C : ComputedValues → List IdNode → Outcome Built} {d : Nat} :
    ∀ (ns : List IdNode) (cst ps : ComputedValues) (b b2 : SlotBuilder), depthAll ns ≤ d → Shallow d b.boxes → slotNodes C cst ps ns b = .ok b2 →
      Shallow d b2.boxes
  | [], cst, ps, b, b2, _, h, e => by rw [slotNodes] at e; cases e; exact h
  | n :: ns, cst, ps, b, b2, hd, h, e => by
    simp only [depthAll] at hd
    rw [slotNodes] at e
    obtain ⟨b3, e1, e2⟩ := Outcome.andThen_ok e
    exact slotNodes_shallow ns cst ps b3 b2 (by omega) (slotNode_shallow n cst ps b b3 (by omega) h e1) e2
end

theorem setCurrent_stack (b : Builder) (l : List InlineLevelBox) : (b.setCurrent l).stack.map OngoingInlineBox.style = b.stack.map OngoingInlineBox.style := by
  unfold Builder.setCurrent
  split <;> (rename_i h; simp [h])

theorem handleText_stack (b : Builder) (t : List Nat) (ps : ComputedValues) : (b.handleText t ps).stack.map OngoingInlineBox.style = b.stack.map OngoingInlineBox.style := by
  unfold Builder.handleText
  rcases b.handleLeadingWhitespace t with ⟨lw, input⟩
  dsimp only
  split
  · exact setCurrent_stack _ _
  · rfl

mutual
theorem slotNode_stack {C : ComputedValues → List IdNode → Outcome Built} :
    ∀ (n : IdNode) (cst ps : ComputedValues) (b b2 : SlotBuilder), slotNode C cst ps n b = .ok b2 → b2.stack.map OngoingInlineBox.style = b.stack.map OngoingInlineBox.style
  | .ignored, cst, ps, b, b2, e => by rw [slotNode] at e; cases e; rfl
  | .text contents, cst, ps, b, b2, e => by rw [slotNode] at e; cases e; exact handleText_stack ..
  | .element id style children, cst, ps, b, b2, e => by
    rw [slotNode] at e
    rcases hdis : displayOf style with _ | _ | ⟨_ | _, inside⟩ <;> rw [hdis] at e
    · cases e; rfl
    · exact slotNodes_stack children cst style (b.emit (.event (.contents id))) b2 e
    · cases inside with
      | flow =>
        obtain ⟨b3, e1, e2⟩ := Outcome.andThen_ok (Outcome.owning_ok e)
        have := slotNodes_stack children _ _ _ _ e1
        rcases hst : b3.stack with _ | ⟨o, rest⟩
        · simp only [hst] at e2; cases e2
        · simp only [hst] at e2
          cases e2
          rw [hst] at this
          simp only [List.map_cons, List.cons.injEq] at this
          rw [← this.2]
          exact setCurrent_stack ..
      | flowRoot => cases e
    · dsimp only at e
      split at e
      · split at e
        · obtain ⟨built, e1, e2⟩ := Outcome.andThen_ok (Outcome.owning_ok e)
          cases e2; exact setCurrent_stack ..
        · cases e; rfl
      · split at e
        · split at e
          · obtain ⟨built, e1, e2⟩ := Outcome.andThen_ok (Outcome.owning_ok e)
            cases e2; exact setCurrent_stack ..
          · cases e; rfl
        · obtain ⟨b3, e1, e2⟩ := Outcome.andThen_ok (Outcome.owning_ok e)
          have h3 : b3.stack.map OngoingInlineBox.style = b.stack.map OngoingInlineBox.style := by
            rw [(endOngoing_boxes e1).2.2.1]
            simp only [List.map_map]
            rfl
          cases inside <;> (cases e2; exact h3)
theorem slotNodes_stack {C : ComputedValues → List IdNode → Outcome Built} :
    ∀ (ns : List IdNode) (cst ps : ComputedValues) (b b2 : SlotBuilder), slotNodes C cst ps ns b = .ok b2 → b2.stack.map OngoingInlineBox.style = b.stack.map OngoingInlineBox.style
  | [], cst, ps, b, b2, e => by rw [slotNodes] at e; cases e; rfl
  | n :: ns, cst, ps, b, b2, e => by
    rw [slotNodes] at e
    obtain ⟨b3, e1, e2⟩ := Outcome.andThen_ok e
    rw [slotNodes_stack ns cst ps b3 b2 e2, slotNode_stack n cst ps b b3 e1]
end

/-- Deferring does not change what is constructed, and where the direct construction fails the process aborts. -/
theorem constructSlots_agrees : ∀ (fuel : Nat) (children : List IdNode), depthAll children < fuel → SlotsAgree (constructSlots fuel) children := by
  have key : ∀ (d : Nat) (C : ComputedValues → List IdNode → Outcome Built), (∀ cs, depthAll cs < d → SlotsAgree C cs) →
      ∀ children, depthAll children ≤ d → ∀ style, match constructContainer style (forgetAll children) with
        | some r => ∃ p, ((slotNodes C style style children .new).andThen (SlotBuilder.finish C style)) = .ok ⟨r.1, r.2, p⟩
        | none => ((slotNodes C style style children .new).andThen (SlotBuilder.finish C style)) = .abort := by
    intro d C hC children hd style
    have h0 : SameOption SlotBuilder.new (some Builder.new) := ⟨⟨false, rfl, rfl⟩, rfl, rfl⟩
    have h1 := slotNodes_same hC children style style _ _ hd h0
    have hsh := fun b2 => slotNodes_shallow (C := C) (d := d) children style style SlotBuilder.new b2 hd (by intro t ht; cases ht)
    have hst := fun b2 => slotNodes_stack (C := C) children style style SlotBuilder.new b2
    have fin : ∀ b' : SlotBuilder, Shallow d b'.boxes → match tasksResult b'.boxes with
        | some r => ∃ p, finishTasks C b'.boxes = .ok (r.1, r.2, p)
        | none => finishTasks C b'.boxes = .abort :=
      fun b' hs => finishTasks_same b'.boxes fun t ht hne => hC _ (hs t ht hne)
    have shEnd : ∀ b' b2 : SlotBuilder, Shallow d b'.boxes → b'.endOngoing style = .ok b2 → Shallow d b2.boxes := by
      intro b' b2 hs e
      rcases (endOngoing_boxes e).2.2.2 with ⟨q, -⟩ | ⟨-, q⟩
      · rw [q]; exact hs
      · rw [q]; exact hs.snoc (by simp)
    simp only [Option.bind_some] at h1
    simp only [constructContainer]
    have hbad : ∀ b' : SlotBuilder, b'.stack = [] → Shallow d b'.boxes → tasksResult b'.boxes = none → b'.finish C style = .abort := by
      intro b' hstk hs hb
      have hne : b'.boxes ≠ [] := by intro e; rw [e] at hb; cases hb
      unfold SlotBuilder.finish
      have hc : (!b'.ongoing.isEmpty && b'.boxes.isEmpty) = false := by simp [hne]
      simp only [hc, Bool.false_eq_true, if_false]
      by_cases ho : b'.ongoing.isEmpty = true
      · simp only [ho, if_true]
        have := fin b' hs
        simp only [hb] at this
        simp only [Outcome.owning, Outcome.andThen, this]
      · simp only [ho, Bool.false_eq_true, if_false]
        rcases endOngoing_fails hb style with e | ⟨b2, e, hb2⟩
        · simp only [SlotBuilder.endOngoing, hstk, ho, List.isEmpty_nil, Bool.not_true, Bool.false_eq_true, if_false] at e
          cases e
        · have := fin b2 (shEnd _ _ hs e)
          simp only [hb2] at this
          simp only [e, Outcome.owning, Outcome.andThen, this]
    rcases ht : traverseNodes style style (forgetAll children) Builder.new with _ | b
    · rw [ht] at h1
      rcases h1 with h1 | ⟨b', h1, hb⟩
      · rw [h1]; rfl
      · have hs0 := hst b' h1
        rw [h1]
        exact hbad b' (by simpa [SlotBuilder.new] using hs0) (hsh b' h1) hb
    · rw [ht] at h1
      obtain ⟨b', h1, hb⟩ := h1
      have hs0 : b'.stack = [] := by simpa [SlotBuilder.new] using hst b' h1
      have hs1 := hsh b' h1
      rw [h1]
      obtain ⟨⟨f, hb1, hb2⟩, hb3, hb4⟩ := hb
      simp only [Outcome.andThen]
      unfold SlotBuilder.finish Builder.finish
      rw [hb3]
      by_cases ho : b.ongoing.isEmpty = true
      · simp only [ho, Bool.not_true, Bool.false_and, Bool.false_eq_true, if_false, if_true]
        have := fin b' hs1
        rw [hb1] at this
        obtain ⟨p, hp⟩ := this
        simp only [Outcome.owning, Outcome.andThen, hp]
        exact ⟨_, by rw [hb2]⟩
      · simp only [ho, Bool.not_false, Bool.true_and, Bool.false_eq_true, if_false]
        have hemp : b'.boxes.isEmpty = b.blockLevelBoxes.isEmpty := by
          cases hbx : b'.boxes with
          | nil =>
            rw [hbx] at hb1
            simp only [tasksResult, Option.some.injEq, Prod.mk.injEq] at hb1
            simp [← hb1.1]
          | cons t ts =>
            rw [hbx] at hb1
            simp only [tasksResult] at hb1
            split at hb1
            · simp only [Option.some.injEq, Prod.mk.injEq] at hb1
              rw [← hb1.1]; rfl
            · cases hb1
        by_cases he : b.blockLevelBoxes.isEmpty = true
        · simp only [hemp, he, if_true]
          have hf : f = false := by
            rw [he] at hemp
            rw [List.isEmpty_iff.mp hemp] at hb1
            simp only [tasksResult, Option.some.injEq, Prod.mk.injEq] at hb1
            exact hb1.2.symm
          exact ⟨_, by rw [hb2, hf, Bool.or_false]⟩
        · simp only [hemp, he, Bool.false_eq_true, if_false]
          rcases endOngoing_same (b' := b') (b := b) ⟨⟨f, hb1, hb2⟩, hb3, hb4⟩ style with ⟨-, e⟩ | ⟨b2, b2', e1, e2, hs2⟩
          · simp only [SlotBuilder.endOngoing, hs0, hb3, ho, List.isEmpty_nil, Bool.not_true, Bool.false_eq_true, if_false] at e
            cases e
          · rw [e1, e2]
            obtain ⟨f2, g1, g2⟩ := hs2.boxes
            have := fin b2' (shEnd _ _ hs1 e2)
            rw [g1] at this
            obtain ⟨p, hp⟩ := this
            simp only [Outcome.owning, Outcome.andThen, hp]
            exact ⟨_, by rw [g2]⟩
  intro fuel
  induction fuel with
  | zero => intro children hd; omega
  | succ fuel ih =>
    intro children hd style
    exact key fuel (constructSlots fuel) ih children (by omega) style

end Verif.Layout
