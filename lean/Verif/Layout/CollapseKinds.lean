/- Which blocks are formatting contexts of their own. Lemmas for C106. -/
import Verif.Layout.CollapseSpec
import Verif.Layout.ShownBoxes
namespace Verif.Layout
open Verif.Style Verif.Text

mutual
/-- The blocks that are formatting contexts of their own are those of elements with `display: flow-root`. -/
def BlockContainer.Kinded : BlockContainer → Prop
  | .blockLevelBoxes boxes => blocksKinded boxes
  | .inlineFormattingContext _ => True
/-- See `BlockContainer.Kinded`. -/
def BlockLevelBox.Kinded (root : Bool) : BlockLevelBox → Prop
  | .sameFormattingContextBlock style contents => root = false ∧ isFlowRoot style = false ∧ contents.Kinded
  | .independent style _ contents => (root || isFlowRoot style) = true ∧ contents.Kinded
  | .outOfFlowAbsolutelyPositioned _ _ _ => True
  | .outOfFlowFloat _ _ _ => True
/-- See `BlockContainer.Kinded`. -/
def blocksKinded : List BlockLevelBox → Prop
  | [] => True
  | b :: bs => b.Kinded false ∧ blocksKinded bs
end

theorem blocksKinded_append (bs cs : List BlockLevelBox) : blocksKinded (bs ++ cs) ↔ blocksKinded bs ∧ blocksKinded cs := by
  induction bs with
  | nil => simp [blocksKinded]
  | cons b bs ih => simp [blocksKinded, ih, and_assoc]

theorem isFlowRoot_anonymous (s : ComputedValues) : isFlowRoot (ComputedValues.anonymousInheritingFrom (some s)) = false := by
  rfl

theorem kinded_endOngoing {b b1 : Builder} {cs : ComputedValues} (h : blocksKinded b.blockLevelBoxes) (he : b.endOngoing cs = some b1) :
    blocksKinded b1.blockLevelBoxes := by
  unfold Builder.endOngoing at he
  split at he
  · cases he
  · split at he
    · injection he with he
      exact he ▸ h
    · injection he with he
      subst he
      exact (blocksKinded_append _ _).mpr ⟨h, ⟨rfl, isFlowRoot_anonymous _, trivial⟩, trivial⟩

theorem kinded_finish {b : Builder} {cs : ComputedValues} {c : BlockContainer} {f : Bool} (h : blocksKinded b.blockLevelBoxes)
    (he : b.finish cs = some (c, f)) : c.Kinded := by
  unfold Builder.finish at he
  split at he
  · simp only [Option.some.injEq, Prod.mk.injEq] at he
    obtain ⟨rfl, -⟩ := he
    exact h
  · split at he
    · simp only [Option.some.injEq, Prod.mk.injEq] at he
      obtain ⟨rfl, -⟩ := he
      trivial
    · rcases h1 : b.endOngoing cs with _ | b1
      · simp [h1] at he
      · simp only [h1, Option.some.injEq, Prod.mk.injEq] at he
        obtain ⟨rfl, -⟩ := he
        exact kinded_endOngoing h h1

theorem kinded_setCurrent {b : Builder} (h : blocksKinded b.blockLevelBoxes) (bs : List InlineLevelBox) :
    blocksKinded (b.setCurrent bs).blockLevelBoxes := by
  unfold Builder.setCurrent
  split <;> exact h

theorem traverse_kinded : TraversalCases
    (fun _ _ _ b b' => SameOutside b b' ∧ (blocksKinded b.blockLevelBoxes → blocksKinded b'.blockLevelBoxes))
    (fun _ _ _ b b' => SameOutside b b' ∧ (blocksKinded b.blockLevelBoxes → blocksKinded b'.blockLevelBoxes)) where
  ignored _ _ b := ⟨.refl b, id⟩
  text _ _ t b := ⟨.handleText _ _ _, fun h => by
    rw [handleText_eq]
    split
    · exact h
    · exact kinded_setCurrent h _⟩
  none _ _ _ _ b _ := ⟨.refl b, id⟩
  contents _ _ s _ _ _ hd h := h
  inline cs ps s ch b b1 o rest hd h hs := by
    refine ⟨traverse_shape.inline cs ps s ch b b1 o rest hd h.1 hs, fun hb => ?_⟩
    obtain ⟨rfl, -, -, h2, h3⟩ := inline_inner h.1 hs
    exact kinded_setCurrent (b := { b1 with stack := b.stack }) (h.2 hb) _
  absoluteInline cs ps s ch b inner c f i h1 h2 h3 h4 h5 := ⟨.setCurrent _ _, fun hb => kinded_setCurrent hb _⟩
  absoluteBlock cs ps s ch b inner c f i h1 h2 h3 h4 h5 :=
    ⟨traverse_shape.absoluteBlock cs ps s ch b inner c f i h1 h2 h3.1 h4 h5, fun hb => (blocksKinded_append _ _).mpr ⟨hb, trivial, trivial⟩⟩
  floatInline cs ps s ch b inner c f i h1 h2 h2' h3 h4 h5 :=
    ⟨traverse_shape.floatInline cs ps s ch b inner c f i h1 h2 h2' h3.1 h4 h5, fun hb =>
      kinded_setCurrent (b := { b with containsFloats := true }) hb _⟩
  floatBlock cs ps s ch b inner c f i h1 h2 h2' h3 h4 h5 :=
    ⟨traverse_shape.floatBlock cs ps s ch b inner c f i h1 h2 h2' h3.1 h4 h5, fun hb => (blocksKinded_append _ _).mpr ⟨hb, trivial, trivial⟩⟩
  block cs ps s ch b b1 inner c f i h1 h2 h2' h0 h3 h4 := by
    refine ⟨traverse_shape.block cs ps s ch b b1 inner c f i h1 h2 h2' h0 h3.1 h4, fun hb => ?_⟩
    have hc : c.Kinded := kinded_finish (h3.2 trivial) h4
    refine (blocksKinded_append _ _).mpr ⟨kinded_endOngoing hb (splitInlines_eq h0).2, ?_, trivial⟩
    cases i
    · exact ⟨rfl, by simp [isFlowRoot, h1], hc⟩
    · exact ⟨by simp [isFlowRoot, h1], hc⟩
  nil _ _ b := ⟨.refl b, id⟩
  cons _ _ _ _ _ _ _ h h' := ⟨h.1.trans h'.1, fun hb => h'.2 (h.2 hb)⟩

theorem constructContainer_kinded {style : ComputedValues} {children : List StyledNode} {c : BlockContainer} {f : Bool}
    (h : constructContainer style children = some (c, f)) : c.Kinded := by
  unfold constructContainer at h
  rcases h1 : traverseNodes style style children Builder.new with _ | b
  · simp [h1] at h
  · simp only [h1] at h
    exact kinded_finish ((traverseNodes_induct traverse_kinded _ _ _ _ _ h1).2 trivial) h

/-- There is at most one box at the root. -/
theorem constructRoot_kinded {style : ComputedValues} {children : List StyledNode} {root : BlockFormattingContext}
    (h : constructRoot style children = some root) :
    root.contents = .blockLevelBoxes [] ∨ ∃ b, root.contents = .blockLevelBoxes [b] ∧ b.Kinded true := by
  unfold constructRoot at h
  split at h
  · cases h
    exact .inl rfl
  all_goals
    split at h
    · cases h
    · rename_i c f hc
      have hc := constructContainer_kinded hc
      refine .inr ?_
      split at h
      · cases h
        exact ⟨_, rfl, trivial⟩
      · split at h
        · cases h
          exact ⟨_, rfl, trivial⟩
        · cases h
          exact ⟨_, rfl, rfl, hc⟩

end Verif.Layout
