/- The boxes that are made of elements are of the kind that their style says. -/
import Verif.Layout.FitSpec
import Verif.Layout.DyeBuild
import Verif.Layout.ShownBoxes
import Verif.Layout.AsidePending
namespace Verif.Layout
open Verif.Style Verif.Text

/-- What holds of the styles of block boxes in flow, of absolutely positioned boxes and of inline boxes. -/
structure Kinds where
  flow : ComputedValues → Prop
  aside : ComputedValues → Prop
  line : ComputedValues → Prop

section
variable (K : Kinds)

mutual
/-- The style of each box is of its kind. -/
def BlockContainer.Sorts : BlockContainer → Prop
  | .blockLevelBoxes boxes => blocksSort boxes
  | .inlineFormattingContext boxes => inlinesSort boxes
/-- See `BlockContainer.Sorts`. -/
def BlockLevelBox.Sorts : BlockLevelBox → Prop
  | .sameFormattingContextBlock s c => K.flow s ∧ c.Sorts
  | .independent s _ c => K.flow s ∧ c.Sorts
  | .outOfFlowAbsolutelyPositioned s _ c => K.aside s ∧ c.Sorts
  | .outOfFlowFloat _ _ _ => True
/-- See `BlockContainer.Sorts`. -/
def blocksSort : List BlockLevelBox → Prop
  | [] => True
  | b :: bs => b.Sorts ∧ blocksSort bs
/-- See `BlockContainer.Sorts`. -/
def InlineLevelBox.Sorts : InlineLevelBox → Prop
  | .inlineBox s _ _ children => K.line s ∧ inlinesSort children
  | .textRun _ _ => True
  | .outOfFlowAbsolutelyPositioned s _ c => K.aside s ∧ c.Sorts
  | .outOfFlowFloat _ _ _ => True
/-- See `BlockContainer.Sorts`. -/
def inlinesSort : List InlineLevelBox → Prop
  | [] => True
  | b :: bs => b.Sorts ∧ inlinesSort bs
end

/-- The kinds are those that boxes are sorted by. -/
structure Kinds.Holds : Prop where
  block : ∀ s i, displayOf s = .generatingBox .block i → positionOf s ≠ .absolute → K.flow s
  absolute : ∀ s i, displayOf s = .generatingBox .block i → positionOf s = .absolute → K.aside s
  inline : ∀ s, displayOf s = .generatingBox .inline .flow → K.line s
  anonymous : ∀ s, K.flow (ComputedValues.anonymousInheritingFrom (some s))

theorem inlinesSort_append (bs cs : List InlineLevelBox) : inlinesSort K (bs ++ cs) ↔ inlinesSort K bs ∧ inlinesSort K cs := by
  induction bs with
  | nil => simp [inlinesSort]
  | cons b bs ih => simp [inlinesSort, ih, and_assoc]

theorem blocksSort_append (bs cs : List BlockLevelBox) : blocksSort K (bs ++ cs) ↔ blocksSort K bs ∧ blocksSort K cs := by
  induction bs with
  | nil => simp [blocksSort]
  | cons b bs ih => simp [blocksSort, ih, and_assoc]

/-- The boxes in a builder satisfy `Sorts`. -/
structure BuilderSorts (b : Builder) : Prop where
  blocks : blocksSort K b.blockLevelBoxes
  inlines : inlinesSort K b.ongoing
  stack : ∀ o ∈ b.stack, K.line o.style ∧ inlinesSort K o.children

variable {K}

theorem BuilderSorts.new : BuilderSorts K Builder.new := ⟨trivial, trivial, by simp [Builder.new]⟩

theorem BuilderSorts.current {b : Builder} (h : BuilderSorts K b) : inlinesSort K b.current := by
  unfold Builder.current
  split
  · rename_i o rest hs
    exact (h.stack o (by simp [hs])).2
  · exact h.inlines

theorem BuilderSorts.setCurrent {b : Builder} (h : BuilderSorts K b) {bs : List InlineLevelBox} (h1 : inlinesSort K bs) :
    BuilderSorts K (b.setCurrent bs) := by
  unfold Builder.setCurrent
  split
  · rename_i o rest hs
    refine ⟨h.blocks, h.inlines, fun o' ho' => ?_⟩
    rcases List.mem_cons.mp ho' with rfl | ho'
    · exact ⟨(h.stack o (by simp [hs])).1, h1⟩
    · exact h.stack o' (by simp [hs, ho'])
  · exact ⟨h.blocks, h1, h.stack⟩

theorem BuilderSorts.push {b : Builder} (h : BuilderSorts K b) {box : InlineLevelBox} (h1 : box.Sorts K) : BuilderSorts K (b.push box) :=
  h.setCurrent ((inlinesSort_append _ _ _).mpr ⟨h.current, h1, trivial⟩)

theorem BuilderSorts.handleText {b : Builder} (h : BuilderSorts K b) (t : List Nat) (ps : ComputedValues) : BuilderSorts K (b.handleText t ps) := by
  rw [handleText_eq]
  split
  · exact h
  · refine h.setCurrent ?_
    have hcur := h.current
    rcases appendText_cases ps (b.added t) b.current with h1 | ⟨pre, s, u, h1, h2⟩
    · rw [h1, inlinesSort_append]
      exact ⟨hcur, trivial, trivial⟩
    · rw [h2, inlinesSort_append]
      rw [h1, inlinesSort_append] at hcur
      exact ⟨hcur.1, trivial, trivial⟩

theorem BuilderSorts.endOngoing (hD : K.Holds) {b b1 : Builder} {cs : ComputedValues} (h : BuilderSorts K b) (he : b.endOngoing cs = some b1) : BuilderSorts K b1 := by
  unfold Builder.endOngoing at he
  split at he
  · cases he
  · split at he
    · injection he with he
      exact he ▸ h
    · injection he with he
      subst he
      exact ⟨(blocksSort_append _ _ _).mpr ⟨h.blocks, ⟨hD.anonymous _, h.inlines⟩, trivial⟩, trivial, h.stack⟩

theorem BuilderSorts.finish (hD : K.Holds) {b : Builder} {cs : ComputedValues} {c : BlockContainer} {f : Bool} (h : BuilderSorts K b)
    (he : b.finish cs = some (c, f)) : c.Sorts K := by
  unfold Builder.finish at he
  split at he
  · simp only [Option.some.injEq, Prod.mk.injEq] at he
    obtain ⟨rfl, -⟩ := he
    exact h.blocks
  · split at he
    · simp only [Option.some.injEq, Prod.mk.injEq] at he
      obtain ⟨rfl, -⟩ := he
      exact h.inlines
    · rcases h1 : b.endOngoing cs with _ | b1
      · simp [h1] at he
      · simp only [h1, Option.some.injEq, Prod.mk.injEq] at he
        obtain ⟨rfl, -⟩ := he
        exact (h.endOngoing hD h1).blocks

theorem BuilderSorts.pushBlock {b : Builder} (h : BuilderSorts K b) {box : BlockLevelBox} (f : Bool) (hb : box.Sorts K) :
    BuilderSorts K { b with blockLevelBoxes := b.blockLevelBoxes ++ [box], containsFloats := f } :=
  ⟨(blocksSort_append _ _ _).mpr ⟨h.blocks, hb, trivial⟩, h.inlines, h.stack⟩

theorem traverse_sorts (hD : K.Holds) : TraversalCases
    (fun _ _ _ b b' => SameOutside b b' ∧ (BuilderSorts K b → BuilderSorts K b'))
    (fun _ _ _ b b' => SameOutside b b' ∧ (BuilderSorts K b → BuilderSorts K b')) where
  ignored _ _ b := ⟨.refl b, id⟩
  text _ _ t b := ⟨.handleText _ _ _, fun h => h.handleText _ _⟩
  none _ _ _ _ b _ := ⟨.refl b, id⟩
  contents _ _ s _ _ _ hd h := h
  inline cs ps s ch b b1 o rest hd h hs := by
    refine ⟨traverse_shape.inline cs ps s ch b b1 o rest hd h.1 hs, fun hb => ?_⟩
    obtain ⟨rfl, -, -, h2, h3⟩ := inline_inner h.1 hs
    have hb1 := h.2 ⟨hb.blocks, hb.inlines, by simpa [inlinesSort] using ⟨hD.inline s hd, hb.stack⟩⟩
    have hb2 : BuilderSorts K { b1 with stack := b.stack } := ⟨hb1.blocks, hb1.inlines, hb.stack⟩
    exact hb2.push (hb1.stack o (by simp [hs]))
  absoluteInline cs ps s ch b inner c f i h1 h2 h3 h4 h5 :=
    ⟨.setCurrent _ _, fun hb => hb.push ⟨hD.absolute _ _ h1 h2, (h3.2 .new).finish hD h4⟩⟩
  absoluteBlock cs ps s ch b inner c f i h1 h2 h3 h4 h5 :=
    ⟨traverse_shape.absoluteBlock cs ps s ch b inner c f i h1 h2 h3.1 h4 h5, fun hb =>
      hb.pushBlock _ ⟨hD.absolute _ _ h1 h2, (h3.2 .new).finish hD h4⟩⟩
  floatInline cs ps s ch b inner c f i h1 h2 h2' h3 h4 h5 :=
    ⟨traverse_shape.floatInline cs ps s ch b inner c f i h1 h2 h2' h3.1 h4 h5, fun hb =>
      BuilderSorts.push (b := { b with containsFloats := true }) ⟨hb.blocks, hb.inlines, hb.stack⟩ trivial⟩
  floatBlock cs ps s ch b inner c f i h1 h2 h2' h3 h4 h5 :=
    ⟨traverse_shape.floatBlock cs ps s ch b inner c f i h1 h2 h2' h3.1 h4 h5, fun hb => hb.pushBlock _ trivial⟩
  block cs ps s ch b b1 inner c f i h1 h2 h2' h0 h3 h4 := by
    refine ⟨traverse_shape.block cs ps s ch b b1 inner c f i h1 h2 h2' h0 h3.1 h4, fun hb => ?_⟩
    have hc := (h3.2 .new).finish hD h4
    refine (hb.endOngoing hD (splitInlines_eq h0).2).pushBlock _ ?_
    cases i <;> exact ⟨hD.block _ _ h1 h2, hc⟩
  nil _ _ b := ⟨.refl b, id⟩
  cons _ _ _ _ _ _ _ h h' := ⟨h.1.trans h'.1, fun hb => h'.2 (h.2 hb)⟩

theorem constructContainer_sorts (hD : K.Holds) {style : ComputedValues} {children : List StyledNode} {c : BlockContainer} {f : Bool}
    (h : constructContainer style children = some (c, f)) : c.Sorts K := by
  unfold constructContainer at h
  rcases h1 : traverseNodes style style children Builder.new with _ | b
  · simp [h1] at h
  · simp only [h1] at h
    exact ((traverseNodes_induct (traverse_sorts hD) _ _ _ _ _ h1).2 .new).finish hD h

theorem constructRoot_sorts (hD : K.Holds) {style : ComputedValues} {children : List StyledNode} {root : BlockFormattingContext}
    (hs : if positionOf style = .absolute then K.aside style else K.flow style) (h : constructRoot style children = some root) : root.contents.Sorts K := by
  unfold constructRoot at h
  split at h
  · cases h
    trivial
  all_goals
    split at h
    · cases h
    · rename_i c f hc
      have hc := constructContainer_sorts hD hc
      split at h
      · rename_i ha
        cases h
        rw [if_pos ((isAbsolutelyPositioned_iff _).1 ha)] at hs
        exact ⟨⟨hs, hc⟩, trivial⟩
      · rename_i ha
        rw [if_neg (fun h => ha ((isAbsolutelyPositioned_iff _).2 h))] at hs
        split at h
        · cases h
          exact ⟨trivial, trivial⟩
        · cases h
          exact ⟨⟨hs, hc⟩, trivial⟩

end

end Verif.Layout
