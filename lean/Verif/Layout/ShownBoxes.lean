/- Which boxes out of flow are constructed, and that no text is lost in boxes if none of them floats. -/
import Verif.Layout.ShownSpec
import Verif.Layout.ConstructTotal
namespace Verif.Layout
open Verif.Style Verif.Text
variable {P : OutOfFlow → Prop}

/-- The style does not make boxes of other kinds than these. -/
def StyleOnly (P : OutOfFlow → Prop) (s : ComputedValues) : Prop := (positionOf s = .absolute → P .absolute) ∧ (floatOf s ≠ .none → P .float)

/-- An element in this style does not make boxes of other kinds than these. -/
def BoxOnly (P : OutOfFlow → Prop) (s : ComputedValues) : Prop := displayOf s = .contents ∨ StyleOnly P s

theorem inlinesOnly_append (bs cs : List InlineLevelBox) : inlinesOnly P (bs ++ cs) ↔ inlinesOnly P bs ∧ inlinesOnly P cs := by
  induction bs with
  | nil => simp [inlinesOnly]
  | cons b bs ih => simp [inlinesOnly, ih, and_assoc]

theorem blocksOnly_append (bs cs : List BlockLevelBox) : blocksOnly P (bs ++ cs) ↔ blocksOnly P bs ∧ blocksOnly P cs := by
  induction bs with
  | nil => simp [blocksOnly]
  | cons b bs ih => simp [blocksOnly, ih, and_assoc]

/-- The boxes in a builder satisfy `Only`. -/
structure BuilderOnly (P : OutOfFlow → Prop) (b : Builder) : Prop where
  blocks : blocksOnly P b.blockLevelBoxes
  inlines : inlinesOnly P b.ongoing
  stack : ∀ o ∈ b.stack, inlinesOnly P o.children

theorem BuilderOnly.new : BuilderOnly P Builder.new := ⟨trivial, trivial, by simp [Builder.new]⟩

theorem BuilderOnly.current {b : Builder} (h : BuilderOnly P b) : inlinesOnly P b.current := by
  unfold Builder.current
  split
  · rename_i o rest hs
    exact h.stack o (by simp [hs])
  · exact h.inlines

theorem BuilderOnly.setCurrent {b : Builder} (h : BuilderOnly P b) {bs : List InlineLevelBox} (h1 : inlinesOnly P bs) :
    BuilderOnly P (b.setCurrent bs) := by
  unfold Builder.setCurrent
  split
  · rename_i o rest hs
    refine ⟨h.blocks, h.inlines, fun o' ho' => ?_⟩
    rcases List.mem_cons.mp ho' with rfl | ho'
    · exact h1
    · exact h.stack o' (by simp [hs, ho'])
  · exact ⟨h.blocks, h1, h.stack⟩

theorem BuilderOnly.push {b : Builder} (h : BuilderOnly P b) {box : InlineLevelBox} (h1 : box.Only P) : BuilderOnly P (b.push box) :=
  h.setCurrent ((inlinesOnly_append _ _).mpr ⟨h.current, h1, trivial⟩)

theorem BuilderOnly.handleText {b : Builder} (h : BuilderOnly P b) (t : List Nat) (ps : ComputedValues) : BuilderOnly P (b.handleText t ps) := by
  rw [handleText_eq]
  split
  · exact h
  · refine h.setCurrent ?_
    have hcur := h.current
    rcases appendText_cases ps (b.added t) b.current with h1 | ⟨pre, s, u, h1, h2⟩
    · rw [h1, inlinesOnly_append]
      exact ⟨hcur, trivial, trivial⟩
    · rw [h2, inlinesOnly_append]
      rw [h1, inlinesOnly_append] at hcur
      exact ⟨hcur.1, trivial, trivial⟩

theorem BuilderOnly.endOngoing {b b1 : Builder} {cs : ComputedValues} (h : BuilderOnly P b) (he : b.endOngoing cs = some b1) :
    BuilderOnly P b1 := by
  unfold Builder.endOngoing at he
  split at he
  · cases he
  · split at he
    · injection he with he
      exact he ▸ h
    · injection he with he
      subst he
      exact ⟨(blocksOnly_append _ _).mpr ⟨h.blocks, h.inlines, trivial⟩, trivial, h.stack⟩

theorem BuilderOnly.finish {b : Builder} {cs : ComputedValues} {c : BlockContainer} {f : Bool} (h : BuilderOnly P b)
    (he : b.finish cs = some (c, f)) : c.Only P := by
  unfold Builder.finish at he
  split at he
  · simp only [Option.some.injEq, Prod.mk.injEq] at he
    obtain ⟨rfl, -⟩ := he
    exact h.blocks
  · split at he
    · simp only [Option.some.injEq, Prod.mk.injEq] at he
      obtain ⟨rfl, -⟩ := he
      exact h.inlines
    · rcases h1 : b.endOngoing cs with _ | b1
      · simp [h1] at he
      · simp only [h1, Option.some.injEq, Prod.mk.injEq] at he
        obtain ⟨rfl, -⟩ := he
        exact (h.endOngoing h1).blocks

theorem BuilderOnly.pushBlock {b : Builder} (h : BuilderOnly P b) {box : BlockLevelBox} (f : Bool) (hb : box.Only P) :
    BuilderOnly P { b with blockLevelBoxes := b.blockLevelBoxes ++ [box], containsFloats := f } :=
  ⟨(blocksOnly_append _ _).mpr ⟨h.blocks, hb, trivial⟩, h.inlines, h.stack⟩

theorem all_element {Q : ComputedValues → List StyledNode → Prop} {s : ComputedValues} {ch : List StyledNode}
    (h : (StyledNode.element s ch).All Q) (hd : displayOf s ≠ .none) : Q s ch ∧ nodesAll Q ch := by
  simpa only [StyledNode.All, hd, false_or] using h

theorem traverse_only : TraversalCases
    (fun _ _ n b b' => SameOutside b b' ∧ (n.All (fun s _ => BoxOnly P s) → BuilderOnly P b → BuilderOnly P b'))
    (fun _ _ ns b b' => SameOutside b b' ∧ (nodesAll (fun s _ => BoxOnly P s) ns → BuilderOnly P b → BuilderOnly P b')) where
  ignored _ _ b := ⟨.refl b, fun _ => id⟩
  text _ _ t b := ⟨.handleText _ _ _, fun _ h => h.handleText _ _⟩
  none _ _ _ _ b _ := ⟨.refl b, fun _ => id⟩
  contents _ _ s _ _ _ hd h := ⟨h.1, fun hn => h.2 (all_element hn (by rw [hd]; simp)).2⟩
  inline cs ps s ch b b1 o rest hd h hs := by
    refine ⟨traverse_shape.inline cs ps s ch b b1 o rest hd h.1 hs, fun hn hb => ?_⟩
    obtain ⟨rfl, -, -, h2, h3⟩ := inline_inner h.1 hs
    have hb1 := h.2 (all_element hn (by rw [hd]; simp)).2 ⟨hb.blocks, hb.inlines, by simpa [inlinesOnly] using hb.stack⟩
    have hb2 : BuilderOnly P { b1 with stack := b.stack } := ⟨hb1.blocks, hb1.inlines, hb.stack⟩
    exact hb2.push (hb1.stack o (by simp [hs]))
  absoluteInline cs ps s ch b inner c f i h1 h2 h3 h4 h5 :=
    ⟨.setCurrent _ _, fun hn hb => by
      obtain ⟨hc, hn⟩ := all_element hn (by rw [h1]; simp)
      have hc := hc.resolve_left (by rw [h1]; simp)
      exact hb.push ⟨hc.1 h2, (h3.2 hn .new).finish h4⟩⟩
  absoluteBlock cs ps s ch b inner c f i h1 h2 h3 h4 h5 :=
    ⟨traverse_shape.absoluteBlock cs ps s ch b inner c f i h1 h2 h3.1 h4 h5, fun hn hb => by
      obtain ⟨hc, hn⟩ := all_element hn (by rw [h1]; simp)
      have hc := hc.resolve_left (by rw [h1]; simp)
      exact hb.pushBlock _ ⟨hc.1 h2, (h3.2 hn .new).finish h4⟩⟩
  floatInline cs ps s ch b inner c f i h1 h2 h2' h3 h4 h5 :=
    ⟨traverse_shape.floatInline cs ps s ch b inner c f i h1 h2 h2' h3.1 h4 h5, fun hn hb => by
      obtain ⟨hc, hn⟩ := all_element hn (by rw [h1]; simp)
      have hc := hc.resolve_left (by rw [h1]; simp)
      exact BuilderOnly.push (b := { b with containsFloats := true }) ⟨hb.blocks, hb.inlines, hb.stack⟩
        ⟨hc.2 h2', (h3.2 hn .new).finish h4⟩⟩
  floatBlock cs ps s ch b inner c f i h1 h2 h2' h3 h4 h5 :=
    ⟨traverse_shape.floatBlock cs ps s ch b inner c f i h1 h2 h2' h3.1 h4 h5, fun hn hb => by
      obtain ⟨hc, hn⟩ := all_element hn (by rw [h1]; simp)
      have hc := hc.resolve_left (by rw [h1]; simp)
      exact hb.pushBlock _ ⟨hc.2 h2', (h3.2 hn .new).finish h4⟩⟩
  block cs ps s ch b b1 inner c f i h1 h2 h2' h0 h3 h4 := by
    refine ⟨traverse_shape.block cs ps s ch b b1 inner c f i h1 h2 h2' h0 h3.1 h4, fun hn hb => ?_⟩
    have hc := (h3.2 (all_element hn (by rw [h1]; simp)).2 .new).finish h4
    refine (hb.endOngoing (splitInlines_eq h0).2).pushBlock _ ?_
    cases i <;> exact hc
  nil _ _ b := ⟨.refl b, fun _ => id⟩
  cons _ _ _ _ _ _ _ h h' := ⟨h.1.trans h'.1, fun hn hb => h'.2 hn.2 (h.2 hn.1 hb)⟩

theorem constructContainer_only {style : ComputedValues} {children : List StyledNode} {c : BlockContainer}
    {f : Bool} (hn : nodesAll (fun s _ => BoxOnly P s) children) (h : constructContainer style children = some (c, f)) : c.Only P := by
  unfold constructContainer at h
  rcases h1 : traverseNodes style style children Builder.new with _ | b
  · simp [h1] at h
  · simp only [h1] at h
    exact ((traverseNodes_induct traverse_only _ _ _ _ _ h1).2 hn .new).finish h

theorem constructRoot_only {style : ComputedValues} {children : List StyledNode} {root : BlockFormattingContext}
    (hs : StyleOnly P style) (hn : nodesAll (fun s _ => BoxOnly P s) children) (h : constructRoot style children = some root) :
    root.contents.Only P := by
  unfold constructRoot at h
  split at h
  · cases h
    trivial
  all_goals
    split at h
    · cases h
    · rename_i c f hc
      have hc := constructContainer_only hn hc
      split at h
      · rename_i ha
        cases h
        exact ⟨⟨hs.1 ((isAbsolutelyPositioned_iff _).1 ha), hc⟩, trivial⟩
      · split at h
        · rename_i hf
          cases h
          exact ⟨⟨hs.2 ((isFloating_iff _).1 hf), hc⟩, trivial⟩
        · cases h
          exact ⟨hc, trivial⟩

/-- No floating boxes. -/
abbrev NoFloats : OutOfFlow → Prop := (· ≠ .float)

mutual
theorem BlockContainer.runs_flatten : ∀ c : BlockContainer, c.Only NoFloats → c.runs.flatten = c.styledText
  | .blockLevelBoxes boxes, h => blocksRuns_flatten boxes h
  | .inlineFormattingContext boxes, h => inlinesRuns_flatten boxes h
theorem BlockLevelBox.runs_flatten : ∀ b : BlockLevelBox, b.Only NoFloats → b.runs.flatten = b.styledText
  | .sameFormattingContextBlock _ contents, h => BlockContainer.runs_flatten contents h
  | .outOfFlowAbsolutelyPositioned _ _ contents, h => BlockContainer.runs_flatten contents h.2
  | .outOfFlowFloat _ _ _, h => absurd rfl h.1
  | .independent _ _ contents, h => BlockContainer.runs_flatten contents h
theorem blocksRuns_flatten : ∀ bs : List BlockLevelBox, blocksOnly NoFloats bs → (blocksRuns bs).flatten = blocksStyledText bs
  | [], _ => rfl
  | b :: bs, h => by rw [blocksRuns, List.flatten_append, BlockLevelBox.runs_flatten b h.1, blocksRuns_flatten bs h.2]; rfl
theorem InlineLevelBox.runs_flatten : ∀ b : InlineLevelBox, b.Only NoFloats → b.runs.flatten = b.styledText
  | .inlineBox _ _ _ children, h => inlinesRuns_flatten children h
  | .textRun _ _, _ => by simp [InlineLevelBox.runs, InlineLevelBox.styledText]
  | .outOfFlowAbsolutelyPositioned _ _ contents, h => BlockContainer.runs_flatten contents h.2
  | .outOfFlowFloat _ _ _, h => absurd rfl h.1
theorem inlinesRuns_flatten : ∀ bs : List InlineLevelBox, inlinesOnly NoFloats bs → (inlinesRuns bs).flatten = inlinesStyledText bs
  | [], _ => rfl
  | b :: bs, h => by rw [inlinesRuns, List.flatten_append, InlineLevelBox.runs_flatten b h.1, inlinesRuns_flatten bs h.2]; rfl
end

end Verif.Layout
