/- The boxes that are made of elements satisfy `Fits`. -/
import Verif.Layout.DyeBuild
import Verif.Layout.ShownBoxes
namespace Verif.Layout
open Verif.Style Verif.Text

section
variable (D : Dye)

/-- Boxes of all kinds are changed only in such a way that they are moved, if they are positioned. -/
structure Dye.Suits : Prop where
  block : ∀ s i, displayOf s = .generatingBox .block i → positionOf s ≠ .absolute → D.KeepsFlow s
  absolute : ∀ s i, displayOf s = .generatingBox .block i → positionOf s = .absolute → D.KeepsPlace s
  inline : ∀ s, displayOf s = .generatingBox .inline .flow → D.KeepsLine s
  anonymous : ∀ s, D.KeepsFlow (ComputedValues.anonymousInheritingFrom (some s))

theorem inlinesFit_append (bs cs : List InlineLevelBox) : inlinesFit D (bs ++ cs) ↔ inlinesFit D bs ∧ inlinesFit D cs := by
  induction bs with
  | nil => simp [inlinesFit]
  | cons b bs ih => simp [inlinesFit, ih, and_assoc]

theorem blocksFit_append (bs cs : List BlockLevelBox) : blocksFit D (bs ++ cs) ↔ blocksFit D bs ∧ blocksFit D cs := by
  induction bs with
  | nil => simp [blocksFit]
  | cons b bs ih => simp [blocksFit, ih, and_assoc]

/-- The boxes in a builder satisfy `Fits`. -/
structure BuilderFits (b : Builder) : Prop where
  blocks : blocksFit D b.blockLevelBoxes
  inlines : inlinesFit D b.ongoing
  stack : ∀ o ∈ b.stack, D.KeepsLine o.style ∧ inlinesFit D o.children

variable {D}

theorem BuilderFits.new : BuilderFits D Builder.new := ⟨trivial, trivial, by simp [Builder.new]⟩

theorem BuilderFits.current {b : Builder} (h : BuilderFits D b) : inlinesFit D b.current := by
  unfold Builder.current
  split
  · rename_i o rest hs
    exact (h.stack o (by simp [hs])).2
  · exact h.inlines

theorem BuilderFits.setCurrent {b : Builder} (h : BuilderFits D b) {bs : List InlineLevelBox} (h1 : inlinesFit D bs) :
    BuilderFits D (b.setCurrent bs) := by
  unfold Builder.setCurrent
  split
  · rename_i o rest hs
    refine ⟨h.blocks, h.inlines, fun o' ho' => ?_⟩
    rcases List.mem_cons.mp ho' with rfl | ho'
    · exact ⟨(h.stack o (by simp [hs])).1, h1⟩
    · exact h.stack o' (by simp [hs, ho'])
  · exact ⟨h.blocks, h1, h.stack⟩

theorem BuilderFits.push {b : Builder} (h : BuilderFits D b) {box : InlineLevelBox} (h1 : box.Fits D) : BuilderFits D (b.push box) :=
  h.setCurrent ((inlinesFit_append _ _ _).mpr ⟨h.current, h1, trivial⟩)

theorem BuilderFits.handleText {b : Builder} (h : BuilderFits D b) (t : List Nat) (ps : ComputedValues) : BuilderFits D (b.handleText t ps) := by
  rw [handleText_eq]
  split
  · exact h
  · refine h.setCurrent ?_
    have hcur := h.current
    rcases appendText_cases ps (b.added t) b.current with h1 | ⟨pre, s, u, h1, h2⟩
    · rw [h1, inlinesFit_append]
      exact ⟨hcur, trivial, trivial⟩
    · rw [h2, inlinesFit_append]
      rw [h1, inlinesFit_append] at hcur
      exact ⟨hcur.1, trivial, trivial⟩

theorem BuilderFits.endOngoing (hD : D.Suits) {b b1 : Builder} {cs : ComputedValues} (h : BuilderFits D b) (he : b.endOngoing cs = some b1) : BuilderFits D b1 := by
  unfold Builder.endOngoing at he
  split at he
  · cases he
  · split at he
    · injection he with he
      exact he ▸ h
    · injection he with he
      subst he
      exact ⟨(blocksFit_append _ _ _).mpr ⟨h.blocks, ⟨hD.anonymous _, h.inlines⟩, trivial⟩, trivial, h.stack⟩

theorem BuilderFits.finish (hD : D.Suits) {b : Builder} {cs : ComputedValues} {c : BlockContainer} {f : Bool} (h : BuilderFits D b)
    (he : b.finish cs = some (c, f)) : c.Fits D := by
  unfold Builder.finish at he
  split at he
  · simp only [Option.some.injEq, Prod.mk.injEq] at he
    obtain ⟨rfl, -⟩ := he
    exact h.blocks
  · split at he
    · simp only [Option.some.injEq, Prod.mk.injEq] at he
      obtain ⟨rfl, -⟩ := he
      exact h.inlines
    · rcases h1 : b.endOngoing cs with _ | b1
      · simp [h1] at he
      · simp only [h1, Option.some.injEq, Prod.mk.injEq] at he
        obtain ⟨rfl, -⟩ := he
        exact (h.endOngoing hD h1).blocks

theorem BuilderFits.pushBlock {b : Builder} (h : BuilderFits D b) {box : BlockLevelBox} (f : Bool) (hb : box.Fits D) :
    BuilderFits D { b with blockLevelBoxes := b.blockLevelBoxes ++ [box], containsFloats := f } :=
  ⟨(blocksFit_append _ _ _).mpr ⟨h.blocks, hb, trivial⟩, h.inlines, h.stack⟩

theorem traverse_fits (hD : D.Suits) : TraversalCases
    (fun _ _ _ b b' => SameOutside b b' ∧ (BuilderFits D b → BuilderFits D b'))
    (fun _ _ _ b b' => SameOutside b b' ∧ (BuilderFits D b → BuilderFits D b')) where
  ignored _ _ b := ⟨.refl b, id⟩
  text _ _ t b := ⟨.handleText _ _ _, fun h => h.handleText _ _⟩
  none _ _ _ _ b _ := ⟨.refl b, id⟩
  contents _ _ s _ _ _ hd h := h
  inline cs ps s ch b b1 o rest hd h hs := by
    refine ⟨traverse_shape.inline cs ps s ch b b1 o rest hd h.1 hs, fun hb => ?_⟩
    obtain ⟨rfl, -, -, h2, h3⟩ := inline_inner h.1 hs
    have hb1 := h.2 ⟨hb.blocks, hb.inlines, by simpa [inlinesFit] using ⟨hD.inline s hd, hb.stack⟩⟩
    have hb2 : BuilderFits D { b1 with stack := b.stack } := ⟨hb1.blocks, hb1.inlines, hb.stack⟩
    exact hb2.push (hb1.stack o (by simp [hs]))
  absoluteInline cs ps s ch b inner c f i h1 h2 h3 h4 h5 :=
    ⟨.setCurrent _ _, fun hb => hb.push ⟨hD.absolute _ _ h1 h2, (h3.2 .new).finish hD h4⟩⟩
  absoluteBlock cs ps s ch b inner c f i h1 h2 h3 h4 h5 :=
    ⟨traverse_shape.absoluteBlock cs ps s ch b inner c f i h1 h2 h3.1 h4 h5, fun hb =>
      hb.pushBlock _ ⟨hD.absolute _ _ h1 h2, (h3.2 .new).finish hD h4⟩⟩
  floatInline cs ps s ch b inner c f i h1 h2 h2' h3 h4 h5 :=
    ⟨traverse_shape.floatInline cs ps s ch b inner c f i h1 h2 h2' h3.1 h4 h5, fun hb =>
      BuilderFits.push (b := { b with containsFloats := true }) ⟨hb.blocks, hb.inlines, hb.stack⟩ trivial⟩
  floatBlock cs ps s ch b inner c f i h1 h2 h2' h3 h4 h5 :=
    ⟨traverse_shape.floatBlock cs ps s ch b inner c f i h1 h2 h2' h3.1 h4 h5, fun hb => hb.pushBlock _ trivial⟩
  block cs ps s ch b b1 inner c f i h1 h2 h2' h0 h3 h4 := by
    refine ⟨traverse_shape.block cs ps s ch b b1 inner c f i h1 h2 h2' h0 h3.1 h4, fun hb => ?_⟩
    have hc := (h3.2 .new).finish hD h4
    refine (hb.endOngoing hD (splitInlines_eq h0).2).pushBlock _ ?_
    cases i <;> exact ⟨hD.block _ _ h1 h2, hc⟩
  nil _ _ b := ⟨.refl b, id⟩
  cons _ _ _ _ _ _ _ h h' := ⟨h.1.trans h'.1, fun hb => h'.2 (h.2 hb)⟩

theorem constructContainer_fits (hD : D.Suits) {style : ComputedValues} {children : List StyledNode} {c : BlockContainer} {f : Bool}
    (h : constructContainer style children = some (c, f)) : c.Fits D := by
  unfold constructContainer at h
  rcases h1 : traverseNodes style style children Builder.new with _ | b
  · simp [h1] at h
  · simp only [h1] at h
    exact ((traverseNodes_induct (traverse_fits hD) _ _ _ _ _ h1).2 .new).finish hD h

theorem constructRoot_fits (hD : D.Suits) {style : ComputedValues} {children : List StyledNode} {root : BlockFormattingContext}
    (hs : if positionOf style = .absolute then D.KeepsPlace style else D.KeepsFlow style) (h : constructRoot style children = some root) : root.contents.Fits D := by
  unfold constructRoot at h
  split at h
  · cases h
    trivial
  all_goals
    split at h
    · cases h
    · rename_i c f hc
      have hc := constructContainer_fits hD hc
      split at h
      · rename_i ha
        cases h
        rw [if_pos ((isAbsolutelyPositioned_iff _).1 ha)] at hs
        exact ⟨⟨hs, hc⟩, trivial⟩
      · rename_i ha
        rw [if_neg (fun h => ha ((isAbsolutelyPositioned_iff _).2 h))] at hs
        split at h
        · cases h
          exact ⟨trivial, trivial⟩
        · cases h
          exact ⟨⟨hs, hc⟩, trivial⟩

end

end Verif.Layout
