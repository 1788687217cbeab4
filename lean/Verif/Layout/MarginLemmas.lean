/- The margins that block layout computes are those of the specification. -/
import Verif.Layout.FlowLemmas
import Verif.Layout.FlowSpec
import Verif.Layout.FragmentTheorems
import Mathlib.Tactic.Linarith
import Mathlib.Tactic.Ring
import Mathlib.Data.Rat.Cast.Order
namespace Verif.Layout
open Verif.Style Verif.Text

/-! ### Sizes -/

theorem percentageRelativeTo_eq (v : LengthOrPercentage) (b : Rat) : percentageRelativeTo v b = Css.used b v := by
  cases v <;> rfl

theorem autoPercentage_autoIs (v : LengthOrPercentageOrAuto) (b : Rat) :
    (autoPercentageRelativeTo v b).autoIs 0 = Css.usedOrZero b v := by
  cases v <;> rfl

theorem inFlow_padding (cb : ContainingBlock) (s : ComputedValues) :
    (inFlowSizes cb s).padding =
      { inlineStart := Css.paddingLeft cb s, inlineEnd := Css.paddingRight cb s,
        blockStart := Css.paddingTop cb s, blockEnd := Css.paddingBottom cb s } := by
  simp only [inFlowSizes, Sides.percentagesRelativeTo, Sides.map, percentageRelativeTo_eq]
  rfl

theorem inFlow_border (cb : ContainingBlock) (s : ComputedValues) :
    (inFlowSizes cb s).border =
      { inlineStart := Css.borderLeft cb s, inlineEnd := Css.borderRight cb s,
        blockStart := Css.borderTop cb s, blockEnd := Css.borderBottom cb s } := by
  simp only [inFlowSizes, Sides.percentagesRelativeTo, Sides.map, percentageRelativeTo_eq]
  rfl

theorem inFlow_margin_block (cb : ContainingBlock) (s : ComputedValues) :
    (inFlowSizes cb s).margin.blockStart = Css.marginTop cb s ∧ (inFlowSizes cb s).margin.blockEnd = Css.marginBottom cb s := by
  simp only [inFlowSizes]
  cases autoPercentageRelativeTo (boxSize s).inline cb.inlineSize <;>
    simp only [Sides.autoIs, Sides.autoPercentagesRelativeTo, Sides.map, autoPercentage_autoIs] <;> exact ⟨rfl, rfl⟩

theorem inFlow_width (cb : ContainingBlock) (s : ComputedValues) : (inFlowSizes cb s).inlineSize = Css.width cb s := by
  have hw : (boxSize s).inline = (s.values .width : LengthOrPercentageOrAuto) := rfl
  simp only [inFlowSizes, Css.width, hw]
  cases h : (s.values .width : LengthOrPercentageOrAuto) with
  | length l => simp [autoPercentageRelativeTo, LengthOrAuto.autoIs]
  | percentage p => simp [autoPercentageRelativeTo, LengthOrAuto.autoIs]
  | auto =>
    simp only [autoPercentageRelativeTo, LengthOrAuto.autoIs, Sides.inlineSum, Sides.add, Sides.autoIs,
      Sides.autoPercentagesRelativeTo, Sides.percentagesRelativeTo, Sides.map, percentageRelativeTo_eq]
    have h1 := autoPercentage_autoIs (margin s).inlineStart cb.inlineSize
    have h2 := autoPercentage_autoIs (margin s).inlineEnd cb.inlineSize
    simp only [LengthOrAuto.autoIs, autoPercentageRelativeTo] at h1 h2
    simp only [h1, h2]
    show cb.inlineSize - (Css.paddingLeft cb s + Css.borderLeft cb s + (Css.paddingRight cb s + Css.borderRight cb s)) -
      (Css.usedOrZero cb.inlineSize (s.values .marginLeft) + Css.usedOrZero cb.inlineSize (s.values .marginRight)) = _
    ring

theorem inFlow_height (cb : ContainingBlock) (s : ComputedValues) : (inFlowSizes cb s).blockSize = Css.height cb s := by
  show usedBlockSize (s.values .height : LengthOrPercentageOrAuto) cb.blockSize = _
  simp only [Css.height]
  cases (s.values .height : LengthOrPercentageOrAuto) <;> cases cb.blockSize <;> rfl

theorem inFlow_inner (cb : ContainingBlock) (s : ComputedValues) :
    (⟨(inFlowSizes cb s).inlineSize, (inFlowSizes cb s).blockSize, writingMode s⟩ : ContainingBlock) = Css.inner cb s := by
  rw [inFlow_width, inFlow_height]; rfl

theorem relativeAdjustement_block (cb : ContainingBlock) (s : ComputedValues) :
    (relativeAdjustement s (Css.width cb s) (Css.height cb s)).block = Css.relativeShift cb s := by
  simp only [relativeAdjustement, Css.relativeShift]
  cases hp : positionOf s with
  | relative =>
    have ht : (boxOffsets s).blockStart = Css.top s := rfl
    have hb : (boxOffsets s).blockEnd = Css.bottom s := rfl
    simp only [Position.isRelativelyPositioned, decide_true, if_true, Sides.mapInlineAndBlockAxes, ht, hb]
    cases Css.top s <;> cases Css.bottom s <;> rfl
  | static => simp [Vec2.zero, Position.isRelativelyPositioned]
  | absolute => simp [Vec2.zero, Position.isRelativelyPositioned]

/-! ### Lists -/

namespace Css
theorem throughAll_append (cb : ContainingBlock) (bs bs' : List BlockLevelBox) :
    throughAll cb (bs ++ bs') = (throughAll cb bs && throughAll cb bs') := by
  induction bs with
  | nil => simp [throughAll]
  | cons b bs ih => simp [throughAll, ih, Bool.and_assoc]

theorem leading_append (cb : ContainingBlock) (bs bs' : List BlockLevelBox) :
    leading cb (bs ++ bs') = if throughAll cb bs then leading cb bs ++ leading cb bs' else leading cb bs := by
  induction bs with
  | nil => simp [leading, throughAll]
  | cons a bs ih =>
    simp only [List.cons_append, leading, ih, throughAll]
    by_cases h1 : through cb a = true <;> by_cases h2 : throughAll cb bs = true <;> simp [h1, h2]

/-- If all the boxes are collapsed through, all their margins are both at the start and at the end. -/
theorem trailing_of_through (cb : ContainingBlock) (bs : List BlockLevelBox) (h : throughAll cb bs = true) :
    trailing cb bs = leading cb bs := by
  cases bs with
  | nil => rfl
  | cons b bs =>
    simp only [throughAll, Bool.and_eq_true] at h
    simp [trailing, leading, h.1, h.2]

theorem trailing_snoc (cb : ContainingBlock) (bs : List BlockLevelBox) (b : BlockLevelBox) :
    trailing cb (bs ++ [b]) =
      if through cb b then trailing cb bs ++ (startMargins cb b ++ endMargins cb b) else endMargins cb b := by
  induction bs with
  | nil => cases h : through cb b <;> simp [trailing, throughAll, leading, h]
  | cons a bs ih =>
    simp only [List.cons_append, trailing, ih, throughAll_append, throughAll, leading_append, leading]
    by_cases h1 : through cb b = true <;> by_cases h2 : throughAll cb bs = true <;> by_cases h3 : through cb a = true <;>
      simp [h1, h2, h3]

/-- The margins after a box that is not collapsed through. -/
theorem trailing_of_solid (cb : ContainingBlock) (pre mid : List BlockLevelBox) (x : BlockLevelBox)
    (hx : through cb x = false) (hm : throughAll cb mid = true) :
    trailing cb (pre ++ x :: mid) = endMargins cb x ++ leading cb mid := by
  induction pre with
  | nil => simp [trailing, hm, hx]
  | cons a pre ih => simp [trailing, throughAll_append, throughAll, hx, ih]
end Css

/-! ### One box -/

/-- What the layout of a block-level box gives, before it is placed. -/
def Unplaced (cb : ContainingBlock) (b : BlockLevelBox) (f : Fragment) : Prop :=
  if Css.inFlow b then
    ∃ info children, f = .box info children ∧
      info.padding.blockStart = Css.paddingTop cb (Css.styleOf b) ∧
      info.border.blockStart = Css.borderTop cb (Css.styleOf b) ∧
      info.contentRect.startCorner.block =
        Css.paddingTop cb (Css.styleOf b) + Css.borderTop cb (Css.styleOf b) + Css.relativeShift cb (Css.styleOf b) ∧
      info.blockMarginsCollapsedWithChildren.collapsedThrough = Css.through cb b ∧
      info.blockMarginsCollapsedWithChildren.start.Of (Css.startMargins cb b) ∧
      info.blockMarginsCollapsedWithChildren.end.Of (Css.endMargins cb b)
  else f = .noOp cb.mode

/-- What the layout of the contents of a box gives. -/
def ContentMargins (cb : ContainingBlock) (c : BlockContainer) (collapsible : Bool) (m : CollapsedBlockMargins) : Prop :=
  m.collapsedThrough = (collapsible && Css.throughContents cb c) ∧
  m.start.Of (if collapsible then Css.leadingContents cb c else []) ∧
  m.end.Of (if collapsible && Css.throughContents cb c then [] else Css.trailingContents cb c)

theorem CollapsedMargin.Of.nil_append {c : CollapsedMargin} {l : List Rat} (h : c.Of ([] ++ l)) : c.Of l := h

theorem CollapsedMargin.of_nil {c : CollapsedMargin} (h : c.Of []) : c = .zero := by
  have h1 := h.1.unique CollapsedMargin.of_zero.1
  have h2 := h.2.unique CollapsedMargin.of_zero.2
  cases c; simp_all [CollapsedMargin.zero]

/-! ### Placement -/

/-- The state after the boxes `pre`. -/
structure PlacedBefore (cb : ContainingBlock) (collapsible : Bool) (pre : List BlockLevelBox) (s : PlacementState) : Prop where
  flag : s.nextInFlowMarginCollapsesWithParentStartMargin = (collapsible && Css.throughAll cb pre)
  start : s.startMargin.Of (if collapsible then Css.leading cb pre else [])
  current : s.currentMargin.Of (if collapsible && Css.throughAll cb pre then [] else Css.trailing cb pre)
  position : Css.throughAll cb pre = true → s.currentBlockDirectionPosition = 0

theorem placedBefore_initial (cb : ContainingBlock) (collapsible : Bool) :
    PlacedBefore cb collapsible [] (.initial collapsible) := by
  refine ⟨?_, ?_, ?_, fun _ => rfl⟩
  · simp [PlacementState.initial, Css.throughAll]
  · cases collapsible <;> simp [PlacementState.initial, Css.leading, CollapsedMargin.of_zero]
  · cases collapsible <;> simp [PlacementState.initial, Css.trailing, CollapsedMargin.of_zero]

theorem solve_zero : CollapsedMargin.zero.solve = 0 := by decide +kernel

/-- One step of the placement. The fragment of an in-flow box is moved by some distance `d`, and nothing else of it changes. -/
theorem place_step {cb : ContainingBlock} {collapsible : Bool} {pre : List BlockLevelBox} {s s' : PlacementState}
    {b : BlockLevelBox} {f f' : Fragment} (hs : PlacedBefore cb collapsible pre s) (hf : Unplaced cb b f)
    (hp : placeFragment s f = some (f', s')) :
    PlacedBefore cb collapsible (pre ++ [b]) s' ∧
    (Css.inFlow b = false → f' = .anonymous ⟨⟨0, s.currentBlockDirectionPosition⟩, Vec2.zero⟩ [] cb.mode ∧ s' = s) ∧
    (Css.inFlow b = true → ∃ info children d, f = .box info children ∧ f' = .box (info.moveBlock d) children ∧
      (if collapsible && Css.throughAll cb pre then d = 0
       else CollapseTo (Css.trailing cb pre ++ Css.startMargins cb b) (d - s.currentBlockDirectionPosition)) ∧
      s'.currentBlockDirectionPosition = if Css.through cb b then s.currentBlockDirectionPosition else d + info.borderBlockSize) := by
  by_cases hin : Css.inFlow b = true
  · simp only [Unplaced, hin, if_true] at hf
    obtain ⟨info, children, rfl, -, -, -, hthrough, hstart, hend⟩ := hf
    simp only [placeFragment] at hp
    cases hflag : s.nextInFlowMarginCollapsesWithParentStartMargin with
    | true =>
      have hc := hs.flag
      rw [hflag] at hc
      obtain ⟨hcoll, hpre⟩ := Bool.and_eq_true_iff.mp hc.symm
      have hcur := hs.current
      simp only [hcoll, hpre, Bool.and_true, if_true] at hcur
      have hzero := CollapsedMargin.of_nil hcur
      have hpos := hs.position hpre
      have hst := hs.start
      simp only [hcoll, if_true] at hst
      simp only [hflag, if_true, hzero, solve_zero, hthrough, hpos] at hp
      cases hth : Css.through cb b with
      | true =>
        simp only [hth, if_true, Option.some.injEq, Prod.mk.injEq] at hp
        obtain ⟨rfl, rfl⟩ := hp
        refine ⟨⟨?_, ?_, ?_, ?_⟩, fun h => absurd h (by simp [hin]), fun _ => ⟨info, children, 0, rfl, ?_, ?_, ?_⟩⟩
        · simp [hcoll, Css.throughAll_append, Css.throughAll, hpre, hth]
        · simp only [hcoll, if_true, Css.leading_append, hpre, Css.leading, hth, List.append_nil]
          have := (hst.adjoin hstart).adjoin hend
          simpa [List.append_assoc] using this
        · simp [hcoll, Css.throughAll_append, Css.throughAll, hpre, hth, CollapsedMargin.of_zero]
        · intro _; rfl
        · simp [BoxInfo.moveBlock]
        · simp [hcoll, hpre]
        · simp [hpos]
      | false =>
        simp only [hth, Bool.false_eq_true, if_false, Option.some.injEq, Prod.mk.injEq] at hp
        obtain ⟨rfl, rfl⟩ := hp
        refine ⟨⟨?_, ?_, ?_, ?_⟩, fun h => absurd h (by simp [hin]), fun _ => ⟨info, children, _, rfl, rfl, ?_, ?_⟩⟩
        · simp [Css.throughAll_append, Css.throughAll, hth]
        · simp only [hcoll, if_true, Css.leading_append, hpre, Css.leading, hth, Bool.false_eq_true, if_false, List.append_nil]
          exact hst.adjoin hstart
        · simpa [Css.throughAll_append, Css.throughAll, hth, Css.trailing_snoc] using hend
        · simp [Css.throughAll_append, Css.throughAll, hth]
        · simp [hcoll, hpre]
        · simp
    | false =>
      have hc := hs.flag
      rw [hflag] at hc
      have hcur := hs.current
      simp only [← hc, Bool.false_eq_true, if_false] at hcur
      have hst := hs.start
      simp only [hflag, Bool.false_eq_true, if_false, hthrough] at hp
      have hnew := hcur.adjoin hstart
      have hc' : ∀ x : Bool, (collapsible && (Css.throughAll cb pre && x)) = false := by
        intro x; rw [← Bool.and_assoc, ← hc]; rfl
      have hlead : (if collapsible then Css.leading cb (pre ++ [b]) else []) = if collapsible then Css.leading cb pre else [] := by
        cases hcoll : collapsible with
        | false => rfl
        | true =>
          have : Css.throughAll cb pre = false := by simpa [hcoll] using hc.symm
          simp [Css.leading_append, this]
      cases hth : Css.through cb b with
      | true =>
        simp only [hth, if_true, Option.some.injEq, Prod.mk.injEq] at hp
        obtain ⟨rfl, rfl⟩ := hp
        refine ⟨⟨?_, ?_, ?_, ?_⟩, fun h => absurd h (by simp [hin]), fun _ => ⟨info, children, _, rfl, rfl, ?_, ?_⟩⟩
        · simp [Css.throughAll_append, hc']
        · rw [hlead]; exact hst
        · simp only [Css.throughAll_append, hc', Bool.false_eq_true, if_false, Css.trailing_snoc, hth, if_true]
          have := hnew.adjoin hend
          simpa [List.append_assoc] using this
        · intro h
          simp only [Css.throughAll_append, Bool.and_eq_true] at h
          exact hs.position h.1
        · simp only [← hc, Bool.false_eq_true, if_false]
          have := hnew.solve
          simpa using this
        · simp
      | false =>
        simp only [hth, Bool.false_eq_true, if_false, Option.some.injEq, Prod.mk.injEq] at hp
        obtain ⟨rfl, rfl⟩ := hp
        refine ⟨⟨?_, ?_, ?_, ?_⟩, fun h => absurd h (by simp [hin]), fun _ => ⟨info, children, _, rfl, rfl, ?_, ?_⟩⟩
        · simp [Css.throughAll_append, hc']
        · rw [hlead]; exact hst
        · simpa [Css.throughAll_append, Css.throughAll, hth, Css.trailing_snoc] using hend
        · simp [Css.throughAll_append, Css.throughAll, hth]
        · simp only [← hc, Bool.false_eq_true, if_false]
          have := hnew.solve
          simpa using this
        · simp only [Bool.false_eq_true, if_false]; ring
  · have hin' : Css.inFlow b = false := by simpa using hin
    simp only [Unplaced, hin', Bool.false_eq_true, if_false] at hf
    subst hf
    have hz : Rect.zero.size.block = 0 := rfl
    simp only [Fragment.noOp, placeFragment, List.isEmpty_nil, hz, and_self, if_true, Option.some.injEq, Prod.mk.injEq] at hp
    obtain ⟨rfl, rfl⟩ := hp
    have hth : Css.through cb b = true := by cases b <;> simp_all [Css.inFlow, Css.through]
    have h1 : Css.startMargins cb b = [] := by cases b <;> simp_all [Css.inFlow, Css.startMargins]
    have h2 : Css.endMargins cb b = [] := by cases b <;> simp_all [Css.inFlow, Css.endMargins]
    refine ⟨⟨?_, ?_, ?_, ?_⟩, fun _ => ⟨?_, rfl⟩, fun h => absurd h hin⟩
    · simp [hs.flag, Css.throughAll_append, Css.throughAll, hth]
    · have := hs.start
      simp only [Css.leading_append, Css.leading, h1, h2, hth]
      simpa using this
    · have := hs.current
      simpa [Css.throughAll_append, Css.throughAll, hth, Css.trailing_snoc, h1, h2] using this
    · simpa [Css.throughAll_append, Css.throughAll, hth] using hs.position
    · simp [Rect.zero, Vec2.zero]

end Verif.Layout
