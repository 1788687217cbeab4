/- C39, C40: the horizontal dimensions of in-flow blocks, and absolutely positioned boxes. -/
import Verif.Layout.FlowTheorems
namespace Verif.Layout
open Verif.Style Verif.Text

/-! ### C39 -/

/-- The property `margin-left`. -/
def Css.marginLeft (s : ComputedValues) : LengthOrPercentageOrAuto := s.values .marginLeft
/-- The property `margin-right`. -/
def Css.marginRight (s : ComputedValues) : LengthOrPercentageOrAuto := s.values .marginRight
/-- The property `width`. -/
def Css.widthProperty (s : ComputedValues) : LengthOrPercentageOrAuto := s.values .width

/-- The width of the margin box: margins, borders, paddings and content. -/
def BoxInfo.marginBoxWidth (b : BoxInfo) : Rat :=
  b.margin.inlineStart + b.border.inlineStart + b.padding.inlineStart + b.contentRect.size.inline + b.padding.inlineEnd +
    b.border.inlineEnd + b.margin.inlineEnd

variable {Err : Type} {F : FontApi Rat Err} {fuel : Nat} {schedule : Oracle} {cb : ContainingBlock} {rank : Nat}
  {absolute as : Absolutes} {floats : Bool} {b : BlockLevelBox} {info : BoxInfo} {children : List Fragment}

theorem inFlow_info (hb : Css.inFlow b = true)
    (h : layoutBox F fuel schedule b cb rank absolute floats = some (.box info children, as)) :
    info.style = Css.styleOf b ∧ info.padding = (inFlowSizes cb (Css.styleOf b)).padding ∧
    info.border = (inFlowSizes cb (Css.styleOf b)).border ∧ info.margin = (inFlowSizes cb (Css.styleOf b)).margin ∧
    info.contentRect.size.inline = Css.width cb (Css.styleOf b) ∧
    info.contentRect.startCorner.inline = Css.paddingLeft cb (Css.styleOf b) + Css.borderLeft cb (Css.styleOf b) +
      (relativeAdjustement (Css.styleOf b) (Css.width cb (Css.styleOf b)) (Css.height cb (Css.styleOf b))).inline +
      (inFlowSizes cb (Css.styleOf b)).margin.inlineStart ∧ cb.mode = (.horizontalTb, .ltr) := by
  obtain ⟨as', h⟩ := layoutBox_canonical h
  cases fuel with
  | zero => simp [layoutBox] at h
  | succ fuel =>
    cases b with
    | sameFormattingContextBlock style contents =>
      simp only [layoutBox] at h
      obtain ⟨_, _, _, _, _, he, h1, h2, h3, h4, h5, h6, _, _, h7⟩ := layoutInFlow_some h
      injection he with he1 he2
      subst he1
      exact ⟨h1, h2, h3, h4, by rw [h6]; rfl, by rw [h5]; rfl, h7⟩
    | independent style f contents =>
      simp only [layoutBox] at h
      obtain ⟨_, _, _, _, _, he, h1, h2, h3, h4, h5, h6, _, _, h7⟩ := layoutInFlow_some h
      injection he with he1 he2
      subst he1
      exact ⟨h1, h2, h3, h4, by rw [h6]; rfl, by rw [h5]; rfl, h7⟩
    | outOfFlowAbsolutelyPositioned style f contents => simp [Css.inFlow] at hb
    | outOfFlowFloat style f contents => simp [Css.inFlow] at hb

/-- The used inline margins. -/
theorem inFlow_margin_inline (cb : ContainingBlock) (s : ComputedValues) :
    ((inFlowSizes cb s).margin.inlineStart, (inFlowSizes cb s).margin.inlineEnd) =
      match Css.widthProperty s, Css.marginLeft s, Css.marginRight s with
      | .auto, l, r => (Css.usedOrZero cb.inlineSize l, Css.usedOrZero cb.inlineSize r)
      | _, .auto, .auto =>
        let rest := cb.inlineSize - Css.width cb s -
          (Css.paddingLeft cb s + Css.borderLeft cb s + (Css.paddingRight cb s + Css.borderRight cb s))
        (rest / 2, rest / 2)
      | _, .auto, r =>
        (cb.inlineSize - Css.width cb s -
          (Css.paddingLeft cb s + Css.borderLeft cb s + (Css.paddingRight cb s + Css.borderRight cb s)),
          Css.usedOrZero cb.inlineSize r)
      | _, l, _ =>
        (Css.usedOrZero cb.inlineSize l, cb.inlineSize - Css.width cb s -
          (Css.paddingLeft cb s + Css.borderLeft cb s + (Css.paddingRight cb s + Css.borderRight cb s))) := by
  have hw : (boxSize s).inline = Css.widthProperty s := rfl
  have hl : (margin s).inlineStart = Css.marginLeft s := rfl
  have hr : (margin s).inlineEnd = Css.marginRight s := rfl
  have hpb : (((padding s).percentagesRelativeTo cb.inlineSize).add ((borderWidth s).percentagesRelativeTo cb.inlineSize)).inlineSum =
      Css.paddingLeft cb s + Css.borderLeft cb s + (Css.paddingRight cb s + Css.borderRight cb s) := by
    simp only [Sides.inlineSum, Sides.add, Sides.percentagesRelativeTo, Sides.map, percentageRelativeTo_eq]; rfl
  have hwidth : Css.width cb s = match Css.widthProperty s with
      | .length l => l
      | .percentage p => cb.inlineSize * p
      | .auto => Css.width cb s := by
    simp only [Css.width, Css.widthProperty]
    cases (s.values .width : LengthOrPercentageOrAuto) <;> rfl
  simp only [inFlowSizes, hw, hpb]
  cases hwp : Css.widthProperty s with
  | auto =>
    simp only [autoPercentageRelativeTo, Sides.autoIs, Sides.autoPercentagesRelativeTo, Sides.map]
    rw [hl, hr]
    cases Css.marginLeft s <;> cases Css.marginRight s <;> rfl
  | length w =>
    rw [hwp] at hwidth
    simp only [autoPercentageRelativeTo, Sides.autoIs, Sides.autoPercentagesRelativeTo, Sides.map, hl, hr, hwidth]
    cases Css.marginLeft s <;> cases Css.marginRight s <;> rfl
  | percentage p =>
    rw [hwp] at hwidth
    simp only [autoPercentageRelativeTo, Sides.autoIs, Sides.autoPercentagesRelativeTo, Sides.map, hl, hr, hwidth]
    cases Css.marginLeft s <;> cases Css.marginRight s <;> rfl

theorem Css.width_auto (cb : ContainingBlock) (s : ComputedValues) (h : Css.widthProperty s = .auto) :
    Css.width cb s = cb.inlineSize - (Css.usedOrZero cb.inlineSize (Css.marginLeft s) + borderLeft cb s + paddingLeft cb s +
      paddingRight cb s + borderRight cb s + Css.usedOrZero cb.inlineSize (Css.marginRight s)) := by
  simp only [Css.width, Css.widthProperty, Css.marginLeft, Css.marginRight] at *
  rw [h]

/-- By how much the width of the margin box differs from that of the containing block: by a left margin that is not `auto`, or
else by a right one that is not `auto`, when the width is not `auto`. -/
def Css.excess (cb : ContainingBlock) (s : ComputedValues) : Rat :=
  match Css.widthProperty s, Css.marginLeft s with
  | .auto, _ => 0
  | _, .auto => Css.usedOrZero cb.inlineSize (Css.marginRight s)
  | _, l => Css.usedOrZero cb.inlineSize l

/-- Margins, borders, paddings and width add up to the width of the containing block, plus the excess. -/
theorem C39_sum (hb : Css.inFlow b = true)
    (h : layoutBox F fuel schedule b cb rank absolute floats = some (.box info children, as)) :
    info.marginBoxWidth = cb.inlineSize + Css.excess cb (Css.styleOf b) := by
  obtain ⟨-, h2, h3, h4, h5, -, -⟩ := inFlow_info hb h
  have hm := inFlow_margin_inline cb (Css.styleOf b)
  have h6 := congrArg Prod.fst hm
  have h7 := congrArg Prod.snd hm
  simp only at h6 h7
  simp only [BoxInfo.marginBoxWidth, h2, h3, h4, h5, inFlow_padding, inFlow_border, h6, h7, Css.excess]
  cases hw : Css.widthProperty (Css.styleOf b) with
  | auto => rw [Css.width_auto cb _ hw]; simp only; ring
  | length w =>
    cases Css.marginLeft (Css.styleOf b) <;> cases Css.marginRight (Css.styleOf b) <;> simp only [Css.usedOrZero] <;> ring
  | percentage w =>
    cases Css.marginLeft (Css.styleOf b) <;> cases Css.marginRight (Css.styleOf b) <;> simp only [Css.usedOrZero] <;> ring

/-- The equation of CSS 2 section 10.3.3 holds if the width is `auto`, if both margins are `auto`, or if the left margin (the
right one, if the left one is `auto`) is zero. -/
theorem C39_equation_partial (hb : Css.inFlow b = true)
    (h : layoutBox F fuel schedule b cb rank absolute floats = some (.box info children, as))
    (hc : Css.widthProperty (Css.styleOf b) = .auto ∨
      (Css.marginLeft (Css.styleOf b) = .auto ∧ Css.usedOrZero cb.inlineSize (Css.marginRight (Css.styleOf b)) = 0) ∨
      (Css.marginLeft (Css.styleOf b) ≠ .auto ∧ Css.usedOrZero cb.inlineSize (Css.marginLeft (Css.styleOf b)) = 0)) :
    info.marginBoxWidth = cb.inlineSize := by
  rw [C39_sum hb h]
  have : Css.excess cb (Css.styleOf b) = 0 := by
    simp only [Css.excess]
    rcases hc with hc | ⟨h1, h2⟩ | ⟨h1, h2⟩
    · rw [hc]
    · rw [h1, h2]; cases Css.widthProperty (Css.styleOf b) <;> rfl
    · cases hl : Css.marginLeft (Css.styleOf b) with
      | auto => exact absurd hl h1
      | length l => rw [hl] at h2; cases Css.widthProperty (Css.styleOf b) <;> simp [h2]
      | percentage l => rw [hl] at h2; cases Css.widthProperty (Css.styleOf b) <;> simp [h2]
  rw [this, add_zero]

/-- The used values are the specified ones, but for what the equation determines: `auto` values, and the right margin when
nothing is `auto`. The border box starts after the left margin, and is moved by relative positioning. -/
theorem C39_used_values (hb : Css.inFlow b = true)
    (h : layoutBox F fuel schedule b cb rank absolute floats = some (.box info children, as)) :
    info.padding.inlineStart = Css.paddingLeft cb (Css.styleOf b) ∧ info.padding.inlineEnd = Css.paddingRight cb (Css.styleOf b) ∧
    info.border.inlineStart = Css.borderLeft cb (Css.styleOf b) ∧ info.border.inlineEnd = Css.borderRight cb (Css.styleOf b) ∧
    info.contentRect.size.inline = Css.width cb (Css.styleOf b) ∧
    (Css.marginLeft (Css.styleOf b) ≠ .auto ∨ Css.widthProperty (Css.styleOf b) = .auto →
      info.margin.inlineStart = Css.usedOrZero cb.inlineSize (Css.marginLeft (Css.styleOf b))) ∧
    (Css.marginRight (Css.styleOf b) ≠ .auto ∧ Css.marginLeft (Css.styleOf b) = .auto ∨
        Css.widthProperty (Css.styleOf b) = .auto →
      info.margin.inlineEnd = Css.usedOrZero cb.inlineSize (Css.marginRight (Css.styleOf b))) ∧
    (Css.widthProperty (Css.styleOf b) ≠ .auto → Css.marginLeft (Css.styleOf b) = .auto → Css.marginRight (Css.styleOf b) = .auto →
      info.margin.inlineStart = info.margin.inlineEnd) ∧
    (positionOf (Css.styleOf b) ≠ .relative →
      info.borderRect.startCorner.inline = info.margin.inlineStart) := by
  obtain ⟨-, h2, h3, h4, h5, h6, -⟩ := inFlow_info hb h
  have hm := inFlow_margin_inline cb (Css.styleOf b)
  have h7 := congrArg Prod.fst hm
  have h8 := congrArg Prod.snd hm
  simp only at h7 h8
  refine ⟨by rw [h2, inFlow_padding], by rw [h2, inFlow_padding], by rw [h3, inFlow_border], by rw [h3, inFlow_border], h5,
    ?_, ?_, ?_, ?_⟩
  · rw [h4, h7]
    cases Css.widthProperty (Css.styleOf b) <;> cases Css.marginLeft (Css.styleOf b) <;>
      cases Css.marginRight (Css.styleOf b) <;> simp
  · rw [h4, h8]
    cases Css.widthProperty (Css.styleOf b) <;> cases Css.marginLeft (Css.styleOf b) <;>
      cases Css.marginRight (Css.styleOf b) <;> simp
  · intro ha hl hr
    rw [h4, h7, h8, hl, hr]
    cases hw : Css.widthProperty (Css.styleOf b)
    · rfl
    · rfl
    · exact absurd hw ha
  · intro hp
    have hz : (relativeAdjustement (Css.styleOf b) (Css.width cb (Css.styleOf b)) (Css.height cb (Css.styleOf b))).inline = 0 := by
      simp only [relativeAdjustement, Position.isRelativelyPositioned, hp, decide_false, Bool.false_eq_true, if_false]; rfl
    simp only [BoxInfo.borderRect, Rect.inflate, h2, h3, h4, h6, hz, inFlow_padding, inFlow_border]; ring

/-- A block box with these values. -/
def exampleStyle2 (left right width : LengthOrPercentageOrAuto) (paddingLeft : Rat) : ComputedValues :=
  postCascadeFixups ((((((initialValues.set .display (Display.generatingBox .block .flow)).set .marginLeft left).set .marginRight
    right).set .width width).set .paddingLeft (LengthOrPercentage.length paddingLeft)))

/-- The margin box width of a block in a containing block of width 400. -/
def exampleWidth (left right width : LengthOrPercentageOrAuto) (paddingLeft : Rat) : Option Rat :=
  match layoutBox exampleFont 10 inOrder (.sameFormattingContextBlock (exampleStyle2 left right width paddingLeft)
      (.blockLevelBoxes [])) ⟨400, .auto, (.horizontalTb, .ltr)⟩ 0 [] false with
  | some (.box info _, _) => some info.marginBoxWidth
  | _ => none

/-- `margin-left: 10px; width: 100px` makes a margin box that is 10 pixels too wide. -/
theorem C39_equation_violated :
    exampleWidth (.length 10) .auto (.length 100) 0 = some 410 ∧ exampleWidth (.length 10) (.length 0) (.length 100) 0 = some 410 ∧
    exampleWidth .auto (.length 10) (.length 100) 0 = some 410 := by
  refine ⟨?_, ?_, ?_⟩ <;> decide +kernel

example : exampleWidth (.length 10) (.length 20) .auto 7 = some 400 ∧ exampleWidth .auto .auto (.percentage (1 / 2)) 7 = some 400 ∧
    exampleWidth (.length 0) (.length 20) (.length 500) 7 = some 400 := by
  refine ⟨?_, ?_, ?_⟩ <;> decide +kernel

/-! ### C40 -/

/-- One axis of an absolutely positioned box, CSS 2 sections 10.3.7 and 10.6.4. The properties are `start`, `end` (`left` and
`right`, or `top` and `bottom`), `size`, `marginStart` and `marginEnd`; the results are the distances of the start and end
margin edges from the start of the containing block, the used size and the used margins. `width` is the width of the containing
block, for percentages of margins; CSS has one `extent` of the containing block on this axis, which is used for percentages
(`basis`), to place the end edge when `start` is `auto` (`extent₁`) and when it is not (`extent₂`). -/
structure Css.AxisSolved (width basis extent₁ extent₂ staticPosition : Rat)
    (start «end» size marginStart marginEnd : LengthOrPercentageOrAuto)
    (startEdge endEdge usedSize usedMarginStart usedMarginEnd : Rat) : Prop where
  /-- Specified offsets. -/
  startOffset : start ≠ .auto → startEdge = Css.usedOrZero basis start
  endOffset : start = .auto → «end» ≠ .auto → endEdge = extent₁ - Css.usedOrZero basis «end»
  /-- Both offsets, unless nothing is left to satisfy them. -/
  bothOffsets : start ≠ .auto → «end» ≠ .auto → size = .auto ∨ marginStart = .auto ∨ marginEnd = .auto →
    endEdge = extent₂ - Css.usedOrZero basis «end»
  /-- No offset. -/
  static : start = .auto → «end» = .auto → startEdge = staticPosition
  /-- Specified size and margins. -/
  specifiedSize : size ≠ .auto → usedSize = Css.usedOrZero basis size
  specifiedMarginStart : marginStart ≠ .auto → usedMarginStart = Css.usedOrZero width marginStart
  specifiedMarginEnd : marginEnd ≠ .auto → usedMarginEnd = Css.usedOrZero width marginEnd
  /-- Margins that are `auto` are zero if something else is `auto`. -/
  zeroMargins : start = .auto ∨ «end» = .auto ∨ size = .auto →
    (marginStart = .auto → usedMarginStart = 0) ∧ (marginEnd = .auto → usedMarginEnd = 0)

/-- Two `auto` margins between definite sizes are equal. -/
def Css.EqualMargins (start «end» size marginStart marginEnd : LengthOrPercentageOrAuto) (usedMarginStart usedMarginEnd : Rat) :
    Prop :=
  start ≠ .auto → «end» ≠ .auto → size ≠ .auto → marginStart = .auto → marginEnd = .auto → usedMarginStart = usedMarginEnd

/-- On the horizontal axis, two `auto` margins are equal unless they would be negative: then the left one is zero. -/
def Css.HorizontalMargins (start «end» size marginStart marginEnd : LengthOrPercentageOrAuto) (usedMarginStart usedMarginEnd : Rat) :
    Prop :=
  start ≠ .auto → «end» ≠ .auto → size ≠ .auto → marginStart = .auto → marginEnd = .auto →
    0 ≤ usedMarginStart ∧ usedMarginStart = usedMarginEnd ∨ usedMarginEnd < 0 ∧ usedMarginStart = 0

/-- The distances of the margin edges of a box from the start of its containing block. -/
def BoxInfo.leftEdge (b : BoxInfo) : Rat :=
  b.contentRect.startCorner.inline - b.padding.inlineStart - b.border.inlineStart - b.margin.inlineStart
/-- See `leftEdge`. -/
def BoxInfo.rightEdge (b : BoxInfo) : Rat :=
  b.contentRect.startCorner.inline + b.contentRect.size.inline + b.padding.inlineEnd + b.border.inlineEnd + b.margin.inlineEnd
/-- See `leftEdge`. -/
def BoxInfo.topEdge (b : BoxInfo) : Rat :=
  b.contentRect.startCorner.block - b.padding.blockStart - b.border.blockStart - b.margin.blockStart
/-- See `leftEdge`. -/
def BoxInfo.bottomEdge (b : BoxInfo) : Rat :=
  b.contentRect.startCorner.block + b.contentRect.size.block + b.padding.blockEnd + b.border.blockEnd + b.margin.blockEnd

/-- The property `left`. -/
def Css.left (s : ComputedValues) : LengthOrPercentageOrAuto := s.values .left
/-- The property `right`. -/
def Css.right (s : ComputedValues) : LengthOrPercentageOrAuto := s.values .right
/-- The property `height`. -/
def Css.heightProperty (s : ComputedValues) : LengthOrPercentageOrAuto := s.values .height
/-- The property `margin-top`. -/
def Css.marginTopProperty (s : ComputedValues) : LengthOrPercentageOrAuto := s.values .marginTop
/-- The property `margin-bottom`. -/
def Css.marginBottomProperty (s : ComputedValues) : LengthOrPercentageOrAuto := s.values .marginBottom

/-- The horizontal axis of a box. -/
def BoxInfo.Horizontal (b : BoxInfo) (width basis extent₁ extent₂ staticPosition : Rat) : Prop :=
  Css.AxisSolved width basis extent₁ extent₂ staticPosition (Css.left b.style) (Css.right b.style) (Css.widthProperty b.style)
    (Css.marginLeft b.style) (Css.marginRight b.style) b.leftEdge b.rightEdge b.contentRect.size.inline b.margin.inlineStart
    b.margin.inlineEnd ∧
  Css.HorizontalMargins (Css.left b.style) (Css.right b.style) (Css.widthProperty b.style)
    (Css.marginLeft b.style) (Css.marginRight b.style) b.margin.inlineStart b.margin.inlineEnd

/-- The vertical axis of a box. -/
def BoxInfo.Vertical (b : BoxInfo) (width basis extent₁ extent₂ staticPosition : Rat) : Prop :=
  Css.AxisSolved width basis extent₁ extent₂ staticPosition (Css.top b.style) (Css.bottom b.style) (Css.heightProperty b.style)
    (Css.marginTopProperty b.style) (Css.marginBottomProperty b.style) b.topEdge b.bottomEdge b.contentRect.size.block
    b.margin.blockStart b.margin.blockEnd ∧
  Css.EqualMargins (Css.top b.style) (Css.bottom b.style) (Css.heightProperty b.style)
    (Css.marginTopProperty b.style) (Css.marginBottomProperty b.style) b.margin.blockStart b.margin.blockEnd

/-- `solve_axis`, followed by the choice of the content rectangle on this axis. -/
theorem solveAxis_solved (width basis extent pbStart pbEnd staticPosition auto : Rat)
    (start «end» size marginStart marginEnd : LengthOrPercentageOrAuto) (solve : Rat → Rat × Rat)
    (hsolve : ∀ m, (solve m).1 + (solve m).2 = m) (r : Anchor × LengthOrAuto × Rat × Rat)
    (hr : r = solveAxis basis (pbStart + pbEnd) (autoPercentageRelativeTo marginStart width)
      (autoPercentageRelativeTo marginEnd width) solve (absoluteBoxOffsets staticPosition start «end») size)
    (usedSize contentStart : Rat) (hsize : usedSize = r.2.1.autoIs auto)
    (hstart : contentStart = match r.1 with
      | .start s => s + pbStart + r.2.2.1
      | .end e => extent - e - pbEnd - r.2.2.2 - usedSize) :
    Css.AxisSolved width basis extent basis staticPosition start «end» size marginStart marginEnd
      (contentStart - pbStart - r.2.2.1) (contentStart + usedSize + pbEnd + r.2.2.2) usedSize r.2.2.1 r.2.2.2 := by
  subst hr
  have hs (m : Rat) : (solve m).2 = m - (solve m).1 := by linarith [hsolve m]
  cases start <;> cases «end» <;> cases size <;> cases marginStart <;> cases marginEnd <;>
    simp only [solveAxis, absoluteBoxOffsets, autoPercentageRelativeTo, percentageRelativeTo, nonAuto, LengthOrAuto.autoIs] at hsize hstart ⊢ <;>
    subst hstart hsize <;>
    constructor <;>
    simp [Css.usedOrZero, hs] <;> (try ring)

theorem solveAxis_margins (width basis pb staticPosition : Rat)
    (start «end» size marginStart marginEnd : LengthOrPercentageOrAuto) (solve : Rat → Rat × Rat)
    (h1 : start ≠ .auto) (h2 : «end» ≠ .auto) (h3 : size ≠ .auto) (h4 : marginStart = .auto) (h5 : marginEnd = .auto) :
    ∃ m, (solveAxis basis pb (autoPercentageRelativeTo marginStart width) (autoPercentageRelativeTo marginEnd width) solve
      (absoluteBoxOffsets staticPosition start «end») size).2.2 = solve m := by
  subst h4 h5
  cases start <;> cases «end» <;> cases size <;> first | contradiction | exact ⟨_, rfl⟩

/-- What the two axes of an absolutely positioned box satisfy: percentages refer to the width on both axes; the end edge is
placed from the height on both axes if only the end offset is specified, and from the width if both are. -/
theorem C40_exact {F : FontApi Rat Err} {fuel : Nat} {schedule : Oracle} {cb : DefiniteContainingBlock}
    {b : AbsolutelyPositionedBox} {corner : Vec2 Rat} {rank : Nat} {f : Fragment}
    (h : layoutAbsolute F fuel schedule cb (b.layout corner rank) = some f) :
    ∃ info children, f = .box info children ∧ info.style = b.style ∧
      info.Horizontal cb.size.inline cb.size.inline cb.size.block cb.size.inline corner.inline ∧
      info.Vertical cb.size.inline cb.size.inline cb.size.block cb.size.inline corner.block := by
  cases fuel with
  | zero => simp [layoutAbsolute] at h
  | succ fuel =>
    simp only [layoutAbsolute] at h
    split at h
    · cases h
    · split at h
      · cases h
      · rename_i children _ _
        split at h
        · cases h
        · injection h with h
          refine ⟨_, _, h.symm, rfl, ⟨?_, ?_⟩, ⟨?_, ?_⟩⟩
          · have key := solveAxis_solved cb.size.inline cb.size.inline cb.size.block
              ((absoluteSizes cb (b.layout corner rank)).padding.add (absoluteSizes cb (b.layout corner rank)).border).inlineStart
              ((absoluteSizes cb (b.layout corner rank)).padding.add (absoluteSizes cb (b.layout corner rank)).border).inlineEnd
              corner.inline
              (match (absoluteSizes cb (b.layout corner rank)).inlineAnchor with
                | .start start => cb.size.inline - start - ((absoluteSizes cb (b.layout corner rank)).padding.add
                    (absoluteSizes cb (b.layout corner rank)).border).inlineSum - (absoluteSizes cb (b.layout corner rank)).margin.inlineSum
                | .end e => cb.size.inline - e - ((absoluteSizes cb (b.layout corner rank)).padding.add
                    (absoluteSizes cb (b.layout corner rank)).border).inlineSum - (absoluteSizes cb (b.layout corner rank)).margin.inlineSum)
              (Css.left b.style) (Css.right b.style) (Css.widthProperty b.style) (Css.marginLeft b.style) (Css.marginRight b.style)
              (fun margins => if margins ≥ 0 then (margins / 2, margins / 2) else (0, margins))
              (by intro m; split <;> simp) _ rfl
              (absoluteSizes cb (b.layout corner rank)).inlineSize
              (absoluteContentRect cb (absoluteSizes cb (b.layout corner rank)) children.blockSize).startCorner.inline rfl rfl
            rw [sub_sub] at key
            simp only [BoxInfo.leftEdge, BoxInfo.rightEdge]
            have e1 (a b c d : Rat) : a - b - c - d = a - (b + c + d) := by ring
            have e2 (a b c d e : Rat) : a + b + c + d + e = a + b + (c + d) + e := by ring
            rw [e1, e2]
            exact key
          · intro h1 h2 h3 h4 h5
            obtain ⟨m, hm⟩ := solveAxis_margins cb.size.inline cb.size.inline
              ((absoluteSizes cb (b.layout corner rank)).padding.add (absoluteSizes cb (b.layout corner rank)).border).inlineSum
              corner.inline (Css.left b.style) (Css.right b.style) (Css.widthProperty b.style) (Css.marginLeft b.style)
              (Css.marginRight b.style)
              (fun margins => if margins ≥ 0 then (margins / 2, margins / 2) else (0, margins)) h1 h2 h3 h4 h5
            have hm : ((absoluteSizes cb (b.layout corner rank)).margin.inlineStart,
              (absoluteSizes cb (b.layout corner rank)).margin.inlineEnd) =
                if m ≥ 0 then (m / 2, m / 2) else (0, m) := hm
            split at hm <;> injection hm with hm1 hm2 <;> rw [hm1, hm2]
            · left; refine ⟨?_, rfl⟩; linarith
            · right; refine ⟨?_, rfl⟩; linarith
          · have key := solveAxis_solved cb.size.inline cb.size.inline cb.size.block
              ((absoluteSizes cb (b.layout corner rank)).padding.add (absoluteSizes cb (b.layout corner rank)).border).blockStart
              ((absoluteSizes cb (b.layout corner rank)).padding.add (absoluteSizes cb (b.layout corner rank)).border).blockEnd
              corner.block children.blockSize
              (Css.top b.style) (Css.bottom b.style) (Css.heightProperty b.style) (Css.marginTopProperty b.style)
              (Css.marginBottomProperty b.style) (fun margins => (margins / 2, margins / 2))
              (by intro m; simp) _ rfl
              (absoluteContentRect cb (absoluteSizes cb (b.layout corner rank)) children.blockSize).size.block
              (absoluteContentRect cb (absoluteSizes cb (b.layout corner rank)) children.blockSize).startCorner.block rfl rfl
            rw [sub_sub] at key
            simp only [BoxInfo.topEdge, BoxInfo.bottomEdge]
            have e1 (a b c d : Rat) : a - b - c - d = a - (b + c + d) := by ring
            have e2 (a b c d e : Rat) : a + b + c + d + e = a + b + (c + d) + e := by ring
            rw [e1, e2]
            exact key
          · intro h1 h2 h3 h4 h5
            obtain ⟨m, hm⟩ := solveAxis_margins cb.size.inline cb.size.inline
              ((absoluteSizes cb (b.layout corner rank)).padding.add (absoluteSizes cb (b.layout corner rank)).border).blockSum
              corner.block (Css.top b.style) (Css.bottom b.style) (Css.heightProperty b.style) (Css.marginTopProperty b.style)
              (Css.marginBottomProperty b.style) (fun margins => (margins / 2, margins / 2)) h1 h2 h3 h4 h5
            have hm : ((absoluteSizes cb (b.layout corner rank)).margin.blockStart,
              (absoluteSizes cb (b.layout corner rank)).margin.blockEnd) = (m / 2, m / 2) := hm
            injection hm with hm1 hm2
            rw [hm1, hm2]

/-- The value is not a percentage. -/
def Css.NotPercentage (x : LengthOrPercentageOrAuto) : Prop := ∀ p, x ≠ .percentage p

theorem Css.NotPercentage.used {x : LengthOrPercentageOrAuto} (h : Css.NotPercentage x) (a b : Rat) :
    Css.usedOrZero a x = Css.usedOrZero b x := by
  cases x with
  | length l => rfl
  | percentage p => exact absurd rfl (h p)
  | auto => rfl

/-- The horizontal axis is as CSS defines unless only `right` is specified, and then too if the containing block is a square. -/
theorem C40_horizontal_partial {F : FontApi Rat Err} {fuel : Nat} {schedule : Oracle} {cb : DefiniteContainingBlock}
    {b : AbsolutelyPositionedBox} {corner : Vec2 Rat} {rank : Nat} {f : Fragment}
    (h : layoutAbsolute F fuel schedule cb (b.layout corner rank) = some f)
    (hc : Css.left b.style ≠ .auto ∨ Css.right b.style = .auto ∨ cb.size.block = cb.size.inline) :
    ∃ info children, f = .box info children ∧ info.style = b.style ∧
      info.Horizontal cb.size.inline cb.size.inline cb.size.inline cb.size.inline corner.inline := by
  obtain ⟨info, children, rfl, hs, hh, -⟩ := C40_exact h
  refine ⟨info, children, rfl, hs, ?_⟩
  rcases hc with hc | hc | hc
  · obtain ⟨⟨a1, a2, a3, a4, a5, a6, a7, a8⟩, hm⟩ := hh
    exact ⟨⟨a1, fun h => absurd h (hs ▸ hc), a3, a4, a5, a6, a7, a8⟩, hm⟩
  · obtain ⟨⟨a1, a2, a3, a4, a5, a6, a7, a8⟩, hm⟩ := hh
    exact ⟨⟨a1, fun _ h => absurd (hs ▸ hc) h, a3, a4, a5, a6, a7, a8⟩, hm⟩
  · rw [hc] at hh; exact hh

/-- The vertical axis is as CSS defines if there are no percentages and the height of the containing block is not needed to find
the height or the margins of the box, and in every case if the containing block is a square. -/
theorem C40_vertical_partial {F : FontApi Rat Err} {fuel : Nat} {schedule : Oracle} {cb : DefiniteContainingBlock}
    {b : AbsolutelyPositionedBox} {corner : Vec2 Rat} {rank : Nat} {f : Fragment}
    (h : layoutAbsolute F fuel schedule cb (b.layout corner rank) = some f)
    (hc : cb.size.inline = cb.size.block ∨
      (Css.NotPercentage (Css.top b.style) ∧ Css.NotPercentage (Css.bottom b.style) ∧ Css.NotPercentage (Css.heightProperty b.style) ∧
       (Css.top b.style = .auto ∨ Css.bottom b.style = .auto ∨
        (Css.heightProperty b.style ≠ .auto ∧ Css.marginTopProperty b.style ≠ .auto ∧ Css.marginBottomProperty b.style ≠ .auto)))) :
    ∃ info children, f = .box info children ∧ info.style = b.style ∧
      info.Vertical cb.size.inline cb.size.block cb.size.block cb.size.block corner.block := by
  obtain ⟨info, children, rfl, hs, -, hv⟩ := C40_exact h
  refine ⟨info, children, rfl, hs, ?_⟩
  rw [← hs] at hc
  rcases hc with hc | ⟨c1, c2, c3, c4⟩
  · rw [hc] at hv ⊢; exact hv
  · obtain ⟨⟨a1, a2, a3, a4, a5, a6, a7, a8⟩, hm⟩ := hv
    refine ⟨⟨?_, ?_, ?_, a4, ?_, a6, a7, a8⟩, hm⟩
    · rw [c1.used _ cb.size.inline]; exact a1
    · rw [c2.used _ cb.size.inline]; exact a2
    · rintro h1 h2 (h3 | h3 | h3) <;> rcases c4 with c4 | c4 | ⟨c4, c5, c6⟩ <;> contradiction
    · rw [c3.used _ cb.size.inline]; exact a5

/-- An absolutely positioned box with these values. -/
def exampleAbsolute (top bottom left right width height : LengthOrPercentageOrAuto) : AbsolutelyPositionedBox :=
  ⟨postCascadeFixups ((((((((initialValues.set .display (Display.generatingBox .block .flow)).set .position Position.absolute).set .top
    top).set .bottom bottom).set .left left).set .right right).set .width width).set .height height), ⟨.blockLevelBoxes [], false⟩⟩

/-- The edges of an absolutely positioned box in a containing block of 400 by 300: left, right, top, bottom. -/
def exampleEdges (top bottom left right width height : LengthOrPercentageOrAuto) : Option (Rat × Rat × Rat × Rat) :=
  match layoutAbsolute exampleFont 10 inOrder ⟨⟨400, 300⟩, (.horizontalTb, .ltr)⟩
      ((exampleAbsolute top bottom left right width height).layout ⟨11, 12⟩ 0) with
  | some (.box info _) => some (info.leftEdge, info.rightEdge, info.topEdge, info.bottomEdge)
  | _ => none

/-- `right: 10px; width: 50px` puts the right edge 10 pixels from the height of the containing block instead of its width. -/
theorem C40_horizontal_violated :
    exampleEdges .auto .auto .auto (.length 10) (.length 50) (.length 20) = some (240, 290, 12, 32) := by
  decide +kernel

/-- `top: 10px; bottom: 10px` makes a box that is 10 pixels away from the width of the containing block, not from its height;
and `top: 10%` is ten percent of the width. -/
theorem C40_vertical_violated :
    exampleEdges (.length 10) (.length 10) (.length 5) .auto (.length 50) .auto = some (5, 55, 10, 390) ∧
    exampleEdges (.percentage (1 / 10)) .auto (.length 5) .auto (.length 50) (.length 20) = some (5, 55, 40, 60) := by
  constructor <;> decide +kernel

example : exampleEdges .auto (.length 30) (.length 10) (.length 20) .auto (.length 50) = some (10, 380, 220, 270) := by
  decide +kernel

/-! ### C59 -/

/-- CSS 2 section 9.4.3: how far a box is moved by relative positioning. `left` wins over `right` and `top` over `bottom`;
percentages are of the size of the containing block, and a percentage of an `auto` height is `auto`. -/
def Css.displacement (cb : ContainingBlock) (s : ComputedValues) : Vec2 Rat :=
  if positionOf s = .relative then
    ⟨if Css.left s = .auto then -Css.usedOrZero cb.inlineSize (Css.right s) else Css.usedOrZero cb.inlineSize (Css.left s),
     if Css.top s = .auto then -Css.usedOrZero (cb.blockSize.autoIs 0) (Css.bottom s)
     else Css.usedOrZero (cb.blockSize.autoIs 0) (Css.top s)⟩
  else ⟨0, 0⟩

theorem relativeAdjustement_displacement (cb : ContainingBlock) (s : ComputedValues) (w : Rat) (h : LengthOrAuto)
    (h1 : Css.NotPercentage (Css.left s)) (h2 : Css.NotPercentage (Css.right s)) (h3 : Css.NotPercentage (Css.top s))
    (h4 : Css.NotPercentage (Css.bottom s)) : relativeAdjustement s w h = Css.displacement cb s := by
  have e1 : (boxOffsets s).inlineStart = Css.left s := rfl
  have e2 : (boxOffsets s).inlineEnd = Css.right s := rfl
  have e3 : (boxOffsets s).blockStart = Css.top s := rfl
  have e4 : (boxOffsets s).blockEnd = Css.bottom s := rfl
  simp only [relativeAdjustement, Css.displacement, Position.isRelativelyPositioned, Sides.mapInlineAndBlockAxes, e1, e2, e3, e4]
  by_cases hp : positionOf s = .relative
  · simp only [hp, decide_true, if_true]
    revert h1 h2 h3 h4
    generalize Css.left s = a
    generalize Css.right s = b
    generalize Css.top s = c
    generalize Css.bottom s = d
    intro h1 h2 h3 h4
    cases a with
    | percentage p => exact absurd rfl (h1 p)
    | _ =>
      cases b with
      | percentage p => exact absurd rfl (h2 p)
      | _ =>
        cases c with
        | percentage p => exact absurd rfl (h3 p)
        | _ =>
          cases d with
          | percentage p => exact absurd rfl (h4 p)
          | _ => simp [autoPercentageRelativeTo, adjust, Css.usedOrZero]
  · simp [hp, Vec2.zero]

/-- A block box is moved from its position in normal flow as its offsets say, if they are not percentages. The position in
normal flow is, horizontally, after the left margin, and vertically that of C37, which does not depend on the offsets of any
box. -/
theorem C59_displacement_partial (hb : Css.inFlow b = true)
    (h : layoutBox F fuel schedule b cb rank absolute floats = some (.box info children, as))
    (h1 : Css.NotPercentage (Css.left (Css.styleOf b))) (h2 : Css.NotPercentage (Css.right (Css.styleOf b)))
    (h3 : Css.NotPercentage (Css.top (Css.styleOf b))) (h4 : Css.NotPercentage (Css.bottom (Css.styleOf b))) :
    info.borderRect.startCorner.inline = info.margin.inlineStart + (Css.displacement cb (Css.styleOf b)).inline ∧
    ∀ placed : BoxInfo, flowTop cb b placed =
      placed.borderRect.startCorner.block - (Css.displacement cb (Css.styleOf b)).block := by
  obtain ⟨-, e2, e3, e4, -, e6, -⟩ := inFlow_info hb h
  have hr := relativeAdjustement_displacement cb (Css.styleOf b) (Css.width cb (Css.styleOf b)) (Css.height cb (Css.styleOf b))
    h1 h2 h3 h4
  refine ⟨?_, ?_⟩
  · simp only [BoxInfo.borderRect, Rect.inflate, e2, e3, e4, e6, hr, inFlow_padding, inFlow_border]; ring
  · intro placed
    rw [flowTop, ← hr, relativeAdjustement_block]

/-- Without `position: relative` the offsets of a block box do nothing. -/
theorem C59_static (hb : Css.inFlow b = true)
    (h : layoutBox F fuel schedule b cb rank absolute floats = some (.box info children, as))
    (hp : positionOf (Css.styleOf b) ≠ .relative) :
    info.borderRect.startCorner.inline = info.margin.inlineStart ∧
    ∀ placed : BoxInfo, flowTop cb b placed = placed.borderRect.startCorner.block := by
  refine ⟨(C39_used_values hb h).2.2.2.2.2.2.2.2 hp, fun placed => ?_⟩
  have : Css.relativeShift cb (Css.styleOf b) = 0 := by
    simp only [Css.relativeShift]
  rw [flowTop, this, sub_zero]

/-- A relatively positioned box of 100 by 20, laid out in a containing block of 400 by 300: its left and top border edges. -/
def exampleRelative (top left : LengthOrPercentageOrAuto) : Option (Rat × Rat) :=
  match layoutBox exampleFont 10 inOrder (.sameFormattingContextBlock (postCascadeFixups ((((((initialValues.set .display
      (Display.generatingBox .block .flow)).set .position Position.relative).set .top top).set .left left).set .width
      (LengthOrPercentageOrAuto.length 100)).set .height (LengthOrPercentageOrAuto.length 20))) (.blockLevelBoxes []))
      ⟨400, .length 300, (.horizontalTb, .ltr)⟩ 0 [] false with
  | some (.box info _, _) => some (info.borderRect.startCorner.inline, info.borderRect.startCorner.block)
  | _ => none

/-- `left: 10%; top: 10%` moves the box by ten percent of its own size instead of ten percent of that of the containing block,
which is (40, 30). -/
theorem C59_displacement_violated :
    exampleRelative (.percentage (1 / 10)) (.percentage (1 / 10)) = some (10, 2) := by
  decide +kernel

example : exampleRelative (.length 5) (.length (-7)) = some (-7, 5) := by decide +kernel

end Verif.Layout
