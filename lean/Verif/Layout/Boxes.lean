/- Model of the box tree: `victor/src/layout/flow/mod.rs` 16-50, `flow/inline.rs` 5-36, `flow/float.rs`, `positioned.rs` 4-32
and `layout/mod.rs` 24-57. `ReplacedContent` has no values (replaced.rs 5-7), so the variants that hold one (`Atomic`,
`IndependentFormattingContext::Replaced`) cannot exist and are left out; an independent formatting context is then a block
formatting context: block contents and whether they contain floats. -/
import Verif.Layout.Fragment
namespace Verif.Layout
open Verif.Style Verif.Text

mutual

/-- flow/mod.rs 22-26. -/
inductive BlockContainer where
  | blockLevelBoxes (boxes : List BlockLevelBox)
  | inlineFormattingContext (boxes : List InlineLevelBox)

/-- flow/mod.rs 28-40. -/
inductive BlockLevelBox where
  | sameFormattingContextBlock (style : ComputedValues) (contents : BlockContainer)
  | outOfFlowAbsolutelyPositioned (style : ComputedValues) (containsFloats : Bool) (contents : BlockContainer)
  | outOfFlowFloat (style : ComputedValues) (containsFloats : Bool) (contents : BlockContainer)
  | independent (style : ComputedValues) (containsFloats : Bool) (contents : BlockContainer)

/-- flow/inline.rs 10-36. -/
inductive InlineLevelBox where
  | inlineBox (style : ComputedValues) (firstFragment lastFragment : Bool) (children : List InlineLevelBox)
  | textRun (parentStyle : ComputedValues) (text : List Nat)
  | outOfFlowAbsolutelyPositioned (style : ComputedValues) (containsFloats : Bool) (contents : BlockContainer)
  | outOfFlowFloat (style : ComputedValues) (containsFloats : Bool) (contents : BlockContainer)

end

/-- flow/mod.rs 16-20. -/
structure BlockFormattingContext where
  contents : BlockContainer
  containsFloats : Bool

/-- positioned.rs 4-8. -/
structure AbsolutelyPositionedBox where
  style : ComputedValues
  contents : BlockFormattingContext

/-- positioned.rs 26-32. -/
inductive AbsoluteBoxOffsets where
  | staticStart (start : Rat)
  | start (start : LengthOrPercentage)
  | «end» (end_ : LengthOrPercentage)
  | both (start end_ : LengthOrPercentage)
deriving DecidableEq, Repr

/-- positioned.rs 10-24. -/
structure AbsolutelyPositionedFragment where
  box : AbsolutelyPositionedBox
  treeRank : Nat
  inlineStart : AbsoluteBoxOffsets
  inlineSize : LengthOrPercentageOrAuto
  blockStart : AbsoluteBoxOffsets
  blockSize : LengthOrPercentageOrAuto

/-- layout/mod.rs 94-98. -/
structure ContainingBlock where
  inlineSize : Rat
  blockSize : LengthOrAuto
  mode : Mode

/-- layout/mod.rs 100-103. -/
structure DefiniteContainingBlock where
  size : Vec2 Rat
  mode : Mode

/-- flow/mod.rs 42-46. -/
structure FlowChildren where
  fragments : List Fragment
  blockSize : Rat
  collapsibleMarginsInChildren : CollapsedBlockMargins

/-- layout/mod.rs 114-120. -/
def adjust : LengthOrAuto → LengthOrAuto → Rat
  | .auto, .auto => 0
  | .auto, .length e => -e
  | .length s, _ => s

/-- layout/mod.rs 106-130, `relative_adjustement`. -/
def relativeAdjustement (style : ComputedValues) (inlineSize : Rat) (blockSize : LengthOrAuto) : Vec2 Rat :=
  if (positionOf style).isRelativelyPositioned then
    let offsets := (boxOffsets style).mapInlineAndBlockAxes (autoPercentageRelativeTo · inlineSize)
      (autoPercentageRelativeTo · (blockSize.autoIs 0))
    ⟨adjust offsets.inlineStart offsets.inlineEnd, adjust offsets.blockStart offsets.blockEnd⟩
  else Vec2.zero

/-- positioned.rs 47-60. -/
def absoluteBoxOffsets (initialStaticStart : Rat) (start end_ : LengthOrPercentageOrAuto) : AbsoluteBoxOffsets :=
  match nonAuto start, nonAuto end_ with
  | none, none => .staticStart initialStaticStart
  | some s, some e => .both s e
  | none, some e => .end e
  | some s, none => .start s

/-- positioned.rs 35-81, `AbsolutelyPositionedBox::layout`. -/
def AbsolutelyPositionedBox.layout (b : AbsolutelyPositionedBox) (initialStartCorner : Vec2 Rat) (treeRank : Nat) :
    AbsolutelyPositionedFragment where
  box := b
  treeRank := treeRank
  inlineStart := absoluteBoxOffsets initialStartCorner.inline (boxOffsets b.style).inlineStart (boxOffsets b.style).inlineEnd
  inlineSize := (boxSize b.style).inline
  blockStart := absoluteBoxOffsets initialStartCorner.block (boxOffsets b.style).blockStart (boxOffsets b.style).blockEnd
  blockSize := (boxSize b.style).block

end Verif.Layout
