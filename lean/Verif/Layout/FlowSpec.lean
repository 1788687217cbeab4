/- Block layout as CSS 2 describes it (sections 8.3.1, 9.4.1, 10.3.3 and 10.6.3), in terms of the box tree and of the computed
values only. The writing mode is horizontal, left to right, the only one that styles can have. -/
import Verif.Layout.Boxes
namespace Verif.Layout.Css
open Verif.Style Verif.Layout

/-- The used value of a length or percentage. -/
def used (basis : Rat) : LengthOrPercentage → Rat
  | .length l => l
  | .percentage p => basis * p

/-- The used value, when `auto` stands for zero. -/
def usedOrZero (basis : Rat) : LengthOrPercentageOrAuto → Rat
  | .length l => l
  | .percentage p => basis * p
  | .auto => 0

variable (cb : ContainingBlock) (s : ComputedValues)

def paddingTop : Rat := used cb.inlineSize (s.values .paddingTop)
def paddingRight : Rat := used cb.inlineSize (s.values .paddingRight)
def paddingBottom : Rat := used cb.inlineSize (s.values .paddingBottom)
def paddingLeft : Rat := used cb.inlineSize (s.values .paddingLeft)
def borderTop : Rat := used cb.inlineSize (s.values .borderTopWidth)
def borderRight : Rat := used cb.inlineSize (s.values .borderRightWidth)
def borderBottom : Rat := used cb.inlineSize (s.values .borderBottomWidth)
def borderLeft : Rat := used cb.inlineSize (s.values .borderLeftWidth)
def marginTop : Rat := usedOrZero cb.inlineSize (s.values .marginTop)
def marginBottom : Rat := usedOrZero cb.inlineSize (s.values .marginBottom)

/-- 10.3.3: the content width. -/
def width : Rat :=
  match (s.values .width : LengthOrPercentageOrAuto) with
  | .length l => l
  | .percentage p => cb.inlineSize * p
  | .auto => cb.inlineSize - (usedOrZero cb.inlineSize (s.values .marginLeft) + borderLeft cb s + paddingLeft cb s +
      paddingRight cb s + borderRight cb s + usedOrZero cb.inlineSize (s.values .marginRight))

/-- 10.5: the height property; a percentage of an `auto` height is `auto`. -/
def height : LengthOrAuto :=
  match (s.values .height : LengthOrPercentageOrAuto), cb.blockSize with
  | .length l, _ => .length l
  | .percentage p, .length h => .length (h * p)
  | .percentage _, .auto => .auto
  | .auto, _ => .auto

/-- 10.1: the containing block of the children of a block box. -/
def inner : ContainingBlock := ⟨width cb s, height cb s, (.horizontalTb, .ltr)⟩

/-- The property `top`. -/
def top (s : ComputedValues) : LengthOrPercentageOrAuto := s.values .top
/-- The property `bottom`. -/
def bottom (s : ComputedValues) : LengthOrPercentageOrAuto := s.values .bottom

/-- 9.4.3: how far a box is moved down by relative positioning. Percentages are of its own content height (CSS: of that of the
containing block), and zero where that is `auto`. -/
def relativeShift : Rat :=
  match positionOf s with
  | .relative =>
    match top s, bottom s with
    | .auto, .auto => 0
    | .auto, .length l => -l
    | .auto, .percentage p => -((height cb s).autoIs 0 * p)
    | .length l, _ => l
    | .percentage p, _ => (height cb s).autoIs 0 * p
  | _ => 0

/-- 8.3.1: the top margin of the box adjoins those of its first children: nothing separates them. -/
def startCollapses : Bool := decide (paddingTop cb s + borderTop cb s = 0)

/-- 8.3.1: the bottom margin of the box adjoins those of its last children. -/
def endCollapses : Bool := decide (paddingBottom cb s + borderBottom cb s = 0) && decide (height cb s = .auto)

/-- The box is in flow. -/
def inFlow : BlockLevelBox → Bool
  | .sameFormattingContextBlock _ _ => true
  | .independent _ _ _ => true
  | .outOfFlowAbsolutelyPositioned _ _ _ => false
  | .outOfFlowFloat _ _ _ => false

mutual
/-- 8.3.1: the top and bottom margins of the box adjoin; this holds of boxes that are out of flow too, which have no margins
here. -/
def through (cb : ContainingBlock) : BlockLevelBox → Bool
  | .sameFormattingContextBlock style contents =>
    startCollapses cb style && endCollapses cb style && throughContents (inner cb style) contents
  | .independent _ _ _ => false
  | .outOfFlowAbsolutelyPositioned _ _ _ => true
  | .outOfFlowFloat _ _ _ => true

/-- Nothing in the contents separates what is above from what is below. -/
def throughContents (cb : ContainingBlock) : BlockContainer → Bool
  | .blockLevelBoxes boxes => throughAll cb boxes
  | .inlineFormattingContext _ => false

/-- See `throughContents`. -/
def throughAll (cb : ContainingBlock) : List BlockLevelBox → Bool
  | [] => true
  | b :: bs => through cb b && throughAll cb bs
end

mutual
/-- The margins that adjoin the top margin of the box, which is one of them. -/
def startMargins (cb : ContainingBlock) : BlockLevelBox → List Rat
  | .sameFormattingContextBlock style contents =>
    marginTop cb style :: if startCollapses cb style then leadingContents (inner cb style) contents else []
  | .independent style _ _ => [marginTop cb style]
  | .outOfFlowAbsolutelyPositioned _ _ _ => []
  | .outOfFlowFloat _ _ _ => []

/-- The margins that adjoin the bottom margin of the box, which is one of them; those that are among `startMargins` already
(when all the contents are collapsed through) are not repeated. -/
def endMargins (cb : ContainingBlock) : BlockLevelBox → List Rat
  | .sameFormattingContextBlock style contents =>
    marginBottom cb style ::
      if endCollapses cb style && !(startCollapses cb style && throughContents (inner cb style) contents)
      then trailingContents (inner cb style) contents else []
  | .independent style _ _ => [marginBottom cb style]
  | .outOfFlowAbsolutelyPositioned _ _ _ => []
  | .outOfFlowFloat _ _ _ => []

/-- The margins at the start of the contents of a box: nothing separates them from its top. -/
def leadingContents (cb : ContainingBlock) : BlockContainer → List Rat
  | .blockLevelBoxes boxes => leading cb boxes
  | .inlineFormattingContext _ => []

/-- The margins at the end of the contents of a box: nothing separates them from its bottom. -/
def trailingContents (cb : ContainingBlock) : BlockContainer → List Rat
  | .blockLevelBoxes boxes => trailing cb boxes
  | .inlineFormattingContext _ => []

/-- The margins at the start of a list of boxes: those of the boxes that are collapsed through and come first, and the top
margins of the next one. -/
def leading (cb : ContainingBlock) : List BlockLevelBox → List Rat
  | [] => []
  | b :: bs => startMargins cb b ++ if through cb b then endMargins cb b ++ leading cb bs else []

/-- The margins at the end of a list of boxes: those of the boxes that are collapsed through and come last, and the bottom
margins of the one before them. -/
def trailing (cb : ContainingBlock) : List BlockLevelBox → List Rat
  | [] => []
  | b :: bs =>
    if throughAll cb bs then (if through cb b then startMargins cb b else []) ++ endMargins cb b ++ leading cb bs
    else trailing cb bs
end

/-- The style of a box. -/
def styleOf : BlockLevelBox → ComputedValues
  | .sameFormattingContextBlock style _ => style
  | .independent style _ _ => style
  | .outOfFlowAbsolutelyPositioned style _ _ => style
  | .outOfFlowFloat style _ _ => style

end Verif.Layout.Css
