/- Specification for C123: documents of blocks whose lengths are whole numbers of pixels, or of halves, quarters, … of them. -/
import Verif.Layout.SingleTheorems
namespace Verif.Layout.Machine
open Verif.Style Verif.Float

/-- A multiple of the fraction `1 / 2 ^ k`. For `k = 0`: a whole number. -/
def Whole (k : Nat) (x : Rat) : Prop := ∃ n : Int, x = n / 2 ^ k

/-- It is given in pixels, as such a multiple. -/
def _root_.Verif.Style.LengthOrPercentage.Whole (k : Nat) : Style.LengthOrPercentage → Prop
  | .length x => Machine.Whole k x
  | .percentage _ => False
/-- It is given in pixels, as such a multiple, or `auto`. -/
def _root_.Verif.Style.LengthOrPercentageOrAuto.Whole (k : Nat) : Style.LengthOrPercentageOrAuto → Prop
  | .length x => Machine.Whole k x
  | .percentage _ => False
  | .auto => True

/-- The length, without its sign. -/
def _root_.Verif.Style.LengthOrPercentage.extent : Style.LengthOrPercentage → Rat
  | .length x => |x|
  | .percentage _ => 0
/-- The length, without its sign. -/
def _root_.Verif.Style.LengthOrPercentageOrAuto.extent : Style.LengthOrPercentageOrAuto → Rat
  | .length x => |x|
  | _ => 0

/-- All lengths of the style that have to do with boxes are such multiples of pixels, or `auto`. -/
def WholeStyle (k : Nat) (s : ComputedValues) : Prop :=
  ((s.values .marginTop).Whole k ∧ (s.values .marginRight).Whole k ∧ (s.values .marginBottom).Whole k ∧ (s.values .marginLeft).Whole k) ∧
  ((s.values .paddingTop).Whole k ∧ (s.values .paddingRight).Whole k ∧ (s.values .paddingBottom).Whole k ∧ (s.values .paddingLeft).Whole k) ∧
  ((s.values .borderTopWidth).Whole k ∧ (s.values .borderRightWidth).Whole k ∧ (s.values .borderBottomWidth).Whole k ∧
    (s.values .borderLeftWidth).Whole k) ∧
  ((s.values .top).Whole k ∧ (s.values .right).Whole k ∧ (s.values .bottom).Whole k ∧ (s.values .left).Whole k) ∧
  (s.values .width).Whole k ∧ (s.values .height).Whole k

/-- The sum of these lengths. -/
def lengthsSum (s : ComputedValues) : Rat :=
  ((s.values .marginTop).extent + (s.values .marginRight).extent + (s.values .marginBottom).extent + (s.values .marginLeft).extent) +
  ((s.values .paddingTop).extent + (s.values .paddingRight).extent + (s.values .paddingBottom).extent + (s.values .paddingLeft).extent) +
  ((s.values .borderTopWidth).extent + (s.values .borderRightWidth).extent + (s.values .borderBottomWidth).extent +
    (s.values .borderLeftWidth).extent) +
  ((s.values .top).extent + (s.values .right).extent + (s.values .bottom).extent + (s.values .left).extent) +
  (s.values .width).extent + (s.values .height).extent

mutual
/-- There are only blocks, with such lengths: no text, and nothing that is absolutely positioned. -/
def _root_.Verif.Layout.BlockContainer.OnlyBlocks (k : Nat) : BlockContainer → Prop
  | .blockLevelBoxes boxes => onlyBlocks k boxes
  | .inlineFormattingContext _ => False
/-- See `BlockContainer.OnlyBlocks`. -/
def _root_.Verif.Layout.BlockLevelBox.OnlyBlocks (k : Nat) : BlockLevelBox → Prop
  | .sameFormattingContextBlock style contents => WholeStyle k style ∧ contents.OnlyBlocks k
  | .outOfFlowAbsolutelyPositioned _ _ _ => False
  | .outOfFlowFloat _ _ _ => True
  | .independent style _ contents => WholeStyle k style ∧ contents.OnlyBlocks k
/-- See `BlockContainer.OnlyBlocks`. -/
def onlyBlocks (k : Nat) : List BlockLevelBox → Prop
  | [] => True
  | b :: bs => b.OnlyBlocks k ∧ onlyBlocks k bs
end

mutual
/-- The sum of the lengths of all blocks. -/
def _root_.Verif.Layout.BlockContainer.lengthsSum : BlockContainer → Rat
  | .blockLevelBoxes boxes => blocksSum boxes
  | .inlineFormattingContext _ => 0
/-- See `BlockContainer.lengthsSum`. -/
def _root_.Verif.Layout.BlockLevelBox.lengthsSum : BlockLevelBox → Rat
  | .sameFormattingContextBlock style contents => Machine.lengthsSum style + contents.lengthsSum
  | .outOfFlowAbsolutelyPositioned _ _ _ => 0
  | .outOfFlowFloat _ _ _ => 0
  | .independent style _ contents => Machine.lengthsSum style + contents.lengthsSum
/-- See `BlockContainer.lengthsSum`. -/
def blocksSum : List BlockLevelBox → Rat
  | [] => 0
  | b :: bs => b.lengthsSum + blocksSum bs
end

/-! ### Fragments whose numbers correspond -/

section
variable {R R' : Type} (P : R → R' → Prop)

/-- The rectangles correspond. -/
def RectsAgree (r : Rect R) (r' : Rect R') : Prop :=
  P r.startCorner.inline r'.startCorner.inline ∧ P r.startCorner.block r'.startCorner.block ∧ P r.size.inline r'.size.inline ∧
  P r.size.block r'.size.block
/-- The sides correspond. -/
def SidesAgree (s : Sides R) (s' : Sides R') : Prop :=
  P s.inlineStart s'.inlineStart ∧ P s.inlineEnd s'.inlineEnd ∧ P s.blockStart s'.blockStart ∧ P s.blockEnd s'.blockEnd

/-- The boxes have the same style, and their numbers correspond. -/
def BoxesAgree (b : BoxInfo R) (b' : BoxInfo R') : Prop :=
  b.style = b'.style ∧ RectsAgree P b.contentRect b'.contentRect ∧ SidesAgree P b.padding b'.padding ∧ SidesAgree P b.border b'.border ∧
  SidesAgree P b.margin b'.margin

/-- The trees have the same form, and all their numbers correspond; there is no text in them. -/
inductive FragmentsAgree : Fragment R → Fragment R' → Prop
  | box {b b' c c'} : BoxesAgree P b b' → List.Forall₂ FragmentsAgree c c' → FragmentsAgree (.box b c) (.box b' c')
  | anonymous {r r' c c' m} : RectsAgree P r r' → List.Forall₂ FragmentsAgree c c' → FragmentsAgree (.anonymous r c m) (.anonymous r' c' m)

end

/-- Both fail, or the results correspond. -/
def ResultsAgree {A A' : Type} (P : A → A' → Prop) : Option A → Option A' → Prop
  | some a, some a' => P a a'
  | none, none => True
  | _, _ => False

/-- The single precision number is that number. -/
def Exactly (a : Single) (q : Rat) : Prop := a.Finite ∧ a.value = q

end Verif.Layout.Machine
