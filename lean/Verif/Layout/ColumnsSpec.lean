/- Specification for C127: how far rounding can move anything up or down. -/
import Verif.Layout.RowsSpec
namespace Verif.Layout.Machine
open Verif.Style Verif.Text Verif.Float

mutual
/-- How high a line of this can be, roughly: the greatest height of a line of text in it, with 8 times the lengths of the elements around that. -/
def _root_.Verif.Layout.InlineLevelBox.rise : InlineLevelBox → Rat
  | .inlineBox style _ _ children => 8 * lengthsSum style + lineRise children
  | .textRun style _ => |fontSizeOf style| * (12 / 10)
  | .outOfFlowAbsolutelyPositioned _ _ _ => 0
  | .outOfFlowFloat _ _ _ => 0
/-- See `InlineLevelBox.rise`. -/
def lineRise : List InlineLevelBox → Rat
  | [] => 0
  | b :: bs => max b.rise (lineRise bs)
end

mutual
/-- How many roundings the height of a line of this can have behind it: 2 for that of the text, and 4 for each element around it. -/
def _root_.Verif.Layout.InlineLevelBox.nesting : InlineLevelBox → Nat
  | .inlineBox _ _ _ children => 4 + lineNesting children
  | .textRun _ _ => 2
  | .outOfFlowAbsolutelyPositioned _ _ _ => 0
  | .outOfFlowFloat _ _ _ => 0
/-- See `InlineLevelBox.nesting`. -/
def lineNesting : List InlineLevelBox → Nat
  | [] => 0
  | b :: bs => max b.nesting (lineNesting bs)
end

mutual
/-- No line is higher than `K`, with at most `D` roundings. -/
def _root_.Verif.Layout.BlockContainer.Low (D : Nat) (K : Rat) : BlockContainer → Prop
  | .blockLevelBoxes boxes => lowBlocks D K boxes
  | .inlineFormattingContext boxes => lineNesting boxes ≤ D ∧ lineRise boxes ≤ K
/-- See `BlockContainer.Low`. -/
def _root_.Verif.Layout.BlockLevelBox.Low (D : Nat) (K : Rat) : BlockLevelBox → Prop
  | .sameFormattingContextBlock _ contents => contents.Low D K
  | .outOfFlowAbsolutelyPositioned _ _ _ => True
  | .outOfFlowFloat _ _ _ => True
  | .independent _ _ contents => contents.Low D K
/-- See `BlockContainer.Low`. -/
def lowBlocks (D : Nat) (K : Rat) : List BlockLevelBox → Prop
  | [] => True
  | b :: bs => b.Low D K ∧ lowBlocks D K bs
end

mutual
/-- How many roundings, one after the other, the height of this fragment can have behind it: `D` for a line, and for a box 8 more than for the fragments
in it. -/
def Fragment.steps (D : Nat) : Fragment Rat → Nat
  | .box _ children => 8 + (children.length + mostSteps D children)
  | .anonymous _ _ _ => D
  | .text _ _ _ => 0
/-- The most of these fragments. -/
def mostSteps (D : Nat) : List (Fragment Rat) → Nat
  | [] => 0
  | f :: fs => max (f.steps D) (mostSteps D fs)
end

mutual
/-- A height that is not less than all the lengths and lines that are below each other: `K` for a line, and for a box 16 times its lengths and
what is in it. -/
def Fragment.mass (K : Rat) : Fragment Rat → Rat
  | .box b children => 16 * lengthsSum b.style + massAll K children
  | .anonymous _ _ _ => K
  | .text _ _ _ => 0
/-- See `Fragment.mass`. -/
def massAll (K : Rat) : List (Fragment Rat) → Rat
  | [] => 0
  | f :: fs => f.mass K + massAll K fs
end

/-- The number is finite, and not farther away than `δ`. -/
def Within (δ : Rat) (a : Single) (q : Rat) : Prop := a.Finite ∧ |a.value - q| ≤ δ

/-- The heights of the upper and the lower side correspond. -/
def SideHeightsAgree (P : Single → Rat → Prop) (s : Sides Single) (s' : Sides Rat) : Prop :=
  P s.blockStart s'.blockStart ∧ P s.blockEnd s'.blockEnd

/-- The trees have the same form, and all vertical positions and heights correspond. -/
inductive ColumnsAgree (P : Single → Rat → Prop) : Fragment Single → Fragment Rat → Prop
  | box {b b' c c'} : b.style = b'.style → P b.contentRect.startCorner.block b'.contentRect.startCorner.block →
      P b.contentRect.size.block b'.contentRect.size.block → SideHeightsAgree P b.padding b'.padding → SideHeightsAgree P b.border b'.border →
      SideHeightsAgree P b.margin b'.margin → List.Forall₂ (ColumnsAgree P) c c' → ColumnsAgree P (.box b c) (.box b' c')
  | anonymous {r r' c c' m} : P r.startCorner.block r'.startCorner.block → P r.size.block r'.size.block →
      List.Forall₂ (ColumnsAgree P) c c' → ColumnsAgree P (.anonymous r c m) (.anonymous r' c' m)
  | text {style r r' s s'} : P r.startCorner.block r'.startCorner.block → P r.size.block r'.size.block →
      ColumnsAgree P (.text style r s) (.text style r' s')

end Verif.Layout.Machine
