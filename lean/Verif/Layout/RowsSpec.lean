/- Specification for C125: documents with text whose lengths are whole numbers of pixels, or of halves, quarters, … of them. -/
import Verif.Layout.WholeSpec
import Verif.Layout.LinesSpec
namespace Verif.Layout.Machine
open Verif.Style Verif.Text Verif.Float

mutual
/-- There are only blocks, inline elements and text (and floats, which are not laid out); all lengths of blocks and inline elements are multiples
of `1 / 2 ^ k` pixels, and so are the size of the font and one unit of it, of which an em has `2 ^ e`. -/
def _root_.Verif.Layout.BlockContainer.Ruled (k e : Nat) : BlockContainer → Prop
  | .blockLevelBoxes boxes => ruledBlocks k e boxes
  | .inlineFormattingContext boxes => ruledLine k e boxes
/-- See `BlockContainer.Ruled`. -/
def _root_.Verif.Layout.BlockLevelBox.Ruled (k e : Nat) : BlockLevelBox → Prop
  | .sameFormattingContextBlock style contents => WholeStyle k style ∧ contents.Ruled k e
  | .outOfFlowAbsolutelyPositioned _ _ _ => False
  | .outOfFlowFloat _ _ _ => True
  | .independent style _ contents => WholeStyle k style ∧ contents.Ruled k e
/-- See `BlockContainer.Ruled`. -/
def ruledBlocks (k e : Nat) : List BlockLevelBox → Prop
  | [] => True
  | b :: bs => b.Ruled k e ∧ ruledBlocks k e bs
/-- See `BlockContainer.Ruled`. -/
def _root_.Verif.Layout.InlineLevelBox.Ruled (k e : Nat) : InlineLevelBox → Prop
  | .inlineBox style _ _ children => WholeStyle k style ∧ ruledLine k e children
  | .textRun style _ => 0 < fontSizeOf style ∧ Whole k (fontSizeOf style) ∧ Whole k (fontSizeOf style / 2 ^ e)
  | .outOfFlowAbsolutelyPositioned _ _ _ => False
  | .outOfFlowFloat _ _ _ => True
/-- See `BlockContainer.Ruled`. -/
def ruledLine (k e : Nat) : List InlineLevelBox → Prop
  | [] => True
  | b :: bs => b.Ruled k e ∧ ruledLine k e bs
end

mutual
/-- How far something can be from the left side of the page, roughly: 16 times the lengths of a block are added to those of the blocks around it;
in a paragraph, 4 times the width of all the text if it were on one line, and its inline elements. `units` is the width of a text in units of the
font, of which an em has `2 ^ e`. -/
def _root_.Verif.Layout.BlockContainer.reach (units : List Nat → Nat) (e : Nat) : BlockContainer → Rat
  | .blockLevelBoxes boxes => blocksReach units e boxes
  | .inlineFormattingContext boxes => 4 * lineReach units e boxes
/-- See `BlockContainer.reach`. -/
def _root_.Verif.Layout.BlockLevelBox.reach (units : List Nat → Nat) (e : Nat) : BlockLevelBox → Rat
  | .sameFormattingContextBlock style contents => 16 * lengthsSum style + contents.reach units e
  | .outOfFlowAbsolutelyPositioned _ _ _ => 0
  | .outOfFlowFloat _ _ _ => 0
  | .independent style _ contents => 16 * lengthsSum style + contents.reach units e
/-- See `BlockContainer.reach`. -/
def blocksReach (units : List Nat → Nat) (e : Nat) : List BlockLevelBox → Rat
  | [] => 0
  | b :: bs => max (b.reach units e) (blocksReach units e bs)
/-- See `BlockContainer.reach`. -/
def _root_.Verif.Layout.InlineLevelBox.reach (units : List Nat → Nat) (e : Nat) : InlineLevelBox → Rat
  | .inlineBox style _ _ children => 8 * lengthsSum style + lineReach units e children
  | .textRun style text => |fontSizeOf style| * (1 + units text / 2 ^ e)
  | .outOfFlowAbsolutelyPositioned _ _ _ => 0
  | .outOfFlowFloat _ _ _ => 0
/-- See `BlockContainer.reach`. -/
def lineReach (units : List Nat → Nat) (e : Nat) : List InlineLevelBox → Rat
  | [] => 0
  | b :: bs => b.reach units e + lineReach units e bs
end

/-- The widths of the left and the right side correspond. -/
def SideWidthsAgree (P : Single → Rat → Prop) (s : Sides Single) (s' : Sides Rat) : Prop :=
  P s.inlineStart s'.inlineStart ∧ P s.inlineEnd s'.inlineEnd

/-- The trees have the same form: the same boxes in the same styles, the same lines and the same glyphs in them; and all horizontal positions and
widths correspond. Nothing is said of vertical positions and heights. -/
inductive RowsAgree (P : Single → Rat → Prop) : Fragment Single → Fragment Rat → Prop
  | box {b b' c c'} : b.style = b'.style → P b.contentRect.startCorner.inline b'.contentRect.startCorner.inline →
      P b.contentRect.size.inline b'.contentRect.size.inline → SideWidthsAgree P b.padding b'.padding → SideWidthsAgree P b.border b'.border →
      SideWidthsAgree P b.margin b'.margin → List.Forall₂ (RowsAgree P) c c' → RowsAgree P (.box b c) (.box b' c')
  | anonymous {r r' c c' m} : P r.startCorner.inline r'.startCorner.inline → P r.size.inline r'.size.inline →
      List.Forall₂ (RowsAgree P) c c' → RowsAgree P (.anonymous r c m) (.anonymous r' c' m)
  | text {style r r' s s'} : P r.startCorner.inline r'.startCorner.inline → P r.size.inline r'.size.inline → s.glyphs = s'.glyphs →
      Exactly s.advanceWidth s'.advanceWidth → RowsAgree P (.text style r s) (.text style r' s')

end Verif.Layout.Machine
