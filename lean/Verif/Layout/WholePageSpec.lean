/- Specification for C124: the backgrounds of blocks on the page. -/
import Verif.Layout.WholeSpec
import Verif.Layout.PaintSpec
import Verif.Layout.ColorTheorems
namespace Verif.Layout.Machine
open Verif.Style Verif.Float Verif.Pdf

mutual
/-- How deep blocks are in each other. -/
def _root_.Verif.Layout.BlockContainer.nesting : BlockContainer → Nat
  | .blockLevelBoxes boxes => blocksNesting boxes
  | .inlineFormattingContext _ => 0
/-- See `BlockContainer.nesting`. -/
def _root_.Verif.Layout.BlockLevelBox.nesting : BlockLevelBox → Nat
  | .sameFormattingContextBlock _ contents => contents.nesting + 1
  | .outOfFlowAbsolutelyPositioned _ _ contents => contents.nesting + 1
  | .outOfFlowFloat _ _ contents => contents.nesting + 1
  | .independent _ _ contents => contents.nesting + 1
/-- See `BlockContainer.nesting`. -/
def blocksNesting : List BlockLevelBox → Nat
  | [] => 0
  | b :: bs => max b.nesting (blocksNesting bs)
end

mutual
/-- The styles of all blocks have this property. -/
def _root_.Verif.Layout.BlockContainer.Each (Q : ComputedValues → Prop) : BlockContainer → Prop
  | .blockLevelBoxes boxes => eachBlock Q boxes
  | .inlineFormattingContext _ => True
/-- See `BlockContainer.Each`. -/
def _root_.Verif.Layout.BlockLevelBox.Each (Q : ComputedValues → Prop) : BlockLevelBox → Prop
  | .sameFormattingContextBlock style contents => Q style ∧ contents.Each Q
  | .outOfFlowAbsolutelyPositioned style _ contents => Q style ∧ contents.Each Q
  | .outOfFlowFloat style _ contents => Q style ∧ contents.Each Q
  | .independent style _ contents => Q style ∧ contents.Each Q
/-- See `BlockContainer.Each`. -/
def eachBlock (Q : ComputedValues → Prop) : List BlockLevelBox → Prop
  | [] => True
  | b :: bs => b.Each Q ∧ eachBlock Q bs
end

/-- The rectangle that a reader finds on the page is this one, to the last bit: the corner and the size are the same numbers, in the coordinates of
CSS pixels with the origin at the top left of the page, and the colour has the same bytes. -/
def SeenAs (s : SeenRect Single) : Shape → Prop
  | .rect corner size color =>
    Exactly s.corner.1 corner.inline ∧ Exactly s.corner.2 corner.block ∧ Exactly s.size.1 size.inline ∧ Exactly s.size.2 size.block ∧
    (∃ a b, s.pageMatrix = [[.real a, .int 0, .int 0, .real b, .int 0, .int 0]] ∧ Exactly a (3 / 4) ∧ Exactly b (-(3 / 4))) ∧
    level s.rgb.1 = color.red ∧ level s.rgb.2.1 = color.green ∧ level s.rgb.2.2 = color.blue ∧ level s.alpha = color.alpha
  | .glyphs _ _ _ _ => False

end Verif.Layout.Machine
