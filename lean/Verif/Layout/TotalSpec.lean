/- What is assumed of box trees for C58, and their depth. -/
import Verif.Layout.Flow
import Verif.Text.ShapedTheorems
namespace Verif.Layout
open Verif.Style Verif.Text

mutual
/-- The nesting depth of a box tree. -/
def BlockContainer.depth : BlockContainer → Nat
  | .blockLevelBoxes boxes => blockDepths boxes + 1
  | .inlineFormattingContext boxes => inlineDepths boxes + 1
/-- See `BlockContainer.depth`. -/
def BlockLevelBox.depth : BlockLevelBox → Nat
  | .sameFormattingContextBlock _ contents => contents.depth + 1
  | .outOfFlowAbsolutelyPositioned _ _ contents => contents.depth + 1
  | .outOfFlowFloat _ _ contents => contents.depth + 1
  | .independent _ _ contents => contents.depth + 1
/-- See `BlockContainer.depth`. -/
def blockDepths : List BlockLevelBox → Nat
  | [] => 0
  | b :: bs => max b.depth (blockDepths bs)
/-- See `BlockContainer.depth`. -/
def InlineLevelBox.depth : InlineLevelBox → Nat
  | .inlineBox _ _ _ children => inlineDepths children
  | .textRun _ _ => 0
  | .outOfFlowAbsolutelyPositioned _ _ contents => contents.depth + 1
  | .outOfFlowFloat _ _ contents => contents.depth + 1
/-- See `BlockContainer.depth`. -/
def inlineDepths : List InlineLevelBox → Nat
  | [] => 0
  | b :: bs => max b.depth (inlineDepths bs)
end

mutual
/-- The font has a glyph, perhaps that for missing glyphs, and a width for every character, and an absolutely positioned box in
inline contents comes from an element whose specified `display` generates a box. -/
def BlockContainer.Wf {R Err : Type} (F : FontApi R Err) : BlockContainer → Prop
  | .blockLevelBoxes boxes => blocksWf F boxes
  | .inlineFormattingContext boxes => inlinesWf F boxes
/-- See `BlockContainer.Wf`. -/
def BlockLevelBox.Wf {R Err : Type} (F : FontApi R Err) : BlockLevelBox → Prop
  | .sameFormattingContextBlock _ contents => contents.Wf F
  | .outOfFlowAbsolutelyPositioned _ _ contents => contents.Wf F
  | .outOfFlowFloat _ _ contents => contents.Wf F
  | .independent _ _ contents => contents.Wf F
/-- See `BlockContainer.Wf`. -/
def blocksWf {R Err : Type} (F : FontApi R Err) : List BlockLevelBox → Prop
  | [] => True
  | b :: bs => b.Wf F ∧ blocksWf F bs
/-- See `BlockContainer.Wf`. -/
def InlineLevelBox.Wf {R Err : Type} (F : FontApi R Err) : InlineLevelBox → Prop
  | .inlineBox _ _ _ children => inlinesWf F children
  | .textRun _ text => ∀ ch ∈ text, Shapable F ch
  | .outOfFlowAbsolutelyPositioned style _ contents =>
    (∃ outside inside, style.specifiedDisplay = .generatingBox outside inside) ∧ contents.Wf F
  | .outOfFlowFloat _ _ contents => contents.Wf F
/-- See `BlockContainer.Wf`. -/
def inlinesWf {R Err : Type} (F : FontApi R Err) : List InlineLevelBox → Prop
  | [] => True
  | b :: bs => b.Wf F ∧ inlinesWf F bs
end

end Verif.Layout
