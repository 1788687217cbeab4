/- The text that is shown: the specification of C65. -/
import Verif.Layout.ConstructSpec
import Verif.Layout.PaintSpec
import Verif.Pdf.DocSpec
namespace Verif.Layout
open Verif.Style Verif.Text

mutual
/-- The glyphs in a fragment in tree order, each with the style it is shown in. -/
def Fragment.glyphs : Fragment → List (ComputedValues × Nat)
  | .box _ children => fragmentsGlyphs children
  | .anonymous _ children _ => fragmentsGlyphs children
  | .text style _ segment => segment.glyphs.map fun g => (style, g)
/-- See `Fragment.glyphs`. -/
def fragmentsGlyphs : List Fragment → List (ComputedValues × Nat)
  | [] => []
  | f :: fs => f.glyphs ++ fragmentsGlyphs fs
end

/-- The glyphs of these characters in order, in the same styles; spaces may be left out (those at the end of a line). -/
inductive Shown {R Err : Type} (F : FontApi R Err) : List (ComputedValues × Nat) → List (ComputedValues × Nat) → Prop
  | nil : Shown F [] []
  | char {style c g text glyphs} : F.glyphId c = .ok g → Shown F text glyphs → Shown F ((style, c) :: text) ((style, g) :: glyphs)
  | space {style text glyphs} : Shown F text glyphs → Shown F ((style, 32) :: text) glyphs

/-- The characters that are not white space. -/
def inked (text : List Nat) : List Nat := text.filter fun c => !isAsciiWhitespace c

/-- The glyphs that something painted shows: two bytes each. -/
def shownGlyphs {R : Type} : Verif.Pdf.Painted R → List Nat
  | .fill _ _ _ _ => []
  | .show _ _ _ _ s _ _ => (Verif.Pdf.decodeCodes s).getD []

mutual
/-- The texts in boxes, in order, without the contents of floating boxes. -/
def BlockContainer.runs : BlockContainer → List (List (ComputedValues × Nat))
  | .blockLevelBoxes boxes => blocksRuns boxes
  | .inlineFormattingContext boxes => inlinesRuns boxes
/-- See `BlockContainer.runs`. -/
def BlockLevelBox.runs : BlockLevelBox → List (List (ComputedValues × Nat))
  | .sameFormattingContextBlock _ contents => contents.runs
  | .outOfFlowAbsolutelyPositioned _ _ contents => contents.runs
  | .outOfFlowFloat _ _ _ => []
  | .independent _ _ contents => contents.runs
/-- See `BlockContainer.runs`. -/
def blocksRuns : List BlockLevelBox → List (List (ComputedValues × Nat))
  | [] => []
  | b :: bs => b.runs ++ blocksRuns bs
/-- See `BlockContainer.runs`. -/
def InlineLevelBox.runs : InlineLevelBox → List (List (ComputedValues × Nat))
  | .inlineBox _ _ _ children => inlinesRuns children
  | .textRun style text => [text.map fun c => (style, c)]
  | .outOfFlowAbsolutelyPositioned _ _ contents => contents.runs
  | .outOfFlowFloat _ _ _ => []
/-- See `BlockContainer.runs`. -/
def inlinesRuns : List InlineLevelBox → List (List (ComputedValues × Nat))
  | [] => []
  | b :: bs => b.runs ++ inlinesRuns bs
end

/-- The two kinds of boxes that are out of flow. -/
inductive OutOfFlow where
  | absolute | float
deriving DecidableEq

mutual
/-- All the boxes that are out of flow are of these kinds. -/
def BlockContainer.Only (P : OutOfFlow → Prop) : BlockContainer → Prop
  | .blockLevelBoxes boxes => blocksOnly P boxes
  | .inlineFormattingContext boxes => inlinesOnly P boxes
/-- See `BlockContainer.Only`. -/
def BlockLevelBox.Only (P : OutOfFlow → Prop) : BlockLevelBox → Prop
  | .sameFormattingContextBlock _ contents => contents.Only P
  | .outOfFlowAbsolutelyPositioned _ _ contents => P .absolute ∧ contents.Only P
  | .outOfFlowFloat _ _ contents => P .float ∧ contents.Only P
  | .independent _ _ contents => contents.Only P
/-- See `BlockContainer.Only`. -/
def blocksOnly (P : OutOfFlow → Prop) : List BlockLevelBox → Prop
  | [] => True
  | b :: bs => b.Only P ∧ blocksOnly P bs
/-- See `BlockContainer.Only`. -/
def InlineLevelBox.Only (P : OutOfFlow → Prop) : InlineLevelBox → Prop
  | .inlineBox _ _ _ children => inlinesOnly P children
  | .textRun _ _ => True
  | .outOfFlowAbsolutelyPositioned _ _ contents => P .absolute ∧ contents.Only P
  | .outOfFlowFloat _ _ contents => P .float ∧ contents.Only P
/-- See `BlockContainer.Only`. -/
def inlinesOnly (P : OutOfFlow → Prop) : List InlineLevelBox → Prop
  | [] => True
  | b :: bs => b.Only P ∧ inlinesOnly P bs
end

end Verif.Layout
