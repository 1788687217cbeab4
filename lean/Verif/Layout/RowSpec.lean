/- The rectangles of lines and of inline boxes: the specification of C81 and C82. -/
import Verif.Layout.InlineSpec
namespace Verif.Layout
open Verif.Style Verif.Text

/-! ### The margin box of a fragment, relative to the line or to the inline box that it is in -/

/-- The left edge of the margin box. -/
def Fragment.left : Fragment → Rat
  | .box info _ => info.contentRect.startCorner.inline -
      (info.padding.inlineStart + info.border.inlineStart + info.margin.inlineStart)
  | .anonymous rect _ _ => rect.startCorner.inline
  | .text _ rect _ => rect.startCorner.inline

/-- The right edge of the margin box. -/
def Fragment.right : Fragment → Rat
  | .box info _ => info.contentRect.startCorner.inline + info.contentRect.size.inline +
      (info.padding.inlineEnd + info.border.inlineEnd + info.margin.inlineEnd)
  | .anonymous rect _ _ => rect.startCorner.inline + rect.size.inline
  | .text _ rect _ => rect.startCorner.inline + rect.size.inline

/-- The top edge of the margin box. -/
def Fragment.top : Fragment → Rat
  | .box info _ => info.contentRect.startCorner.block -
      (info.padding.blockStart + info.border.blockStart + info.margin.blockStart)
  | .anonymous rect _ _ => rect.startCorner.block
  | .text _ rect _ => rect.startCorner.block

/-- The bottom edge of the margin box. -/
def Fragment.bottom : Fragment → Rat
  | .box info _ => info.contentRect.startCorner.block + info.contentRect.size.block +
      (info.padding.blockEnd + info.border.blockEnd + info.margin.blockEnd)
  | .anonymous rect _ _ => rect.startCorner.block + rect.size.block
  | .text _ rect _ => rect.startCorner.block + rect.size.block

/-- The height of the margin box. -/
def Fragment.height (f : Fragment) : Rat := f.bottom - f.top

/-- What is in the fragment. -/
def Fragment.contents : Fragment → List Fragment
  | .box _ children => children
  | .anonymous _ children _ => children
  | .text _ _ _ => []

/-- The height of the area for what is in the fragment. -/
def Fragment.contentHeight : Fragment → Rat
  | .box info _ => info.contentRect.size.block
  | .anonymous rect _ _ => rect.size.block
  | .text _ rect _ => rect.size.block

/-- The width of the area for what is in the fragment. -/
def Fragment.contentWidth : Fragment → Rat
  | .box info _ => info.contentRect.size.inline
  | .anonymous rect _ _ => rect.size.inline
  | .text _ rect _ => rect.size.inline

/-- The fragment is one of a text. -/
def Fragment.IsText : Fragment → Prop
  | .text _ _ _ => True
  | _ => False

/-- `f` is in `g`, at any depth, or is `g`. -/
inductive Fragment.Within : Fragment → Fragment → Prop
  | self {f} : Within f f
  | child {f g h} : g ∈ h.contents → Within f g → Within f h

/-! ### Heights -/

/-- `height` is at least the height of everything in the list. -/
def HoldsAll (height : Rat) (fs : List Fragment) : Prop := ∀ f ∈ fs, f.height ≤ height

/-- `height` is the height of the tallest fragment in the list: 0 if there is none, or none with a positive height. -/
def IsTallest (height : Rat) (fs : List Fragment) : Prop :=
  HoldsAll height fs ∧ 0 ≤ height ∧ (height = 0 ∨ ∃ f ∈ fs, f.height = height)

/-- C81 for a line: the line is as tall as the tallest thing on it, and so is, of its contents, every inline box on it. -/
def SnugLine (line : Fragment) : Prop :=
  ∀ f, Fragment.Within f line → ¬ f.IsText → IsTallest f.contentHeight f.contents

/-- Everything on the line begins at its top. -/
def TopLine (line : Fragment) : Prop :=
  ∀ f, Fragment.Within f line → ∀ c ∈ f.contents, c.top = 0

/-! ### Widths -/

/-- The fragments follow each other, without gaps and without overlap, from `x` to `y`. -/
def InRow : Rat → List Fragment → Rat → Prop
  | x, [], y => x = y
  | x, f :: fs, y => f.left = x ∧ InRow f.right fs y

/-- C82 for a line: what is on the line follows each other from its start; and what is in an inline box follows each other and
fills the width of the inline box. -/
def FilledLine (line : Fragment) : Prop :=
  (∃ y, InRow 0 line.contents y) ∧
  ∀ c ∈ line.contents, ∀ f, Fragment.Within f c → ¬ f.IsText → InRow 0 f.contents f.contentWidth

/-- The inline-level box is an inline box. -/
def InlineLevelBox.IsInlineBox : InlineLevelBox → Prop
  | .inlineBox _ _ _ _ => True
  | _ => False

/-- There are no inline boxes in inline boxes. -/
def NoNesting (boxes : List InlineLevelBox) : Prop :=
  ∀ b ∈ boxes, match b with
    | .inlineBox _ _ _ children => ∀ c ∈ children, ¬ c.IsInlineBox
    | _ => True

end Verif.Layout
