/- Model of `victor/src/layout/fragments.rs`. -/
import Verif.Layout.Geom
import Verif.Text.Shaped
namespace Verif.Layout
open Verif.Style Verif.Text

/-- fragments.rs 32-36, `CollapsedMargin`. -/
structure CollapsedMargin where
  maxPositive : Rat
  minNegative : Rat
deriving DecidableEq, Repr

/-- fragments.rs 88-93. -/
def CollapsedMargin.zero : CollapsedMargin := ⟨0, 0⟩

/-- fragments.rs 95-100. -/
def CollapsedMargin.new (margin : Rat) : CollapsedMargin := ⟨max margin 0, min margin 0⟩

/-- fragments.rs 102-111, `adjoin` and `adjoin_assign`. -/
def CollapsedMargin.adjoin (a b : CollapsedMargin) : CollapsedMargin :=
  ⟨max a.maxPositive b.maxPositive, min a.minNegative b.minNegative⟩

/-- fragments.rs 113-115. -/
def CollapsedMargin.solve (a : CollapsedMargin) : Rat := a.maxPositive + a.minNegative

/-- fragments.rs 26-30, `CollapsedBlockMargins`. -/
structure CollapsedBlockMargins where
  collapsedThrough : Bool
  start : CollapsedMargin
  «end» : CollapsedMargin
deriving DecidableEq, Repr

/-- fragments.rs 70-76. -/
def CollapsedBlockMargins.fromMargin (margin : Sides Rat) : CollapsedBlockMargins :=
  ⟨false, CollapsedMargin.new margin.blockStart, CollapsedMargin.new margin.blockEnd⟩

/-- fragments.rs 78-84. -/
def CollapsedBlockMargins.zero : CollapsedBlockMargins := ⟨false, CollapsedMargin.zero, CollapsedMargin.zero⟩

/-- fragments.rs 10-24, `BoxFragment`, without its children. -/
structure BoxInfo where
  style : ComputedValues
  contentRect : Rect Rat
  padding : Sides Rat
  border : Sides Rat
  margin : Sides Rat
  blockMarginsCollapsedWithChildren : CollapsedBlockMargins

/-- fragments.rs 4-8 and 38-49, `Fragment`. -/
inductive Fragment where
  | box (info : BoxInfo) (children : List Fragment)
  | anonymous (rect : Rect Rat) (children : List Fragment) (mode : Mode)
  | text (parentStyle : ComputedValues) (contentRect : Rect Rat) (text : ShapedSegment Rat)

/-- fragments.rs 52-58, `AnonymousFragment::no_op`. -/
def Fragment.noOp (mode : Mode) : Fragment := .anonymous Rect.zero [] mode

/-- fragments.rs 62-66, `border_rect`. -/
def BoxInfo.borderRect (b : BoxInfo) : Rect Rat := (b.contentRect.inflate b.padding).inflate b.border

end Verif.Layout
