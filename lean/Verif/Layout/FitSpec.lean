/- The sizes and places that CSS gives to boxes on a page: the specification of C111. The sections are those of CSS 2. -/
import Verif.Layout.BoundSpec
import Verif.Layout.SizeTheorems
namespace Verif.Layout
open Verif.Style Verif.Text

/-- The right edge of a rectangle. -/
def Extent.right (e : Extent) : Rat := e.left + e.width
/-- The bottom edge of a rectangle. -/
def Extent.bottom (e : Extent) : Rat := e.top + e.height

section
variable (cb : ContainingBlock) (s : ComputedValues)

/-- What is left of the width of the containing block for the left and right margins. -/
def Css.marginRest : Rat :=
  cb.inlineSize - (Css.borderLeft cb s + Css.paddingLeft cb s + Css.width cb s + Css.paddingRight cb s + Css.borderRight cb s)

/-- 10.3.3: the used left margin of a block in flow. An `auto` margin takes what is left of the containing block, or a half of it if
both are `auto`, and is zero if nothing is left, or if the width is `auto`. -/
def Css.usedMarginLeft : Rat :=
  if Css.widthProperty s ≠ .auto ∧ Css.marginLeft s = .auto then
    if Css.marginRight s = .auto then max 0 (Css.marginRest cb s / 2)
    else max 0 (Css.marginRest cb s - Css.usedOrZero cb.inlineSize (Css.marginRight s))
  else Css.usedOrZero cb.inlineSize (Css.marginLeft s)

/-- The cases in which the left margin is not that of CSS: it is computed, but there is no room for it, or there is a right margin, which
is disregarded (`C39_equation_violated`, `C89_centred_violated`). -/
def Css.LeftDoubtful : Prop :=
  Css.widthProperty s ≠ .auto ∧ Css.marginLeft s = .auto ∧
    (Css.marginRest cb s < 0 ∨ Css.usedOrZero cb.inlineSize (Css.marginRight s) ≠ 0)

/-- The paddings and borders of a box are around its content area: 8.1. -/
structure Css.Surrounds (border content : Extent) : Prop where
  left : content.left = border.left + Css.borderLeft cb s + Css.paddingLeft cb s
  right : border.right = content.right + Css.paddingRight cb s + Css.borderRight cb s
  top : content.top = border.top + Css.borderTop cb s + Css.paddingTop cb s
  bottom : border.bottom = content.bottom + Css.paddingBottom cb s + Css.borderBottom cb s

/-- The padding area of a box: 8.1. -/
def Css.paddingBox (content : Extent) : Extent :=
  ⟨content.left - Css.paddingLeft cb s, content.top - Css.paddingTop cb s,
   content.width + Css.paddingLeft cb s + Css.paddingRight cb s, content.height + Css.paddingTop cb s + Css.paddingBottom cb s⟩

/-- A block in flow whose containing block starts at `left`: 10.3.3, 10.5 and 9.4.3. -/
structure Css.BlockFits (left : Rat) (border content : Extent) : Prop where
  surrounds : Css.Surrounds cb s border content
  width : content.width = Css.width cb s
  height : ∀ h, Css.height cb s = .length h → content.height = h
  left : ¬ Css.LeftDoubtful cb s → (positionOf s = .relative → Css.NotPercentage (Css.left s) ∧ Css.NotPercentage (Css.right s)) →
    border.left = left + Css.usedMarginLeft cb s + (Css.displacement cb s).inline
end

/-- A rectangle as a containing block. -/
def Extent.block (e : Extent) : ContainingBlock := ⟨e.width, .length e.height, (.horizontalTb, .ltr)⟩

/-- An absolutely positioned box in the padding area of its containing block: 10.3.7 and 10.6.4, but for widths that are computed from the
contents, for static positions and for the cases in which the code does not do what CSS says (`C40_horizontal_violated`, `C40_vertical_violated`): `right` without
`left`, percentages of the height, and `bottom` with `top`. -/
structure Css.AbsoluteFits (pad : Extent) (s : ComputedValues) (border content : Extent) : Prop where
  surrounds : Css.Surrounds pad.block s border content
  width : Css.widthProperty s ≠ .auto → content.width = Css.usedOrZero pad.width (Css.widthProperty s)
  height : Css.heightProperty s ≠ .auto → Css.NotPercentage (Css.heightProperty s) →
    content.height = Css.usedOrZero pad.height (Css.heightProperty s)
  /-- The left edge, unless the left margin is computed. -/
  left : Css.left s ≠ .auto → Css.right s = .auto ∨ Css.widthProperty s = .auto ∨ Css.marginLeft s ≠ .auto →
    border.left = pad.left + Css.usedOrZero pad.width (Css.left s) + Css.usedOrZero pad.width (Css.marginLeft s)
  /-- The right edge, if the width or only the left margin is computed. -/
  right : Css.left s ≠ .auto → Css.right s ≠ .auto →
    Css.widthProperty s = .auto ∨ (Css.marginLeft s = .auto ∧ Css.marginRight s ≠ .auto) →
    border.right = pad.right - Css.usedOrZero pad.width (Css.right s) - Css.usedOrZero pad.width (Css.marginRight s)
  /-- If both margins are computed, the box is in the middle of the room, or at its left side if there is too little of it. -/
  centred : Css.left s ≠ .auto → Css.right s ≠ .auto → Css.widthProperty s ≠ .auto → Css.marginLeft s = .auto →
    Css.marginRight s = .auto →
    border.left = pad.left + Css.usedOrZero pad.width (Css.left s) +
      max 0 ((pad.width - Css.usedOrZero pad.width (Css.left s) - Css.usedOrZero pad.width (Css.right s) - border.width) / 2)
  /-- The top edge, unless the top margin is computed. -/
  top : Css.top s ≠ .auto → Css.NotPercentage (Css.top s) →
    Css.bottom s = .auto ∨ Css.heightProperty s = .auto ∨ Css.marginTopProperty s ≠ .auto →
    border.top = pad.top + Css.usedOrZero pad.height (Css.top s) + Css.usedOrZero pad.width (Css.marginTopProperty s)
  /-- The bottom edge, if the top edge is not given. -/
  bottom : Css.top s = .auto → Css.bottom s ≠ .auto → Css.NotPercentage (Css.bottom s) →
    border.bottom = pad.bottom - Css.usedOrZero pad.height (Css.bottom s) - Css.usedOrZero pad.width (Css.marginBottomProperty s)

/-- The height that an absolutely positioned box gives to its contents for their percentages, but for heights that are computed from
those of the containing block. -/
structure Css.HeightGiven (s : ComputedValues) (h : LengthOrAuto) : Prop where
  length : ∀ l, Css.heightProperty s = .length l → h = .length l
  auto : Css.heightProperty s = .auto → Css.top s = .auto ∨ Css.bottom s = .auto → h = .auto

mutual
/-- The boxes are where CSS says, and as large. `left` is where the containing block of boxes in flow starts, and `cb` its size; `pad` is
the padding area in which absolutely positioned boxes are placed. On lines there are texts and inline boxes, and absolutely
positioned boxes. -/
def PageItem.Fits (left : Rat) (cb : ContainingBlock) (pad : Extent) (onLine : Bool) : PageItem → Prop
  | .text _ => True
  | .line items => itemsFit left cb pad true items
  | .box s border content items =>
    if onLine = true ∧ displayOf s = .generatingBox .inline .flow then itemsFit left cb pad true items
    else if positionOf s = .absolute then
      Css.AbsoluteFits pad s border content ∧ ∃ h, Css.HeightGiven s h ∧
        itemsFit content.left ⟨content.width, h, (.horizontalTb, .ltr)⟩ (Css.paddingBox pad.block s content) false items
    else
      onLine = false ∧ Css.BlockFits cb s left border content ∧
        itemsFit content.left (Css.inner cb s) (if positionOf s = .relative then Css.paddingBox cb s content else pad) false items
/-- See `PageItem.Fits`. -/
def itemsFit (left : Rat) (cb : ContainingBlock) (pad : Extent) (onLine : Bool) : List PageItem → Prop
  | [] => True
  | i :: is => i.Fits left cb pad onLine ∧ itemsFit left cb pad onLine is
end

/-- An element in this style is a block. -/
def isBlock (s : ComputedValues) : Bool :=
  match displayOf s with
  | .generatingBox .block _ => true
  | _ => false

mutual
/-- The blocks in it, at any depth. -/
def PageItem.blocks : PageItem → List ComputedValues
  | .text _ => []
  | .line items => itemBlocks items
  | .box s _ _ items => (if isBlock s then [s] else []) ++ itemBlocks items
/-- The blocks in them, at any depth. -/
def itemBlocks : List PageItem → List ComputedValues
  | [] => []
  | i :: is => i.blocks ++ itemBlocks is
end

end Verif.Layout
