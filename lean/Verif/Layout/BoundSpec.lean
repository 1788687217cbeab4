/- What is in a box is inside of it: the specification of C89. -/
import Verif.Layout.ReadSpec
namespace Verif.Layout
open Verif.Style Verif.Text

/-- A rectangle on a page. -/
structure Extent where
  left : Rat
  top : Rat
  width : Rat
  height : Rat

/-- What is on a page: texts, boxes with what is in them, and lines with what is on them. The border of a box is what its background covers;
its content area is what is left for what is in it. -/
inductive PageItem where
  | text (text : PageText)
  | box (style : ComputedValues) (border content : Extent) (items : List PageItem)
  | line (items : List PageItem)

mutual
/-- The texts in it, at any depth. -/
def PageItem.texts : PageItem → List PageText
  | .text t => [t]
  | .box _ _ _ items => itemTexts items
  | .line items => itemTexts items
/-- The texts in them, at any depth. -/
def itemTexts : List PageItem → List PageText
  | [] => []
  | i :: is => i.texts ++ itemTexts is
end

mutual
/-- The rectangles of the texts and boxes in it, at any depth. -/
def PageItem.extents : PageItem → List Extent
  | .text t => [⟨t.left, t.top, t.width, t.height⟩]
  | .box _ border _ items => border :: itemExtents items
  | .line items => itemExtents items
/-- The rectangles of the texts and boxes in them, at any depth. -/
def itemExtents : List PageItem → List Extent
  | [] => []
  | i :: is => i.extents ++ itemExtents is
end

/-- All four sides of the rectangle are in the other one. -/
def Extent.In (e outer : Extent) : Prop :=
  outer.left ≤ e.left ∧ outer.top ≤ e.top ∧ e.left + e.width ≤ outer.left + outer.width ∧ e.top + e.height ≤ outer.top + outer.height

/-- The rectangle does not stick out of the other one at the top, at the bottom or at the left; an empty one may do so at the top and at
the bottom. -/
def Extent.Under (e outer : Extent) : Prop :=
  outer.left ≤ e.left ∧ (e.height = 0 ∨ (outer.top ≤ e.top ∧ e.top + e.height ≤ outer.top + outer.height))

mutual
/-- In each box, what is in it, at any depth, does not stick out of its content area at the top, at the bottom or at the left. If the box is on
a line, its text does not stick out at the right either. Its content area is inside its border. -/
def PageItem.Holds (onLine : Bool) : PageItem → Prop
  | .text _ => True
  | .box _ border content items =>
    content.In border ∧ (∀ e ∈ itemExtents items, e.Under content) ∧
    (onLine = true → ∀ t ∈ itemTexts items, t.left + t.width ≤ content.left + content.width) ∧ itemsHold onLine items
  | .line items => itemsHold true items
/-- See `PageItem.Holds`. -/
def itemsHold (onLine : Bool) : List PageItem → Prop
  | [] => True
  | i :: is => i.Holds onLine ∧ itemsHold onLine is
end

mutual
/-- What is painted for it: backgrounds that are not transparent, each before what is in the box, and texts. -/
def PageItem.marks : PageItem → List (PageText ⊕ Extent × RGBA)
  | .text t => [.inl t]
  | .box style border _ items =>
    (if (backgroundOf style).alpha = 0 then [] else [.inr (border, backgroundOf style)]) ++ itemMarks items
  | .line items => itemMarks items
/-- See `PageItem.marks`. -/
def itemMarks : List PageItem → List (PageText ⊕ Extent × RGBA)
  | [] => []
  | i :: is => i.marks ++ itemMarks is
end

/-- What a reader of a PDF file shows is this text, or this rectangle in this colour. -/
def MarkSeen {R Er : Type} (P : Painter R Er) (p : Verif.Pdf.Painted R) : PageText ⊕ Extent × RGBA → Prop
  | .inl t => t.SeenAs P p
  | .inr (e, color) =>
    match p with
    | .fill cm path rgb alpha =>
      cm = [Verif.Pdf.pageMatrix P.floats] ∧ path = [(P.round e.left, P.round e.top, P.round e.width, P.round e.height)] ∧
      Verif.Pdf.ColorOk P.floats rgb alpha
        (some (P.round (color.red / 255), P.round (color.green / 255), P.round (color.blue / 255), P.round (color.alpha / 255)))
    | .show _ _ _ _ _ _ _ => False

/-- Its left margin is not computed from its width. -/
def PlainLeft (s : ComputedValues) : Prop := Css.widthProperty s = .auto ∨ Css.marginLeft s ≠ .auto

/-- An element in this style is in the flow of the text, does not overlap with others and is not centred; or it has no box. -/
def InPlainFlow (s : ComputedValues) : Prop :=
  (floatOf s = .none ∧ Upright s ∧ PlainLeft s) ∨ (displayOf s = .contents ∧ 0 ≤ fontSizeOf s)

end Verif.Layout
