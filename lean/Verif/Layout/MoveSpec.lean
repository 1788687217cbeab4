/- Moving positioned elements: the specification of C109. -/
import Verif.Layout.BoundSpec
import Verif.Layout.DissolveSpec
namespace Verif.Layout
open Verif.Style Verif.Text

/-- How far an element is moved to the right by its properties `left` and `right`, or down by `top` and `bottom`. (CSS 2.1, 9.4.3.) -/
def offsetShift : LengthOrPercentageOrAuto → LengthOrPercentageOrAuto → Rat
  | .length l, _ => l
  | .auto, .length l => -l
  | _, _ => 0

/-- How far an element is moved to the right and down by its offsets. -/
def displaced (s : ComputedValues) : Vec2 Rat :=
  ⟨offsetShift (s.values .left) (s.values .right), offsetShift (s.values .top) (s.values .bottom)⟩

/-- It is a block, and not a part of a line. -/
def blockLevel (s : ComputedValues) : Bool :=
  match displayOf s with
  | .generatingBox .block _ => true
  | _ => false

/-- Not a percentage. -/
def IsFixed : LengthOrPercentageOrAuto → Bool
  | .percentage _ => false
  | _ => true

/-- One of the two offsets is a length, and the other one is not given. -/
def OneOffset (start end_ start' end_' : LengthOrPercentageOrAuto) : Prop :=
  (∃ l l', start = .length l ∧ end_ = .auto ∧ start' = .length l' ∧ end_' = .auto) ∨
  (∃ l l', start = .auto ∧ end_ = .length l ∧ start' = .auto ∧ end_' = .length l')

/-- The offsets of an element along one axis, in two documents: they are the same, or the element is moved along that axis and nothing else.
So it is if it is a relatively positioned block and the offsets are no percentages, or if it is absolutely positioned at one of its sides and
its size does not depend on the offsets. -/
def SameOrMoved (s : ComputedValues) (sized : Prop) (start end_ start' end_' : LengthOrPercentageOrAuto) : Prop :=
  (start = start' ∧ end_ = end_') ∨
  (blockLevel s = true ∧ positionOf s = .relative ∧ IsFixed start = true ∧ IsFixed end_ = true ∧ IsFixed start' = true ∧ IsFixed end_' = true) ∨
  (blockLevel s = true ∧ positionOf s = .absolute ∧ sized ∧ OneOffset start end_ start' end_')

/-- The properties that say where positioned elements are. -/
def OffsetProperty : Longhand → Bool
  | .top | .left | .bottom | .right => true
  | _ => false

/-- The styles are the same, but positioned elements may be at other places. The width must be given where elements are moved horizontally, as
it would be computed from the offsets otherwise. -/
structure SameButPlace (s s' : ComputedValues) : Prop where
  values : ∀ p, OffsetProperty p = false → s.values p = s'.values p
  specified : s.specifiedDisplay = s'.specifiedDisplay
  horizontal : SameOrMoved s (s.values .width ≠ .auto) (s.values .left) (s.values .right) (s'.values .left) (s'.values .right)
  vertical : SameOrMoved s True (s.values .top) (s.values .bottom) (s'.values .top) (s'.values .bottom)

mutual
/-- The nodes are the same, but positioned elements may be at other places. -/
def StyledNode.SameButPlace : StyledNode → StyledNode → Prop
  | .ignored, .ignored => True
  | .text t, .text t' => t = t'
  | .element s children, .element s' children' => Layout.SameButPlace s s' ∧ nodesSameButPlace children children'
  | _, _ => False
/-- See `StyledNode.SameButPlace`. -/
def nodesSameButPlace : List StyledNode → List StyledNode → Prop
  | [], [] => True
  | n :: ns, n' :: ns' => n.SameButPlace n' ∧ nodesSameButPlace ns ns'
  | _, _ => False
end

/-- The rectangle is moved. -/
def Extent.movedBy (e : Extent) (d : Vec2 Rat) : Extent := ⟨e.left + d.inline, e.top + d.block, e.width, e.height⟩

/-- How far an element is moved if what it is in is moved by `d` and its style is changed. -/
def Vec2.shifted (d : Vec2 Rat) (s s' : ComputedValues) : Vec2 Rat :=
  ⟨d.inline + ((displaced s').inline - (displaced s).inline), d.block + ((displaced s').block - (displaced s).block)⟩

mutual
/-- What is on one page is on the other one as well, moved by `d`; a box that is moved itself is moved by so much more, with all that is in it,
and nothing else is. -/
def PageItem.Moved (d : Vec2 Rat) : PageItem → PageItem → Prop
  | .text t, .text t' =>
    look t.style = look t'.style ∧ t'.glyphs = t.glyphs ∧ t'.left = t.left + d.inline ∧ t'.top = t.top + d.block ∧ t'.width = t.width ∧
    t'.height = t.height
  | .box s border content items, .box s' border' content' items' =>
    Layout.SameButPlace s s' ∧
    border' = border.movedBy (d.shifted s s') ∧ content' = content.movedBy (d.shifted s s') ∧
    itemsMoved (d.shifted s s') items items'
  | .line items, .line items' => itemsMoved d items items'
  | _, _ => False
/-- See `PageItem.Moved`. -/
def itemsMoved (d : Vec2 Rat) : List PageItem → List PageItem → Prop
  | [], [] => True
  | i :: is, i' :: is' => i.Moved d i' ∧ itemsMoved d is is'
  | _, _ => False
end

end Verif.Layout
