/- All lengths multiplied by a number: the specification of C97. -/
import Verif.Layout.Construct
import Verif.Layout.PaintSpec
namespace Verif.Layout
open Verif.Style Verif.Text

variable (k : Rat)

/-- A length, or a percentage of some other length. -/
def zoomLength : LengthOrPercentage → LengthOrPercentage
  | .length l => .length (k * l)
  | .percentage p => .percentage p
/-- See `zoomLength`. -/
def zoomLengthOrAuto : LengthOrPercentageOrAuto → LengthOrPercentageOrAuto
  | .length l => .length (k * l)
  | .percentage p => .percentage p
  | .auto => .auto

/-- The computed value of a property: font sizes and other lengths are multiplied, everything else is kept. -/
def zoomValue : (kind : Kind) → kind.Value → kind.Value
  | .fontSize, size => k * size
  | .lengthOrPercentageOrAuto, v => zoomLengthOrAuto k v
  | .lengthOrPercentage, v => zoomLength k v
  | .lineWidth, v => zoomLength k v
  | .rgba, v => v
  | .position, v => v
  | .float, v => v
  | .display, v => v
  | .color, v => v
  | .lineStyle, v => v

/-- All lengths of a style. -/
def zoomStyle (s : ComputedValues) : ComputedValues := ⟨fun p => zoomValue k p.kind (s.values p), s.specifiedDisplay⟩

mutual
/-- All lengths of the styles in a document. -/
def zoomNode : StyledNode → StyledNode
  | .ignored => .ignored
  | .text t => .text t
  | .element s children => .element (zoomStyle k s) (zoomNodes children)
/-- See `zoomNode`. -/
def zoomNodes : List StyledNode → List StyledNode
  | [] => []
  | n :: ns => zoomNode n :: zoomNodes ns
end

/-- A point, or the two sides of a rectangle. -/
def zoomVec (v : Vec2 Rat) : Vec2 Rat := ⟨k * v.inline, k * v.block⟩

/-- Something on a page: as if seen through a magnifying glass. -/
def zoomShape : Shape → Shape
  | .rect corner size color => .rect (zoomVec k corner) (zoomVec k size) color
  | .glyphs ids fontSize baseline color => .glyphs ids (k * fontSize) (zoomVec k baseline) color

end Verif.Layout
