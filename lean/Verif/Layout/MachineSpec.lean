/- The glyphs of fragments with any numbers: a part of the specification of C115. -/
import Verif.Layout.Machine
import Verif.Layout.ShownSpec
import Verif.Layout.GroundSpec
import Verif.Pdf.DocExpect
namespace Verif.Layout.Machine
open Verif.Style Verif.Text
variable {R : Type}

mutual
/-- The glyphs in a fragment in tree order, each with the style it is shown in. -/
def Fragment.glyphs : Fragment R → List (ComputedValues × Nat)
  | .box _ children => fragmentsGlyphs children
  | .anonymous _ children _ => fragmentsGlyphs children
  | .text style _ segment => segment.glyphs.map fun g => (style, g)
/-- See `Fragment.glyphs`. -/
def fragmentsGlyphs : List (Fragment R) → List (ComputedValues × Nat)
  | [] => []
  | f :: fs => f.glyphs ++ fragmentsGlyphs fs
end

/-- A glyph on a page: the glyph, the matrix that the text has, its colour and its opacity. -/
structure Mark (R : Type) where
  glyph : Nat
  matrix : List (Verif.Pdf.Val R)
  rgb : R × R × R
  alpha : R

/-- The glyphs that something painted shows, two bytes each. -/
def marks : Verif.Pdf.Painted R → List (Mark R)
  | .fill _ _ _ _ => []
  | .show _ _ _ matrix s rgb alpha => ((Verif.Pdf.decodeCodes s).getD []).map fun g => ⟨g, matrix, rgb, alpha⟩

/-- The mark is this glyph, in the font size and the colour of this style, upright. `component` is the number for a component of a
colour. -/
def Mark.Styled [Numbers R] (floats : Verif.Pdf.Floats R) (component : Rat → R) (mark : Mark R) (style : ComputedValues) (glyph : Nat) : Prop :=
  let size := (Numbers.lengths (R := R) style).fontSize
  let color : RGBA := style.values .color
  mark.glyph = glyph ∧ (∃ x y, mark.matrix = [.real size, .int 0, .int 0, .real (floats.neg size), .real x, .real y]) ∧
    Verif.Pdf.ColorOk floats mark.rgb mark.alpha
      (some (component (color.red / 255), component (color.green / 255), component (color.blue / 255), component (color.alpha / 255)))

/-- The rectangle is seen in this colour. `component` is the number for a component of a colour. -/
def _root_.Verif.Layout.SeenRect.Filled (floats : Verif.Pdf.Floats R) (component : Rat → R) (s : SeenRect R) (color : RGBA) : Prop :=
  s.pageMatrix = [Verif.Pdf.pageMatrix floats] ∧
  Verif.Pdf.ColorOk floats s.rgb s.alpha
    (some (component (color.red / 255), component (color.green / 255), component (color.blue / 255), component (color.alpha / 255)))

/-- The lengths of a style, each rounded. -/
def roundedLengths (round : Rat → R) (style : ComputedValues) : StyleLengths R :=
  let auto : Style.LengthOrPercentageOrAuto → LengthOrPercentageOrAuto R := fun
    | .length x => .length (round x)
    | .percentage x => .percentage (round x)
    | .auto => .auto
  let some : Style.LengthOrPercentage → LengthOrPercentage R := fun
    | .length x => .length (round x)
    | .percentage x => .percentage (round x)
  ⟨(boxOffsets style).map auto, ⟨auto (boxSize style).inline, auto (boxSize style).block⟩, (padding style).map some,
    (borderWidth style).map some, (margin style).map auto, round (fontSizeOf style)⟩

/-- Exact arithmetic. -/
@[reducible] def exactNumbers : Numbers Rat where
  toAdd := inferInstance
  toSub := inferInstance
  toMul := inferInstance
  toNeg := inferInstance
  toMax := inferInstance
  toMin := inferInstance
  zero := 0
  half x := x / 2
  lineHeight x := x * (12 / 10)
  gt a b := decide (a > b)
  nonNeg a := decide (a ≥ 0)
  isZero a := decide (a = 0)
  lengths := roundedLengths id

end Verif.Layout.Machine
