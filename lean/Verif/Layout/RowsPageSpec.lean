/- Specification for C126: where the backgrounds and the texts of a page are, from left to right. -/
import Verif.Layout.RowsSpec
import Verif.Layout.PaintSpec
import Verif.Layout.WholePageSpec
import Verif.Layout.PrintedTheorems
namespace Verif.Layout.Machine
open Verif.Style Verif.Text Verif.Float Verif.Pdf

mutual
/-- How deep fragments are in each other. -/
def _root_.Verif.Layout.Fragment.layers : Layout.Fragment → Nat
  | .box _ children => fragmentLayers children + 1
  | .anonymous _ children _ => fragmentLayers children + 1
  | .text _ _ _ => 1
/-- See `Fragment.layers`. -/
def fragmentLayers : List Layout.Fragment → Nat
  | [] => 0
  | f :: fs => max f.layers (fragmentLayers fs)
end

/-- The page has the coordinates of CSS pixels, with the origin at the top left. -/
def InPixels (cm : List (List (Val Single))) : Prop :=
  ∃ a b, cm = [[.real a, .int 0, .int 0, .real b, .int 0, .int 0]] ∧ Exactly a (3 / 4) ∧ Exactly b (-(3 / 4))

/-- The bytes of the colour that a reader finds. -/
def ColoredAs (rgb : Single × Single × Single) (alpha : Single) (color : RGBA) : Prop :=
  IsBytes color → level rgb.1 = color.red ∧ level rgb.2.1 = color.green ∧ level rgb.2.2 = color.blue ∧ level alpha = color.alpha

/-- What a reader finds on the page is this shape, and is exactly at its place from left to right: a rectangle has the same left side and the same
width, glyphs are the same ones and start at the same horizontal position, upright and in the font size as nearly as `f32` has it. Both have the
bytes of its colour. Nothing is said of vertical positions and heights. -/
def InRow : Painted Single → Shape → Prop
  | .fill cm path rgb alpha, .rect corner size color =>
    InPixels cm ∧ (∃ x y w h, path = [(x, y, w, h)] ∧ Exactly x corner.inline ∧ Exactly w size.inline) ∧ ColoredAs rgb alpha color
  | .show cm _ unit matrix s rgb alpha, .glyphs ids fontSize baseline color =>
    InPixels cm ∧ unit = .int 1 ∧
      (∃ x y, matrix = [.real (Single.round fontSize), .int 0, .int 0, .real (Single.neg (Single.round fontSize)), .real x, .real y] ∧
        Exactly x baseline.inline) ∧
      decodeCodes s = some ids ∧ ColoredAs rgb alpha color
  | _, _ => False

/-- Calls of the API that paint these shapes in their colours, in this order; the horizontal positions and widths are exact. Glyphs are those that
the font has for characters. -/
inductive RowCalls {E Err : Type} (P : Painter Single E) (F : FontApi Single Err) : List (PageOp Single) → List Shape → Prop
  | nil : RowCalls P F [] []
  | rect {x y w h ops corner size color shapes} : Exactly x corner.inline → Exactly w size.inline → RowCalls P F ops shapes →
      RowCalls P F (colorCall P color :: .rect x y w h :: ops) (.rect corner size color :: shapes)
  | glyphs {ids x y ops fontSize baseline color shapes} : (∀ g ∈ ids, ∃ c, F.glyphId c = .ok g) → Exactly x baseline.inline →
      RowCalls P F ops shapes →
      RowCalls P F (colorCall P color :: .text P.fontAddress ids (Single.round fontSize) x y :: ops) (.glyphs ids fontSize baseline color :: shapes)

end Verif.Layout.Machine
