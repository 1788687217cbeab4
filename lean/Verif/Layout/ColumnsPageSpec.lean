/- Specification for C128: where the backgrounds and the texts of a page are, from top to bottom. -/
import Verif.Layout.ColumnsSpec
import Verif.Layout.RowsPageSpec
namespace Verif.Layout.Machine
open Verif.Style Verif.Text Verif.Float Verif.Pdf

/-- Calls of the API that paint these shapes in their colours, in this order; the vertical positions and the heights of rectangles correspond. -/
inductive ColumnCalls {E : Type} (P : Painter Single E) (Q : Single → Rat → Prop) : List (PageOp Single) → List Shape → Prop
  | nil : ColumnCalls P Q [] []
  | rect {x y w h ops corner size color shapes} : Q y corner.block → Q h size.block → ColumnCalls P Q ops shapes →
      ColumnCalls P Q (colorCall P color :: .rect x y w h :: ops) (.rect corner size color :: shapes)
  | glyphs {ids x y ops fontSize baseline color shapes} : Q y baseline.block → ColumnCalls P Q ops shapes →
      ColumnCalls P Q (colorCall P color :: .text P.fontAddress ids (Single.round fontSize) x y :: ops) (.glyphs ids fontSize baseline color :: shapes)

/-- What a reader finds on the page is a rectangle or are glyphs where this shape is, from top to bottom, or at most `δ` pixels away from there; and
the height of a rectangle is at most `δ` pixels more or less. -/
def InColumn (δ : Rat) : Painted Single → Shape → Prop
  | .fill cm path _ _, .rect corner size _ =>
    InPixels cm ∧ ∃ x y w h, path = [(x, y, w, h)] ∧ Within δ y corner.block ∧ Within δ h size.block
  | .show cm _ unit matrix _ _ _, .glyphs _ fontSize baseline _ =>
    InPixels cm ∧ unit = .int 1 ∧
      ∃ x y, matrix = [.real (Single.round fontSize), .int 0, .int 0, .real (Single.neg (Single.round fontSize)), .real x, .real y] ∧
        Within δ y baseline.block
  | _, _ => False

/-- The sizes of the fonts of the texts are not tiny, and the ascender of no text is higher than `J` (in a font with this ascender, in em). -/
def TextsTo (J ascender : Rat) (shapes : List Shape) : Prop :=
  ∀ ids fontSize baseline color, .glyphs ids fontSize baseline color ∈ shapes → 1 / 2 ^ 100 ≤ fontSize ∧ fontSize * (1 + |ascender|) ≤ J

end Verif.Layout.Machine
