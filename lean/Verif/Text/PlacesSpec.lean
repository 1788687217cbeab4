/- Specification for C122: where the lines of a plain text should be on a page, with single precision numbers. -/
import Verif.Text.SingleSpec
import Verif.Float.SingleOrder
namespace Verif.Text.Machine
open Verif.Pdf Verif.Float

/-- The height of a line and the ascender, in em, and one more. -/
def emsOf (style : Style Single) : Rat := style.lineHeight.value + 1 + style.ascender.value

/-- A usual height: the height of the page is between 2⁻¹⁰⁰ and 2¹⁰⁰ pixels, the margins are not negative and not larger than the page; the font
size is not less than 2⁻¹⁰⁰ pixels, the height of a line and the ascender of the font are not negative, and lines are not higher than 2¹⁰⁰ pixels. -/
structure UsualHeight (style : Style Single) : Prop where
  height_finite : (height single style).Finite
  height_ge : 1 / 2 ^ 100 ≤ (height single style).value
  height_le : (height single style).value ≤ 2 ^ 100
  margin_finite : (margin single style).Finite
  margin_nonneg : 0 ≤ (margin single style).value
  margin_le : 2 * (margin single style).value ≤ (height single style).value
  size_finite : style.fontSize.Finite
  size_ge : 1 / 2 ^ 100 ≤ style.fontSize.value
  line_finite : style.lineHeight.Finite
  line_nonneg : 0 ≤ style.lineHeight.value
  ascender_finite : style.ascender.Finite
  ascender_nonneg : 0 ≤ style.ascender.value
  ems_le : emsOf style ≤ 2 ^ 100
  ems_size_le : emsOf style * style.fontSize.value ≤ 2 ^ 100

/-- The baseline of the line with this index on a page, with exact numbers: the first line is below the margin, each other one is one line height
below the line before it, and in each line the space that the font size leaves is half above the text. -/
def exactBaseline (style : Style Single) (j : Nat) : Rat :=
  (margin single style).value + j * (style.lineHeight.value * style.fontSize.value) +
    ((style.lineHeight.value - 1) / 2 + style.ascender.value) * style.fontSize.value

/-- This call shows a text in the font size at this height, but for `3 j + 9` parts in 2²⁴ of the height of the page and a line together. -/
def AtBaseline (style : Style Single) (j : Nat) (call : PageOp Single) : Prop :=
  ∃ address glyphs x y, call = .text address glyphs style.fontSize x y ∧ y.Finite ∧
    |y.value - exactBaseline style j| ≤ (3 * j + 9) * ((height single style).value + emsOf style * style.fontSize.value) / 2 ^ 24

end Verif.Text.Machine
