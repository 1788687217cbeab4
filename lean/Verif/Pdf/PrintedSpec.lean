import Verif.Pdf.DocExpect
/-
Specification for numbers of which some are not printed as PDF numbers. `dtoa` prints the infinities and NaN as words, and very large and very
small numbers with an exponent, none of which is a number in PDF files (ISO 32000-1, 7.3.3).
-/
namespace Verif.Pdf

section
variable {R : Type}

/-- What is assumed of the `dtoa` crate for the numbers which are `good`, and nothing for others: their text is one regular token, is not the
text of an integer, and reads back as the same number. Whatever the reader takes for a real number starts with a digit, a sign or a point. -/
structure RealTextOn (good : R → Prop) (dtoa : R → List Byte) (readReal : List Byte → Option R) : Prop where
  reads_back : ∀ r, good r → readReal (dtoa r) = some r
  regular : ∀ r, good r → ∀ b ∈ dtoa r, isRegular b = true
  not_int : ∀ r, good r → readInt (dtoa r) = none
  not_empty : ∀ r, good r → dtoa r ≠ []
  start : ∀ b t, b ∉ ascii "0123456789+-." → readReal (b :: t) = none

/-- Only good numbers are printed in a file: how other numbers are printed makes no difference to it. `file` is the file for each way to print
numbers. -/
def OnlyPrints {A : Type} (good : R → Prop) (dtoa : R → List Byte) (file : (R → List Byte) → A) : Prop :=
  ∀ dtoa' : R → List Byte, (∀ r, good r → dtoa' r = dtoa r) → file dtoa' = file dtoa

/-- Another way to print numbers. -/
def Floats.printing (F : Floats R) (dtoa : R → List Byte) : Floats R := { F with dtoa := dtoa }

/-- The numbers of a call which are printed: those given, the opacity clamped to 0..1, and the negated font size. -/
def PageOp.numbers (F : Floats R) : PageOp R → List R
  | .color r g b a => [r, g, b, F.clampUnit a]
  | .rect x y w h => [x, y, w, h]
  | .text _ _ fontSize ox oy => [fontSize, F.neg fontSize, ox, oy]

/-- The numbers of a page which are printed: the scale of a CSS pixel, the scaled size, and those of the calls. -/
def PageCalls.numbers (F : Floats R) (c : PageCalls R) : List R :=
  [F.scaleX, F.scaleY, F.mul c.width F.scaleX, F.mul c.height F.scaleY] ++ c.ops.flatMap (PageOp.numbers F)

end
end Verif.Pdf
