/- How the crate dtoa (version 0.4, as victor/Cargo.toml asks for) writes an `f32`. Its source is not in /repo; that this account of it is right is
assumed (DESIGN.md 3.1). Which digits it finds (the algorithm Grisu2) is a parameter. -/
import Verif.Pdf.DecimalReal
import Mathlib.Data.Rat.Floor
import Mathlib.Algebra.Order.Field.Power
namespace Verif.Pdf
open Verif.Float

/-- Called by pdf/object.rs 156; `prettify` in dtoa: the integer `n` times 10 to the power of `k`, with a decimal point where the number is not
too large or too small, and with an exponent otherwise. -/
def prettify (n : Nat) (k : Int) : List Byte :=
  let digits := decimal n
  let point : Int := digits.length + k
  if 0 ≤ k ∧ point ≤ 21 then digits ++ List.replicate k.toNat 48 ++ [46, 48]
  else if 0 < point ∧ point ≤ 21 then digits.take point.toNat ++ 46 :: digits.drop point.toNat
  else if -6 < point ∧ point ≤ 0 then [48] ++ 46 :: (List.replicate (-point).toNat 48 ++ digits)
  else if digits.length = 1 then digits ++ 101 :: decimalInt (point - 1)
  else digits.take 1 ++ 46 :: digits.drop 1 ++ 101 :: decimalInt (point - 1)

/-- Called by pdf/object.rs 156; `dtoa::write` of an `f32`. `digits` is Grisu2: for the bits of a number that is neither zero nor infinite, an
integer and a power of ten. -/
def dtoaText (digits : Nat → Nat × Int) : Single → List Byte
  | .nan => ascii "NaN"
  | .num neg bits _ => (if neg then [45] else []) ++
    (if bits = 0 then ascii "0.0"
    else if bits = infinityBits then ascii "inf"
    else prettify (digits bits).1 (digits bits).2)

/-- What Grisu2 is known for: the digits that it finds are rounded to the number they were made of. They need not be the fewest. -/
def FindsDigits (digits : Nat → Nat × Int) : Prop :=
  ∀ bits, 0 < bits → bits < infinityBits → 0 < (digits bits).1 ∧
    nearestBits (((digits bits).1 : Rat) * 10 ^ (digits bits).2 * 2 ^ 149) = bits

/-- The numbers that are printed without an exponent: zero, and those between a millionth and 10 to the power of 21. -/
def Plain (r : Single) : Prop :=
  r ≠ .nan ∧ (r.value = 0 ∨ ((Single.round (1 / 10 ^ 6)).value < |r.value| ∧ |r.value| < (Single.round (10 ^ 21)).value))

/-- The numbers that are not: NaN, infinities (whose bits have a value beyond that of all finite numbers), those smaller than a millionth and
those larger than 10 to the power of 21. -/
def NotPlain (r : Single) : Prop :=
  r = .nan ∨ (0 < |r.value| ∧ |r.value| < (Single.round (1 / 10 ^ 6)).value) ∨ (Single.round (10 ^ 21)).value < |r.value|

/-- The fewest digits, for examples. -/
def shortestDigits (bits : Nat) : Nat × Int :=
  let v : Rat := (units bits : Rat) / 2 ^ 149
  match ((List.range 93).map fun (i : Nat) => ((v / 10 ^ ((38 : Int) - i) + 1 / 2).floor.toNat, (38 : Int) - i)).find? fun c =>
      decide (0 < c.1) && decide (nearestBits ((c.1 : Rat) * 10 ^ c.2 * 2 ^ 149) = bits) with
  | some c => c
  | none => (units bits * 5 ^ 149, -149)

end Verif.Pdf
