/- Model of `f32`: the binary32 format of IEEE 754, with rounding to nearest, ties to even. The code of /repo has no definition of it: it is
part of the language (the reference, "Floating-point types"). Simplification: there is one NaN, without sign and payload. -/
import Mathlib.Data.Rat.Floor
namespace Verif.Float

/-- The bit pattern of infinity without the sign; smaller ones are finite numbers, larger ones are not in the model (NaN is apart). -/
def infinityBits : Nat := 0x7f800000

/-- An `f32`: NaN, or a sign and the other 31 bits. -/
inductive Single where
  | nan
  | num (neg : Bool) (bits : Nat) (le : bits ≤ infinityBits)
deriving DecidableEq

/-- The number that these bits stand for, in units of 2 to the power of -149: the upper 8 bits are the exponent, the lower 23 the fraction. -/
def units (bits : Nat) : Nat :=
  if bits / 2 ^ 23 = 0 then bits else (2 ^ 23 + bits % 2 ^ 23) * 2 ^ (bits / 2 ^ 23 - 1)

/-- The bits of the greatest number that is not greater than a whole number of units. -/
def bitsBelow (n : Nat) : Nat := if n < 2 ^ 24 then n else (n.log2 - 23) * 2 ^ 23 + n / 2 ^ (n.log2 - 23)

/-- The bits of the number nearest to a number of units that is not negative; of two, the one with even bits. -/
def nearestBits (x : Rat) : Nat :=
  let b := bitsBelow x.floor.toNat
  min infinityBits
    (if x - units b < units (b + 1) - x then b
    else if units (b + 1) - x < x - units b then b + 1
    else if b % 2 = 0 then b else b + 1)

theorem nearestBits_le (x : Rat) : nearestBits x ≤ infinityBits := Nat.min_le_left _ _

namespace Single

/-- The number that is nearest to this one in absolute value, with this sign. -/
def signed (neg : Bool) (magnitude : Rat) : Single := .num neg (nearestBits (magnitude * 2 ^ 149)) (nearestBits_le _)

/-- Rounding of a number; `zeroNeg` is the sign of zero. -/
def round (x : Rat) (zeroNeg : Bool := false) : Single := if x = 0 then signed zeroNeg 0 else signed (decide (x < 0)) |x|

def zero : Single := .num false 0 (Nat.zero_le _)
def infinity (neg : Bool) : Single := .num neg infinityBits (Nat.le_refl _)

/-- The value of finite numbers. -/
def value : Single → Rat
  | .nan => 0
  | .num neg bits _ => (if neg then -1 else 1) * (units bits / 2 ^ 149)

/-- `+` -/
def add : Single → Single → Single
  | .num n b h, .num n' b' h' =>
    if b = infinityBits then
      if b' = infinityBits ∧ n ≠ n' then .nan else .num n b h
    else if b' = infinityBits then .num n' b' h'
    else round (value (.num n b h) + value (.num n' b' h')) (n && n')
  | _, _ => .nan

/-- `-`, unary -/
def neg : Single → Single
  | .num n b h => .num (!n) b h
  | .nan => .nan

/-- `-` -/
def sub (a b : Single) : Single := add a (neg b)

/-- `*` -/
def mul : Single → Single → Single
  | .num n b _, .num n' b' _ =>
    if b = infinityBits ∨ b' = infinityBits then
      if b = 0 ∨ b' = 0 then .nan else infinity (n != n')
    else signed (n != n') (units b / 2 ^ 149 * (units b' / 2 ^ 149))
  | _, _ => .nan

/-- `/` -/
def div : Single → Single → Single
  | .num n b _, .num n' b' _ =>
    if b = infinityBits then
      if b' = infinityBits then .nan else infinity (n != n')
    else if b' = infinityBits then .num (n != n') 0 (Nat.zero_le _)
    else if b' = 0 then
      if b = 0 then .nan else infinity (n != n')
    else signed (n != n') ((units b / 2 ^ 149) / (units b' / 2 ^ 149))
  | _, _ => .nan

/-- What comparisons compare: numbers with the same sign are in the order of their bits, and both zeros are equal. -/
def key : Single → Int
  | .num neg bits _ => if neg then -bits else bits
  | .nan => 0

/-- `>`: false if one is NaN. -/
def gt : Single → Single → Bool
  | .nan, _ => false
  | _, .nan => false
  | a, b => decide (a.key > b.key)

/-- `>=` -/
def ge : Single → Single → Bool
  | .nan, _ => false
  | _, .nan => false
  | a, b => decide (a.key ≥ b.key)

/-- `==` -/
def eq : Single → Single → Bool
  | .nan, _ => false
  | _, .nan => false
  | a, b => decide (a.key = b.key)

/-- `f32::max`: the other one if one is NaN. -/
def max (a b : Single) : Single := match a, b with
  | .nan, b => b
  | a, .nan => a
  | a, b => if a.key < b.key then b else a

/-- `f32::min` -/
def min (a b : Single) : Single := match a, b with
  | .nan, b => b
  | a, .nan => a
  | a, b => if b.key < a.key then b else a

/-- `1.` -/
def one : Single := .num false 0x3f800000 (by decide)

/-- `as f32` -/
def ofNat (n : Nat) : Single := signed false n

/-- `as f32`, of integers -/
def ofInt (n : Int) : Single := signed (decide (n < 0)) n.natAbs

/-- `as i32`: towards zero, to the nearest end of the range, and NaN to 0. -/
def truncated32 : Single → Int
  | .nan => 0
  | .num neg b _ =>
    let magnitude : Int := if b = infinityBits then 2 ^ 31 else (units b / 2 ^ 149 : Nat)
    if neg then -(Min.min magnitude (2 ^ 31)) else Min.min magnitude (2 ^ 31 - 1)

end Single

end Verif.Float
