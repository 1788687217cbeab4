/- The numbers of documents in single precision. -/
import Verif.Pdf.DocExpect
import Verif.Float.SingleRound
namespace Verif.Pdf
open Verif.Float

/-- pdf/convert.rs 252, `as u16`: towards zero, to the nearest end of the range, and NaN to 0. -/
def truncated16 (a : Single) : Nat := match a with
  | .nan => 0
  | .num true _ _ => 0
  | .num false b h => if b = infinityBits then 65535 else min 65535 (Single.value (.num false b h)).floor.toNat

/-- The `f32` of documents; how they are written is not modelled. -/
def singleFloats (dtoa : Single → List Byte) : Floats Single where
  zero := .zero
  one := .one
  scaleX := .round (75 / 100)
  scaleY := .round (-75 / 100)
  mul := .mul
  neg := .neg
  ne a b := !Single.eq a b
  clampUnit a := (a.max .zero).min .one
  key a := truncated16 (.mul a (.ofNat 65535))
  dtoa := dtoa

theorem truncated16_lt (a : Single) : truncated16 a < 65536 := by
  unfold truncated16
  split
  · decide
  · decide
  · split <;> omega

theorem single_mul_zero (n m : Bool) (c : Nat) (hc : c < infinityBits) (h h') :
    truncated16 (Single.mul (.num n 0 h) (.num m c h')) = 0 := by
  have e : Single.mul (.num n 0 h) (.num m c h') = .num (n != m) 0 h := by
    have i0 : 0 ≠ infinityBits := by decide
    simp [Single.mul, i0, Nat.ne_of_lt hc, Single.signed, units, Single.nearestBits_zero]
  rw [e]
  have i0 : 0 ≠ infinityBits := by decide
  cases n <;> cases m <;> simp [truncated16, Single.value, units, i0]
  all_goals decide

/-- C116: what other theorems assume of the `f32` of documents holds. -/
theorem C116_floats (dtoa : Single → List Byte) : FloatLaws (singleFloats dtoa) := by
  refine ⟨?_, fun a => truncated16_lt _⟩
  intro a b hab
  rcases a with _ | ⟨n, a, ha⟩
  · simp [singleFloats, Single.eq] at hab
  rcases b with _ | ⟨m, b, hb⟩
  · simp [singleFloats, Single.eq] at hab
  have hk : Single.key (.num n a ha) = Single.key (.num m b hb) := by simpa [singleFloats, Single.eq] using hab
  have f := (Single.ofNat_pos (n := 65535) (by decide) (by decide)).2
  have e : ∃ c h, c < infinityBits ∧ Single.ofNat 65535 = .num false c h := ⟨_, _, Single.finite_num.1 f, rfl⟩
  obtain ⟨c, h, hc, e⟩ := e
  simp only [singleFloats]
  rw [e]
  by_cases hnm : n = m
  · subst hnm
    have : a = b := by cases n <;> simp [Single.key] at hk <;> exact hk
    subst this
    rfl
  · have hz : a = 0 ∧ b = 0 := by
      cases n <;> cases m <;> simp [Single.key] at hk hnm <;> omega
    obtain ⟨rfl, rfl⟩ := hz
    rw [single_mul_zero _ _ _ hc, single_mul_zero _ _ _ hc]

/-- A way to write numbers, for examples: sign and bits, as a whole number. -/
def bitsFloats : Floats Single := singleFloats fun
  | .nan => ascii "NaN"
  | .num neg bits _ => (if neg then ascii "-" else []) ++ (Nat.toDigits 10 bits).map fun c => Fin.ofNat 256 c.toNat

end Verif.Pdf
