/- Bounds on the errors of single precision arithmetic. -/
import Verif.Float.SingleRound
import Verif.Float.SingleError
import Mathlib.Algebra.Order.Floor.Ring
namespace Verif.Float

theorem nearestBits_bound {y B : Rat} (hy : 0 ≤ y) (hB : y ≤ B) (h1 : 2 ^ 23 ≤ B) (hf : nearestBits y < infinityBits) :
    |(units (nearestBits y) : Rat) - y| ≤ B / 2 ^ 24 := by
  by_cases hbig : 2 ^ 23 ≤ y
  · refine le_trans (nearestBits_error hbig hf) ?_
    exact div_le_div_of_nonneg_right hB (by positivity)
  · have hsmall := not_le.1 hbig
    have e0 : 0 ≤ ⌊y + 1 / 2⌋ := Int.floor_nonneg.2 (by linarith)
    have e1 : (⌊y + 1 / 2⌋ : Rat) ≤ y + 1 / 2 := Int.floor_le _
    have e2 : y + 1 / 2 < ⌊y + 1 / 2⌋ + 1 := Int.lt_floor_add_one _
    have e3 : ((⌊y + 1 / 2⌋.toNat : Nat) : Rat) = (⌊y + 1 / 2⌋ : Rat) := by
      have : ((⌊y + 1 / 2⌋.toNat : Nat) : Int) = ⌊y + 1 / 2⌋ := Int.toNat_of_nonneg e0
      exact_mod_cast this
    generalize ⌊y + 1 / 2⌋.toNat = b at e3
    rw [← e3] at e1 e2
    have hb : b ≤ 2 ^ 24 := by
      have : (b : Rat) ≤ 2 ^ 24 := by linarith
      exact_mod_cast this
    have hn := nearestBits_nearest hy hf b
    rw [units_small hb] at hn
    rw [abs_sub_comm]
    refine le_trans hn ?_
    have : |y - (b : Rat)| ≤ 1 / 2 := abs_le.2 ⟨by linarith, by linarith⟩
    refine le_trans this ?_
    rw [le_div_iff₀ (by positivity)]
    linarith

namespace Single

theorem round_value (x : Rat) (z : Bool) :
    |(round x z).value - x| = |(units (nearestBits (|x| * 2 ^ 149)) : Rat) - |x| * 2 ^ 149| / 2 ^ 149 := by
  have hp : (0 : Rat) < 2 ^ 149 := by positivity
  have key : ∀ u : Rat, |u - |x| * 2 ^ 149| / 2 ^ 149 = |u / 2 ^ 149 - (|x|)| := by
    intro u
    rw [← abs_of_pos hp, ← abs_div, abs_of_pos hp, sub_div, mul_div_assoc, div_self hp.ne', mul_one]
  rw [key]
  unfold round
  by_cases h0 : x = 0
  · rw [if_pos h0, h0]
    cases z <;> simp [signed, value, nearestBits_zero, units]
  · rw [if_neg h0]
    by_cases hx : x < 0
    · simp only [hx, decide_true, signed, value, if_true]
      rw [abs_of_neg hx, ← abs_neg]
      congr 1
      ring
    · simp only [hx, decide_false, signed, value, Bool.false_eq_true, if_false, one_mul]
      rw [abs_of_nonneg (not_lt.1 hx)]

/-- A number that is not greater than `B` is rounded by at most one part in 2²⁴ of `B`. -/
theorem round_bound {x B : Rat} (z : Bool) (hB : |x| ≤ B) (h1 : 1 / 2 ^ 126 ≤ B) (h2 : B ≤ 2 ^ 127) :
    Finite (round x z) ∧ |(round x z).value - x| ≤ B / 2 ^ 24 := by
  have hfin : Finite (round x z) := (C116_overflow x z).2 (lt_of_le_of_lt (le_trans hB h2) (by norm_num))
  refine ⟨hfin, ?_⟩
  have hf : nearestBits (|x| * 2 ^ 149) < infinityBits := by
    by_cases h0 : x = 0
    · rw [h0, abs_zero, zero_mul, nearestBits_zero]; decide
    · unfold round at hfin
      rw [if_neg h0] at hfin
      exact finite_num.1 hfin
  rw [round_value, div_le_iff₀ (by positivity)]
  have := nearestBits_bound (y := |x| * 2 ^ 149) (B := B * 2 ^ 149) (by positivity) (mul_le_mul_of_nonneg_right hB (by positivity)) (by
    have : (2 : Rat) ^ 23 = 1 / 2 ^ 126 * 2 ^ 149 := by norm_num
    rw [this]
    exact mul_le_mul_of_nonneg_right h1 (by positivity)) hf
  refine le_trans this (le_of_eq ?_)
  ring

variable {a b : Single} {B : Rat}

theorem add_bound (ha : Finite a) (hb : Finite b) (hB : |a.value + b.value| ≤ B) (h1 : 1 / 2 ^ 126 ≤ B) (h2 : B ≤ 2 ^ 127) :
    Finite (add a b) ∧ |(add a b).value - (a.value + b.value)| ≤ B / 2 ^ 24 := by
  obtain ⟨z, e⟩ := (C116_operations ha hb).1
  rw [e]
  exact round_bound z hB h1 h2

theorem sub_bound (ha : Finite a) (hb : Finite b) (hB : |a.value - b.value| ≤ B) (h1 : 1 / 2 ^ 126 ≤ B) (h2 : B ≤ 2 ^ 127) :
    Finite (sub a b) ∧ |(sub a b).value - (a.value - b.value)| ≤ B / 2 ^ 24 := by
  obtain ⟨z, e⟩ := (C116_operations ha hb).2.1
  rw [e]
  exact round_bound z hB h1 h2

theorem mul_bound (ha : Finite a) (hb : Finite b) (hB : |a.value * b.value| ≤ B) (h1 : 1 / 2 ^ 126 ≤ B) (h2 : B ≤ 2 ^ 127) :
    Finite (mul a b) ∧ |(mul a b).value - a.value * b.value| ≤ B / 2 ^ 24 := by
  obtain ⟨z, e⟩ := (C116_operations ha hb).2.2.1
  rw [e]
  exact round_bound z hB h1 h2

theorem div_bound (ha : Finite a) (hb : Finite b) (h0 : b.value ≠ 0) (hB : |a.value / b.value| ≤ B) (h1 : 1 / 2 ^ 126 ≤ B) (h2 : B ≤ 2 ^ 127) :
    Finite (div a b) ∧ |(div a b).value - a.value / b.value| ≤ B / 2 ^ 24 := by
  obtain ⟨z, e⟩ := (C116_operations ha hb).2.2.2.1 h0
  rw [e]
  exact round_bound z hB h1 h2

end Single

end Verif.Float
