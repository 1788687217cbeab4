/- Exact results and relative errors of the operations of `f32`. -/
import Verif.Float.SingleRound
namespace Verif.Float

theorem units_infinity : units infinityBits = 2 ^ 277 := by decide +kernel

/-- Numbers of at most 24 binary digits are in the format. -/
theorem units_scale {m j : Nat} (hm : m < 2 ^ 24) : ∃ b, units b = m * 2 ^ j := by
  by_cases hn : m * 2 ^ j < 2 ^ 24
  · exact ⟨_, units_small hn.le⟩
  have hm0 : m ≠ 0 := by
    rintro rfl
    simp at hn
  have h0 : m * 2 ^ j ≠ 0 := by positivity
  have hlog : (m * 2 ^ j).log2 < 24 + j := (Nat.log2_lt h0).2 (by rw [Nat.pow_add]; exact Nat.mul_lt_mul_of_pos_right hm (by positivity))
  have hlog' : 24 ≤ (m * 2 ^ j).log2 := (Nat.le_log2 h0).2 (by omega)
  obtain ⟨k, hk⟩ : ∃ k, (m * 2 ^ j).log2 = k + 23 := ⟨(m * 2 ^ j).log2 - 23, by omega⟩
  have hkj : k ≤ j := by omega
  have e : m * 2 ^ j = m * 2 ^ (j - k) * 2 ^ k := by rw [Nat.mul_assoc, ← Nat.pow_add, Nat.sub_add_cancel hkj]
  have lo : 2 ^ (k + 23) ≤ m * 2 ^ j := hk ▸ (Nat.le_log2 h0).1 (Nat.le_refl _)
  have hi : m * 2 ^ j < 2 ^ (k + 24) := by
    have := (Nat.log2_lt (k := (m * 2 ^ j).log2 + 1) h0).1 (by omega)
    rwa [hk] at this
  have hp : 0 < 2 ^ k := by positivity
  refine ⟨k * 2 ^ 23 + m * 2 ^ (j - k), ?_⟩
  rw [units_scaled, e]
  · rw [e, Nat.add_comm, Nat.pow_add] at lo
    exact Nat.le_of_mul_le_mul_right lo hp
  · rw [e, Nat.add_comm, Nat.pow_add] at hi
    exact (Nat.lt_of_mul_lt_mul_right hi).le

theorem nearestBits_scale {m j : Nat} (hm : m < 2 ^ 24) (hj : j ≤ 253) :
    units (nearestBits ((m * 2 ^ j : Nat) : Rat)) = m * 2 ^ j ∧ nearestBits ((m * 2 ^ j : Nat) : Rat) < infinityBits := by
  obtain ⟨b, hb⟩ := units_scale (j := j) hm
  have hlt : b < infinityBits := by
    refine units_strictMono.lt_iff_lt.1 ?_
    rw [hb, units_infinity]
    calc m * 2 ^ j < 2 ^ 24 * 2 ^ j := Nat.mul_lt_mul_of_pos_right hm (by positivity)
      _ = 2 ^ (24 + j) := (Nat.pow_add 2 24 j).symm
      _ ≤ 2 ^ 277 := Nat.pow_le_pow_right (by decide) (by omega)
  have e : nearestBits ((m * 2 ^ j : Nat) : Rat) = b := by rw [← hb]; exact nearestBits_units hlt.le
  rw [e]
  exact ⟨hb, hlt⟩

/-- The relative error of rounding. -/
theorem nearestBits_error {x : Rat} (hx : 2 ^ 23 ≤ x) (hf : nearestBits x < infinityBits) :
    |(units (nearestBits x) : Rat) - x| ≤ x / 2 ^ 24 := by
  have hx0 : 0 ≤ x := le_trans (by norm_num) hx
  obtain ⟨x1, x2⟩ := bitsBelow_around hx0
  have n1 := nearestBits_nearest hx0 hf (bitsBelow x.floor.toNat)
  have n2 := nearestBits_nearest hx0 hf (bitsBelow x.floor.toNat + 1)
  generalize bitsBelow x.floor.toNat = p at *
  rw [abs_of_nonneg (show 0 ≤ x - units p by linarith)] at n1
  rw [abs_sub_comm x (units (p + 1) : Rat), abs_of_nonneg (show 0 ≤ (units (p + 1) : Rat) - x by linarith)] at n2
  have hp : 2 ^ 23 ≤ p := by
    by_contra h
    have : units (p + 1) ≤ units (2 ^ 23) := units_strictMono.monotone (by omega)
    rw [units_small (show 2 ^ 23 ≤ 2 ^ 24 by decide)] at this
    have h' : (units (p + 1) : Rat) ≤ 2 ^ 23 := by exact_mod_cast this
    linarith
  obtain ⟨k, m, rfl, h1, h2⟩ : ∃ k m, p = k * 2 ^ 23 + m ∧ 2 ^ 23 ≤ m ∧ m < 2 ^ 24 :=
    ⟨p / 2 ^ 23 - 1, p % 2 ^ 23 + 2 ^ 23, by omega, by omega, by omega⟩
  rw [Nat.add_assoc, units_scaled (by omega) (by omega)] at n2 x2
  rw [units_scaled h1 (by omega)] at n1 x1
  have hm : (2 ^ 23 : Rat) * 2 ^ k ≤ m * 2 ^ k := mul_le_mul_of_nonneg_right (by exact_mod_cast h1) (by positivity)
  push_cast at n1 n2 x1 x2
  rw [abs_sub_comm, le_div_iff₀ (by positivity)]
  linarith

namespace Single

theorem signed_exact {m j : Nat} (neg : Bool) {q : Rat} (hm : m < 2 ^ 24) (hj : j ≤ 253) (hq : q * 2 ^ 149 = (m * 2 ^ j : Nat)) :
    ∃ b h, signed neg q = .num neg b h ∧ b < infinityBits ∧ units b = m * 2 ^ j ∧ (units b : Rat) / 2 ^ 149 = q := by
  obtain ⟨h1, h2⟩ := nearestBits_scale hm hj
  refine ⟨_, nearestBits_le _, rfl, ?_, ?_, ?_⟩
  · rw [hq]; exact h2
  · rw [hq]; exact h1
  · rw [hq, h1, ← hq]
    field_simp

theorem ofInt_exact {n : Int} (hn : n.natAbs < 2 ^ 24) :
    ∃ b h, ofInt n = .num (decide (n < 0)) b h ∧ b < infinityBits ∧ (units b : Rat) / 2 ^ 149 = n.natAbs := by
  obtain ⟨b, h, h1, h2, _, h3⟩ := signed_exact (decide (n < 0)) (q := n.natAbs) hn (j := 149) (by decide) (by push_cast; ring)
  exact ⟨b, h, h1, h2, h3⟩

theorem ofNat_exact {n : Nat} (hn : n < 2 ^ 24) :
    ∃ b h, ofNat n = .num false b h ∧ b < infinityBits ∧ (units b : Rat) / 2 ^ 149 = n := by
  obtain ⟨b, h, h1, h2, _, h3⟩ := signed_exact false (q := n) hn (j := 149) (by decide) (by push_cast; ring)
  exact ⟨b, h, h1, h2, h3⟩

theorem thousand_exact : ∃ b h, round 1000 = .num false b h ∧ b < infinityBits ∧ (units b : Rat) / 2 ^ 149 = 1000 := by
  obtain ⟨b, h, h1, h2, _, h3⟩ := signed_exact false (q := 1000) (m := 1000) (by decide) (j := 149) (by decide) (by push_cast; ring)
  refine ⟨b, h, ?_, h2, h3⟩
  rw [← h1]
  unfold round
  rw [if_neg (by norm_num), decide_eq_false (by norm_num), abs_of_pos (by norm_num)]

end Single

end Verif.Float
