/- Rounding is to the nearest number, and keeps the order. -/
import Verif.Float.Single
import Mathlib.Tactic.Linarith
import Mathlib.Tactic.Ring
import Mathlib.Tactic.Positivity
namespace Verif.Float

theorem units_small {m : Nat} (h : m ≤ 2 ^ 24) : units m = m := by
  unfold units
  by_cases h1 : m / 2 ^ 23 = 0
  · rw [if_pos h1]
  · rw [if_neg h1]
    have h2 : m / 2 ^ 23 = 1 ∨ m = 2 ^ 24 := by omega
    rcases h2 with h2 | rfl
    · rw [h2]
      omega
    · decide +kernel

theorem units_scaled {k m : Nat} (h1 : 2 ^ 23 ≤ m) (h2 : m ≤ 2 ^ 24) : units (k * 2 ^ 23 + m) = m * 2 ^ k := by
  unfold units
  by_cases h : m = 2 ^ 24
  · subst h
    have e1 : (k * 2 ^ 23 + 2 ^ 24) / 2 ^ 23 = k + 2 := by omega
    have e2 : (k * 2 ^ 23 + 2 ^ 24) % 2 ^ 23 = 0 := by omega
    rw [e1, e2, if_neg (by omega), show k + 2 - 1 = k + 1 from rfl, Nat.pow_succ]
    ring
  · have e1 : (k * 2 ^ 23 + m) / 2 ^ 23 = k + 1 := by omega
    have e2 : (k * 2 ^ 23 + m) % 2 ^ 23 = m - 2 ^ 23 := by omega
    rw [e1, e2, if_neg (by omega), show k + 1 - 1 = k from rfl, Nat.add_sub_cancel' h1]

theorem units_succ (b : Nat) : units b < units (b + 1) := by
  by_cases h : b < 2 ^ 24
  · rw [units_small (by omega), units_small (by omega)]
    omega
  · obtain ⟨k, m, rfl, h1, h2⟩ : ∃ k m, b = k * 2 ^ 23 + m ∧ 2 ^ 23 ≤ m ∧ m < 2 ^ 24 :=
      ⟨b / 2 ^ 23 - 1, b % 2 ^ 23 + 2 ^ 23, by omega, by omega, by omega⟩
    rw [Nat.add_assoc, units_scaled h1 (by omega), units_scaled (by omega) (by omega)]
    exact Nat.mul_lt_mul_of_pos_right (by omega) (by positivity)

theorem units_strictMono : StrictMono units := strictMono_nat_of_lt_succ units_succ

theorem bitsBelow_spec (n : Nat) : units (bitsBelow n) ≤ n ∧ n < units (bitsBelow n + 1) := by
  unfold bitsBelow
  split
  · rw [units_small (by omega), units_small (by omega)]
    omega
  · rename_i h
    have hn : n ≠ 0 := by omega
    have hlog : 24 ≤ n.log2 := (Nat.le_log2 hn).2 (by omega)
    obtain ⟨k, hk⟩ : ∃ k, n.log2 = k + 23 := ⟨n.log2 - 23, by omega⟩
    have lo : 2 ^ (k + 23) ≤ n := hk ▸ (Nat.le_log2 hn).1 (Nat.le_refl _)
    have hi : n < 2 ^ (k + 24) := by
      have := (Nat.log2_lt (k := n.log2 + 1) hn).1 (by omega)
      rwa [hk] at this
    have hp : 0 < 2 ^ k := by positivity
    have h1 : 2 ^ 23 ≤ n / 2 ^ k := (Nat.le_div_iff_mul_le hp).2 (by rw [← Nat.pow_add, Nat.add_comm]; exact lo)
    have h2 : n / 2 ^ k < 2 ^ 24 := (Nat.div_lt_iff_lt_mul hp).2 (by rw [← Nat.pow_add, Nat.add_comm]; exact hi)
    rw [hk, Nat.add_sub_cancel, Nat.add_assoc, units_scaled h1 (by omega), units_scaled (by omega) (by omega)]
    exact ⟨Nat.div_mul_le_self n _, by rw [Nat.add_mul, Nat.one_mul]; exact Nat.lt_div_mul_add hp⟩

/-- The numbers on both sides of a number of units. -/
theorem bitsBelow_around {x : Rat} (hx : 0 ≤ x) : (units (bitsBelow x.floor.toNat) : Rat) ≤ x ∧ x < units (bitsBelow x.floor.toNat + 1) := by
  obtain ⟨h1, h2⟩ := bitsBelow_spec x.floor.toNat
  have hf : 0 ≤ x.floor := Rat.le_floor_iff.2 (by simpa using hx)
  have hc : ((x.floor.toNat : Nat) : Rat) = ((x.floor : Int) : Rat) := by
    have : ((x.floor.toNat : Nat) : Int) = x.floor := Int.toNat_of_nonneg hf
    exact_mod_cast congrArg (Int.cast (R := Rat)) this
  constructor
  · refine le_trans (Nat.cast_le.2 h1) ?_
    rw [hc]
    exact Rat.floor_le x
  · refine lt_of_lt_of_le (Rat.lt_floor_add_one x) ?_
    have : ((x.floor.toNat + 1 : Nat) : Rat) ≤ units (bitsBelow x.floor.toNat + 1) := Nat.cast_le.2 h2
    rw [Nat.cast_add, hc] at this
    simpa using this

theorem bitsBelow_unique {x : Rat} (hx : 0 ≤ x) {b : Nat} (h1 : (units b : Rat) ≤ x) (h2 : x < units (b + 1)) : bitsBelow x.floor.toNat = b := by
  obtain ⟨h3, h4⟩ := bitsBelow_around hx
  have a := units_strictMono.lt_iff_lt.1 (Nat.cast_lt.1 (lt_of_le_of_lt h1 h4))
  have b := units_strictMono.lt_iff_lt.1 (Nat.cast_lt.1 (lt_of_le_of_lt h3 h2))
  omega

theorem nearestBits_units {b : Nat} (h : b ≤ infinityBits) : nearestBits (units b) = b := by
  have hu := bitsBelow_unique (x := units b) (Nat.cast_nonneg _) (le_refl _) (Nat.cast_lt.2 (units_succ b))
  unfold nearestBits
  dsimp only
  rw [hu, sub_self, if_pos (sub_pos.2 (Nat.cast_lt.2 (units_succ b))), Nat.min_eq_right h]

/-- Rounding keeps the order. -/
theorem nearestBits_mono {x y : Rat} (hx : 0 ≤ x) (h : x ≤ y) : nearestBits x ≤ nearestBits y := by
  have hy := le_trans hx h
  obtain ⟨x1, x2⟩ := bitsBelow_around hx
  obtain ⟨y1, y2⟩ := bitsBelow_around hy
  unfold nearestBits
  dsimp only
  generalize bitsBelow x.floor.toNat = p at *
  generalize bitsBelow y.floor.toNat = q at *
  have hpq : p ≤ q := by
    have := units_strictMono.lt_iff_lt.1 (Nat.cast_lt.1 (lt_of_le_of_lt (le_trans x1 h) y2))
    omega
  refine Nat.le_min.2 ⟨Nat.min_le_left _ _, le_trans (Nat.min_le_right _ _) ?_⟩
  rcases Nat.lt_or_eq_of_le hpq with hlt | rfl
  · split <;> [skip; split <;> [skip; split]] <;> (split <;> [skip; split <;> [skip; split]]) <;> omega
  · split
    · split <;> [skip; split <;> [skip; split]] <;> omega
    · split
      · rw [if_neg (by linarith), if_pos (by linarith)]
      · have hn : ¬ y - (units p : Rat) < units (p + 1) - y := by linarith
        rw [if_neg hn]
        by_cases he : p % 2 = 0
        · rw [if_pos he]
          split <;> omega
        · rw [if_neg he, ite_self]

/-- No number is nearer. -/
theorem nearestBits_nearest {x : Rat} (hx : 0 ≤ x) (hmax : nearestBits x < infinityBits) (b : Nat) :
    |x - units (nearestBits x)| ≤ |x - units b| := by
  obtain ⟨x1, x2⟩ := bitsBelow_around hx
  unfold nearestBits at hmax ⊢
  dsimp only at hmax ⊢
  generalize bitsBelow x.floor.toNat = p at *
  have hb : (units b : Rat) ≤ units p ∨ (units (p + 1) : Rat) ≤ units b := by
    rcases Nat.lt_or_ge p b with h | h
    · exact .inr (Nat.cast_le.2 (units_strictMono.monotone h))
    · exact .inl (Nat.cast_le.2 (units_strictMono.monotone h))
  have a1 : |x - units p| = x - units p := abs_of_nonneg (by linarith)
  have a2 : |x - units (p + 1)| = units (p + 1) - x := by rw [abs_sub_comm]; exact abs_of_nonneg (by linarith)
  have near : x - units p ≤ |x - units b| ∨ units (p + 1) - x ≤ |x - units b| := by
    rcases hb with hb | hb
    · left; exact le_trans (by linarith) (le_abs_self _)
    · right; rw [abs_sub_comm]; exact le_trans (by linarith) (le_abs_self _)
  split at hmax
  · rename_i h
    rw [if_pos h, Nat.min_eq_right (by omega), a1]
    rcases near with k | k <;> linarith
  · rename_i h
    rw [if_neg h]
    split at hmax
    · rename_i h'
      rw [if_pos h', Nat.min_eq_right (by omega), a2]
      rcases near with k | k <;> linarith
    · rename_i h'
      rw [if_neg h']
      split at hmax
      · rename_i he
        rw [if_pos he, Nat.min_eq_right (by omega), a1]
        rcases near with k | k <;> linarith
      · rename_i he
        rw [if_neg he, Nat.min_eq_right (by omega), a2]
        rcases near with k | k <;> linarith

end Verif.Float
