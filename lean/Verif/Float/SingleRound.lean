/- C116: the arithmetic of the model is that of IEEE 754. -/
import Verif.Float.SingleOrder
namespace Verif.Float

theorem nearestBits_infinite {x : Rat} (hx : 0 ≤ x) :
    nearestBits x < infinityBits ↔ 2 * x < units (infinityBits - 1) + units infinityBits := by
  obtain ⟨x1, x2⟩ := bitsBelow_around hx
  unfold nearestBits
  dsimp only
  generalize bitsBelow x.floor.toNat = p at *
  have mono : ∀ {a b : Nat}, a ≤ b → (units a : Rat) ≤ units b := fun h => Nat.cast_le.2 (units_strictMono.monotone h)
  rcases Nat.lt_trichotomy p (infinityBits - 1) with h | h | h
  · have h1 : (units (p + 1) : Rat) ≤ units (infinityBits - 1) := mono (by omega)
    have h2 : (units (infinityBits - 1) : Rat) ≤ units infinityBits := mono (by omega)
    constructor
    · intro _
      linarith
    · intro _
      refine lt_of_le_of_lt (Nat.min_le_right _ _) ?_
      split <;> [skip; split <;> [skip; split]] <;> omega
  · have h1 : p + 1 = infinityBits := by rw [h]; rfl
    have h2 : ¬ p % 2 = 0 := by rw [h]; decide
    have h3 : infinityBits - 1 = p := h.symm
    rw [h1, h3, if_neg h2, ite_self]
    constructor
    · intro hlt
      split at hlt
      · linarith
      · rw [Nat.min_self] at hlt
        omega
    · intro hlt
      rw [if_pos (by linarith)]
      exact lt_of_le_of_lt (Nat.min_le_right _ _) (by omega)
  · have h1 : (units infinityBits : Rat) ≤ units p := mono (by omega)
    have h2 : (units (infinityBits - 1) : Rat) ≤ units infinityBits := mono (by omega)
    constructor
    · intro hlt
      exfalso
      rw [Nat.min_eq_left] at hlt
      · omega
      · split <;> [skip; split <;> [skip; split]] <;> omega
    · intro hlt
      linarith

theorem nearestBits_even {x : Rat} (hx : 0 ≤ x) (hmax : nearestBits x < infinityBits) {b : Nat} (hb : b ≠ nearestBits x)
    (heq : |x - units b| = |x - units (nearestBits x)|) : nearestBits x % 2 = 0 := by
  obtain ⟨x1, x2⟩ := bitsBelow_around hx
  unfold nearestBits at hmax hb heq ⊢
  dsimp only at hmax hb heq ⊢
  generalize bitsBelow x.floor.toNat = p at *
  have a1 : |x - units p| = x - units p := abs_of_nonneg (by linarith)
  have a2 : |x - units (p + 1)| = units (p + 1) - x := by rw [abs_sub_comm]; exact abs_of_nonneg (by linarith)
  have out : b < p → x - units p < |x - units b| := by
    intro h
    have : (units b : Rat) < units p := Nat.cast_lt.2 (units_strictMono h)
    exact lt_of_lt_of_le (by linarith) (le_abs_self _)
  have out' : p + 1 < b → units (p + 1) - x < |x - units b| := by
    intro h
    have : (units (p + 1) : Rat) < units b := Nat.cast_lt.2 (units_strictMono h)
    rw [abs_sub_comm]
    exact lt_of_lt_of_le (by linarith) (le_abs_self _)
  have cases : b < p ∨ b = p ∨ b = p + 1 ∨ p + 1 < b := by omega
  split at hmax
  · rename_i h
    rw [if_pos h, Nat.min_eq_right (by omega)] at hb heq
    rw [a1] at heq
    rcases cases with c | c | c | c
    · exact absurd heq (ne_of_gt (out c))
    · exact absurd c hb
    · rw [c, a2] at heq
      linarith
    · have := out' c
      linarith
  · rename_i h
    rw [if_neg h] at hb heq ⊢
    split at hmax
    · rename_i h'
      rw [if_pos h', Nat.min_eq_right (by omega)] at hb heq
      rw [a2] at heq
      rcases cases with c | c | c | c
      · have := out c
        linarith
      · rw [c, a1] at heq
        linarith
      · exact absurd c hb
      · exact absurd heq (ne_of_gt (out' c))
    · rename_i h'
      rw [if_neg h']
      split at hmax
      · rename_i he
        rw [if_pos he, Nat.min_eq_right (by omega)]
        exact he
      · rename_i he
        rw [if_neg he, Nat.min_eq_right (by omega)]
        omega

namespace Single

theorem finite_num {n : Bool} {b : Nat} {h : b ≤ infinityBits} : Finite (.num n b h) ↔ b < infinityBits := by
  unfold Finite
  cases n <;> simp only [key, Bool.false_eq_true, if_false, if_true, ne_eq, reduceCtorEq, not_false_eq_true, true_and] <;>
    simp only [infinityBits] at * <;> omega

theorem scaled_abs (x : Rat) (b : Nat) : |x - units b / 2 ^ 149| = |x * 2 ^ 149 - units b| / 2 ^ 149 := by
  have : x - units b / 2 ^ 149 = (x * 2 ^ 149 - units b) / 2 ^ 149 := by field_simp
  rw [this, abs_div, abs_of_pos (show (0 : Rat) < 2 ^ 149 by positivity)]

theorem signed_nearest {x : Rat} (hx : 0 ≤ x) (hf : nearestBits (x * 2 ^ 149) < infinityBits) {a : Single} (ha : Finite a) :
    |x - units (nearestBits (x * 2 ^ 149)) / 2 ^ 149| ≤ |x - a.value| ∧
    (|x - a.value| = |x - units (nearestBits (x * 2 ^ 149)) / 2 ^ 149| → a.value = units (nearestBits (x * 2 ^ 149)) / 2 ^ 149 ∨
      nearestBits (x * 2 ^ 149) % 2 = 0) := by
  have hx' : 0 ≤ x * 2 ^ 149 := by positivity
  have near : ∀ b, |x - units (nearestBits (x * 2 ^ 149)) / 2 ^ 149| ≤ |x - units b / 2 ^ 149| := by
    intro b
    rw [scaled_abs, scaled_abs]
    exact div_le_div_of_nonneg_right (nearestBits_nearest hx' hf b) (by positivity)
  have even : ∀ b, |x - units b / 2 ^ 149| = |x - units (nearestBits (x * 2 ^ 149)) / 2 ^ 149| →
      b = nearestBits (x * 2 ^ 149) ∨ nearestBits (x * 2 ^ 149) % 2 = 0 := by
    intro b h
    by_cases hb : b = nearestBits (x * 2 ^ 149)
    · exact .inl hb
    · right
      refine nearestBits_even hx' hf hb ?_
      rw [scaled_abs, scaled_abs] at h
      have e := congrArg (· * (2 ^ 149 : Rat)) h
      simpa using e
  rcases a with _ | ⟨n, b, hb⟩
  · exact absurd rfl ha.1
  cases n
  · simp only [value, Bool.false_eq_true, if_false, one_mul]
    refine ⟨near b, fun h => ?_⟩
    rcases even b h with rfl | h
    · exact .inl rfl
    · exact .inr h
  · simp only [value, if_true, neg_mul, one_mul]
    have pb : (0 : Rat) ≤ units b / 2 ^ 149 := by positivity
    have e : |x - -(units b / 2 ^ 149)| = x + units b / 2 ^ 149 := by
      rw [sub_neg_eq_add]
      exact abs_of_nonneg (by linarith)
    have e0 : |x - (units 0 : Rat) / 2 ^ 149| = x := by
      have : (units 0 : Rat) = 0 := by simp [units]
      rw [this, zero_div, sub_zero, abs_of_nonneg hx]
    have h0 := near 0
    rw [e0] at h0
    rw [e]
    refine ⟨by linarith, fun h => ?_⟩
    have hz : (units b : Rat) / 2 ^ 149 = 0 := by linarith
    rw [hz] at h ⊢
    rcases even 0 (by rw [e0]; linarith) with h' | h'
    · left
      rw [← h']
      simp [units]
    · exact .inr h'

/-- C116: rounding is to the nearest of all numbers of the format, to the one with an even last bit if two are nearest. -/
theorem C116_rounding (x : Rat) (z : Bool) (hf : Finite (round x z)) (a : Single) (ha : Finite a) :
    |x - (round x z).value| ≤ |x - a.value| ∧
    (|x - a.value| = |x - (round x z).value| → a.value = (round x z).value ∨ (round x z).key % 2 = 0) := by
  have hflip : Finite (neg a) ∧ (neg a).value = -a.value := by
    rcases a with _ | ⟨n, b, hb⟩
    · exact absurd rfl ha.1
    · refine ⟨finite_num.2 (finite_num.1 ha), ?_⟩
      cases n <;> simp [neg, value]
  unfold round at hf ⊢
  by_cases h0 : x = 0
  · rw [if_pos h0] at hf ⊢
    subst h0
    have e : (signed z 0).value = 0 := by
      cases z <;> simp [signed, value, nearestBits_zero, units]
    rw [e]
    simp only [sub_self, abs_zero, abs_nonneg, true_and]
    intro h
    left
    simpa using h
  rw [if_neg h0] at hf ⊢
  have hb : nearestBits (|x| * 2 ^ 149) < infinityBits := finite_num.1 hf
  by_cases hx : x < 0
  · obtain ⟨h1, h2⟩ := signed_nearest (abs_nonneg x) hb hflip.1
    rw [hflip.2] at h1 h2
    rw [abs_of_neg hx] at h1 h2 ⊢
    have e : (signed (decide (x < 0)) (-x)).value = -(units (nearestBits (-x * 2 ^ 149)) / 2 ^ 149) := by
      simp [signed, value, hx]
    have k : (signed (decide (x < 0)) (-x)).key = -(nearestBits (-x * 2 ^ 149) : Int) := by
      simp [signed, key, hx]
    have f1 : ∀ q : Rat, |x - -q| = |-x - q| := fun q => by rw [← abs_neg]; congr 1; ring
    have f2 : |x - a.value| = |-x - -a.value| := by rw [← abs_neg]; congr 1; ring
    rw [e, k, f1, f2]
    refine ⟨h1, fun h => ?_⟩
    rcases h2 h with h | h
    · left
      linarith
    · right
      omega
  · have hx' : 0 ≤ x := not_lt.1 hx
    rw [abs_of_nonneg hx'] at hb ⊢
    obtain ⟨h1, h2⟩ := signed_nearest hx' hb ha
    have e : (signed (decide (x < 0)) x).value = units (nearestBits (x * 2 ^ 149)) / 2 ^ 149 := by
      simp [signed, value, hx]
    have k : (signed (decide (x < 0)) x).key = (nearestBits (x * 2 ^ 149) : Int) := by
      simp [signed, key, hx]
    rw [e, k]
    refine ⟨h1, fun h => ?_⟩
    rcases h2 h with h | h
    · exact .inl h
    · right
      omega

/-- C116: rounding overflows from half a unit after the greatest number on. -/
theorem C116_overflow (x : Rat) (z : Bool) : Finite (round x z) ↔ |x| < 2 ^ 128 - 2 ^ 103 := by
  have hm : ((units (infinityBits - 1) + units infinityBits : Nat) : Rat) = 2 * ((2 ^ 128 - 2 ^ 103) * 2 ^ 149) := by
    have : units (infinityBits - 1) + units infinityBits = 2 * ((2 ^ 128 - 2 ^ 103) * 2 ^ 149) := by decide +kernel
    rw [this]
    norm_num
  have hp : (0 : Rat) < 2 ^ 149 := by positivity
  unfold round
  by_cases h0 : x = 0
  · rw [if_pos h0, h0]
    have h1 : Finite (signed z 0) := finite_num.2 (by rw [zero_mul, nearestBits_zero]; decide)
    simp only [h1, abs_zero, true_iff]
    norm_num
  · rw [if_neg h0]
    have : Finite (signed (decide (x < 0)) |x|) ↔ nearestBits (|x| * 2 ^ 149) < infinityBits := finite_num
    rw [this, nearestBits_infinite (by positivity), ← Nat.cast_add, hm, mul_lt_mul_iff_right₀ (by norm_num), mul_lt_mul_iff_left₀ hp]

/-- C116: the sum, the difference, the product and the quotient of finite numbers are the exact ones, rounded (or zero). -/
theorem C116_operations {a b : Single} (ha : Finite a) (hb : Finite b) :
    (∃ z, add a b = round (a.value + b.value) z) ∧ (∃ z, sub a b = round (a.value - b.value) z) ∧
    (∃ z, mul a b = round (a.value * b.value) z) ∧ (b.value ≠ 0 → ∃ z, div a b = round (a.value / b.value) z) ∧
    (gt a b = true ↔ a.value > b.value) ∧ (eq a b = true ↔ a.value = b.value) := by
  rcases a with _ | ⟨n, a, ha'⟩
  · exact absurd rfl ha.1
  rcases b with _ | ⟨m, b, hb'⟩
  · exact absurd rfl hb.1
  have a1 := finite_num.1 ha
  have b1 := finite_num.1 hb
  have signedRound : ∀ (s : Bool) (q : Rat), 0 ≤ q → ∃ z, signed s q = round (if s then -q else q) z := by
    intro s q hq
    by_cases h : q = 0
    · refine ⟨s, ?_⟩
      subst h
      simp [round]
    · have hpos : 0 < q := lt_of_le_of_ne hq (Ne.symm h)
      refine ⟨false, ?_⟩
      unfold round
      cases s
      · simp only [Bool.false_eq_true, if_false, if_neg h]
        rw [decide_eq_false (by linarith), abs_of_nonneg hq]
      · have h' : -q ≠ 0 := by linarith
        simp only [if_true, if_neg h']
        rw [decide_eq_true (by linarith), abs_neg, abs_of_nonneg hq]
  have hneg : Finite (neg (.num m b hb')) ∧ (neg (.num m b hb')).value = -value (.num m b hb') := by
    refine ⟨finite_num.2 b1, ?_⟩
    cases m <;> simp [neg, value]
  have nn : ∀ {x y : Single}, x ≠ .nan → y ≠ .nan → (x.key ≤ y.key ↔ x.value ≤ y.value) := by
    intro x y hx hy
    refine ⟨value_le hx hy, fun h => ?_⟩
    rw [← nearestKey_value hx, ← nearestKey_value hy]
    exact nearestKey_mono h
  refine ⟨add_finite ha hb, ?_, ?_, ?_, ?_, ?_⟩
  · obtain ⟨z, h⟩ := add_finite ha hneg.1
    exact ⟨z, by rw [sub, h, hneg.2, sub_eq_add_neg]⟩
  · obtain ⟨z, h⟩ := signedRound (n != m) (units a / 2 ^ 149 * (units b / 2 ^ 149)) (by positivity)
    refine ⟨z, ?_⟩
    have e : mul (.num n a ha') (.num m b hb') = signed (n != m) (units a / 2 ^ 149 * (units b / 2 ^ 149)) := by
      simp [mul, Nat.ne_of_lt a1, Nat.ne_of_lt b1]
    rw [e, h]
    congr 1
    cases n <;> cases m <;> simp [value]
  · intro h0
    have b0 : b ≠ 0 := by
      rintro rfl
      exact h0 (by simp [value, units])
    obtain ⟨z, h⟩ := signedRound (n != m) (units a / 2 ^ 149 / (units b / 2 ^ 149)) (by positivity)
    refine ⟨z, ?_⟩
    have e : div (.num n a ha') (.num m b hb') = signed (n != m) (units a / 2 ^ 149 / (units b / 2 ^ 149)) := by
      simp [div, Nat.ne_of_lt a1, Nat.ne_of_lt b1, b0]
    rw [e, h]
    congr 1
    cases n <;> cases m <;> simp [value, neg_div, div_neg]
  · rw [gt_iff]
    constructor
    · rintro ⟨-, -, h⟩
      exact lt_of_not_ge fun h' => absurd ((nn ha.1 hb.1).2 h') (by omega)
    · intro h
      exact ⟨ha.1, hb.1, lt_of_not_ge fun h' => absurd ((nn ha.1 hb.1).1 h') (not_le.2 h)⟩
  · have : eq (.num n a ha') (.num m b hb') = true ↔ key (.num n a ha') = key (.num m b hb') := by simp [eq]
    rw [this]
    constructor
    · intro h
      exact le_antisymm ((nn ha.1 hb.1).1 (by omega)) ((nn hb.1 ha.1).1 (by omega))
    · intro h
      have h1 := (nn ha.1 hb.1).2 (le_of_eq h)
      have h2 := (nn hb.1 ha.1).2 (ge_of_eq h)
      omega

/-- The sign bit. -/
def negative : Single → Bool
  | .nan => false
  | .num n _ _ => n

/-- C116: the operations on NaN, the infinities and zeros, as IEEE 754 (sections 6.1 to 6.3) has them: NaN stays NaN and compares with
nothing, invalid operations give NaN, and signs of products and quotients are those of their operands together. -/
theorem C116_special (a : Single) (s t : Bool) :
    (add .nan a = .nan ∧ add a .nan = .nan ∧ sub .nan a = .nan ∧ sub a .nan = .nan ∧ mul .nan a = .nan ∧ mul a .nan = .nan ∧
      div .nan a = .nan ∧ div a .nan = .nan) ∧
    (gt .nan a = false ∧ gt a .nan = false ∧ ge .nan a = false ∧ ge a .nan = false ∧ eq .nan a = false ∧ eq a .nan = false) ∧
    (max .nan a = a ∧ max a .nan = a ∧ min .nan a = a ∧ min a .nan = a) ∧
    (Finite a → add (infinity s) a = infinity s ∧ add a (infinity s) = infinity s ∧ sub (infinity s) a = infinity s ∧
      sub a (infinity s) = infinity !s ∧ div a (infinity s) = .num (a.negative != s) 0 (Nat.zero_le _) ∧
      div (infinity s) a = infinity (s != a.negative) ∧
      (a.value ≠ 0 → mul (infinity s) a = infinity (s != a.negative) ∧ mul a (infinity s) = infinity (a.negative != s) ∧
        div a (.num s 0 (Nat.zero_le _)) = infinity (a.negative != s)) ∧
      (a.value = 0 → mul (infinity s) a = .nan ∧ mul a (infinity s) = .nan ∧ div a (.num s 0 (Nat.zero_le _)) = .nan)) ∧
    (add (infinity s) (infinity t) = (if s = t then infinity s else .nan) ∧ mul (infinity s) (infinity t) = infinity (s != t) ∧
      div (infinity s) (infinity t) = .nan) ∧
    (a ≠ .nan → (gt (infinity false) a = true ∨ a = infinity false) ∧ (gt a (infinity true) = true ∨ a = infinity true)) := by
  refine ⟨?_, ?_, ?_, ?_, ?_, ?_⟩
  · rcases a with _ | ⟨n, b, h⟩ <;> simp [add, sub, mul, div, neg]
  · rcases a with _ | ⟨n, b, h⟩ <;> simp [gt, ge, eq]
  · rcases a with _ | ⟨n, b, h⟩ <;> simp [max, min]
  · intro ha
    rcases a with _ | ⟨n, b, h⟩
    · exact absurd rfl ha.1
    have hb := Nat.ne_of_lt (finite_num.1 ha)
    have hz : (0 : Nat) ≠ infinityBits := by decide
    have hv : value (.num n b h) = 0 ↔ b = 0 := by
      have h0 : units b = 0 ↔ b = 0 := by
        constructor
        · intro e
          exact Nat.le_zero.1 (units_strictMono.le_iff_le.1 (by rw [e]; exact Nat.zero_le _))
        · rintro rfl
          simp [units]
      rw [← h0]
      cases n <;> simp [value]
    rw [ne_eq, hv]
    refine ⟨?_, ?_, ?_, ?_, ?_, ?_, fun h0 => ?_, fun h0 => ?_⟩
    · simp [add, infinity, hb]
    · simp [add, infinity, hb]
    · simp [sub, neg, add, infinity, hb]
    · simp [sub, neg, add, infinity, hb]
    · simp [div, infinity, hb, negative]
    · simp [div, infinity, hb, negative]
    · simp [div, mul, infinity, hb, negative, h0, hz, hz.symm]
    · subst h0
      simp [div, mul, infinity, hz, hz.symm]
  · have hz : (0 : Nat) ≠ infinityBits := by decide
    cases s <;> cases t <;> simp [add, mul, div, infinity, hz.symm]
  · intro ha
    rcases a with _ | ⟨n, b, h⟩
    · exact absurd rfl ha
    have hp : (0 : Int) < infinityBits := by decide
    cases n
    · refine ⟨?_, .inl (by simp [gt, infinity, key]; omega)⟩
      by_cases e : b = infinityBits
      · right; subst e; rfl
      · left; simp [gt, infinity, key]; omega
    · refine ⟨.inl (by simp [gt, infinity, key]; omega), ?_⟩
      by_cases e : b = infinityBits
      · right; subst e; rfl
      · left; simp [gt, infinity, key]; omega

/-- Finite numbers with a sum between two numbers of the format, and two whose sum overflows. -/
theorem C116_example_rounding : Finite (round 1) ∧ Finite (round (1 / 10)) ∧ (round (1 / 10)).value ≠ 1 / 10 ∧
    add (round 16777216) (round 1) = round 16777216 ∧ ¬ Finite (round (2 ^ 128)) ∧ Finite (round (2 ^ 128 - 2 ^ 104)) ∧
    add (round (2 ^ 127)) (round (2 ^ 127)) = infinity false ∧ sub (infinity false) (infinity false) = .nan := by
  refine ⟨?_, ?_, by decide +kernel, by decide +kernel, ?_, ?_, by decide +kernel, by decide +kernel⟩
  · rw [C116_overflow]; norm_num
  · rw [C116_overflow]; norm_num [abs_of_pos]
  · rw [C116_overflow]; norm_num
  · rw [C116_overflow, abs_of_pos (by norm_num)]; norm_num

end Single

end Verif.Float
