/- What the operations of `f32` keep of the order of numbers. -/
import Verif.Float.SingleTheorems
import Mathlib.Tactic.NormNum
namespace Verif.Float
namespace Single

/-- The key of the number that is nearest to this one. -/
def nearestKey (x : Rat) : Int := if x < 0 then -(nearestBits (-x * 2 ^ 149) : Int) else nearestBits (x * 2 ^ 149)

theorem nearestBits_zero : nearestBits 0 = 0 := by
  have := nearestBits_units (Nat.zero_le infinityBits)
  simpa [units] using this

theorem nearestKey_mono {x y : Rat} (h : x ≤ y) : nearestKey x ≤ nearestKey y := by
  unfold nearestKey
  split
  · rename_i hx
    split
    · have := nearestBits_mono (x := -y * 2 ^ 149) (y := -x * 2 ^ 149) (mul_nonneg (by linarith) (by positivity))
        (mul_le_mul_of_nonneg_right (by linarith) (by positivity))
      omega
    · omega
  · rename_i hx
    rw [if_neg (by linarith)]
    exact_mod_cast nearestBits_mono (mul_nonneg (by linarith) (by positivity)) (mul_le_mul_of_nonneg_right h (by positivity))

theorem key_signed (n : Bool) (m : Rat) (h : 0 ≤ m) : (signed n m).key = nearestKey (if n then -m else m) := by
  cases n
  · simp only [signed, key, nearestKey, Bool.false_eq_true, if_false]
    rw [if_neg (by linarith)]
  · simp only [signed, key, nearestKey, if_true, neg_neg]
    split
    · rfl
    · have : m = 0 := by linarith
      subst this
      simp [nearestBits_zero]

theorem key_round (x : Rat) (z : Bool) : (round x z).key = nearestKey x := by
  unfold round
  split
  · rename_i h
    rw [h, key_signed _ _ (le_refl _)]
    cases z <;> simp
  · rw [key_signed _ _ (abs_nonneg x)]
    by_cases h : x < 0
    · rw [decide_eq_true h, if_pos rfl, abs_of_neg h, neg_neg]
    · rw [decide_eq_false h, if_neg (by simp), abs_of_nonneg (not_lt.1 h)]

theorem round_ne_nan (x : Rat) (z : Bool) : round x z ≠ .nan := by
  unfold round signed
  split <;> simp

theorem signed_ne_nan (n : Bool) (m : Rat) : signed n m ≠ .nan := by simp [signed]

/-- A number is its own rounding. -/
theorem nearestKey_value {a : Single} (h : a ≠ .nan) : nearestKey (value a) = key a := by
  rcases a with _ | ⟨n, b, hb⟩
  · exact absurd rfl h
  have e : (units b : Rat) / 2 ^ 149 * 2 ^ 149 = units b := by field_simp
  cases n
  · simp only [value, key, nearestKey, Bool.false_eq_true, if_false, one_mul]
    rw [if_neg (not_lt.2 (by positivity)), e, nearestBits_units hb]
  · simp only [value, key, nearestKey, if_true, neg_mul, one_mul, neg_neg]
    split
    · rw [e, nearestBits_units hb]
    · rename_i h0
      have h1 : (units b : Rat) / 2 ^ 149 = 0 := le_antisymm (by linarith) (by positivity)
      have h2 : b = 0 := by
        have h3 : (units b : Rat) = 0 := by
          have := e
          rw [h1] at this
          linarith
        have h4 : units b = units 0 := by exact_mod_cast h3
        exact units_strictMono.injective h4
      subst h2
      simp [units, nearestBits_zero]

theorem value_le {a b : Single} (ha : a ≠ .nan) (hb : b ≠ .nan) (h : a.key ≤ b.key) : a.value ≤ b.value := by
  rcases a with _ | ⟨n, a, ha'⟩
  · exact absurd rfl ha
  rcases b with _ | ⟨m, b, hb'⟩
  · exact absurd rfl hb
  have mono : ∀ {p q : Nat}, p ≤ q → (units p : Rat) / 2 ^ 149 ≤ units q / 2 ^ 149 := fun h =>
    div_le_div_of_nonneg_right (Nat.cast_le.2 (units_strictMono.monotone h)) (by positivity)
  have pa : (0 : Rat) ≤ units a / 2 ^ 149 := by positivity
  have pb : (0 : Rat) ≤ units b / 2 ^ 149 := by positivity
  cases n <;> cases m <;> simp only [value, key, Bool.false_eq_true, if_false, if_true, one_mul, neg_mul] at h ⊢
  · exact mono (by omega)
  · have h1 : a = 0 := by omega
    have h2 : b = 0 := by omega
    subst h1 h2
    simp [units]
  · linarith
  · exact neg_le_neg (mono (by omega))

theorem ge_iff {a b : Single} : ge a b = true ↔ a ≠ .nan ∧ b ≠ .nan ∧ b.key ≤ a.key := by
  cases a <;> cases b <;> simp [ge]

theorem gt_iff {a b : Single} : gt a b = true ↔ a ≠ .nan ∧ b ≠ .nan ∧ b.key < a.key := by
  cases a <;> cases b <;> simp [gt]

theorem ge_of_gt {a b : Single} (h : gt a b = true) : ge a b = true := by
  rw [gt_iff] at h
  exact ge_iff.2 ⟨h.1, h.2.1, by omega⟩

theorem ge_refl {a : Single} (h : a ≠ .nan) : ge a a = true := ge_iff.2 ⟨h, h, le_refl _⟩

theorem ge_trans {a b c : Single} (h : ge a b = true) (h' : ge b c = true) : ge a c = true := by
  rw [ge_iff] at h h' ⊢
  exact ⟨h.1, h'.2.1, by omega⟩

theorem key_bounds (a : Single) : -(infinityBits : Int) ≤ a.key ∧ a.key ≤ infinityBits := by
  rcases a with _ | ⟨n, b, hb⟩
  · simp [key, infinityBits]
  · cases n <;> simp only [key, Bool.false_eq_true, if_false, if_true] <;> omega

/-- A number that is not negative infinity. -/
def Low (a : Single) : Prop := a ≠ .nan ∧ -(infinityBits : Int) < a.key

/-- A number that is not infinite. -/
def Finite (a : Single) : Prop := a ≠ .nan ∧ -(infinityBits : Int) < a.key ∧ a.key < infinityBits

theorem Low.of_ge {a b : Single} (h : ge a b = true) (hb : Low b) : Low a := by
  rw [ge_iff] at h
  exact ⟨h.1, lt_of_lt_of_le hb.2 h.2.2⟩

theorem Low.of_nonneg {a : Single} (h : ge a zero = true) : Low a :=
  .of_ge h ⟨by simp [zero], by simp [zero, key, infinityBits]⟩

theorem infinity_ge {a : Single} (h : a ≠ .nan) : ge (infinity false) a = true :=
  ge_iff.2 ⟨by simp [infinity], h, by simpa [infinity, key] using (key_bounds a).2⟩

theorem add_infinity_left {a : Single} (h : Low a) : add (infinity false) a = infinity false := by
  rcases a with _ | ⟨n, b, hb⟩
  · exact absurd rfl h.1
  · have h2 := h.2
    simp only [infinity, add, if_true]
    rw [if_neg]
    rintro ⟨rfl, hn⟩
    cases n
    · simp at hn
    · simp [key] at h2

theorem add_infinity_right {a : Single} (h : Low a) : add a (infinity false) = infinity false := by
  rcases a with _ | ⟨n, b, hb⟩
  · exact absurd rfl h.1
  · have h2 := h.2
    simp only [infinity, add]
    split
    · rename_i hb'
      subst hb'
      cases n
      · simp
      · simp [key] at h2
    · rfl

theorem add_finite {a b : Single} (ha : Finite a) (hb : Finite b) : ∃ z, add a b = round (a.value + b.value) z := by
  rcases a with _ | ⟨n, a, ha'⟩
  · exact absurd rfl ha.1
  rcases b with _ | ⟨m, b, hb'⟩
  · exact absurd rfl hb.1
  have h1 : a ≠ infinityBits := by
    rintro rfl
    have := ha.2
    cases n <;> simp [key] at this
  have h2 : b ≠ infinityBits := by
    rintro rfl
    have := hb.2
    cases m <;> simp [key] at this
  exact ⟨n && m, by simp only [add, if_neg h1, if_neg h2]⟩

theorem Low.cases {a : Single} (h : Low a) : a = infinity false ∨ Finite a := by
  rcases Nat.lt_or_ge 0 0 with h0 | _
  · omega
  by_cases hk : a.key < infinityBits
  · exact .inr ⟨h.1, h.2, hk⟩
  · left
    rcases a with _ | ⟨n, b, hb⟩
    · exact absurd rfl h.1
    · cases n
      · simp only [key, Bool.false_eq_true, if_false] at hk
        have : b = infinityBits := by omega
        subst this
        rfl
      · simp only [key, if_true, infinityBits] at hk
        omega

/-- Addition keeps the order. -/
theorem add_mono {a b c d : Single} (ha : Low b) (hd : Low d) (h : ge a b = true) (h' : ge c d = true) : ge (add a c) (add b d) = true := by
  have hc := Low.of_ge h' hd
  have ha' := Low.of_ge h ha
  have nn : ∀ {x y : Single}, Low x → Low y → add x y ≠ .nan := by
    intro x y hx hy
    rcases hx.cases with rfl | hx'
    · rw [add_infinity_left hy]; simp [infinity]
    · rcases hy.cases with rfl | hy'
      · rw [add_infinity_right hx]; simp [infinity]
      · obtain ⟨z, e⟩ := add_finite hx' hy'
        rw [e]
        exact round_ne_nan _ _
  rcases ha'.cases with rfl | fa
  · rw [add_infinity_left hc]
    exact infinity_ge (nn ha hd)
  rcases hc.cases with rfl | fc
  · rw [add_infinity_right ha']
    exact infinity_ge (nn ha hd)
  rw [ge_iff] at h h'
  have fb : Finite b := ⟨ha.1, ha.2, lt_of_le_of_lt h.2.2 fa.2.2⟩
  have fd : Finite d := ⟨hd.1, hd.2, lt_of_le_of_lt h'.2.2 fc.2.2⟩
  obtain ⟨z, e⟩ := add_finite fa fc
  obtain ⟨z', e'⟩ := add_finite fb fd
  rw [e, e', ge_iff]
  refine ⟨round_ne_nan _ _, round_ne_nan _ _, ?_⟩
  rw [key_round, key_round]
  exact nearestKey_mono (add_le_add (value_le h.2.1 h.1 h.2.2) (value_le h'.2.1 h'.1 h'.2.2))

theorem zero_value : value zero = 0 := by simp [zero, value, units]

theorem zero_finite : Finite zero := ⟨by simp [zero], by simp [zero, key, infinityBits], by simp [zero, key, infinityBits]⟩

theorem add_zero_key {a : Single} (h : Low a) : ge (add a zero) a = true ∧ ge a (add a zero) = true := by
  rcases h.cases with rfl | fa
  · rw [add_infinity_left (Low.of_nonneg (ge_refl zero_finite.1))]
    exact ⟨ge_refl h.1, ge_refl h.1⟩
  · obtain ⟨z, e⟩ := add_finite fa zero_finite
    rw [e, ge_iff, ge_iff, key_round, zero_value, add_zero, nearestKey_value h.1]
    exact ⟨⟨round_ne_nan _ _, h.1, le_refl _⟩, ⟨h.1, round_ne_nan _ _, le_refl _⟩⟩

/-- A sum is not less than a term if the other is not negative. -/
theorem add_ge {a b : Single} (ha : Low a) (hb : ge b zero = true) : ge (add a b) a = true :=
  ge_trans (add_mono ha (Low.of_nonneg (ge_refl zero_finite.1)) (ge_refl ha.1) hb) (add_zero_key ha).1

theorem key_zero : zero.key = 0 := rfl

theorem mul_parts {n b h n' b' h'} (fb : b' ≠ infinityBits) (f0 : b' ≠ 0) (hb : b ≠ infinityBits) :
    mul (.num n b h) (.num n' b' h') = signed (n != n') (units b / 2 ^ 149 * (units b' / 2 ^ 149)) := by
  simp [mul, hb, fb]

/-- Multiplication by a positive finite number keeps the order. -/
theorem mul_mono {a b s : Single} (hb : Low b) (h : ge a b = true) (hs : Finite s) (hp : gt s zero = true) : ge (mul a s) (mul b s) = true := by
  have ha := Low.of_ge h hb
  rcases s with _ | ⟨n, s, hs'⟩
  · exact absurd rfl hs.1
  rw [gt_iff, key_zero] at hp
  obtain ⟨-, -, hp⟩ := hp
  have hk := hs.2.2
  cases n
  swap
  · simp only [key, if_true] at hp
    omega
  simp only [key, Bool.false_eq_true, if_false] at hp hk
  have s0 : s ≠ 0 := by omega
  have s1 : s ≠ infinityBits := by omega
  have fin : ∀ {x : Single}, Finite x → mul x (.num false s hs') ≠ .nan ∧
      (mul x (.num false s hs')).key = nearestKey (x.value * (units s / 2 ^ 149)) := by
    intro x hx
    rcases x with _ | ⟨m, x, hx'⟩
    · exact absurd rfl hx.1
    have x1 : x ≠ infinityBits := by
      rintro rfl
      have := hx.2
      cases m <;> simp [key] at this
    rw [mul_parts s1 s0 x1, key_signed _ _ (by positivity)]
    refine ⟨signed_ne_nan _ _, ?_⟩
    cases m <;> simp [value]
  have inf : mul (infinity false) (.num false s hs') = infinity false := by
    have : infinityBits ≠ 0 := by decide
    simp [infinity, mul, s0, this]
  rcases ha.cases with rfl | fa
  · rw [inf]
    refine infinity_ge ?_
    rcases hb.cases with rfl | fb
    · rw [inf]; simp [infinity]
    · exact (fin fb).1
  · rw [ge_iff] at h
    have fb : Finite b := ⟨hb.1, hb.2, lt_of_le_of_lt h.2.2 fa.2.2⟩
    rw [ge_iff, (fin fa).2, (fin fb).2]
    exact ⟨(fin fa).1, (fin fb).1, nearestKey_mono (mul_le_mul_of_nonneg_right (value_le h.2.1 h.1 h.2.2) (by positivity))⟩

theorem mul_zero_left {s : Single} (hs : Finite s) : ge (mul zero s) zero = true := by
  rcases s with _ | ⟨n, s, hs'⟩
  · exact absurd rfl hs.1
  have s1 : s ≠ infinityBits := by
    rintro rfl
    have := hs.2
    cases n <;> simp [key] at this
  have i0 : 0 ≠ infinityBits := by decide
  rw [ge_iff]
  simp [zero, mul, s1, i0, signed, key, units, nearestBits_zero]

/-- A product of numbers that are not negative is not negative, if one is finite and not zero. -/
theorem mul_nonneg' {a s : Single} (h : ge a zero = true) (hs : Finite s) (hp : gt s zero = true) : ge (mul a s) zero = true :=
  ge_trans (mul_mono (Low.of_nonneg (ge_refl zero_finite.1)) h hs hp) (mul_zero_left hs)

/-- The same of a quotient, if the divisor is finite. -/
theorem div_nonneg' {a s : Single} (h : ge a zero = true) (hs : Finite s) (hp : gt s zero = true) : ge (div a s) zero = true := by
  rcases a with _ | ⟨m, a, ha⟩
  · simp [ge] at h
  rcases s with _ | ⟨n, s, hs'⟩
  · exact absurd rfl hs.1
  rw [gt_iff, key_zero] at hp
  obtain ⟨-, -, hp⟩ := hp
  have hk := hs.2.2
  cases n
  swap
  · simp only [key, if_true] at hp
    omega
  simp only [key, Bool.false_eq_true, if_false] at hp hk
  have s0 : s ≠ 0 := by omega
  have s1 : s ≠ infinityBits := by omega
  rw [ge_iff, key_zero] at h
  obtain ⟨-, -, h⟩ := h
  rw [ge_iff, key_zero]
  refine ⟨?_, by simp [zero], ?_⟩
  · simp only [div, if_neg s1, if_neg s0]
    split <;> simp [infinity, signed]
  · simp only [div, if_neg s1, if_neg s0]
    cases m
    · split <;> simp [infinity, signed, key]
    · simp only [key, if_true] at h
      have : a = 0 := by omega
      subst this
      rw [if_neg (by decide)]
      simp [signed, key, units, nearestBits_zero]

/-- Division by a positive finite number keeps the order. -/
theorem div_mono {a b s : Single} (hb : Low b) (h : ge a b = true) (hs : Finite s) (hp : gt s zero = true) : ge (div a s) (div b s) = true := by
  have ha := Low.of_ge h hb
  rcases s with _ | ⟨n, s, hs'⟩
  · exact absurd rfl hs.1
  rw [gt_iff, key_zero] at hp
  obtain ⟨-, -, hp⟩ := hp
  have hk := hs.2.2
  cases n
  swap
  · simp only [key, if_true] at hp
    omega
  simp only [key, Bool.false_eq_true, if_false] at hp hk
  have s0 : s ≠ 0 := by omega
  have s1 : s ≠ infinityBits := by omega
  have fin : ∀ {x : Single}, Finite x → div x (.num false s hs') ≠ .nan ∧
      (div x (.num false s hs')).key = nearestKey (x.value / (units s / 2 ^ 149)) := by
    intro x hx
    rcases x with _ | ⟨m, x, hx'⟩
    · exact absurd rfl hx.1
    have x1 : x ≠ infinityBits := by
      rintro rfl
      have := hx.2
      cases m <;> simp [key] at this
    have e : div (.num m x hx') (.num false s hs') = signed m (units x / 2 ^ 149 / (units s / 2 ^ 149)) := by
      simp [div, x1, s1, s0]
    rw [e, key_signed _ _ (by positivity)]
    refine ⟨signed_ne_nan _ _, ?_⟩
    cases m
    · simp [value]
    · simp only [value, if_true, neg_mul, one_mul, neg_div]
  have inf : div (infinity false) (.num false s hs') = infinity false := by
    simp [infinity, div, s1]
  rcases ha.cases with rfl | fa
  · rw [inf]
    refine infinity_ge ?_
    rcases hb.cases with rfl | fb
    · rw [inf]; simp [infinity]
    · exact (fin fb).1
  · rw [ge_iff] at h
    have fb : Finite b := ⟨hb.1, hb.2, lt_of_le_of_lt h.2.2 fa.2.2⟩
    rw [ge_iff, (fin fa).2, (fin fb).2]
    exact ⟨(fin fa).1, (fin fb).1, nearestKey_mono (div_le_div_of_nonneg_right (value_le h.2.1 h.1 h.2.2) (by positivity))⟩

theorem one_value : (units 0x3f800000 : Rat) / 2 ^ 149 = 1 := by
  have : units 0x3f800000 = 2 ^ 149 := by decide +kernel
  rw [this]
  norm_num

theorem one_mul' (a : Single) : mul one a = a := by
  rcases a with _ | ⟨n, b, hb⟩
  · rfl
  have h1 : (0x3f800000 : Nat) ≠ infinityBits := by decide
  by_cases hi : b = infinityBits
  · subst hi
    have h2 : infinityBits ≠ 0 := by decide
    simp [mul, one, infinity, h2]
  · have e : (units b : Rat) / 2 ^ 149 * 2 ^ 149 = units b := by field_simp
    simp only [mul, one, h1, hi, or_self, if_false]
    simp only [signed, one_value, one_mul, e, nearestBits_units hb]
    cases n <;> rfl

theorem div_one' {a : Single} : div a one = a := by
  rcases a with _ | ⟨n, b, hb⟩
  · rfl
  have h1 : (0x3f800000 : Nat) ≠ infinityBits := by decide
  by_cases hi : b = infinityBits
  · subst hi
    simp [div, one, infinity, h1]
  · have e : (units b : Rat) / 2 ^ 149 * 2 ^ 149 = units b := by field_simp
    simp only [div, one, h1, hi, if_false]
    simp only [signed, one_value, div_one, e, nearestBits_units hb]
    cases n <;> rfl

theorem ofNat_pos {n : Nat} (h0 : 0 < n) (h : n < 2 ^ 64) : gt (ofNat n) zero = true ∧ Finite (ofNat n) := by
  have key_eq : (ofNat n).key = nearestKey n := by simp [ofNat, key_signed false n (Nat.cast_nonneg n)]
  have one : nearestKey (1 : Nat) = 0x3f800000 := by decide +kernel
  have big : nearestKey (2 ^ 64 : Nat) = 0x5f800000 := by decide +kernel
  have lo : nearestKey (1 : Nat) ≤ nearestKey n := nearestKey_mono (Nat.cast_le.2 h0)
  have hi : nearestKey n ≤ nearestKey (2 ^ 64 : Nat) := nearestKey_mono (Nat.cast_le.2 h.le)
  rw [one] at lo
  rw [big] at hi
  have nn : ofNat n ≠ .nan := signed_ne_nan _ _
  rw [gt_iff, key_zero, Finite, key_eq]
  exact ⟨⟨nn, by simp [zero], by omega⟩, nn, by simp only [infinityBits]; omega, by simp only [infinityBits]; omega⟩

end Single

end Verif.Float
