/- C118: colours of eight bits in PDF files. -/
import Verif.Pdf.SingleFloats
import Verif.Float.SingleError
namespace Verif.Pdf
open Verif.Float

/-- The byte that is nearest to a component of a colour, or to an opacity, from 0 to 1: what is seen on a screen with eight bits for each
component. Numbers below 0 and above 1 count as 0 and 1. -/
def level (x : Single) : Nat := min 255 (x.value * 255 + 1 / 2).floor.toNat

theorem level_eq {x : Single} {n : Nat} (hn : n ≤ 255) (h1 : (n : Rat) - 1 / 2 ≤ x.value * 255) (h2 : x.value * 255 < n + 1 / 2) : level x = n := by
  have : (x.value * 255 + 1 / 2).floor = n := by
    have l : (n : Int) ≤ (x.value * 255 + 1 / 2).floor := by
      rw [Rat.le_floor_iff]
      push_cast
      linarith
    have u : (x.value * 255 + 1 / 2).floor < n + 1 := by
      rw [Rat.floor_lt_iff]
      push_cast
      linarith
    omega
  rw [level, this, Int.toNat_natCast, Nat.min_eq_right hn]

/-- The component of a colour, from 0 to 1 (primitives.rs 24-28, with cssparser's `red_f32` and so on: `self.red as f32 / 255.`). -/
def component (n : Nat) : Single := .div (.ofNat n) (.ofNat 255)

theorem component_round (n : Nat) (hn : n ≤ 255) : component n = .round (n / 255) ∧
    ∃ b h, component n = .num false b h ∧ b < infinityBits ∧ |(units b : Rat) / 2 ^ 149 - n / 255| ≤ (n : Rat) / 255 / 2 ^ 24 := by
  obtain ⟨a, ha, e1, a1, a2⟩ := Single.ofNat_exact (n := n) (by omega)
  obtain ⟨c, hc, e2, c1, c2⟩ := Single.ofNat_exact (n := 255) (by decide)
  have c0 : c ≠ 0 := by
    rintro rfl
    have h0 : (units 0 : Rat) = 0 := by simp [units]
    rw [h0, zero_div] at c2
    norm_num at c2
  have e : component n = .num false (nearestBits ((n : Rat) / 255 * 2 ^ 149)) (nearestBits_le _) := by
    unfold component
    rw [e1, e2]
    simp only [Single.div, Nat.ne_of_lt a1, Nat.ne_of_lt c1, c0, if_false, a2, c2, Bool.bne_false]
    rfl
  have hr : Single.round (n / 255) = .num false (nearestBits ((n : Rat) / 255 * 2 ^ 149)) (nearestBits_le _) := by
    unfold Single.round
    have h0 : (0 : Rat) ≤ n / 255 := by positivity
    split
    · rename_i h
      simp only [Single.signed, h]
    · rw [decide_eq_false (by linarith), abs_of_nonneg h0]
      rfl
  refine ⟨e.trans hr.symm, _, _, e, ?_, ?_⟩
  · have hm := nearestBits_mono (x := (n : Rat) / 255 * 2 ^ 149) (y := ((1 * 2 ^ 149 : Nat) : Rat)) (by positivity) (by
      rw [Nat.cast_mul, Nat.cast_pow]
      refine mul_le_mul_of_nonneg_right ?_ (by positivity)
      rw [div_le_iff₀ (by norm_num)]
      have : (n : Rat) ≤ 255 := by exact_mod_cast hn
      push_cast
      linarith)
    exact lt_of_le_of_lt hm (nearestBits_scale (by decide) (by decide)).2
  · rcases Nat.eq_zero_or_pos n with rfl | hp
    · simp [Single.nearestBits_zero, units]
    · have h1 : (1 : Rat) ≤ n := by exact_mod_cast hp
      have h2 : (n : Rat) ≤ 255 := by exact_mod_cast hn
      have hu : (2 : Rat) ^ 23 ≤ n / 255 * 2 ^ 149 := by
        have : (1 : Rat) / 255 * 2 ^ 149 ≤ n / 255 * 2 ^ 149 :=
          mul_le_mul_of_nonneg_right (div_le_div_of_nonneg_right h1 (by norm_num)) (by positivity)
        refine le_trans ?_ this
        norm_num
      have hf : nearestBits ((n : Rat) / 255 * 2 ^ 149) < infinityBits := by
        have hm := nearestBits_mono (x := (n : Rat) / 255 * 2 ^ 149) (y := ((1 * 2 ^ 149 : Nat) : Rat)) (by positivity) (by
          rw [Nat.cast_mul, Nat.cast_pow]
          refine mul_le_mul_of_nonneg_right ?_ (by positivity)
          rw [div_le_iff₀ (by norm_num)]
          push_cast
          linarith)
        exact lt_of_le_of_lt hm (nearestBits_scale (by decide) (by decide)).2
      have he := nearestBits_error hu hf
      have : (units (nearestBits ((n : Rat) / 255 * 2 ^ 149)) : Rat) / 2 ^ 149 - n / 255 =
          ((units (nearestBits ((n : Rat) / 255 * 2 ^ 149)) : Rat) - n / 255 * 2 ^ 149) / 2 ^ 149 := by field_simp
      rw [this, abs_div, abs_of_pos (show (0 : Rat) < 2 ^ 149 by positivity), div_le_iff₀ (by positivity)]
      refine le_trans he (le_of_eq ?_)
      ring

/-- C118: a component of a colour of CSS keeps its eight bits. -/
theorem C118_component (n : Nat) (hn : n ≤ 255) : level (component n) = n := by
  obtain ⟨-, b, h, e, -, he⟩ := component_round n hn
  have h2 : (n : Rat) ≤ 255 := by exact_mod_cast hn
  rw [abs_le] at he
  have hv : (component n).value = (units b : Rat) / 2 ^ 149 := by rw [e]; simp [Single.value]
  refine level_eq hn ?_ ?_ <;> rw [hv] <;> linarith [he.1, he.2]

theorem value_of_eq {a b : Single} (h : Single.eq a b = true) : a.value = b.value := by
  rcases a with _ | ⟨n, a, ha⟩
  · simp [Single.eq] at h
  rcases b with _ | ⟨m, b, hb⟩
  · simp [Single.eq] at h
  have hk : Single.key (.num n a ha) = Single.key (.num m b hb) := by simpa [Single.eq] using h
  exact le_antisymm (Single.value_le (by simp) (by simp) hk.le) (Single.value_le (by simp) (by simp) hk.ge)

/-- Multiplication by 65535. -/
theorem mul_word {b : Nat} {h : b ≤ infinityBits} (n : Bool) (hb : b < infinityBits) :
    Single.mul (.num n b h) (.ofNat 65535) = .num n (nearestBits ((units b : Rat) / 2 ^ 149 * 65535 * 2 ^ 149)) (nearestBits_le _) := by
  obtain ⟨t, ht, e, t1, t2⟩ := Single.ofNat_exact (n := 65535) (by decide)
  rw [e]
  simp only [Single.mul, Nat.ne_of_lt hb, Nat.ne_of_lt t1, or_self, if_false, t2, Bool.bne_false]
  rfl

theorem nearest_ge {x : Rat} {m : Nat} (hm : m < 2 ^ 24) (h : (m : Rat) ≤ x) : (m : Rat) ≤ (units (nearestBits (x * 2 ^ 149)) : Rat) / 2 ^ 149 := by
  have hx : ((m * 2 ^ 149 : Nat) : Rat) ≤ x * 2 ^ 149 := by
    rw [Nat.cast_mul, Nat.cast_pow]
    exact mul_le_mul_of_nonneg_right h (by positivity)
  have := units_strictMono.monotone (nearestBits_mono (by positivity) hx)
  rw [(nearestBits_scale hm (by decide)).1] at this
  rw [le_div_iff₀ (by positivity)]
  exact_mod_cast this

theorem nearest_le {x : Rat} {m : Nat} (hm : m < 2 ^ 24) (h0 : 0 ≤ x) (h : x ≤ m) : (units (nearestBits (x * 2 ^ 149)) : Rat) / 2 ^ 149 ≤ m := by
  have hx : x * 2 ^ 149 ≤ ((m * 2 ^ 149 : Nat) : Rat) := by
    rw [Nat.cast_mul, Nat.cast_pow]
    exact mul_le_mul_of_nonneg_right h (by positivity)
  have := units_strictMono.monotone (nearestBits_mono (mul_nonneg h0 (by positivity)) hx)
  rw [(nearestBits_scale hm (by decide)).1] at this
  rw [div_le_iff₀ (by positivity)]
  exact_mod_cast this

/-- The number of sixteen bits for an opacity. -/
theorem word_spec {b : Nat} {h : b ≤ infinityBits} (hb : b < infinityBits) :
    let x := (units b : Rat) / 2 ^ 149 * 65535
    let k := truncated16 (Single.mul (.num false b h) (.ofNat 65535))
    (0 < k → (k : Rat) - 1 < x) ∧ (k < 65535 → x < k + 1) := by
  intro x k
  have hx : 0 ≤ x := by positivity
  have hk : k = truncated16 (.num false (nearestBits (x * 2 ^ 149)) (nearestBits_le _)) := by rw [← mul_word false hb]
  have h16 := truncated16_lt (Single.mul (.num false b h) (.ofNat 65535))
  have hk16 : k < 65536 := h16
  clear_value k
  by_cases hi : nearestBits (x * 2 ^ 149) = infinityBits
  · have hk' : k = 65535 := by rw [hk]; simp [truncated16, hi]
    refine ⟨fun _ => ?_, fun h => by omega⟩
    by_contra hc
    have := nearestBits_mono (x := x * 2 ^ 149) (y := ((65534 * 2 ^ 149 : Nat) : Rat)) (mul_nonneg hx (by positivity)) (by
      rw [Nat.cast_mul, Nat.cast_pow]
      refine mul_le_mul_of_nonneg_right ?_ (by positivity)
      rw [hk'] at hc
      push_cast at hc ⊢
      linarith)
    have h3 := (nearestBits_scale (m := 65534) (j := 149) (by decide) (by decide)).2
    omega
  · have hk' : k = min 65535 ((units (nearestBits (x * 2 ^ 149)) : Rat) / 2 ^ 149).floor.toNat := by
      rw [hk]
      simp [truncated16, hi, Single.value]
    have v0 : (0 : Rat) ≤ (units (nearestBits (x * 2 ^ 149)) : Rat) / 2 ^ 149 := by positivity
    have f1 : (((units (nearestBits (x * 2 ^ 149)) : Rat) / 2 ^ 149).floor.toNat : Rat) ≤ (units (nearestBits (x * 2 ^ 149)) : Rat) / 2 ^ 149 := by
      have h0 : 0 ≤ ((units (nearestBits (x * 2 ^ 149)) : Rat) / 2 ^ 149).floor := Rat.le_floor_iff.2 (by exact_mod_cast v0)
      have h1 := Rat.floor_le ((units (nearestBits (x * 2 ^ 149)) : Rat) / 2 ^ 149)
      have h2 : ((((units (nearestBits (x * 2 ^ 149)) : Rat) / 2 ^ 149).floor.toNat : Int) : Rat) =
          (((units (nearestBits (x * 2 ^ 149)) : Rat) / 2 ^ 149).floor : Rat) := by rw [Int.toNat_of_nonneg h0]
      rw [Int.cast_natCast] at h2
      rw [h2]
      exact h1
    have f2 : (units (nearestBits (x * 2 ^ 149)) : Rat) / 2 ^ 149 < (((units (nearestBits (x * 2 ^ 149)) : Rat) / 2 ^ 149).floor.toNat : Rat) + 1 := by
      have h0 : 0 ≤ ((units (nearestBits (x * 2 ^ 149)) : Rat) / 2 ^ 149).floor := Rat.le_floor_iff.2 (by exact_mod_cast v0)
      have h1 := Rat.lt_floor_add_one ((units (nearestBits (x * 2 ^ 149)) : Rat) / 2 ^ 149)
      have h2 : ((((units (nearestBits (x * 2 ^ 149)) : Rat) / 2 ^ 149).floor.toNat : Int) : Rat) =
          (((units (nearestBits (x * 2 ^ 149)) : Rat) / 2 ^ 149).floor : Rat) := by rw [Int.toNat_of_nonneg h0]
      rw [Int.cast_natCast] at h2
      rw [h2]
      rw [Int.cast_add, Int.cast_one] at h1
      exact h1
    generalize ((units (nearestBits (x * 2 ^ 149)) : Rat) / 2 ^ 149).floor.toNat = f at hk' f1 f2
    constructor
    · intro hp
      by_contra hc
      obtain ⟨j, rfl⟩ : ∃ j, k = j + 1 := ⟨k - 1, by omega⟩
      have := nearest_le (x := x) (m := j) (by omega) hx (by push_cast at hc; linarith)
      have h3 : (j : Rat) + 1 ≤ f := by exact_mod_cast (show j + 1 ≤ f by omega)
      linarith
    · intro hp
      by_contra hc
      have hkf : k = f := by omega
      have := nearest_ge (x := x) (m := k + 1) (by omega) (by push_cast; linarith)
      push_cast at this
      rw [hkf] at this
      linarith

theorem clamp_component (dtoa : Single → List Byte) (n : Nat) (hn : n ≤ 255) : (singleFloats dtoa).clampUnit (component n) = component n := by
  obtain ⟨hr, b, h, e, -, -⟩ := component_round n hn
  have hk : (component n).key ≤ Single.one.key := by
    rw [hr, Single.key_round]
    have : Single.one.key = Single.nearestKey 1 := by decide +kernel
    rw [this]
    refine Single.nearestKey_mono ?_
    rw [div_le_iff₀ (by norm_num)]
    have h2 : (n : Rat) ≤ 255 := by exact_mod_cast hn
    linarith
  rw [e] at hk ⊢
  have h0 : ¬ (Single.key (.num false b h) < Single.zero.key) := by simp [Single.key, Single.zero]
  have h1 : ¬ (Single.one.key < Single.key (.num false b h)) := by omega
  have e1 : Single.max (.num false b h) .zero = .num false b h := by
    simp only [Single.max, Single.zero] at h0 ⊢
    rw [if_neg h0]
  have e2 : Single.min (.num false b h) .one = .num false b h := by
    simp only [Single.min, Single.one] at h1 ⊢
    rw [if_neg h1]
  simp only [singleFloats, e1, e2]

/-- C118: opacities with the same number of sixteen bits as an opacity of CSS have its eight bits. -/
theorem C118_opacity (dtoa : Single → List Byte) (n : Nat) (hn : n ≤ 255) (alpha : Single)
    (h : (singleFloats dtoa).key alpha = (singleFloats dtoa).key ((singleFloats dtoa).clampUnit (component n))) : level alpha = n := by
  rw [clamp_component dtoa n hn] at h
  obtain ⟨-, b, hb', e, hb, he⟩ := component_round n hn
  have h2 : (n : Rat) ≤ 255 := by exact_mod_cast hn
  have h0 : (0 : Rat) ≤ n := by positivity
  rw [e] at h
  simp only [singleFloats] at h
  obtain ⟨k1, k2⟩ := word_spec (h := hb') hb
  rw [abs_le] at he
  generalize hk : truncated16 (Single.mul (.num false b hb') (.ofNat 65535)) = k at *
  have hk16 : k < 65536 := hk ▸ truncated16_lt _
  have lo : (257 * n : Rat) - 2 < k := by
    rcases Nat.lt_or_ge k 65535 with hlt | hge
    · have := k2 hlt
      linarith [he.1]
    · have : (65535 : Rat) ≤ k := by exact_mod_cast hge
      linarith
  have hi : (k : Rat) < 257 * n + 2 := by
    rcases Nat.eq_zero_or_pos k with rfl | hp
    · push_cast; linarith
    · have := k1 hp
      linarith [he.2]
  rcases alpha with _ | ⟨neg, a, ha⟩
  · have hk0 : k = 0 := h.symm
    subst hk0
    have : n = 0 := by
      by_contra hne
      have : (1 : Rat) ≤ n := by exact_mod_cast (Nat.pos_of_ne_zero hne)
      push_cast at lo
      linarith
    subst this
    decide +kernel
  rcases Nat.lt_or_ge a infinityBits with hai | hai
  · cases neg with
    | true =>
      rw [mul_word true hai] at h
      have hk0 : k = 0 := h.symm
      subst hk0
      have : n = 0 := by
        by_contra hne
        have : (1 : Rat) ≤ n := by exact_mod_cast (Nat.pos_of_ne_zero hne)
        push_cast at lo
        linarith
      subst this
      have hneg : Single.value (.num true a ha) ≤ 0 := by
        have : (0 : Rat) ≤ (units a : Rat) / 2 ^ 149 := by positivity
        simp only [Single.value, if_true]
        linarith
      have : (Single.value (.num true a ha) * 255 + 1 / 2).floor < 1 := by
        rw [Rat.floor_lt_iff]
        push_cast
        linarith
      rw [level]
      omega
    | false =>
      obtain ⟨a1, a2⟩ := word_spec (h := ha) hai
      rw [h] at a1 a2
      have hv : Single.value (.num false a ha) = (units a : Rat) / 2 ^ 149 := by simp [Single.value]
      have v0 : (0 : Rat) ≤ (units a : Rat) / 2 ^ 149 := by positivity
      rcases Nat.lt_or_ge k 65535 with hlt | hge
      · have up := a2 hlt
        have down : (k : Rat) - 1 < (units a : Rat) / 2 ^ 149 * 65535 ∨ k = 0 := by
          rcases Nat.eq_zero_or_pos k with rfl | hp
          · exact .inr rfl
          · exact .inl (a1 hp)
        refine level_eq hn ?_ ?_
        · rw [hv]
          rcases down with down | rfl
          · linarith
          · push_cast at lo
            linarith
        · rw [hv]
          linarith
      · have hk' : k = 65535 := by omega
        subst hk'
        have hn' : n = 255 := by
          by_contra hne
          have : (n : Rat) ≤ 254 := by exact_mod_cast (show n ≤ 254 by omega)
          push_cast at hi
          linarith
        subst hn'
        have down := a1 (by decide)
        push_cast at down
        have : 255 ≤ (Single.value (.num false a ha) * 255 + 1 / 2).floor := by
          rw [Rat.le_floor_iff, hv]
          push_cast
          linarith
        rw [level]
        omega
  · have : a = infinityBits := by omega
    subst this
    have hmul : Single.mul (.num neg infinityBits ha) (.ofNat 65535) = Single.infinity neg := by
      cases neg
      · show Single.mul (Single.infinity false) _ = _
        decide +kernel
      · show Single.mul (Single.infinity true) _ = _
        decide +kernel
    rw [hmul] at h
    cases neg with
    | true =>
      have hk0 : k = 0 := h.symm
      subst hk0
      have : n = 0 := by
        by_contra hne
        have : (1 : Rat) ≤ n := by exact_mod_cast (Nat.pos_of_ne_zero hne)
        push_cast at lo
        linarith
      subst this
      show level (Single.infinity true) = 0
      decide +kernel
    | false =>
      have hk' : k = 65535 := by rw [← h]; decide +kernel
      subst hk'
      have hn' : n = 255 := by
        by_contra hne
        have : (n : Rat) ≤ 254 := by exact_mod_cast (show n ≤ 254 by omega)
        push_cast at hi
        linarith
      subst hn'
      show level (Single.infinity false) = 255
      decide +kernel

/-- C118: what is painted in a colour of CSS has the eight bits of each component of the colour and of its opacity. -/
theorem C118_color (dtoa : Single → List Byte) (rgb : Single × Single × Single) (alpha : Single) (r g b a : Nat) (hr : r ≤ 255) (hg : g ≤ 255)
    (hb : b ≤ 255) (ha : a ≤ 255)
    (h : ColorOk (singleFloats dtoa) rgb alpha (some (.round (r / 255), .round (g / 255), .round (b / 255), .round (a / 255)))) :
    level rgb.1 = r ∧ level rgb.2.1 = g ∧ level rgb.2.2 = b ∧ level alpha = a := by
  rw [← (component_round r hr).1, ← (component_round g hg).1, ← (component_round b hb).1, ← (component_round a ha).1] at h
  obtain ⟨h1, h2⟩ := h
  refine and_assoc.1 (and_assoc.1 ⟨?_, C118_opacity dtoa a ha alpha h2⟩)
  have key : ∀ {x : Single} {n : Nat}, n ≤ 255 → (singleFloats dtoa).ne x (component n) = false → level x = n := by
    intro x n hn he
    have he : Single.eq x (component n) = true := by simpa [singleFloats] using he
    rw [level, value_of_eq he]
    exact C118_component n hn
  rcases h1 with rfl | ⟨e1, e2, e3⟩
  · exact ⟨⟨C118_component r hr, C118_component g hg⟩, C118_component b hb⟩
  · exact ⟨⟨key hr e1, key hg e2⟩, key hb e3⟩

end Verif.Pdf
