/- How texts are measured and lines broken with single precision numbers: lemmas for C120. -/
import Verif.Layout.MachineLines
import Verif.Layout.SingleTheorems
import Verif.Font.ThousandthsTheorems
import Verif.Float.SingleError
set_option linter.unusedSectionVars false
namespace Verif.Layout.Machine
open Verif.Style Verif.Text Verif.Float Verif.Font

/-! ### Numbers -/

/-- Fractions with few digits are not rounded. -/
theorem round_exact {m j : Nat} {q : Rat} (z : Bool) (hm : m < 2 ^ 24) (hj : j ≤ 253) (hq : q * 2 ^ 149 = (m * 2 ^ j : Nat)) :
    (Single.round q z).Finite ∧ (Single.round q z).value = q := by
  have h0 : 0 ≤ q := by
    have : (0 : Rat) ≤ q * 2 ^ 149 := by rw [hq]; positivity
    by_contra hc
    have : q * 2 ^ 149 < 0 := mul_neg_of_neg_of_pos (not_le.1 hc) (by positivity)
    linarith
  by_cases h : q = 0
  · subst h
    have e : Single.round 0 z = .num z 0 (Nat.zero_le _) := by
      simp [Single.round, Single.signed, Single.nearestBits_zero]
    rw [e]
    exact ⟨Single.finite_num.2 (by decide), by cases z <;> simp [Single.value, units]⟩
  · obtain ⟨b, hb, e, h1, -, h2⟩ := Single.signed_exact false hm hj hq
    have e' : Single.round q z = .num false b hb := by
      unfold Single.round
      rw [if_neg h, decide_eq_false (not_lt.2 h0), abs_of_nonneg h0, e]
    rw [e']
    exact ⟨Single.finite_num.2 h1, by simpa [Single.value] using h2⟩

theorem toEms_exact {n k : Nat} (hn : n < 65536) (hk : k < 16) :
    (toEms n (2 ^ k)).Finite ∧ (toEms n (2 ^ k)).value = (n : Rat) / (2 ^ k : Nat) := by
  have hu : 2 ^ k < 2 ^ 24 := Nat.pow_lt_pow_right (by decide) (by omega)
  obtain ⟨b, h, e1, e2⟩ := thousandths_parts (w := n) (u := 2 ^ k) (by omega) (by positivity) hu
  have hq : (((n : Int).natAbs : Rat) / (2 ^ k : Nat)) * 2 ^ 149 = (n * 2 ^ (149 - k) : Nat) := by
    have : (2 : Rat) ^ 149 = 2 ^ (149 - k) * 2 ^ k := by rw [← pow_add]; congr 1; omega
    push_cast
    rw [this]
    simp
    field_simp
  obtain ⟨s1, s2⟩ := nearestBits_scale (m := n) (j := 149 - k) (by omega) (by omega)
  rw [hq] at e2
  rw [← e2] at s1 s2
  rw [e1, decide_eq_false (by omega)]
  refine ⟨Single.finite_num.2 s2, ?_⟩
  simp only [Single.value, s1]
  rw [← hq]
  simp

theorem mul_comm' (a b : Single) : Single.mul a b = Single.mul b a := by
  rcases a with _ | ⟨n, a, ha⟩ <;> rcases b with _ | ⟨m, b, hb⟩ <;> simp only [Single.mul]
  have e1 : (n != m) = (m != n) := by cases n <;> cases m <;> rfl
  rw [e1, mul_comm ((units a : Rat) / 2 ^ 149)]
  have hi : infinityBits ≠ 0 := by decide
  by_cases h1 : a = infinityBits <;> by_cases h2 : b = infinityBits <;> by_cases h3 : a = 0 <;> by_cases h4 : b = 0 <;>
    simp [h1, h2, h3, h4, hi, hi.symm]

theorem value_nonneg {a : Single} (h : Single.ge a .zero = true) : 0 ≤ a.value := by
  obtain ⟨h1, h2, h3⟩ := Single.ge_iff.1 h
  have := Single.value_le h2 h1 h3
  rwa [Single.zero_value] at this

/-- The relative error of rounding. -/
theorem round_error {x : Rat} (z : Bool) (hx : 1 / 2 ^ 126 ≤ x) (hf : (Single.round x z).Finite) : |(Single.round x z).value - x| ≤ x / 2 ^ 24 := by
  have h0 : 0 < x := lt_of_lt_of_le (by positivity) hx
  have e : Single.round x z = .num false (nearestBits (x * 2 ^ 149)) (nearestBits_le _) := by
    unfold Single.round
    rw [if_neg h0.ne', decide_eq_false (not_lt.2 h0.le), abs_of_pos h0]
    rfl
  rw [e] at hf ⊢
  have := nearestBits_error (x := x * 2 ^ 149) (by
    rw [← div_le_iff₀ (by positivity)]
    refine le_trans (le_of_eq ?_) hx
    norm_num) (Single.finite_num.1 hf)
  simp only [Single.value]
  have e2 : (units (nearestBits (x * 2 ^ 149)) : Rat) / 2 ^ 149 - x = ((units (nearestBits (x * 2 ^ 149)) : Rat) - x * 2 ^ 149) / 2 ^ 149 := by
    field_simp
  simp only [Bool.false_eq_true, if_false, one_mul]
  rw [e2, abs_div, abs_of_pos (show (0 : Rat) < 2 ^ 149 by positivity), div_le_iff₀ (by positivity)]
  refine le_trans this (le_of_eq ?_)
  ring

/-! ### Texts -/

variable {Err : Type} {api : FontApi Single Err} {advance : Nat → Nat} {k : Nat}

theorem textUnits_append (a b : List Nat) : textUnits api advance (a ++ b) = textUnits api advance a + textUnits api advance b := by
  induction a with
  | nil => simp [textUnits]
  | cons c a ih => simp only [List.cons_append, textUnits, ih]; omega

theorem exactFont_shaped {u : Nat} {text glyphs : List Nat} {w : Single} (h : IsShaped api text glyphs w) :
    IsShaped (exactFont api u advance) text glyphs ((textUnits api advance text : Rat) / u) := by
  induction h with
  | nil =>
    have : IsShaped (exactFont api u advance) [] [] (exactFont api u advance).zero := .nil
    simpa [exactFont, textUnits] using this
  | @snoc text glyphs width ch id w h hid hw ih =>
    have hw' : (exactFont api u advance).glyphWidth id = .ok ((advance id : Rat) / u) := by simp [exactFont, hw, Except.map]
    have := IsShaped.snoc ih (show (exactFont api u advance).glyphId ch = .ok id from hid) hw'
    have e : (exactFont api u advance).add ((textUnits api advance text : Rat) / u) ((advance id : Rat) / u) =
        (textUnits api advance (text ++ [ch]) : Rat) / u := by
      rw [textUnits_append]
      simp only [textUnits, hid, exactFont]
      push_cast
      ring
    rwa [e] at this

/-- C120: how wide a text is in ems, if its width is less than 2²⁴ units. -/
theorem shaped_exact (hf : EmFont api (2 ^ k) advance) (hk : k < 16) {text glyphs : List Nat} {w : Single} (h : IsShaped api text glyphs w)
    (hu : textUnits api advance text < 2 ^ 24) : w.Finite ∧ w.value = (textUnits api advance text : Rat) / (2 ^ k : Nat) := by
  induction h with
  | nil => rw [hf.zero]; exact ⟨Single.zero_finite, by simp [Single.zero_value, textUnits]⟩
  | @snoc text glyphs width ch id w h hid hw ih =>
    rw [textUnits_append] at hu ⊢
    simp only [textUnits, hid] at hu ⊢
    obtain ⟨f1, v1⟩ := ih (by omega)
    obtain ⟨rfl, ha⟩ := hf.width id w hw
    obtain ⟨f2, v2⟩ := toEms_exact ha hk
    obtain ⟨z, e⟩ := Single.add_finite f1 f2
    rw [hf.add, e, v1, v2]
    have hp : (0 : Rat) < (2 ^ k : Nat) := by positivity
    have hsum : (textUnits api advance text : Rat) / (2 ^ k : Nat) + (advance id : Rat) / (2 ^ k : Nat) =
        ((textUnits api advance text + (advance id + 0) : Nat) : Rat) / (2 ^ k : Nat) := by
      push_cast; ring
    rw [hsum]
    refine round_exact z hu (j := 149 - k) (by omega) ?_
    have : (2 : Rat) ^ 149 = 2 ^ (149 - k) * 2 ^ k := by rw [← pow_add]; congr 1; omega
    push_cast
    rw [this]
    field_simp

theorem shaped_nonneg (hf : EmFont api (2 ^ k) advance) (hk : k < 16) {text glyphs : List Nat} {w : Single} (h : IsShaped api text glyphs w) :
    Single.ge w .zero = true := by
  induction h with
  | nil => rw [hf.zero]; exact Single.ge_refl Single.zero_finite.1
  | @snoc text glyphs width ch id w h hid hw ih =>
    obtain ⟨rfl, ha⟩ := hf.width id w hw
    obtain ⟨f2, v2⟩ := toEms_exact ha hk
    rw [hf.add]
    refine Single.ge_trans (Single.add_ge (.of_nonneg ih) ?_) ih
    refine Single.ge_iff.2 ⟨f2.1, Single.zero_finite.1, ?_⟩
    rw [← Single.nearestKey_value f2.1, ← Single.nearestKey_value Single.zero_finite.1]
    apply Single.nearestKey_mono
    rw [v2, Single.zero_value]
    positivity

theorem toEms_nonneg {n : Nat} (hn : n < 65536) (hk : k < 16) : Single.ge (toEms n (2 ^ k)) .zero = true := by
  obtain ⟨f2, v2⟩ := toEms_exact hn hk
  refine Single.ge_iff.2 ⟨f2.1, Single.zero_finite.1, ?_⟩
  rw [← Single.nearestKey_value f2.1, ← Single.nearestKey_value Single.zero_finite.1]
  apply Single.nearestKey_mono
  rw [v2, Single.zero_value]
  positivity

/-- The beginning of a text is not wider. -/
theorem shaped_prefix (hf : EmFont api (2 ^ k) advance) (hk : k < 16) {text : List Nat} :
    ∀ {more glyphs : List Nat} {w : Single}, IsShaped api (text ++ more) glyphs w → ∃ g w', IsShaped api text g w' ∧ Single.ge w w' = true := by
  intro more
  induction more using List.reverseRecOn with
  | nil =>
    intro glyphs w h
    rw [List.append_nil] at h
    exact ⟨_, _, h, Single.ge_refl (Single.ge_iff.1 (shaped_nonneg hf hk h)).1⟩
  | append_singleton more ch ih =>
    intro glyphs width h
    rw [← List.append_assoc] at h
    generalize ht : text ++ more ++ [ch] = t at h
    cases h with
    | nil => simp at ht
    | snoc h0 _ hw =>
      obtain ⟨h1, -⟩ := List.append_inj' ht rfl
      subst h1
      obtain ⟨g, w', h1, h2⟩ := ih h0
      obtain ⟨rfl, ha⟩ := hf.width _ _ hw
      refine ⟨g, w', h1, ?_⟩
      rw [hf.add]
      exact Single.ge_trans (Single.add_ge (.of_nonneg (shaped_nonneg hf hk h0)) (toEms_nonneg ha hk)) h2

/-- A long text begins with a text of about 2²⁴ units. -/
theorem long_prefix (hf : EmFont api (2 ^ k) advance) {text glyphs : List Nat} {w : Single} (h : IsShaped api text glyphs w) :
    2 ^ 24 ≤ textUnits api advance text → ∃ a b, text = a ++ b ∧ textUnits api advance a < 2 ^ 24 ∧ 2 ^ 24 < textUnits api advance a + 65537 := by
  induction h with
  | nil => intro hu; simp [textUnits] at hu
  | @snoc text glyphs width ch id w h hid hw ih =>
    intro hu
    by_cases hc : 2 ^ 24 ≤ textUnits api advance text
    · obtain ⟨a, b, rfl, h1, h2⟩ := ih hc
      exact ⟨a, b ++ [ch], by simp, h1, h2⟩
    · refine ⟨text, [ch], rfl, by omega, ?_⟩
      rw [textUnits_append] at hu
      simp only [textUnits, hid] at hu
      have := (hf.width id w hw).2
      omega

/-! ### Lines -/

section
variable {size available : Single}

/-- A text that fits, as the program sees it, is not wider than the room, but for one rounding. -/
theorem fits_short (hf : EmFont api (2 ^ k) advance) (hk : k < 16) (hs : size.Finite) (ha : available.Finite)
    (ha1 : 1 / 2 ^ 126 ≤ available.value) {text glyphs : List Nat} {w : Single} (h : IsShaped api text glyphs w)
    (hu : textUnits api advance text < 2 ^ 24) (hfit : Single.gt (.mul size w) available = false) :
    size.value * ((textUnits api advance text : Rat) / (2 ^ k : Nat)) ≤ available.value + available.value / 2 ^ 23 := by
  obtain ⟨f1, v1⟩ := shaped_exact hf hk h hu
  obtain ⟨z, e⟩ := (Single.C116_operations hs f1).2.2.1
  rw [v1] at e
  generalize hx : size.value * ((textUnits api advance text : Rat) / (2 ^ k : Nat)) = x at e ⊢
  by_cases hsmall : x < 1 / 2 ^ 126
  · have : 0 ≤ available.value / 2 ^ 23 := by
      have : (0 : Rat) ≤ available.value := le_trans (by positivity) ha1
      positivity
    linarith
  have hkey : (Single.mul size w).key ≤ available.key := by
    by_contra hc
    have : Single.gt (.mul size w) available = true := Single.gt_iff.2 ⟨by rw [e]; exact Single.round_ne_nan _ _, ha.1, by omega⟩
    rw [this] at hfit
    cases hfit
  have hfin : (Single.round x z).Finite := by
    refine ⟨Single.round_ne_nan _ _, ?_, ?_⟩
    · rw [Single.key_round]
      have h0 : Single.nearestKey 0 ≤ Single.nearestKey x := Single.nearestKey_mono (le_trans (by positivity) (not_lt.1 hsmall))
      have : Single.nearestKey 0 = 0 := by simp [Single.nearestKey, Single.nearestBits_zero]
      have : (0 : Int) < infinityBits := by decide
      omega
    · rw [← e]
      exact lt_of_le_of_lt hkey ha.2.2
  have hle : (Single.round x z).value ≤ available.value := by
    rw [← e]
    exact Single.value_le (by rw [e]; exact Single.round_ne_nan _ _) ha.1 hkey
  have herr := abs_le.1 (round_error z (not_lt.1 hsmall) hfin)
  have : x - x / 2 ^ 24 ≤ available.value := by linarith [herr.1]
  have h3 : x ≤ available.value * (2 ^ 24 / (2 ^ 24 - 1)) := by
    rw [mul_div_assoc', le_div_iff₀ (by norm_num)]
    linarith
  have h4 : available.value * (2 ^ 24 / (2 ^ 24 - 1)) ≤ available.value + available.value / 2 ^ 23 := by
    have ha0 : (0 : Rat) ≤ available.value := le_trans (by positivity) ha1
    have : available.value + available.value / 2 ^ 23 = available.value * (1 + 1 / 2 ^ 23) := by ring
    rw [this]
    exact mul_le_mul_of_nonneg_left (by norm_num) ha0
  linarith

/-- See `fits_short`: so it is short, if the room is less than 2²³ units. -/
theorem fits_bound (hf : EmFont api (2 ^ k) advance) (hk : k < 16) (hs : size.Finite) (hs0 : 0 < size.value) (ha : available.Finite)
    (ha1 : 1 / 2 ^ 126 ≤ available.value) (hroom : available.value * (2 ^ k : Nat) ≤ 2 ^ 23 * size.value) {text glyphs : List Nat} {w : Single}
    (h : IsShaped api text glyphs w) (hfit : Single.gt (.mul size w) available = false) :
    textUnits api advance text ≤ 2 ^ 23 + 1 := by
  have bound : ∀ {text glyphs : List Nat} {w : Single}, IsShaped api text glyphs w → Single.gt (.mul size w) available = false →
      textUnits api advance text < 2 ^ 24 → textUnits api advance text ≤ 2 ^ 23 + 1 := by
    intro text glyphs w h hfit hu
    have h1 := fits_short hf hk hs ha ha1 h hu hfit
    have hp : (0 : Rat) < (2 ^ k : Nat) := by positivity
    rw [mul_div_assoc', div_le_iff₀ hp] at h1
    have h2 : size.value * (textUnits api advance text : Rat) ≤ size.value * (2 ^ 23 + 1) := by
      have : (available.value + available.value / 2 ^ 23) * (2 ^ k : Nat) = available.value * (2 ^ k : Nat) * (1 + 1 / 2 ^ 23) := by ring
      rw [this] at h1
      have h3 : available.value * (2 ^ k : Nat) * (1 + 1 / 2 ^ 23) ≤ 2 ^ 23 * size.value * (1 + 1 / 2 ^ 23) :=
        mul_le_mul_of_nonneg_right hroom (by positivity)
      have h4 : 2 ^ 23 * size.value * (1 + 1 / 2 ^ 23) = size.value * (2 ^ 23 + 1) := by ring
      linarith
    have h5 := le_of_mul_le_mul_left h2 hs0
    exact_mod_cast h5
  by_cases hu : textUnits api advance text < 2 ^ 24
  · exact bound h hfit hu
  · exfalso
    obtain ⟨a, b, rfl, a1, a2⟩ := long_prefix hf h (not_lt.1 hu)
    obtain ⟨g, w', p1, p2⟩ := shaped_prefix hf hk h
    have hsz : Single.gt size .zero = true := by
      refine ((Single.C116_operations hs Single.zero_finite).2.2.2.2.1).2 ?_
      rw [Single.zero_value]; exact hs0
    have hm : Single.ge (.mul size w) (.mul size w') = true := by
      rw [mul_comm' size w, mul_comm' size w']
      exact Single.mul_mono (.of_nonneg (shaped_nonneg hf hk p1)) p2 hs hsz
    have hfit' : Single.gt (.mul size w') available = false := by
      rcases hc : Single.gt (.mul size w') available with _ | _
      · rfl
      · obtain ⟨c1, c2, c3⟩ := Single.gt_iff.1 hc
        obtain ⟨d1, d2, d3⟩ := Single.ge_iff.1 hm
        have : Single.gt (.mul size w) available = true := Single.gt_iff.2 ⟨d1, c2, by omega⟩
        rw [this] at hfit
        cases hfit
    have := bound p1 hfit' a1
    omega

/-- A text that does not fit, as the program sees it, is wider than the room. -/
theorem wide_exact (hf : EmFont api (2 ^ k) advance) (hk : k < 16) (hs : size.Finite) (ha : available.Finite) {text glyphs : List Nat}
    {w : Single} (h : IsShaped api text glyphs w) (hu : textUnits api advance text < 2 ^ 24)
    (hwide : Single.gt (.mul size w) available = true) : available.value < size.value * ((textUnits api advance text : Rat) / (2 ^ k : Nat)) := by
  obtain ⟨f1, v1⟩ := shaped_exact hf hk h hu
  obtain ⟨z, e⟩ := (Single.C116_operations hs f1).2.2.1
  rw [v1] at e
  by_contra hc
  have h1 := Single.nearestKey_mono (not_lt.1 hc)
  rw [Single.nearestKey_value ha.1] at h1
  have := (Single.gt_iff.1 hwide).2.2
  rw [e, Single.key_round] at this
  omega

end

end Verif.Layout.Machine
