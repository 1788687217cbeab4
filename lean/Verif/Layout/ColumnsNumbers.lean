/- C127: numbers that are a little off. -/
import Verif.Layout.ColumnsSpec
import Verif.Layout.WholeTheorems
import Verif.Layout.RowsText
import Verif.Float.SingleBounds
import Mathlib.Algebra.Order.Group.MinMax
namespace Verif.Float
namespace Single

/-- A sum is off by at most one part in 2²⁴ of it: sums that are too small for that are not rounded. -/
theorem round_sum {x : Rat} (z : Bool) (n : Int) (hx : x * 2 ^ 149 = n) (h2 : |x| ≤ 2 ^ 127) :
    Finite (round x z) ∧ |(round x z).value - x| ≤ |x| / 2 ^ 24 := by
  have hfin : Finite (round x z) := (C116_overflow x z).2 (lt_of_le_of_lt h2 (by norm_num))
  refine ⟨hfin, ?_⟩
  have hf : nearestBits (|x| * 2 ^ 149) < infinityBits := by
    by_cases h0 : x = 0
    · rw [h0, abs_zero, zero_mul, nearestBits_zero]; decide
    · unfold round at hfin
      rw [if_neg h0] at hfin
      exact finite_num.1 hfin
  have hn : |x| * 2 ^ 149 = (n.natAbs : Rat) := by
    have h : |x * 2 ^ 149| = |(n : Rat)| := by rw [hx]
    rw [abs_mul, abs_of_pos (show (0 : Rat) < 2 ^ 149 by positivity)] at h
    rw [h, Nat.cast_natAbs, Int.cast_abs]
  rw [round_value, div_le_iff₀ (by positivity)]
  by_cases hs : n.natAbs < 2 ^ 24
  · have := (nearestBits_scale (j := 0) hs (by norm_num)).1
    rw [pow_zero, mul_one] at this
    rw [hn, this, sub_self, abs_zero]
    positivity
  · refine le_trans (nearestBits_error (x := |x| * 2 ^ 149) ?_ hf) (le_of_eq (by ring))
    rw [hn]
    have : 2 ^ 24 ≤ n.natAbs := not_lt.1 hs
    have : ((2 ^ 24 : Nat) : Rat) ≤ n.natAbs := by exact_mod_cast this
    refine le_trans ?_ this
    norm_num

theorem value_scaled (a : Single) : ∃ n : Int, a.value * 2 ^ 149 = n := by
  cases a with
  | nan => exact ⟨0, by simp [value]⟩
  | num s b h =>
    cases s
    · exact ⟨units b, by simp [value]⟩
    · exact ⟨-(units b : Int), by simp [value]⟩

variable {a b : Single}
theorem add_sum (ha : Finite a) (hb : Finite b) (h : |a.value + b.value| ≤ 2 ^ 127) :
    Finite (add a b) ∧ |(add a b).value - (a.value + b.value)| ≤ |a.value + b.value| / 2 ^ 24 := by
  obtain ⟨z, e⟩ := (C116_operations ha hb).1
  obtain ⟨n, hn⟩ := value_scaled a
  obtain ⟨m, hm⟩ := value_scaled b
  rw [e]
  exact round_sum z (n + m) (by rw [add_mul, hn, hm]; push_cast; rfl) h
end Single
end Verif.Float

namespace Verif.Layout.Machine
open Verif.Style Verif.Text Verif.Float

attribute [local instance] singleNumbers exactNumbers

/-- `q` is at most `m`, and `a` is off by at most `n` parts in 2²³ of `m`, if these are not too large. -/
def Follows (n : Nat) (m : Rat) (a : Single) (q : Rat) : Prop :=
  |q| ≤ m ∧ (n ≤ 2 ^ 23 → m ≤ 2 ^ 100 → a.Finite ∧ |a.value - q| ≤ n * m / 2 ^ 23)

namespace Follows
variable {n n' : Nat} {m m' : Rat} {a b : Single} {q r : Rat}

theorem nonneg (h : Follows n m a q) : 0 ≤ m := le_trans (abs_nonneg _) h.1

theorem mono (h : Follows n m a q) (hn : n ≤ n') (hm : m ≤ m') : Follows n' m' a q := by
  refine ⟨h.1.trans hm, fun h1 h2 => ?_⟩
  obtain ⟨f, e⟩ := h.2 (hn.trans h1) (hm.trans h2)
  refine ⟨f, e.trans ?_⟩
  have : (n : Rat) ≤ n' := by exact_mod_cast hn
  exact div_le_div_of_nonneg_right (mul_le_mul this hm h.nonneg (by positivity)) (by positivity)

theorem exactly (h : Exactly a q) (hq : |q| ≤ m) : Follows 0 m a q := ⟨hq, fun _ _ => ⟨h.1, by rw [h.2]; simp⟩⟩

theorem whole {k : Nat} {g : Bool} {B : Rat} (h : WholeIs k g B a q) : Follows 0 B a q := exactly h.1 h.2.2

theorem zero : Follows n 0 (0 : Single) (0 : Rat) := mono (exactly (m := 0) ⟨Single.zero_finite, Single.zero_value⟩ (by simp)) (Nat.zero_le _) (le_refl _)

theorem add (h : Follows n m a q) (h' : Follows n' m' b r) : Follows (max n n' + 1) (m + m') (a + b) (q + r) := by
  have n0 := h.nonneg
  have n1 := h'.nonneg
  refine ⟨(abs_add_le q r).trans (add_le_add h.1 h'.1), fun h1 h2 => ?_⟩
  obtain ⟨f, e⟩ := h.2 (by omega) (by linarith)
  obtain ⟨f', e'⟩ := h'.2 (by omega) (by linarith)
  have hN : (n : Rat) ≤ (max n n' : Nat) := by exact_mod_cast le_max_left n n'
  have hN' : (n' : Rat) ≤ (max n n' : Nat) := by exact_mod_cast le_max_right n n'
  have hM : ((max n n' : Nat) : Rat) ≤ 2 ^ 23 := by exact_mod_cast (by omega : max n n' ≤ 2 ^ 23)
  generalize hNN : ((max n n' : Nat) : Rat) = N at hN hN' hM
  have N0 : 0 ≤ N := by rw [← hNN]; positivity
  have e1 : |a.value - q| ≤ N * m / 2 ^ 23 := e.trans (div_le_div_of_nonneg_right (mul_le_mul_of_nonneg_right hN n0) (by positivity))
  have e2 : |b.value - r| ≤ N * m' / 2 ^ 23 := e'.trans (div_le_div_of_nonneg_right (mul_le_mul_of_nonneg_right hN' n1) (by positivity))
  have s1 : |(a.value + b.value) - (q + r)| ≤ N * (m + m') / 2 ^ 23 := by
    have : (a.value + b.value) - (q + r) = (a.value - q) + (b.value - r) := by ring
    rw [this]
    refine (abs_add_le _ _).trans ((add_le_add e1 e2).trans (le_of_eq (by ring)))
  have s2 : N * (m + m') / 2 ^ 23 ≤ m + m' := by
    rw [div_le_iff₀ (by positivity)]
    nlinarith
  have s3 : |a.value + b.value| ≤ 2 * (m + m') := by
    have h3 := (abs_add_le q r).trans (add_le_add h.1 h'.1)
    have : a.value + b.value = ((a.value + b.value) - (q + r)) + (q + r) := by ring
    rw [this]
    exact (abs_add_le _ _).trans (by linarith)
  obtain ⟨g, t⟩ := Single.add_sum f f' (s3.trans (by linarith [show (2 : Rat) * 2 ^ 100 ≤ 2 ^ 127 by norm_num]))
  refine ⟨g, ?_⟩
  have : (Single.add a b).value - (q + r) = ((Single.add a b).value - (a.value + b.value)) + ((a.value + b.value) - (q + r)) := by ring
  change |(Single.add a b).value - (q + r)| ≤ _
  rw [this]
  refine (abs_add_le _ _).trans ((add_le_add (t.trans (div_le_div_of_nonneg_right s3 (by positivity))) s1).trans (le_of_eq ?_))
  push_cast
  rw [← hNN]
  push_cast
  ring

theorem max (h : Follows n m a q) (h' : Follows n' m' b r) (hm : m ≤ m'') (hm' : m' ≤ m'') : Follows (Max.max n n') m'' (Max.max a b) (Max.max q r) := by
  have h := h.mono (le_max_left n n') hm
  have h' := h'.mono (le_max_right n n') hm'
  refine ⟨?_, fun h1 h2 => ?_⟩
  · rcases max_choice q r with e | e <;> rw [e]
    · exact h.1
    · exact h'.1
  · obtain ⟨f, e⟩ := h.2 h1 h2
    obtain ⟨f', e'⟩ := h'.2 h1 h2
    obtain ⟨g1, g2⟩ := max_exactly (a := a) (b := b) ⟨f, rfl⟩ ⟨f', rfl⟩
    refine ⟨g1, ?_⟩
    change |(Single.max a b).value - _| ≤ _
    rw [g2]
    exact (abs_max_sub_max_le_max _ _ _ _).trans (max_le e e')

theorem min (h : Follows n m a q) (h' : Follows n' m' b r) (hm : m ≤ m'') (hm' : m' ≤ m'') : Follows (Max.max n n') m'' (Min.min a b) (Min.min q r) := by
  have h := h.mono (le_max_left n n') hm
  have h' := h'.mono (le_max_right n n') hm'
  refine ⟨?_, fun h1 h2 => ?_⟩
  · rcases min_choice q r with e | e <;> rw [e]
    · exact h.1
    · exact h'.1
  · obtain ⟨f, e⟩ := h.2 h1 h2
    obtain ⟨f', e'⟩ := h'.2 h1 h2
    obtain ⟨g1, g2⟩ := min_exactly (a := a) (b := b) ⟨f, rfl⟩ ⟨f', rfl⟩
    refine ⟨g1, ?_⟩
    change |(Single.min a b).value - _| ≤ _
    rw [g2]
    exact (abs_min_sub_min_le_max _ _ _ _).trans (max_le e e')

theorem lineHeight {s : Rat} (h : Exactly a s) (h1 : 1 / 2 ^ 100 ≤ s) : Follows 2 (|s| * (12 / 10)) (Numbers.lineHeight a) (Numbers.lineHeight s) := by
  have hs : 0 < s := lt_of_lt_of_le (by positivity) h1
  obtain ⟨fa, rfl⟩ := h
  have e1 : Numbers.lineHeight a = Single.mul a (.round (12 / 10)) := rfl
  have e2 : Numbers.lineHeight a.value = a.value * (12 / 10) := rfl
  rw [e1, e2, abs_of_pos hs]
  refine ⟨by rw [abs_of_pos (by positivity)], fun _ h2 => ?_⟩
  obtain ⟨fc, ec⟩ := Single.round_bound (x := 12 / 10) (B := 12 / 10) false (by rw [abs_of_pos (by norm_num)]) (by norm_num) (by norm_num)
  generalize Single.round (12 / 10) = c at fc ec
  rw [abs_le] at ec
  have p0 : a.value * c.value - a.value * (12 / 10) ≤ a.value * ((12 / 10) / 2 ^ 24) := by nlinarith
  have p1 : -(a.value * ((12 / 10) / 2 ^ 24)) ≤ a.value * c.value - a.value * (12 / 10) := by nlinarith
  have p2 : |a.value * c.value| ≤ a.value * (3 / 2) := by
    rw [abs_le]; constructor <;> nlinarith
  obtain ⟨g, t⟩ := Single.mul_bound fa fc p2 (by
    refine le_trans ?_ (mul_le_mul_of_nonneg_right h1 (by norm_num)); norm_num) (by
    have : (2 : Rat) ^ 100 * 2 ≤ 2 ^ 127 := by norm_num
    nlinarith)
  refine ⟨g, ?_⟩
  rw [abs_le] at t ⊢
  obtain ⟨t1, t2⟩ := t
  push_cast
  constructor <;> nlinarith

end Follows
end Verif.Layout.Machine
