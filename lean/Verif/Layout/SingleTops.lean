/- **C120**, continued: where the lines of a paragraph are with single precision numbers. -/
import Verif.Float.SingleBounds
import Verif.Layout.LinesTheorems
namespace Verif.Layout.Machine
open Verif.Style Verif.Text Verif.Float

theorem max_zero_value {a : Single} (h : a.Finite) (h0 : 0 ≤ a.value) : (Single.max .zero a).Finite ∧ (Single.max .zero a).value = a.value := by
  cases a with
  | nan => exact absurd rfl h.1
  | num n b hb =>
    by_cases hk : Single.zero.key < (Single.num n b hb).key
    · have e : Single.max .zero (.num n b hb) = .num n b hb := by
        simp only [Single.max, Single.zero] at hk ⊢
        rw [if_pos hk]
      rw [e]
      exact ⟨h, rfl⟩
    · have e : Single.max .zero (.num n b hb) = .zero := by
        simp only [Single.max, Single.zero] at hk ⊢
        rw [if_neg hk]
      rw [e]
      refine ⟨Single.zero_finite, le_antisymm (by rw [Single.zero_value]; exact h0) ?_⟩
      exact Single.value_le h.1 Single.zero_finite.1 (not_lt.1 hk)

/-- The height of a line of text. -/
theorem height_bound {s : Rat} (h1 : 1 / 2 ^ 100 ≤ s) (h2 : s ≤ 2 ^ 100) :
    let h := Single.max .zero (Single.mul (Single.round s) (Single.round (12 / 10)))
    h.Finite ∧ |h.value - 12 / 10 * s| ≤ 6 * s / 2 ^ 24 := by
  intro h
  have hs : (0 : Rat) < s := lt_of_lt_of_le (by positivity) h1
  obtain ⟨a1, a2⟩ := Single.round_bound (x := s) (B := s) false (by rw [abs_of_pos hs]) (le_trans (by norm_num) h1) (le_trans h2 (by norm_num))
  obtain ⟨b1, b2⟩ := Single.round_bound (x := 12 / 10) (B := 12 / 10) false (by norm_num) (by norm_num) (by norm_num)
  change (Single.round s).Finite at a1
  change |(Single.round s).value - s| ≤ s / 2 ^ 24 at a2
  change (Single.round (12 / 10)).Finite at b1
  change |(Single.round (12 / 10)).value - 12 / 10| ≤ 12 / 10 / 2 ^ 24 at b2
  set σ := (Single.round s).value
  set c := (Single.round (12 / 10)).value
  have a3 := abs_le.1 a2
  have b3 := abs_le.1 b2
  have hσ : 0 < σ := by linarith [a3.1]
  have hc : 0 < c := by linarith [b3.1]
  have hp : |σ * c - 12 / 10 * s| ≤ 3 * s / 2 ^ 24 := by
    have e : σ * c - 12 / 10 * s = (σ - s) * c + s * (c - 12 / 10) := by ring
    rw [e]
    refine le_trans (abs_add_le _ _) ?_
    rw [abs_mul, abs_mul, abs_of_pos hs, abs_of_pos hc]
    have q1 : |σ - s| * c ≤ s / 2 ^ 24 * (13 / 10) := by
      apply mul_le_mul a2 (by linarith [b3.2]) hc.le (by positivity)
    have q2 : s * |c - 12 / 10| ≤ s * (12 / 10 / 2 ^ 24) := mul_le_mul_of_nonneg_left b2 hs.le
    linarith
  have hp' := abs_le.1 hp
  obtain ⟨m1, m2⟩ := Single.mul_bound (B := 2 * s) a1 b1 (by
    change |σ * c| ≤ 2 * s
    rw [abs_of_pos (mul_pos hσ hc)]
    linarith [hp'.2]) (by linarith [show (1 : Rat) / 2 ^ 126 ≤ 1 / 2 ^ 100 by norm_num]) (by linarith [show (2 : Rat) * 2 ^ 100 ≤ 2 ^ 127 by norm_num])
  change |(Single.mul (Single.round s) (Single.round (12 / 10))).value - σ * c| ≤ 2 * s / 2 ^ 24 at m2
  have m3 := abs_le.1 m2
  obtain ⟨x1, x2⟩ := max_zero_value m1 (by linarith [m3.1, hp'.1])
  refine ⟨x1, ?_⟩
  rw [show h.value = _ from x2]
  exact abs_le.2 ⟨by linarith [m3.1, hp'.1], by linarith [m3.2, hp'.2]⟩

/-- The top of the line with this index. -/
def topOf (height : Single) : Nat → Single
  | 0 => .zero
  | i + 1 => Single.add (topOf height i) height

theorem top_bound {h : Single} (hf : h.Finite) (h1 : 1 / 2 ^ 120 ≤ h.value) (h2 : h.value ≤ 2 ^ 110) (i : Nat) (hi : i ≤ 4096) :
    (topOf h i).Finite ∧ |(topOf h i).value - i * h.value| ≤ i * (i + 3) / 2 * h.value / 2 ^ 24 := by
  have hp : (0 : Rat) < h.value := lt_of_lt_of_le (by positivity) h1
  induction i with
  | zero => exact ⟨Single.zero_finite, by simp [topOf, Single.zero_value]⟩
  | succ i ih =>
    obtain ⟨i1, i2⟩ := ih (by omega)
    have hi' : (i : Rat) ≤ 4096 := by exact_mod_cast (by omega : i ≤ 4096)
    have hi0 : (0 : Rat) ≤ i := by positivity
    have hsmall : (i : Rat) * (i + 3) / 2 * h.value / 2 ^ 24 ≤ h.value := by
      rw [div_le_iff₀ (by positivity)]
      have : (i : Rat) * (i + 3) / 2 ≤ 2 ^ 24 := by nlinarith
      nlinarith
    have i3 := abs_le.1 i2
    have hsum : |(topOf h i).value + h.value| ≤ (i + 2) * h.value := by
      refine abs_le.2 ⟨?_, ?_⟩ <;> nlinarith [i3.1, i3.2]
    obtain ⟨m1, m2⟩ := Single.add_bound i1 hf hsum (by
      refine le_trans (le_trans (by norm_num) h1) ?_
      nlinarith) (by nlinarith [show (4098 : Rat) * 2 ^ 110 ≤ 2 ^ 127 by norm_num])
    refine ⟨m1, ?_⟩
    have m3 := abs_le.1 m2
    push_cast
    simp only [topOf]
    have e : ((i : Rat) + 1) * (i + 1 + 3) / 2 * h.value / 2 ^ 24 = i * (i + 3) / 2 * h.value / 2 ^ 24 + (i + 2) * h.value / 2 ^ 24 := by ring
    rw [e]
    exact abs_le.2 ⟨by linarith [m3.1, i3.1], by linarith [m3.2, i3.2]⟩

section
attribute [local instance] singleNumbers
variable {Err : Type} {api : FontApi Single Err}

theorem lineBoxesOf_get (cb : ContainingBlock Single) (style : ComputedValues) (height : Single) (segments : List (ShapedSegment Single)) :
    ∀ (start i : Nat) (f : Fragment Single), (lineBoxesOf cb style height (topOf height start) segments)[i]? = some f →
      ∃ children, f = .anonymous ⟨⟨.zero, topOf height (start + i)⟩, ⟨cb.inlineSize, height⟩⟩ children cb.mode := by
  induction segments with
  | nil => intro start i f h; simp [lineBoxesOf] at h
  | cons s rest ih =>
    intro start i f h
    cases i with
    | zero =>
      simp only [lineBoxesOf, List.getElem?_cons_zero, Option.some.injEq] at h
      exact ⟨_, h.symm⟩
    | succ i =>
      simp only [lineBoxesOf, List.getElem?_cons_succ] at h
      have := ih (start + 1) i f h
      rwa [show start + 1 + i = start + (i + 1) by omega] at this

/-- **C120**: with single precision numbers, the lines of a paragraph are where they are with exact numbers, 1.2 times the font size below each
other, but for an error that grows with the number of lines above: at line 4096 it is at most one line. The text is in any font, and the font
size is between 2⁻¹⁰⁰ and 2¹⁰⁰ pixels. -/
theorem C120_tops (style : ComputedValues) (text : List Nat) (cb : ContainingBlock Single) (rank : Nat) (fc : FlowChildren Single)
    (as : List (AbsolutelyPositionedFragment Single)) (hs1 : 1 / 2 ^ 100 ≤ fontSizeOf style) (hs2 : fontSizeOf style ≤ 2 ^ 100)
    (h : layoutInline api [.textRun style text] cb rank [] = some (fc, as))
    (i : Nat) (hi : i ≤ 4096) (f : Fragment Single) (hf : fc.fragments[i]? = some f) :
    ∃ top height children, f = .anonymous ⟨⟨.zero, top⟩, ⟨cb.inlineSize, height⟩⟩ children cb.mode ∧ top.Finite ∧ height.Finite ∧
      |top.value - i * (12 / 10 * fontSizeOf style)| ≤ i * (i + 8) * fontSizeOf style / 2 ^ 24 ∧
      |height.value - 12 / 10 * fontSizeOf style| ≤ 6 * fontSizeOf style / 2 ^ 24 := by
  obtain ⟨lines, segments, -, -, h3, -⟩ := layoutInline_lines (F := api) style text cb rank fc as h
  rw [h3] at hf
  obtain ⟨children, e⟩ := lineBoxesOf_get cb style _ segments 0 i f hf
  obtain ⟨b1, b2⟩ := height_bound hs1 hs2
  rw [Nat.zero_add] at e
  set s := fontSizeOf style
  set hh := Single.max .zero (Single.mul (Single.round s) (Single.round (12 / 10)))
  have hs : (0 : Rat) < s := lt_of_lt_of_le (by positivity) hs1
  have b3 := abs_le.1 b2
  have l1 : s ≤ hh.value := by linarith [b3.1]
  have l2 : hh.value ≤ 13 / 10 * s := by linarith [b3.2]
  obtain ⟨t1, t2⟩ := top_bound b1 (le_trans (by norm_num) (le_trans hs1 l1))
    (le_trans l2 (by linarith [show (13 / 10 : Rat) * 2 ^ 100 ≤ 2 ^ 110 by norm_num])) i hi
  refine ⟨topOf hh i, hh, children, e, t1, b1, ?_, b2⟩
  have hi0 : (0 : Rat) ≤ i := by positivity
  have t3 := abs_le.1 t2
  have k1 : (i : Rat) * (i + 3) / 2 * hh.value / 2 ^ 24 ≤ i * (i + 3) / 2 * (13 / 10 * s) / 2 ^ 24 := by gcongr
  have k2 : (i : Rat) * (hh.value - 12 / 10 * s) ≤ i * (6 * s / 2 ^ 24) := mul_le_mul_of_nonneg_left b3.2 hi0
  have k3 : (i : Rat) * -(6 * s / 2 ^ 24) ≤ i * (hh.value - 12 / 10 * s) := mul_le_mul_of_nonneg_left b3.1 hi0
  have k4 : (i : Rat) * (i + 3) / 2 * (13 / 10 * s) / 2 ^ 24 + i * (6 * s / 2 ^ 24) ≤ i * (i + 8) * s / 2 ^ 24 := by
    have : 0 ≤ (i : Rat) * i * s := by positivity
    have : 0 ≤ (i : Rat) * s := by positivity
    rw [show (i : Rat) * (i + 3) / 2 * (13 / 10 * s) / 2 ^ 24 + i * (6 * s / 2 ^ 24) = (13 / 20 * (i * i * s) + (39 / 20 + 6) * (i * s)) / 2 ^ 24 by ring]
    apply div_le_div_of_nonneg_right _ (by positivity)
    nlinarith
  exact abs_le.2 ⟨by linarith [t3.1], by linarith [t3.2]⟩

/-- The hypotheses of `C120_tops` are met: the third line of the paragraph of `C120_example` with one more word is 38.4 pixels below the top of
the first but for one part in 2¹⁹ of a pixel, and it is not exactly there. -/
theorem C120_example_tops :
    1 / 2 ^ 100 ≤ fontSizeOf plainStyle ∧ fontSizeOf plainStyle ≤ 2 ^ 100 ∧ fontSizeOf plainStyle = 16 ∧
    ((layoutInline halfFont [.textRun plainStyle (codes "aa bb cc dd ee")] ⟨.round (40 : Nat), .auto, (.horizontalTb, .ltr)⟩ 0 []).bind
      fun r => (r.1.fragments[2]?).map fun
        | .anonymous rect _ _ => decide (|rect.startCorner.block.value - 384 / 10| ≤ 1 / 2 ^ 19 ∧ rect.startCorner.block.value ≠ 384 / 10)
        | _ => false) = some true := by
  decide +kernel

end

end Verif.Layout.Machine
