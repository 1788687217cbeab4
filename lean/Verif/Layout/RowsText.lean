/- C125: the lines of a paragraph. -/
import Verif.Layout.RowsSpec
import Verif.Layout.WholeTheorems
namespace Verif.Layout.Machine
open Verif.Style Verif.Text Verif.Float

attribute [local instance] singleNumbers exactNumbers

/-- If there are both results, they correspond. -/
def BothAgree {A A' : Type} (P : A → A' → Prop) (x : Option A) (x' : Option A') : Prop := ∀ a, x = some a → ∀ a', x' = some a' → P a a'

theorem gt_exactly {a b : Single} {p q : Rat} (ha : Exactly a p) (hb : Exactly b q) : Single.gt a b = decide (q < p) := by
  obtain ⟨fa, rfl⟩ := ha
  obtain ⟨fb, rfl⟩ := hb
  rw [Bool.eq_iff_iff, Single.gt_iff, decide_eq_true_iff]
  constructor
  · rintro ⟨-, -, h⟩
    refine lt_of_le_of_ne (Single.value_le fb.1 fa.1 h.le) fun e => ?_
    rw [← Single.nearestKey_value fa.1, ← Single.nearestKey_value fb.1, e] at h
    exact lt_irrefl _ h
  · intro h
    refine ⟨fa.1, fb.1, ?_⟩
    by_contra hc
    exact absurd (Single.value_le fa.1 fb.1 (not_lt.1 hc)) (not_le.2 h)

section
variable {Err : Type} {api : FontApi Single Err} {advance : Nat → Nat} {e k : Nat}

/-- A width of `u` units. -/
def AdvanceIs (e u : Nat) (a : Single) (q : Rat) : Prop := Exactly a q ∧ q = (u : Rat) / 2 ^ e

/-- A segment of at most `U` units. -/
def SegmentIs (e U : Nat) (s : ShapedSegment Single) (s' : ShapedSegment Rat) : Prop :=
  s.glyphs = s'.glyphs ∧ ∃ u ≤ U, AdvanceIs e u s.advanceWidth s'.advanceWidth

theorem advance_add (hf : EmFont api (2 ^ e) advance) (he : e < 16) {u : Nat} {a : Single} {q : Rat} (h : AdvanceIs e u a q) {id : Nat} {w : Single}
    (hw : api.glyphWidth id = .ok w) (hu : u + advance id < 2 ^ 24) :
    AdvanceIs e (u + advance id) (api.add a w) (q + (advance id : Rat) / (2 ^ e : Nat)) := by
  obtain ⟨⟨f1, v1⟩, rfl⟩ := h
  obtain ⟨rfl, ha⟩ := hf.width id w hw
  obtain ⟨f2, v2⟩ := toEms_exact ha he
  obtain ⟨z, e1⟩ := Single.add_finite f1 f2
  have hsum : (u : Rat) / 2 ^ e + (advance id : Rat) / (2 ^ e : Nat) = ((u + advance id : Nat) : Rat) / 2 ^ e := by
    push_cast; ring
  rw [AdvanceIs, hf.add, e1, v1, v2, hsum]
  refine ⟨whole_round (k := e) (by omega) z ⟨(u + advance id : Nat), by push_cast; ring⟩ ?_, rfl⟩
  have hp : (0 : Rat) < 2 ^ e := by positivity
  rw [abs_of_nonneg (by positivity)]
  exact div_lt_div_of_pos_right (by exact_mod_cast hu) hp

/-- The width of a text in pixels. -/
theorem text_width {T size : Rat} (hk : k ≤ 100) (hT : T < 2 ^ 23 / 2 ^ k) (hs : Exactly (Single.round size) size) (hw : Whole k (size / 2 ^ e)) {u : Nat}
    {a : Single} {q : Rat} (h : AdvanceIs e u a q) {B : Rat} (hu : |size| * (u / 2 ^ e) ≤ B) (hB : B ≤ T) :
    WholeIs k false B (Single.mul (Single.round size) a) (size * q) := by
  obtain ⟨⟨f1, v1⟩, rfl⟩ := h
  obtain ⟨z, e1⟩ := (Single.C116_operations hs.1 f1).2.2.1
  have hwhole : Whole k (size * ((u : Rat) / 2 ^ e)) := by
    obtain ⟨n, hn⟩ := hw
    refine ⟨n * u, ?_⟩
    rw [mul_div_assoc', mul_div_right_comm, hn]
    push_cast
    ring
  have hle : |size * ((u : Rat) / 2 ^ e)| ≤ B := by
    rw [abs_mul, abs_of_nonneg (show (0 : Rat) ≤ (u : Rat) / 2 ^ e by positivity)]
    exact hu
  rw [e1, hs.2, v1]
  refine ⟨whole_round (by omega) z hwhole (lt_of_le_of_lt (le_trans hle hB) (lt_trans hT ?_)), hwhole, hle⟩
  exact div_lt_div_of_pos_right (by norm_num) (by positivity)

/-- One line of text. -/
theorem shapeLine_rows (hf : EmFont api (2 ^ e) advance) (he : e < 16) {T size : Rat} (hk : k ≤ 100) (hT : T < 2 ^ 23 / 2 ^ k)
    (hs : Exactly (Single.round size) size) (hw : Whole k (size / 2 ^ e)) {U : Nat} (hU : U < 2 ^ 24) (hUT : |size| * (U / 2 ^ e) ≤ T)
    {available : Single} {available' : Rat} (ha : Exactly available available') :
    ∀ (chars : List Nat) (u : Nat) (s : ShapedSegment Single) (s' : ShapedSegment Rat) (last : Option (ShapedSegmentState Single × List Nat))
      (last' : Option (ShapedSegmentState Rat × List Nat)), s.glyphs = s'.glyphs → AdvanceIs e u s.advanceWidth s'.advanceWidth →
      u + textUnits api advance chars ≤ U →
      (last = none ∧ last' = none ∨ ∃ n a a' iter v, last = some (⟨n, a⟩, iter) ∧ last' = some (⟨n, a'⟩, iter) ∧ v ≤ U ∧ AdvanceIs e v a a' ∧
        textUnits api advance iter ≤ U) →
      BothAgree (fun p p' => p.2 = p'.2 ∧ textUnits api advance p.2 ≤ U ∧ SegmentIs e U p.1 p'.1)
        (shapeLine api (Single.round size) available chars s last)
        (shapeLine (exactFont api (2 ^ e) advance) size available' chars s' last') := by
  have wide : ∀ {u : Nat} {a : Single} {q : Rat}, AdvanceIs e u a q → u ≤ U →
      (Numbers.gt (Single.round size * a) available = Numbers.gt (size * q) available') := by
    intro u a q h hu
    have := text_width hk hT hs hw h (B := T) (le_trans (mul_le_mul_of_nonneg_left
      (div_le_div_of_nonneg_right (by exact_mod_cast hu) (by positivity)) (abs_nonneg _)) hUT) (le_refl _)
    exact gt_exactly this.1 ha
  intro chars
  induction chars with
  | nil =>
    intro u s s' last last' hg hA hu hl
    have hu' : u ≤ U := by omega
    unfold shapeLine
    rw [wide hA hu']
    by_cases hw' : Numbers.gt (size * s'.advanceWidth) available' = true
    · rw [if_pos hw', if_pos hw']
      rcases hl with ⟨rfl, rfl⟩ | ⟨n, a, a', iter, v, rfl, rfl, hv, hva, hit⟩
      · intro p hp p' hp'
        cases hp; cases hp'
        exact ⟨rfl, by simp [textUnits], hg, u, hu', hA⟩
      · intro p hp p' hp'
        cases hp; cases hp'
        exact ⟨rfl, hit, by simp only [ShapedSegment.restore, hg], v, hv, hva⟩
    · rw [if_neg hw', if_neg hw']
      intro p hp p' hp'
      cases hp; cases hp'
      exact ⟨rfl, by simp [textUnits], hg, u, hu', hA⟩
  | cons ch chars ih =>
    intro u s s' last last' hg hA hu hl
    have hu' : u ≤ U := by omega
    have hrest : textUnits api advance chars ≤ textUnits api advance (ch :: chars) := by
      rw [textUnits]; omega
    unfold shapeLine
    rw [wide hA hu']
    by_cases hw' : ch = 32 ∧ Numbers.gt (size * s'.advanceWidth) available' = true
    · rw [if_pos hw', if_pos hw']
      rcases hl with ⟨rfl, rfl⟩ | ⟨n, a, a', iter, v, rfl, rfl, hv, hva, hit⟩
      · intro p hp p' hp'
        cases hp; cases hp'
        exact ⟨rfl, by simp only; omega, hg, u, hu', hA⟩
      · intro p hp p' hp'
        cases hp; cases hp'
        exact ⟨rfl, hit, by simp only [ShapedSegment.restore, hg], v, hv, hva⟩
    · rw [if_neg hw', if_neg hw']
      have eid : (exactFont api (2 ^ e) advance).glyphId ch = api.glyphId ch := rfl
      rcases e1 : api.glyphId ch with err | id
      · intro p hp
        simp only [ShapedSegment.appendChar, e1] at hp
        cases hp
      rcases e2 : api.glyphWidth id with err | w
      · intro p hp
        simp only [ShapedSegment.appendChar, e1, e2] at hp
        cases hp
      have e3 : (exactFont api (2 ^ e) advance).glyphWidth id = .ok ((advance id : Rat) / (2 ^ e : Nat)) := by
        simp [exactFont, e2, Except.map]
      have hun : textUnits api advance (ch :: chars) = advance id + textUnits api advance chars := by
        simp only [textUnits, e1]
      simp only [ShapedSegment.appendChar, eid, e1, e2, e3]
      refine ih (u + advance id) _ _ _ _ (by simp only [hg]) (advance_add hf he hA e2 (by omega)) (by omega) ?_
      by_cases h32 : ch = 32
      · simp only [h32, if_true]
        exact .inr ⟨_, _, _, _, u, rfl, by simp only [ShapedSegment.save, hg], hu', hA, by omega⟩
      · simp only [h32, if_false]
        exact hl
end

end Verif.Layout.Machine
