/- Layout does not notice properties where they do not apply. Lemmas for C107 and C108. -/
import Verif.Layout.ApplySpec
import Verif.Layout.DissolveTheorems
import Verif.Layout.FitsBuild
namespace Verif.Layout
open Verif.Style Verif.Text

/-- The properties that make a difference. -/
def usedHere (s : ComputedValues) (p : Longhand) : Bool := appliesHere s p && !BorderPaint p

/-- A style with initial values where they make no difference. -/
def relevant (s : ComputedValues) : ComputedValues :=
  if hasBox s then ⟨fun p => if usedHere s p then s.values p else initialValues p, s.specifiedDisplay⟩ else s

theorem relevant_value (s : ComputedValues) (p : Longhand) (h : hasBox s = true → usedHere s p = true) : (relevant s).values p = s.values p := by
  unfold relevant
  split
  · rename_i hb
    simp [h hb]
  · rfl

theorem relevant_always {p : Longhand} (s : ComputedValues) (h : ∀ s, hasBox s = true → usedHere s p = true) :
    (relevant s).values p = s.values p := relevant_value s p (h s)

theorem displayed_of_box {s : ComputedValues} (h : hasBox s = true) : displayOf s ≠ .none := by
  intro h1
  simp [hasBox, h1] at h

theorem relevant_specified (s : ComputedValues) : (relevant s).specifiedDisplay = s.specifiedDisplay := by
  unfold relevant
  split <;> rfl

theorem relevant_anonymous (s : ComputedValues) :
    ComputedValues.anonymousInheritingFrom (some (relevant s)) = relevant (ComputedValues.anonymousInheritingFrom (some s)) := by
  have e : ∀ a b : ComputedValues, a.values = b.values → a.specifiedDisplay = b.specifiedDisplay → a = b := by
    rintro ⟨v, d⟩ ⟨w, e⟩ rfl rfl
    rfl
  have h1 : (relevant s).values .color = s.values .color :=
    relevant_value s .color fun h => by simp [usedHere, appliesHere, Css.applies, BorderPaint, displayed_of_box h]
  have h2 : (relevant s).values .fontSize = s.values .fontSize :=
    relevant_value s .fontSize fun h => by simp [usedHere, appliesHere, Css.applies, BorderPaint, displayed_of_box h]
  refine e _ _ (funext fun p => ?_) rfl
  cases p
  case color => exact h1
  case fontSize => exact h2
  all_goals rfl

theorem relevant_offset {s : ComputedValues} (h : positionOf s ≠ .static) : boxOffsets (relevant s) = boxOffsets s := by
  have k : ∀ p, (p = .top ∨ p = .left ∨ p = .bottom ∨ p = .right) → (relevant s).values p = s.values p := by
    rintro p (rfl | rfl | rfl | rfl) <;>
      exact relevant_value s _ fun hb => by simp [usedHere, appliesHere, Css.applies, BorderPaint, hb, h]
  simp only [boxOffsets, k .top (by simp), k .left (by simp), k .bottom (by simp), k .right (by simp)]
  rfl

theorem relevant_size {s : ComputedValues} (h : inlineElement s = false) : boxSize (relevant s) = boxSize s := by
  have k : ∀ p, (p = .width ∨ p = .height) → (relevant s).values p = s.values p := by
    rintro p (rfl | rfl) <;>
      exact relevant_value s _ fun hb => by simp [usedHere, appliesHere, Css.applies, BorderPaint, hb, h]
  simp only [boxSize, k .width (by simp), k .height (by simp)]
  rfl

/-- Layout does not notice properties where they do not apply. -/
def relevantDye : Dye where
  box := relevant
  text := textLook
  move _ := Vec2.zero
  padding s := by
    simp only [padding]
    repeat rw [relevant_always s fun s hb => by simp [usedHere, appliesHere, Css.applies, BorderPaint, hb]]
    rfl
  border s := by
    simp only [borderWidth]
    repeat rw [relevant_always s fun s hb => by simp [usedHere, appliesHere, Css.applies, BorderPaint, hb]]
    rfl
  margin s := by
    simp only [margin]
    repeat rw [relevant_always s fun s hb => by simp [usedHere, appliesHere, Css.applies, BorderPaint, hb]]
    rfl
  position s := relevant_value s .position fun hb => by simp [usedHere, appliesHere, Css.applies, BorderPaint, hb]
  specified := relevant_specified
  fontSize _ := rfl
  anonymous := relevant_anonymous

theorem relevant_relative (s : ComputedValues) (i : Rat) (b : LengthOrAuto) : relativeAdjustement (relevant s) i b = relativeAdjustement s i b := by
  have h : positionOf (relevant s) = positionOf s :=
    relevant_value s .position fun hb => by simp [usedHere, appliesHere, Css.applies, BorderPaint, hb]
  simp only [relativeAdjustement, h]
  split
  · rename_i h1
    rw [relevant_offset (by intro h2; rw [h2] at h1; cases h1)]
  · rfl

/-! ### Boxes -/

theorem fits_flow {s : ComputedValues} (h : inlineElement s = false) : relevantDye.KeepsFlow s :=
  ⟨relevant_size h, fun i b => by rw [show relevantDye.move s = Vec2.zero from rfl, add_zero_vec]; exact relevant_relative s i b, fun _ => rfl⟩

theorem fits_absolute {s : ComputedValues} (h : positionOf s = .absolute) : relevantDye.KeepsPlace s :=
  Dye.KeepsAll.place ⟨rfl, relevant_relative s, relevant_size (by unfold inlineElement; split <;> simp [h]), relevant_offset (by simp [h])⟩

theorem relevantDye_suits : relevantDye.Suits where
  block s i h _ := fits_flow (by simp [inlineElement, h])
  absolute s _ _ h := fits_absolute h
  inline s _ := ⟨relevant_relative s, rfl⟩
  anonymous s := ⟨rfl, fun i b => by rw [show relevantDye.move _ = Vec2.zero from rfl, add_zero_vec]; exact relevant_relative (ComputedValues.anonymousInheritingFrom (some s)) i b, fun _ => rfl⟩

theorem relevantDye_root {s : ComputedValues} (h : inlineElement s = false) :
    if positionOf s = .absolute then relevantDye.KeepsPlace s else relevantDye.KeepsFlow s := by
  split
  · rename_i h1
    exact fits_absolute h1
  · exact fits_flow h

end Verif.Layout
