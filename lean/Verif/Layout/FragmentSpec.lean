/- What it means for a margin to be the collapse of several margins (CSS 2 section 8.3.1), independently of the model. -/
import Mathlib.Data.Rat.Defs
import Mathlib.Algebra.Order.Ring.Rat
namespace Verif.Layout

/-- `p` is the largest of the margins and zero. -/
def LargestPositive (margins : List Rat) (p : Rat) : Prop := p ∈ 0 :: margins ∧ ∀ m ∈ 0 :: margins, m ≤ p

/-- `n` is the most negative of the margins and zero. -/
def MostNegative (margins : List Rat) (n : Rat) : Prop := n ∈ 0 :: margins ∧ ∀ m ∈ 0 :: margins, n ≤ m

/-- The margins collapse to `r`: the largest positive one (or zero) plus the most negative one (or zero). -/
def CollapseTo (margins : List Rat) (r : Rat) : Prop :=
  ∃ p n, LargestPositive margins p ∧ MostNegative margins n ∧ r = p + n

theorem LargestPositive.unique {l : List Rat} {p q : Rat} (hp : LargestPositive l p) (hq : LargestPositive l q) : p = q :=
  le_antisymm (hq.2 _ hp.1) (hp.2 _ hq.1)

theorem MostNegative.unique {l : List Rat} {p q : Rat} (hp : MostNegative l p) (hq : MostNegative l q) : p = q :=
  le_antisymm (hp.2 _ hq.1) (hq.2 _ hp.1)

/-- The collapse of a list of margins is one number. -/
theorem CollapseTo.unique {l : List Rat} {a b : Rat} (ha : CollapseTo l a) (hb : CollapseTo l b) : a = b := by
  obtain ⟨p, n, hp, hn, rfl⟩ := ha
  obtain ⟨p', n', hp', hn', rfl⟩ := hb
  rw [hp.unique hp', hn.unique hn']

end Verif.Layout
