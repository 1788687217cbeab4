/- Specification for C121: what a justified line of plain text should be, with single precision numbers. -/
import Verif.Text.SingleSpec
import Verif.Float.SingleOrder
namespace Verif.Text.Machine
open Verif.Pdf Verif.Float

/-- A usual page: its width and margin are finite, its width is at most 2¹⁰⁰ pixels, its margins are not negative and leave some width. -/
structure UsualPage (style : Style Single) : Prop where
  width_finite : (width single style).Finite
  width_le : (width single style).value ≤ 2 ^ 100
  margin_finite : (margin single style).Finite
  margin_nonneg : 0 ≤ (margin single style).value
  margin_le : 2 * (margin single style).value ≤ (width single style).value
  available : 1 / 2 ^ 100 ≤ (availableWidth single style).value

/-- These calls show the segments of the line one after the other with this baseline, from the left margin on, with equal gaps, and the
end of the last one is at the right margin: at the width of the page without the margin. Gaps are right but for 9 parts in 2²⁴ of the
width of the page, and the end of the line but for 12 such parts for each of its segments. -/
def JustifiedLine (address : Nat) (style : Style Single) (baseline : Single) (line : List (Piece Single)) (calls : List (PageOp Single)) : Prop :=
  ∃ (gap : Single) (x : Nat → Single), gap.Finite ∧ 0 ≤ gap.value ∧ calls.length = line.length ∧
    (∀ (i : Nat) (p : Piece Single), line[i]? = some p → calls[i]? = some (.text address p.1.glyphs style.fontSize (x i) baseline) ∧ (x i).Finite ∧
      (segmentWidth single style p.1).Finite) ∧
    (x 0).value = (margin single style).value ∧
    (∀ (i : Nat) (p : Piece Single), line[i]? = some p → i + 1 < line.length →
      |(x (i + 1)).value - ((x i).value + (segmentWidth single style p.1).value + gap.value)| ≤ 9 * (width single style).value / 2 ^ 24) ∧
    ∀ p, line.getLast? = some p →
      |(x (line.length - 1)).value + (segmentWidth single style p.1).value - ((width single style).value - (margin single style).value)| ≤
        line.length * (12 * (width single style).value / 2 ^ 24)

end Verif.Text.Machine
