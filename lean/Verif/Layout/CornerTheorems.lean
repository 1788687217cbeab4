/- **C45**, continued: the corner where content starts. -/
import Verif.Layout.GeomTheorems
namespace Verif.Layout

/-- **C45**: in every writing mode, the start corner of sides is made of the side where lines start and the side where the first line is. -/
theorem C45_start_corner {T : Type} (s : PSides T) (mode : Mode) :
    (s.toFlowRelative mode).startCorner = ⟨s.at (inlineStartSide mode), s.at (blockStartSide mode.1)⟩ := by
  obtain ⟨w, d⟩ := mode
  cases w <;> cases d <;> rfl

theorem C45_example_start_corner : ((⟨1, 2, 3, 4⟩ : PSides Nat).toFlowRelative (.verticalRl, .rtl)).startCorner = ⟨3, 4⟩ := rfl

end Verif.Layout
