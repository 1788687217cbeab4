/- C45: logical and physical coordinates. -/
import Verif.Layout.Geom
import Mathlib.Tactic.Ring
import Mathlib.Tactic.Linarith
namespace Verif.Layout

/-- The four sides of a rectangle. -/
inductive PhysicalSide where
  | top | left | bottom | right
deriving DecidableEq

/-- The opposite side. -/
def PhysicalSide.opposite : PhysicalSide → PhysicalSide
  | .top => .bottom
  | .bottom => .top
  | .left => .right
  | .right => .left

/-- The value for a side. -/
def PSides.at {T : Type} (s : PSides T) : PhysicalSide → T
  | .top => s.top
  | .left => s.left
  | .bottom => s.bottom
  | .right => s.right

/-- CSS Writing Modes, block flow direction: `*-tb` from top to bottom, `*-rl` from right to left, `*-lr` from left to
right. -/
def blockStartSide : WritingMode → PhysicalSide
  | .horizontalTb => .top
  | .verticalRl => .right
  | .sidewaysRl => .right
  | .verticalLr => .left
  | .sidewaysLr => .left

/-- CSS Writing Modes, line-left: the left of horizontal text; for vertical text, which is rotated clockwise, the top; for
`sideways-lr`, which is rotated counter-clockwise, the bottom. -/
def lineLeftSide : WritingMode → PhysicalSide
  | .horizontalTb => .left
  | .sidewaysLr => .bottom
  | _ => .top

/-- CSS Writing Modes, inline-start: line-left for left-to-right text, line-right otherwise. -/
def inlineStartSide (mode : Mode) : PhysicalSide :=
  if mode.2 = .ltr then lineLeftSide mode.1 else (lineLeftSide mode.1).opposite

/-- C45: in every writing mode the logical sides are the physical sides that CSS Writing Modes defines. -/
theorem C45_sides {T : Type} (s : PSides T) (mode : Mode) :
    (s.toFlowRelative mode).blockStart = s.at (blockStartSide mode.1) ∧
    (s.toFlowRelative mode).blockEnd = s.at (blockStartSide mode.1).opposite ∧
    (s.toFlowRelative mode).inlineStart = s.at (inlineStartSide mode) ∧
    (s.toFlowRelative mode).inlineEnd = s.at (inlineStartSide mode).opposite := by
  obtain ⟨w, d⟩ := mode
  cases w <;> cases d <;> exact ⟨rfl, rfl, rfl, rfl⟩

/-- C45: no side is lost in any writing mode. -/
theorem C45_sides_lossless {T : Type} (s s' : PSides T) (mode : Mode)
    (h : s.toFlowRelative mode = s'.toFlowRelative mode) : s = s' := by
  obtain ⟨w, d⟩ := mode
  obtain ⟨a, b, c, e⟩ := s
  obtain ⟨a', b', c', e'⟩ := s'
  cases w <;> cases d <;>
    · simp only [PSides.toFlowRelative, Sides.mk.injEq] at h
      obtain ⟨rfl, rfl, rfl, rfl⟩ := h
      rfl

/-- C45: sizes convert back and forth, and the inline size is the width exactly when text is horizontal. -/
theorem C45_sizes {T : Type} (mode : Mode) (v : PVec2 T) (w : Vec2 T) :
    (v.sizeToFlowRelative mode).sizeToPhysical mode = v ∧ (w.sizeToPhysical mode).sizeToFlowRelative mode = w ∧
    (mode.1 = .horizontalTb → (v.sizeToFlowRelative mode).inline = v.x ∧ (v.sizeToFlowRelative mode).block = v.y) ∧
    (mode.1 ≠ .horizontalTb → (v.sizeToFlowRelative mode).inline = v.y ∧ (v.sizeToFlowRelative mode).block = v.x) := by
  obtain ⟨m, d⟩ := mode
  cases m <;>
    simp [PVec2.sizeToFlowRelative, Vec2.sizeToPhysical]

/-- C45: in the writing mode that is supported a rectangle is converted without change; in the others the conversion is
refused. -/
theorem C45_rect {T : Type} (mode : Mode) (r : Rect T) :
    (mode = (.horizontalTb, .ltr) → ∃ p, r.toPhysical mode = some p ∧ p.topLeft.x = r.startCorner.inline ∧
      p.topLeft.y = r.startCorner.block ∧ p.size.x = r.size.inline ∧ p.size.y = r.size.block) ∧
    (mode ≠ (.horizontalTb, .ltr) → r.toPhysical mode = none) := by
  obtain ⟨m, d⟩ := mode
  cases m <;> cases d <;> simp [Rect.toPhysical, Vec2.sizeToPhysical]

/-- C45: the writing mode of every style is the supported one. -/
theorem C45_supported (s : Style.ComputedValues) {T : Type} (r : Rect T) : (r.toPhysical (writingMode s)).isSome = true := rfl

/-- C45: enlarging a rectangle moves each of its edges outwards by the width for its side. -/
theorem C45_inflate (r : Rect Rat) (s : Sides Rat) :
    (r.inflate s).startCorner.inline = r.startCorner.inline - s.inlineStart ∧
    (r.inflate s).startCorner.block = r.startCorner.block - s.blockStart ∧
    (r.inflate s).startCorner.inline + (r.inflate s).size.inline = r.startCorner.inline + r.size.inline + s.inlineEnd ∧
    (r.inflate s).startCorner.block + (r.inflate s).size.block = r.startCorner.block + r.size.block + s.blockEnd := by
  refine ⟨rfl, rfl, ?_, ?_⟩ <;> simp only [Rect.inflate, Sides.inlineSum, Sides.blockSum] <;> ring

example : (⟨1, 2, 3, 4⟩ : PSides Nat).toFlowRelative (.sidewaysLr, .ltr) = ⟨3, 1, 2, 4⟩ := rfl
example : (⟨1, 2, 3, 4⟩ : PSides Nat).toFlowRelative (.verticalRl, .rtl) = ⟨3, 1, 4, 2⟩ := rfl
example : ((⟨⟨1, 2⟩, ⟨3, 4⟩⟩ : Rect Rat).inflate ⟨1, 2, 3, 4⟩) = ⟨⟨0, -1⟩, ⟨6, 11⟩⟩ := by decide +kernel

end Verif.Layout
