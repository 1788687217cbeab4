/- Model of `victor/src/geom.rs` and of what `style/properties/mod.rs` and `style/values/length.rs` compute for layout.
Lengths are exact rationals (`f32` in the code). -/
import Verif.Style.Cascade
namespace Verif.Layout
open Verif.Style

/-- values/writing_modes.rs 8-14. -/
inductive WritingMode where
  | horizontalTb | verticalRl | verticalLr | sidewaysRl | sidewaysLr
deriving DecidableEq, Repr

/-- values/writing_modes.rs 2-5. -/
inductive Direction where
  | ltr | rtl
deriving DecidableEq, Repr

/-- `(WritingMode, Direction)`. -/
abbrev Mode := WritingMode × Direction

/-- geom.rs 5-9, `physical::Vec2`. -/
structure PVec2 (T : Type) where
  x : T
  y : T
deriving DecidableEq, Repr

/-- geom.rs 11-15, `physical::Rect`. -/
structure PRect (T : Type) where
  topLeft : PVec2 T
  size : PVec2 T
deriving DecidableEq, Repr

/-- geom.rs 17-23, `physical::Sides`. -/
structure PSides (T : Type) where
  top : T
  left : T
  bottom : T
  right : T
deriving DecidableEq, Repr

/-- geom.rs 27-31, `flow_relative::Vec2`. -/
structure Vec2 (T : Type) where
  inline : T
  block : T
deriving DecidableEq, Repr

/-- geom.rs 33-37, `flow_relative::Rect`. -/
structure Rect (T : Type) where
  startCorner : Vec2 T
  size : Vec2 T
deriving DecidableEq, Repr

/-- geom.rs 39-45, `flow_relative::Sides`. -/
structure Sides (T : Type) where
  inlineStart : T
  inlineEnd : T
  blockStart : T
  blockEnd : T
deriving DecidableEq, Repr

variable {T U : Type}

/-- geom.rs 51-63, addition of `physical::Vec2`. -/
def PVec2.add (a b : PVec2 Rat) : PVec2 Rat := ⟨a.x + b.x, a.y + b.y⟩

/-- geom.rs 66-77. -/
def PVec2.sizeToFlowRelative (v : PVec2 T) (mode : Mode) : Vec2 T :=
  match mode.1 with
  | .horizontalTb => ⟨v.x, v.y⟩
  | _ => ⟨v.y, v.x⟩

/-- geom.rs 80-102, `add` and `add_assign` of `flow_relative::Vec2`. -/
def Vec2.add (a b : Vec2 Rat) : Vec2 Rat := ⟨a.inline + b.inline, a.block + b.block⟩

/-- geom.rs 104-111. -/
def Vec2.zero : Vec2 Rat := ⟨0, 0⟩
/-- geom.rs 113-122. -/
def Sides.zero : Sides Rat := ⟨0, 0, 0, 0⟩
/-- geom.rs 124-131. -/
def Rect.zero : Rect Rat := ⟨Vec2.zero, Vec2.zero⟩

/-- geom.rs 134-145. -/
def Vec2.sizeToPhysical (v : Vec2 T) (mode : Mode) : PVec2 T :=
  match mode.1 with
  | .horizontalTb => ⟨v.inline, v.block⟩
  | _ => ⟨v.block, v.inline⟩

/-- geom.rs 155-181. -/
def PSides.toFlowRelative (s : PSides T) (mode : Mode) : Sides T :=
  let (bs, be) := match mode.1 with
    | .horizontalTb => (s.top, s.bottom)
    | .verticalRl | .sidewaysRl => (s.right, s.left)
    | .verticalLr | .sidewaysLr => (s.left, s.right)
  let (is, ie) := match mode with
    | (.horizontalTb, .ltr) => (s.left, s.right)
    | (.horizontalTb, .rtl) => (s.right, s.left)
    | (.verticalRl, .ltr) | (.sidewaysRl, .ltr) | (.verticalLr, .ltr) | (.sidewaysLr, .rtl) => (s.top, s.bottom)
    | (.verticalRl, .rtl) | (.sidewaysRl, .rtl) | (.verticalLr, .rtl) | (.sidewaysLr, .ltr) => (s.bottom, s.top)
  ⟨is, ie, bs, be⟩

/-- geom.rs 185-192. -/
def Sides.map (s : Sides T) (f : T → U) : Sides U :=
  ⟨f s.inlineStart, f s.inlineEnd, f s.blockStart, f s.blockEnd⟩

/-- geom.rs 194-205. -/
def Sides.mapInlineAndBlockAxes (s : Sides T) (inlineF blockF : T → U) : Sides U :=
  ⟨inlineF s.inlineStart, inlineF s.inlineEnd, blockF s.blockStart, blockF s.blockEnd⟩

/-- geom.rs 207-212. -/
def Sides.inlineSum (s : Sides Rat) : Rat := s.inlineStart + s.inlineEnd
/-- geom.rs 214-219. -/
def Sides.blockSum (s : Sides Rat) : Rat := s.blockStart + s.blockEnd
/-- geom.rs 221-229. -/
def Sides.startCorner (s : Sides T) : Vec2 T := ⟨s.inlineStart, s.blockStart⟩

/-- geom.rs 250-264. -/
def Sides.add (a b : Sides Rat) : Sides Rat :=
  ⟨a.inlineStart + b.inlineStart, a.inlineEnd + b.inlineEnd, a.blockStart + b.blockStart, a.blockEnd + b.blockEnd⟩

/-- geom.rs 267-282. -/
def Rect.inflate (r : Rect Rat) (sides : Sides Rat) : Rect Rat where
  startCorner := ⟨r.startCorner.inline - sides.inlineStart, r.startCorner.block - sides.blockStart⟩
  size := ⟨r.size.inline + sides.inlineSum, r.size.block + sides.blockSum⟩

/-- geom.rs 284-308; `none` is the `unimplemented!()`. -/
def Rect.toPhysical (r : Rect T) (mode : Mode) : Option (PRect T) :=
  match mode with
  | (.horizontalTb, .ltr) => some ⟨⟨r.startCorner.inline, r.startCorner.block⟩, r.size.sizeToPhysical mode⟩
  | _ => none

/-- geom.rs 312-320. -/
def PRect.translate (r : PRect Rat) (by_ : PVec2 Rat) : PRect Rat := ⟨r.topLeft.add by_, r.size⟩

/-- values/length.rs 53-57, `LengthOrAuto`. -/
inductive LengthOrAuto where
  | length (px : Rat)
  | auto
deriving DecidableEq, Repr

/-- values/length.rs 210-215. -/
def percentageRelativeTo (v : LengthOrPercentage) (reference : Rat) : Rat :=
  match v with
  | .length l => l
  | .percentage p => reference * p

/-- values/length.rs 228-234. -/
def nonAuto : LengthOrPercentageOrAuto → Option LengthOrPercentage
  | .length l => some (.length l)
  | .percentage p => some (.percentage p)
  | .auto => none

/-- values/length.rs 236-242. -/
def autoPercentageRelativeTo (v : LengthOrPercentageOrAuto) (reference : Rat) : LengthOrAuto :=
  match v with
  | .length l => .length l
  | .percentage p => .length (reference * p)
  | .auto => .auto

/-- values/length.rs 246-251. -/
def LengthOrAuto.autoIs (v : LengthOrAuto) (autoValue : Rat) : Rat :=
  match v with
  | .length l => l
  | .auto => autoValue

/-- values/length.rs 253-258. -/
def LengthOrAuto.map (v : LengthOrAuto) (f : Rat → Rat) : LengthOrAuto :=
  match v with
  | .length l => .length (f l)
  | .auto => .auto

/-- geom.rs 232-236. -/
def Sides.percentagesRelativeTo (s : Sides LengthOrPercentage) (basis : Rat) : Sides Rat :=
  s.map (percentageRelativeTo · basis)

/-- geom.rs 238-242. -/
def Sides.autoPercentagesRelativeTo (s : Sides LengthOrPercentageOrAuto) (basis : Rat) : Sides LengthOrAuto :=
  s.map (autoPercentageRelativeTo · basis)

/-- geom.rs 244-248. -/
def Sides.autoIs (s : Sides LengthOrAuto) (autoValue : Rat) : Sides Rat := s.map (·.autoIs autoValue)

/-- properties/mod.rs 32-35, `writing_mode`. -/
def writingMode (_ : ComputedValues) : Mode := (.horizontalTb, .ltr)

/-- properties/mod.rs 37-45. -/
def boxOffsets (s : ComputedValues) : Sides LengthOrPercentageOrAuto :=
  (⟨s.values .top, s.values .left, s.values .bottom, s.values .right⟩ : PSides LengthOrPercentageOrAuto).toFlowRelative
    (writingMode s)

/-- properties/mod.rs 47-53. -/
def boxSize (s : ComputedValues) : Vec2 LengthOrPercentageOrAuto :=
  (⟨s.values .width, s.values .height⟩ : PVec2 LengthOrPercentageOrAuto).sizeToFlowRelative (writingMode s)

/-- properties/mod.rs 55-63. -/
def padding (s : ComputedValues) : Sides LengthOrPercentage :=
  (⟨s.values .paddingTop, s.values .paddingLeft, s.values .paddingBottom, s.values .paddingRight⟩ :
    PSides LengthOrPercentage).toFlowRelative (writingMode s)

/-- properties/mod.rs 65-73. -/
def borderWidth (s : ComputedValues) : Sides LengthOrPercentage :=
  (⟨s.values .borderTopWidth, s.values .borderLeftWidth, s.values .borderBottomWidth, s.values .borderRightWidth⟩ :
    PSides LengthOrPercentage).toFlowRelative (writingMode s)

/-- properties/mod.rs 75-83. -/
def margin (s : ComputedValues) : Sides LengthOrPercentageOrAuto :=
  (⟨s.values .marginTop, s.values .marginLeft, s.values .marginBottom, s.values .marginRight⟩ :
    PSides LengthOrPercentageOrAuto).toFlowRelative (writingMode s)

/-- properties/mod.rs 85-90. -/
def toRgba (s : ComputedValues) (color : Color) : RGBA :=
  match color with
  | .rgba c => c
  | .currentColor => s.values .color

/-- `style.box_.position`. -/
def positionOf (s : ComputedValues) : Position := s.values .position
/-- `style.box_.float`. -/
def floatOf (s : ComputedValues) : Style.Float := s.values .float
/-- `style.box_.display`. -/
def displayOf (s : ComputedValues) : Display := s.values .display
/-- `style.font.font_size`. -/
def fontSizeOf (s : ComputedValues) : Rat := s.values.fontSize

end Verif.Layout
