/- Model of layout (`victor/src/layout/`, `geom.rs`) with any arithmetic: the functions of `Verif.Layout.Geom`, `Fragment`, `Boxes`, `Inline`
and `Flow`, with a type `R` of numbers of which nothing is known in the place of the rationals. So nothing is simplified about `f32`: sums may
be rounded, overflow to infinity or be NaN. The box tree, which has no numbers, is that of `Verif.Layout.Boxes`. -/
import Verif.Layout.Flow
namespace Verif.Layout.Machine
open Verif.Style Verif.Text

/-! ### Numbers -/

/-- values/length.rs 47-51, with any numbers. -/
inductive LengthOrPercentage (R : Type) where
  | length (px : R)
  | percentage (unit : R)

/-- values/length.rs 59-64. -/
inductive LengthOrPercentageOrAuto (R : Type) where
  | length (px : R)
  | percentage (unit : R)
  | auto

/-- values/length.rs 53-57. -/
inductive LengthOrAuto (R : Type) where
  | length (px : R)
  | auto

/-- The lengths of a style that layout uses, as they are in memory after the cascade: properties/mod.rs 37-83, and `font.font_size`. -/
structure StyleLengths (R : Type) where
  offsets : Sides (LengthOrPercentageOrAuto R)
  size : Vec2 (LengthOrPercentageOrAuto R)
  padding : Sides (LengthOrPercentage R)
  border : Sides (LengthOrPercentage R)
  margin : Sides (LengthOrPercentageOrAuto R)
  fontSize : R

/-- The operations of `f32` that layout uses, as any functions at all, and the lengths of styles, as any function of the style. -/
class Numbers (R : Type) extends Add R, Sub R, Mul R, Neg R, Max R, Min R where
  zero : R
  /-- division by 2 -/
  half : R → R
  /-- flow/inline.rs 306: multiplication by the line height `1.2` -/
  lineHeight : R → R
  /-- `>` -/
  gt : R → R → Bool
  /-- `>= 0` -/
  nonNeg : R → Bool
  /-- `== 0` -/
  isZero : R → Bool
  lengths : ComputedValues → StyleLengths R

instance {R : Type} [Numbers R] : OfNat R 0 := ⟨Numbers.zero⟩

variable {R : Type} [Numbers R]

/-! ### Geometry -/

/-- geom.rs 51-63. -/
def _root_.Verif.Layout.PVec2.plus (a b : PVec2 R) : PVec2 R := ⟨a.x + b.x, a.y + b.y⟩
/-- geom.rs 80-102. -/
def _root_.Verif.Layout.Vec2.plus (a b : Vec2 R) : Vec2 R := ⟨a.inline + b.inline, a.block + b.block⟩
/-- geom.rs 104-111. -/
def _root_.Verif.Layout.Vec2.origin : Vec2 R := ⟨0, 0⟩
/-- geom.rs 124-131. -/
def _root_.Verif.Layout.Rect.nothing : Rect R := ⟨Vec2.origin, Vec2.origin⟩
/-- geom.rs 207-212. -/
def _root_.Verif.Layout.Sides.inlineTotal (s : Sides R) : R := s.inlineStart + s.inlineEnd
/-- geom.rs 214-219. -/
def _root_.Verif.Layout.Sides.blockTotal (s : Sides R) : R := s.blockStart + s.blockEnd
/-- geom.rs 250-264. -/
def _root_.Verif.Layout.Sides.plus (a b : Sides R) : Sides R :=
  ⟨a.inlineStart + b.inlineStart, a.inlineEnd + b.inlineEnd, a.blockStart + b.blockStart, a.blockEnd + b.blockEnd⟩
/-- geom.rs 267-282. -/
def _root_.Verif.Layout.Rect.grow (r : Rect R) (sides : Sides R) : Rect R where
  startCorner := ⟨r.startCorner.inline - sides.inlineStart, r.startCorner.block - sides.blockStart⟩
  size := ⟨r.size.inline + sides.inlineTotal, r.size.block + sides.blockTotal⟩
/-- geom.rs 312-320. -/
def _root_.Verif.Layout.PRect.moved (r : PRect R) (by_ : PVec2 R) : PRect R := ⟨r.topLeft.plus by_, r.size⟩
/-- The sides of an inline box without what is at the inline start (flow/inline.rs 196-198 and 334-336), or at the inline end (235-237). -/
def _root_.Verif.Layout.Sides.startless (s : Sides R) : Sides R := { s with inlineStart := 0 }
/-- See `Sides.startless`. -/
def _root_.Verif.Layout.Sides.endless (s : Sides R) : Sides R := { s with inlineEnd := 0 }

/-- values/length.rs 210-215. -/
def percentageRelativeTo (v : LengthOrPercentage R) (reference : R) : R :=
  match v with
  | .length l => l
  | .percentage p => reference * p

/-- values/length.rs 228-234. -/
def nonAuto : LengthOrPercentageOrAuto R → Option (LengthOrPercentage R)
  | .length l => some (.length l)
  | .percentage p => some (.percentage p)
  | .auto => none

/-- values/length.rs 236-242. -/
def autoPercentageRelativeTo (v : LengthOrPercentageOrAuto R) (reference : R) : LengthOrAuto R :=
  match v with
  | .length l => .length l
  | .percentage p => .length (reference * p)
  | .auto => .auto

/-- values/length.rs 246-251. -/
def LengthOrAuto.autoIs (v : LengthOrAuto R) (autoValue : R) : R :=
  match v with
  | .length l => l
  | .auto => autoValue

/-- values/length.rs 253-258. -/
def LengthOrAuto.map (v : LengthOrAuto R) (f : R → R) : LengthOrAuto R :=
  match v with
  | .length l => .length (f l)
  | .auto => .auto

/-- `== LengthOrAuto::Auto`, flow/mod.rs 375. -/
def LengthOrAuto.isAuto (v : LengthOrAuto R) : Bool :=
  match v with
  | .length _ => false
  | .auto => true

/-- geom.rs 232-236. -/
def _root_.Verif.Layout.Sides.resolve (s : Sides (LengthOrPercentage R)) (basis : R) : Sides R := s.map (percentageRelativeTo · basis)
/-- geom.rs 238-242. -/
def _root_.Verif.Layout.Sides.resolveAuto (s : Sides (LengthOrPercentageOrAuto R)) (basis : R) : Sides (LengthOrAuto R) :=
  s.map (autoPercentageRelativeTo · basis)
/-- geom.rs 244-248. -/
def _root_.Verif.Layout.Sides.whenAuto (s : Sides (LengthOrAuto R)) (autoValue : R) : Sides R := s.map (·.autoIs autoValue)

/-! ### Fragments -/

/-- fragments.rs 32-36, `CollapsedMargin`. -/
structure CollapsedMargin (R : Type) where
  maxPositive : R
  minNegative : R

/-- fragments.rs 88-93. -/
def CollapsedMargin.zero : CollapsedMargin R := ⟨0, 0⟩

/-- fragments.rs 95-100. -/
def CollapsedMargin.new (margin : R) : CollapsedMargin R := ⟨max margin 0, min margin 0⟩

/-- fragments.rs 102-111, `adjoin` and `adjoin_assign`. -/
def CollapsedMargin.adjoin (a b : CollapsedMargin R) : CollapsedMargin R :=
  ⟨max a.maxPositive b.maxPositive, min a.minNegative b.minNegative⟩

/-- fragments.rs 113-115. -/
def CollapsedMargin.solve (a : CollapsedMargin R) : R := a.maxPositive + a.minNegative

/-- fragments.rs 26-30, `CollapsedBlockMargins`. -/
structure CollapsedBlockMargins (R : Type) where
  collapsedThrough : Bool
  start : CollapsedMargin R
  «end» : CollapsedMargin R

/-- fragments.rs 70-76. -/
def CollapsedBlockMargins.fromMargin (margin : Sides R) : CollapsedBlockMargins R :=
  ⟨false, CollapsedMargin.new margin.blockStart, CollapsedMargin.new margin.blockEnd⟩

/-- fragments.rs 78-84. -/
def CollapsedBlockMargins.zero : CollapsedBlockMargins R := ⟨false, CollapsedMargin.zero, CollapsedMargin.zero⟩

/-- fragments.rs 10-24, `BoxFragment`, without its children. -/
structure BoxInfo (R : Type) where
  style : ComputedValues
  contentRect : Rect R
  padding : Sides R
  border : Sides R
  margin : Sides R
  blockMarginsCollapsedWithChildren : CollapsedBlockMargins R

/-- fragments.rs 4-8 and 38-49, `Fragment`. -/
inductive Fragment (R : Type) where
  | box (info : BoxInfo R) (children : List (Fragment R))
  | anonymous (rect : Rect R) (children : List (Fragment R)) (mode : Mode)
  | text (parentStyle : ComputedValues) (contentRect : Rect R) (text : ShapedSegment R)

/-- fragments.rs 52-58, `AnonymousFragment::no_op`. -/
def Fragment.noOp (mode : Mode) : Fragment R := .anonymous Rect.nothing [] mode

/-- fragments.rs 62-66, `border_rect`. -/
def BoxInfo.borderRect (b : BoxInfo R) : Rect R := (b.contentRect.grow b.padding).grow b.border

/-! ### Positioned boxes and containing blocks -/

/-- positioned.rs 26-32. -/
inductive AbsoluteBoxOffsets (R : Type) where
  | staticStart (start : R)
  | start (start : LengthOrPercentage R)
  | «end» (end_ : LengthOrPercentage R)
  | both (start end_ : LengthOrPercentage R)

/-- positioned.rs 10-24. -/
structure AbsolutelyPositionedFragment (R : Type) where
  box : AbsolutelyPositionedBox
  treeRank : Nat
  inlineStart : AbsoluteBoxOffsets R
  inlineSize : LengthOrPercentageOrAuto R
  blockStart : AbsoluteBoxOffsets R
  blockSize : LengthOrPercentageOrAuto R

/-- layout/mod.rs 94-98. -/
structure ContainingBlock (R : Type) where
  inlineSize : R
  blockSize : LengthOrAuto R
  mode : Mode

/-- layout/mod.rs 100-103. -/
structure DefiniteContainingBlock (R : Type) where
  size : Vec2 R
  mode : Mode

/-- flow/mod.rs 42-46. -/
structure FlowChildren (R : Type) where
  fragments : List (Fragment R)
  blockSize : R
  collapsibleMarginsInChildren : CollapsedBlockMargins R

/-- layout/mod.rs 114-120. -/
def adjust : LengthOrAuto R → LengthOrAuto R → R
  | .auto, .auto => 0
  | .auto, .length e => -e
  | .length s, _ => s

/-- layout/mod.rs 106-130, `relative_adjustement`. -/
def relativeAdjustement (style : ComputedValues) (inlineSize : R) (blockSize : LengthOrAuto R) : Vec2 R :=
  if (positionOf style).isRelativelyPositioned then
    let offsets := (Numbers.lengths style).offsets.mapInlineAndBlockAxes (autoPercentageRelativeTo · inlineSize)
      (autoPercentageRelativeTo · (blockSize.autoIs 0))
    ⟨adjust offsets.inlineStart offsets.inlineEnd, adjust offsets.blockStart offsets.blockEnd⟩
  else Vec2.origin

/-- positioned.rs 47-60. -/
def absoluteBoxOffsets (initialStaticStart : R) (start end_ : LengthOrPercentageOrAuto R) : AbsoluteBoxOffsets R :=
  match nonAuto start, nonAuto end_ with
  | none, none => .staticStart initialStaticStart
  | some s, some e => .both s e
  | none, some e => .end e
  | some s, none => .start s

/-- positioned.rs 35-81, `AbsolutelyPositionedBox::layout`. -/
def layoutAbsoluteBox (b : AbsolutelyPositionedBox) (initialStartCorner : Vec2 R) (treeRank : Nat) :
    AbsolutelyPositionedFragment R where
  box := b
  treeRank := treeRank
  inlineStart := absoluteBoxOffsets initialStartCorner.inline (Numbers.lengths b.style).offsets.inlineStart
    (Numbers.lengths b.style).offsets.inlineEnd
  inlineSize := (Numbers.lengths b.style).size.inline
  blockStart := absoluteBoxOffsets initialStartCorner.block (Numbers.lengths b.style).offsets.blockStart (Numbers.lengths b.style).offsets.blockEnd
  blockSize := (Numbers.lengths b.style).size.block

/-! ### Inline formatting contexts -/

/-- flow/inline.rs 38-43, `InlineNestingLevelState`. -/
structure NestingLevel (R : Type) where
  remainingBoxes : List InlineLevelBox
  fragmentsSoFar : List (Fragment R)
  inlineStart : R
  maxBlockSize : R

/-- flow/inline.rs 45-53, `PartialInlineBoxFragment`. -/
structure PartialInlineBox (R : Type) where
  style : ComputedValues
  startCorner : Vec2 R
  padding : Sides R
  border : Sides R
  margin : Sides R
  lastBoxTreeFragment : Bool
  parentNestingLevel : NestingLevel R

/-- flow/inline.rs 63-66, `LinesBoxes`. -/
structure LinesBoxes (R : Type) where
  boxes : List (Fragment R)
  nextLineBlockPosition : R

/-- flow/inline.rs 55-61, `InlineFormattingContextState`; the containing block is a parameter, and the stack is a list that
begins with the innermost box. -/
structure InlineState (R : Type) where
  lineBoxes : LinesBoxes R
  inlinePosition : R
  stack : List (PartialInlineBox R)
  current : NestingLevel R

/-- flow/inline.rs 150-172, `finish_line`: the lines and the top nesting level. -/
def finishLine (lines : LinesBoxes R) (top : NestingLevel R) (cb : ContainingBlock R) : LinesBoxes R × NestingLevel R :=
  ({ boxes := lines.boxes ++ [.anonymous ⟨⟨0, lines.nextLineBlockPosition⟩, ⟨cb.inlineSize, top.maxBlockSize⟩⟩
        top.fragmentsSoFar cb.mode],
     nextLineBlockPosition := lines.nextLineBlockPosition + top.maxBlockSize },
   { top with fragmentsSoFar := [], maxBlockSize := 0 })

/-- flow/inline.rs 176-221, `start_layout`, and the push of line 95. -/
def startInlineBox (cb : ContainingBlock R) (style : ComputedValues) (firstFragment lastFragment : Bool)
    (children : List InlineLevelBox) (ifc : InlineState R) : InlineState R :=
  let padding := (Numbers.lengths style).padding.resolve cb.inlineSize
  let border := (Numbers.lengths style).border.resolve cb.inlineSize
  let margin := ((Numbers.lengths style).margin.resolveAuto cb.inlineSize).whenAuto 0
  let inlinePosition :=
    if firstFragment then ifc.inlinePosition + (padding.inlineStart + border.inlineStart + margin.inlineStart)
    else ifc.inlinePosition
  let padding := if firstFragment then padding else padding.startless
  let border := if firstFragment then border else border.startless
  let margin := if firstFragment then margin else margin.startless
  let startCorner : Vec2 R :=
    ⟨inlinePosition - ifc.current.inlineStart, padding.blockStart + border.blockStart + margin.blockStart⟩
  let startCorner := startCorner.plus (relativeAdjustement style cb.inlineSize cb.blockSize)
  { ifc with
    inlinePosition := inlinePosition
    stack := ⟨style, startCorner, padding, border, margin, lastFragment, ifc.current⟩ :: ifc.stack
    current := ⟨children, [], inlinePosition, 0⟩ }

/-- flow/inline.rs 225-267, `finish_layout`: the partial box with its parent's nesting level, the current nesting level and the
inline position. -/
def PartialInlineBox.finish (p : PartialInlineBox R) (level : NestingLevel R) (inlinePosition : R) (atLineBreak : Bool) :
    PartialInlineBox R × NestingLevel R × R :=
  let lastFragment := p.lastBoxTreeFragment && !atLineBreak
  let padding := if lastFragment then p.padding else p.padding.endless
  let border := if lastFragment then p.border else p.border.endless
  let margin := if lastFragment then p.margin else p.margin.endless
  let fragment := Fragment.box
    { style := p.style
      contentRect := ⟨p.startCorner, ⟨inlinePosition - p.startCorner.inline, level.maxBlockSize⟩⟩
      padding := padding
      border := border
      margin := margin
      blockMarginsCollapsedWithChildren := CollapsedBlockMargins.zero }
    level.fragmentsSoFar
  ({ p with parentNestingLevel :=
      { p.parentNestingLevel with
        maxBlockSize := max p.parentNestingLevel.maxBlockSize
          (level.maxBlockSize + padding.blockTotal + border.blockTotal + margin.blockTotal)
        fragmentsSoFar := p.parentNestingLevel.fragmentsSoFar ++ [fragment] } },
   { level with fragmentsSoFar := [] },
   if lastFragment then inlinePosition + (p.padding.inlineEnd + p.border.inlineEnd + p.margin.inlineEnd) else inlinePosition)

/-- flow/inline.rs 277-297: the inner loop, which shapes one line: the segment and the characters that remain. `none` is the
panic of `unwrap` when the font cannot be read. -/
def shapeLine {Err : Type} (F : FontApi R Err) (fontSize available : R) :
    (chars : List Nat) → ShapedSegment R → Option (ShapedSegmentState R × List Nat) →
    Option (ShapedSegment R × List Nat)
  | [], shaped, lastBreakOpportunity =>
    if Numbers.gt (fontSize * shaped.advanceWidth) available = true then
      match lastBreakOpportunity with
      | some (state, iter) => some (shaped.restore state, iter)
      | none => some (shaped, [])
    else some (shaped, [])
  | ch :: chars, shaped, lastBreakOpportunity =>
    if ch = 32 ∧ Numbers.gt (fontSize * shaped.advanceWidth) available = true then
      match lastBreakOpportunity with
      | some (state, iter) => some (shaped.restore state, iter)
      | none => some (shaped, chars)
    else
      match shaped.appendChar F ch with
      | (_, some _) => none
      | (shaped', none) =>
        shapeLine F fontSize available chars shaped' (if ch = 32 then some (shaped.save, chars) else lastBreakOpportunity)

/-- flow/inline.rs 298-323: the text fragment of a line of the run. -/
def pushText (parentStyle : ComputedValues) (shaped : ShapedSegment R) (ifc : InlineState R) : InlineState R :=
  let inlineSize := (Numbers.lengths parentStyle).fontSize * shaped.advanceWidth
  let lineHeight := Numbers.lineHeight (Numbers.lengths parentStyle).fontSize
  { ifc with
    inlinePosition := ifc.inlinePosition + inlineSize
    current := { ifc.current with
      maxBlockSize := max ifc.current.maxBlockSize lineHeight
      fragmentsSoFar := ifc.current.fragmentsSoFar ++
        [.text parentStyle ⟨⟨ifc.inlinePosition - ifc.current.inlineStart, 0⟩, ⟨inlineSize, lineHeight⟩⟩ shaped] } }

/-- flow/inline.rs 328-340: the end of a line. The partial boxes are finished from the innermost to the outermost, each
leaving its fragment in the nesting level outside it; the nesting level outside all of them gives the line box. The result is
the partial boxes as they go on in the next line, the current nesting level and the lines. -/
def breakLine (cb : ContainingBlock R) :
    List (PartialInlineBox R) → NestingLevel R → R → LinesBoxes R → List (PartialInlineBox R) × NestingLevel R × LinesBoxes R
  | [], level, _, lines =>
    match finishLine lines { level with inlineStart := 0 } cb with
    | (lines, level) => ([], level, lines)
  | p :: rest, level, position, lines =>
    match p.finish { level with inlineStart := 0 } position true with
    | (p, level, position) =>
      match breakLine cb rest p.parentNestingLevel position lines with
      | (rest, parent, lines) =>
        ({ p with
            startCorner := ⟨0, p.startCorner.block⟩
            padding := p.padding.startless
            border := p.border.startless
            margin := p.margin.startless
            parentNestingLevel := parent } :: rest, level, lines)

/-- flow/inline.rs 274-343: the lines of a text run. The fuel bounds the number of lines; a line consumes one character at
least. -/
def textLines {Err : Type} (F : FontApi R Err) (cb : ContainingBlock R) (parentStyle : ComputedValues) (available : R) :
    Nat → List Nat → InlineState R → Option (InlineState R)
  | 0, _, _ => none
  | fuel + 1, chars, ifc =>
    match shapeLine F (Numbers.lengths parentStyle).fontSize available chars (ShapedSegment.new F) none with
    | none => none
    | some (shaped, chars) =>
      let ifc := pushText parentStyle shaped ifc
      if chars = [] then some ifc
      else
        match breakLine cb ifc.stack ifc.current ifc.inlinePosition ifc.lineBoxes with
        | (stack, current, lines) =>
          textLines F cb parentStyle available fuel chars
            { lineBoxes := lines, inlinePosition := 0, stack := stack, current := current }

/-- flow/inline.rs 271-344, `TextRun::layout`. -/
def layoutTextRun {Err : Type} (F : FontApi R Err) (cb : ContainingBlock R) (parentStyle : ComputedValues) (text : List Nat)
    (ifc : InlineState R) : Option (InlineState R) :=
  textLines F cb parentStyle (cb.inlineSize - ifc.inlinePosition) (text.length + 1) text ifc

/-- flow/inline.rs 103-118: the inline coordinate of the static position, `none` where the code
panics. -/
def staticInlineStart (style : ComputedValues) (inlinePosition : R) : Option R :=
  match style.specifiedDisplay with
  | .generatingBox .inline _ => some inlinePosition
  | .generatingBox .block _ => some 0
  | .contents => none
  | .none => none

/-- flow/inline.rs 91-145: one iteration of the loop. `Sum.inr` is the end of the layout. -/
def inlineStep {Err : Type} (F : FontApi R Err) (cb : ContainingBlock R) (treeRank : Nat) (ifc : InlineState R)
    (absolute : List (AbsolutelyPositionedFragment R)) :
    Option ((InlineState R × List (AbsolutelyPositionedFragment R)) ⊕ (FlowChildren R × List (AbsolutelyPositionedFragment R))) :=
  match ifc.current.remainingBoxes with
  | child :: remaining =>
    let ifc := { ifc with current := { ifc.current with remainingBoxes := remaining } }
    match child with
    | .inlineBox style first last children => some (.inl (startInlineBox cb style first last children ifc, absolute))
    | .textRun parentStyle text =>
      match layoutTextRun F cb parentStyle text ifc with
      | some ifc => some (.inl (ifc, absolute))
      | none => none
    | .outOfFlowAbsolutelyPositioned style floats contents =>
      match staticInlineStart style ifc.inlinePosition with
      | some i => some (.inl (ifc, absolute ++
          [layoutAbsoluteBox ⟨style, ⟨contents, floats⟩⟩ ⟨i, ifc.lineBoxes.nextLineBlockPosition⟩ treeRank]))
      | none => none
    | .outOfFlowFloat _ _ _ => some (.inl (ifc, absolute))
  | [] =>
    match ifc.stack with
    | p :: stack =>
      match p.finish ifc.current ifc.inlinePosition false with
      | (p, _, position) =>
        some (.inl ({ ifc with inlinePosition := position, stack := stack, current := p.parentNestingLevel }, absolute))
    | [] =>
      match finishLine ifc.lineBoxes ifc.current cb with
      | (lines, _) => some (.inr (⟨lines.boxes, lines.nextLineBlockPosition, CollapsedBlockMargins.zero⟩, absolute))

/-- flow/inline.rs 90-145: the loop; the fuel bounds the number of iterations. -/
def inlineLoop {Err : Type} (F : FontApi R Err) (cb : ContainingBlock R) (treeRank : Nat) :
    Nat → InlineState R → List (AbsolutelyPositionedFragment R) → Option (FlowChildren R × List (AbsolutelyPositionedFragment R))
  | 0, _, _ => none
  | fuel + 1, ifc, absolute =>
    match inlineStep F cb treeRank ifc absolute with
    | none => none
    | some (.inl (ifc, absolute)) => inlineLoop F cb treeRank fuel ifc absolute
    | some (.inr r) => some r

/-- flow/inline.rs 75-89, the initial state. -/
def initialInlineState (boxes : List InlineLevelBox) : InlineState R where
  lineBoxes := ⟨[], 0⟩
  inlinePosition := 0
  stack := []
  current := ⟨boxes, [], 0, 0⟩

/-- flow/inline.rs 69-146, `InlineFormattingContext::layout`. -/
def layoutInline {Err : Type} (F : FontApi R Err) (boxes : List InlineLevelBox) (cb : ContainingBlock R) (treeRank : Nat)
    (absolute : List (AbsolutelyPositionedFragment R)) : Option (FlowChildren R × List (AbsolutelyPositionedFragment R)) :=
  inlineLoop F cb treeRank (costs boxes + 1) (initialInlineState boxes) absolute

/-! ### Block formatting contexts -/

abbrev Absolutes (R : Type) := List (AbsolutelyPositionedFragment R)

/-- flow/mod.rs 163-168, `PlacementState`. -/
structure PlacementState (R : Type) where
  nextInFlowMarginCollapsesWithParentStartMargin : Bool
  startMargin : CollapsedMargin R
  currentMargin : CollapsedMargin R
  currentBlockDirectionPosition : R

/-- flow/mod.rs 171-177. -/
def PlacementState.initial (collapsible : Bool) : PlacementState R := ⟨collapsible, .zero, .zero, 0⟩

/-- The fragment with its content rectangle moved in the block direction. -/
def BoxInfo.moveBlock (b : BoxInfo R) (d : R) : BoxInfo R :=
  { b with contentRect := ⟨⟨b.contentRect.startCorner.inline, b.contentRect.startCorner.block + d⟩, b.contentRect.size⟩ }

/-- flow/mod.rs 118-120. -/
def BoxInfo.borderBlockSize (b : BoxInfo R) : R := b.padding.blockTotal + b.border.blockTotal + b.contentRect.size.block

/-- flow/mod.rs 114-161, `place_block_level_fragment`. -/
def placeFragment (s : PlacementState R) : Fragment R → Option (Fragment R × PlacementState R)
  | .box b children =>
    let margins := b.blockMarginsCollapsedWithChildren
    if s.nextInFlowMarginCollapsesWithParentStartMargin then
      if Numbers.isZero s.currentMargin.solve = true then
        let startMargin := s.startMargin.adjoin margins.start
        if margins.collapsedThrough then some (.box b children, { s with startMargin := startMargin.adjoin margins.end })
        else
          some (.box (b.moveBlock (s.currentMargin.solve + s.currentBlockDirectionPosition)) children,
            { nextInFlowMarginCollapsesWithParentStartMargin := false
              startMargin := startMargin
              currentMargin := margins.end
              currentBlockDirectionPosition :=
                s.currentBlockDirectionPosition + (s.currentMargin.solve + b.borderBlockSize) })
      else none
    else
      let currentMargin := s.currentMargin.adjoin margins.start
      let moved := b.moveBlock (currentMargin.solve + s.currentBlockDirectionPosition)
      if margins.collapsedThrough then some (.box moved children, { s with currentMargin := currentMargin.adjoin margins.end })
      else
        some (.box moved children,
          { s with
            currentMargin := margins.end
            currentBlockDirectionPosition := s.currentBlockDirectionPosition + (currentMargin.solve + b.borderBlockSize) })
  | .anonymous rect children mode =>
    if children.isEmpty ∧ Numbers.isZero rect.size.block = true then
      some (.anonymous ⟨⟨rect.startCorner.inline, rect.startCorner.block + s.currentBlockDirectionPosition⟩, rect.size⟩
        children mode, s)
    else none
  | .text _ _ _ => none

/-- flow/mod.rs 215-217. -/
def placeAll : PlacementState R → List (Fragment R) → Option (List (Fragment R) × PlacementState R)
  | s, [] => some ([], s)
  | s, f :: fs =>
    match placeFragment s f with
    | none => none
    | some (f, s) =>
      match placeAll s fs with
      | none => none
      | some (fs, s) => some (f :: fs, s)

/-- flow/mod.rs 179-196: layout in tree order, each fragment being placed before the next box is laid out. `rank` is the index
of the first of the boxes. -/
def layoutInOrder (layoutChild : Nat → BlockLevelBox → Absolutes R → Option (Fragment R × Absolutes R)) :
    (rank : Nat) → List BlockLevelBox → Absolutes R → PlacementState R → Option (List (Fragment R) × Absolutes R × PlacementState R)
  | _, [], absolute, s => some ([], absolute, s)
  | rank, b :: bs, absolute, s =>
    match layoutChild rank b absolute with
    | none => none
    | some (f, absolute) =>
      match placeFragment s f with
      | none => none
      | some (f, s) =>
        match layoutInOrder layoutChild (rank + 1) bs absolute s with
        | none => none
        | some (fs, absolute, s) => some (f :: fs, absolute, s)

/-- flow/mod.rs 198-214, `mapfold_reduce_into` and `collect` (rayon_croissant): every task folds its part in order from an
empty accumulator, the accumulators of two tasks are joined with the right one appended to the left one, and the results are
collected in order. -/
def mapfold (layoutChild : Nat → BlockLevelBox → Absolutes R → Option (Fragment R × Absolutes R)) :
    Schedule → (rank : Nat) → List BlockLevelBox → Option (List (Fragment R) × Absolutes R)
  | .task, rank, boxes => foldTask rank boxes []
  | .join cut left right, rank, boxes =>
    match mapfold layoutChild left rank (boxes.take cut), mapfold layoutChild right (rank + cut) (boxes.drop cut) with
    | some (fs, absolute), some (fs', absolute') => some (fs ++ fs', absolute ++ absolute')
    | _, _ => none
where
  /-- What one task does. -/
  foldTask : (rank : Nat) → List BlockLevelBox → Absolutes R → Option (List (Fragment R) × Absolutes R)
    | _, [], absolute => some ([], absolute)
    | rank, b :: bs, absolute =>
      match layoutChild rank b absolute with
      | none => none
      | some (f, absolute) =>
        match foldTask (rank + 1) bs absolute with
        | none => none
        | some (fs, absolute) => some (f :: fs, absolute)

/-- positioned.rs 320-326: the static position is moved with the fragment that contains it. -/
def AbsoluteBoxOffsets.moveStatic (o : AbsoluteBoxOffsets R) (d : R) : AbsoluteBoxOffsets R :=
  match o with
  | .staticStart s => .staticStart (s + d)
  | o => o

/-- positioned.rs 312-316: the rectangle of a fragment that can contain absolutely positioned boxes. -/
def Fragment.rect? : Fragment R → Option (Rect R)
  | .box b _ => some b.contentRect
  | .anonymous rect _ _ => some rect
  | .text _ _ _ => none

/-- positioned.rs 306-328, `adjust_static_positions`: `none` is the panic of the index or of `unreachable!()`. -/
def adjustStaticPositions : Absolutes R → List (Fragment R) → (treeRankInParent : Nat) → Option (Absolutes R)
  | [], _, _ => some []
  | a :: as, childFragments, treeRankInParent =>
    match childFragments[a.treeRank]? with
    | none => none
    | some f =>
      match f.rect? with
      | none => none
      | some rect =>
        match adjustStaticPositions as childFragments treeRankInParent with
        | none => none
        | some as =>
          some ({ a with
              treeRank := treeRankInParent
              inlineStart := a.inlineStart.moveStatic rect.startCorner.inline
              blockStart := a.blockStart.moveStatic rect.startCorner.block } :: as)

/-- flow/mod.rs 221-236. -/
def finishChildren (absolute : Absolutes R) (absposSoFar : Nat) (fragments : List (Fragment R)) (s : PlacementState R)
    (treeRank : Nat) : Option (FlowChildren R × Absolutes R) :=
  match adjustStaticPositions (absolute.drop absposSoFar) fragments treeRank with
  | none => none
  | some adjusted =>
    some (⟨fragments, s.currentBlockDirectionPosition,
      ⟨s.nextInFlowMarginCollapsesWithParentStartMargin, s.startMargin, s.currentMargin⟩⟩,
      absolute.take absposSoFar ++ adjusted)

/-- flow/mod.rs 106-237, `layout_block_level_children`, given the layout of a child. -/
def layoutChildren (schedule : Schedule) (layoutChild : Nat → BlockLevelBox → Absolutes R → Option (Fragment R × Absolutes R))
    (boxes : List BlockLevelBox) (treeRank : Nat) (absolute : Absolutes R) (floats collapsible : Bool) :
    Option (FlowChildren R × Absolutes R) :=
  if floats then
    match layoutInOrder layoutChild 0 boxes absolute (.initial collapsible) with
    | none => none
    | some (fragments, absolute', s) => finishChildren absolute' absolute.length fragments s treeRank
  else
    match mapfold layoutChild schedule 0 boxes with
    | none => none
    | some (fragments, absolute') =>
      match placeAll (.initial collapsible) fragments with
      | none => none
      | some (fragments, s) => finishChildren (absolute ++ absolute') absolute.length fragments s treeRank

/-- flow/mod.rs 318-341: the margins, when the inline size is not `auto`. -/
def solveInlineMargins (inlineMargins : R) (start end_ : LengthOrAuto R) : LengthOrAuto R × LengthOrAuto R :=
  match start, end_ with
  | .auto, .auto => (.length (Numbers.half inlineMargins), .length (Numbers.half inlineMargins))
  | .auto, e => (.length inlineMargins, e)
  | s, .auto => (s, .length inlineMargins)
  | s, _ => (s, .length inlineMargins)

/-- flow/mod.rs 345-349. -/
def usedBlockSize (size : LengthOrPercentageOrAuto R) (containing : LengthOrAuto R) : LengthOrAuto R :=
  match size with
  | .length l => .length l
  | .percentage p => containing.map (· * p)
  | .auto => .auto

/-- The order-preserving `par_iter().map().collect()` of positioned.rs 106-109 and of flow/root.rs 113-117: whatever the
schedule, the results are those of the calls, in order. `index` is the index of the first of the fragments. -/
def layoutAll (layoutAbsolute : Nat → AbsolutelyPositionedFragment R → Option (Fragment R)) :
    (index : Nat) → Absolutes R → Option (List (Fragment R))
  | _, [] => some []
  | index, a :: as =>
    match layoutAbsolute index a, layoutAll layoutAbsolute (index + 1) as with
    | some f, some fs => some (f :: fs)
    | _, _ => none

/-- positioned.rs 85-113, `in_positioned_containing_block`, given the layout of an absolutely positioned fragment; the result
is the new fragments. -/
def inPositionedContainingBlock
    (layoutAbsolute : DefiniteContainingBlock R → Nat → AbsolutelyPositionedFragment R → Option (Fragment R))
    (absolute : Absolutes R) (fragments : List (Fragment R)) (contentRectSize : Vec2 R) (padding : Sides R) (mode : Mode) :
    Option (List (Fragment R)) :=
  match absolute with
  | [] => some fragments
  | absolute =>
    let paddingRect := (⟨Vec2.origin, contentRectSize⟩ : Rect R).grow padding
    match layoutAll (layoutAbsolute ⟨paddingRect.size, mode⟩) 0 absolute with
    | none => none
    | some children => some (fragments ++ [.anonymous paddingRect children mode])

/-- flow/mod.rs 306-349: what `layout_in_flow_non_replaced_block_level` computes before it lays out the contents. -/
structure InFlowSizes (R : Type) where
  padding : Sides R
  border : Sides R
  margin : Sides R
  inlineSize : R
  blockSize : LengthOrAuto R

/-- flow/mod.rs 306-349. -/
def inFlowSizes (cb : ContainingBlock R) (style : ComputedValues) : InFlowSizes R :=
  let cbis := cb.inlineSize
  let padding := (Numbers.lengths style).padding.resolve cbis
  let border := (Numbers.lengths style).border.resolve cbis
  let computedMargin := (Numbers.lengths style).margin.resolveAuto cbis
  let pb := padding.plus border
  let inlineSize := autoPercentageRelativeTo (Numbers.lengths style).size.inline cbis
  let computedMargin :=
    match inlineSize with
    | .length is =>
      let solved := solveInlineMargins (cbis - is - pb.inlineTotal) computedMargin.inlineStart computedMargin.inlineEnd
      { computedMargin with inlineStart := solved.1, inlineEnd := solved.2 }
    | .auto => computedMargin
  let margin := computedMargin.whenAuto 0
  { padding := padding
    border := border
    margin := margin
    inlineSize := inlineSize.autoIs (cbis - pb.inlineTotal - margin.inlineTotal)
    blockSize := usedBlockSize (Numbers.lengths style).size.block cb.blockSize }

/-- flow/mod.rs 376-408: the margins of the box collapsed with those of its children, and the block size of the children with
the margin that does not collapse. -/
def collapseWithChildren (margin : Sides R) (canStart canEnd : Bool) (children : CollapsedBlockMargins R) (blockSize : R) :
    CollapsedBlockMargins R × R :=
  let own := CollapsedBlockMargins.fromMargin margin
  let start := if canStart then own.start.adjoin children.start else own.start
  let moved := canStart && children.collapsedThrough
  let start := if moved then start.adjoin children.end else start
  let childrenEnd := if moved then CollapsedMargin.zero else children.end
  (⟨canStart && canEnd && children.collapsedThrough, start, if canEnd then own.end.adjoin childrenEnd else own.end⟩,
   if canEnd then blockSize else blockSize + childrenEnd.solve)

/-- flow/mod.rs 300-439, `layout_in_flow_non_replaced_block_level`, given the layout of the contents and that of absolutely
positioned fragments. -/
def layoutInFlow (cb : ContainingBlock R) (absolute : Absolutes R) (style : ComputedValues) (kind : BlockLevelKind)
    (layoutContents : ContainingBlock R → Absolutes R → Bool → Option (FlowChildren R × Absolutes R))
    (layoutAbsolute : DefiniteContainingBlock R → Nat → AbsolutelyPositionedFragment R → Option (Fragment R)) :
    Option (Fragment R × Absolutes R) :=
  let sizes := inFlowSizes cb style
  let pb := sizes.padding.plus sizes.border
  let cbForChildren : ContainingBlock R := ⟨sizes.inlineSize, sizes.blockSize, writingMode style⟩
  if cb.mode ≠ cbForChildren.mode then none
  else
    let canStart := decide (kind = .sameFormattingContextBlock) && Numbers.isZero pb.blockStart
    let canEnd := decide (kind = .sameFormattingContextBlock) && Numbers.isZero pb.blockEnd && sizes.blockSize.isAuto
    let relative := (positionOf style).isRelativelyPositioned
    match layoutContents cbForChildren (if relative then [] else absolute) canStart with
    | none => none
    | some (children, absolute') =>
      let collapsed := collapseWithChildren sizes.margin canStart canEnd children.collapsibleMarginsInChildren children.blockSize
      let adjustement := relativeAdjustement style sizes.inlineSize sizes.blockSize
      let contentRect : Rect R :=
        ⟨⟨pb.inlineStart + adjustement.inline + sizes.margin.inlineStart, pb.blockStart + adjustement.block⟩,
         ⟨sizes.inlineSize, sizes.blockSize.autoIs collapsed.2⟩⟩
      let info : BoxInfo R :=
        ⟨style, contentRect, sizes.padding, sizes.border, sizes.margin, collapsed.1⟩
      if relative then
        match inPositionedContainingBlock layoutAbsolute absolute' children.fragments contentRect.size sizes.padding
            cbForChildren.mode with
        | none => none
        | some fragments => some (.box info fragments, absolute)
      else some (.box info children.fragments, absolute')

/-- positioned.rs 125-128. -/
inductive Anchor (R : Type) where
  | start (start : R)
  | «end» (end_ : R)

/-- positioned.rs 130-201, `solve_axis`. -/
def solveAxis (containingSize paddingBorderSum : R) (computedMarginStart computedMarginEnd : LengthOrAuto R)
    (solveMargins : R → R × R) (boxOffsets : AbsoluteBoxOffsets R) (size : LengthOrPercentageOrAuto R) :
    Anchor R × LengthOrAuto R × R × R :=
  let size := autoPercentageRelativeTo size containingSize
  match boxOffsets with
  | .staticStart start => (.start start, size, computedMarginStart.autoIs 0, computedMarginEnd.autoIs 0)
  | .start start =>
    (.start (percentageRelativeTo start containingSize), size, computedMarginStart.autoIs 0, computedMarginEnd.autoIs 0)
  | .end e => (.end (percentageRelativeTo e containingSize), size, computedMarginStart.autoIs 0, computedMarginEnd.autoIs 0)
  | .both start e =>
    let start := percentageRelativeTo start containingSize
    let e := percentageRelativeTo e containingSize
    match size with
    | .length size =>
      let margins := containingSize - start - e - paddingBorderSum - size
      match computedMarginStart, computedMarginEnd with
      | .auto, .auto => (.start start, .length size, (solveMargins margins).1, (solveMargins margins).2)
      | .auto, .length marginEnd => (.start start, .length size, margins - marginEnd, marginEnd)
      | .length marginStart, .auto => (.start start, .length size, marginStart, margins - marginStart)
      | .length marginStart, .length marginEnd => (.start start, .length size, marginStart, marginEnd)
    | .auto =>
      let marginStart := computedMarginStart.autoIs 0
      let marginEnd := computedMarginEnd.autoIs 0
      (.start start, .length (containingSize - start - e - paddingBorderSum - marginStart - marginEnd), marginStart, marginEnd)

/-- positioned.rs 116-244: what `AbsolutelyPositionedFragment::layout` computes before it lays out the contents. -/
structure AbsoluteSizes (R : Type) where
  padding : Sides R
  border : Sides R
  margin : Sides R
  inlineAnchor : Anchor R
  blockAnchor : Anchor R
  inlineSize : R
  blockSize : LengthOrAuto R

/-- positioned.rs 116-244. The block axis is solved with the inline size of the containing block, as in line 220. -/
def absoluteSizes (cb : DefiniteContainingBlock R) (a : AbsolutelyPositionedFragment R) : AbsoluteSizes R :=
  let style := a.box.style
  let cbis := cb.size.inline
  let padding := (Numbers.lengths style).padding.resolve cbis
  let border := (Numbers.lengths style).border.resolve cbis
  let computedMargin := (Numbers.lengths style).margin.resolveAuto cbis
  let pb := padding.plus border
  let i := solveAxis cbis pb.inlineTotal computedMargin.inlineStart computedMargin.inlineEnd
    (fun margins => if Numbers.nonNeg margins then (Numbers.half margins, Numbers.half margins) else (0, margins)) a.inlineStart a.inlineSize
  let b := solveAxis cbis pb.blockTotal computedMargin.blockStart computedMargin.blockEnd
    (fun margins => (Numbers.half margins, Numbers.half margins)) a.blockStart a.blockSize
  let margin : Sides R := { inlineStart := i.2.2.1, inlineEnd := i.2.2.2, blockStart := b.2.2.1, blockEnd := b.2.2.2 }
  { padding := padding
    border := border
    margin := margin
    inlineAnchor := i.1
    blockAnchor := b.1
    inlineSize := i.2.1.autoIs
      (match i.1 with
        | .start start => cbis - start - pb.inlineTotal - margin.inlineTotal
        | .end e => cbis - e - pb.inlineTotal - margin.inlineTotal)
    blockSize := b.2.1 }

/-- positioned.rs 264-284: the content rectangle, given the block size of the contents. The inline end anchor is taken from
the block size of the containing block, as in line 266. -/
def absoluteContentRect (cb : DefiniteContainingBlock R) (sizes : AbsoluteSizes R) (contentsBlockSize : R) : Rect R :=
  let pb := sizes.padding.plus sizes.border
  let cbbs := cb.size.block
  let blockSize := sizes.blockSize.autoIs contentsBlockSize
  { startCorner :=
    { inline := match sizes.inlineAnchor with
        | .start start => start + pb.inlineStart + sizes.margin.inlineStart
        | .end e => cbbs - e - pb.inlineEnd - sizes.margin.inlineEnd - sizes.inlineSize
      block := match sizes.blockAnchor with
        | .start start => start + pb.blockStart + sizes.margin.blockStart
        | .end e => cbbs - e - pb.blockEnd - sizes.margin.blockEnd - blockSize }
    size := ⟨sizes.inlineSize, blockSize⟩ }

/-- flow/mod.rs 52-78, `BlockFormattingContext::layout`, after the layout of its contents. -/
def FlowChildren.finishBlockFormattingContext (c : FlowChildren R) : FlowChildren R :=
  { c with
    blockSize := c.blockSize + c.collapsibleMarginsInChildren.end.solve
    collapsibleMarginsInChildren := ⟨false, c.collapsibleMarginsInChildren.start, .zero⟩ }

mutual

/-- flow/mod.rs 82-103, `BlockContainer::layout`. The fuel bounds the nesting. -/
def layoutContainer {Err : Type} (F : FontApi R Err) :
    (fuel : Nat) → Oracle → BlockContainer → ContainingBlock R → (treeRank : Nat) → Absolutes R → (floats collapsible : Bool) →
    Option (FlowChildren R × Absolutes R)
  | 0, _, _, _, _, _, _, _ => none
  | fuel + 1, s, c, cb, treeRank, absolute, floats, collapsible =>
    match c with
    | .blockLevelBoxes boxes =>
      layoutChildren (s [])
        (fun rank b absolute => layoutBox F fuel (s.sub rank) b cb rank absolute floats) boxes treeRank absolute floats collapsible
    | .inlineFormattingContext boxes => layoutInline F boxes cb treeRank absolute

/-- flow/mod.rs 240-289, `BlockLevelBox::layout`. -/
def layoutBox {Err : Type} (F : FontApi R Err) :
    (fuel : Nat) → Oracle → BlockLevelBox → ContainingBlock R → (treeRank : Nat) → Absolutes R → (floats : Bool) →
    Option (Fragment R × Absolutes R)
  | 0, _, _, _, _, _, _ => none
  | fuel + 1, s, b, cb, treeRank, absolute, floats =>
    match b with
    | .sameFormattingContextBlock style contents =>
      layoutInFlow cb absolute style .sameFormattingContextBlock
        (fun cb absolute collapsible => layoutContainer F fuel (s.sub 0) contents cb treeRank absolute floats collapsible)
        (fun cb k a => layoutAbsolute F fuel (s.sub (k + 1)) cb a)
    | .independent style containsFloats contents =>
      layoutInFlow cb absolute style .establishesAnIndependentFormattingContext
        (fun cb absolute _ => mapFst FlowChildren.finishBlockFormattingContext
          (layoutContainer F fuel (s.sub 0) contents cb treeRank absolute containsFloats false))
        (fun cb k a => layoutAbsolute F fuel (s.sub (k + 1)) cb a)
    | .outOfFlowAbsolutelyPositioned style containsFloats contents =>
      some (.noOp cb.mode,
        absolute ++ [layoutAbsoluteBox ⟨style, ⟨contents, containsFloats⟩⟩ Vec2.origin treeRank])
    | .outOfFlowFloat _ _ _ => some (.noOp cb.mode, absolute)

/-- positioned.rs 115-303, `AbsolutelyPositionedFragment::layout`. -/
def layoutAbsolute {Err : Type} (F : FontApi R Err) :
    (fuel : Nat) → Oracle → DefiniteContainingBlock R → AbsolutelyPositionedFragment R → Option (Fragment R)
  | 0, _, _, _ => none
  | fuel + 1, s, cb, a =>
    let sizes := absoluteSizes cb a
    let cbForChildren : ContainingBlock R := ⟨sizes.inlineSize, sizes.blockSize, writingMode a.box.style⟩
    if cb.mode ≠ cbForChildren.mode then none
    else
      match mapFst FlowChildren.finishBlockFormattingContext
        (layoutContainer F fuel (s.sub 0) a.box.contents.contents cbForChildren 0 [] a.box.contents.containsFloats false) with
      | none => none
      | some (children, absolute) =>
        let contentRect := absoluteContentRect cb sizes children.blockSize
        match inPositionedContainingBlock (fun cb k a => layoutAbsolute F fuel (s.sub (k + 1)) cb a) absolute
          children.fragments contentRect.size sizes.padding cbForChildren.mode with
        | none => none
        | some fragments =>
          some (.box ⟨a.box.style, contentRect, sizes.padding, sizes.border, sizes.margin, .zero⟩ fragments)

end

/-- flow/mod.rs 52-78, `BlockFormattingContext::layout`. -/
def layoutContext {Err : Type} (F : FontApi R Err) (fuel : Nat) (s : Oracle) (bfc : BlockFormattingContext)
    (cb : ContainingBlock R) (treeRank : Nat) (absolute : Absolutes R) : Option (FlowChildren R × Absolutes R) :=
  mapFst FlowChildren.finishBlockFormattingContext
    (layoutContainer F fuel s bfc.contents cb treeRank absolute bfc.containsFloats false)

/-- flow/root.rs 88-121, `BoxTreeRoot::layout`. -/
def layoutRoot {Err : Type} (F : FontApi R Err) (fuel : Nat) (s : Oracle) (root : BlockFormattingContext)
    (viewport : Vec2 R) : Option (List (Fragment R)) :=
  match layoutContext F fuel (s.sub 0) root ⟨viewport.inline, .length viewport.block, (.horizontalTb, .ltr)⟩ 0 [] with
  | none => none
  | some (children, absolute) =>
    match layoutAll (fun k a => layoutAbsolute F fuel (s.sub (k + 1)) ⟨viewport, (.horizontalTb, .ltr)⟩ a) 0 absolute with
    | none => none
    | some fragments => some (children.fragments ++ fragments)

end Verif.Layout.Machine
