/- Model of `victor/src/layout/flow/inline.rs`: inline formatting contexts. -/
import Verif.Layout.Boxes
namespace Verif.Layout
open Verif.Style Verif.Text

/-- flow/inline.rs 38-43, `InlineNestingLevelState`. -/
structure NestingLevel where
  remainingBoxes : List InlineLevelBox
  fragmentsSoFar : List Fragment
  inlineStart : Rat
  maxBlockSize : Rat

/-- flow/inline.rs 45-53, `PartialInlineBoxFragment`. -/
structure PartialInlineBox where
  style : ComputedValues
  startCorner : Vec2 Rat
  padding : Sides Rat
  border : Sides Rat
  margin : Sides Rat
  lastBoxTreeFragment : Bool
  parentNestingLevel : NestingLevel

/-- flow/inline.rs 63-66, `LinesBoxes`. -/
structure LinesBoxes where
  boxes : List Fragment
  nextLineBlockPosition : Rat

/-- flow/inline.rs 55-61, `InlineFormattingContextState`; the containing block is a parameter, and the stack is a list that
begins with the innermost box. -/
structure InlineState where
  lineBoxes : LinesBoxes
  inlinePosition : Rat
  stack : List PartialInlineBox
  current : NestingLevel

/-- flow/inline.rs 150-172, `finish_line`: the lines and the top nesting level. -/
def finishLine (lines : LinesBoxes) (top : NestingLevel) (cb : ContainingBlock) : LinesBoxes × NestingLevel :=
  ({ boxes := lines.boxes ++ [.anonymous ⟨⟨0, lines.nextLineBlockPosition⟩, ⟨cb.inlineSize, top.maxBlockSize⟩⟩
        top.fragmentsSoFar cb.mode],
     nextLineBlockPosition := lines.nextLineBlockPosition + top.maxBlockSize },
   { top with fragmentsSoFar := [], maxBlockSize := 0 })

/-- The style of an inline box without what is at the inline start, or at the inline end. -/
def Sides.withoutInlineStart (s : Sides Rat) : Sides Rat := { s with inlineStart := 0 }
/-- See `Sides.withoutInlineStart`. -/
def Sides.withoutInlineEnd (s : Sides Rat) : Sides Rat := { s with inlineEnd := 0 }

/-- flow/inline.rs 176-221, `start_layout`, and the push of line 95. -/
def startInlineBox (cb : ContainingBlock) (style : ComputedValues) (firstFragment lastFragment : Bool)
    (children : List InlineLevelBox) (ifc : InlineState) : InlineState :=
  let padding := (padding style).percentagesRelativeTo cb.inlineSize
  let border := (borderWidth style).percentagesRelativeTo cb.inlineSize
  let margin := ((margin style).autoPercentagesRelativeTo cb.inlineSize).autoIs 0
  let inlinePosition :=
    if firstFragment then ifc.inlinePosition + (padding.inlineStart + border.inlineStart + margin.inlineStart)
    else ifc.inlinePosition
  let padding := if firstFragment then padding else padding.withoutInlineStart
  let border := if firstFragment then border else border.withoutInlineStart
  let margin := if firstFragment then margin else margin.withoutInlineStart
  let startCorner : Vec2 Rat :=
    ⟨inlinePosition - ifc.current.inlineStart, padding.blockStart + border.blockStart + margin.blockStart⟩
  let startCorner := startCorner.add (relativeAdjustement style cb.inlineSize cb.blockSize)
  { ifc with
    inlinePosition := inlinePosition
    stack := ⟨style, startCorner, padding, border, margin, lastFragment, ifc.current⟩ :: ifc.stack
    current := ⟨children, [], inlinePosition, 0⟩ }

/-- flow/inline.rs 225-267, `finish_layout`: the partial box with its parent's nesting level, the current nesting level and the
inline position. -/
def PartialInlineBox.finish (p : PartialInlineBox) (level : NestingLevel) (inlinePosition : Rat) (atLineBreak : Bool) :
    PartialInlineBox × NestingLevel × Rat :=
  let lastFragment := p.lastBoxTreeFragment && !atLineBreak
  let padding := if lastFragment then p.padding else p.padding.withoutInlineEnd
  let border := if lastFragment then p.border else p.border.withoutInlineEnd
  let margin := if lastFragment then p.margin else p.margin.withoutInlineEnd
  let fragment := Fragment.box
    { style := p.style
      contentRect := ⟨p.startCorner, ⟨inlinePosition - p.startCorner.inline, level.maxBlockSize⟩⟩
      padding := padding
      border := border
      margin := margin
      blockMarginsCollapsedWithChildren := CollapsedBlockMargins.zero }
    level.fragmentsSoFar
  ({ p with parentNestingLevel :=
      { p.parentNestingLevel with
        maxBlockSize := max p.parentNestingLevel.maxBlockSize
          (level.maxBlockSize + padding.blockSum + border.blockSum + margin.blockSum)
        fragmentsSoFar := p.parentNestingLevel.fragmentsSoFar ++ [fragment] } },
   { level with fragmentsSoFar := [] },
   if lastFragment then inlinePosition + (p.padding.inlineEnd + p.border.inlineEnd + p.margin.inlineEnd) else inlinePosition)

/-- flow/inline.rs 277-297: the inner loop, which shapes one line: the segment and the characters that remain. `none` is the
panic of `unwrap` when the font cannot be read. -/
def shapeLine {Err : Type} (F : FontApi Rat Err) (fontSize available : Rat) :
    (chars : List Nat) → ShapedSegment Rat → Option (ShapedSegmentState Rat × List Nat) →
    Option (ShapedSegment Rat × List Nat)
  | [], shaped, lastBreakOpportunity =>
    if fontSize * shaped.advanceWidth > available then
      match lastBreakOpportunity with
      | some (state, iter) => some (shaped.restore state, iter)
      | none => some (shaped, [])
    else some (shaped, [])
  | ch :: chars, shaped, lastBreakOpportunity =>
    if ch = 32 ∧ fontSize * shaped.advanceWidth > available then
      match lastBreakOpportunity with
      | some (state, iter) => some (shaped.restore state, iter)
      | none => some (shaped, chars)
    else
      match shaped.appendChar F ch with
      | (_, some _) => none
      | (shaped', none) =>
        shapeLine F fontSize available chars shaped' (if ch = 32 then some (shaped.save, chars) else lastBreakOpportunity)

/-- flow/inline.rs 298-323: the text fragment of a line of the run. -/
def pushText (parentStyle : ComputedValues) (shaped : ShapedSegment Rat) (ifc : InlineState) : InlineState :=
  let inlineSize := fontSizeOf parentStyle * shaped.advanceWidth
  let lineHeight := fontSizeOf parentStyle * (12 / 10)
  { ifc with
    inlinePosition := ifc.inlinePosition + inlineSize
    current := { ifc.current with
      maxBlockSize := max ifc.current.maxBlockSize lineHeight
      fragmentsSoFar := ifc.current.fragmentsSoFar ++
        [.text parentStyle ⟨⟨ifc.inlinePosition - ifc.current.inlineStart, 0⟩, ⟨inlineSize, lineHeight⟩⟩ shaped] } }

/-- flow/inline.rs 328-340: the end of a line. The partial boxes are finished from the innermost to the outermost, each
leaving its fragment in the nesting level outside it; the nesting level outside all of them gives the line box. The result is
the partial boxes as they go on in the next line, the current nesting level and the lines. -/
def breakLine (cb : ContainingBlock) :
    List PartialInlineBox → NestingLevel → Rat → LinesBoxes → List PartialInlineBox × NestingLevel × LinesBoxes
  | [], level, _, lines =>
    match finishLine lines { level with inlineStart := 0 } cb with
    | (lines, level) => ([], level, lines)
  | p :: rest, level, position, lines =>
    match p.finish { level with inlineStart := 0 } position true with
    | (p, level, position) =>
      match breakLine cb rest p.parentNestingLevel position lines with
      | (rest, parent, lines) =>
        ({ p with
            startCorner := ⟨0, p.startCorner.block⟩
            padding := p.padding.withoutInlineStart
            border := p.border.withoutInlineStart
            margin := p.margin.withoutInlineStart
            parentNestingLevel := parent } :: rest, level, lines)

/-- flow/inline.rs 274-343: the lines of a text run. The fuel bounds the number of lines; a line consumes one character at
least. -/
def textLines {Err : Type} (F : FontApi Rat Err) (cb : ContainingBlock) (parentStyle : ComputedValues) (available : Rat) :
    Nat → List Nat → InlineState → Option InlineState
  | 0, _, _ => none
  | fuel + 1, chars, ifc =>
    match shapeLine F (fontSizeOf parentStyle) available chars (ShapedSegment.new F) none with
    | none => none
    | some (shaped, chars) =>
      let ifc := pushText parentStyle shaped ifc
      if chars = [] then some ifc
      else
        match breakLine cb ifc.stack ifc.current ifc.inlinePosition ifc.lineBoxes with
        | (stack, current, lines) =>
          textLines F cb parentStyle available fuel chars
            { lineBoxes := lines, inlinePosition := 0, stack := stack, current := current }

/-- flow/inline.rs 271-344, `TextRun::layout`. -/
def layoutTextRun {Err : Type} (F : FontApi Rat Err) (cb : ContainingBlock) (parentStyle : ComputedValues) (text : List Nat)
    (ifc : InlineState) : Option InlineState :=
  textLines F cb parentStyle (cb.inlineSize - ifc.inlinePosition) (text.length + 1) text ifc

/-- flow/inline.rs 103-118: the inline coordinate of the static position, `none` where the code
panics. -/
def staticInlineStart (style : ComputedValues) (inlinePosition : Rat) : Option Rat :=
  match style.specifiedDisplay with
  | .generatingBox .inline _ => some inlinePosition
  | .generatingBox .block _ => some 0
  | .contents => none
  | .none => none

/-- flow/inline.rs 91-145: one iteration of the loop. `Sum.inr` is the end of the layout. -/
def inlineStep {Err : Type} (F : FontApi Rat Err) (cb : ContainingBlock) (treeRank : Nat) (ifc : InlineState)
    (absolute : List AbsolutelyPositionedFragment) :
    Option ((InlineState × List AbsolutelyPositionedFragment) ⊕ (FlowChildren × List AbsolutelyPositionedFragment)) :=
  match ifc.current.remainingBoxes with
  | child :: remaining =>
    let ifc := { ifc with current := { ifc.current with remainingBoxes := remaining } }
    match child with
    | .inlineBox style first last children => some (.inl (startInlineBox cb style first last children ifc, absolute))
    | .textRun parentStyle text =>
      match layoutTextRun F cb parentStyle text ifc with
      | some ifc => some (.inl (ifc, absolute))
      | none => none
    | .outOfFlowAbsolutelyPositioned style floats contents =>
      match staticInlineStart style ifc.inlinePosition with
      | some i => some (.inl (ifc, absolute ++
          [AbsolutelyPositionedBox.layout ⟨style, ⟨contents, floats⟩⟩ ⟨i, ifc.lineBoxes.nextLineBlockPosition⟩ treeRank]))
      | none => none
    | .outOfFlowFloat _ _ _ => some (.inl (ifc, absolute))
  | [] =>
    match ifc.stack with
    | p :: stack =>
      match p.finish ifc.current ifc.inlinePosition false with
      | (p, _, position) =>
        some (.inl ({ ifc with inlinePosition := position, stack := stack, current := p.parentNestingLevel }, absolute))
    | [] =>
      match finishLine ifc.lineBoxes ifc.current cb with
      | (lines, _) => some (.inr (⟨lines.boxes, lines.nextLineBlockPosition, CollapsedBlockMargins.zero⟩, absolute))

/-- flow/inline.rs 90-145: the loop; the fuel bounds the number of iterations. -/
def inlineLoop {Err : Type} (F : FontApi Rat Err) (cb : ContainingBlock) (treeRank : Nat) :
    Nat → InlineState → List AbsolutelyPositionedFragment → Option (FlowChildren × List AbsolutelyPositionedFragment)
  | 0, _, _ => none
  | fuel + 1, ifc, absolute =>
    match inlineStep F cb treeRank ifc absolute with
    | none => none
    | some (.inl (ifc, absolute)) => inlineLoop F cb treeRank fuel ifc absolute
    | some (.inr r) => some r

mutual
/-- The number of iterations that an inline-level box takes. -/
def InlineLevelBox.cost : InlineLevelBox → Nat
  | .inlineBox _ _ _ children => costs children + 2
  | .textRun _ _ => 1
  | .outOfFlowAbsolutelyPositioned _ _ _ => 1
  | .outOfFlowFloat _ _ _ => 1
/-- The number of iterations that a list of inline-level boxes takes. -/
def costs : List InlineLevelBox → Nat
  | [] => 0
  | b :: bs => b.cost + costs bs
end

/-- flow/inline.rs 75-89, the initial state. -/
def initialInlineState (boxes : List InlineLevelBox) : InlineState where
  lineBoxes := ⟨[], 0⟩
  inlinePosition := 0
  stack := []
  current := ⟨boxes, [], 0, 0⟩

/-- flow/inline.rs 69-146, `InlineFormattingContext::layout`. -/
def layoutInline {Err : Type} (F : FontApi Rat Err) (boxes : List InlineLevelBox) (cb : ContainingBlock) (treeRank : Nat)
    (absolute : List AbsolutelyPositionedFragment) : Option (FlowChildren × List AbsolutelyPositionedFragment) :=
  inlineLoop F cb treeRank (costs boxes + 1) (initialInlineState boxes) absolute

end Verif.Layout
