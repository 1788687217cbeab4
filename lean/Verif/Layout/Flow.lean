/- Model of `victor/src/layout/flow/mod.rs`, of `layout` in `positioned.rs` and of `BoxTreeRoot::layout` in `flow/root.rs`.
`none` is a panic (or too little fuel, which `C58_total` excludes). The vector of absolutely positioned fragments that the code
mutates is an argument and a part of the result. -/
import Verif.Layout.Inline
namespace Verif.Layout
open Verif.Style Verif.Text

abbrev Absolutes := List AbsolutelyPositionedFragment

/-- flow/mod.rs 163-168, `PlacementState`. -/
structure PlacementState where
  nextInFlowMarginCollapsesWithParentStartMargin : Bool
  startMargin : CollapsedMargin
  currentMargin : CollapsedMargin
  currentBlockDirectionPosition : Rat

/-- flow/mod.rs 171-177. -/
def PlacementState.initial (collapsible : Bool) : PlacementState := ⟨collapsible, .zero, .zero, 0⟩

/-- The fragment with its content rectangle moved in the block direction. -/
def BoxInfo.moveBlock (b : BoxInfo) (d : Rat) : BoxInfo :=
  { b with contentRect := ⟨⟨b.contentRect.startCorner.inline, b.contentRect.startCorner.block + d⟩, b.contentRect.size⟩ }

/-- flow/mod.rs 118-120. -/
def BoxInfo.borderBlockSize (b : BoxInfo) : Rat := b.padding.blockSum + b.border.blockSum + b.contentRect.size.block

/-- flow/mod.rs 114-161, `place_block_level_fragment`. -/
def placeFragment (s : PlacementState) : Fragment → Option (Fragment × PlacementState)
  | .box b children =>
    let margins := b.blockMarginsCollapsedWithChildren
    if s.nextInFlowMarginCollapsesWithParentStartMargin then
      if s.currentMargin.solve = 0 then
        let startMargin := s.startMargin.adjoin margins.start
        if margins.collapsedThrough then some (.box b children, { s with startMargin := startMargin.adjoin margins.end })
        else
          some (.box (b.moveBlock (s.currentMargin.solve + s.currentBlockDirectionPosition)) children,
            { nextInFlowMarginCollapsesWithParentStartMargin := false
              startMargin := startMargin
              currentMargin := margins.end
              currentBlockDirectionPosition :=
                s.currentBlockDirectionPosition + (s.currentMargin.solve + b.borderBlockSize) })
      else none
    else
      let currentMargin := s.currentMargin.adjoin margins.start
      let moved := b.moveBlock (currentMargin.solve + s.currentBlockDirectionPosition)
      if margins.collapsedThrough then some (.box moved children, { s with currentMargin := currentMargin.adjoin margins.end })
      else
        some (.box moved children,
          { s with
            currentMargin := margins.end
            currentBlockDirectionPosition := s.currentBlockDirectionPosition + (currentMargin.solve + b.borderBlockSize) })
  | .anonymous rect children mode =>
    if children.isEmpty ∧ rect.size.block = 0 then
      some (.anonymous ⟨⟨rect.startCorner.inline, rect.startCorner.block + s.currentBlockDirectionPosition⟩, rect.size⟩
        children mode, s)
    else none
  | .text _ _ _ => none

/-- flow/mod.rs 215-217. -/
def placeAll : PlacementState → List Fragment → Option (List Fragment × PlacementState)
  | s, [] => some ([], s)
  | s, f :: fs =>
    match placeFragment s f with
    | none => none
    | some (f, s) =>
      match placeAll s fs with
      | none => none
      | some (fs, s) => some (f :: fs, s)

/-- flow/mod.rs 179-196: layout in tree order, each fragment being placed before the next box is laid out. `rank` is the index
of the first of the boxes. -/
def layoutInOrder (layoutChild : Nat → BlockLevelBox → Absolutes → Option (Fragment × Absolutes)) :
    (rank : Nat) → List BlockLevelBox → Absolutes → PlacementState → Option (List Fragment × Absolutes × PlacementState)
  | _, [], absolute, s => some ([], absolute, s)
  | rank, b :: bs, absolute, s =>
    match layoutChild rank b absolute with
    | none => none
    | some (f, absolute) =>
      match placeFragment s f with
      | none => none
      | some (f, s) =>
        match layoutInOrder layoutChild (rank + 1) bs absolute s with
        | none => none
        | some (fs, absolute, s) => some (f :: fs, absolute, s)

/-- How the work on a list is divided by the thread pool: done in order by one task, or cut at an index into two parts that are
done by two tasks. -/
inductive Schedule where
  | task
  | join (cut : Nat) (left right : Schedule)

/-- flow/mod.rs 198-214, `mapfold_reduce_into` and `collect` (rayon_croissant): every task folds its part in order from an
empty accumulator, the accumulators of two tasks are joined with the right one appended to the left one, and the results are
collected in order. -/
def mapfold (layoutChild : Nat → BlockLevelBox → Absolutes → Option (Fragment × Absolutes)) :
    Schedule → (rank : Nat) → List BlockLevelBox → Option (List Fragment × Absolutes)
  | .task, rank, boxes => foldTask rank boxes []
  | .join cut left right, rank, boxes =>
    match mapfold layoutChild left rank (boxes.take cut), mapfold layoutChild right (rank + cut) (boxes.drop cut) with
    | some (fs, absolute), some (fs', absolute') => some (fs ++ fs', absolute ++ absolute')
    | _, _ => none
where
  /-- What one task does. -/
  foldTask : (rank : Nat) → List BlockLevelBox → Absolutes → Option (List Fragment × Absolutes)
    | _, [], absolute => some ([], absolute)
    | rank, b :: bs, absolute =>
      match layoutChild rank b absolute with
      | none => none
      | some (f, absolute) =>
        match foldTask (rank + 1) bs absolute with
        | none => none
        | some (fs, absolute) => some (f :: fs, absolute)

/-- positioned.rs 320-326: the static position is moved with the fragment that contains it. -/
def AbsoluteBoxOffsets.moveStatic (o : AbsoluteBoxOffsets) (d : Rat) : AbsoluteBoxOffsets :=
  match o with
  | .staticStart s => .staticStart (s + d)
  | o => o

/-- positioned.rs 312-316: the rectangle of a fragment that can contain absolutely positioned boxes. -/
def Fragment.rect? : Fragment → Option (Rect Rat)
  | .box b _ => some b.contentRect
  | .anonymous rect _ _ => some rect
  | .text _ _ _ => none

/-- positioned.rs 306-328, `adjust_static_positions`: `none` is the panic of the index or of `unreachable!()`. -/
def adjustStaticPositions : Absolutes → List Fragment → (treeRankInParent : Nat) → Option Absolutes
  | [], _, _ => some []
  | a :: as, childFragments, treeRankInParent =>
    match childFragments[a.treeRank]? with
    | none => none
    | some f =>
      match f.rect? with
      | none => none
      | some rect =>
        match adjustStaticPositions as childFragments treeRankInParent with
        | none => none
        | some as =>
          some ({ a with
              treeRank := treeRankInParent
              inlineStart := a.inlineStart.moveStatic rect.startCorner.inline
              blockStart := a.blockStart.moveStatic rect.startCorner.block } :: as)

/-- flow/mod.rs 221-236. -/
def finishChildren (absolute : Absolutes) (absposSoFar : Nat) (fragments : List Fragment) (s : PlacementState)
    (treeRank : Nat) : Option (FlowChildren × Absolutes) :=
  match adjustStaticPositions (absolute.drop absposSoFar) fragments treeRank with
  | none => none
  | some adjusted =>
    some (⟨fragments, s.currentBlockDirectionPosition,
      ⟨s.nextInFlowMarginCollapsesWithParentStartMargin, s.startMargin, s.currentMargin⟩⟩,
      absolute.take absposSoFar ++ adjusted)

/-- flow/mod.rs 106-237, `layout_block_level_children`, given the layout of a child. -/
def layoutChildren (schedule : Schedule) (layoutChild : Nat → BlockLevelBox → Absolutes → Option (Fragment × Absolutes))
    (boxes : List BlockLevelBox) (treeRank : Nat) (absolute : Absolutes) (floats collapsible : Bool) :
    Option (FlowChildren × Absolutes) :=
  if floats then
    match layoutInOrder layoutChild 0 boxes absolute (.initial collapsible) with
    | none => none
    | some (fragments, absolute', s) => finishChildren absolute' absolute.length fragments s treeRank
  else
    match mapfold layoutChild schedule 0 boxes with
    | none => none
    | some (fragments, absolute') =>
      match placeAll (.initial collapsible) fragments with
      | none => none
      | some (fragments, s) => finishChildren (absolute ++ absolute') absolute.length fragments s treeRank

/-- flow/mod.rs 292-296. -/
inductive BlockLevelKind where
  | sameFormattingContextBlock
  | establishesAnIndependentFormattingContext
deriving DecidableEq, Repr

/-- flow/mod.rs 318-341: the margins, when the inline size is not `auto`. -/
def solveInlineMargins (inlineMargins : Rat) (start end_ : LengthOrAuto) : LengthOrAuto × LengthOrAuto :=
  match start, end_ with
  | .auto, .auto => (.length (inlineMargins / 2), .length (inlineMargins / 2))
  | .auto, e => (.length inlineMargins, e)
  | s, .auto => (s, .length inlineMargins)
  | s, _ => (s, .length inlineMargins)

/-- flow/mod.rs 345-349. -/
def usedBlockSize (size : LengthOrPercentageOrAuto) (containing : LengthOrAuto) : LengthOrAuto :=
  match size with
  | .length l => .length l
  | .percentage p => containing.map (· * p)
  | .auto => .auto

/-- The order-preserving `par_iter().map().collect()` of positioned.rs 106-109 and of flow/root.rs 113-117: whatever the
schedule, the results are those of the calls, in order. `index` is the index of the first of the fragments. -/
def layoutAll (layoutAbsolute : Nat → AbsolutelyPositionedFragment → Option Fragment) :
    (index : Nat) → Absolutes → Option (List Fragment)
  | _, [] => some []
  | index, a :: as =>
    match layoutAbsolute index a, layoutAll layoutAbsolute (index + 1) as with
    | some f, some fs => some (f :: fs)
    | _, _ => none

/-- positioned.rs 85-113, `in_positioned_containing_block`, given the layout of an absolutely positioned fragment; the result
is the new fragments. -/
def inPositionedContainingBlock
    (layoutAbsolute : DefiniteContainingBlock → Nat → AbsolutelyPositionedFragment → Option Fragment)
    (absolute : Absolutes) (fragments : List Fragment) (contentRectSize : Vec2 Rat) (padding : Sides Rat) (mode : Mode) :
    Option (List Fragment) :=
  match absolute with
  | [] => some fragments
  | absolute =>
    let paddingRect := (⟨Vec2.zero, contentRectSize⟩ : Rect Rat).inflate padding
    match layoutAll (layoutAbsolute ⟨paddingRect.size, mode⟩) 0 absolute with
    | none => none
    | some children => some (fragments ++ [.anonymous paddingRect children mode])

/-- flow/mod.rs 306-349: what `layout_in_flow_non_replaced_block_level` computes before it lays out the contents. -/
structure InFlowSizes where
  padding : Sides Rat
  border : Sides Rat
  margin : Sides Rat
  inlineSize : Rat
  blockSize : LengthOrAuto

/-- flow/mod.rs 306-349. -/
def inFlowSizes (cb : ContainingBlock) (style : ComputedValues) : InFlowSizes :=
  let cbis := cb.inlineSize
  let padding := (padding style).percentagesRelativeTo cbis
  let border := (borderWidth style).percentagesRelativeTo cbis
  let computedMargin := (margin style).autoPercentagesRelativeTo cbis
  let pb := padding.add border
  let inlineSize := autoPercentageRelativeTo (boxSize style).inline cbis
  let computedMargin :=
    match inlineSize with
    | .length is =>
      let solved := solveInlineMargins (cbis - is - pb.inlineSum) computedMargin.inlineStart computedMargin.inlineEnd
      { computedMargin with inlineStart := solved.1, inlineEnd := solved.2 }
    | .auto => computedMargin
  let margin := computedMargin.autoIs 0
  { padding := padding
    border := border
    margin := margin
    inlineSize := inlineSize.autoIs (cbis - pb.inlineSum - margin.inlineSum)
    blockSize := usedBlockSize (boxSize style).block cb.blockSize }

/-- flow/mod.rs 376-408: the margins of the box collapsed with those of its children, and the block size of the children with
the margin that does not collapse. -/
def collapseWithChildren (margin : Sides Rat) (canStart canEnd : Bool) (children : CollapsedBlockMargins) (blockSize : Rat) :
    CollapsedBlockMargins × Rat :=
  let own := CollapsedBlockMargins.fromMargin margin
  let start := if canStart then own.start.adjoin children.start else own.start
  let moved := canStart && children.collapsedThrough
  let start := if moved then start.adjoin children.end else start
  let childrenEnd := if moved then CollapsedMargin.zero else children.end
  (⟨canStart && canEnd && children.collapsedThrough, start, if canEnd then own.end.adjoin childrenEnd else own.end⟩,
   if canEnd then blockSize else blockSize + childrenEnd.solve)

/-- flow/mod.rs 300-439, `layout_in_flow_non_replaced_block_level`, given the layout of the contents and that of absolutely
positioned fragments. -/
def layoutInFlow (cb : ContainingBlock) (absolute : Absolutes) (style : ComputedValues) (kind : BlockLevelKind)
    (layoutContents : ContainingBlock → Absolutes → Bool → Option (FlowChildren × Absolutes))
    (layoutAbsolute : DefiniteContainingBlock → Nat → AbsolutelyPositionedFragment → Option Fragment) :
    Option (Fragment × Absolutes) :=
  let sizes := inFlowSizes cb style
  let pb := sizes.padding.add sizes.border
  let cbForChildren : ContainingBlock := ⟨sizes.inlineSize, sizes.blockSize, writingMode style⟩
  if cb.mode ≠ cbForChildren.mode then none
  else
    let canStart := decide (kind = .sameFormattingContextBlock) && decide (pb.blockStart = 0)
    let canEnd := decide (kind = .sameFormattingContextBlock) && decide (pb.blockEnd = 0) && decide (sizes.blockSize = .auto)
    let relative := (positionOf style).isRelativelyPositioned
    match layoutContents cbForChildren (if relative then [] else absolute) canStart with
    | none => none
    | some (children, absolute') =>
      let collapsed := collapseWithChildren sizes.margin canStart canEnd children.collapsibleMarginsInChildren children.blockSize
      let adjustement := relativeAdjustement style sizes.inlineSize sizes.blockSize
      let contentRect : Rect Rat :=
        ⟨⟨pb.inlineStart + adjustement.inline + sizes.margin.inlineStart, pb.blockStart + adjustement.block⟩,
         ⟨sizes.inlineSize, sizes.blockSize.autoIs collapsed.2⟩⟩
      let info : BoxInfo :=
        ⟨style, contentRect, sizes.padding, sizes.border, sizes.margin, collapsed.1⟩
      if relative then
        match inPositionedContainingBlock layoutAbsolute absolute' children.fragments contentRect.size sizes.padding
            cbForChildren.mode with
        | none => none
        | some fragments => some (.box info fragments, absolute)
      else some (.box info children.fragments, absolute')

/-- positioned.rs 125-128. -/
inductive Anchor where
  | start (start : Rat)
  | «end» (end_ : Rat)
deriving DecidableEq, Repr

/-- positioned.rs 130-201, `solve_axis`. -/
def solveAxis (containingSize paddingBorderSum : Rat) (computedMarginStart computedMarginEnd : LengthOrAuto)
    (solveMargins : Rat → Rat × Rat) (boxOffsets : AbsoluteBoxOffsets) (size : LengthOrPercentageOrAuto) :
    Anchor × LengthOrAuto × Rat × Rat :=
  let size := autoPercentageRelativeTo size containingSize
  match boxOffsets with
  | .staticStart start => (.start start, size, computedMarginStart.autoIs 0, computedMarginEnd.autoIs 0)
  | .start start =>
    (.start (percentageRelativeTo start containingSize), size, computedMarginStart.autoIs 0, computedMarginEnd.autoIs 0)
  | .end e => (.end (percentageRelativeTo e containingSize), size, computedMarginStart.autoIs 0, computedMarginEnd.autoIs 0)
  | .both start e =>
    let start := percentageRelativeTo start containingSize
    let e := percentageRelativeTo e containingSize
    match size with
    | .length size =>
      let margins := containingSize - start - e - paddingBorderSum - size
      match computedMarginStart, computedMarginEnd with
      | .auto, .auto => (.start start, .length size, (solveMargins margins).1, (solveMargins margins).2)
      | .auto, .length marginEnd => (.start start, .length size, margins - marginEnd, marginEnd)
      | .length marginStart, .auto => (.start start, .length size, marginStart, margins - marginStart)
      | .length marginStart, .length marginEnd => (.start start, .length size, marginStart, marginEnd)
    | .auto =>
      let marginStart := computedMarginStart.autoIs 0
      let marginEnd := computedMarginEnd.autoIs 0
      (.start start, .length (containingSize - start - e - paddingBorderSum - marginStart - marginEnd), marginStart, marginEnd)

/-- positioned.rs 116-244: what `AbsolutelyPositionedFragment::layout` computes before it lays out the contents. -/
structure AbsoluteSizes where
  padding : Sides Rat
  border : Sides Rat
  margin : Sides Rat
  inlineAnchor : Anchor
  blockAnchor : Anchor
  inlineSize : Rat
  blockSize : LengthOrAuto

/-- positioned.rs 116-244. The block axis is solved with the inline size of the containing block, as in line 220. -/
def absoluteSizes (cb : DefiniteContainingBlock) (a : AbsolutelyPositionedFragment) : AbsoluteSizes :=
  let style := a.box.style
  let cbis := cb.size.inline
  let padding := (padding style).percentagesRelativeTo cbis
  let border := (borderWidth style).percentagesRelativeTo cbis
  let computedMargin := (margin style).autoPercentagesRelativeTo cbis
  let pb := padding.add border
  let i := solveAxis cbis pb.inlineSum computedMargin.inlineStart computedMargin.inlineEnd
    (fun margins => if margins ≥ 0 then (margins / 2, margins / 2) else (0, margins)) a.inlineStart a.inlineSize
  let b := solveAxis cbis pb.blockSum computedMargin.blockStart computedMargin.blockEnd
    (fun margins => (margins / 2, margins / 2)) a.blockStart a.blockSize
  let margin : Sides Rat := { inlineStart := i.2.2.1, inlineEnd := i.2.2.2, blockStart := b.2.2.1, blockEnd := b.2.2.2 }
  { padding := padding
    border := border
    margin := margin
    inlineAnchor := i.1
    blockAnchor := b.1
    inlineSize := i.2.1.autoIs
      (match i.1 with
        | .start start => cbis - start - pb.inlineSum - margin.inlineSum
        | .end e => cbis - e - pb.inlineSum - margin.inlineSum)
    blockSize := b.2.1 }

/-- positioned.rs 264-284: the content rectangle, given the block size of the contents. The inline end anchor is taken from
the block size of the containing block, as in line 266. -/
def absoluteContentRect (cb : DefiniteContainingBlock) (sizes : AbsoluteSizes) (contentsBlockSize : Rat) : Rect Rat :=
  let pb := sizes.padding.add sizes.border
  let cbbs := cb.size.block
  let blockSize := sizes.blockSize.autoIs contentsBlockSize
  { startCorner :=
    { inline := match sizes.inlineAnchor with
        | .start start => start + pb.inlineStart + sizes.margin.inlineStart
        | .end e => cbbs - e - pb.inlineEnd - sizes.margin.inlineEnd - sizes.inlineSize
      block := match sizes.blockAnchor with
        | .start start => start + pb.blockStart + sizes.margin.blockStart
        | .end e => cbbs - e - pb.blockEnd - sizes.margin.blockEnd - blockSize }
    size := ⟨sizes.inlineSize, blockSize⟩ }

/-- The schedules of a whole layout: that of the element at the root of the oracle is `s []`, and `sub s k` are the schedules
of the `k`-th nested layout. Nothing is assumed of it, so it stands for every way in which the thread pool can divide the
work at every container. -/
abbrev Oracle := List Nat → Schedule

/-- See `Oracle`. -/
def Oracle.sub (s : Oracle) (k : Nat) : Oracle := fun path => s (k :: path)

/-- flow/mod.rs 52-78, `BlockFormattingContext::layout`, after the layout of its contents. -/
def FlowChildren.finishBlockFormattingContext (c : FlowChildren) : FlowChildren :=
  { c with
    blockSize := c.blockSize + c.collapsibleMarginsInChildren.end.solve
    collapsibleMarginsInChildren := ⟨false, c.collapsibleMarginsInChildren.start, .zero⟩ }

/-- Maps the first component. -/
def mapFst {α β γ : Type} (f : α → γ) : Option (α × β) → Option (γ × β)
  | some (a, b) => some (f a, b)
  | none => none

mutual

/-- flow/mod.rs 82-103, `BlockContainer::layout`. The fuel bounds the nesting. -/
def layoutContainer {Err : Type} (F : FontApi Rat Err) :
    (fuel : Nat) → Oracle → BlockContainer → ContainingBlock → (treeRank : Nat) → Absolutes → (floats collapsible : Bool) →
    Option (FlowChildren × Absolutes)
  | 0, _, _, _, _, _, _, _ => none
  | fuel + 1, s, c, cb, treeRank, absolute, floats, collapsible =>
    match c with
    | .blockLevelBoxes boxes =>
      layoutChildren (s [])
        (fun rank b absolute => layoutBox F fuel (s.sub rank) b cb rank absolute floats) boxes treeRank absolute floats collapsible
    | .inlineFormattingContext boxes => layoutInline F boxes cb treeRank absolute

/-- flow/mod.rs 240-289, `BlockLevelBox::layout`. -/
def layoutBox {Err : Type} (F : FontApi Rat Err) :
    (fuel : Nat) → Oracle → BlockLevelBox → ContainingBlock → (treeRank : Nat) → Absolutes → (floats : Bool) →
    Option (Fragment × Absolutes)
  | 0, _, _, _, _, _, _ => none
  | fuel + 1, s, b, cb, treeRank, absolute, floats =>
    match b with
    | .sameFormattingContextBlock style contents =>
      layoutInFlow cb absolute style .sameFormattingContextBlock
        (fun cb absolute collapsible => layoutContainer F fuel (s.sub 0) contents cb treeRank absolute floats collapsible)
        (fun cb k a => layoutAbsolute F fuel (s.sub (k + 1)) cb a)
    | .independent style containsFloats contents =>
      layoutInFlow cb absolute style .establishesAnIndependentFormattingContext
        (fun cb absolute _ => mapFst FlowChildren.finishBlockFormattingContext
          (layoutContainer F fuel (s.sub 0) contents cb treeRank absolute containsFloats false))
        (fun cb k a => layoutAbsolute F fuel (s.sub (k + 1)) cb a)
    | .outOfFlowAbsolutelyPositioned style containsFloats contents =>
      some (.noOp cb.mode,
        absolute ++ [AbsolutelyPositionedBox.layout ⟨style, ⟨contents, containsFloats⟩⟩ Vec2.zero treeRank])
    | .outOfFlowFloat _ _ _ => some (.noOp cb.mode, absolute)

/-- positioned.rs 115-303, `AbsolutelyPositionedFragment::layout`. -/
def layoutAbsolute {Err : Type} (F : FontApi Rat Err) :
    (fuel : Nat) → Oracle → DefiniteContainingBlock → AbsolutelyPositionedFragment → Option Fragment
  | 0, _, _, _ => none
  | fuel + 1, s, cb, a =>
    let sizes := absoluteSizes cb a
    let cbForChildren : ContainingBlock := ⟨sizes.inlineSize, sizes.blockSize, writingMode a.box.style⟩
    if cb.mode ≠ cbForChildren.mode then none
    else
      match mapFst FlowChildren.finishBlockFormattingContext
        (layoutContainer F fuel (s.sub 0) a.box.contents.contents cbForChildren 0 [] a.box.contents.containsFloats false) with
      | none => none
      | some (children, absolute) =>
        let contentRect := absoluteContentRect cb sizes children.blockSize
        match inPositionedContainingBlock (fun cb k a => layoutAbsolute F fuel (s.sub (k + 1)) cb a) absolute
          children.fragments contentRect.size sizes.padding cbForChildren.mode with
        | none => none
        | some fragments =>
          some (.box ⟨a.box.style, contentRect, sizes.padding, sizes.border, sizes.margin, .zero⟩ fragments)

end

/-- flow/mod.rs 52-78, `BlockFormattingContext::layout`. -/
def BlockFormattingContext.layout {Err : Type} (F : FontApi Rat Err) (fuel : Nat) (s : Oracle) (bfc : BlockFormattingContext)
    (cb : ContainingBlock) (treeRank : Nat) (absolute : Absolutes) : Option (FlowChildren × Absolutes) :=
  mapFst FlowChildren.finishBlockFormattingContext
    (layoutContainer F fuel s bfc.contents cb treeRank absolute bfc.containsFloats false)

/-- flow/root.rs 88-121, `BoxTreeRoot::layout`. -/
def layoutRoot {Err : Type} (F : FontApi Rat Err) (fuel : Nat) (s : Oracle) (root : BlockFormattingContext)
    (viewport : Vec2 Rat) : Option (List Fragment) :=
  match root.layout F fuel (s.sub 0) ⟨viewport.inline, .length viewport.block, (.horizontalTb, .ltr)⟩ 0 [] with
  | none => none
  | some (children, absolute) =>
    match layoutAll (fun k a => layoutAbsolute F fuel (s.sub (k + 1)) ⟨viewport, (.horizontalTb, .ltr)⟩ a) 0 absolute with
    | none => none
    | some fragments => some (children.fragments ++ fragments)

end Verif.Layout
