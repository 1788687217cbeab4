/- With exact numbers the model of layout with any arithmetic is the model with exact numbers. -/
import Verif.Layout.MachinePaint
import Verif.Layout.MachineSpec
namespace Verif.Layout.Machine
open Verif.Style Verif.Text

attribute [local instance 10] exactNumbers

theorem exact_gt (a b : Rat) : (Numbers.gt a b = true) ↔ a > b := decide_eq_true_iff
theorem exact_nonNeg (a : Rat) : (Numbers.nonNeg a = true) ↔ a ≥ 0 := decide_eq_true_iff
theorem exact_isZero (a : Rat) : (Numbers.isZero a = true) ↔ a = 0 := decide_eq_true_iff

def ofLength : Style.LengthOrPercentage → LengthOrPercentage Rat
  | .length l => .length l
  | .percentage p => .percentage p
def ofLengthOrAuto : Style.LengthOrPercentageOrAuto → LengthOrPercentageOrAuto Rat
  | .length l => .length l
  | .percentage p => .percentage p
  | .auto => .auto
def ofAuto : Layout.LengthOrAuto → LengthOrAuto Rat
  | .length l => .length l
  | .auto => .auto
def ofMargin (m : Layout.CollapsedMargin) : CollapsedMargin Rat := ⟨m.maxPositive, m.minNegative⟩
def ofMargins (m : Layout.CollapsedBlockMargins) : CollapsedBlockMargins Rat := ⟨m.collapsedThrough, ofMargin m.start, ofMargin m.end⟩
def ofInfo (b : Layout.BoxInfo) : BoxInfo Rat :=
  ⟨b.style, b.contentRect, b.padding, b.border, b.margin, ofMargins b.blockMarginsCollapsedWithChildren⟩
mutual
/-- The same fragment with the types of the other model. -/
def ofFragment : Layout.Fragment → Fragment Rat
  | .box info children => .box (ofInfo info) (ofFragments children)
  | .anonymous rect children mode => .anonymous rect (ofFragments children) mode
  | .text style rect segment => .text style rect segment
/-- See `ofFragment`. -/
def ofFragments : List Layout.Fragment → List (Fragment Rat)
  | [] => []
  | f :: fs => ofFragment f :: ofFragments fs
end
theorem ofFragments_eq (fs : List Layout.Fragment) : ofFragments fs = fs.map ofFragment := by
  induction fs with
  | nil => rfl
  | cons f fs ih => simp [ofFragments, ih]
def ofOffsets : Layout.AbsoluteBoxOffsets → AbsoluteBoxOffsets Rat
  | .staticStart s => .staticStart s
  | .start s => .start (ofLength s)
  | .end e => .end (ofLength e)
  | .both s e => .both (ofLength s) (ofLength e)
def ofAbsolute (a : Layout.AbsolutelyPositionedFragment) : AbsolutelyPositionedFragment Rat :=
  ⟨a.box, a.treeRank, ofOffsets a.inlineStart, ofLengthOrAuto a.inlineSize, ofOffsets a.blockStart, ofLengthOrAuto a.blockSize⟩
def ofAbsolutes (as : Layout.Absolutes) : Absolutes Rat := as.map ofAbsolute
def ofCb (cb : Layout.ContainingBlock) : ContainingBlock Rat := ⟨cb.inlineSize, ofAuto cb.blockSize, cb.mode⟩
def ofDefinite (cb : Layout.DefiniteContainingBlock) : DefiniteContainingBlock Rat := ⟨cb.size, cb.mode⟩
def ofChildren (c : Layout.FlowChildren) : FlowChildren Rat :=
  ⟨c.fragments.map ofFragment, c.blockSize, ofMargins c.collapsibleMarginsInChildren⟩

/-! ### Lengths -/

theorem of_lp (v : Style.LengthOrPercentage) (r : Rat) : percentageRelativeTo (ofLength v) r = Layout.percentageRelativeTo v r := by
  cases v <;> rfl
theorem of_lpa (v : Style.LengthOrPercentageOrAuto) (r : Rat) :
    autoPercentageRelativeTo (ofLengthOrAuto v) r = ofAuto (Layout.autoPercentageRelativeTo v r) := by
  cases v <;> rfl
theorem of_autoIs (v : Layout.LengthOrAuto) (a : Rat) : (ofAuto v).autoIs a = v.autoIs a := by cases v <;> rfl

theorem of_padding (s : ComputedValues) (r : Rat) :
    (Numbers.lengths (R := Rat) s).padding.resolve r = (Layout.padding s).percentagesRelativeTo r := by
  show (⟨_, _, _, _⟩ : Sides Rat) = ⟨_, _, _, _⟩
  congr 1 <;> exact of_lp _ r
theorem of_border (s : ComputedValues) (r : Rat) :
    (Numbers.lengths (R := Rat) s).border.resolve r = (Layout.borderWidth s).percentagesRelativeTo r := by
  show (⟨_, _, _, _⟩ : Sides Rat) = ⟨_, _, _, _⟩
  congr 1 <;> exact of_lp _ r
def ofSidesAuto (s : Sides Layout.LengthOrAuto) : Sides (LengthOrAuto Rat) := s.map ofAuto
theorem of_margin (s : ComputedValues) (r : Rat) :
    (Numbers.lengths (R := Rat) s).margin.resolveAuto r = ofSidesAuto ((Layout.margin s).autoPercentagesRelativeTo r) := by
  show (⟨_, _, _, _⟩ : Sides (LengthOrAuto Rat)) = ⟨_, _, _, _⟩
  congr 1 <;> exact of_lpa _ r
theorem of_whenAuto (s : Sides Layout.LengthOrAuto) : (ofSidesAuto s).whenAuto 0 = s.autoIs 0 := by
  show (⟨_, _, _, _⟩ : Sides Rat) = ⟨_, _, _, _⟩
  congr 1 <;> exact of_autoIs _ 0
theorem of_offsets (s : ComputedValues) : (Numbers.lengths (R := Rat) s).offsets = (Layout.boxOffsets s).map ofLengthOrAuto := rfl
theorem of_size (s : ComputedValues) : (Numbers.lengths (R := Rat) s).size =
    ⟨ofLengthOrAuto (Layout.boxSize s).inline, ofLengthOrAuto (Layout.boxSize s).block⟩ := rfl
theorem of_fontSize (s : ComputedValues) : (Numbers.lengths (R := Rat) s).fontSize = Layout.fontSizeOf s := rfl
theorem of_plus (a b : Sides Rat) : a.plus b = a.add b := rfl
theorem of_inlineTotal (a : Sides Rat) : a.inlineTotal = a.inlineSum := rfl
theorem of_blockTotal (a : Sides Rat) : a.blockTotal = a.blockSum := rfl
theorem of_solve (m : Layout.CollapsedMargin) : (ofMargin m).solve = m.solve := rfl
theorem of_adjoin (a b : Layout.CollapsedMargin) : (ofMargin a).adjoin (ofMargin b) = ofMargin (a.adjoin b) := rfl

theorem of_relative (s : ComputedValues) (i : Rat) (b : Layout.LengthOrAuto) :
    relativeAdjustement s i (ofAuto b) = Layout.relativeAdjustement s i b := by
  have ha : ∀ x y, adjust (ofAuto x) (ofAuto y) = Layout.adjust x y := by
    intro x y
    cases x <;> cases y <;> rfl
  unfold relativeAdjustement Layout.relativeAdjustement
  split
  · show (⟨_, _⟩ : Vec2 Rat) = ⟨_, _⟩
    rw [of_autoIs]
    congr 1
    · exact (congrArg₂ adjust (of_lpa _ i) (of_lpa _ i)).trans (ha _ _)
    · exact (congrArg₂ adjust (of_lpa _ _) (of_lpa _ _)).trans (ha _ _)
  · rfl

theorem of_absoluteLayout (b : AbsolutelyPositionedBox) (corner : Vec2 Rat) (rank : Nat) :
    layoutAbsoluteBox b corner rank = ofAbsolute (b.layout corner rank) := by
  have ho : ∀ i s e, absoluteBoxOffsets i (ofLengthOrAuto s) (ofLengthOrAuto e) = ofOffsets (Layout.absoluteBoxOffsets i s e) := by
    intro i s e
    cases s <;> cases e <;> rfl
  simp only [layoutAbsoluteBox, AbsolutelyPositionedBox.layout, ofAbsolute, of_offsets, of_size, Sides.map]
  congr 1
  · exact ho _ _ _
  · exact ho _ _ _

/-! ### Lines -/

theorem of_shapeLine {Err : Type} (F : FontApi Rat Err) (size available : Rat) (chars : List Nat) (shaped : ShapedSegment Rat)
    (last : Option (ShapedSegmentState Rat × List Nat)) :
    shapeLine F size available chars shaped last = Layout.shapeLine F size available chars shaped last := by
  induction chars generalizing shaped last with
  | nil =>
    simp only [shapeLine, Layout.shapeLine, exact_gt]
    split
    · cases last <;> rfl
    · rfl
  | cons c cs ih =>
    simp only [shapeLine, Layout.shapeLine, exact_gt, ih]
    split
    · cases last <;> rfl
    · rcases ShapedSegment.appendChar F shaped c with ⟨_, _ | _⟩ <;> rfl

def ofLevel (l : Layout.NestingLevel) : NestingLevel Rat :=
  ⟨l.remainingBoxes, l.fragmentsSoFar.map ofFragment, l.inlineStart, l.maxBlockSize⟩
def ofPartial (p : Layout.PartialInlineBox) : PartialInlineBox Rat :=
  ⟨p.style, p.startCorner, p.padding, p.border, p.margin, p.lastBoxTreeFragment, ofLevel p.parentNestingLevel⟩
def ofLines (l : Layout.LinesBoxes) : LinesBoxes Rat := ⟨l.boxes.map ofFragment, l.nextLineBlockPosition⟩
def ofInlineState (s : Layout.InlineState) : InlineState Rat :=
  ⟨ofLines s.lineBoxes, s.inlinePosition, s.stack.map ofPartial, ofLevel s.current⟩

theorem of_finishLine (lines : Layout.LinesBoxes) (top : Layout.NestingLevel) (cb : Layout.ContainingBlock) :
    finishLine (ofLines lines) (ofLevel top) (ofCb cb) =
      (ofLines (Layout.finishLine lines top cb).1, ofLevel (Layout.finishLine lines top cb).2) := by
  simp only [finishLine, Layout.finishLine, ofLines, ofLevel, ofCb, List.map_append, List.map_cons, List.map_nil, ofFragment, ofFragments_eq]

theorem of_startInlineBox (cb : Layout.ContainingBlock) (style : ComputedValues) (first last : Bool) (children : List InlineLevelBox)
    (s : Layout.InlineState) :
    startInlineBox (ofCb cb) style first last children (ofInlineState s) =
      ofInlineState (Layout.startInlineBox cb style first last children s) := by
  have hr := of_relative style cb.inlineSize cb.blockSize
  cases first
  all_goals
    simp only [startInlineBox, Layout.startInlineBox, ofCb, of_padding, of_border, of_margin, of_whenAuto, hr]
    rfl

theorem of_finish (p : Layout.PartialInlineBox) (level : Layout.NestingLevel) (position : Rat) (atBreak : Bool) :
    (ofPartial p).finish (ofLevel level) position atBreak =
      (ofPartial (p.finish level position atBreak).1, ofLevel (p.finish level position atBreak).2.1,
        (p.finish level position atBreak).2.2) := by
  simp only [PartialInlineBox.finish, Layout.PartialInlineBox.finish]
  rw [show (ofPartial p).lastBoxTreeFragment = p.lastBoxTreeFragment from rfl]
  cases p.lastBoxTreeFragment && !atBreak
  all_goals
    simp only [Bool.false_eq_true, if_false, if_true, ofPartial, ofLevel, List.map_append,
      List.map_cons, List.map_nil, ofFragment, ofFragments_eq, ofInfo]
    rfl

theorem of_pushText (style : ComputedValues) (shaped : ShapedSegment Rat) (s : Layout.InlineState) :
    pushText style shaped (ofInlineState s) = ofInlineState (Layout.pushText style shaped s) := by
  simp only [pushText, Layout.pushText, of_fontSize, ofInlineState, ofLevel, List.map_append, List.map_cons, List.map_nil, ofFragment]
  rfl

theorem of_breakLine (cb : Layout.ContainingBlock) (stack : List Layout.PartialInlineBox) (level : Layout.NestingLevel) (position : Rat)
    (lines : Layout.LinesBoxes) :
    breakLine (ofCb cb) (stack.map ofPartial) (ofLevel level) position (ofLines lines) =
      ((Layout.breakLine cb stack level position lines).1.map ofPartial, ofLevel (Layout.breakLine cb stack level position lines).2.1,
        ofLines (Layout.breakLine cb stack level position lines).2.2) := by
  induction stack generalizing level position with
  | nil =>
    have h := of_finishLine lines { level with inlineStart := 0 } cb
    simp only [List.map_nil, breakLine, Layout.breakLine]
    exact congrArg (fun r : LinesBoxes Rat × NestingLevel Rat => (([] : List (PartialInlineBox Rat)), r.2, r.1)) h
  | cons p rest ih =>
    have h := of_finish p { level with inlineStart := 0 } position true
    simp only [List.map_cons, breakLine, Layout.breakLine]
    rw [show ({ ofLevel level with inlineStart := 0 } : NestingLevel Rat) = ofLevel { level with inlineStart := 0 } from rfl, h]
    dsimp only
    rw [show (ofPartial (p.finish { level with inlineStart := 0 } position true).1).parentNestingLevel =
      ofLevel (p.finish { level with inlineStart := 0 } position true).1.parentNestingLevel from rfl, ih]
    rfl

theorem of_textLines {Err : Type} (F : FontApi Rat Err) (cb : Layout.ContainingBlock) (style : ComputedValues) (available : Rat) (fuel : Nat)
    (chars : List Nat) (s : Layout.InlineState) :
    textLines F (ofCb cb) style available fuel chars (ofInlineState s) =
      (Layout.textLines F cb style available fuel chars s).map ofInlineState := by
  induction fuel generalizing chars s with
  | zero => rfl
  | succ fuel ih =>
    simp only [textLines, Layout.textLines, of_fontSize, of_shapeLine, of_pushText]
    rcases Layout.shapeLine F (fontSizeOf style) available chars (ShapedSegment.new F) none with _ | ⟨shaped, rest⟩
    · rfl
    · dsimp only
      split
      · rfl
      · generalize Layout.pushText style shaped s = s1
        have hb := of_breakLine cb s1.stack s1.current s1.inlinePosition s1.lineBoxes
        simp only [ofInlineState] at hb ⊢
        rw [hb]
        exact ih rest ⟨(Layout.breakLine cb s1.stack s1.current s1.inlinePosition s1.lineBoxes).2.2, 0,
          (Layout.breakLine cb s1.stack s1.current s1.inlinePosition s1.lineBoxes).1,
          (Layout.breakLine cb s1.stack s1.current s1.inlinePosition s1.lineBoxes).2.1⟩

theorem of_layoutTextRun {Err : Type} (F : FontApi Rat Err) (cb : Layout.ContainingBlock) (style : ComputedValues) (text : List Nat)
    (s : Layout.InlineState) :
    layoutTextRun F (ofCb cb) style text (ofInlineState s) = (Layout.layoutTextRun F cb style text s).map ofInlineState :=
  of_textLines F cb style (cb.inlineSize - s.inlinePosition) (text.length + 1) text s

def ofResult (r : Layout.FlowChildren × Layout.Absolutes) : FlowChildren Rat × Absolutes Rat := (ofChildren r.1, ofAbsolutes r.2)

theorem of_inlineLoop {Err : Type} (F : FontApi Rat Err) (cb : Layout.ContainingBlock) (rank fuel : Nat) (s : Layout.InlineState)
    (as : Layout.Absolutes) :
    inlineLoop F (ofCb cb) rank fuel (ofInlineState s) (ofAbsolutes as) = (Layout.inlineLoop F cb rank fuel s as).map ofResult := by
  induction fuel generalizing s as with
  | zero => rfl
  | succ fuel ih =>
    obtain ⟨lines, position, stack, ⟨remaining, fragments, start, size⟩⟩ := s
    rcases remaining with _ | ⟨b, bs⟩
    · rcases stack with _ | ⟨p, stack⟩
      · have hz := of_finishLine lines ⟨[], fragments, start, size⟩ cb
        simp only [inlineLoop, inlineStep, Layout.inlineLoop, Layout.inlineStep, ofInlineState, ofLevel, List.map_nil] at hz ⊢
        rw [hz]
        rfl
      · have hz := of_finish p ⟨[], fragments, start, size⟩ position false
        have hi := ih ⟨lines, (p.finish ⟨[], fragments, start, size⟩ position false).2.2, stack,
          (p.finish ⟨[], fragments, start, size⟩ position false).1.parentNestingLevel⟩ as
        simp only [inlineLoop, inlineStep, Layout.inlineLoop, Layout.inlineStep, ofInlineState, ofLevel, List.map_cons] at hz hi ⊢
        rw [hz]
        exact hi
    · cases b with
      | inlineBox style first last children =>
        have hz := of_startInlineBox cb style first last children ⟨lines, position, stack, ⟨bs, fragments, start, size⟩⟩
        have hi := ih (Layout.startInlineBox cb style first last children ⟨lines, position, stack, ⟨bs, fragments, start, size⟩⟩) as
        rw [← hz] at hi
        exact hi
      | textRun style text =>
        have hz := of_layoutTextRun F cb style text ⟨lines, position, stack, ⟨bs, fragments, start, size⟩⟩
        simp only [inlineLoop, inlineStep, Layout.inlineLoop, Layout.inlineStep, ofInlineState, ofLevel] at hz ⊢
        rw [hz]
        rcases Layout.layoutTextRun F cb style text ⟨lines, position, stack, ⟨bs, fragments, start, size⟩⟩ with _ | s1
        · rfl
        · exact ih s1 as
      | outOfFlowAbsolutelyPositioned style floats contents =>
        simp only [inlineLoop, inlineStep, Layout.inlineLoop, Layout.inlineStep, ofInlineState, ofLevel]
        have hs : staticInlineStart (R := Rat) style position = Layout.staticInlineStart style position := by
          unfold staticInlineStart Layout.staticInlineStart
          cases style.specifiedDisplay with
          | generatingBox o i => cases o <;> rfl
          | _ => rfl
        rw [hs]
        rcases Layout.staticInlineStart style position with _ | i
        · rfl
        · have hi := ih ⟨lines, position, stack, ⟨bs, fragments, start, size⟩⟩
            (as ++ [AbsolutelyPositionedBox.layout ⟨style, ⟨contents, floats⟩⟩ ⟨i, lines.nextLineBlockPosition⟩ rank])
          rw [ofAbsolutes, List.map_append, List.map_cons, List.map_nil, ← of_absoluteLayout] at hi
          exact hi
      | outOfFlowFloat style floats contents => exact ih ⟨lines, position, stack, ⟨bs, fragments, start, size⟩⟩ as

theorem of_layoutInline {Err : Type} (F : FontApi Rat Err) (boxes : List InlineLevelBox) (cb : Layout.ContainingBlock) (rank : Nat)
    (as : Layout.Absolutes) :
    layoutInline F boxes (ofCb cb) rank (ofAbsolutes as) = (Layout.layoutInline F boxes cb rank as).map ofResult :=
  of_inlineLoop F cb rank (costs boxes + 1) (Layout.initialInlineState boxes) as

/-! ### Blocks -/

def ofPlacement (s : Layout.PlacementState) : PlacementState Rat :=
  ⟨s.nextInFlowMarginCollapsesWithParentStartMargin, ofMargin s.startMargin, ofMargin s.currentMargin, s.currentBlockDirectionPosition⟩

theorem of_placeFragment (s : Layout.PlacementState) (f : Layout.Fragment) :
    placeFragment (ofPlacement s) (ofFragment f) = (Layout.placeFragment s f).map fun r => (ofFragment r.1, ofPlacement r.2) := by
  obtain ⟨n, start, current, pos⟩ := s
  cases f with
  | text => rfl
  | anonymous rect children mode =>
    simp only [ofFragment, placeFragment, Layout.placeFragment, ofFragments_eq, List.isEmpty_map, ofPlacement, exact_isZero]
    split
    · simp only [Option.map_some, ofFragment, ofFragments_eq]
    · rfl
  | box b children =>
    obtain ⟨style, rect, pad, bor, mar, ⟨through, ms, me⟩⟩ := b
    simp only [ofFragment, placeFragment, Layout.placeFragment, ofPlacement, ofInfo, ofMargins, of_solve, exact_isZero]
    cases n <;> cases through <;> simp only [Bool.false_eq_true, if_false, if_true]
    · rfl
    · rfl
    · split
      · rfl
      · rfl
    · split
      · rfl
      · rfl

theorem of_placeAll (s : Layout.PlacementState) (fs : List Layout.Fragment) :
    placeAll (ofPlacement s) (fs.map ofFragment) = (Layout.placeAll s fs).map fun r => (r.1.map ofFragment, ofPlacement r.2) := by
  induction fs generalizing s with
  | nil => rfl
  | cons f fs ih =>
    simp only [List.map_cons, placeAll, Layout.placeAll, of_placeFragment]
    rcases Layout.placeFragment s f with _ | ⟨f1, s1⟩
    · rfl
    · simp only [Option.map_some, ih]
      rcases Layout.placeAll s1 fs with _ | ⟨fs1, s2⟩
      · rfl
      · rfl

/-- The layout of a child in both models. -/
def SameChild (f : Nat → BlockLevelBox → Layout.Absolutes → Option (Layout.Fragment × Layout.Absolutes))
    (f' : Nat → BlockLevelBox → Absolutes Rat → Option (Fragment Rat × Absolutes Rat)) : Prop :=
  ∀ rank b as, f' rank b (ofAbsolutes as) = (f rank b as).map fun r => (ofFragment r.1, ofAbsolutes r.2)

section
variable {f : Nat → BlockLevelBox → Layout.Absolutes → Option (Layout.Fragment × Layout.Absolutes)}
  {f' : Nat → BlockLevelBox → Absolutes Rat → Option (Fragment Rat × Absolutes Rat)} (h : SameChild f f')
include h

theorem of_layoutInOrder (rank : Nat) (bs : List BlockLevelBox) (as : Layout.Absolutes) (s : Layout.PlacementState) :
    layoutInOrder f' rank bs (ofAbsolutes as) (ofPlacement s) =
      (Layout.layoutInOrder f rank bs as s).map fun r => (r.1.map ofFragment, ofAbsolutes r.2.1, ofPlacement r.2.2) := by
  induction bs generalizing rank as s with
  | nil => rfl
  | cons b bs ih =>
    simp only [layoutInOrder, Layout.layoutInOrder, h rank b as]
    rcases f rank b as with _ | ⟨f1, as1⟩
    · rfl
    · simp only [Option.map_some, of_placeFragment]
      rcases Layout.placeFragment s f1 with _ | ⟨f2, s1⟩
      · rfl
      · simp only [Option.map_some, ih]
        rcases Layout.layoutInOrder f (rank + 1) bs as1 s1 with _ | ⟨fs, as2, s2⟩
        · rfl
        · rfl

theorem of_foldTask (rank : Nat) (bs : List BlockLevelBox) (as : Layout.Absolutes) :
    mapfold.foldTask f' rank bs (ofAbsolutes as) =
      (Layout.mapfold.foldTask f rank bs as).map fun r => (r.1.map ofFragment, ofAbsolutes r.2) := by
  induction bs generalizing rank as with
  | nil => rfl
  | cons b bs ih =>
    simp only [mapfold.foldTask, Layout.mapfold.foldTask, h rank b as]
    rcases f rank b as with _ | ⟨f1, as1⟩
    · rfl
    · simp only [Option.map_some, ih]
      rcases Layout.mapfold.foldTask f (rank + 1) bs as1 with _ | ⟨fs, as2⟩
      · rfl
      · rfl

theorem of_mapfold (schedule : Schedule) (rank : Nat) (bs : List BlockLevelBox) :
    mapfold f' schedule rank bs = (Layout.mapfold f schedule rank bs).map fun r => (r.1.map ofFragment, ofAbsolutes r.2) := by
  induction schedule generalizing rank bs with
  | task => exact of_foldTask h rank bs []
  | join cut left right ih1 ih2 =>
    simp only [mapfold, Layout.mapfold, ih1, ih2]
    rcases Layout.mapfold f left rank (bs.take cut) with _ | ⟨fs1, as1⟩
    · rfl
    · rcases Layout.mapfold f right (rank + cut) (bs.drop cut) with _ | ⟨fs2, as2⟩
      · rfl
      · simp [ofAbsolutes]

omit h in
theorem of_adjustStatic (as : Layout.Absolutes) (fs : List Layout.Fragment) (rank : Nat) :
    adjustStaticPositions (ofAbsolutes as) (fs.map ofFragment) rank = (Layout.adjustStaticPositions as fs rank).map ofAbsolutes := by
  induction as with
  | nil => rfl
  | cons a as ih =>
    have ih' : adjustStaticPositions (as.map ofAbsolute) (fs.map ofFragment) rank =
      (Layout.adjustStaticPositions as fs rank).map ofAbsolutes := ih
    simp only [ofAbsolutes, List.map_cons, adjustStaticPositions, Layout.adjustStaticPositions, ih']
    rw [show (ofAbsolute a).treeRank = a.treeRank from rfl, List.getElem?_map]
    rcases fs[a.treeRank]? with _ | f
    · rfl
    · have hr : (ofFragment f).rect? = f.rect? := by cases f <;> rfl
      simp only [Option.map_some, hr]
      rcases f.rect? with _ | r
      · rfl
      · dsimp only
        rcases Layout.adjustStaticPositions as fs rank with _ | as1
        · rfl
        · have ho : ∀ (o : Layout.AbsoluteBoxOffsets) d, (ofOffsets o).moveStatic d = ofOffsets (o.moveStatic d) := by
            intro o d
            cases o <;> rfl
          simp [ofAbsolutes, ofAbsolute, ho]

omit h in
theorem of_finishChildren (as : Layout.Absolutes) (n : Nat) (fs : List Layout.Fragment) (s : Layout.PlacementState) (rank : Nat) :
    finishChildren (ofAbsolutes as) n (fs.map ofFragment) (ofPlacement s) rank = (Layout.finishChildren as n fs s rank).map ofResult := by
  have h := of_adjustStatic (as.drop n) fs rank
  simp only [finishChildren, Layout.finishChildren, ofAbsolutes, ← List.map_drop, ← List.map_take] at h ⊢
  rw [h]
  rcases Layout.adjustStaticPositions (as.drop n) fs rank with _ | as1
  · rfl
  · simp [ofResult, ofChildren, ofPlacement, ofMargins, ofAbsolutes]

theorem of_layoutChildren (schedule : Schedule) (bs : List BlockLevelBox) (rank : Nat) (as : Layout.Absolutes) (floats collapsible : Bool) :
    layoutChildren schedule f' bs rank (ofAbsolutes as) floats collapsible =
      (Layout.layoutChildren schedule f bs rank as floats collapsible).map ofResult := by
  have hi : PlacementState.initial collapsible = ofPlacement (.initial collapsible) := rfl
  have hl : (ofAbsolutes as).length = as.length := by simp [ofAbsolutes]
  cases floats
  · simp only [layoutChildren, Layout.layoutChildren, Bool.false_eq_true, if_false, of_mapfold h]
    rcases Layout.mapfold f schedule 0 bs with _ | ⟨fs, as1⟩
    · rfl
    · simp only [Option.map_some]
      have hp := of_placeAll (.initial collapsible) fs
      rw [← hi] at hp
      rw [hp]
      rcases Layout.placeAll (.initial collapsible) fs with _ | ⟨fs1, s⟩
      · rfl
      · simp only [Option.map_some]
        rw [← of_finishChildren, hl, ofAbsolutes, ofAbsolutes, ofAbsolutes, List.map_append]
  · simp only [layoutChildren, Layout.layoutChildren, if_true]
    have hp := of_layoutInOrder h 0 bs as (.initial collapsible)
    rw [← hi] at hp
    rw [hp]
    rcases Layout.layoutInOrder f 0 bs as (.initial collapsible) with _ | ⟨fs, as1, s⟩
    · rfl
    · simp only [Option.map_some, hl]
      exact of_finishChildren as1 _ fs s rank

end

def ofSizes (s : Layout.InFlowSizes) : InFlowSizes Rat := ⟨s.padding, s.border, s.margin, s.inlineSize, ofAuto s.blockSize⟩

theorem of_inFlowSizes (cb : Layout.ContainingBlock) (style : ComputedValues) :
    inFlowSizes (ofCb cb) style = ofSizes (Layout.inFlowSizes cb style) := by
  have hu : ∀ (v : Style.LengthOrPercentageOrAuto) b, usedBlockSize (ofLengthOrAuto v) (ofAuto b) = ofAuto (Layout.usedBlockSize v b) := by
    intro v b
    cases v <;> cases b <;> rfl
  simp only [inFlowSizes, Layout.inFlowSizes, ofCb, of_padding, of_border, of_margin, of_size, of_lpa, hu, of_plus, of_inlineTotal]
  rcases Layout.autoPercentageRelativeTo (boxSize style).inline cb.inlineSize with is | _
  · generalize (margin style).autoPercentagesRelativeTo cb.inlineSize = m
    obtain ⟨a, b, c, d⟩ := m
    cases a <;> cases b <;> cases c <;> cases d <;> rfl
  · simp only [ofAuto, ofSizes, of_whenAuto]
    rfl

theorem of_collapse (m : Sides Rat) (canStart canEnd : Bool) (c : Layout.CollapsedBlockMargins) (size : Rat) :
    collapseWithChildren m canStart canEnd (ofMargins c) size =
      (ofMargins (Layout.collapseWithChildren m canStart canEnd c size).1, (Layout.collapseWithChildren m canStart canEnd c size).2) := by
  obtain ⟨through, cs, ce⟩ := c
  cases canStart <;> cases canEnd <;> cases through <;> rfl

/-- The layout of an absolutely positioned fragment in both models. -/
def SameAbsolute (f : Layout.DefiniteContainingBlock → Nat → Layout.AbsolutelyPositionedFragment → Option Layout.Fragment)
    (f' : DefiniteContainingBlock Rat → Nat → AbsolutelyPositionedFragment Rat → Option (Fragment Rat)) : Prop :=
  ∀ cb i a, f' (ofDefinite cb) i (ofAbsolute a) = (f cb i a).map ofFragment

theorem of_layoutAll {f : Nat → Layout.AbsolutelyPositionedFragment → Option Layout.Fragment}
    {f' : Nat → AbsolutelyPositionedFragment Rat → Option (Fragment Rat)} (h : ∀ i a, f' i (ofAbsolute a) = (f i a).map ofFragment) (i : Nat)
    (as : Layout.Absolutes) : layoutAll f' i (ofAbsolutes as) = (Layout.layoutAll f i as).map (·.map ofFragment) := by
  induction as generalizing i with
  | nil => rfl
  | cons a as ih =>
    have ih' := ih (i + 1)
    simp only [ofAbsolutes, List.map_cons, layoutAll, Layout.layoutAll, h] at ih' ⊢
    rw [ih']
    rcases f i a with _ | f1
    · rfl
    · rcases Layout.layoutAll f (i + 1) as with _ | fs
      · rfl
      · rfl

theorem of_inPositioned {f : Layout.DefiniteContainingBlock → Nat → Layout.AbsolutelyPositionedFragment → Option Layout.Fragment}
    {f' : DefiniteContainingBlock Rat → Nat → AbsolutelyPositionedFragment Rat → Option (Fragment Rat)} (h : SameAbsolute f f')
    (as : Layout.Absolutes) (fs : List Layout.Fragment) (size : Vec2 Rat) (p : Sides Rat) (mode : Mode) :
    inPositionedContainingBlock f' (ofAbsolutes as) (fs.map ofFragment) size p mode =
      (Layout.inPositionedContainingBlock f as fs size p mode).map (·.map ofFragment) := by
  cases as with
  | nil => rfl
  | cons a as =>
    have hr : (⟨Vec2.origin, size⟩ : Rect Rat).grow p = (⟨Vec2.zero, size⟩ : Rect Rat).inflate p := rfl
    have hl := of_layoutAll (h ⟨((⟨Vec2.zero, size⟩ : Rect Rat).inflate p).size, mode⟩) 0 (a :: as)
    simp only [ofAbsolutes, List.map_cons, inPositionedContainingBlock, Layout.inPositionedContainingBlock, hr] at hl ⊢
    have hd : (⟨((⟨Vec2.zero, size⟩ : Rect Rat).inflate p).size, mode⟩ : DefiniteContainingBlock Rat) =
      ofDefinite ⟨((⟨Vec2.zero, size⟩ : Rect Rat).inflate p).size, mode⟩ := rfl
    rw [hd, hl]
    rcases Layout.layoutAll (f ⟨((⟨Vec2.zero, size⟩ : Rect Rat).inflate p).size, mode⟩) 0 (a :: as) with _ | gs
    · rfl
    · simp [ofFragment, ofFragments_eq]

theorem of_layoutInFlow {g : Layout.ContainingBlock → Layout.Absolutes → Bool → Option (Layout.FlowChildren × Layout.Absolutes)}
    {g' : ContainingBlock Rat → Absolutes Rat → Bool → Option (FlowChildren Rat × Absolutes Rat)}
    {f : Layout.DefiniteContainingBlock → Nat → Layout.AbsolutelyPositionedFragment → Option Layout.Fragment}
    {f' : DefiniteContainingBlock Rat → Nat → AbsolutelyPositionedFragment Rat → Option (Fragment Rat)} (hf : SameAbsolute f f')
    (hg : ∀ cb as c, g' (ofCb cb) (ofAbsolutes as) c = (g cb as c).map ofResult)
    (cb : Layout.ContainingBlock) (as : Layout.Absolutes) (style : ComputedValues) (kind : BlockLevelKind) :
    layoutInFlow (ofCb cb) (ofAbsolutes as) style kind g' f' =
      (Layout.layoutInFlow cb as style kind g f).map fun r => (ofFragment r.1, ofAbsolutes r.2) := by
  simp only [layoutInFlow, Layout.layoutInFlow, of_inFlowSizes]
  generalize Layout.inFlowSizes cb style = sizes
  rw [show (ofCb cb).mode = cb.mode from rfl]
  split
  · rfl
  · have e1 : (ofSizes sizes).padding.plus (ofSizes sizes).border = sizes.padding.add sizes.border := rfl
    have e2 : (ofSizes sizes).blockSize.isAuto = decide (sizes.blockSize = .auto) := by
      simp only [ofSizes]
      cases sizes.blockSize <;> simp [ofAuto, LengthOrAuto.isAuto]
    have e5 : (if (positionOf style).isRelativelyPositioned = true then [] else ofAbsolutes as) =
      ofAbsolutes (if (positionOf style).isRelativelyPositioned = true then [] else as) := by split <;> rfl
    have e6 : (⟨(ofSizes sizes).inlineSize, (ofSizes sizes).blockSize, writingMode style⟩ : ContainingBlock Rat) =
      ofCb ⟨sizes.inlineSize, sizes.blockSize, writingMode style⟩ := rfl
    have e7 : ∀ x : Rat, Numbers.isZero x = decide (x = 0) := fun _ => rfl
    simp only [e1, e2, e5, e6, e7, hg]
    generalize (sizes.padding.add sizes.border) = pb
    rcases g ⟨sizes.inlineSize, sizes.blockSize, writingMode style⟩ (if (positionOf style).isRelativelyPositioned = true then [] else as)
      (decide (kind = .sameFormattingContextBlock) && decide (pb.blockStart = 0)) with _ | ⟨children, as1⟩
    · rfl
    · simp only [Option.map_some, ofResult]
      rw [show (ofSizes sizes).margin = sizes.margin from rfl, show (ofSizes sizes).inlineSize = sizes.inlineSize from rfl,
        show (ofSizes sizes).blockSize = ofAuto sizes.blockSize from rfl, show (ofSizes sizes).padding = sizes.padding from rfl,
        show (ofSizes sizes).border = sizes.border from rfl]
      simp only [ofChildren, of_collapse, of_relative, of_autoIs]
      split
      · rw [of_inPositioned hf]
        split
        · rename_i h1
          rw [Option.map_eq_none_iff] at h1
          erw [h1]
          rfl
        · rename_i h1
          obtain ⟨fs, h2, rfl⟩ := Option.map_eq_some_iff.1 h1
          erw [h2]
          simp [ofFragment, ofFragments_eq, ofInfo]
      · simp [ofFragment, ofFragments_eq, ofInfo]

def ofAnchor : Layout.Anchor → Anchor Rat
  | .start s => .start s
  | .end e => .end e
def ofAbsoluteSizes (s : Layout.AbsoluteSizes) : AbsoluteSizes Rat :=
  ⟨s.padding, s.border, s.margin, ofAnchor s.inlineAnchor, ofAnchor s.blockAnchor, s.inlineSize, ofAuto s.blockSize⟩

theorem of_solveAxis (solve : Rat → Rat × Rat) (size pb : Rat) (ms me : Layout.LengthOrAuto) (o : Layout.AbsoluteBoxOffsets)
    (v : Style.LengthOrPercentageOrAuto) :
    solveAxis size pb (ofAuto ms) (ofAuto me) solve (ofOffsets o) (ofLengthOrAuto v) =
      (ofAnchor (Layout.solveAxis size pb ms me solve o v).1, ofAuto (Layout.solveAxis size pb ms me solve o v).2.1,
        (Layout.solveAxis size pb ms me solve o v).2.2.1, (Layout.solveAxis size pb ms me solve o v).2.2.2) := by
  simp only [solveAxis, Layout.solveAxis, of_lpa]
  rcases Layout.autoPercentageRelativeTo v size with l | _ <;> cases o <;> cases ms <;> cases me <;>
    simp only [ofOffsets, of_lp] <;> rfl

theorem of_absoluteSizes (cb : Layout.DefiniteContainingBlock) (a : Layout.AbsolutelyPositionedFragment) :
    absoluteSizes (ofDefinite cb) (ofAbsolute a) = ofAbsoluteSizes (Layout.absoluteSizes cb a) := by
  obtain ⟨⟨style, c⟩, rank, ois, isz, obs, bsz⟩ := a
  simp only [absoluteSizes, Layout.absoluteSizes, ofDefinite, ofAbsolute, of_padding, of_border, of_margin, of_plus, of_inlineTotal,
    of_blockTotal, exact_nonNeg]
  generalize (margin style).autoPercentagesRelativeTo cb.size.inline = m
  have h1 := of_solveAxis (fun margins : Rat => if margins ≥ 0 then (margins / 2, margins / 2) else (0, margins))
    cb.size.inline (((padding style).percentagesRelativeTo cb.size.inline).add ((borderWidth style).percentagesRelativeTo cb.size.inline)).inlineSum
    m.inlineStart m.inlineEnd ois isz
  have h2 := of_solveAxis (fun margins : Rat => (margins / 2, margins / 2))
    cb.size.inline (((padding style).percentagesRelativeTo cb.size.inline).add ((borderWidth style).percentagesRelativeTo cb.size.inline)).blockSum
    m.blockStart m.blockEnd obs bsz
  simp only [ofSidesAuto, Sides.map]
  erw [h1, h2]
  generalize Layout.solveAxis cb.size.inline _ _ _ _ ois isz = r1
  generalize Layout.solveAxis cb.size.inline _ _ _ _ obs bsz = r2
  obtain ⟨x1, x2, x3, x4⟩ := r1
  obtain ⟨y1, y2, y3, y4⟩ := r2
  cases x1 <;> simp only [ofAbsoluteSizes, ofAnchor, of_autoIs] <;> rfl

theorem of_absoluteContentRect (cb : Layout.DefiniteContainingBlock) (s : Layout.AbsoluteSizes) (size : Rat) :
    absoluteContentRect (ofDefinite cb) (ofAbsoluteSizes s) size = Layout.absoluteContentRect cb s size := by
  simp only [absoluteContentRect, Layout.absoluteContentRect, ofAbsoluteSizes, of_autoIs, ofDefinite]
  cases s.inlineAnchor <;> cases s.blockAnchor <;> rfl

theorem of_mapFst (r : Option (Layout.FlowChildren × Layout.Absolutes)) :
    mapFst FlowChildren.finishBlockFormattingContext (r.map ofResult) =
      (mapFst Layout.FlowChildren.finishBlockFormattingContext r).map ofResult := by
  rcases r with _ | ⟨c, as⟩ <;> rfl

theorem of_layout {Err : Type} (F : FontApi Rat Err) (fuel : Nat) :
    (∀ s c cb rank as floats collapsible, layoutContainer F fuel s c (ofCb cb) rank (ofAbsolutes as) floats collapsible =
      (Layout.layoutContainer F fuel s c cb rank as floats collapsible).map ofResult) ∧
    (∀ s b cb rank as floats, layoutBox F fuel s b (ofCb cb) rank (ofAbsolutes as) floats =
      (Layout.layoutBox F fuel s b cb rank as floats).map fun r => (ofFragment r.1, ofAbsolutes r.2)) ∧
    (∀ s cb a, layoutAbsolute F fuel s (ofDefinite cb) (ofAbsolute a) = (Layout.layoutAbsolute F fuel s cb a).map ofFragment) := by
  induction fuel with
  | zero =>
    refine ⟨?_, ?_, ?_⟩ <;> intros <;>
      simp only [layoutContainer, layoutBox, layoutAbsolute, Layout.layoutContainer, Layout.layoutBox, Layout.layoutAbsolute, Option.map_none]
  | succ fuel ih =>
    obtain ⟨ih1, ih2, ih3⟩ := ih
    refine ⟨?_, ?_, ?_⟩
    · intro s c cb rank as floats collapsible
      cases c with
      | blockLevelBoxes boxes =>
        simp only [layoutContainer, Layout.layoutContainer]
        exact of_layoutChildren (fun rank b as => ih2 _ b cb rank as floats) _ boxes rank as floats collapsible
      | inlineFormattingContext boxes =>
        simp only [layoutContainer, Layout.layoutContainer]
        exact of_layoutInline F boxes cb rank as
    · intro s b cb rank as floats
      cases b with
      | sameFormattingContextBlock style contents =>
        simp only [layoutBox, Layout.layoutBox]
        exact of_layoutInFlow (fun cb i a => ih3 _ cb a) (fun cb as c => ih1 _ contents cb rank as floats c) cb as style _
      | independent style containsFloats contents =>
        simp only [layoutBox, Layout.layoutBox]
        refine of_layoutInFlow (fun cb i a => ih3 _ cb a) (fun cb as c => ?_) cb as style _
        rw [ih1, of_mapFst]
      | outOfFlowAbsolutelyPositioned style containsFloats contents =>
        have h := of_absoluteLayout ⟨style, ⟨contents, containsFloats⟩⟩ Vec2.zero rank
        simp only [layoutBox, Layout.layoutBox, Option.map_some, ofAbsolutes, List.map_append, List.map_cons, List.map_nil, ← h]
        rfl
      | outOfFlowFloat style containsFloats contents =>
        simp only [layoutBox, Layout.layoutBox]
        rfl
    · intro s cb a
      simp only [layoutAbsolute, Layout.layoutAbsolute, of_absoluteSizes]
      rw [show (ofDefinite cb).mode = cb.mode from rfl, show (ofAbsolute a).box = a.box from rfl]
      split
      · rfl
      · have h1 := ih1 (s.sub 0) a.box.contents.contents
          ⟨(Layout.absoluteSizes cb a).inlineSize, (Layout.absoluteSizes cb a).blockSize, writingMode a.box.style⟩
          0 [] a.box.contents.containsFloats false
        have h2 := congrArg (mapFst FlowChildren.finishBlockFormattingContext) h1
        rw [of_mapFst] at h2
        rw [show (⟨(ofAbsoluteSizes (Layout.absoluteSizes cb a)).inlineSize, (ofAbsoluteSizes (Layout.absoluteSizes cb a)).blockSize,
            writingMode a.box.style⟩ : ContainingBlock Rat) =
          ofCb ⟨(Layout.absoluteSizes cb a).inlineSize, (Layout.absoluteSizes cb a).blockSize, writingMode a.box.style⟩ from rfl]
        rw [show ([] : Absolutes Rat) = ofAbsolutes [] from rfl, h2]
        rcases mapFst Layout.FlowChildren.finishBlockFormattingContext (Layout.layoutContainer F fuel (s.sub 0) a.box.contents.contents
          ⟨(Layout.absoluteSizes cb a).inlineSize, (Layout.absoluteSizes cb a).blockSize, writingMode a.box.style⟩
          0 [] a.box.contents.containsFloats false) with _ | ⟨c, as⟩
        · rfl
        · simp only [Option.map_some, ofResult]
          rw [show (ofChildren c).blockSize = c.blockSize from rfl, of_absoluteContentRect]
          have h3 := of_inPositioned (f := fun cb i a => Layout.layoutAbsolute F fuel (s.sub (i + 1)) cb a)
            (f' := fun cb i a => layoutAbsolute F fuel (s.sub (i + 1)) cb a) (fun cb i a => ih3 _ cb a) as c.fragments
            (Layout.absoluteContentRect cb (Layout.absoluteSizes cb a) c.blockSize).size (Layout.absoluteSizes cb a).padding
            (writingMode a.box.style)
          rw [show (ofChildren c).fragments = c.fragments.map ofFragment from rfl,
            show (ofAbsoluteSizes (Layout.absoluteSizes cb a)).padding = (Layout.absoluteSizes cb a).padding from rfl, h3]
          rcases Layout.inPositionedContainingBlock (fun cb i a => Layout.layoutAbsolute F fuel (s.sub (i + 1)) cb a) as c.fragments
            (Layout.absoluteContentRect cb (Layout.absoluteSizes cb a) c.blockSize).size (Layout.absoluteSizes cb a).padding
            (writingMode a.box.style) with _ | fs
          · rfl
          · simp only [Option.map_some, ofFragment, ofFragments_eq]
            rfl

theorem of_layoutRoot {Err : Type} (F : FontApi Rat Err) (fuel : Nat) (s : Oracle) (root : BlockFormattingContext) (viewport : Vec2 Rat) :
    layoutRoot F fuel s root viewport = (Layout.layoutRoot F fuel s root viewport).map (·.map ofFragment) := by
  obtain ⟨h1, -, h3⟩ := of_layout F fuel
  have h4 : mapFst FlowChildren.finishBlockFormattingContext (layoutContainer F fuel (s.sub 0) root.contents
      ⟨viewport.inline, .length viewport.block, (.horizontalTb, .ltr)⟩ 0 [] root.containsFloats false) = _ := congrArg (mapFst FlowChildren.finishBlockFormattingContext)
    (h1 (s.sub 0) root.contents ⟨viewport.inline, .length viewport.block, (.horizontalTb, .ltr)⟩ 0 [] root.containsFloats false)
  rw [of_mapFst] at h4
  unfold layoutRoot layoutContext Layout.layoutRoot BlockFormattingContext.layout
  rw [h4]
  rcases mapFst Layout.FlowChildren.finishBlockFormattingContext (Layout.layoutContainer F fuel (s.sub 0) root.contents
    ⟨viewport.inline, .length viewport.block, (.horizontalTb, .ltr)⟩ 0 [] root.containsFloats false) with _ | ⟨c, as⟩
  · rfl
  · have h5 := of_layoutAll (f := fun i a => Layout.layoutAbsolute F fuel (s.sub (i + 1)) ⟨viewport, (.horizontalTb, .ltr)⟩ a)
      (f' := fun i a => layoutAbsolute F fuel (s.sub (i + 1)) ⟨viewport, (.horizontalTb, .ltr)⟩ a)
      (fun i a => h3 _ ⟨viewport, (.horizontalTb, .ltr)⟩ a) 0 as
    simp only [Option.map_some, ofResult, h5]
    rcases Layout.layoutAll (fun i a => Layout.layoutAbsolute F fuel (s.sub (i + 1)) ⟨viewport, (.horizontalTb, .ltr)⟩ a) 0 as with _ | fs
    · rfl
    · simp [ofChildren]

/-! ### Painting -/

/-- The painter of the other model, with exact numbers. -/
def exactPainter {E : Type} (P : Painter Rat E) : Layout.Painter Rat E := ⟨P.floats, P.round, P.fontAddress, P.fontView, P.ascender⟩

section
variable {E : Type} (P : Painter Rat E) (hround : P.round = id)
include hround

theorem of_paintRect (s : Painting Rat) (r : PRect Rat) : paintRect P s r = Layout.paintRect (exactPainter P) s r := by
  simp [paintRect, Layout.paintRect, exactPainter, hround]

theorem of_paintText (s : Painting Rat) (text : ShapedSegment Rat) (size : Rat) (origin : PVec2 Rat) :
    paintText P s text size origin = Layout.paintText (exactPainter P) s text size origin := by
  simp only [paintText, Layout.paintText, exactPainter, hround, id]
  rcases Verif.Pdf.showText P.floats s.1 s.2 P.fontAddress P.fontView text.glyphs size origin.x origin.y with ⟨_, _, _ | _⟩ <;> rfl

theorem of_paintBackground (s : Painting Rat) (info : Layout.BoxInfo) (cb : PRect Rat) :
    paintBackground P s (ofInfo info) cb = Layout.paintBackground (exactPainter P) s info cb := by
  simp only [paintBackground, Layout.paintBackground]
  rw [show (ofInfo info).style = info.style from rfl, show (ofInfo info).borderRect = info.borderRect from rfl]
  split
  · rcases info.borderRect.toPhysical (writingMode info.style) with _ | r
    · rfl
    · exact congrArg some (of_paintRect P hround _ _)
  · rfl

mutual
theorem of_paintFragment (cb : PRect Rat) (s : Painting Rat) : ∀ f : Layout.Fragment,
    paintFragment P cb s (ofFragment f) = Layout.paintFragment (exactPainter P) cb s f
  | .box info children => by
    simp only [ofFragment, paintFragment, Layout.paintFragment, of_paintBackground P hround]
    rcases Layout.paintBackground (exactPainter P) s info cb with _ | s1
    · rfl
    · rw [show (ofInfo info).style = info.style from rfl, show (ofInfo info).contentRect = info.contentRect from rfl]
      rcases info.contentRect.toPhysical (writingMode info.style) with _ | r
      · rfl
      · exact of_paintFragments _ s1 children
  | .anonymous rect children mode => by
    simp only [ofFragment, paintFragment, Layout.paintFragment]
    rcases rect.toPhysical mode with _ | r
    · rfl
    · exact of_paintFragments _ s children
  | .text style rect text => by
    simp only [ofFragment, paintFragment, Layout.paintFragment]
    rcases rect.toPhysical (writingMode style) with _ | r
    · rfl
    · exact of_paintText P hround _ text _ _
theorem of_paintFragments (cb : PRect Rat) (s : Painting Rat) : ∀ fs : List Layout.Fragment,
    paintFragments P cb s (ofFragments fs) = Layout.paintFragments (exactPainter P) cb s fs
  | [] => by simp only [ofFragments, paintFragments, Layout.paintFragments]
  | f :: fs => by
    simp only [ofFragments, paintFragments, Layout.paintFragments, of_paintFragment cb s f]
    rcases Layout.paintFragment (exactPainter P) cb s f with _ | s1
    · rfl
    · exact of_paintFragments cb s1 fs
end

theorem of_paintDocument (fs : List Layout.Fragment) :
    paintDocument P (fs.map ofFragment) = Layout.paintDocument (exactPainter P) fs := by
  rw [← ofFragments_eq]
  have h := of_paintFragments P hround ⟨⟨0, 0⟩, ⟨600, 800⟩⟩
    (Verif.Pdf.Doc.new, Verif.Pdf.Page.new P.floats (P.round 600) (P.round 800)) fs
  simp only [paintDocument, Layout.paintDocument]
  rw [show (⟨⟨0, 0⟩, ⟨P.round 600, P.round 800⟩⟩ : PRect Rat) = ⟨⟨0, 0⟩, ⟨600, 800⟩⟩ by rw [hround]; rfl]
  erw [h]
  rfl

end

theorem of_toPdfBytes {σ E Err : Type} (P : Painter Rat E) (hround : P.round = id) (engine : Engine σ) (font : FontApi Rat Err)
    (d : Verif.Dom.Document) (fuel : Nat) (schedule : Oracle) :
    toPdfBytes P engine font d fuel schedule = Layout.toPdfBytes (exactPainter P) engine font d fuel schedule := by
  have hl : layoutDocument engine font d fuel schedule ⟨P.round 600, P.round 800⟩ =
      (Layout.layoutDocument engine font d fuel schedule ⟨600, 800⟩).map (·.map ofFragment) := by
    simp only [layoutDocument, Layout.layoutDocument, hround, id]
    rcases constructDocument engine d fuel with _ | root
    · rfl
    · exact of_layoutRoot font fuel schedule root _
  simp only [toPdfBytes, Layout.toPdfBytes, hl]
  rcases Layout.layoutDocument engine font d fuel schedule ⟨600, 800⟩ with _ | fs
  · rfl
  · simp only [Option.map_some, of_paintDocument P hround]
    rcases Layout.paintDocument (exactPainter P) fs with _ | doc <;> rfl

end Verif.Layout.Machine
