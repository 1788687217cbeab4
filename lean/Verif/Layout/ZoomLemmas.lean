/- Layout commutes with multiplying all lengths. -/
import Verif.Layout.ZoomSpec
import Verif.Layout.Flow
import Mathlib.Tactic.Ring
import Mathlib.Tactic.Linarith
import Mathlib.Algebra.Order.Field.Basic
namespace Verif.Layout
open Verif.Style Verif.Text

section
variable (k : Rat)

def zoomAuto : LengthOrAuto → LengthOrAuto
  | .length l => .length (k * l)
  | .auto => .auto
def zoomRect (r : Rect Rat) : Rect Rat := ⟨zoomVec k r.startCorner, zoomVec k r.size⟩
def zoomSides (s : Sides Rat) : Sides Rat := ⟨k * s.inlineStart, k * s.inlineEnd, k * s.blockStart, k * s.blockEnd⟩
def zoomMargin (m : CollapsedMargin) : CollapsedMargin := ⟨k * m.maxPositive, k * m.minNegative⟩
def zoomMargins (m : CollapsedBlockMargins) : CollapsedBlockMargins := ⟨m.collapsedThrough, zoomMargin k m.start, zoomMargin k m.end⟩
def zoomInfo (b : BoxInfo) : BoxInfo :=
  ⟨zoomStyle k b.style, zoomRect k b.contentRect, zoomSides k b.padding, zoomSides k b.border, zoomSides k b.margin,
    zoomMargins k b.blockMarginsCollapsedWithChildren⟩
mutual
def zoomFragment : Fragment → Fragment
  | .box info children => .box (zoomInfo k info) (zoomFragments children)
  | .anonymous rect children mode => .anonymous (zoomRect k rect) (zoomFragments children) mode
  | .text style rect segment => .text (zoomStyle k style) (zoomRect k rect) segment
def zoomFragments : List Fragment → List Fragment
  | [] => []
  | f :: fs => zoomFragment f :: zoomFragments fs
end
theorem zoomFragments_eq (fs : List Fragment) : zoomFragments k fs = fs.map (zoomFragment k) := by
  induction fs with
  | nil => rfl
  | cons f fs ih => simp [zoomFragments, ih]
mutual
def zoomContainer : BlockContainer → BlockContainer
  | .blockLevelBoxes boxes => .blockLevelBoxes (zoomBoxes boxes)
  | .inlineFormattingContext boxes => .inlineFormattingContext (zoomInlines boxes)
def zoomBox : BlockLevelBox → BlockLevelBox
  | .sameFormattingContextBlock s c => .sameFormattingContextBlock (zoomStyle k s) (zoomContainer c)
  | .outOfFlowAbsolutelyPositioned s f c => .outOfFlowAbsolutelyPositioned (zoomStyle k s) f (zoomContainer c)
  | .outOfFlowFloat s f c => .outOfFlowFloat (zoomStyle k s) f (zoomContainer c)
  | .independent s f c => .independent (zoomStyle k s) f (zoomContainer c)
def zoomBoxes : List BlockLevelBox → List BlockLevelBox
  | [] => []
  | b :: bs => zoomBox b :: zoomBoxes bs
def zoomInline : InlineLevelBox → InlineLevelBox
  | .inlineBox s f l children => .inlineBox (zoomStyle k s) f l (zoomInlines children)
  | .textRun s t => .textRun (zoomStyle k s) t
  | .outOfFlowAbsolutelyPositioned s f c => .outOfFlowAbsolutelyPositioned (zoomStyle k s) f (zoomContainer c)
  | .outOfFlowFloat s f c => .outOfFlowFloat (zoomStyle k s) f (zoomContainer c)
def zoomInlines : List InlineLevelBox → List InlineLevelBox
  | [] => []
  | b :: bs => zoomInline b :: zoomInlines bs
end
theorem zoomBoxes_eq (bs : List BlockLevelBox) : zoomBoxes k bs = bs.map (zoomBox k) := by
  induction bs with
  | nil => rw [zoomBoxes]; rfl
  | cons b bs ih => rw [zoomBoxes, ih]; rfl
theorem zoomInlines_eq (bs : List InlineLevelBox) : zoomInlines k bs = bs.map (zoomInline k) := by
  induction bs with
  | nil => rw [zoomInlines]; rfl
  | cons b bs ih => rw [zoomInlines, ih]; rfl
def zoomContext (c : BlockFormattingContext) : BlockFormattingContext := ⟨zoomContainer k c.contents, c.containsFloats⟩
def zoomOffsets : AbsoluteBoxOffsets → AbsoluteBoxOffsets
  | .staticStart s => .staticStart (k * s)
  | .start s => .start (zoomLength k s)
  | .end e => .end (zoomLength k e)
  | .both s e => .both (zoomLength k s) (zoomLength k e)
def zoomAbsolute (a : AbsolutelyPositionedFragment) : AbsolutelyPositionedFragment :=
  ⟨⟨zoomStyle k a.box.style, zoomContext k a.box.contents⟩, a.treeRank, zoomOffsets k a.inlineStart, zoomLengthOrAuto k a.inlineSize,
    zoomOffsets k a.blockStart, zoomLengthOrAuto k a.blockSize⟩
def zoomAbsolutes (as : Absolutes) : Absolutes := as.map (zoomAbsolute k)
def zoomCb (cb : ContainingBlock) : ContainingBlock := ⟨k * cb.inlineSize, zoomAuto k cb.blockSize, cb.mode⟩
def zoomDefinite (cb : DefiniteContainingBlock) : DefiniteContainingBlock := ⟨zoomVec k cb.size, cb.mode⟩
def zoomChildren (c : FlowChildren) : FlowChildren :=
  ⟨c.fragments.map (zoomFragment k), k * c.blockSize, zoomMargins k c.collapsibleMarginsInChildren⟩

/-! ### Lengths -/

theorem zoom_lp (v : LengthOrPercentage) (r : Rat) : percentageRelativeTo (zoomLength k v) (k * r) = k * percentageRelativeTo v r := by
  cases v <;> simp only [zoomLength, percentageRelativeTo]
  ring
theorem zoom_lpa (v : LengthOrPercentageOrAuto) (r : Rat) :
    autoPercentageRelativeTo (zoomLengthOrAuto k v) (k * r) = zoomAuto k (autoPercentageRelativeTo v r) := by
  cases v <;> simp only [zoomLengthOrAuto, autoPercentageRelativeTo, zoomAuto]
  rw [mul_assoc]
theorem zoom_nonAuto (v : LengthOrPercentageOrAuto) : nonAuto (zoomLengthOrAuto k v) = (nonAuto v).map (zoomLength k) := by
  cases v <;> rfl
theorem zoom_autoIs (v : LengthOrAuto) (a : Rat) : (zoomAuto k v).autoIs (k * a) = k * v.autoIs a := by cases v <;> rfl
theorem zoom_autoIs_zero (v : LengthOrAuto) : (zoomAuto k v).autoIs 0 = k * v.autoIs 0 := by
  have := zoom_autoIs k v 0
  rwa [mul_zero] at this

theorem zoom_padding (s : ComputedValues) (r : Rat) :
    (padding (zoomStyle k s)).percentagesRelativeTo (k * r) = zoomSides k ((padding s).percentagesRelativeTo r) := by
  show (⟨_, _, _, _⟩ : Sides Rat) = ⟨_, _, _, _⟩
  congr 1 <;> exact zoom_lp k _ r
theorem zoom_border (s : ComputedValues) (r : Rat) :
    (borderWidth (zoomStyle k s)).percentagesRelativeTo (k * r) = zoomSides k ((borderWidth s).percentagesRelativeTo r) := by
  show (⟨_, _, _, _⟩ : Sides Rat) = ⟨_, _, _, _⟩
  congr 1 <;> exact zoom_lp k _ r
def zoomSidesAuto (s : Sides LengthOrAuto) : Sides LengthOrAuto := s.map (zoomAuto k)
theorem zoom_margin (s : ComputedValues) (r : Rat) :
    (margin (zoomStyle k s)).autoPercentagesRelativeTo (k * r) = zoomSidesAuto k ((margin s).autoPercentagesRelativeTo r) := by
  show (⟨_, _, _, _⟩ : Sides LengthOrAuto) = ⟨_, _, _, _⟩
  congr 1 <;> exact zoom_lpa k _ r
theorem zoomSides_autoIs (s : Sides LengthOrAuto) : (zoomSidesAuto k s).autoIs 0 = zoomSides k (s.autoIs 0) := by
  show (⟨_, _, _, _⟩ : Sides Rat) = ⟨_, _, _, _⟩
  congr 1 <;> exact zoom_autoIs_zero k _
theorem zoomSides_add (a b : Sides Rat) : (zoomSides k a).add (zoomSides k b) = zoomSides k (a.add b) := by
  simp only [zoomSides, Sides.add, mul_add]
theorem zoomSides_inlineSum (a : Sides Rat) : (zoomSides k a).inlineSum = k * a.inlineSum := by simp only [zoomSides, Sides.inlineSum, mul_add]
theorem zoomSides_blockSum (a : Sides Rat) : (zoomSides k a).blockSum = k * a.blockSum := by simp only [zoomSides, Sides.blockSum, mul_add]
theorem zoomVec_add (a b : Vec2 Rat) : (zoomVec k a).add (zoomVec k b) = zoomVec k (a.add b) := by simp only [zoomVec, Vec2.add, mul_add]
theorem zoomVec_zero : zoomVec k Vec2.zero = Vec2.zero := by simp [zoomVec, Vec2.zero]
theorem zoomMargin_zero : zoomMargin k .zero = .zero := by simp [zoomMargin, CollapsedMargin.zero]
theorem zoomMargins_zero : zoomMargins k .zero = .zero := by simp [zoomMargins, CollapsedBlockMargins.zero, zoomMargin_zero]
theorem zoomMargin_solve (m : CollapsedMargin) : (zoomMargin k m).solve = k * m.solve := by
  simp only [zoomMargin, CollapsedMargin.solve, mul_add]
theorem zoomFragment_noOp (mode : Mode) : zoomFragment k (.noOp mode) = .noOp mode := by
  simp [Fragment.noOp, zoomFragment, zoomFragments, zoomRect, Rect.zero, zoomVec_zero]

theorem zoom_relative (s : ComputedValues) (i : Rat) (b : LengthOrAuto) :
    relativeAdjustement (zoomStyle k s) (k * i) (zoomAuto k b) = zoomVec k (relativeAdjustement s i b) := by
  have ha : ∀ x y, adjust (zoomAuto k x) (zoomAuto k y) = k * adjust x y := by
    intro x y
    cases x <;> cases y <;> simp [adjust, zoomAuto]
  unfold relativeAdjustement
  rw [show positionOf (zoomStyle k s) = positionOf s from rfl]
  split
  · show (⟨_, _⟩ : Vec2 Rat) = ⟨_, _⟩
    rw [zoom_autoIs_zero]
    congr 1
    · exact (congrArg₂ adjust (zoom_lpa k _ i) (zoom_lpa k _ i)).trans (ha _ _)
    · exact (congrArg₂ adjust (zoom_lpa k _ _) (zoom_lpa k _ _)).trans (ha _ _)
  · rw [zoomVec_zero]

theorem zoom_absoluteLayout (style : ComputedValues) (c : BlockContainer) (f : Bool) (corner : Vec2 Rat) (rank : Nat) :
    AbsolutelyPositionedBox.layout ⟨zoomStyle k style, ⟨zoomContainer k c, f⟩⟩ (zoomVec k corner) rank =
      zoomAbsolute k (AbsolutelyPositionedBox.layout ⟨style, ⟨c, f⟩⟩ corner rank) := by
  have ho : ∀ i s e, absoluteBoxOffsets (k * i) (zoomLengthOrAuto k s) (zoomLengthOrAuto k e) = zoomOffsets k (absoluteBoxOffsets i s e) := by
    intro i s e
    cases s <;> cases e <;> rfl
  simp only [AbsolutelyPositionedBox.layout, zoomAbsolute, zoomContext]
  congr 1
  · exact ho _ _ _
  · exact ho _ _ _

mutual
theorem zoom_cost : ∀ b : InlineLevelBox, (zoomInline k b).cost = b.cost
  | .inlineBox _ _ _ children => by rw [zoomInline, InlineLevelBox.cost, InlineLevelBox.cost, zoom_costs children]
  | .textRun _ _ => by rw [zoomInline, InlineLevelBox.cost, InlineLevelBox.cost]
  | .outOfFlowAbsolutelyPositioned _ _ _ => by rw [zoomInline, InlineLevelBox.cost, InlineLevelBox.cost]
  | .outOfFlowFloat _ _ _ => by rw [zoomInline, InlineLevelBox.cost, InlineLevelBox.cost]
theorem zoom_costs : ∀ bs : List InlineLevelBox, costs (zoomInlines k bs) = costs bs
  | [] => by rw [zoomInlines]
  | b :: bs => by rw [zoomInlines, costs, costs, zoom_cost b, zoom_costs bs]
end

end

section
variable {k : Rat} (hk : 0 < k)
include hk

theorem zoom_max (a b : Rat) : max (k * a) (k * b) = k * max a b := (mul_max_of_nonneg a b hk.le).symm
theorem zoom_min (a b : Rat) : min (k * a) (k * b) = k * min a b := (mul_min_of_nonneg a b hk.le).symm
theorem zoom_eq_zero (a : Rat) : (k * a = 0) = (a = 0) := by simp [hk.ne']
theorem zoom_lt (a b : Rat) : (k * a < k * b) = (a < b) := by simp [hk]

theorem zoomMargin_new (m : Rat) : CollapsedMargin.new (k * m) = zoomMargin k (.new m) := by
  have h1 := zoom_max hk m 0
  have h2 := zoom_min hk m 0
  rw [mul_zero] at h1 h2
  simp only [CollapsedMargin.new, zoomMargin, h1, h2]
theorem zoomMargin_adjoin (a b : CollapsedMargin) : (zoomMargin k a).adjoin (zoomMargin k b) = zoomMargin k (a.adjoin b) := by
  simp only [CollapsedMargin.adjoin, zoomMargin, zoom_max hk, zoom_min hk]

/-! ### Lines -/

theorem zoom_shapeLine {Err : Type} (F : FontApi Rat Err) (size available : Rat) (chars : List Nat) (shaped : ShapedSegment Rat)
    (last : Option (ShapedSegmentState Rat × List Nat)) :
    shapeLine F (k * size) (k * available) chars shaped last = shapeLine F size available chars shaped last := by
  have h : ∀ w : Rat, (k * size * w > k * available) = (size * w > available) := by
    intro w
    rw [mul_assoc]
    exact zoom_lt hk _ _
  induction chars generalizing shaped last with
  | nil => simp only [shapeLine, h]
  | cons c cs ih => simp only [shapeLine, h, ih]

def zoomLevel (k : Rat) (l : NestingLevel) : NestingLevel :=
  ⟨zoomInlines k l.remainingBoxes, l.fragmentsSoFar.map (zoomFragment k), k * l.inlineStart, k * l.maxBlockSize⟩
def zoomPartial (k : Rat) (p : PartialInlineBox) : PartialInlineBox :=
  ⟨zoomStyle k p.style, zoomVec k p.startCorner, zoomSides k p.padding, zoomSides k p.border, zoomSides k p.margin, p.lastBoxTreeFragment,
    zoomLevel k p.parentNestingLevel⟩
def zoomLines (k : Rat) (l : LinesBoxes) : LinesBoxes := ⟨l.boxes.map (zoomFragment k), k * l.nextLineBlockPosition⟩
def zoomInlineState (k : Rat) (s : InlineState) : InlineState :=
  ⟨zoomLines k s.lineBoxes, k * s.inlinePosition, s.stack.map (zoomPartial k), zoomLevel k s.current⟩

omit hk in
theorem zoom_finishLine (lines : LinesBoxes) (top : NestingLevel) (cb : ContainingBlock) :
    finishLine (zoomLines k lines) (zoomLevel k top) (zoomCb k cb) =
      (zoomLines k (finishLine lines top cb).1, zoomLevel k (finishLine lines top cb).2) := by
  simp [finishLine, zoomLines, zoomLevel, zoomCb, zoomFragment, zoomFragments_eq, zoomRect, zoomVec, mul_add]

omit hk in
theorem zoomSides_withoutStart (s : Sides Rat) : (zoomSides k s).withoutInlineStart = zoomSides k s.withoutInlineStart := by
  simp [zoomSides, Sides.withoutInlineStart]
omit hk in
theorem zoomSides_withoutEnd (s : Sides Rat) : (zoomSides k s).withoutInlineEnd = zoomSides k s.withoutInlineEnd := by
  simp [zoomSides, Sides.withoutInlineEnd]

omit hk in
theorem zoom_startInlineBox (cb : ContainingBlock) (style : ComputedValues) (first last : Bool) (children : List InlineLevelBox)
    (s : InlineState) :
    startInlineBox (zoomCb k cb) (zoomStyle k style) first last (zoomInlines k children) (zoomInlineState k s) =
      zoomInlineState k (startInlineBox cb style first last children s) := by
  have hr := zoom_relative k style cb.inlineSize cb.blockSize
  cases first
  all_goals
    simp only [startInlineBox, zoomCb, zoom_padding, zoom_border, zoom_margin, zoomSides_autoIs, zoomSides_withoutStart, hr]
    simp only [zoomInlineState, List.map_cons, zoomPartial, Bool.false_eq_true, if_false, if_true, zoomLevel, List.map_nil, mul_zero]
    simp only [zoomSides, zoomVec, Vec2.add]
    congr 1
  · congr 2
    simp only [Vec2.mk.injEq]
    constructor <;> ring
  · ring
  · congr 2
    simp only [Vec2.mk.injEq]
    constructor <;> ring
  · congr 1
    ring

theorem zoom_finish (p : PartialInlineBox) (level : NestingLevel) (position : Rat) (atBreak : Bool) :
    (zoomPartial k p).finish (zoomLevel k level) (k * position) atBreak =
      (zoomPartial k (p.finish level position atBreak).1, zoomLevel k (p.finish level position atBreak).2.1,
        k * (p.finish level position atBreak).2.2) := by
  simp only [PartialInlineBox.finish]
  rw [show (zoomPartial k p).lastBoxTreeFragment = p.lastBoxTreeFragment from rfl]
  cases p.lastBoxTreeFragment && !atBreak
  all_goals
    simp only [Bool.false_eq_true, if_false, if_true, zoomPartial, zoomLevel, zoomSides_withoutEnd, zoomSides_blockSum, List.map_append,
      List.map_cons, List.map_nil, zoomFragment, zoomFragments_eq, zoomInfo, zoomRect, zoomMargins_zero]
    simp only [← mul_add, zoom_max hk]
    simp only [zoomVec, zoomSides, mul_sub]
  simp only [mul_add]

theorem zoom_pushText (style : ComputedValues) (shaped : ShapedSegment Rat) (s : InlineState) :
    pushText (zoomStyle k style) shaped (zoomInlineState k s) = zoomInlineState k (pushText style shaped s) := by
  have hf : fontSizeOf (zoomStyle k style) = k * fontSizeOf style := rfl
  simp only [pushText, hf, zoomInlineState, zoomLevel, mul_assoc, zoom_max hk, List.map_append, List.map_cons, List.map_nil, zoomFragment,
    zoomRect, zoomVec, mul_add, mul_sub, mul_zero]

theorem zoom_breakLine (cb : ContainingBlock) (stack : List PartialInlineBox) (level : NestingLevel) (position : Rat) (lines : LinesBoxes) :
    breakLine (zoomCb k cb) (stack.map (zoomPartial k)) (zoomLevel k level) (k * position) (zoomLines k lines) =
      ((breakLine cb stack level position lines).1.map (zoomPartial k), zoomLevel k (breakLine cb stack level position lines).2.1,
        zoomLines k (breakLine cb stack level position lines).2.2) := by
  have h0 : ∀ l : NestingLevel, { zoomLevel k l with inlineStart := 0 } = zoomLevel k { l with inlineStart := 0 } := by
    intro l
    simp [zoomLevel]
  induction stack generalizing level position with
  | nil =>
    simp only [List.map_nil, breakLine, h0, zoom_finishLine]
  | cons p rest ih =>
    simp only [List.map_cons, breakLine, h0, zoom_finish hk]
    have h1 : ∀ q : PartialInlineBox, (zoomPartial k q).parentNestingLevel = zoomLevel k q.parentNestingLevel := fun _ => rfl
    simp only [h1, ih, Prod.mk.injEq, and_true]
    simp [zoomPartial, zoomVec, zoomSides_withoutStart]

theorem zoom_textLines {Err : Type} (F : FontApi Rat Err) (cb : ContainingBlock) (style : ComputedValues) (available : Rat) (fuel : Nat)
    (chars : List Nat) (s : InlineState) :
    textLines F (zoomCb k cb) (zoomStyle k style) (k * available) fuel chars (zoomInlineState k s) =
      (textLines F cb style available fuel chars s).map (zoomInlineState k) := by
  have hf : fontSizeOf (zoomStyle k style) = k * fontSizeOf style := rfl
  induction fuel generalizing chars s with
  | zero => rfl
  | succ fuel ih =>
    simp only [textLines, hf, zoom_shapeLine hk, zoom_pushText hk]
    rcases shapeLine F (fontSizeOf style) available chars (ShapedSegment.new F) none with _ | ⟨shaped, rest⟩
    · rfl
    · dsimp only
      split
      · rfl
      · generalize pushText style shaped s = s1
        have hb := zoom_breakLine hk cb s1.stack s1.current s1.inlinePosition s1.lineBoxes
        simp only [zoomInlineState] at hb ⊢
        rw [hb]
        have := ih rest ⟨(breakLine cb s1.stack s1.current s1.inlinePosition s1.lineBoxes).2.2, 0,
          (breakLine cb s1.stack s1.current s1.inlinePosition s1.lineBoxes).1,
          (breakLine cb s1.stack s1.current s1.inlinePosition s1.lineBoxes).2.1⟩
        simp only [zoomInlineState, mul_zero] at this
        exact this

theorem zoom_layoutTextRun {Err : Type} (F : FontApi Rat Err) (cb : ContainingBlock) (style : ComputedValues) (text : List Nat) (s : InlineState) :
    layoutTextRun F (zoomCb k cb) (zoomStyle k style) text (zoomInlineState k s) = (layoutTextRun F cb style text s).map (zoomInlineState k) := by
  have h := zoom_textLines hk F cb style (cb.inlineSize - s.inlinePosition) (text.length + 1) text s
  rw [mul_sub] at h
  exact h

def zoomResult (k : Rat) (r : FlowChildren × Absolutes) : FlowChildren × Absolutes := (zoomChildren k r.1, zoomAbsolutes k r.2)

theorem zoom_inlineLoop {Err : Type} (F : FontApi Rat Err) (cb : ContainingBlock) (rank fuel : Nat) (s : InlineState) (as : Absolutes) :
    inlineLoop F (zoomCb k cb) rank fuel (zoomInlineState k s) (zoomAbsolutes k as) =
      (inlineLoop F cb rank fuel s as).map (zoomResult k) := by
  induction fuel generalizing s as with
  | zero => rfl
  | succ fuel ih =>
    obtain ⟨lines, position, stack, ⟨remaining, fragments, start, size⟩⟩ := s
    rcases remaining with _ | ⟨b, bs⟩
    · rcases stack with _ | ⟨p, stack⟩
      · have hz := zoom_finishLine (k := k) lines ⟨[], fragments, start, size⟩ cb
        simp only [inlineLoop, inlineStep, zoomInlineState, zoomLevel, zoomInlines, List.map_nil] at hz ⊢
        rw [hz]
        simp [zoomResult, zoomChildren, zoomLines, zoomMargins_zero]
      · have hz := zoom_finish hk p ⟨[], fragments, start, size⟩ position false
        have hi := ih ⟨lines, (p.finish ⟨[], fragments, start, size⟩ position false).2.2, stack,
          (p.finish ⟨[], fragments, start, size⟩ position false).1.parentNestingLevel⟩ as
        simp only [inlineLoop, inlineStep, zoomInlineState, zoomLevel, zoomInlines, List.map_cons] at hz hi ⊢
        rw [hz]
        exact hi
    · cases b with
      | inlineBox style first last children =>
        have hz := zoom_startInlineBox (k := k) cb style first last children ⟨lines, position, stack, ⟨bs, fragments, start, size⟩⟩
        have hi := ih (startInlineBox cb style first last children ⟨lines, position, stack, ⟨bs, fragments, start, size⟩⟩) as
        rw [← hz] at hi
        simp only [inlineLoop, inlineStep, zoomInlineState, zoomLevel, zoomInlines, zoomInline] at hi ⊢
        exact hi
      | textRun style text =>
        have hz := zoom_layoutTextRun hk F cb style text ⟨lines, position, stack, ⟨bs, fragments, start, size⟩⟩
        simp only [inlineLoop, inlineStep, zoomInlineState, zoomLevel, zoomInlines, zoomInline] at hz ⊢
        rw [hz]
        rcases layoutTextRun F cb style text ⟨lines, position, stack, ⟨bs, fragments, start, size⟩⟩ with _ | s1
        · rfl
        · exact ih s1 as
      | outOfFlowAbsolutelyPositioned style floats contents =>
        simp only [inlineLoop, inlineStep, zoomInlineState, zoomLevel, zoomInlines, zoomInline]
        have hs : staticInlineStart (zoomStyle k style) (k * position) = (staticInlineStart style position).map (k * ·) := by
          simp only [staticInlineStart, show (zoomStyle k style).specifiedDisplay = style.specifiedDisplay from rfl]
          split <;> simp
        rw [hs]
        rcases staticInlineStart style position with _ | i
        · rfl
        · have hi := ih ⟨lines, position, stack, ⟨bs, fragments, start, size⟩⟩
            (as ++ [AbsolutelyPositionedBox.layout ⟨style, ⟨contents, floats⟩⟩ ⟨i, lines.nextLineBlockPosition⟩ rank])
          rw [zoomAbsolutes, List.map_append, List.map_cons, List.map_nil, ← zoom_absoluteLayout] at hi
          exact hi
      | outOfFlowFloat style floats contents =>
        have hi := ih ⟨lines, position, stack, ⟨bs, fragments, start, size⟩⟩ as
        simp only [inlineLoop, inlineStep, zoomInlineState, zoomLevel, zoomInlines, zoomInline] at hi ⊢
        exact hi

theorem zoom_layoutInline {Err : Type} (F : FontApi Rat Err) (boxes : List InlineLevelBox) (cb : ContainingBlock) (rank : Nat) (as : Absolutes) :
    layoutInline F (zoomInlines k boxes) (zoomCb k cb) rank (zoomAbsolutes k as) = (layoutInline F boxes cb rank as).map (zoomResult k) := by
  have h := zoom_inlineLoop hk F cb rank (costs boxes + 1) (initialInlineState boxes) as
  have h0 : zoomInlineState k (initialInlineState boxes) = initialInlineState (zoomInlines k boxes) := by
    simp [zoomInlineState, initialInlineState, zoomLines, zoomLevel]
  rw [h0] at h
  simp only [layoutInline, zoom_costs]
  exact h

/-! ### Blocks -/

def zoomPlacement (k : Rat) (s : PlacementState) : PlacementState :=
  ⟨s.nextInFlowMarginCollapsesWithParentStartMargin, zoomMargin k s.startMargin, zoomMargin k s.currentMargin, k * s.currentBlockDirectionPosition⟩

theorem zoom_placeFragment (s : PlacementState) (f : Fragment) :
    placeFragment (zoomPlacement k s) (zoomFragment k f) = (placeFragment s f).map fun r => (zoomFragment k r.1, zoomPlacement k r.2) := by
  have hm : ∀ (b : BoxInfo) d, (zoomInfo k b).moveBlock (k * d) = zoomInfo k (b.moveBlock d) := by
    intro b d
    simp [zoomInfo, BoxInfo.moveBlock, zoomRect, zoomVec, mul_add]
  have hs : ∀ b : BoxInfo, (zoomInfo k b).borderBlockSize = k * b.borderBlockSize := by
    intro b
    simp [zoomInfo, BoxInfo.borderBlockSize, zoomSides_blockSum, zoomRect, zoomVec, mul_add]
  obtain ⟨n, start, current, pos⟩ := s
  cases f with
  | text => rfl
  | anonymous rect children mode =>
    simp only [zoomFragment, placeFragment, zoomFragments_eq, List.isEmpty_map, zoomRect, zoomVec, zoomPlacement, zoom_eq_zero hk]
    split
    · simp [zoomFragment, zoomFragments_eq, zoomRect, zoomVec, mul_add, zoomPlacement]
    · rfl
  | box b children =>
    simp only [zoomFragment, placeFragment, zoomPlacement]
    rw [show (zoomInfo k b).blockMarginsCollapsedWithChildren = zoomMargins k b.blockMarginsCollapsedWithChildren from rfl]
    generalize b.blockMarginsCollapsedWithChildren = m
    obtain ⟨through, ms, me⟩ := m
    simp only [zoomMargins, zoomMargin_solve, zoom_eq_zero hk, zoomMargin_adjoin hk, ← mul_add, hm, hs]
    cases n <;> cases through <;> simp only [Bool.false_eq_true, if_false, if_true]
    · simp [zoomFragment, zoomPlacement]
    · simp [zoomFragment, zoomPlacement]
    · split
      · simp [zoomFragment, zoomPlacement]
      · rfl
    · split
      · simp [zoomFragment, zoomPlacement]
      · rfl

theorem zoom_placeAll (s : PlacementState) (fs : List Fragment) :
    placeAll (zoomPlacement k s) (fs.map (zoomFragment k)) = (placeAll s fs).map fun r => (r.1.map (zoomFragment k), zoomPlacement k r.2) := by
  induction fs generalizing s with
  | nil => rfl
  | cons f fs ih =>
    simp only [List.map_cons, placeAll, zoom_placeFragment hk]
    rcases placeFragment s f with _ | ⟨f1, s1⟩
    · rfl
    · simp only [Option.map_some, ih]
      rcases placeAll s1 fs with _ | ⟨fs1, s2⟩
      · rfl
      · rfl

/-- The layout of a child with zoomed boxes. -/
def ZoomedChild (k : Rat) (f f' : Nat → BlockLevelBox → Absolutes → Option (Fragment × Absolutes)) : Prop :=
  ∀ rank b as, f' rank (zoomBox k b) (zoomAbsolutes k as) = (f rank b as).map fun r => (zoomFragment k r.1, zoomAbsolutes k r.2)

theorem zoom_layoutInOrder {f f' : Nat → BlockLevelBox → Absolutes → Option (Fragment × Absolutes)} (h : ZoomedChild k f f') (rank : Nat)
    (bs : List BlockLevelBox) (as : Absolutes) (s : PlacementState) :
    layoutInOrder f' rank (zoomBoxes k bs) (zoomAbsolutes k as) (zoomPlacement k s) =
      (layoutInOrder f rank bs as s).map fun r => (r.1.map (zoomFragment k), zoomAbsolutes k r.2.1, zoomPlacement k r.2.2) := by
  induction bs generalizing rank as s with
  | nil => rw [zoomBoxes]; rfl
  | cons b bs ih =>
    simp only [zoomBoxes, layoutInOrder, h rank b as]
    rcases f rank b as with _ | ⟨f1, as1⟩
    · rfl
    · simp only [Option.map_some, zoom_placeFragment hk]
      rcases placeFragment s f1 with _ | ⟨f2, s1⟩
      · rfl
      · simp only [Option.map_some, ih]
        rcases layoutInOrder f (rank + 1) bs as1 s1 with _ | ⟨fs, as2, s2⟩
        · rfl
        · rfl

omit hk in
theorem zoom_foldTask {f f' : Nat → BlockLevelBox → Absolutes → Option (Fragment × Absolutes)} (h : ZoomedChild k f f') (rank : Nat)
    (bs : List BlockLevelBox) (as : Absolutes) :
    mapfold.foldTask f' rank (zoomBoxes k bs) (zoomAbsolutes k as) =
      (mapfold.foldTask f rank bs as).map fun r => (r.1.map (zoomFragment k), zoomAbsolutes k r.2) := by
  induction bs generalizing rank as with
  | nil => rw [zoomBoxes]; rfl
  | cons b bs ih =>
    simp only [zoomBoxes, mapfold.foldTask, h rank b as]
    rcases f rank b as with _ | ⟨f1, as1⟩
    · rfl
    · simp only [Option.map_some, ih]
      rcases mapfold.foldTask f (rank + 1) bs as1 with _ | ⟨fs, as2⟩
      · rfl
      · rfl

omit hk in
theorem zoom_mapfold {f f' : Nat → BlockLevelBox → Absolutes → Option (Fragment × Absolutes)} (h : ZoomedChild k f f') (schedule : Schedule)
    (rank : Nat) (bs : List BlockLevelBox) :
    mapfold f' schedule rank (zoomBoxes k bs) =
      (mapfold f schedule rank bs).map fun r => (r.1.map (zoomFragment k), zoomAbsolutes k r.2) := by
  induction schedule generalizing rank bs with
  | task => exact zoom_foldTask h rank bs []
  | join cut left right ih1 ih2 =>
    simp only [mapfold, zoomBoxes_eq, ← List.map_take, ← List.map_drop]
    rw [← zoomBoxes_eq, ← zoomBoxes_eq, ih1, ih2]
    rcases mapfold f left rank (bs.take cut) with _ | ⟨fs1, as1⟩
    · rfl
    · rcases mapfold f right (rank + cut) (bs.drop cut) with _ | ⟨fs2, as2⟩
      · rfl
      · simp [zoomAbsolutes]

omit hk in
theorem zoom_adjustStatic (as : Absolutes) (fs : List Fragment) (rank : Nat) :
    adjustStaticPositions (zoomAbsolutes k as) (fs.map (zoomFragment k)) rank = (adjustStaticPositions as fs rank).map (zoomAbsolutes k) := by
  induction as with
  | nil => rfl
  | cons a as ih =>
    have ih' : adjustStaticPositions (as.map (zoomAbsolute k)) (fs.map (zoomFragment k)) rank =
      (adjustStaticPositions as fs rank).map (zoomAbsolutes k) := ih
    simp only [zoomAbsolutes, List.map_cons, adjustStaticPositions, ih']
    rw [show (zoomAbsolute k a).treeRank = a.treeRank from rfl, List.getElem?_map]
    rcases fs[a.treeRank]? with _ | f
    · rfl
    · have hr : (zoomFragment k f).rect? = f.rect?.map (zoomRect k) := by cases f <;> rfl
      simp only [Option.map_some, hr]
      rcases f.rect? with _ | r
      · rfl
      · simp only [Option.map_some]
        rcases adjustStaticPositions as fs rank with _ | as1
        · rfl
        · have ho : ∀ (o : AbsoluteBoxOffsets) d, (zoomOffsets k o).moveStatic (k * d) = zoomOffsets k (o.moveStatic d) := by
            intro o d
            cases o <;> simp [zoomOffsets, AbsoluteBoxOffsets.moveStatic, mul_add]
          simp [zoomAbsolutes, zoomAbsolute, zoomRect, zoomVec, ho]

omit hk in
theorem zoom_finishChildren (as : Absolutes) (n : Nat) (fs : List Fragment) (s : PlacementState) (rank : Nat) :
    finishChildren (zoomAbsolutes k as) n (fs.map (zoomFragment k)) (zoomPlacement k s) rank =
      (finishChildren as n fs s rank).map (zoomResult k) := by
  have h := zoom_adjustStatic (k := k) (as.drop n) fs rank
  simp only [finishChildren, zoomAbsolutes, ← List.map_drop, ← List.map_take] at h ⊢
  rw [h]
  rcases adjustStaticPositions (as.drop n) fs rank with _ | as1
  · rfl
  · simp [zoomResult, zoomChildren, zoomPlacement, zoomMargins, zoomAbsolutes]

theorem zoom_layoutChildren {f f' : Nat → BlockLevelBox → Absolutes → Option (Fragment × Absolutes)} (h : ZoomedChild k f f')
    (schedule : Schedule) (bs : List BlockLevelBox) (rank : Nat) (as : Absolutes) (floats collapsible : Bool) :
    layoutChildren schedule f' (zoomBoxes k bs) rank (zoomAbsolutes k as) floats collapsible =
      (layoutChildren schedule f bs rank as floats collapsible).map (zoomResult k) := by
  have hi : PlacementState.initial collapsible = zoomPlacement k (.initial collapsible) := by
    simp [PlacementState.initial, zoomPlacement, zoomMargin_zero]
  have hl : (zoomAbsolutes k as).length = as.length := by simp [zoomAbsolutes]
  cases floats
  · simp only [layoutChildren, Bool.false_eq_true, if_false, zoom_mapfold h]
    rcases mapfold f schedule 0 bs with _ | ⟨fs, as1⟩
    · rfl
    · simp only [Option.map_some]
      have hp := zoom_placeAll hk (.initial collapsible) fs
      rw [← hi] at hp
      rw [hp]
      rcases placeAll (.initial collapsible) fs with _ | ⟨fs1, s⟩
      · rfl
      · simp only [Option.map_some]
        rw [← zoom_finishChildren, hl, zoomAbsolutes, zoomAbsolutes, zoomAbsolutes, List.map_append]
  · simp only [layoutChildren, if_true]
    have hp := zoom_layoutInOrder hk h 0 bs as (.initial collapsible)
    rw [← hi] at hp
    rw [hp]
    rcases layoutInOrder f 0 bs as (.initial collapsible) with _ | ⟨fs, as1, s⟩
    · rfl
    · simp only [Option.map_some, hl]
      exact zoom_finishChildren as1 _ fs s rank

def zoomSizes (k : Rat) (s : InFlowSizes) : InFlowSizes :=
  ⟨zoomSides k s.padding, zoomSides k s.border, zoomSides k s.margin, k * s.inlineSize, zoomAuto k s.blockSize⟩

omit hk in
theorem zoom_inFlowSizes (cb : ContainingBlock) (style : ComputedValues) : inFlowSizes (zoomCb k cb) (zoomStyle k style) = zoomSizes k (inFlowSizes cb style) := by
  have hu : ∀ (v : LengthOrPercentageOrAuto) b, usedBlockSize (zoomLengthOrAuto k v) (zoomAuto k b) = zoomAuto k (usedBlockSize v b) := by
    intro v b
    cases v <;> cases b <;> simp [usedBlockSize, zoomLengthOrAuto, zoomAuto, LengthOrAuto.map, mul_assoc]
  have hb1 : (boxSize (zoomStyle k style)).inline = zoomLengthOrAuto k (boxSize style).inline := rfl
  have hb2 : (boxSize (zoomStyle k style)).block = zoomLengthOrAuto k (boxSize style).block := rfl
  simp only [inFlowSizes, zoomCb, zoom_padding, zoom_border, zoom_margin, hb1, hb2, zoom_lpa, hu, zoomSides_add, zoomSides_inlineSum]
  rcases autoPercentageRelativeTo (boxSize style).inline cb.inlineSize with is | _
  · simp only [zoomAuto, zoomSizes, LengthOrAuto.autoIs]
    generalize (margin style).autoPercentagesRelativeTo cb.inlineSize = m
    obtain ⟨a, b, c, d⟩ := m
    simp only [zoomSidesAuto, Sides.map, ← mul_sub]
    congr 1
    cases a <;> cases b <;> cases c <;> cases d <;>
      simp [zoomAuto, solveInlineMargins, Sides.autoIs, Sides.map, LengthOrAuto.autoIs, zoomSides, mul_div_assoc]
  · simp only [zoomAuto, zoomSizes, LengthOrAuto.autoIs, zoomSides_autoIs, zoomSides_inlineSum, ← mul_sub]

theorem zoom_collapse (m : Sides Rat) (canStart canEnd : Bool) (c : CollapsedBlockMargins) (size : Rat) :
    collapseWithChildren (zoomSides k m) canStart canEnd (zoomMargins k c) (k * size) =
      (zoomMargins k (collapseWithChildren m canStart canEnd c size).1, k * (collapseWithChildren m canStart canEnd c size).2) := by
  obtain ⟨through, cs, ce⟩ := c
  have hn1 := zoomMargin_new hk m.blockStart
  have hn2 := zoomMargin_new hk m.blockEnd
  have hz : CollapsedMargin.zero.solve = k * CollapsedMargin.zero.solve := by simp [CollapsedMargin.solve, CollapsedMargin.zero]
  have ha : ∀ a : CollapsedMargin, (zoomMargin k a).adjoin .zero = zoomMargin k (a.adjoin .zero) := by
    intro a
    rw [← zoomMargin_adjoin hk, zoomMargin_zero]
  cases canStart <;> cases canEnd <;> cases through <;>
    simp [collapseWithChildren, CollapsedBlockMargins.fromMargin, zoomMargins, zoomSides, hn1, hn2, zoomMargin_adjoin hk, zoomMargin_solve, mul_add, ha,
      ← hz]

/-- The layout of an absolutely positioned fragment with zoomed boxes. -/
def ZoomedAbsolute (k : Rat) (f f' : DefiniteContainingBlock → Nat → AbsolutelyPositionedFragment → Option Fragment) : Prop :=
  ∀ cb i a, f' (zoomDefinite k cb) i (zoomAbsolute k a) = (f cb i a).map (zoomFragment k)

omit hk in
theorem zoom_layoutAll {f f' : Nat → AbsolutelyPositionedFragment → Option Fragment}
    (h : ∀ i a, f' i (zoomAbsolute k a) = (f i a).map (zoomFragment k)) (i : Nat) (as : Absolutes) :
    layoutAll f' i (zoomAbsolutes k as) = (layoutAll f i as).map (·.map (zoomFragment k)) := by
  induction as generalizing i with
  | nil => rfl
  | cons a as ih =>
    have ih' := ih (i + 1)
    simp only [zoomAbsolutes, List.map_cons, layoutAll, h] at ih' ⊢
    rw [ih']
    rcases f i a with _ | f1
    · rfl
    · rcases layoutAll f (i + 1) as with _ | fs
      · rfl
      · rfl

omit hk in
theorem zoom_inPositioned {f f' : DefiniteContainingBlock → Nat → AbsolutelyPositionedFragment → Option Fragment} (h : ZoomedAbsolute k f f')
    (as : Absolutes) (fs : List Fragment) (size : Vec2 Rat) (p : Sides Rat) (mode : Mode) :
    inPositionedContainingBlock f' (zoomAbsolutes k as) (fs.map (zoomFragment k)) (zoomVec k size) (zoomSides k p) mode =
      (inPositionedContainingBlock f as fs size p mode).map (·.map (zoomFragment k)) := by
  cases as with
  | nil => rfl
  | cons a as =>
    have hr : (⟨Vec2.zero, zoomVec k size⟩ : Rect Rat).inflate (zoomSides k p) = zoomRect k ((⟨Vec2.zero, size⟩ : Rect Rat).inflate p) := by
      simp [Rect.inflate, zoomRect, zoomVec, zoomSides, Vec2.zero, Sides.inlineSum, Sides.blockSum, mul_add]
    have hl := zoom_layoutAll (h ⟨((⟨Vec2.zero, size⟩ : Rect Rat).inflate p).size, mode⟩) 0 (a :: as)
    simp only [zoomAbsolutes, List.map_cons, inPositionedContainingBlock, hr] at hl ⊢
    have hd : (⟨(zoomRect k ((⟨Vec2.zero, size⟩ : Rect Rat).inflate p)).size, mode⟩ : DefiniteContainingBlock) =
      zoomDefinite k ⟨((⟨Vec2.zero, size⟩ : Rect Rat).inflate p).size, mode⟩ := rfl
    rw [hd, hl]
    rcases layoutAll (f ⟨((⟨Vec2.zero, size⟩ : Rect Rat).inflate p).size, mode⟩) 0 (a :: as) with _ | gs
    · rfl
    · simp [zoomFragment, zoomFragments_eq]

theorem zoom_layoutInFlow {g g' : ContainingBlock → Absolutes → Bool → Option (FlowChildren × Absolutes)}
    {f f' : DefiniteContainingBlock → Nat → AbsolutelyPositionedFragment → Option Fragment} (hf : ZoomedAbsolute k f f')
    (hg : ∀ cb as c, g' (zoomCb k cb) (zoomAbsolutes k as) c = (g cb as c).map (zoomResult k))
    (cb : ContainingBlock) (as : Absolutes) (style : ComputedValues) (kind : BlockLevelKind) :
    layoutInFlow (zoomCb k cb) (zoomAbsolutes k as) (zoomStyle k style) kind g' f' =
      (layoutInFlow cb as style kind g f).map fun r => (zoomFragment k r.1, zoomAbsolutes k r.2) := by
  simp only [layoutInFlow, zoom_inFlowSizes]
  generalize inFlowSizes cb style = sizes
  rw [show (zoomCb k cb).mode = cb.mode from rfl, show writingMode (zoomStyle k style) = writingMode style from rfl,
    show positionOf (zoomStyle k style) = positionOf style from rfl]
  split
  · rfl
  · have e1 : (zoomSizes k sizes).padding.add (zoomSizes k sizes).border = zoomSides k (sizes.padding.add sizes.border) := zoomSides_add k _ _
    have e2 : ((zoomSizes k sizes).blockSize = .auto) = (sizes.blockSize = .auto) := by
      simp only [zoomSizes]
      cases sizes.blockSize <;> simp [zoomAuto]
    have e3 : ((zoomSides k (sizes.padding.add sizes.border)).blockStart = 0) = ((sizes.padding.add sizes.border).blockStart = 0) :=
      zoom_eq_zero hk _
    have e4 : ((zoomSides k (sizes.padding.add sizes.border)).blockEnd = 0) = ((sizes.padding.add sizes.border).blockEnd = 0) :=
      zoom_eq_zero hk _
    have e5 : (if (positionOf style).isRelativelyPositioned = true then [] else zoomAbsolutes k as) =
      zoomAbsolutes k (if (positionOf style).isRelativelyPositioned = true then [] else as) := by split <;> rfl
    have e6 : (⟨(zoomSizes k sizes).inlineSize, (zoomSizes k sizes).blockSize, writingMode style⟩ : ContainingBlock) =
      zoomCb k ⟨sizes.inlineSize, sizes.blockSize, writingMode style⟩ := rfl
    simp only [e1, e2, e3, e4, e5, e6, hg]
    generalize (sizes.padding.add sizes.border) = pb
    rcases g ⟨sizes.inlineSize, sizes.blockSize, writingMode style⟩ (if (positionOf style).isRelativelyPositioned = true then [] else as)
      (decide (kind = .sameFormattingContextBlock) && decide (pb.blockStart = 0)) with _ | ⟨children, as1⟩
    · rfl
    · simp only [Option.map_some, zoomResult]
      rw [show (zoomSizes k sizes).margin = zoomSides k sizes.margin from rfl, show (zoomSizes k sizes).inlineSize = k * sizes.inlineSize from rfl,
        show (zoomSizes k sizes).blockSize = zoomAuto k sizes.blockSize from rfl, show (zoomSizes k sizes).padding = zoomSides k sizes.padding from rfl,
        show (zoomSizes k sizes).border = zoomSides k sizes.border from rfl]
      simp only [zoomChildren, zoom_collapse hk, zoom_relative, zoom_autoIs]
      have e7 : ∀ a b : Rat, (⟨k * a, k * b⟩ : Vec2 Rat) = zoomVec k ⟨a, b⟩ := fun _ _ => rfl
      simp only [e7]
      split
      · rw [zoom_inPositioned hf]
        split
        · rename_i h1
          rw [Option.map_eq_none_iff] at h1
          rw [h1]
          rfl
        · rename_i h1
          obtain ⟨fs, h2, rfl⟩ := Option.map_eq_some_iff.1 h1
          rw [h2]
          simp [zoomFragment, zoomFragments_eq, zoomInfo, zoomRect, zoomVec, zoomSides, mul_add]
      · simp [zoomFragment, zoomFragments_eq, zoomInfo, zoomRect, zoomVec, zoomSides, mul_add]

def zoomAnchor (k : Rat) : Anchor → Anchor
  | .start s => .start (k * s)
  | .end e => .end (k * e)
def zoomAbsoluteSizes (k : Rat) (s : AbsoluteSizes) : AbsoluteSizes :=
  ⟨zoomSides k s.padding, zoomSides k s.border, zoomSides k s.margin, zoomAnchor k s.inlineAnchor, zoomAnchor k s.blockAnchor, k * s.inlineSize,
    zoomAuto k s.blockSize⟩

omit hk in
theorem zoom_solveAxis {solve : Rat → Rat × Rat} (hs : ∀ m, solve (k * m) = (k * (solve m).1, k * (solve m).2))
    (size pb : Rat) (ms me : LengthOrAuto) (o : AbsoluteBoxOffsets) (v : LengthOrPercentageOrAuto) :
    solveAxis (k * size) (k * pb) (zoomAuto k ms) (zoomAuto k me) solve (zoomOffsets k o) (zoomLengthOrAuto k v) =
      (zoomAnchor k (solveAxis size pb ms me solve o v).1, zoomAuto k (solveAxis size pb ms me solve o v).2.1,
        k * (solveAxis size pb ms me solve o v).2.2.1, k * (solveAxis size pb ms me solve o v).2.2.2) := by
  simp only [solveAxis, zoom_lpa]
  rcases autoPercentageRelativeTo v size with l | _ <;> cases o <;> cases ms <;> cases me <;>
    simp [zoomOffsets, zoomAuto, zoomAnchor, zoom_lp, LengthOrAuto.autoIs, ← mul_sub, hs]

theorem zoom_absoluteSizes (cb : DefiniteContainingBlock) (a : AbsolutelyPositionedFragment) :
    absoluteSizes (zoomDefinite k cb) (zoomAbsolute k a) = zoomAbsoluteSizes k (absoluteSizes cb a) := by
  have h1 := zoom_solveAxis (k := k) (solve := fun margins : Rat => if margins ≥ 0 then (margins / 2, margins / 2) else (0, margins)) (by
    intro m
    have : (k * m ≥ 0) = (m ≥ 0) := by
      simp only [ge_iff_le, eq_iff_iff]
      exact mul_nonneg_iff_of_pos_left hk
    simp only [this]
    split <;> simp [mul_div_assoc])
  have h2 := zoom_solveAxis (k := k) (solve := fun margins : Rat => (margins / 2, margins / 2)) (by
    intro m
    simp [mul_div_assoc])
  obtain ⟨⟨style, c⟩, rank, ois, isz, obs, bsz⟩ := a
  simp only [absoluteSizes, zoomDefinite, zoomAbsolute]
  rw [show (zoomVec k cb.size).inline = k * cb.size.inline from rfl]
  simp only [zoom_padding, zoom_border, zoom_margin, zoomSides_add, zoomSides_inlineSum, zoomSides_blockSum]
  generalize (margin style).autoPercentagesRelativeTo cb.size.inline = m
  simp only [zoomSidesAuto, Sides.map, h1, h2]
  generalize solveAxis cb.size.inline _ _ _ _ ois isz = r1
  generalize solveAxis cb.size.inline _ _ _ _ obs bsz = r2
  obtain ⟨x1, x2, x3, x4⟩ := r1
  obtain ⟨y1, y2, y3, y4⟩ := r2
  simp only [zoomAbsoluteSizes, zoomSides, Sides.inlineSum]
  congr 1
  cases x1 <;> simp only [zoomAnchor, ← mul_sub, ← mul_add, zoom_autoIs]

omit hk in
theorem zoom_absoluteContentRect (cb : DefiniteContainingBlock) (s : AbsoluteSizes) (size : Rat) :
    absoluteContentRect (zoomDefinite k cb) (zoomAbsoluteSizes k s) (k * size) = zoomRect k (absoluteContentRect cb s size) := by
  simp only [absoluteContentRect, zoomAbsoluteSizes, zoomSides_add, zoom_autoIs, zoomRect, zoomVec, zoomDefinite]
  cases s.inlineAnchor <;> cases s.blockAnchor <;> simp [zoomAnchor, zoomSides, mul_add, mul_sub]

omit hk in
theorem zoom_finishContext (c : FlowChildren) : (zoomChildren k c).finishBlockFormattingContext = zoomChildren k c.finishBlockFormattingContext := by
  simp [FlowChildren.finishBlockFormattingContext, zoomChildren, zoomMargins, zoomMargin_zero, zoomMargin_solve, mul_add]

omit hk in
theorem zoom_mapFst (r : Option (FlowChildren × Absolutes)) :
    mapFst FlowChildren.finishBlockFormattingContext (r.map (zoomResult k)) =
      (mapFst FlowChildren.finishBlockFormattingContext r).map (zoomResult k) := by
  rcases r with _ | ⟨c, as⟩
  · rfl
  · simp [mapFst, zoomResult, zoom_finishContext]

/-- Layout of zoomed boxes, in zoomed containing blocks. -/
theorem zoom_layout {Err : Type} (F : FontApi Rat Err) (fuel : Nat) :
    (∀ s c cb rank as floats collapsible, layoutContainer F fuel s (zoomContainer k c) (zoomCb k cb) rank (zoomAbsolutes k as) floats collapsible =
      (layoutContainer F fuel s c cb rank as floats collapsible).map (zoomResult k)) ∧
    (∀ s b cb rank as floats, layoutBox F fuel s (zoomBox k b) (zoomCb k cb) rank (zoomAbsolutes k as) floats =
      (layoutBox F fuel s b cb rank as floats).map fun r => (zoomFragment k r.1, zoomAbsolutes k r.2)) ∧
    (∀ s cb a, layoutAbsolute F fuel s (zoomDefinite k cb) (zoomAbsolute k a) = (layoutAbsolute F fuel s cb a).map (zoomFragment k)) := by
  induction fuel with
  | zero =>
    refine ⟨?_, ?_, ?_⟩ <;> intros <;> simp only [layoutContainer, layoutBox, layoutAbsolute, Option.map_none]
  | succ fuel ih =>
    obtain ⟨ih1, ih2, ih3⟩ := ih
    refine ⟨?_, ?_, ?_⟩
    · intro s c cb rank as floats collapsible
      cases c with
      | blockLevelBoxes boxes =>
        simp only [layoutContainer, zoomContainer]
        exact zoom_layoutChildren hk (fun rank b as => ih2 _ b cb rank as floats) _ boxes rank as floats collapsible
      | inlineFormattingContext boxes =>
        simp only [layoutContainer, zoomContainer]
        exact zoom_layoutInline hk F boxes cb rank as
    · intro s b cb rank as floats
      cases b with
      | sameFormattingContextBlock style contents =>
        simp only [layoutBox, zoomBox]
        exact zoom_layoutInFlow hk (fun cb i a => ih3 _ cb a) (fun cb as c => ih1 _ contents cb rank as floats c) cb as style _
      | independent style containsFloats contents =>
        simp only [layoutBox, zoomBox]
        refine zoom_layoutInFlow hk (fun cb i a => ih3 _ cb a) (fun cb as c => ?_) cb as style _
        rw [ih1, zoom_mapFst]
      | outOfFlowAbsolutelyPositioned style containsFloats contents =>
        have h := zoom_absoluteLayout k style contents containsFloats Vec2.zero rank
        rw [zoomVec_zero] at h
        simp only [layoutBox, zoomBox, Option.map_some, zoomFragment_noOp, h]
        simp [zoomAbsolutes, zoomCb]
      | outOfFlowFloat style containsFloats contents =>
        simp [layoutBox, zoomBox, zoomFragment_noOp, zoomCb]
    · intro s cb a
      simp only [layoutAbsolute, zoom_absoluteSizes hk]
      rw [show (zoomDefinite k cb).mode = cb.mode from rfl, show writingMode (zoomAbsolute k a).box.style = writingMode a.box.style from rfl,
        show (zoomAbsolute k a).box.contents.contents = zoomContainer k a.box.contents.contents from rfl,
        show (zoomAbsolute k a).box.contents.containsFloats = a.box.contents.containsFloats from rfl]
      split
      · rfl
      · have h1 := ih1 (s.sub 0) a.box.contents.contents ⟨(absoluteSizes cb a).inlineSize, (absoluteSizes cb a).blockSize, writingMode a.box.style⟩
          0 [] a.box.contents.containsFloats false
        have h2 := congrArg (mapFst FlowChildren.finishBlockFormattingContext) h1
        rw [zoom_mapFst] at h2
        rw [show (⟨(zoomAbsoluteSizes k (absoluteSizes cb a)).inlineSize, (zoomAbsoluteSizes k (absoluteSizes cb a)).blockSize,
            writingMode a.box.style⟩ : ContainingBlock) =
          zoomCb k ⟨(absoluteSizes cb a).inlineSize, (absoluteSizes cb a).blockSize, writingMode a.box.style⟩ from rfl]
        rw [show ([] : Absolutes) = zoomAbsolutes k [] from rfl, h2]
        rw [show zoomAbsolutes k [] = ([] : Absolutes) from rfl]
        rcases mapFst FlowChildren.finishBlockFormattingContext (layoutContainer F fuel (s.sub 0) a.box.contents.contents
          ⟨(absoluteSizes cb a).inlineSize, (absoluteSizes cb a).blockSize, writingMode a.box.style⟩
          0 [] a.box.contents.containsFloats false) with _ | ⟨c, as⟩
        · rfl
        · simp only [Option.map_some, zoomResult]
          rw [show (zoomChildren k c).blockSize = k * c.blockSize from rfl, zoom_absoluteContentRect]
          have h3 := zoom_inPositioned (k := k) (f := fun cb i a => layoutAbsolute F fuel (s.sub (i + 1)) cb a)
            (f' := fun cb i a => layoutAbsolute F fuel (s.sub (i + 1)) cb a) (fun cb i a => ih3 _ cb a) as c.fragments
            (absoluteContentRect cb (absoluteSizes cb a) c.blockSize).size (absoluteSizes cb a).padding (writingMode a.box.style)
          rw [show (zoomChildren k c).fragments = c.fragments.map (zoomFragment k) from rfl,
            show (zoomAbsoluteSizes k (absoluteSizes cb a)).padding = zoomSides k (absoluteSizes cb a).padding from rfl,
            show (zoomRect k (absoluteContentRect cb (absoluteSizes cb a) c.blockSize)).size =
              zoomVec k (absoluteContentRect cb (absoluteSizes cb a) c.blockSize).size from rfl, h3]
          rcases inPositionedContainingBlock (fun cb i a => layoutAbsolute F fuel (s.sub (i + 1)) cb a) as c.fragments
            (absoluteContentRect cb (absoluteSizes cb a) c.blockSize).size (absoluteSizes cb a).padding (writingMode a.box.style) with _ | fs
          · rfl
          · simp [zoomFragment, zoomFragments_eq, zoomInfo, zoomMargins_zero, zoomAbsolute, zoomAbsoluteSizes]

theorem zoom_layoutRoot {Err : Type} (F : FontApi Rat Err) (fuel : Nat) (s : Oracle) (root : BlockFormattingContext) (viewport : Vec2 Rat) :
    layoutRoot F fuel s (zoomContext k root) (zoomVec k viewport) = (layoutRoot F fuel s root viewport).map (·.map (zoomFragment k)) := by
  obtain ⟨h1, -, h3⟩ := zoom_layout hk F fuel
  have h4 := congrArg (mapFst FlowChildren.finishBlockFormattingContext)
    (h1 (s.sub 0) root.contents ⟨viewport.inline, .length viewport.block, (.horizontalTb, .ltr)⟩ 0 [] root.containsFloats false)
  rw [zoom_mapFst] at h4
  unfold layoutRoot BlockFormattingContext.layout
  change (match mapFst FlowChildren.finishBlockFormattingContext (layoutContainer F fuel (s.sub 0) (zoomContainer k root.contents)
    (zoomCb k ⟨viewport.inline, .length viewport.block, (.horizontalTb, .ltr)⟩) 0 (zoomAbsolutes k []) root.containsFloats false) with
    | none => none
    | some (children, absolute) => _) = _
  rw [h4]
  rcases mapFst FlowChildren.finishBlockFormattingContext (layoutContainer F fuel (s.sub 0) root.contents
    ⟨viewport.inline, .length viewport.block, (.horizontalTb, .ltr)⟩ 0 [] root.containsFloats false) with _ | ⟨c, as⟩
  · rfl
  · have h5 := zoom_layoutAll (k := k) (f := fun i a => layoutAbsolute F fuel (s.sub (i + 1)) ⟨viewport, (.horizontalTb, .ltr)⟩ a)
      (f' := fun i a => layoutAbsolute F fuel (s.sub (i + 1)) ⟨zoomVec k viewport, (.horizontalTb, .ltr)⟩ a)
      (fun i a => h3 _ ⟨viewport, (.horizontalTb, .ltr)⟩ a) 0 as
    simp only [Option.map_some, zoomResult, h5]
    rcases layoutAll (fun i a => layoutAbsolute F fuel (s.sub (i + 1)) ⟨viewport, (.horizontalTb, .ltr)⟩ a) 0 as with _ | fs
    · rfl
    · simp [zoomChildren]

end

end Verif.Layout
