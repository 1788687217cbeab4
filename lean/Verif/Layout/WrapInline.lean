/- Inline formatting contexts with texts in other styles of the same look, and in containing blocks of other heights. -/
import Verif.Layout.WrapSpec
import Verif.Layout.RowTheorems
import Verif.Layout.TotalLemmas
import Verif.Layout.MarginLemmas2
namespace Verif.Layout
open Verif.Style Verif.Text

/-! ### What is seen of fragments -/

/-- What is seen of a box itself. -/
def BoxInfo.ink (info : BoxInfo) (origin : Vec2 Rat) : List Shape :=
  (Fragment.shape 0 (.box info []) origin).filter Shape.visible

mutual
/-- What is seen of a fragment; see `Placed` and `Fragment.shape`. -/
def Fragment.ink (asc : Rat) (origin : Vec2 Rat) : Fragment → List Shape
  | .box info children => info.ink origin ++ inkOf asc (origin.add info.contentRect.startCorner) children
  | .anonymous rect children _ => inkOf asc (origin.add rect.startCorner) children
  | .text style rect segment => Fragment.shape asc (.text style rect segment) origin
/-- What is seen of fragments. -/
def inkOf (asc : Rat) (origin : Vec2 Rat) : List Fragment → List Shape
  | [] => []
  | f :: fs => f.ink asc origin ++ inkOf asc origin fs
end

theorem inkOf_append (asc : Rat) (o : Vec2 Rat) (fs gs : List Fragment) : inkOf asc o (fs ++ gs) = inkOf asc o fs ++ inkOf asc o gs := by
  induction fs with
  | nil => rfl
  | cons f fs ih => simp [inkOf, ih]

theorem Placed.ink {asc : Rat} {origin : Vec2 Rat} {fs : List Fragment} {placed : List (Fragment × Vec2 Rat)} (h : Placed origin fs placed) :
    (placed.flatMap fun e => e.1.shape asc e.2).filter Shape.visible = inkOf asc origin fs := by
  induction h with
  | nil => rfl
  | @cons origin f fs below rest h1 h2 ih1 ih2 =>
    rw [List.cons_append, List.flatMap_cons, List.flatMap_append, List.filter_append, List.filter_append, ih1, ih2, inkOf, ← List.append_assoc]
    congr 1
    cases f with
    | box info children => rfl
    | anonymous rect children mode => simp [Fragment.shape, Fragment.ink, Fragment.offset, Fragment.children]
    | text style rect segment => simp [Fragment.shape, Fragment.ink, Fragment.children, inkOf, Shape.visible]

/-! ### Texts in other styles -/

/-- A style of the same look. -/
def fade (s : ComputedValues) : ComputedValues := ComputedValues.anonymousInheritingFrom (some s)

theorem fade_eq {s s' : ComputedValues} (h : look s = look s') : fade s = fade s' := by
  have h1 : s.values .fontSize = s'.values .fontSize := congrArg Prod.fst h
  have h2 : s.values .color = s'.values .color := congrArg Prod.snd h
  have hv : (fade s).values = (fade s').values := by
    funext p
    simp only [fade]
    cases p <;> first | rfl | exact h1 | exact h2
  have hd : (fade s).specifiedDisplay = (fade s').specifiedDisplay := rfl
  cases hs : fade s
  cases hs' : fade s'
  rw [hs, hs'] at hv hd
  cases hv
  cases hd
  rfl

theorem fontSizeOf_fade (s : ComputedValues) : fontSizeOf (fade s) = fontSizeOf s := rfl
theorem color_fade (s : ComputedValues) : (fade s).values .color = s.values .color := rfl

mutual
/-- The texts in the box in styles of the same look. (What is in floats is not laid out.) -/
def InlineLevelBox.fade : InlineLevelBox → InlineLevelBox
  | .inlineBox style first last children => .inlineBox style first last (fadeInlines children)
  | .textRun style text => .textRun (Layout.fade style) text
  | .outOfFlowAbsolutelyPositioned style floats contents => .outOfFlowAbsolutelyPositioned style floats contents
  | .outOfFlowFloat style floats _ => .outOfFlowFloat style floats (.blockLevelBoxes [])
/-- See `InlineLevelBox.fade`. -/
def fadeInlines : List InlineLevelBox → List InlineLevelBox
  | [] => []
  | b :: bs => b.fade :: fadeInlines bs
end

mutual
/-- The texts in the fragment in styles of the same look. -/
def Fragment.fade : Fragment → Fragment
  | .box info children => .box info (fadeFragments children)
  | .anonymous rect children mode => .anonymous rect (fadeFragments children) mode
  | .text style rect segment => .text (Layout.fade style) rect segment
/-- See `Fragment.fade`. -/
def fadeFragments : List Fragment → List Fragment
  | [] => []
  | f :: fs => f.fade :: fadeFragments fs
end

theorem fadeFragments_append (fs gs : List Fragment) : fadeFragments (fs ++ gs) = fadeFragments fs ++ fadeFragments gs := by
  induction fs with
  | nil => rfl
  | cons f fs ih => simp [fadeFragments, ih]

theorem fadeInlines_append (fs gs : List InlineLevelBox) : fadeInlines (fs ++ gs) = fadeInlines fs ++ fadeInlines gs := by
  induction fs with
  | nil => rfl
  | cons f fs ih => simp [fadeInlines, ih]

mutual
theorem Fragment.ink_fade (asc : Rat) (o : Vec2 Rat) : ∀ f : Fragment, f.fade.ink asc o = f.ink asc o
  | .box info children => by rw [Fragment.fade, Fragment.ink, Fragment.ink, inkOf_fade]
  | .anonymous rect children mode => by rw [Fragment.fade, Fragment.ink, Fragment.ink, inkOf_fade]
  | .text style rect segment => rfl
theorem inkOf_fade (asc : Rat) (o : Vec2 Rat) : ∀ fs : List Fragment, inkOf asc o (fadeFragments fs) = inkOf asc o fs
  | [] => rfl
  | f :: fs => by rw [fadeFragments, inkOf, inkOf, Fragment.ink_fade, inkOf_fade]
end

mutual
theorem InlineLevelBox.cost_fade : ∀ b : InlineLevelBox, b.fade.cost = b.cost
  | .inlineBox style first last children => by rw [InlineLevelBox.fade, InlineLevelBox.cost, InlineLevelBox.cost, costs_fade]
  | .textRun style text => rfl
  | .outOfFlowAbsolutelyPositioned style floats contents => rfl
  | .outOfFlowFloat style floats contents => rfl
theorem costs_fade : ∀ bs : List InlineLevelBox, costs (fadeInlines bs) = costs bs
  | [] => rfl
  | b :: bs => by rw [fadeInlines, costs, costs, InlineLevelBox.cost_fade, costs_fade]
end

def NestingLevel.fade (l : NestingLevel) : NestingLevel :=
  { l with remainingBoxes := fadeInlines l.remainingBoxes, fragmentsSoFar := fadeFragments l.fragmentsSoFar }

def PartialInlineBox.fade (p : PartialInlineBox) : PartialInlineBox := { p with parentNestingLevel := p.parentNestingLevel.fade }

def LinesBoxes.fade (l : LinesBoxes) : LinesBoxes := { l with boxes := fadeFragments l.boxes }

def InlineState.fade (ifc : InlineState) : InlineState :=
  { ifc with lineBoxes := ifc.lineBoxes.fade, stack := ifc.stack.map PartialInlineBox.fade, current := ifc.current.fade }

def FlowChildren.fade (fc : FlowChildren) : FlowChildren := { fc with fragments := fadeFragments fc.fragments }

theorem startInlineBox_fade (cb : ContainingBlock) (style : ComputedValues) (first last : Bool) (children : List InlineLevelBox)
    (ifc : InlineState) :
    startInlineBox cb style first last (fadeInlines children) ifc.fade = (startInlineBox cb style first last children ifc).fade := by
  simp [startInlineBox, InlineState.fade, PartialInlineBox.fade, NestingLevel.fade, fadeFragments]

theorem finish_fade (p : PartialInlineBox) (level : NestingLevel) (x : Rat) (br : Bool) :
    p.fade.finish level.fade x br = ((p.finish level x br).1.fade, (p.finish level x br).2.1.fade, (p.finish level x br).2.2) := by
  simp [PartialInlineBox.finish, PartialInlineBox.fade, NestingLevel.fade, fadeFragments_append, fadeFragments, Fragment.fade]

theorem finishLine_fade (lines : LinesBoxes) (level : NestingLevel) (cb : ContainingBlock) :
    finishLine lines.fade level.fade cb = ((finishLine lines level cb).1.fade, (finishLine lines level cb).2.fade) := by
  simp [finishLine, LinesBoxes.fade, NestingLevel.fade, fadeFragments_append, fadeFragments, Fragment.fade]

theorem breakLine_fade (cb : ContainingBlock) : ∀ (stack : List PartialInlineBox) (level : NestingLevel) (x : Rat) (lines : LinesBoxes),
    breakLine cb (stack.map PartialInlineBox.fade) level.fade x lines.fade =
      ((breakLine cb stack level x lines).1.map PartialInlineBox.fade, (breakLine cb stack level x lines).2.1.fade,
        (breakLine cb stack level x lines).2.2.fade) := by
  intro stack
  induction stack with
  | nil =>
    intro level x lines
    have := finishLine_fade lines { level with inlineStart := 0 } cb
    simp only [breakLine, List.map_nil]
    change finishLine lines.fade { level.fade with inlineStart := 0 } cb = _ at this
    simp only [this]
  | cons p rest ih =>
    intro level x lines
    have hf := finish_fade p { level with inlineStart := 0 } x true
    change p.fade.finish { level.fade with inlineStart := 0 } x true = _ at hf
    simp only [breakLine, List.map_cons, hf]
    have := ih (p.finish { level with inlineStart := 0 } x true).1.parentNestingLevel (p.finish { level with inlineStart := 0 } x true).2.2 lines
    simp only [PartialInlineBox.fade] at this ⊢
    simp only [this]

theorem pushText_fade (style : ComputedValues) (shaped : ShapedSegment Rat) (ifc : InlineState) :
    pushText (fade style) shaped ifc.fade = (pushText style shaped ifc).fade := by
  simp only [pushText, InlineState.fade, NestingLevel.fade, fadeFragments_append, fadeFragments, Fragment.fade, fontSizeOf_fade]

variable {Err : Type} {F : FontApi Rat Err}

theorem textLines_fade (cb : ContainingBlock) (style : ComputedValues) (available : Rat) : ∀ (fuel : Nat) (chars : List Nat) (ifc : InlineState),
    textLines F cb (fade style) available fuel chars ifc.fade = (textLines F cb style available fuel chars ifc).map InlineState.fade := by
  intro fuel
  induction fuel with
  | zero => intro chars ifc; rfl
  | succ fuel ih =>
    intro chars ifc
    simp only [textLines, fontSizeOf_fade]
    rcases shapeLine F (fontSizeOf style) available chars (ShapedSegment.new F) none with _ | ⟨shaped, chars'⟩
    · rfl
    · simp only [pushText_fade]
      split
      · rfl
      · have hb := breakLine_fade cb (pushText style shaped ifc).stack (pushText style shaped ifc).current (pushText style shaped ifc).inlinePosition
          (pushText style shaped ifc).lineBoxes
        have e : ∀ i : InlineState, breakLine cb i.fade.stack i.fade.current i.fade.inlinePosition i.fade.lineBoxes =
          breakLine cb (i.stack.map PartialInlineBox.fade) i.current.fade i.inlinePosition i.lineBoxes.fade := fun _ => rfl
        rw [e, hb]
        rcases breakLine cb (pushText style shaped ifc).stack (pushText style shaped ifc).current (pushText style shaped ifc).inlinePosition
          (pushText style shaped ifc).lineBoxes with ⟨stack, current, lines⟩
        exact ih chars' { lineBoxes := lines, inlinePosition := 0, stack := stack, current := current }

theorem inlineLoop_fade (cb : ContainingBlock) (rank : Nat) : ∀ (fuel : Nat) (ifc : InlineState) (as : Absolutes),
    inlineLoop F cb rank fuel ifc.fade as = mapFst FlowChildren.fade (inlineLoop F cb rank fuel ifc as) := by
  intro fuel
  induction fuel with
  | zero => intro ifc as; rfl
  | succ fuel ih =>
    intro ifc as
    simp only [inlineLoop, inlineStep]
    have hr' : ifc.fade.current.remainingBoxes = fadeInlines ifc.current.remainingBoxes := rfl
    rw [hr']
    rcases hr : ifc.current.remainingBoxes with _ | ⟨child, remaining⟩
    · simp only [fadeInlines]
      have hs' : ifc.fade.stack = ifc.stack.map PartialInlineBox.fade := rfl
      rw [hs']
      rcases hs : ifc.stack with _ | ⟨p, stack⟩
      · simp only [List.map_nil]
        have := finishLine_fade ifc.lineBoxes ifc.current cb
        have e : finishLine ifc.fade.lineBoxes ifc.fade.current cb = finishLine ifc.lineBoxes.fade ifc.current.fade cb := rfl
        rw [e, this]
        rfl
      · simp only [List.map_cons]
        have := finish_fade p ifc.current ifc.inlinePosition false
        have e : p.fade.finish ifc.fade.current ifc.fade.inlinePosition false = p.fade.finish ifc.current.fade ifc.inlinePosition false := rfl
        rw [e, this]
        rcases p.finish ifc.current ifc.inlinePosition false with ⟨p, level, position⟩
        exact ih { ifc with inlinePosition := position, stack := stack, current := p.parentNestingLevel } as
    · simp only [fadeInlines]
      cases child with
      | inlineBox style first last children =>
        simp only [InlineLevelBox.fade]
        have := startInlineBox_fade cb style first last children { ifc with current := { ifc.current with remainingBoxes := remaining } }
        have e : ({ ifc.fade with current := { ifc.fade.current with remainingBoxes := fadeInlines remaining } } : InlineState) =
          ({ ifc with current := { ifc.current with remainingBoxes := remaining } } : InlineState).fade := rfl
        rw [e, this]
        exact ih _ _
      | textRun style text =>
        simp only [InlineLevelBox.fade, layoutTextRun]
        have e : ({ ifc.fade with current := { ifc.fade.current with remainingBoxes := fadeInlines remaining } } : InlineState) =
          ({ ifc with current := { ifc.current with remainingBoxes := remaining } } : InlineState).fade := rfl
        have e' : ifc.fade.inlinePosition = ifc.inlinePosition := rfl
        rw [e, e', textLines_fade]
        rcases textLines F cb style (cb.inlineSize - ifc.inlinePosition) (text.length + 1) text
          { ifc with current := { ifc.current with remainingBoxes := remaining } } with _ | ifc'
        · rfl
        · exact ih _ _
      | outOfFlowAbsolutelyPositioned style floats contents =>
        simp only [InlineLevelBox.fade]
        have e' : ifc.fade.inlinePosition = ifc.inlinePosition := rfl
        rw [e']
        rcases staticInlineStart style ifc.inlinePosition with _ | i
        · rfl
        · exact ih { ifc with current := { ifc.current with remainingBoxes := remaining } } _
      | outOfFlowFloat style floats contents =>
        exact ih { ifc with current := { ifc.current with remainingBoxes := remaining } } _

theorem layoutInline_fade (boxes : List InlineLevelBox) (cb : ContainingBlock) (rank : Nat) (as : Absolutes) :
    layoutInline F (fadeInlines boxes) cb rank as = mapFst FlowChildren.fade (layoutInline F boxes cb rank as) := by
  rw [layoutInline, costs_fade, layoutInline, ← inlineLoop_fade]
  rfl

/-! ### Containing blocks of other heights -/

/-- An inline box in this style is not placed by the height of the block around it. -/
def UnmeasuredStyle (s : ComputedValues) : Prop :=
  positionOf s = .static ∨ ((∀ p, Css.top s ≠ .percentage p) ∧ ∀ p, Css.bottom s ≠ .percentage p)

theorem UnmeasuredStyle.adjustement {s : ComputedValues} (h : UnmeasuredStyle s) (w : Rat) (b b' : LengthOrAuto) :
    relativeAdjustement s w b = relativeAdjustement s w b' := by
  simp only [relativeAdjustement]
  rcases h with h | ⟨h1, h2⟩
  · simp [h, Position.isRelativelyPositioned]
  · have ht : (boxOffsets s).blockStart = Css.top s := rfl
    have hb : (boxOffsets s).blockEnd = Css.bottom s := rfl
    have h3 : ∀ (v : LengthOrPercentageOrAuto) (x y : Rat), (∀ p, v ≠ .percentage p) → autoPercentageRelativeTo v x = autoPercentageRelativeTo v y := by
      intro v x y hv
      cases v with
      | length => rfl
      | percentage p => exact absurd rfl (hv p)
      | auto => rfl
    simp only [Sides.mapInlineAndBlockAxes, ht, hb, h3 _ (b.autoIs 0) (b'.autoIs 0) h1, h3 _ (b.autoIs 0) (b'.autoIs 0) h2]

theorem breakLine_height {cb cb' : ContainingBlock} (hw : cb.inlineSize = cb'.inlineSize) (hm : cb.mode = cb'.mode) :
    ∀ (stack : List PartialInlineBox) (level : NestingLevel) (x : Rat) (lines : LinesBoxes),
    breakLine cb stack level x lines = breakLine cb' stack level x lines := by
  intro stack
  induction stack with
  | nil => intro level x lines; simp [breakLine, finishLine, hw, hm]
  | cons p rest ih => intro level x lines; simp only [breakLine, ih]

theorem textLines_height {cb cb' : ContainingBlock} (hw : cb.inlineSize = cb'.inlineSize) (hm : cb.mode = cb'.mode) (style : ComputedValues)
    (available : Rat) : ∀ (fuel : Nat) (chars : List Nat) (ifc : InlineState),
    textLines F cb style available fuel chars ifc = textLines F cb' style available fuel chars ifc := by
  intro fuel
  induction fuel with
  | zero => intro chars ifc; rfl
  | succ fuel ih => intro chars ifc; simp only [textLines, ih, breakLine_height hw hm]

theorem textLines_remaining {cb : ContainingBlock} {style : ComputedValues} {available : Rat} : ∀ (fuel : Nat) (chars : List Nat)
    (ifc ifc' : InlineState), textLines F cb style available fuel chars ifc = some ifc' → ifc'.allRemaining = ifc.allRemaining := by
  intro fuel
  induction fuel with
  | zero => intro chars ifc ifc' h; simp [textLines] at h
  | succ fuel ih =>
    intro chars ifc ifc' h
    simp only [textLines] at h
    rcases hs : shapeLine F (fontSizeOf style) available chars (ShapedSegment.new F) none with _ | ⟨shaped, rest⟩
    · simp [hs] at h
    · simp only [hs] at h
      by_cases hr : rest = []
      · rw [if_pos hr] at h
        cases h
        rfl
      · rw [if_neg hr] at h
        obtain ⟨r1, r2⟩ := breakLine_remaining cb (pushText style shaped ifc).stack (pushText style shaped ifc).current
          (pushText style shaped ifc).inlinePosition (pushText style shaped ifc).lineBoxes
        rw [ih _ _ _ h]
        simp only [InlineState.allRemaining, r1, r2]
        rfl

theorem inlineLoop_height {cb cb' : ContainingBlock} (hw : cb.inlineSize = cb'.inlineSize) (hm : cb.mode = cb'.mode) (rank : Nat) :
    ∀ (fuel : Nat) (ifc : InlineState) (as : Absolutes), (∀ bs ∈ ifc.allRemaining, inlineAll UnmeasuredStyle bs) →
    inlineLoop F cb rank fuel ifc as = inlineLoop F cb' rank fuel ifc as := by
  intro fuel
  induction fuel with
  | zero => intro ifc as _; rfl
  | succ fuel ih =>
    intro ifc as ha
    simp only [inlineLoop, inlineStep]
    rcases hr : ifc.current.remainingBoxes with _ | ⟨child, remaining⟩
    · rcases hs : ifc.stack with _ | ⟨p, stack⟩
      · simp [finishLine, hw, hm]
      · simp only
        refine ih _ _ fun bs hbs => ha bs ?_
        simp only [InlineState.allRemaining, hs, List.map_cons, List.mem_cons] at hbs ⊢
        exact Or.inr hbs
    · have h1 := ha (child :: remaining) (by simp [InlineState.allRemaining, hr])
      have h2 : ∀ bs ∈ remaining :: ifc.stack.map PartialInlineBox.remaining, inlineAll UnmeasuredStyle bs := by
        intro bs hbs
        rcases List.mem_cons.1 hbs with rfl | hbs
        · exact h1.2
        · exact ha bs (by simp only [InlineState.allRemaining]; exact List.mem_cons_of_mem _ hbs)
      cases child with
      | inlineBox style first last children =>
        simp only
        have e : startInlineBox cb style first last children { ifc with current := { ifc.current with remainingBoxes := remaining } } =
            startInlineBox cb' style first last children { ifc with current := { ifc.current with remainingBoxes := remaining } } := by
          simp only [startInlineBox, hw, h1.1.1.adjustement cb'.inlineSize cb.blockSize cb'.blockSize]
        rw [e]
        refine ih _ _ fun bs hbs => ?_
        simp only [startInlineBox, InlineState.allRemaining, List.map_cons] at hbs
        rcases List.mem_cons.1 hbs with rfl | hbs
        · exact h1.1.2
        · exact h2 bs hbs
      | textRun style text =>
        simp only [layoutTextRun, hw, textLines_height hw hm]
        rcases ht : textLines F cb' style (cb'.inlineSize - ifc.inlinePosition) (text.length + 1) text
          { ifc with current := { ifc.current with remainingBoxes := remaining } } with _ | ifc'
        · rfl
        · simp only
          refine ih _ _ fun bs hbs => ?_
          rw [textLines_remaining _ _ _ _ ht] at hbs
          exact h2 bs hbs
      | outOfFlowAbsolutelyPositioned style floats contents =>
        simp only
        rcases staticInlineStart style ifc.inlinePosition with _ | i
        · rfl
        · exact ih _ _ h2
      | outOfFlowFloat style floats contents => exact ih _ _ h2

theorem layoutInline_height {cb cb' : ContainingBlock} (hw : cb.inlineSize = cb'.inlineSize) (hm : cb.mode = cb'.mode)
    (boxes : List InlineLevelBox) (h : inlineAll UnmeasuredStyle boxes) (rank : Nat) (as : Absolutes) :
    layoutInline F boxes cb rank as = layoutInline F boxes cb' rank as := by
  rw [layoutInline, layoutInline]
  refine inlineLoop_height hw hm rank _ _ _ fun bs hbs => ?_
  simp only [InlineState.allRemaining, initialInlineState, List.map_nil, List.mem_singleton] at hbs
  rw [hbs]
  exact h

theorem inlineLoop_rank (cb : ContainingBlock) (rank rank' : Nat) : ∀ (fuel : Nat) (ifc : InlineState) (as as' : Absolutes),
    (inlineLoop F cb rank fuel ifc as).map Prod.fst = (inlineLoop F cb rank' fuel ifc as').map Prod.fst := by
  intro fuel
  induction fuel with
  | zero => intro ifc as as'; rfl
  | succ fuel ih =>
    intro ifc as as'
    simp only [inlineLoop, inlineStep]
    rcases ifc.current.remainingBoxes with _ | ⟨child, remaining⟩
    · rcases ifc.stack with _ | ⟨p, stack⟩
      · rfl
      · exact ih _ _ _
    · cases child with
      | inlineBox style first last children => exact ih _ _ _
      | textRun style text =>
        simp only
        rcases layoutTextRun F cb style text { ifc with current := { ifc.current with remainingBoxes := remaining } } with _ | ifc'
        · rfl
        · exact ih _ _ _
      | outOfFlowAbsolutelyPositioned style floats contents =>
        simp only
        rcases staticInlineStart style ifc.inlinePosition with _ | i
        · rfl
        · exact ih _ _ _
      | outOfFlowFloat style floats contents => exact ih _ _ _

end Verif.Layout
