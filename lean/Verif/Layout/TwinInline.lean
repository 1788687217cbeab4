/- Inline formatting contexts that begin in the same way. -/
import Verif.Layout.BeforeLemmas
namespace Verif.Layout
open Verif.Style Verif.Text

variable {Err : Type} {F : FontApi Rat Err} {v : Look}

/-! ### The layout of a list of boxes, as a function -/

/-- The end of an inline box. -/
def popBox (ifc : InlineState) : Option InlineState :=
  match ifc.stack with
  | [] => none
  | p :: stack =>
    match p.finish ifc.current ifc.inlinePosition false with
    | (p, _, position) => some { ifc with inlinePosition := position, stack := stack, current := p.parentNestingLevel }

mutual
/-- The layout of a box that is in flow. -/
def execBox (F : FontApi Rat Err) (cb : ContainingBlock) : InlineLevelBox → InlineState → Option InlineState
  | .inlineBox s first last children, ifc =>
    match execAll F cb children (startInlineBox cb s first last [] ifc) with
    | none => none
    | some ifc => popBox ifc
  | .textRun s text, ifc => layoutTextRun F cb s text ifc
  | .outOfFlowAbsolutelyPositioned _ _ _, ifc => some ifc
  | .outOfFlowFloat _ _ _, ifc => some ifc
/-- The layout of boxes that are in flow. -/
def execAll (F : FontApi Rat Err) (cb : ContainingBlock) : List InlineLevelBox → InlineState → Option InlineState
  | [], ifc => some ifc
  | b :: bs, ifc =>
    match execBox F cb b ifc with
    | none => none
    | some ifc => execAll F cb bs ifc
end

/-- The state with other boxes to be laid out next. -/
def InlineState.withRest (ifc : InlineState) (rest : List InlineLevelBox) : InlineState :=
  { ifc with current := { ifc.current with remainingBoxes := rest } }

/-- The boxes that remain of each level do not play a role. -/
def NestingLevel.bare (l : NestingLevel) : NestingLevel := { l with remainingBoxes := [] }
/-- See `NestingLevel.bare`. -/
def PartialInlineBox.bare (p : PartialInlineBox) : PartialInlineBox := { p with parentNestingLevel := p.parentNestingLevel.bare }
/-- See `NestingLevel.bare`. -/
def InlineState.bare (ifc : InlineState) : InlineState :=
  { ifc with stack := ifc.stack.map PartialInlineBox.bare, current := ifc.current.bare }

/-- The same boxes remain. -/
def InlineState.Remains (ifc ifc' : InlineState) : Prop := ifc'.allRemaining = ifc.allRemaining

theorem startInlineBox_rest (cb : ContainingBlock) (s : ComputedValues) (first last : Bool) (children : List InlineLevelBox) (ifc : InlineState) :
    startInlineBox cb s first last children ifc = (startInlineBox cb s first last [] ifc).withRest children := rfl

theorem NestingLevel.bare_bare (l : NestingLevel) : l.bare.bare = l.bare := rfl

theorem startInlineBox_bare (cb : ContainingBlock) (s : ComputedValues) (first last : Bool) (children : List InlineLevelBox) (ifc : InlineState) :
    (startInlineBox cb s first last children ifc).bare = startInlineBox cb s first last [] ifc.bare := rfl

theorem finish_bare (p : PartialInlineBox) (level : NestingLevel) (x : Rat) (br : Bool) :
    p.bare.finish level.bare x br = ((p.finish level x br).1.bare, (p.finish level x br).2.1.bare, (p.finish level x br).2.2) := rfl

theorem breakLine_bare (cb : ContainingBlock) : ∀ (stack : List PartialInlineBox) (level : NestingLevel) (x : Rat) (lines : LinesBoxes),
    breakLine cb (stack.map PartialInlineBox.bare) level.bare x lines =
      ((breakLine cb stack level x lines).1.map PartialInlineBox.bare, (breakLine cb stack level x lines).2.1.bare, (breakLine cb stack level x lines).2.2) := by
  intro stack
  induction stack with
  | nil => intro level x lines; rfl
  | cons p rest ih =>
    intro level x lines
    have h := finish_bare p { level with inlineStart := 0 } x true
    simp only [List.map_cons, breakLine]
    rw [show ({ level.bare with inlineStart := 0 } : NestingLevel) = NestingLevel.bare { level with inlineStart := 0 } from rfl, h]
    simp only [ih, PartialInlineBox.bare]

theorem pushText_bare (s : ComputedValues) (shaped : ShapedSegment Rat) (ifc : InlineState) :
    (pushText s shaped ifc).bare = pushText s shaped ifc.bare := rfl

theorem textLines_bare (cb : ContainingBlock) (s : ComputedValues) (available : Rat) : ∀ (fuel : Nat) (chars : List Nat) (ifc : InlineState),
    textLines F cb s available fuel chars ifc.bare = (textLines F cb s available fuel chars ifc).map InlineState.bare := by
  intro fuel
  induction fuel with
  | zero => intro chars ifc; rfl
  | succ fuel ih =>
    intro chars ifc
    simp only [textLines]
    rcases shapeLine F (fontSizeOf s) available chars (ShapedSegment.new F) none with _ | ⟨shaped, rest⟩
    · rfl
    · simp only [← pushText_bare]
      by_cases hr : rest = []
      · simp [hr]
      · simp only [hr, if_false]
        rw [show (pushText s shaped ifc).bare.stack = (pushText s shaped ifc).stack.map PartialInlineBox.bare from rfl,
          show (pushText s shaped ifc).bare.current = (pushText s shaped ifc).current.bare from rfl, breakLine_bare, ← ih]
        rfl

theorem popBox_bare (ifc : InlineState) : popBox ifc.bare = (popBox ifc).map InlineState.bare := by
  simp only [popBox]
  rcases hs : ifc.stack with _ | ⟨p, stack⟩
  · simp [InlineState.bare, hs]
  · simp only [InlineState.bare, hs, List.map_cons, finish_bare]
    rfl

mutual
theorem execBox_bare (cb : ContainingBlock) : ∀ (b : InlineLevelBox) (ifc : InlineState), execBox F cb b ifc.bare = (execBox F cb b ifc).map InlineState.bare
  | .inlineBox s first last children => by
    intro ifc
    simp only [execBox, ← startInlineBox_bare cb s first last [] ifc, execAll_bare cb children]
    rcases execAll F cb children (startInlineBox cb s first last [] ifc) with _ | ifc1
    · rfl
    · exact popBox_bare ifc1
  | .textRun s text => fun ifc => textLines_bare cb s _ _ _ _
  | .outOfFlowAbsolutelyPositioned _ _ _ => fun _ => rfl
  | .outOfFlowFloat _ _ _ => fun _ => rfl
theorem execAll_bare (cb : ContainingBlock) : ∀ (bs : List InlineLevelBox) (ifc : InlineState), execAll F cb bs ifc.bare = (execAll F cb bs ifc).map InlineState.bare
  | [] => fun _ => rfl
  | b :: bs => by
    intro ifc
    simp only [execAll, execBox_bare cb b]
    rcases execBox F cb b ifc with _ | ifc1
    · rfl
    · exact execAll_bare cb bs ifc1
end

/-- The boxes that remain of the levels outside. -/
abbrev InlineState.outside (ifc : InlineState) : List (List InlineLevelBox) := ifc.stack.map PartialInlineBox.remaining

mutual
/-- The loop lays out the box that comes next. -/
theorem loop_box (cb : ContainingBlock) (rank : Nat) : ∀ (b : InlineLevelBox) (rest : List InlineLevelBox) (fuel : Nat) (ifc : InlineState)
    (r : FlowChildren × Absolutes), b.Only NoAbsolutes → inlineLoop F cb rank (fuel + b.cost) (ifc.withRest (b :: rest)) [] = some r →
    ∃ ifc', execBox F cb b ifc.bare = some ifc'.bare ∧ ifc'.current.remainingBoxes = rest ∧ ifc'.outside = ifc.outside ∧
      inlineLoop F cb rank fuel ifc' [] = some r
  | .inlineBox s first last children => by
    intro rest fuel ifc r hno h
    simp only [InlineLevelBox.cost] at h
    rw [show fuel + (costs children + 2) = (fuel + 1 + costs children) + 1 by omega] at h
    simp only [inlineLoop, inlineStep] at h
    have h' : inlineLoop F cb rank (fuel + 1 + costs children) ((startInlineBox cb s first last [] (ifc.withRest rest)).withRest (children ++ [])) [] = some r := by
      rw [List.append_nil]
      exact h
    obtain ⟨ifc1, e1, e2, e3, e4⟩ := loop_all cb rank children [] (fuel + 1) _ r hno h'
    simp only [inlineLoop, inlineStep, e2] at e4
    have e1' : execAll F cb children (startInlineBox cb s first last [] ifc.bare) = some ifc1.bare := e1
    rcases hs : ifc1.stack with _ | ⟨p, stack⟩
    · simp [hs, InlineState.outside, startInlineBox] at e3
    · simp only [hs] at e4
      simp only [InlineState.outside, hs, startInlineBox, List.map_cons, List.cons.injEq] at e3
      refine ⟨_, ?_, ?_, ?_, e4⟩
      · simp only [execBox, e1', popBox_bare]
        simp only [popBox, hs]
        rfl
      · exact e3.1
      · exact e3.2
  | .textRun s text => by
    intro rest fuel ifc r hno h
    simp only [InlineLevelBox.cost, inlineLoop, inlineStep, InlineState.withRest] at h
    rcases h1 : layoutTextRun F cb s text (ifc.withRest rest) with _ | ifc1
    · simp only [InlineState.withRest] at h1
      simp [h1] at h
    · have hr := textLines_remaining _ _ _ _ h1
      simp only [InlineState.allRemaining, List.cons.injEq] at hr
      refine ⟨ifc1, ?_, hr.1, hr.2, ?_⟩
      · have hb := execBox_bare (F := F) cb (.textRun s text) (ifc.withRest rest)
        simp only [execBox, h1] at hb
        exact hb
      · simp only [InlineState.withRest] at h1
        simpa only [h1] using h
  | .outOfFlowAbsolutelyPositioned _ _ _ => fun _ _ _ _ hno => absurd rfl hno.1
  | .outOfFlowFloat _ _ _ => fun rest _ ifc _ _ h => ⟨ifc.withRest rest, rfl, rfl, rfl, h⟩
/-- The loop lays out the boxes that come next. -/
theorem loop_all (cb : ContainingBlock) (rank : Nat) : ∀ (bs rest : List InlineLevelBox) (fuel : Nat) (ifc : InlineState)
    (r : FlowChildren × Absolutes), inlinesOnly NoAbsolutes bs → inlineLoop F cb rank (fuel + costs bs) (ifc.withRest (bs ++ rest)) [] = some r →
    ∃ ifc', execAll F cb bs ifc.bare = some ifc'.bare ∧ ifc'.current.remainingBoxes = rest ∧ ifc'.outside = ifc.outside ∧
      inlineLoop F cb rank fuel ifc' [] = some r
  | [] => fun rest fuel ifc r _ h => ⟨ifc.withRest rest, rfl, rfl, rfl, h⟩
  | b :: bs => by
    intro rest fuel ifc r hno h
    simp only [costs] at h
    rw [show fuel + (b.cost + costs bs) = (fuel + costs bs) + b.cost by omega] at h
    obtain ⟨ifc1, e1, e2, e3, e4⟩ := loop_box cb rank b (bs ++ rest) (fuel + costs bs) ifc r hno.1 h
    rw [← (show ifc1.withRest (bs ++ rest) = ifc1 by rw [← e2]; rfl)] at e4
    obtain ⟨ifc2, e5, e6, e7, e8⟩ := loop_all cb rank bs rest fuel ifc1 r hno.2 e4
    exact ⟨ifc2, by simp only [execAll, e1, e5], e6, e7.trans e3, e8⟩
end

/-- The layout of an inline formatting context is that of its boxes, and the last line. -/
theorem layoutInline_exec {boxes : List InlineLevelBox} {cb : ContainingBlock} {rank : Nat} {fc : FlowChildren} {as : Absolutes}
    (hno : inlinesOnly NoAbsolutes boxes) (h : layoutInline F boxes cb rank [] = some (fc, as)) :
    ∃ ifc, execAll F cb boxes (initialInlineState []) = some ifc ∧ ifc.stack = [] ∧
      fc = ⟨(finishLine ifc.lineBoxes ifc.current cb).1.boxes, (finishLine ifc.lineBoxes ifc.current cb).1.nextLineBlockPosition, .zero⟩ := by
  simp only [layoutInline, Nat.add_comm (costs boxes) 1] at h
  have h' : inlineLoop F cb rank (1 + costs boxes) ((initialInlineState []).withRest (boxes ++ [])) [] = some (fc, as) := by
    rw [List.append_nil]
    exact h
  obtain ⟨ifc, e1, e2, e3, e4⟩ := loop_all cb rank boxes [] 1 _ _ hno h'
  have hs : ifc.stack = [] := by simpa [InlineState.outside, initialInlineState] using e3
  simp only [inlineLoop, inlineStep, e2, hs] at e4
  cases e4
  exact ⟨ifc.bare, e1, by simp [InlineState.bare, hs], rfl⟩

end Verif.Layout
