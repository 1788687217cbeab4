/- C125: the inline elements of a paragraph. -/
import Verif.Layout.RowsText
namespace Verif.Layout.Machine
open Verif.Style Verif.Text Verif.Float

attribute [local instance] singleNumbers exactNumbers

variable {k : Nat} {T W : Rat}

/-- The nesting levels correspond, and are at most at `W`. -/
structure LevelsAgree (k : Nat) (T W : Rat) (l : NestingLevel Single) (l' : NestingLevel Rat) : Prop where
  boxes : l.remainingBoxes = l'.remainingBoxes
  fragments : List.Forall₂ (RowsAgree (WholeIs k true T)) l.fragmentsSoFar l'.fragmentsSoFar
  start : WholeIs k false W l.inlineStart l'.inlineStart

/-- The inline boxes correspond. -/
structure PartialsAgree (k : Nat) (T W : Rat) (p : PartialInlineBox Single) (p' : PartialInlineBox Rat) : Prop where
  style : p.style = p'.style
  last : p.lastBoxTreeFragment = p'.lastBoxTreeFragment
  own : lengthsSum p.style ≤ W
  corner : WholeIs k false (2 * W) p.startCorner.inline p'.startCorner.inline
  padding : SideWidthsAgree (WholeIs k false (lengthsSum p.style)) p.padding p'.padding
  border : SideWidthsAgree (WholeIs k false (lengthsSum p.style)) p.border p'.border
  margin : SideWidthsAgree (WholeIs k false (lengthsSum p.style)) p.margin p'.margin
  parent : LevelsAgree k T W p.parentNestingLevel p'.parentNestingLevel

/-- The states correspond, at a position that is at most `X`. -/
structure LinesAgree (k : Nat) (T W X : Rat) (i : InlineState Single) (i' : InlineState Rat) : Prop where
  lines : List.Forall₂ (RowsAgree (WholeIs k true T)) i.lineBoxes.boxes i'.lineBoxes.boxes
  position : WholeIs k false X i.inlinePosition i'.inlinePosition
  stack : List.Forall₂ (PartialsAgree k T W) i.stack i'.stack
  current : LevelsAgree k T W i.current i'.current

/-- What is to be done after each of the open inline boxes. -/
def plan (stack : List (PartialInlineBox Single)) : List (ComputedValues × List InlineLevelBox) :=
  stack.map fun p => (p.style, p.parentNestingLevel.remainingBoxes)

/-- How far that can go. -/
def planReach (units : List Nat → Nat) (e : Nat) : List (ComputedValues × List InlineLevelBox) → Rat
  | [] => 0
  | (style, boxes) :: rest => 4 * lengthsSum style + lineReach units e boxes + planReach units e rest

variable (S : Simulation (R := Single) (R' := Rat) T (WholeIs k))
include S

omit S in
theorem sides_mono {B C : Rat} {s : Sides Single} {s' : Sides Rat} (h : SideWidthsAgree (WholeIs k false B) s s') (hBC : B ≤ C) :
    SideWidthsAgree (WholeIs k false C) s s' := ⟨⟨h.1.1, h.1.2.1, h.1.2.2.trans hBC⟩, ⟨h.2.1, h.2.2.1, h.2.2.2.trans hBC⟩⟩

theorem sides_fine {B : Rat} {s : Sides Single} {s' : Sides Rat} (h : SideWidthsAgree (WholeIs k false B) s s') (hB : B ≤ T) :
    SideWidthsAgree (WholeIs k true T) s s' := ⟨S.mono (S.fine h.1) hB, S.mono (S.fine h.2) hB⟩

theorem startless_rows {B : Rat} {s : Sides Single} {s' : Sides Rat} (h : SideWidthsAgree (WholeIs k false B) s s') :
    SideWidthsAgree (WholeIs k false B) s.startless s'.startless := ⟨S.mono S.zero (S.nonneg h.1), h.2⟩

theorem endless_rows {B : Rat} {s : Sides Single} {s' : Sides Rat} (h : SideWidthsAgree (WholeIs k false B) s s') :
    SideWidthsAgree (WholeIs k false B) s.endless s'.endless := ⟨h.1, S.mono S.zero (S.nonneg h.2)⟩

theorem finish_rows {p : PartialInlineBox Single} {p' : PartialInlineBox Rat} {level : NestingLevel Single} {level' : NestingLevel Rat}
    {pos : Single} {pos' : Rat} {X : Rat} (hp : PartialsAgree k T W p p') (hl : LevelsAgree k T W level level')
    (hx : WholeIs k false X pos pos') (hX : X ≤ W) (hT : 4 * W ≤ T) (brk : Bool) :
    PartialsAgree k T W (p.finish level pos brk).1 (p'.finish level' pos' brk).1 ∧
    LevelsAgree k T W (p.finish level pos brk).2.1 (p'.finish level' pos' brk).2.1 ∧
    WholeIs k false (X + 3 * lengthsSum p.style) (p.finish level pos brk).2.2 (p'.finish level' pos' brk).2.2 := by
  have n0 := lengthsSum_nonneg p.style
  have nX := S.nonneg hx
  have own := hp.own
  have hc : ∀ (b : Bool) {s : Sides Single} {s' : Sides Rat}, SideWidthsAgree (WholeIs k false (lengthsSum p.style)) s s' →
      SideWidthsAgree (WholeIs k true T) (if b = true then s else s.endless) (if b = true then s' else s'.endless) := by
    intro b s s' h
    cases b
    · exact sides_fine S (endless_rows S h) (by linarith)
    · exact sides_fine S h (by linarith)
  have hfrag := List.rel_append hp.parent.fragments (.cons
    (RowsAgree.box (b := { style := p.style
                           contentRect := ⟨p.startCorner, ⟨pos - p.startCorner.inline, level.maxBlockSize⟩⟩
                           padding := if (p.lastBoxTreeFragment && !brk) = true then p.padding else p.padding.endless
                           border := if (p.lastBoxTreeFragment && !brk) = true then p.border else p.border.endless
                           margin := if (p.lastBoxTreeFragment && !brk) = true then p.margin else p.margin.endless
                           blockMarginsCollapsedWithChildren := CollapsedBlockMargins.zero })
      (b' := { style := p'.style
               contentRect := ⟨p'.startCorner, ⟨pos' - p'.startCorner.inline, level'.maxBlockSize⟩⟩
               padding := if (p.lastBoxTreeFragment && !brk) = true then p'.padding else p'.padding.endless
               border := if (p.lastBoxTreeFragment && !brk) = true then p'.border else p'.border.endless
               margin := if (p.lastBoxTreeFragment && !brk) = true then p'.margin else p'.margin.endless
               blockMarginsCollapsedWithChildren := CollapsedBlockMargins.zero })
      hp.style (S.fine (S.mono hp.corner (by linarith))) (S.fine (S.mono (S.sub hx hp.corner (by linarith)) (by linarith)))
      (hc _ hp.padding) (hc _ hp.border) (hc _ hp.margin) hl.fragments) .nil)
  unfold PartialInlineBox.finish
  simp only [← hp.last]
  refine ⟨⟨hp.style, rfl, hp.own, hp.corner, hp.padding, hp.border, hp.margin, ⟨hp.parent.boxes, hfrag, hp.parent.start⟩⟩,
    ⟨hl.boxes, .nil, hl.start⟩, ?_⟩
  split
  · exact S.mono (S.add hx (S.add (S.add hp.padding.2 hp.border.2 (by linarith)) hp.margin.2 (by linarith)) (by linarith)) (by linarith)
  · exact S.mono hx (by linarith)

omit S in
theorem finish_break {R : Type} [Numbers R] (p : PartialInlineBox R) (level : NestingLevel R) (pos : R) : (p.finish level pos true).2.2 = pos := by
  simp [PartialInlineBox.finish]

theorem finishLine_rows {lines : LinesBoxes Single} {lines' : LinesBoxes Rat} {top : NestingLevel Single} {top' : NestingLevel Rat}
    {cb : ContainingBlock Single} {cb' : ContainingBlock Rat} {I : Rat} (hI : WholeIs k false I cb.inlineSize cb'.inlineSize) (hIT : I ≤ T)
    (hmode : cb.mode = cb'.mode) (hl : List.Forall₂ (RowsAgree (WholeIs k true T)) lines.boxes lines'.boxes)
    (ht : LevelsAgree k T W top top') :
    List.Forall₂ (RowsAgree (WholeIs k true T)) (finishLine lines top cb).1.boxes (finishLine lines' top' cb').1.boxes ∧
    LevelsAgree k T W (finishLine lines top cb).2 (finishLine lines' top' cb').2 := by
  simp only [finishLine, hmode]
  exact ⟨List.rel_append hl (.cons (.anonymous (S.mono S.zero (le_trans (S.nonneg hI) hIT)) (S.fine (S.mono hI hIT)) ht.fragments) .nil),
    ht.boxes, .nil, ht.start⟩

theorem breakLine_rows {cb : ContainingBlock Single} {cb' : ContainingBlock Rat} {I : Rat} (hI : WholeIs k false I cb.inlineSize cb'.inlineSize)
    (hIT : I ≤ T) (hmode : cb.mode = cb'.mode) (hT : 4 * W ≤ T) :
    ∀ (stack : List (PartialInlineBox Single)) (stack' : List (PartialInlineBox Rat)) (level : NestingLevel Single) (level' : NestingLevel Rat)
      (pos : Single) (pos' : Rat) (lines : LinesBoxes Single) (lines' : LinesBoxes Rat), List.Forall₂ (PartialsAgree k T W) stack stack' →
      LevelsAgree k T W level level' → WholeIs k false W pos pos' → List.Forall₂ (RowsAgree (WholeIs k true T)) lines.boxes lines'.boxes →
      List.Forall₂ (PartialsAgree k T W) (breakLine cb stack level pos lines).1 (breakLine cb' stack' level' pos' lines').1 ∧
      LevelsAgree k T W (breakLine cb stack level pos lines).2.1 (breakLine cb' stack' level' pos' lines').2.1 ∧
      List.Forall₂ (RowsAgree (WholeIs k true T)) (breakLine cb stack level pos lines).2.2.boxes (breakLine cb' stack' level' pos' lines').2.2.boxes ∧
      plan (breakLine cb stack level pos lines).1 = plan stack ∧
      (breakLine cb stack level pos lines).2.1.remainingBoxes = level.remainingBoxes := by
  intro stack
  induction stack with
  | nil =>
    intro stack' level level' pos pos' lines lines' hs hl hx hb
    cases hs
    have hW := S.nonneg hx
    have h := finishLine_rows S hI hIT hmode hb (top := { level with inlineStart := 0 }) (top' := { level' with inlineStart := 0 })
      ⟨hl.boxes, hl.fragments, S.mono S.zero hW⟩
    simp only [breakLine]
    exact ⟨.nil, h.2, h.1, trivial, rfl⟩
  | cons p rest ih =>
    intro stack' level level' pos pos' lines lines' hs hl hx hb
    have hW := S.nonneg hx
    cases hs with
    | @cons _ p' _ rest' hp hr =>
      obtain ⟨f1, f2, -⟩ := finish_rows S hp (level := { level with inlineStart := 0 }) (level' := { level' with inlineStart := 0 })
        ⟨hl.boxes, hl.fragments, S.mono S.zero hW⟩ hx (le_refl W) hT true
      have h := ih rest' (p.finish { level with inlineStart := 0 } pos true).1.parentNestingLevel
        (p'.finish { level' with inlineStart := 0 } pos' true).1.parentNestingLevel pos pos' lines lines' hr f1.parent hx hb
      obtain ⟨h1, h2, h3, h4, h5⟩ := h
      simp only [breakLine, finish_break]
      refine ⟨.cons ⟨f1.style, f1.last, f1.own, S.mono S.zero (by linarith), startless_rows S f1.padding, startless_rows S f1.border,
        startless_rows S f1.margin, h2⟩ h1, f2, h3, ?_, rfl⟩
      simp only [plan, List.map_cons] at h4 ⊢
      rw [h4, h5]
      rfl

section
variable {Err : Type} {api : FontApi Single Err} {advance : Nat → Nat} {e : Nat}

/-- The lines of a text. -/
theorem textLines_rows (hk : k ≤ 100) (hT' : T < 2 ^ 23 / 2 ^ k) (hf : EmFont api (2 ^ e) advance) (he : e < 16)
    {cb : ContainingBlock Single} {cb' : ContainingBlock Rat} {I : Rat} (hI : WholeIs k false I cb.inlineSize cb'.inlineSize)
    (hIT : I ≤ T) (hmode : cb.mode = cb'.mode) (hT : 4 * W ≤ T) {style : ComputedValues} (hpos : 0 < fontSizeOf style)
    (hw1 : Whole k (fontSizeOf style)) (hw2 : Whole k (fontSizeOf style / 2 ^ e)) {U : Nat} {B : Rat} (hBW : B ≤ W)
    (hsize : |fontSizeOf style| ≤ B)
    {available : Single} {available' : Rat} (ha : Exactly available available') :
    ∀ (fuel : Nat) (chars : List Nat) (i : InlineState Single) (i' : InlineState Rat) (X : Rat), LinesAgree k T W X i i' →
      X + |fontSizeOf style| * (U / 2 ^ e) ≤ B → textUnits api advance chars ≤ U →
      BothAgree (fun j j' => (∃ Y ≤ B, LinesAgree k T W Y j j') ∧ plan j.stack = plan i.stack ∧
          j.current.remainingBoxes = i.current.remainingBoxes)
        (textLines api cb style available fuel chars i) (textLines (exactFont api (2 ^ e) advance) cb' style available' fuel chars i') := by
  have hsz : Exactly (Single.round (fontSizeOf style)) (fontSizeOf style) := by
    refine whole_round (by omega) false hw1 (lt_of_le_of_lt hsize (lt_of_le_of_lt (show B ≤ T by linarith [abs_nonneg (fontSizeOf style)]) (lt_trans hT' ?_)))
    exact div_lt_div_of_pos_right (by norm_num) (by positivity)
  have e1 : (Numbers.lengths (R := Single) style).fontSize = Single.round (fontSizeOf style) := rfl
  have e2 : (Numbers.lengths (R := Rat) style).fontSize = fontSizeOf style := rfl
  intro fuel
  induction fuel with
  | zero =>
    intro chars i i' X hi hX hu a h
    rw [textLines] at h
    cases h
  | succ fuel ih =>
    intro chars i i' X hi hX hu
    have nX := S.nonneg hi.position
    have nU : (0 : Rat) ≤ |fontSizeOf style| * (U / 2 ^ e) := by positivity
    have hUT : |fontSizeOf style| * (U / 2 ^ e) ≤ T := by linarith [abs_nonneg (fontSizeOf style)]
    have hU : U < 2 ^ 24 := by
      obtain ⟨n, hn⟩ := hw2
      have hp : (0 : Rat) < 2 ^ k := by positivity
      have hq : 0 < fontSizeOf style / 2 ^ e := by positivity
      have hn1 : (1 : Rat) ≤ n := by
        rw [hn] at hq
        have : (0 : Rat) < n := by
          by_contra hc
          exact absurd hq (not_lt.2 (div_nonpos_of_nonpos_of_nonneg (not_lt.1 hc) hp.le))
        exact_mod_cast Int.add_one_le_of_lt (by exact_mod_cast this : (0 : Int) < n)
      have h1 : |fontSizeOf style| * (U / 2 ^ e) = (n * U) / 2 ^ k := by
        rw [abs_of_pos hpos, mul_div_assoc', mul_div_right_comm, hn, div_mul_eq_mul_div]
      rw [h1] at hUT
      have h2 := lt_of_le_of_lt hUT hT'
      rw [div_lt_div_iff_of_pos_right hp] at h2
      have hU0 : (0 : Rat) ≤ U := by positivity
      have h3 : (U : Rat) < 2 ^ 23 := by nlinarith
      have : U < 2 ^ 23 := by exact_mod_cast h3
      omega
    have hzero : AdvanceIs e 0 (ShapedSegment.new api).advanceWidth (ShapedSegment.new (exactFont api (2 ^ e) advance)).advanceWidth := by
      simp only [ShapedSegment.new, hf.zero, exactFont, AdvanceIs]
      exact ⟨⟨Single.zero_finite, Single.zero_value⟩, by simp⟩
    have hshape := shapeLine_rows hf he hk hT' hsz hw2 hU hUT ha chars 0 (ShapedSegment.new api) (ShapedSegment.new (exactFont api (2 ^ e) advance)) none none
      rfl hzero (by omega) (.inl ⟨rfl, rfl⟩)
    intro j hj j' hj'
    unfold textLines at hj hj'
    rw [e1] at hj
    rw [e2] at hj'
    rcases s1 : shapeLine api (Single.round (fontSizeOf style)) available chars (ShapedSegment.new api) none with _ | ⟨seg, rest⟩
    · rw [s1] at hj; cases hj
    rcases s2 : shapeLine (exactFont api (2 ^ e) advance) (fontSizeOf style) available' chars (ShapedSegment.new (exactFont api (2 ^ e) advance)) none
      with _ | ⟨seg', rest'⟩
    · rw [s2] at hj'; cases hj'
    obtain ⟨q1, q2, q3, u, q4, q5⟩ := hshape _ s1 _ s2
    simp only at q1 q2 q3 q5
    subst q1
    rw [s1] at hj
    rw [s2] at hj'
    have hwidth := text_width hk hT' hsz hw2 q5 (B := |fontSizeOf style| * (U / 2 ^ e)) (mul_le_mul_of_nonneg_left
      (div_le_div_of_nonneg_right (by exact_mod_cast q4) (by positivity)) (abs_nonneg _)) hUT
    have hpush : LinesAgree k T W (X + |fontSizeOf style| * (U / 2 ^ e)) (pushText style seg i) (pushText style seg' i') := by
      refine ⟨hi.lines, S.add hi.position hwidth (by linarith [abs_nonneg (fontSizeOf style)]), hi.stack, hi.current.boxes, ?_, hi.current.start⟩
      refine List.rel_append hi.current.fragments (.cons (.text ?_ (S.fine (S.mono hwidth hUT)) q3 q5.1) .nil)
      exact S.fine (S.mono (S.sub hi.position hi.current.start (by linarith)) (by linarith))
    simp only at hj hj'
    by_cases hrest : rest = []
    · rw [if_pos hrest] at hj hj'
      cases hj; cases hj'
      exact ⟨⟨_, hX, hpush⟩, rfl, rfl⟩
    · rw [if_neg hrest] at hj hj'
      obtain ⟨b1, b2, b3, b4, b5⟩ := breakLine_rows S hI hIT hmode hT _ _ _ _ _ _ _ _ hpush.stack hpush.current
        (S.mono hpush.position (le_trans hX hBW)) hpush.lines
      have h := ih rest ⟨(breakLine cb (pushText style seg i).stack (pushText style seg i).current (pushText style seg i).inlinePosition
            (pushText style seg i).lineBoxes).2.2, 0, (breakLine cb (pushText style seg i).stack (pushText style seg i).current
            (pushText style seg i).inlinePosition (pushText style seg i).lineBoxes).1, (breakLine cb (pushText style seg i).stack
            (pushText style seg i).current (pushText style seg i).inlinePosition (pushText style seg i).lineBoxes).2.1⟩
          ⟨(breakLine cb' (pushText style seg' i').stack (pushText style seg' i').current (pushText style seg' i').inlinePosition
            (pushText style seg' i').lineBoxes).2.2, 0, (breakLine cb' (pushText style seg' i').stack (pushText style seg' i').current
            (pushText style seg' i').inlinePosition (pushText style seg' i').lineBoxes).1, (breakLine cb' (pushText style seg' i').stack
            (pushText style seg' i').current (pushText style seg' i').inlinePosition (pushText style seg' i').lineBoxes).2.1⟩
          0 ⟨b3, S.zero, b1, b2⟩ (by linarith) q2 j hj j' hj'
      refine ⟨h.1, h.2.1.trans b4, h.2.2.trans b5⟩

variable (hst : ∀ style, WholeStyle k style → lengthsSum style ≤ T →
    StylesAgree (R := Single) (R' := Rat) (WholeIs k false (lengthsSum style)) (Numbers.lengths style) (Numbers.lengths style))
include hst

/-- An inline element. -/
theorem start_rows {cb : ContainingBlock Single} {cb' : ContainingBlock Rat} {i : InlineState Single} {i' : InlineState Rat} {X : Rat}
    (hi : LinesAgree k T W X i i') (style : ComputedValues) (first last : Bool) (children : List InlineLevelBox) (hs : WholeStyle k style)
    (hX : X + 4 * lengthsSum style ≤ W) (hT : 4 * W ≤ T) :
    LinesAgree k T W (X + 3 * lengthsSum style) (startInlineBox cb style first last children i) (startInlineBox cb' style first last children i') := by
  have n0 := lengthsSum_nonneg style
  have nX := S.nonneg hi.position
  have hst := hst style hs (by linarith)
  obtain ⟨-, -, -, hp, hb, hm⟩ := id hst
  have p := resolve_agree hp cb.inlineSize cb'.inlineSize
  have b := resolve_agree hb cb.inlineSize cb'.inlineSize
  have m := resolveAuto_agree hm cb.inlineSize cb'.inlineSize
  have hz : WholeIs k false (lengthsSum style) (0 : Single) (0 : Rat) := S.mono S.zero n0
  have m1 := autoIs_agree m.1 hz
  have m2 := autoIs_agree m.2.1 hz
  have r := (relative_agree S hst n0 cb.inlineSize cb'.inlineSize cb.blockSize cb'.blockSize).1
  unfold startInlineBox
  cases first
  · simp only [Bool.false_eq_true, if_false]
    have hx : WholeIs k false (X + 3 * lengthsSum style) i.inlinePosition i'.inlinePosition := S.mono hi.position (by linarith)
    exact ⟨hi.lines, hx, .cons ⟨rfl, rfl, by simp only; linarith,
      S.mono (S.add (S.sub hi.position hi.current.start (by linarith)) r (by linarith)) (by linarith), ⟨hz, p.2.1⟩, ⟨hz, b.2.1⟩, ⟨hz, m2⟩, hi.current⟩ hi.stack,
      rfl, .nil, S.mono hx (by linarith)⟩
  · simp only [if_true]
    have hx := S.mono (S.add hi.position (S.add (S.add p.1 b.1 (by linarith)) m1 (by linarith)) (by linarith))
      (show _ ≤ X + 3 * lengthsSum style by linarith)
    exact ⟨hi.lines, hx, .cons ⟨rfl, rfl, by simp only; linarith,
      S.mono (S.add (S.sub hx hi.current.start (by linarith)) r (by linarith)) (by linarith), ⟨p.1, p.2.1⟩, ⟨b.1, b.2.1⟩, ⟨m1, m2⟩, hi.current⟩ hi.stack,
      rfl, .nil, S.mono hx (by linarith)⟩

omit S hst in
mutual
theorem inlineReach_nonneg (units : List Nat → Nat) : ∀ b : InlineLevelBox, 0 ≤ b.reach units e
  | .inlineBox style _ _ children => by
    rw [InlineLevelBox.reach]; linarith [lengthsSum_nonneg style, lineReach_nonneg units children]
  | .textRun style text => by rw [InlineLevelBox.reach]; positivity
  | .outOfFlowAbsolutelyPositioned _ _ _ => by rw [InlineLevelBox.reach]
  | .outOfFlowFloat _ _ _ => by rw [InlineLevelBox.reach]
theorem lineReach_nonneg (units : List Nat → Nat) : ∀ bs : List InlineLevelBox, 0 ≤ lineReach units e bs
  | [] => by rw [lineReach]
  | b :: bs => by rw [lineReach]; exact add_nonneg (inlineReach_nonneg units b) (lineReach_nonneg units bs)
end

omit S hst in
theorem planReach_nonneg (units : List Nat → Nat) : ∀ p, 0 ≤ planReach units e p
  | [] => by rw [planReach]
  | (style, boxes) :: rest => by
    rw [planReach]; linarith [lengthsSum_nonneg style, lineReach_nonneg (e := e) units boxes, planReach_nonneg units rest]

/-- The states correspond, and what is to be done will not go too far. -/
def GoodLine (k e : Nat) (units : List Nat → Nat) (T W X : Rat) (i : InlineState Single) (i' : InlineState Rat) : Prop :=
  LinesAgree k T W X i i' ∧ X + lineReach units e i.current.remainingBoxes + planReach units e (plan i.stack) ≤ W ∧
  ruledLine k e i.current.remainingBoxes ∧ ∀ q ∈ plan i.stack, ruledLine k e q.2

/-- One step, for both. -/
def StepsAgree (k e : Nat) (units : List Nat → Nat) (T W : Rat) :
    (InlineState Single × Absolutes Single) ⊕ (FlowChildren Single × Absolutes Single) →
    (InlineState Rat × Absolutes Rat) ⊕ (FlowChildren Rat × Absolutes Rat) → Prop
  | .inl (i, a), .inl (i', a') => a = [] ∧ a' = [] ∧ ∃ X, GoodLine k e units T W X i i'
  | .inr (c, a), .inr (c', a') => List.Forall₂ (RowsAgree (WholeIs k true T)) c.fragments c'.fragments ∧ a = [] ∧ a' = []
  | _, _ => False

theorem inlineStep_rows (hk : k ≤ 100) (hT' : T < 2 ^ 23 / 2 ^ k) (hf : EmFont api (2 ^ e) advance) (he : e < 16)
    {cb : ContainingBlock Single} {cb' : ContainingBlock Rat} {I : Rat} (hI : WholeIs k false I cb.inlineSize cb'.inlineSize)
    (hIT : I + 4 * W ≤ T) (hmode : cb.mode = cb'.mode) {rank : Nat} {i : InlineState Single} {i' : InlineState Rat} {X : Rat}
    (hi : GoodLine k e (textUnits api advance) T W X i i') :
    BothAgree (StepsAgree k e (textUnits api advance) T W) (inlineStep api cb rank i [])
      (inlineStep (exactFont api (2 ^ e) advance) cb' rank i' []) := by
  obtain ⟨hi, hX, hr, hq⟩ := hi
  have nI := S.nonneg hI
  have nX := S.nonneg hi.position
  have nP := planReach_nonneg (e := e) (textUnits api advance) (plan i.stack)
  have nL := lineReach_nonneg (e := e) (textUnits api advance) i.current.remainingBoxes
  obtain ⟨lines, pos, stack, ⟨boxes, frags, start, mb⟩⟩ := i
  obtain ⟨lines', pos', stack', ⟨boxes', frags', start', mb'⟩⟩ := i'
  have hboxes : boxes = boxes' := hi.current.boxes
  subst hboxes
  simp only at hX hr hq nP nL
  intro a ha a' ha'
  unfold inlineStep at ha ha'
  cases boxes with
  | nil =>
    simp only at ha ha'
    have hs := hi.stack
    simp only at hs
    cases hs with
    | nil =>
      simp only at ha ha'
      cases ha; cases ha'
      exact ⟨(finishLine_rows S hI (by linarith) hmode hi.lines hi.current).1, rfl, rfl⟩
    | @cons p p' rest rest' hp hrest =>
      simp only at ha ha'
      cases ha; cases ha'
      simp only [plan, List.map_cons, planReach, lineReach] at hX nP
      have n1 := planReach_nonneg (e := e) (textUnits api advance) (plan rest)
      have n2 := lineReach_nonneg (e := e) (textUnits api advance) p.parentNestingLevel.remainingBoxes
      have n3 := lengthsSum_nonneg p.style
      rw [plan] at n1
      obtain ⟨f1, f2, f3⟩ := finish_rows S hp hi.current hi.position (by linarith) (by linarith) false
      refine ⟨rfl, rfl, X + 3 * lengthsSum p.style, ⟨hi.lines, f3, hrest, f1.parent⟩, ?_, ?_, ?_⟩
      · have : (p.finish ⟨[], frags, start, mb⟩ pos false).1.parentNestingLevel.remainingBoxes = p.parentNestingLevel.remainingBoxes := rfl
        simp only [this, plan]
        linarith
      · exact hq (p.style, p.parentNestingLevel.remainingBoxes) (by simp [plan])
      · intro q h
        exact hq q (by simp only [plan, List.map_cons]; exact List.mem_cons_of_mem _ h)
  | cons child remaining =>
    simp only at ha ha'
    rw [ruledLine] at hr
    rw [lineReach] at hX nL
    have nR := lineReach_nonneg (e := e) (textUnits api advance) remaining
    have hj : LinesAgree k T W X ⟨lines, pos, stack, ⟨remaining, frags, start, mb⟩⟩ ⟨lines', pos', stack', ⟨remaining, frags', start', mb'⟩⟩ :=
      ⟨hi.lines, hi.position, hi.stack, rfl, hi.current.fragments, hi.current.start⟩
    cases child with
    | outOfFlowAbsolutelyPositioned => exact (by have := hr.1; rw [InlineLevelBox.Ruled] at this; exact this.elim)
    | outOfFlowFloat =>
      cases ha; cases ha'
      rw [InlineLevelBox.reach] at hX
      exact ⟨rfl, rfl, X, hj, by simp only; linarith, hr.2, hq⟩
    | inlineBox style first last children =>
      cases ha; cases ha'
      rw [InlineLevelBox.reach] at hX
      rw [InlineLevelBox.Ruled] at hr
      have n0 := lengthsSum_nonneg style
      have nC := lineReach_nonneg (e := e) (textUnits api advance) children
      refine ⟨rfl, rfl, X + 3 * lengthsSum style, start_rows S hst hj style first last children hr.1.1 (by linarith) (by linarith), ?_, hr.1.2, ?_⟩
      · simp only [startInlineBox, plan, List.map_cons, planReach]
        rw [plan] at hX
        linarith
      · intro q h
        simp only [startInlineBox, plan, List.map_cons, List.mem_cons] at h
        rcases h with rfl | h
        · exact hr.2
        · exact hq q h
    | textRun style text =>
      rw [InlineLevelBox.reach] at hX
      rw [InlineLevelBox.Ruled] at hr
      obtain ⟨⟨w1, w2, w3⟩, hr⟩ := hr
      simp only [layoutTextRun] at ha ha'
      have hav := S.sub hI hi.position (show I + X ≤ T by
        have : (0 : Rat) ≤ |fontSizeOf style| * (1 + (textUnits api advance text : Nat) / 2 ^ e) := by positivity
        linarith)
      have nS := abs_nonneg (fontSizeOf style)
      have nU : (0 : Rat) ≤ |fontSizeOf style| * ((textUnits api advance text : Nat) / 2 ^ e) := by positivity
      rw [mul_add, mul_one] at hX
      have h := textLines_rows S hk hT' hf he hI (by linarith) hmode (by linarith) w1 w2 w3 (U := textUnits api advance text)
        (B := W - lineReach (textUnits api advance) e remaining - planReach (textUnits api advance) e (plan stack)) (by linarith) (by linarith)
        hav.1 (text.length + 1) text _ _ X hj (by linarith) (le_refl _)
      rcases e1 : textLines api cb style (cb.inlineSize - pos) (text.length + 1) text ⟨lines, pos, stack, ⟨remaining, frags, start, mb⟩⟩ with _ | j
      · rw [e1] at ha; cases ha
      rcases e2 : textLines (exactFont api (2 ^ e) advance) cb' style (cb'.inlineSize - pos') (text.length + 1) text
          ⟨lines', pos', stack', ⟨remaining, frags', start', mb'⟩⟩ with _ | j'
      · rw [e2] at ha'; cases ha'
      rw [e1] at ha
      rw [e2] at ha'
      cases ha; cases ha'
      obtain ⟨⟨Y, hY, g1⟩, g2, g3⟩ := h j e1 j' e2
      simp only at g2 g3
      refine ⟨rfl, rfl, Y, g1, ?_, ?_, ?_⟩
      · rw [g2, g3]; linarith
      · rw [g3]; exact hr
      · rw [g2]; exact hq

theorem inlineLoop_rows (hk : k ≤ 100) (hT' : T < 2 ^ 23 / 2 ^ k) (hf : EmFont api (2 ^ e) advance) (he : e < 16)
    {cb : ContainingBlock Single} {cb' : ContainingBlock Rat} {I : Rat} (hI : WholeIs k false I cb.inlineSize cb'.inlineSize)
    (hIT : I + 4 * W ≤ T) (hmode : cb.mode = cb'.mode) {rank : Nat} : ∀ (fuel : Nat) (i : InlineState Single) (i' : InlineState Rat) (X : Rat),
    GoodLine k e (textUnits api advance) T W X i i' →
    BothAgree (fun p p' => List.Forall₂ (RowsAgree (WholeIs k true T)) p.1.fragments p'.1.fragments ∧ p.2 = [] ∧ p'.2 = [])
      (inlineLoop api cb rank fuel i []) (inlineLoop (exactFont api (2 ^ e) advance) cb' rank fuel i' []) := by
  intro fuel
  induction fuel with
  | zero =>
    intro i i' X hi a ha
    rw [inlineLoop] at ha
    cases ha
  | succ fuel ih =>
    intro i i' X hi a ha a' ha'
    have h := inlineStep_rows S hst hk hT' hf he hI hIT hmode (rank := rank) hi
    unfold inlineLoop at ha ha'
    rcases e1 : inlineStep api cb rank i [] with _ | x
    · rw [e1] at ha; cases ha
    rcases e2 : inlineStep (exactFont api (2 ^ e) advance) cb' rank i' [] with _ | x'
    · rw [e2] at ha'; cases ha'
    have h := h x e1 x' e2
    rw [e1] at ha
    rw [e2] at ha'
    rcases x with ⟨j, as⟩ | ⟨c, as⟩ <;> rcases x' with ⟨j', as'⟩ | ⟨c', as'⟩
    · obtain ⟨rfl, rfl, Y, hY⟩ := h
      exact ih j j' Y hY a ha a' ha'
    · exact h.elim
    · exact h.elim
    · cases ha; cases ha'
      exact h

/-- A paragraph. -/
theorem layoutInline_rows (hk : k ≤ 100) (hT' : T < 2 ^ 23 / 2 ^ k) (hf : EmFont api (2 ^ e) advance) (he : e < 16)
    {cb : ContainingBlock Single} {cb' : ContainingBlock Rat} {I : Rat} (hI : WholeIs k false I cb.inlineSize cb'.inlineSize)
    {boxes : List InlineLevelBox} (hr : ruledLine k e boxes) (hIT : I + 4 * lineReach (textUnits api advance) e boxes ≤ T)
    (hmode : cb.mode = cb'.mode) {rank : Nat} :
    BothAgree (fun p p' => List.Forall₂ (RowsAgree (WholeIs k true T)) p.1.fragments p'.1.fragments ∧ p.2 = [] ∧ p'.2 = [])
      (layoutInline api boxes cb rank []) (layoutInline (exactFont api (2 ^ e) advance) boxes cb' rank []) := by
  have n := lineReach_nonneg (e := e) (textUnits api advance) boxes
  refine inlineLoop_rows S hst hk hT' hf he hI hIT hmode _ _ _ 0 ⟨⟨.nil, S.zero, .nil, rfl, .nil, S.mono S.zero n⟩, ?_, hr, ?_⟩
  · simp only [initialInlineState, plan, List.map_nil, planReach]
    linarith
  · intro q h
    simp [initialInlineState, plan] at h
end

end Verif.Layout.Machine
