/- C127: the lines of a paragraph, vertically. -/
import Verif.Layout.ColumnsNumbers
import Verif.Layout.RowsInline
namespace Verif.Layout.Machine
open Verif.Style Verif.Text Verif.Float

attribute [local instance] singleNumbers exactNumbers

section
variable {P Q : Single → Rat → Prop} (hi : ∀ a a', P a a' → Q a a')
include hi

mutual
theorem ColumnsAgree.imp : ∀ (f : Fragment Single) (f' : Fragment Rat), ColumnsAgree P f f' → ColumnsAgree Q f f'
  | .box _ c, _, h => by
    cases h with
    | box h1 h2 h3 h4 h5 h6 hc =>
      exact .box h1 (hi _ _ h2) (hi _ _ h3) ⟨hi _ _ h4.1, hi _ _ h4.2⟩ ⟨hi _ _ h5.1, hi _ _ h5.2⟩ ⟨hi _ _ h6.1, hi _ _ h6.2⟩
        (ColumnsAgree.impAll c _ hc)
  | .anonymous _ c m, _, h => by
    cases h with
    | anonymous h1 h2 hc => exact .anonymous (hi _ _ h1) (hi _ _ h2) (ColumnsAgree.impAll c _ hc)
  | .text _ _ _, _, h => by
    cases h with
    | text h1 h2 => exact .text (hi _ _ h1) (hi _ _ h2)
theorem ColumnsAgree.impAll : ∀ (fs : List (Fragment Single)) (fs' : List (Fragment Rat)), List.Forall₂ (ColumnsAgree P) fs fs' →
    List.Forall₂ (ColumnsAgree Q) fs fs'
  | [], _, h => by cases h; exact .nil
  | f :: fs, _, h => by
    cases h with
    | cons h1 h2 => exact .cons (ColumnsAgree.imp f _ h1) (ColumnsAgree.impAll fs _ h2)
end
end

theorem follows_all {n n' : Nat} {m m' : Rat} (hn : n ≤ n') (hm : m ≤ m') {fs : List (Fragment Single)} {fs' : List (Fragment Rat)}
    (h : List.Forall₂ (ColumnsAgree (Follows n m)) fs fs') : List.Forall₂ (ColumnsAgree (Follows n' m')) fs fs' :=
  ColumnsAgree.impAll (fun _ _ h => h.mono hn hm) _ _ h

theorem massAll_append (K : Rat) : ∀ xs ys : List (Fragment Rat), massAll K (xs ++ ys) = massAll K xs + massAll K ys
  | [], ys => by rw [List.nil_append, massAll, zero_add]
  | x :: xs, ys => by rw [List.cons_append, massAll, massAll, massAll_append, add_assoc]

theorem mostSteps_append (D : Nat) : ∀ xs ys : List (Fragment Rat), mostSteps D (xs ++ ys) = max (mostSteps D xs) (mostSteps D ys)
  | [], ys => by rw [List.nil_append, mostSteps, Nat.zero_max]
  | x :: xs, ys => by rw [List.cons_append, mostSteps, mostSteps, mostSteps_append, Nat.max_assoc]

mutual
theorem rise_nonneg : ∀ b : InlineLevelBox, 0 ≤ b.rise
  | .inlineBox style _ _ children => by
    rw [InlineLevelBox.rise]; linarith [lengthsSum_nonneg style, lineRise_nonneg children]
  | .textRun style text => by rw [InlineLevelBox.rise]; positivity
  | .outOfFlowAbsolutelyPositioned _ _ _ => by rw [InlineLevelBox.rise]
  | .outOfFlowFloat _ _ _ => by rw [InlineLevelBox.rise]
theorem lineRise_nonneg : ∀ bs : List InlineLevelBox, 0 ≤ lineRise bs
  | [] => by rw [lineRise]
  | b :: bs => by rw [lineRise]; exact le_trans (rise_nonneg b) (le_max_left _ _)
end

/-- The nesting levels correspond; their height is at most `K`, with at most `D` roundings. -/
structure LevelNear (D0 : Nat) (K0 : Rat) (D : Nat) (K : Rat) (l : NestingLevel Single) (l' : NestingLevel Rat) : Prop where
  boxes : l.remainingBoxes = l'.remainingBoxes
  fragments : List.Forall₂ (ColumnsAgree (Follows D0 K0)) l.fragmentsSoFar l'.fragmentsSoFar
  height : Follows D K l.maxBlockSize l'.maxBlockSize
  nesting : lineNesting l.remainingBoxes ≤ D
  rise : lineRise l.remainingBoxes ≤ K

/-- The open inline boxes correspond, around a nesting level of at most `K` and `D`. -/
inductive StackNear (D0 : Nat) (K0 : Rat) : Nat → Rat → List (PartialInlineBox Single) → List (PartialInlineBox Rat) → Prop
  | nil {D K} : D ≤ D0 → K ≤ K0 → StackNear D0 K0 D K [] []
  | cons {D K D' K' p p' rest rest'} : p.style = p'.style → p.lastBoxTreeFragment = p'.lastBoxTreeFragment →
      Follows D0 K0 p.startCorner.block p'.startCorner.block →
      SideHeightsAgree (Follows 0 (lengthsSum p.style)) p.padding p'.padding →
      SideHeightsAgree (Follows 0 (lengthsSum p.style)) p.border p'.border →
      SideHeightsAgree (Follows 0 (lengthsSum p.style)) p.margin p'.margin →
      LevelNear D0 K0 D' K' p.parentNestingLevel p'.parentNestingLevel → D + 4 ≤ D' → K + 8 * lengthsSum p.style ≤ K' →
      StackNear D0 K0 D' K' rest rest' → StackNear D0 K0 D K (p :: rest) (p' :: rest')

/-- The lines correspond. -/
structure LinesNear (D0 : Nat) (K0 : Rat) (b : LinesBoxes Single) (b' : LinesBoxes Rat) : Prop where
  lines : List.Forall₂ (ColumnsAgree (Follows (b'.boxes.length + mostSteps D0 b'.boxes) (massAll K0 b'.boxes))) b.boxes b'.boxes
  next : Follows (b'.boxes.length + mostSteps D0 b'.boxes) (massAll K0 b'.boxes) b.nextLineBlockPosition b'.nextLineBlockPosition

variable {D0 D : Nat} {K0 K : Rat}

theorem StackNear.le {s s'} (h : StackNear D0 K0 D K s s') : D ≤ D0 ∧ K ≤ K0 := by
  induction h with
  | nil h1 h2 => exact ⟨h1, h2⟩
  | @cons D K D' K' p p' rest rest' _ _ _ _ _ _ _ hD hK _ ih =>
    have := lengthsSum_nonneg p.style
    exact ⟨by omega, by linarith [ih.2]⟩

theorem LevelNear.start {l : NestingLevel Single} {l' : NestingLevel Rat} (h : LevelNear D0 K0 D K l l') (x : Single) (x' : Rat) :
    LevelNear D0 K0 D K { l with inlineStart := x } { l' with inlineStart := x' } := ⟨h.boxes, h.fragments, h.height, h.nesting, h.rise⟩

theorem finish_near {D' : Nat} {K' : Rat} {p : PartialInlineBox Single} {p' : PartialInlineBox Rat} {level : NestingLevel Single}
    {level' : NestingLevel Rat} (pos : Single) (pos' : Rat) (h1 : p.style = p'.style) (h2 : p.lastBoxTreeFragment = p'.lastBoxTreeFragment)
    (h3 : Follows D0 K0 p.startCorner.block p'.startCorner.block)
    (h4 : SideHeightsAgree (Follows 0 (lengthsSum p.style)) p.padding p'.padding)
    (h5 : SideHeightsAgree (Follows 0 (lengthsSum p.style)) p.border p'.border)
    (h6 : SideHeightsAgree (Follows 0 (lengthsSum p.style)) p.margin p'.margin)
    (h7 : LevelNear D0 K0 D' K' p.parentNestingLevel p'.parentNestingLevel) (hD : D + 4 ≤ D') (hK : K + 8 * lengthsSum p.style ≤ K')
    (hD0 : D' ≤ D0) (hK0 : K' ≤ K0) (hl : LevelNear D0 K0 D K level level') (brk : Bool) :
    LevelNear D0 K0 D' K' (p.finish level pos brk).1.parentNestingLevel (p'.finish level' pos' brk).1.parentNestingLevel ∧
    LevelNear D0 K0 D K (p.finish level pos brk).2.1 (p'.finish level' pos' brk).2.1 := by
  have n0 := lengthsSum_nonneg p.style
  have nK := hl.height.nonneg
  have hsides : ∀ (b : Bool) {s : Sides Single} {s' : Sides Rat}, SideHeightsAgree (Follows 0 (lengthsSum p.style)) s s' →
      SideHeightsAgree (Follows 0 (lengthsSum p.style)) (if b = true then s else s.endless) (if b = true then s' else s'.endless) := by
    intro b s s' h
    cases b <;> exact h
  have up : ∀ {s : Sides Single} {s' : Sides Rat}, SideHeightsAgree (Follows 0 (lengthsSum p.style)) s s' →
      SideHeightsAgree (Follows D0 K0) s s' := fun h => ⟨h.1.mono (Nat.zero_le _) (by linarith), h.2.mono (Nat.zero_le _) (by linarith)⟩
  have t4 := hsides (p.lastBoxTreeFragment && !brk) h4
  have t5 := hsides (p.lastBoxTreeFragment && !brk) h5
  have t6 := hsides (p.lastBoxTreeFragment && !brk) h6
  have total : ∀ {s : Sides Single} {s' : Sides Rat}, SideHeightsAgree (Follows 0 (lengthsSum p.style)) s s' →
      Follows 1 (2 * lengthsSum p.style) s.blockTotal s'.blockTotal := fun h => (h.1.add h.2).mono (by omega) (by linarith)
  have hsum := (((hl.height.add (total t4)).add (total t5)).add (total t6)).mono (n' := D') (m' := K') (by omega) (by linarith)
  have hmax := h7.height.max hsum (le_refl _) (le_refl _)
  rw [Nat.max_self] at hmax
  unfold PartialInlineBox.finish
  simp only [← h2]
  refine ⟨⟨h7.boxes, List.rel_append h7.fragments (.cons (.box h1 h3 (hl.height.mono (by omega) (by linarith)) (up t4) (up t5) (up t6) hl.fragments) .nil),
    hmax, h7.nesting, h7.rise⟩, hl.boxes, .nil, hl.height, hl.nesting, hl.rise⟩

theorem finishLine_near {lines : LinesBoxes Single} {lines' : LinesBoxes Rat} {top : NestingLevel Single} {top' : NestingLevel Rat}
    {cb : ContainingBlock Single} {cb' : ContainingBlock Rat} (hmode : cb.mode = cb'.mode) (hl : LinesNear D0 K0 lines lines')
    (ht : LevelNear D0 K0 D K top top') (hD : D ≤ D0) (hK : K ≤ K0) :
    LinesNear D0 K0 (finishLine lines top cb).1 (finishLine lines' top' cb').1 ∧
    LevelNear D0 K0 D K (finishLine lines top cb).2 (finishLine lines' top' cb').2 := by
  have nK := ht.height.nonneg
  have nM := hl.next.nonneg
  simp only [finishLine, hmode]
  refine ⟨⟨?_, ?_⟩, ht.boxes, .nil, Follows.zero.mono (le_refl _) nK, ht.nesting, ht.rise⟩
  · simp only [mostSteps_append, massAll_append, List.length_append, List.length_singleton, mostSteps, massAll, Fragment.steps, Fragment.mass]
    refine List.rel_append (follows_all (by omega) (by linarith) hl.lines) (.cons (.anonymous (hl.next.mono (by omega) (by linarith))
      (ht.height.mono (by omega) (by linarith)) (follows_all (by omega) (by linarith) ht.fragments)) .nil)
  · simp only [mostSteps_append, massAll_append, List.length_append, List.length_singleton, mostSteps, massAll, Fragment.steps, Fragment.mass]
    exact (hl.next.add ht.height).mono (by omega) (by linarith)

theorem breakLine_near {cb : ContainingBlock Single} {cb' : ContainingBlock Rat} (hmode : cb.mode = cb'.mode) :
    ∀ {D : Nat} {K : Rat} (stack : List (PartialInlineBox Single)) (stack' : List (PartialInlineBox Rat)) (level : NestingLevel Single)
      (level' : NestingLevel Rat) (pos : Single) (pos' : Rat) (lines : LinesBoxes Single) (lines' : LinesBoxes Rat),
      StackNear D0 K0 D K stack stack' → LevelNear D0 K0 D K level level' → LinesNear D0 K0 lines lines' →
      StackNear D0 K0 D K (breakLine cb stack level pos lines).1 (breakLine cb' stack' level' pos' lines').1 ∧
      LevelNear D0 K0 D K (breakLine cb stack level pos lines).2.1 (breakLine cb' stack' level' pos' lines').2.1 ∧
      LinesNear D0 K0 (breakLine cb stack level pos lines).2.2 (breakLine cb' stack' level' pos' lines').2.2 := by
  intro D K stack
  induction stack generalizing D K with
  | nil =>
    intro stack' level level' pos pos' lines lines' hs hl hb
    cases hs with
    | nil hD hK =>
      have h := finishLine_near hmode hb (hl.start 0 0) hD hK
      simp only [breakLine]
      exact ⟨.nil hD hK, h.2, h.1⟩
  | cons p rest ih =>
    intro stack' level level' pos pos' lines lines' hs hl hb
    cases hs with
    | @cons _ _ D' K' _ p' _ rest' h1 h2 h3 h4 h5 h6 h7 hD hK hr =>
      obtain ⟨f1, f2⟩ := finish_near pos pos' h1 h2 h3 h4 h5 h6 h7 hD hK hr.le.1 hr.le.2 (hl.start 0 0) true
      obtain ⟨g1, g2, g3⟩ := ih rest' _ _ (p.finish { level with inlineStart := 0 } pos true).2.2
        (p'.finish { level' with inlineStart := 0 } pos' true).2.2 lines lines' hr f1 hb
      simp only [breakLine]
      exact ⟨.cons h1 h2 h3 h4 h5 h6 g2 hD hK g1, f2, g3⟩

/-- The states correspond. -/
def StateNear (D0 : Nat) (K0 : Rat) (D : Nat) (K : Rat) (i : InlineState Single) (i' : InlineState Rat) : Prop :=
  LinesNear D0 K0 i.lineBoxes i'.lineBoxes ∧ StackNear D0 K0 D K i.stack i'.stack ∧ LevelNear D0 K0 D K i.current i'.current

section
variable {k : Nat} {T W : Rat} {Err : Type} {api : FontApi Single Err} {advance : Nat → Nat} {e : Nat}

theorem textLines_near (hk : k ≤ 100) (hT' : T < 2 ^ 23 / 2 ^ k) (hf : EmFont api (2 ^ e) advance) (he : e < 16)
    {cb : ContainingBlock Single} {cb' : ContainingBlock Rat} (hmode : cb.mode = cb'.mode) {style : ComputedValues} (hpos : 0 < fontSizeOf style)
    (hw1 : Whole k (fontSizeOf style)) (hw2 : Whole k (fontSizeOf style / 2 ^ e)) {U : Nat} (hsize : |fontSizeOf style| ≤ T)
    (hUT : |fontSizeOf style| * (U / 2 ^ e) ≤ T) {available : Single} {available' : Rat} (ha : Exactly available available')
    (hD : 2 ≤ D) (hK : |fontSizeOf style| * (12 / 10) ≤ K) :
    ∀ (fuel : Nat) (chars : List Nat) (i : InlineState Single) (i' : InlineState Rat), StateNear D0 K0 D K i i' → textUnits api advance chars ≤ U →
      BothAgree (fun j j' => StateNear D0 K0 D K j j')
        (textLines api cb style available fuel chars i) (textLines (exactFont api (2 ^ e) advance) cb' style available' fuel chars i') := by
  have hsz : Exactly (Single.round (fontSizeOf style)) (fontSizeOf style) := by
    refine whole_round (by omega) false hw1 (lt_of_le_of_lt hsize (lt_trans hT' ?_))
    exact div_lt_div_of_pos_right (by norm_num) (by positivity)
  have e1 : (Numbers.lengths (R := Single) style).fontSize = Single.round (fontSizeOf style) := rfl
  have e2 : (Numbers.lengths (R := Rat) style).fontSize = fontSizeOf style := rfl
  have hsmall : 1 / 2 ^ 100 ≤ fontSizeOf style := by
    obtain ⟨n, hn⟩ := hw1
    have hp : (0 : Rat) < 2 ^ k := by positivity
    have hn1 : (1 : Rat) ≤ n := by
      rw [hn] at hpos
      have : (0 : Rat) < n := by
        by_contra hc
        exact absurd hpos (not_lt.2 (div_nonpos_of_nonpos_of_nonneg (not_lt.1 hc) hp.le))
      exact_mod_cast Int.add_one_le_of_lt (by exact_mod_cast this : (0 : Int) < n)
    rw [hn]
    have h2 : (2 : Rat) ^ k ≤ 2 ^ 100 := pow_le_pow_right₀ (by norm_num) hk
    exact div_le_div₀ (by linarith) hn1 hp h2
  have hline : Follows D K (Numbers.lineHeight (Single.round (fontSizeOf style))) (Numbers.lineHeight (fontSizeOf style)) :=
    (Follows.lineHeight hsz hsmall).mono hD hK
  have hU : U < 2 ^ 24 := by
    obtain ⟨n, hn⟩ := hw2
    have hp : (0 : Rat) < 2 ^ k := by positivity
    have hq : 0 < fontSizeOf style / 2 ^ e := by positivity
    have hn1 : (1 : Rat) ≤ n := by
      rw [hn] at hq
      have : (0 : Rat) < n := by
        by_contra hc
        exact absurd hq (not_lt.2 (div_nonpos_of_nonpos_of_nonneg (not_lt.1 hc) hp.le))
      exact_mod_cast Int.add_one_le_of_lt (by exact_mod_cast this : (0 : Int) < n)
    have h1 : |fontSizeOf style| * (U / 2 ^ e) = (n * U) / 2 ^ k := by
      rw [abs_of_pos hpos, mul_div_assoc', mul_div_right_comm, hn, div_mul_eq_mul_div]
    rw [h1] at hUT
    have h2 := lt_of_le_of_lt hUT hT'
    rw [div_lt_div_iff_of_pos_right hp] at h2
    have hU0 : (0 : Rat) ≤ U := by positivity
    have h3 : (U : Rat) < 2 ^ 23 := by nlinarith
    have : U < 2 ^ 23 := by exact_mod_cast h3
    omega
  intro fuel
  induction fuel with
  | zero =>
    intro chars i i' hi hu a h
    rw [textLines] at h
    cases h
  | succ fuel ih =>
    intro chars i i' hi hu
    have hzero : AdvanceIs e 0 (ShapedSegment.new api).advanceWidth (ShapedSegment.new (exactFont api (2 ^ e) advance)).advanceWidth := by
      simp only [ShapedSegment.new, hf.zero, exactFont, AdvanceIs]
      exact ⟨⟨Single.zero_finite, Single.zero_value⟩, by simp⟩
    have hshape := shapeLine_rows hf he hk hT' hsz hw2 hU hUT ha chars 0 (ShapedSegment.new api) (ShapedSegment.new (exactFont api (2 ^ e) advance)) none none
      rfl hzero (by omega) (.inl ⟨rfl, rfl⟩)
    intro j hj j' hj'
    unfold textLines at hj hj'
    rw [e1] at hj
    rw [e2] at hj'
    rcases s1 : shapeLine api (Single.round (fontSizeOf style)) available chars (ShapedSegment.new api) none with _ | ⟨seg, rest⟩
    · rw [s1] at hj; cases hj
    rcases s2 : shapeLine (exactFont api (2 ^ e) advance) (fontSizeOf style) available' chars (ShapedSegment.new (exactFont api (2 ^ e) advance)) none
      with _ | ⟨seg', rest'⟩
    · rw [s2] at hj'; cases hj'
    obtain ⟨q1, q2, -⟩ := hshape _ s1 _ s2
    simp only at q1 q2
    subst q1
    rw [s1] at hj
    rw [s2] at hj'
    have hpush : StateNear D0 K0 D K (pushText style seg i) (pushText style seg' i') := by
      obtain ⟨l1, l2, l3⟩ := hi
      have nK0 : 0 ≤ K0 := le_trans l3.height.nonneg l2.le.2
      have hmax := l3.height.max hline (le_refl _) (le_refl _)
      rw [Nat.max_self] at hmax
      exact ⟨l1, l2, l3.boxes, List.rel_append l3.fragments (.cons (.text (Follows.zero.mono (le_refl _) nK0) (hline.mono l2.le.1 l2.le.2)) .nil),
        hmax, l3.nesting, l3.rise⟩
    simp only at hj hj'
    by_cases hrest : rest = []
    · rw [if_pos hrest] at hj hj'
      cases hj; cases hj'
      exact hpush
    · rw [if_neg hrest] at hj hj'
      obtain ⟨b1, b2, b3⟩ := breakLine_near hmode _ _ _ _ (pushText style seg i).inlinePosition (pushText style seg' i').inlinePosition _ _
        hpush.2.1 hpush.2.2 hpush.1
      exact ih rest _ _ ⟨b3, b1, b2⟩ q2 j hj j' hj'

/-- The paragraphs correspond. -/
def ParagraphNear (D0 : Nat) (K0 : Rat) (c : FlowChildren Single) (c' : FlowChildren Rat) : Prop :=
  LinesNear D0 K0 ⟨c.fragments, c.blockSize⟩ ⟨c'.fragments, c'.blockSize⟩ ∧ c.collapsibleMarginsInChildren = .zero ∧
  c'.collapsibleMarginsInChildren = .zero

/-- One step, for both, vertically. -/
def StepsNear (D0 : Nat) (K0 : Rat) : (InlineState Single × Absolutes Single) ⊕ (FlowChildren Single × Absolutes Single) →
    (InlineState Rat × Absolutes Rat) ⊕ (FlowChildren Rat × Absolutes Rat) → Prop
  | .inl (i, _), .inl (i', _) => ∃ D K, StateNear D0 K0 D K i i'
  | .inr (c, _), .inr (c', _) => ParagraphNear D0 K0 c c'
  | _, _ => False

variable (S : Simulation (R := Single) (R' := Rat) T (WholeIs k))
  (hst : ∀ style, WholeStyle k style → lengthsSum style ≤ T →
    StylesAgree (R := Single) (R' := Rat) (WholeIs k false (lengthsSum style)) (Numbers.lengths style) (Numbers.lengths style))
include S hst

theorem start_near {cb : ContainingBlock Single} {cb' : ContainingBlock Rat} {i : InlineState Single} {i' : InlineState Rat}
    (hi : StateNear D0 K0 D K i i') (style : ComputedValues) (first last : Bool) (children : List InlineLevelBox) (hs : WholeStyle k style)
    (hT : lengthsSum style ≤ T) (hD : 4 + lineNesting children ≤ D) (hK : 8 * lengthsSum style + lineRise children ≤ K) :
    StateNear D0 K0 (lineNesting children) (lineRise children) (startInlineBox cb style first last children i)
      (startInlineBox cb' style first last children i') := by
  have n0 := lengthsSum_nonneg style
  have n1 := lineRise_nonneg children
  obtain ⟨l1, l2, l3⟩ := hi
  obtain ⟨d0, k0⟩ := l2.le
  have hst := hst style hs hT
  obtain ⟨-, -, -, hp, hb, hm⟩ := id hst
  have p := resolve_agree hp cb.inlineSize cb'.inlineSize
  have b := resolve_agree hb cb.inlineSize cb'.inlineSize
  have m := resolveAuto_agree hm cb.inlineSize cb'.inlineSize
  have hz : WholeIs k false (lengthsSum style) (0 : Single) (0 : Rat) := S.mono S.zero n0
  have m1 := autoIs_agree m.2.2.1 hz
  have m2 := autoIs_agree m.2.2.2 hz
  have r := (relative_agree S hst n0 cb.inlineSize cb'.inlineSize cb.blockSize cb'.blockSize).2
  have hcorner := ((((Follows.whole p.2.2.1).add (Follows.whole b.2.2.1)).add (Follows.whole m1)).add (Follows.whole r)).mono (n' := D0) (m' := K0)
    (by omega) (by linarith)
  have hlevel : ∀ (x : Single) (x' : Rat), LevelNear D0 K0 (lineNesting children) (lineRise children) ⟨children, [], x, 0⟩ ⟨children, [], x', 0⟩ :=
    fun x x' => ⟨rfl, .nil, Follows.zero.mono (le_refl _) n1, le_refl _, le_refl _⟩
  unfold startInlineBox
  cases first
  · simp only [Bool.false_eq_true, if_false]
    exact ⟨l1, .cons rfl rfl hcorner ⟨.whole p.2.2.1, .whole p.2.2.2⟩ ⟨.whole b.2.2.1, .whole b.2.2.2⟩ ⟨.whole m1, .whole m2⟩ l3 (by omega)
      (by simp only; linarith) l2, hlevel _ _⟩
  · simp only [if_true]
    exact ⟨l1, .cons rfl rfl hcorner ⟨.whole p.2.2.1, .whole p.2.2.2⟩ ⟨.whole b.2.2.1, .whole b.2.2.2⟩ ⟨.whole m1, .whole m2⟩ l3 (by omega)
      (by simp only; linarith) l2, hlevel _ _⟩

theorem inlineStep_near (hk : k ≤ 100) (hT' : T < 2 ^ 23 / 2 ^ k) (hf : EmFont api (2 ^ e) advance) (he : e < 16)
    {cb : ContainingBlock Single} {cb' : ContainingBlock Rat} {I : Rat} (hI : WholeIs k false I cb.inlineSize cb'.inlineSize)
    (hIT : I + 4 * W ≤ T) (hmode : cb.mode = cb'.mode) {rank : Nat} {i : InlineState Single} {i' : InlineState Rat} {X : Rat}
    (hg : GoodLine k e (textUnits api advance) T W X i i') (hi : StateNear D0 K0 D K i i') :
    BothAgree (StepsNear D0 K0) (inlineStep api cb rank i []) (inlineStep (exactFont api (2 ^ e) advance) cb' rank i' []) := by
  obtain ⟨hg, hX, hr, hq⟩ := hg
  have nI := S.nonneg hI
  have nX := S.nonneg hg.position
  have nP := planReach_nonneg (e := e) (textUnits api advance) (plan i.stack)
  have nL := lineReach_nonneg (e := e) (textUnits api advance) i.current.remainingBoxes
  obtain ⟨lines, pos, stack, ⟨boxes, frags, start, mb⟩⟩ := i
  obtain ⟨lines', pos', stack', ⟨boxes', frags', start', mb'⟩⟩ := i'
  have hboxes : boxes = boxes' := hg.current.boxes
  subst hboxes
  obtain ⟨l1, l2, l3⟩ := hi
  simp only at hX hr hq nP nL l1 l2 l3
  intro a ha a' ha'
  unfold inlineStep at ha ha'
  cases boxes with
  | nil =>
    simp only at ha ha'
    cases l2 with
    | nil hD hK =>
      simp only at ha ha'
      cases ha; cases ha'
      exact ⟨(finishLine_near hmode l1 l3 hD hK).1, rfl, rfl⟩
    | @cons _ _ D' K' p p' rest rest' h1 h2 h3 h4 h5 h6 h7 hD hK hrest =>
      simp only at ha ha'
      cases ha; cases ha'
      obtain ⟨f1, -⟩ := finish_near pos pos' h1 h2 h3 h4 h5 h6 h7 hD hK hrest.le.1 hrest.le.2 l3 false
      exact ⟨D', K', l1, hrest, f1⟩
  | cons child remaining =>
    simp only at ha ha'
    rw [ruledLine] at hr
    rw [lineReach] at hX nL
    have nR := lineReach_nonneg (e := e) (textUnits api advance) remaining
    have hnest := l3.nesting
    have hrise := l3.rise
    simp only [lineNesting, lineRise, max_le_iff] at hnest hrise
    have hj : StateNear D0 K0 D K ⟨lines, pos, stack, ⟨remaining, frags, start, mb⟩⟩ ⟨lines', pos', stack', ⟨remaining, frags', start', mb'⟩⟩ :=
      ⟨l1, l2, rfl, l3.fragments, l3.height, hnest.2, hrise.2⟩
    cases child with
    | outOfFlowAbsolutelyPositioned => exact (by have := hr.1; rw [InlineLevelBox.Ruled] at this; exact this.elim)
    | outOfFlowFloat =>
      cases ha; cases ha'
      exact ⟨D, K, hj⟩
    | inlineBox style first last children =>
      cases ha; cases ha'
      rw [InlineLevelBox.reach] at hX
      rw [InlineLevelBox.Ruled] at hr
      have n0 := lengthsSum_nonneg style
      have nC := lineReach_nonneg (e := e) (textUnits api advance) children
      rw [InlineLevelBox.nesting] at hnest
      rw [InlineLevelBox.rise] at hrise
      exact ⟨_, _, start_near S hst hj style first last children hr.1.1 (by linarith) hnest.1 hrise.1⟩
    | textRun style text =>
      rw [InlineLevelBox.reach] at hX
      rw [InlineLevelBox.Ruled] at hr
      obtain ⟨⟨w1, w2, w3⟩, hr⟩ := hr
      simp only [layoutTextRun] at ha ha'
      have hav := S.sub hI hg.position (show I + X ≤ T by
        have : (0 : Rat) ≤ |fontSizeOf style| * (1 + (textUnits api advance text : Nat) / 2 ^ e) := by positivity
        linarith)
      have nS := abs_nonneg (fontSizeOf style)
      have nU : (0 : Rat) ≤ |fontSizeOf style| * ((textUnits api advance text : Nat) / 2 ^ e) := by positivity
      rw [mul_add, mul_one] at hX
      rw [InlineLevelBox.nesting] at hnest
      rw [InlineLevelBox.rise] at hrise
      have h := textLines_near (D0 := D0) (K0 := K0) hk hT' hf he hmode w1 w2 w3 (U := textUnits api advance text) (by linarith) (by linarith)
        hav.1 hnest.1 hrise.1 (text.length + 1) text _ _ hj (le_refl _)
      rcases e1 : textLines api cb style (cb.inlineSize - pos) (text.length + 1) text ⟨lines, pos, stack, ⟨remaining, frags, start, mb⟩⟩ with _ | j
      · rw [e1] at ha; cases ha
      rcases e2 : textLines (exactFont api (2 ^ e) advance) cb' style (cb'.inlineSize - pos') (text.length + 1) text
          ⟨lines', pos', stack', ⟨remaining, frags', start', mb'⟩⟩ with _ | j'
      · rw [e2] at ha'; cases ha'
      rw [e1] at ha
      rw [e2] at ha'
      cases ha; cases ha'
      exact ⟨D, K, h j e1 j' e2⟩

theorem inlineLoop_near (hk : k ≤ 100) (hT' : T < 2 ^ 23 / 2 ^ k) (hf : EmFont api (2 ^ e) advance) (he : e < 16)
    {cb : ContainingBlock Single} {cb' : ContainingBlock Rat} {I : Rat} (hI : WholeIs k false I cb.inlineSize cb'.inlineSize)
    (hIT : I + 4 * W ≤ T) (hmode : cb.mode = cb'.mode) {rank : Nat} : ∀ (fuel : Nat) (i : InlineState Single) (i' : InlineState Rat) (X : Rat)
    (D : Nat) (K : Rat), GoodLine k e (textUnits api advance) T W X i i' → StateNear D0 K0 D K i i' →
    BothAgree (fun p p' => ParagraphNear D0 K0 p.1 p'.1 ∧ p.2 = [] ∧ p'.2 = [])
      (inlineLoop api cb rank fuel i []) (inlineLoop (exactFont api (2 ^ e) advance) cb' rank fuel i' []) := by
  intro fuel
  induction fuel with
  | zero =>
    intro i i' X D K hg hi a ha
    rw [inlineLoop] at ha
    cases ha
  | succ fuel ih =>
    intro i i' X D K hg hi a ha a' ha'
    have h := inlineStep_rows S hst hk hT' hf he hI hIT hmode (rank := rank) hg
    have h' := inlineStep_near S hst hk hT' hf he hI hIT hmode (rank := rank) hg hi
    unfold inlineLoop at ha ha'
    rcases e1 : inlineStep api cb rank i [] with _ | x
    · rw [e1] at ha; cases ha
    rcases e2 : inlineStep (exactFont api (2 ^ e) advance) cb' rank i' [] with _ | x'
    · rw [e2] at ha'; cases ha'
    have h := h x e1 x' e2
    have h' := h' x e1 x' e2
    rw [e1] at ha
    rw [e2] at ha'
    rcases x with ⟨j, as⟩ | ⟨c, as⟩ <;> rcases x' with ⟨j', as'⟩ | ⟨c', as'⟩
    · obtain ⟨rfl, rfl, Y, hY⟩ := h
      obtain ⟨D', K', h'⟩ := h'
      exact ih j j' Y D' K' hY h' a ha a' ha'
    · exact h.elim
    · exact h.elim
    · cases ha; cases ha'
      exact ⟨h', h.2⟩

/-- A paragraph. -/
theorem layoutInline_near (hk : k ≤ 100) (hT' : T < 2 ^ 23 / 2 ^ k) (hf : EmFont api (2 ^ e) advance) (he : e < 16)
    {cb : ContainingBlock Single} {cb' : ContainingBlock Rat} {I : Rat} (hI : WholeIs k false I cb.inlineSize cb'.inlineSize)
    {boxes : List InlineLevelBox} (hr : ruledLine k e boxes) (hIT : I + 4 * lineReach (textUnits api advance) e boxes ≤ T)
    (hmode : cb.mode = cb'.mode) {rank : Nat} (hD : lineNesting boxes ≤ D0) (hK : lineRise boxes ≤ K0) :
    BothAgree (fun p p' => ParagraphNear D0 K0 p.1 p'.1 ∧ p.2 = [] ∧ p'.2 = [])
      (layoutInline api boxes cb rank []) (layoutInline (exactFont api (2 ^ e) advance) boxes cb' rank []) := by
  have n := lineReach_nonneg (e := e) (textUnits api advance) boxes
  refine inlineLoop_near S hst hk hT' hf he hI hIT hmode _ _ _ 0 (lineNesting boxes) (lineRise boxes)
    ⟨⟨.nil, S.zero, .nil, rfl, .nil, S.mono S.zero n⟩, ?_, hr, ?_⟩
    ⟨⟨.nil, by simp only [initialInlineState, massAll]; exact Follows.zero⟩, .nil hD hK, rfl, .nil,
      Follows.zero.mono (le_refl _) (lineRise_nonneg boxes), le_refl _, le_refl _⟩
  · simp only [initialInlineState, plan, List.map_nil, planReach]
    linarith
  · intro q h
    simp [initialInlineState, plan] at h
end

end Verif.Layout.Machine
