/- C123: layout of blocks with two kinds of numbers, continued: the sizes of blocks, and trees of them. -/
import Verif.Layout.WholeLemmas
namespace Verif.Layout.Machine
open Verif.Style Verif.Text

theorem extent_nonneg (v : Style.LengthOrPercentage) : 0 ≤ v.extent := by
  cases v
  · exact abs_nonneg _
  · exact le_refl _
theorem extentAuto_nonneg (v : Style.LengthOrPercentageOrAuto) : 0 ≤ v.extent := by
  cases v
  · exact abs_nonneg _
  · exact le_refl _
  · exact le_refl _

theorem lengthsSum_nonneg (s : ComputedValues) : 0 ≤ lengthsSum s := by
  unfold lengthsSum
  have h := extent_nonneg
  have h' := extentAuto_nonneg
  linarith [h' (s.values .marginTop), h' (s.values .marginRight), h' (s.values .marginBottom), h' (s.values .marginLeft),
    h (s.values .paddingTop), h (s.values .paddingRight), h (s.values .paddingBottom), h (s.values .paddingLeft),
    h (s.values .borderTopWidth), h (s.values .borderRightWidth), h (s.values .borderBottomWidth), h (s.values .borderLeftWidth),
    h' (s.values .top), h' (s.values .right), h' (s.values .bottom), h' (s.values .left), h' (s.values .width), h' (s.values .height)]

mutual
theorem containerSum_nonneg : ∀ c : BlockContainer, 0 ≤ c.lengthsSum
  | .blockLevelBoxes boxes => by rw [BlockContainer.lengthsSum]; exact blocksSum_nonneg boxes
  | .inlineFormattingContext _ => by rw [BlockContainer.lengthsSum]
theorem boxSum_nonneg : ∀ b : BlockLevelBox, 0 ≤ b.lengthsSum
  | .sameFormattingContextBlock style contents => by
    rw [BlockLevelBox.lengthsSum]; exact add_nonneg (lengthsSum_nonneg style) (containerSum_nonneg contents)
  | .outOfFlowAbsolutelyPositioned _ _ _ => by rw [BlockLevelBox.lengthsSum]
  | .outOfFlowFloat _ _ _ => by rw [BlockLevelBox.lengthsSum]
  | .independent style _ contents => by
    rw [BlockLevelBox.lengthsSum]; exact add_nonneg (lengthsSum_nonneg style) (containerSum_nonneg contents)
theorem blocksSum_nonneg : ∀ bs : List BlockLevelBox, 0 ≤ blocksSum bs
  | [] => by rw [blocksSum]
  | b :: bs => by rw [blocksSum]; exact add_nonneg (boxSum_nonneg b) (blocksSum_nonneg bs)
end

theorem blocksSum_eq : ∀ bs : List BlockLevelBox, (bs.map fun b => 16 * b.lengthsSum).sum = 16 * blocksSum bs
  | [] => by simp [blocksSum]
  | b :: bs => by rw [List.map_cons, List.sum_cons, blocksSum_eq bs, blocksSum, mul_add]

theorem boxSum_le : ∀ {bs : List BlockLevelBox} {b : BlockLevelBox}, b ∈ bs → b.lengthsSum ≤ blocksSum bs
  | c :: bs, b, h => by
    rw [blocksSum]
    rcases List.mem_cons.1 h with rfl | h
    · linarith [blocksSum_nonneg bs]
    · linarith [boxSum_nonneg c, boxSum_le h]

theorem onlyBlocks_mem {k : Nat} : ∀ {bs : List BlockLevelBox} {b : BlockLevelBox}, onlyBlocks k bs → b ∈ bs → b.OnlyBlocks k
  | c :: bs, b, h, hb => by
    rw [onlyBlocks] at h
    rcases List.mem_cons.1 hb with rfl | hb
    · exact h.1
    · exact onlyBlocks_mem h.2 hb

variable {R R' : Type} [Numbers R] [Numbers R']

section
variable {P : R → R' → Prop}

theorem percentage_agree {v : LengthOrPercentage R} {v' : LengthOrPercentage R'} (h : LengthsAgree P v v') (r : R) (r' : R') :
    P (percentageRelativeTo v r) (percentageRelativeTo v' r') := by
  cases v <;> cases v' <;> first | exact h.elim | exact h

theorem auto_agree {v : LengthOrPercentageOrAuto R} {v' : LengthOrPercentageOrAuto R'} (h : AutosAgree P v v') (r : R) (r' : R') :
    UsedAgree P (autoPercentageRelativeTo v r) (autoPercentageRelativeTo v' r') := by
  cases v <;> cases v' <;> first | exact h.elim | exact h

theorem used_agree {v : LengthOrPercentageOrAuto R} {v' : LengthOrPercentageOrAuto R'} (h : AutosAgree P v v') (r : LengthOrAuto R)
    (r' : LengthOrAuto R') : UsedAgree P (usedBlockSize v r) (usedBlockSize v' r') := by
  cases v <;> cases v' <;> first | exact h.elim | exact h

theorem autoIs_agree {v : LengthOrAuto R} {v' : LengthOrAuto R'} (h : UsedAgree P v v') {d : R} {d' : R'} (hd : P d d') :
    P (v.autoIs d) (v'.autoIs d') := by
  cases v <;> cases v' <;> first | exact h.elim | exact h | exact hd

theorem isAuto_agree {v : LengthOrAuto R} {v' : LengthOrAuto R'} (h : UsedAgree P v v') : v.isAuto = v'.isAuto := by
  cases v <;> cases v' <;> first | exact h.elim | rfl

theorem used_imp {Q : R → R' → Prop} (hi : ∀ a a', P a a' → Q a a') {v : LengthOrAuto R} {v' : LengthOrAuto R'} (h : UsedAgree P v v') :
    UsedAgree Q v v' := by
  cases v <;> cases v' <;> first | exact h.elim | exact hi _ _ h | trivial

theorem resolve_agree {s : Sides (LengthOrPercentage R)} {s' : Sides (LengthOrPercentage R')} (h : EachSide (LengthsAgree P) s s') (r : R)
    (r' : R') : SidesAgree P (s.resolve r) (s'.resolve r') :=
  ⟨percentage_agree h.1 r r', percentage_agree h.2.1 r r', percentage_agree h.2.2.1 r r', percentage_agree h.2.2.2 r r'⟩

theorem resolveAuto_agree {s : Sides (LengthOrPercentageOrAuto R)} {s' : Sides (LengthOrPercentageOrAuto R')}
    (h : EachSide (AutosAgree P) s s') (r : R) (r' : R') : EachSide (UsedAgree P) (s.resolveAuto r) (s'.resolveAuto r') :=
  ⟨auto_agree h.1 r r', auto_agree h.2.1 r r', auto_agree h.2.2.1 r r', auto_agree h.2.2.2 r r'⟩

end

variable {T : Rat} {Is : Bool → Rat → R → R' → Prop}

variable (S : Simulation T Is)
include S

theorem plus_agree {B C : Rat} {a b : Sides R} {a' b' : Sides R'} (h : SidesAgree (Is false B) a a') (h' : SidesAgree (Is false C) b b')
    (hT : B + C ≤ T) : SidesAgree (Is false (B + C)) (a.plus b) (a'.plus b') :=
  ⟨S.add h.1 h'.1 hT, S.add h.2.1 h'.2.1 hT, S.add h.2.2.1 h'.2.2.1 hT, S.add h.2.2.2 h'.2.2.2 hT⟩

theorem solveInlineMargins_agree {B C : Rat} {m : R} {m' : R'} {a e : LengthOrAuto R} {a' e' : LengthOrAuto R'} (hm : Is false B m m')
    (ha : UsedAgree (Is false C) a a') (he : UsedAgree (Is false C) e e') (hBC : C ≤ B) (hT : B ≤ T) :
    UsedAgree (Is true B) (solveInlineMargins m a e).1 (solveInlineMargins m' a' e').1 ∧
    UsedAgree (Is true B) (solveInlineMargins m a e).2 (solveInlineMargins m' a' e').2 := by
  have up : ∀ {u : R} {u' : R'}, Is false C u u' → Is true B u u' := fun h => S.fine (S.mono h hBC)
  cases a <;> cases a' <;> first | exact ha.elim | skip <;> cases e <;> cases e' <;> first | exact he.elim | skip
  · exact ⟨up ha, S.fine hm⟩
  · exact ⟨up ha, S.fine hm⟩
  · exact ⟨S.fine hm, up he⟩
  · exact ⟨S.half hm hT, S.half hm hT⟩

theorem inFlowSizes_agree {I own : Rat} {cb : ContainingBlock R} {cb' : ContainingBlock R'} {style : ComputedValues}
    (hcb : Is false I cb.inlineSize cb'.inlineSize) (hs : StylesAgree (Is false own) (Numbers.lengths style) (Numbers.lengths style))
    (hT : I + 12 * own ≤ T) (h0 : 0 ≤ own) :
    SidesAgree (Is false own) (inFlowSizes cb style).padding (inFlowSizes cb' style).padding ∧
    SidesAgree (Is false own) (inFlowSizes cb style).border (inFlowSizes cb' style).border ∧
    Is false own (inFlowSizes cb style).margin.blockStart (inFlowSizes cb' style).margin.blockStart ∧
    Is false own (inFlowSizes cb style).margin.blockEnd (inFlowSizes cb' style).margin.blockEnd ∧
    Is true (I + 5 * own) (inFlowSizes cb style).margin.inlineStart (inFlowSizes cb' style).margin.inlineStart ∧
    Is true (I + 5 * own) (inFlowSizes cb style).margin.inlineEnd (inFlowSizes cb' style).margin.inlineEnd ∧
    Is false (I + 6 * own) (inFlowSizes cb style).inlineSize (inFlowSizes cb' style).inlineSize ∧
    UsedAgree (Is false own) (inFlowSizes cb style).blockSize (inFlowSizes cb' style).blockSize := by
  have nI := S.nonneg hcb
  obtain ⟨-, hi, hb, hp, hbo, hm⟩ := hs
  have p := resolve_agree hp cb.inlineSize cb'.inlineSize
  have b := resolve_agree hbo cb.inlineSize cb'.inlineSize
  have m := resolveAuto_agree hm cb.inlineSize cb'.inlineSize
  have i := auto_agree hi cb.inlineSize cb'.inlineSize
  have pb := plus_agree S p b (by linarith)
  have hz : Is false own (0 : R) (0 : R') := S.mono S.zero h0
  refine ⟨p, b, ?_, ?_, ?_, ?_, ?_, used_agree hb _ _⟩
  · rcases e1 : autoPercentageRelativeTo (Numbers.lengths (R := R) style).size.inline cb.inlineSize with x | _ <;>
      rcases e2 : autoPercentageRelativeTo (Numbers.lengths (R := R') style).size.inline cb'.inlineSize with x' | _ <;>
      rw [e1, e2] at i <;> first | exact i.elim | simp only [inFlowSizes, e1, e2] <;> exact autoIs_agree m.2.2.1 hz
  · rcases e1 : autoPercentageRelativeTo (Numbers.lengths (R := R) style).size.inline cb.inlineSize with x | _ <;>
      rcases e2 : autoPercentageRelativeTo (Numbers.lengths (R := R') style).size.inline cb'.inlineSize with x' | _ <;>
      rw [e1, e2] at i <;> first | exact i.elim | simp only [inFlowSizes, e1, e2] <;> exact autoIs_agree m.2.2.2 hz
  · rcases e1 : autoPercentageRelativeTo (Numbers.lengths (R := R) style).size.inline cb.inlineSize with x | _ <;>
      rcases e2 : autoPercentageRelativeTo (Numbers.lengths (R := R') style).size.inline cb'.inlineSize with x' | _ <;>
      rw [e1, e2] at i <;> first | exact i.elim | simp only [inFlowSizes, e1, e2]
    · have h := solveInlineMargins_agree S (S.mono (S.sub (S.sub hcb i (by linarith)) (S.add pb.1 pb.2.1 (by linarith)) (by linarith))
        (show _ ≤ I + 5 * own by linarith)) m.1 m.2.1 (by linarith) (by linarith)
      exact autoIs_agree h.1 (S.fine (S.mono hz (by linarith)))
    · exact S.fine (S.mono (autoIs_agree m.1 hz) (by linarith))
  · rcases e1 : autoPercentageRelativeTo (Numbers.lengths (R := R) style).size.inline cb.inlineSize with x | _ <;>
      rcases e2 : autoPercentageRelativeTo (Numbers.lengths (R := R') style).size.inline cb'.inlineSize with x' | _ <;>
      rw [e1, e2] at i <;> first | exact i.elim | simp only [inFlowSizes, e1, e2]
    · have h := solveInlineMargins_agree S (S.mono (S.sub (S.sub hcb i (by linarith)) (S.add pb.1 pb.2.1 (by linarith)) (by linarith))
        (show _ ≤ I + 5 * own by linarith)) m.1 m.2.1 (by linarith) (by linarith)
      exact autoIs_agree h.2 (S.fine (S.mono hz (by linarith)))
    · exact S.fine (S.mono (autoIs_agree m.2.1 hz) (by linarith))
  · rcases e1 : autoPercentageRelativeTo (Numbers.lengths (R := R) style).size.inline cb.inlineSize with x | _ <;>
      rcases e2 : autoPercentageRelativeTo (Numbers.lengths (R := R') style).size.inline cb'.inlineSize with x' | _ <;>
      rw [e1, e2] at i <;> first | exact i.elim | simp only [inFlowSizes, e1, e2]
    · exact S.mono i (by linarith)
    · exact S.mono (S.sub (S.sub hcb (S.add pb.1 pb.2.1 (by linarith)) (by linarith))
        (S.add (autoIs_agree m.1 hz) (autoIs_agree m.2.1 hz) (by linarith)) (by linarith)) (by linarith)

theorem adjust_agree {B : Rat} {a e : LengthOrAuto R} {a' e' : LengthOrAuto R'} (ha : UsedAgree (Is false B) a a')
    (he : UsedAgree (Is false B) e e') (h0 : 0 ≤ B) : Is false B (adjust a e) (adjust a' e') := by
  cases a <;> cases a' <;> first | exact ha.elim | skip <;> cases e <;> cases e' <;> first | exact he.elim | skip
  · exact ha
  · exact ha
  · exact S.neg he
  · exact S.mono S.zero h0

theorem relative_agree {own : Rat} {style : ComputedValues}
    (hs : StylesAgree (Is false own) (Numbers.lengths style) (Numbers.lengths style)) (h0 : 0 ≤ own) (x : R) (x' : R') (y : LengthOrAuto R)
    (y' : LengthOrAuto R') :
    Is false own (relativeAdjustement style x y).inline (relativeAdjustement style x' y').inline ∧
    Is false own (relativeAdjustement style x y).block (relativeAdjustement style x' y').block := by
  unfold relativeAdjustement
  split
  · obtain ⟨o1, o2, o3, o4⟩ := hs.1
    exact ⟨adjust_agree S (auto_agree o1 _ _) (auto_agree o2 _ _) h0, adjust_agree S (auto_agree o3 _ _) (auto_agree o4 _ _) h0⟩
  · exact ⟨S.mono S.zero h0, S.mono S.zero h0⟩

theorem collapse_agree {E own : Rat} {m : Sides R} {m' : Sides R'} (hm : Is false own m.blockStart m'.blockStart)
    (hm' : Is false own m.blockEnd m'.blockEnd) (canStart canEnd : Bool) {c : FlowChildren R} {c' : FlowChildren R'}
    (hc : ContentsAgree Is T E c c') (hT : E ≤ T) :
    (collapseWithChildren m canStart canEnd c.collapsibleMarginsInChildren c.blockSize).1.collapsedThrough =
      (collapseWithChildren m' canStart canEnd c'.collapsibleMarginsInChildren c'.blockSize).1.collapsedThrough ∧
    ∃ A C P, MarginsAgree Is A (collapseWithChildren m canStart canEnd c.collapsibleMarginsInChildren c.blockSize).1.start
        (collapseWithChildren m' canStart canEnd c'.collapsibleMarginsInChildren c'.blockSize).1.start ∧
      MarginsAgree Is C (collapseWithChildren m canStart canEnd c.collapsibleMarginsInChildren c.blockSize).1.end
        (collapseWithChildren m' canStart canEnd c'.collapsibleMarginsInChildren c'.blockSize).1.end ∧
      Is true P (collapseWithChildren m canStart canEnd c.collapsibleMarginsInChildren c.blockSize).2
        (collapseWithChildren m' canStart canEnd c'.collapsibleMarginsInChildren c'.blockSize).2 ∧
      2 * A + 2 * C + P ≤ 4 * own + E := by
  obtain ⟨-, ht, A, C, P, hA, hC, hP, hE⟩ := hc
  have nA := margins_nonneg S hA
  have nC := margins_nonneg S hC
  have nP := S.nonneg hP
  have s1 := margins_new S (S.fine hm)
  have s2 := margins_new S (S.fine hm')
  refine ⟨by simp only [collapseWithChildren, ht], ?_⟩
  have hsolve := S.add hP (margins_solve S hC (by linarith)) (by linarith)
  have hsolve0 := S.add hP (margins_solve S (margins_zero S) (by linarith)) (by linarith)
  simp only [collapseWithChildren, CollapsedBlockMargins.fromMargin, ht]
  cases canStart <;> cases canEnd <;> cases c'.collapsibleMarginsInChildren.collapsedThrough <;>
    simp only [Bool.true_and, Bool.false_and, if_true, if_false, Bool.false_eq_true]
  · exact ⟨_, _, _, s1, s2, hsolve, by linarith⟩
  · exact ⟨_, _, _, s1, s2, hsolve, by linarith⟩
  · exact ⟨_, _, _, s1, margins_adjoin S s2 hC, hP, by linarith⟩
  · exact ⟨_, _, _, s1, margins_adjoin S s2 hC, hP, by linarith⟩
  · exact ⟨_, _, _, margins_adjoin S s1 hA, s2, hsolve, by linarith⟩
  · exact ⟨_, _, _, margins_adjoin S (margins_adjoin S s1 hA) hC, s2, hsolve0, by linarith⟩
  · exact ⟨_, _, _, margins_adjoin S s1 hA, margins_adjoin S s2 hC, hP, by linarith⟩
  · exact ⟨_, _, _, margins_adjoin S (margins_adjoin S s1 hA) hC, margins_adjoin S s2 (margins_zero S), hP, by linarith⟩

omit S in
theorem blocks_box {E A C P X : Rat} {b : BoxInfo R} {b' : BoxInfo R'} {c : List (Fragment R)} {c' : List (Fragment R')}
    (h : FragmentsAgree (Is true T) (.box b c) (.box b' c'))
    (ht : b.blockMarginsCollapsedWithChildren.collapsedThrough = b'.blockMarginsCollapsedWithChildren.collapsedThrough)
    (h1 : MarginsAgree Is A b.blockMarginsCollapsedWithChildren.start b'.blockMarginsCollapsedWithChildren.start)
    (h2 : MarginsAgree Is C b.blockMarginsCollapsedWithChildren.end b'.blockMarginsCollapsedWithChildren.end)
    (h3 : Is true P b.borderBlockSize b'.borderBlockSize)
    (h4 : Is true X b.contentRect.startCorner.block b'.contentRect.startCorner.block) (hE : 2 * A + 2 * C + P + X ≤ E) :
    BlocksAgree Is T E (.box b c) (.box b' c') := ⟨h, ht, A, C, P, X, h1, h2, h3, h4, hE⟩

theorem layoutInFlow_agree {I own E : Rat} {cb : ContainingBlock R} {cb' : ContainingBlock R'} {style : ComputedValues}
    (kind : BlockLevelKind)
    (hmode : cb.mode = cb'.mode) (hcb : Is false I cb.inlineSize cb'.inlineSize)
    (hs : StylesAgree (Is false own) (Numbers.lengths style) (Numbers.lengths style)) (h0 : 0 ≤ own) (hE : 0 ≤ E) (hT : I + 16 * own + E ≤ T)
    {l : ContainingBlock R → Absolutes R → Bool → Option (FlowChildren R × Absolutes R)}
    {l' : ContainingBlock R' → Absolutes R' → Bool → Option (FlowChildren R' × Absolutes R')}
    (hl : ∀ (c : ContainingBlock R) (c' : ContainingBlock R') (coll : Bool), c.mode = c'.mode → Is false (I + 6 * own) c.inlineSize c'.inlineSize →
      ResultsAgree (fun p p' => ContentsAgree Is T E p.1 p'.1 ∧ p.2 = [] ∧ p'.2 = []) (l c [] coll) (l' c' [] coll))
    (a : DefiniteContainingBlock R → Nat → AbsolutelyPositionedFragment R → Option (Fragment R))
    (a' : DefiniteContainingBlock R' → Nat → AbsolutelyPositionedFragment R' → Option (Fragment R')) :
    ResultsAgree (fun p p' => BlocksAgree Is T (16 * own + E) p.1 p'.1 ∧ p.2 = [] ∧ p'.2 = [])
      (layoutInFlow cb [] style kind l a) (layoutInFlow cb' [] style kind l' a') := by
  have nI := S.nonneg hcb
  obtain ⟨z1, z2, z3, z4, z5, z6, z7, z8⟩ := inFlowSizes_agree S hcb hs (by linarith) h0
  have pb := plus_agree S z1 z2 (by linarith)
  obtain ⟨r1, r2⟩ := relative_agree S hs h0 (inFlowSizes cb style).inlineSize (inFlowSizes cb' style).inlineSize
    (inFlowSizes cb style).blockSize (inFlowSizes cb' style).blockSize
  have hl := hl ⟨(inFlowSizes cb style).inlineSize, (inFlowSizes cb style).blockSize, writingMode style⟩
    ⟨(inFlowSizes cb' style).inlineSize, (inFlowSizes cb' style).blockSize, writingMode style⟩
    (decide (kind = .sameFormattingContextBlock) && Numbers.isZero ((inFlowSizes cb style).padding.plus (inFlowSizes cb style).border).blockStart)
    rfl z7
  unfold layoutInFlow
  simp only [hmode]
  split
  · simp only [ResultsAgree]
  · have e1 : (if (positionOf style).isRelativelyPositioned = true then ([] : Absolutes R) else []) = [] := by split <;> rfl
    have e2 : (if (positionOf style).isRelativelyPositioned = true then ([] : Absolutes R') else []) = [] := by split <;> rfl
    rw [e1, e2, ← S.isZero pb.2.2.1, ← S.isZero pb.2.2.2, ← isAuto_agree z8]
    rcases e3 : l ⟨(inFlowSizes cb style).inlineSize, (inFlowSizes cb style).blockSize, writingMode style⟩ []
        (decide (kind = .sameFormattingContextBlock) && Numbers.isZero ((inFlowSizes cb style).padding.plus (inFlowSizes cb style).border).blockStart)
      with _ | ⟨c, as⟩ <;>
      rcases e4 : l' ⟨(inFlowSizes cb' style).inlineSize, (inFlowSizes cb' style).blockSize, writingMode style⟩ []
        (decide (kind = .sameFormattingContextBlock) && Numbers.isZero ((inFlowSizes cb style).padding.plus (inFlowSizes cb style).border).blockStart)
      with _ | ⟨c', as'⟩ <;> rw [e3, e4] at hl
    · simp only [ResultsAgree]
    · exact hl.elim
    · exact hl.elim
    · obtain ⟨hc, ha, ha'⟩ := hl
      simp only at hc ha ha'
      subst ha ha'
      simp only [inPositionedContainingBlock]
      obtain ⟨k1, A, C, P, k2, k3, k4, k5⟩ := collapse_agree S z3 z4
        (decide (kind = .sameFormattingContextBlock) && Numbers.isZero ((inFlowSizes cb style).padding.plus (inFlowSizes cb style).border).blockStart)
        (decide (kind = .sameFormattingContextBlock) && Numbers.isZero ((inFlowSizes cb style).padding.plus (inFlowSizes cb style).border).blockEnd
          && (inFlowSizes cb style).blockSize.isAuto) hc (by linarith)
      have nA := margins_nonneg S k2
      have nC := margins_nonneg S k3
      have nP := S.nonneg k4
      have big : ∀ {g : Bool} {B : Rat} {u : R} {u' : R'}, Is g B u u' → B ≤ T → Is true T u u' := by
        intro g B u u' h hB
        cases g
        · exact S.fine (S.mono h hB)
        · exact S.mono h hB
      have size := autoIs_agree (used_imp (fun a a' h => S.mono (S.fine h) (show own ≤ own + P by linarith)) z8) (S.mono k4 (show P ≤ own + P by linarith))
      have corner := S.fine (S.add pb.2.2.1 r2 (by linarith))
      have frag : ∀ {x : BoxInfo R} {x' : BoxInfo R'}, BoxesAgree (Is true T) x x' →
          FragmentsAgree (Is true T) (.box x c.fragments) (.box x' c'.fragments) := fun h => .box h hc.1
      have first := big (S.add (S.fine (S.add pb.1 r1 (by linarith))) z5 (by linarith)) (by linarith)
      split <;> simp only [ResultsAgree] <;> refine ⟨?_, trivial, trivial⟩ <;>
        exact blocks_box (frag ⟨rfl, ⟨first, big corner (by linarith), big z7 (by linarith), big size (by linarith)⟩,
          ⟨big z1.1 (by linarith), big z1.2.1 (by linarith), big z1.2.2.1 (by linarith), big z1.2.2.2 (by linarith)⟩,
          ⟨big z2.1 (by linarith), big z2.2.1 (by linarith), big z2.2.2.1 (by linarith), big z2.2.2.2 (by linarith)⟩,
          ⟨big z5 (by linarith), big z6 (by linarith), big z3 (by linarith), big z4 (by linarith)⟩⟩) k1 k2 k3
          (S.add (S.add (S.fine (S.add z1.2.2.1 z1.2.2.2 (by linarith))) (S.fine (S.add z2.2.2.1 z2.2.2.2 (by linarith))) (by linarith)) size
            (by linarith)) corner (by linarith)

theorem finish_agree {E : Rat} {c : FlowChildren R} {c' : FlowChildren R'} (hc : ContentsAgree Is T E c c') (hT : E ≤ T) :
    ContentsAgree Is T E c.finishBlockFormattingContext c'.finishBlockFormattingContext := by
  obtain ⟨h1, -, A, C, P, hA, hC, hP, hE⟩ := hc
  have nA := margins_nonneg S hA
  have nC := margins_nonneg S hC
  have nP := S.nonneg hP
  exact ⟨h1, rfl, A, 0, _, hA, margins_zero S, S.add hP (margins_solve S hC (by linarith)) (by linarith), by linarith⟩

section
variable {Err Err' : Type} (F : FontApi R Err) (F' : FontApi R' Err') {k : Nat}
  (hst : ∀ style, WholeStyle k style → lengthsSum style ≤ T →
    StylesAgree (Is false (lengthsSum style)) (Numbers.lengths style) (Numbers.lengths style))
include hst

/-- Layout of a tree of blocks with both kinds of numbers. -/
theorem layout_agree (fuel : Nat) : ∀ (s : Oracle),
    (∀ (c : BlockContainer) (cb : ContainingBlock R) (cb' : ContainingBlock R') (rank : Nat) (floats coll : Bool) (I : Rat),
      c.OnlyBlocks k → cb.mode = cb'.mode → Is false I cb.inlineSize cb'.inlineSize → I + 16 * c.lengthsSum ≤ T →
      ResultsAgree (fun p p' => ContentsAgree Is T (16 * c.lengthsSum) p.1 p'.1 ∧ p.2 = [] ∧ p'.2 = [])
        (layoutContainer F fuel s c cb rank [] floats coll) (layoutContainer F' fuel s c cb' rank [] floats coll)) ∧
    (∀ (b : BlockLevelBox) (cb : ContainingBlock R) (cb' : ContainingBlock R') (rank : Nat) (floats : Bool) (I : Rat),
      b.OnlyBlocks k → cb.mode = cb'.mode → Is false I cb.inlineSize cb'.inlineSize → I + 16 * b.lengthsSum ≤ T →
      ResultsAgree (fun p p' => BlocksAgree Is T (16 * b.lengthsSum) p.1 p'.1 ∧ p.2 = [] ∧ p'.2 = [])
        (layoutBox F fuel s b cb rank [] floats) (layoutBox F' fuel s b cb' rank [] floats)) := by
  induction fuel with
  | zero =>
    intro s
    constructor
    · intro c cb cb' rank floats coll I _ _ _ _
      simp only [layoutContainer, ResultsAgree]
    · intro b cb cb' rank floats I _ _ _ _
      simp only [layoutBox, ResultsAgree]
  | succ fuel ih =>
    intro s
    constructor
    · intro c cb cb' rank floats coll I hc hmode hI hT
      have nI := S.nonneg hI
      cases c with
      | inlineFormattingContext boxes => rw [BlockContainer.OnlyBlocks] at hc; exact hc.elim
      | blockLevelBoxes boxes =>
        rw [BlockContainer.OnlyBlocks] at hc
        rw [BlockContainer.lengthsSum] at hT ⊢
        rw [layoutContainer, layoutContainer, ← blocksSum_eq]
        refine layoutChildren_agree S ?_ ?_ ?_
        · intro b hb r
          exact (ih (s.sub r)).2 b cb cb' r floats I (onlyBlocks_mem hc hb) hmode hI (by linarith [boxSum_le hb])
        · intro b hb
          linarith [boxSum_nonneg b]
        · rw [blocksSum_eq]
          linarith
    · intro b cb cb' rank floats I hb hmode hI hT
      have nI := S.nonneg hI
      cases b with
      | outOfFlowAbsolutelyPositioned => rw [BlockLevelBox.OnlyBlocks] at hb; exact hb.elim
      | outOfFlowFloat =>
        rw [BlockLevelBox.lengthsSum] at hT ⊢
        simp only [layoutBox, ResultsAgree, Fragment.noOp, hmode, and_true]
        have hz : ∀ {g : Bool}, Is g T (0 : R) (0 : R') := S.mono S.zero (by linarith)
        exact ⟨.anonymous ⟨hz, hz, hz, hz⟩ .nil, rfl, rfl, S.zero, S.zero, by norm_num⟩
      | sameFormattingContextBlock style contents =>
        rw [BlockLevelBox.OnlyBlocks] at hb
        rw [BlockLevelBox.lengthsSum] at hT ⊢
        have n0 := lengthsSum_nonneg style
        have n1 := containerSum_nonneg contents
        rw [layoutBox, layoutBox, mul_add]
        refine layoutInFlow_agree S _ hmode hI (hst style hb.1 (by linarith)) n0 (by linarith) (by linarith) ?_ _ _
        intro c c' coll hm hi
        exact (ih (s.sub 0)).1 contents c c' rank floats coll _ hb.2 hm hi (by linarith)
      | independent style containsFloats contents =>
        rw [BlockLevelBox.OnlyBlocks] at hb
        rw [BlockLevelBox.lengthsSum] at hT ⊢
        have n0 := lengthsSum_nonneg style
        have n1 := containerSum_nonneg contents
        rw [layoutBox, layoutBox, mul_add]
        refine layoutInFlow_agree S _ hmode hI (hst style hb.1 (by linarith)) n0 (by linarith) (by linarith) ?_ _ _
        intro c c' coll hm hi
        have h := (ih (s.sub 0)).1 contents c c' rank containsFloats false _ hb.2 hm hi (by linarith)
        rcases e1 : layoutContainer F fuel (s.sub 0) contents c rank [] containsFloats false with _ | ⟨p, as⟩ <;>
          rcases e2 : layoutContainer F' fuel (s.sub 0) contents c' rank [] containsFloats false with _ | ⟨p', as'⟩ <;> rw [e1, e2] at h
        · simp only [mapFst, ResultsAgree]
        · exact h.elim
        · exact h.elim
        · exact ⟨finish_agree S h.1 (by linarith), h.2⟩

/-- Layout of a page. -/
theorem layoutRoot_agree (fuel : Nat) (s : Oracle) (root : BlockFormattingContext) (viewport : Vec2 R) (viewport' : Vec2 R') (I : Rat)
    (hb : root.contents.OnlyBlocks k) (hI : Is false I viewport.inline viewport'.inline) (hT : I + 16 * root.contents.lengthsSum ≤ T) :
    ResultsAgree (List.Forall₂ (FragmentsAgree (Is true T))) (layoutRoot F fuel s root viewport) (layoutRoot F' fuel s root viewport') := by
  have nI := S.nonneg hI
  have h := (layout_agree S F F' hst fuel (s.sub 0)).1 root.contents ⟨viewport.inline, .length viewport.block, (.horizontalTb, .ltr)⟩
    ⟨viewport'.inline, .length viewport'.block, (.horizontalTb, .ltr)⟩ 0 root.containsFloats false I hb rfl hI hT
  simp only [layoutRoot, layoutContext]
  rcases e1 : layoutContainer F fuel (s.sub 0) root.contents ⟨viewport.inline, .length viewport.block, (.horizontalTb, .ltr)⟩ 0 []
      root.containsFloats false with _ | ⟨p, as⟩ <;>
    rcases e2 : layoutContainer F' fuel (s.sub 0) root.contents ⟨viewport'.inline, .length viewport'.block, (.horizontalTb, .ltr)⟩ 0 []
      root.containsFloats false with _ | ⟨p', as'⟩ <;> rw [e1, e2] at h
  · simp only [mapFst, ResultsAgree]
  · exact h.elim
  · exact h.elim
  · obtain ⟨hc, ha, ha'⟩ := h
    simp only at hc ha ha'
    subst ha ha'
    simp only [mapFst, layoutAll, List.append_nil, ResultsAgree, FlowChildren.finishBlockFormattingContext]
    exact hc.1

end

end Verif.Layout.Machine
