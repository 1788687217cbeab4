/- The layout of two trees of boxes that differ in blocks that have nothing of their own. -/
import Verif.Layout.WrapPlace
import Verif.Layout.GroundLemmas
namespace Verif.Layout
open Verif.Style Verif.Text

variable {Err : Type} {F : FontApi Rat Err}

/-! ### Layout without fuel -/

/-- The box of a block in flow, given what is known of its contents. -/
def blockInfo (cb : ContainingBlock) (style : ComputedValues) (kind : BlockLevelKind) (m : CollapsedBlockMargins) (h : Rat) : BoxInfo :=
  let start := decide (kind = .sameFormattingContextBlock) && Css.startCollapses cb style
  let «end» := decide (kind = .sameFormattingContextBlock) && Css.endCollapses cb style
  let collapsed := collapseWithChildren (inFlowSizes cb style).margin start «end» m h
  { style := style
    contentRect := ⟨⟨Css.paddingLeft cb style + Css.borderLeft cb style +
            (relativeAdjustement style (Css.width cb style) (Css.height cb style)).inline + (inFlowSizes cb style).margin.inlineStart,
         Css.paddingTop cb style + Css.borderTop cb style + Css.relativeShift cb style⟩,
      ⟨Css.width cb style, (Css.height cb style).autoIs collapsed.2⟩⟩
    padding := (inFlowSizes cb style).padding
    border := (inFlowSizes cb style).border
    margin := (inFlowSizes cb style).margin
    blockMarginsCollapsedWithChildren := collapsed.1 }

mutual
/-- The layout of a container without absolutely positioned boxes. -/
inductive LaysC (F : FontApi Rat Err) : ContainingBlock → Bool → BlockContainer → FlowChildren → Prop
  | inlines {cb coll xs rank fc as} : layoutInline F xs cb rank [] = some (fc, as) → LaysC F cb coll (.inlineFormattingContext xs) fc
  | boxes {cb coll bs fs gs s} : LaysL F cb bs fs → placeAll (.initial coll) fs = some (gs, s) →
      LaysC F cb coll (.blockLevelBoxes bs) ⟨gs, s.currentBlockDirectionPosition,
        ⟨s.nextInFlowMarginCollapsesWithParentStartMargin, s.startMargin, s.currentMargin⟩⟩
/-- The layout of a block. -/
inductive LaysB (F : FontApi Rat Err) : ContainingBlock → BlockLevelBox → Fragment → Prop
  | same {cb style c fc} : LaysC F (Css.inner cb style) (Css.startCollapses cb style) c fc →
      LaysB F cb (.sameFormattingContextBlock style c)
        (.box (blockInfo cb style .sameFormattingContextBlock fc.collapsibleMarginsInChildren fc.blockSize) fc.fragments)
  | independent {cb style floats c fc} : LaysC F (Css.inner cb style) false c fc →
      LaysB F cb (.independent style floats c)
        (.box (blockInfo cb style .establishesAnIndependentFormattingContext
          fc.finishBlockFormattingContext.collapsibleMarginsInChildren fc.finishBlockFormattingContext.blockSize) fc.fragments)
  | float {cb style floats c} : LaysB F cb (.outOfFlowFloat style floats c) (.noOp cb.mode)
/-- The layout of blocks. -/
inductive LaysL (F : FontApi Rat Err) : ContainingBlock → List BlockLevelBox → List Fragment → Prop
  | nil {cb} : LaysL F cb [] []
  | cons {cb b bs f fs} : LaysB F cb b f → LaysL F cb bs fs → LaysL F cb (b :: bs) (f :: fs)
end

theorem LaysL.of_forall₂ {cb : ContainingBlock} {bs : List BlockLevelBox} {fs : List Fragment} (h : List.Forall₂ (LaysB F cb) bs fs) :
    LaysL F cb bs fs := by
  induction h with
  | nil => exact .nil
  | cons h _ ih => exact .cons h ih

theorem LaysL.append {cb : ContainingBlock} {bs' : List BlockLevelBox} : ∀ {bs : List BlockLevelBox} {fs : List Fragment},
    LaysL F cb (bs ++ bs') fs → ∃ a b, fs = a ++ b ∧ LaysL F cb bs a ∧ LaysL F cb bs' b := by
  intro bs
  induction bs with
  | nil => intro fs h; exact ⟨[], fs, rfl, .nil, h⟩
  | cons x bs ih =>
    intro fs h
    cases h with
    | cons h1 h2 =>
      obtain ⟨a, b, rfl, h3, h4⟩ := ih h2
      exact ⟨_ :: a, b, rfl, .cons h1 h3, h4⟩

theorem blocksOnly_forall {P : OutOfFlow → Prop} : ∀ {bs : List BlockLevelBox}, blocksOnly P bs → ∀ b ∈ bs, b.Only P
  | _ :: _, h, _, .head _ => h.1
  | _ :: _, h, _, .tail _ hm => blocksOnly_forall h.2 _ hm

theorem seqChildren_forall₂_mem {g : Nat → BlockLevelBox → Option (Fragment × Absolutes)} {P : BlockLevelBox → Fragment → Prop} :
    ∀ (bs : List BlockLevelBox) (rank : Nat) (fs : List Fragment) (as : Absolutes), (∀ b ∈ bs, ∀ rank f as, g rank b = some (f, as) → P b f) →
      seqChildren g rank bs = some (fs, as) → List.Forall₂ P bs fs := by
  intro bs
  induction bs with
  | nil => intro rank fs as _ hs; simp only [seqChildren, Option.some.injEq, Prod.mk.injEq] at hs; rw [← hs.1]; exact .nil
  | cons b bs ih =>
    intro rank fs as h hs
    simp only [seqChildren] at hs
    rcases hb : g rank b with _ | ⟨f, as1⟩
    · simp [hb] at hs
    · rcases hq : seqChildren g (rank + 1) bs with _ | ⟨fs', as2⟩
      · simp [hb, hq] at hs
      · simp only [hb, hq, Option.some.injEq, Prod.mk.injEq] at hs
        rw [← hs.1]
        exact .cons (h _ List.mem_cons_self _ _ _ hb) (ih _ _ _ (fun b hm => h b (List.mem_cons_of_mem _ hm)) hq)

/-- Nothing is left to be positioned. -/
theorem layout_no_absolutes (F : FontApi Rat Err) (fuel : Nat) :
    (∀ c cb rank collapsible fc as, BlockContainer.Only NoAbsolutes c →
      layoutContainer F fuel inOrder c cb rank [] false collapsible = some (fc, as) → as = []) ∧
    (∀ b cb rank f as, BlockLevelBox.Only NoAbsolutes b → layoutBox F fuel inOrder b cb rank [] false = some (f, as) → as = []) := by
  obtain ⟨h1, h2, -⟩ := layout_collect (F := F) (fun _ => ([] : List Unit)) fuel
  refine ⟨fun c cb rank coll fc as hno h => ?_, fun b cb rank f as hno h => ?_⟩
  · obtain ⟨_, c⟩ := h1 _ _ _ _ _ _ h
    exact (c.order hno).1
  · obtain ⟨_, c⟩ := h2 _ _ _ _ _ h
    exact (c.order hno).1

/-- What `layoutInFlow` gives if nothing is to be positioned. -/
theorem layoutInFlow_info {cb : ContainingBlock} {style : ComputedValues} {kind : BlockLevelKind}
    {lc : ContainingBlock → Absolutes → Bool → Option (FlowChildren × Absolutes)}
    {la : DefiniteContainingBlock → Nat → AbsolutelyPositionedFragment → Option Fragment} {f : Fragment} {as : Absolutes}
    (hno : ∀ coll fc as, lc (Css.inner cb style) [] coll = some (fc, as) → as = [])
    (h : layoutInFlow cb [] style kind lc la = some (f, as)) :
    ∃ fc, lc (Css.inner cb style) [] (decide (kind = .sameFormattingContextBlock) && Css.startCollapses cb style) = some (fc, []) ∧
      f = .box (blockInfo cb style kind fc.collapsibleMarginsInChildren fc.blockSize) fc.fragments := by
  obtain ⟨fc, as', info, children, h1, rfl, h3, h4, h5, h6, h7, h8, h9, h10, -⟩ := layoutInFlow_some h
  have has' := hno _ _ _ h1
  subst has'
  have hch : children = fc.fragments := by
    split at h10
    · have := h10.2
      simp only [inPositionedContainingBlock, Option.some.injEq] at this
      exact this.symm
    · exact h10.2
  subst hch
  refine ⟨fc, h1, ?_⟩
  obtain ⟨style', rect, pad, bor, mar, coll⟩ := info
  obtain ⟨corner, size⟩ := rect
  simp only at h3 h4 h5 h6 h7 h8 h9
  subst h3 h4 h5 h6 h7 h8 h9
  rfl

theorem lays (F : FontApi Rat Err) : ∀ (fuel : Nat),
    (∀ c cb rank collapsible fc as, BlockContainer.Only NoAbsolutes c →
      layoutContainer F fuel inOrder c cb rank [] false collapsible = some (fc, as) → LaysC F cb collapsible c fc) ∧
    (∀ b cb rank f as, BlockLevelBox.Only NoAbsolutes b → layoutBox F fuel inOrder b cb rank [] false = some (f, as) → LaysB F cb b f) := by
  intro fuel
  induction fuel with
  | zero => exact ⟨by intros; simp_all [layoutContainer], by intros; simp_all [layoutBox]⟩
  | succ fuel ih =>
    obtain ⟨ihc, ihb⟩ := ih
    have hp := layout_prepend F fuel
    refine ⟨?_, ?_⟩
    · intro c cb rank collapsible fc as hno h
      cases c with
      | blockLevelBoxes boxes =>
        simp only [layoutContainer] at h
        rw [layoutChildren_eq (g := fun rank b => layoutBox F fuel inOrder b cb rank [] false)
              (fun rank b absolute => hp.2.1 _ b cb rank absolute false), prepend_nil] at h
        obtain ⟨fs, as', s, hseq, hplace, hsize, hmargins, -⟩ := canonicalChildren_some h
        have hun := seqChildren_forall₂_mem (P := LaysB F cb) _ _ _ _
          (fun b hb rank f as hl => ihb b cb rank f as (blocksOnly_forall hno b hb) hl) hseq
        obtain ⟨gs, size, margins⟩ := fc
        simp only at hsize hmargins hplace
        subst hsize hmargins
        exact .boxes (LaysL.of_forall₂ hun) hplace
      | inlineFormattingContext boxes =>
        simp only [layoutContainer] at h
        exact .inlines h
    · intro b cb rank f as hno h
      cases b with
      | sameFormattingContextBlock style contents =>
        simp only [layoutBox] at h
        obtain ⟨fc, h1, rfl⟩ := layoutInFlow_info (fun coll fc as hl => by
          rw [hp.1 (inOrder.sub 0), prepend_nil] at hl
          exact (layout_no_absolutes F fuel).1 _ _ _ _ _ _ hno hl) h
        simp only [decide_true, Bool.true_and] at h1
        rw [hp.1 (inOrder.sub 0), prepend_nil] at h1
        exact .same (ihc _ _ _ _ _ _ hno h1)
      | independent style floats contents =>
        simp only [layoutBox] at h
        obtain ⟨fc, h1, rfl⟩ := layoutInFlow_info (fun coll fc as hl => by
          rw [hp.1 (inOrder.sub 0), prepend_nil] at hl
          rcases h2 : layoutContainer F fuel inOrder contents (Css.inner cb style) rank [] false false with _ | ⟨fc1, as1⟩
          · simp [h2, mapFst] at hl
          · rw [h2] at hl
            simp only [mapFst, Option.some.injEq, Prod.mk.injEq] at hl
            rw [← hl.2]
            exact (layout_no_absolutes F fuel).1 _ _ _ _ _ _ hno h2) h
        rw [hp.1 (inOrder.sub 0), prepend_nil] at h1
        rcases h2 : layoutContainer F fuel inOrder contents (Css.inner cb style) rank [] false false with _ | ⟨fc1, as1⟩
        · simp [h2, mapFst] at h1
        · rw [h2] at h1
          simp only [mapFst, Option.some.injEq, Prod.mk.injEq] at h1
          obtain ⟨rfl, -⟩ := h1
          exact .independent (ihc _ _ _ _ _ _ hno h2)
      | outOfFlowAbsolutelyPositioned style floats contents => exact absurd rfl hno.1
      | outOfFlowFloat style floats contents =>
        simp only [layoutBox, Option.some.injEq, Prod.mk.injEq] at h
        rw [← h.1]
        exact .float

/-! ### What is known of the fragments of blocks -/

theorem collapse_sane {margin : Sides Rat} {s e : Bool} {m : CollapsedBlockMargins} {h : Rat} (h1 : m.start.Sane) (h2 : m.end.Sane) :
    (collapseWithChildren margin s e m h).1.start.Sane ∧ (collapseWithChildren margin s e m h).1.end.Sane := by
  have a1 := CollapsedMargin.sane_new margin.blockStart
  have a2 := CollapsedMargin.sane_new margin.blockEnd
  simp only [collapseWithChildren, CollapsedBlockMargins.fromMargin]
  constructor
  · split
    · split
      · exact (a1.adjoin h1).adjoin h2
      · exact a1.adjoin h2
    · split
      · exact a1.adjoin h1
      · exact a1
  · split
    · split
      · exact a2.adjoin CollapsedMargin.sane_zero
      · exact a2.adjoin h2
    · exact a2

theorem BoxInfo.ink_flat {info : BoxInfo} (h : info.borderBlockSize = 0) (o : Vec2 Rat) : info.ink o = [] := by
  simp only [BoxInfo.ink, Fragment.shape]
  split
  · rfl
  · have : info.border.blockStart + info.padding.blockStart + info.contentRect.size.block + info.padding.blockEnd + info.border.blockEnd = 0 := by
      simp only [BoxInfo.borderBlockSize, Sides.blockSum] at h
      linarith
    simp [Shape.visible, this]

/-- What is known of the contents of a block. -/
structure FlowChildren.Sound (asc : Rat) (fc : FlowChildren) : Prop where
  start : fc.collapsibleMarginsInChildren.start.Sane
  «end» : fc.collapsibleMarginsInChildren.end.Sane
  through : fc.collapsibleMarginsInChildren.collapsedThrough = true → fc.blockSize = 0 ∧ ∀ o, inkOf asc o fc.fragments = []

mutual
theorem LaysC.sound (asc : Rat) : ∀ {cb coll c fc}, LaysC F cb coll c fc → fc.Sound asc
  | _, _, _, _, .inlines h => by
    have := layoutInline_margins F _ _ _ _ _ _ _ h
    refine ⟨?_, ?_, ?_⟩ <;> rw [this]
    · exact CollapsedMargin.sane_zero
    · exact CollapsedMargin.sane_zero
    · intro h; cases h
  | _, _, _, _, .boxes h hp => by
    obtain ⟨gs, a1, h1, h2, h3⟩ := placeAll_sound _ _ (reached_initial _) (LaysL.sound asc h)
    rw [hp] at h1
    cases h1
    exact ⟨h2.start, h2.current, fun h => ⟨(h2.first h).2, (h3 h).2⟩⟩
theorem LaysB.sound (asc : Rat) : ∀ {cb b f}, LaysB F cb b f → f.Sound asc
  | _, _, _, .same (cb := cb) (style := style) (fc := fc) h => by
    have hc := LaysC.sound asc h
    obtain ⟨h1, h2⟩ := collapse_sane (margin := (inFlowSizes cb style).margin)
      (s := decide (BlockLevelKind.sameFormattingContextBlock = .sameFormattingContextBlock) && Css.startCollapses cb style)
      (e := decide (BlockLevelKind.sameFormattingContextBlock = .sameFormattingContextBlock) && Css.endCollapses cb style)
      (h := fc.blockSize) hc.start hc.end
    refine ⟨h1, h2, fun ht => ?_⟩
    simp only [blockInfo, collapseWithChildren, decide_true, Bool.true_and, Bool.and_eq_true, Css.endCollapses, Css.startCollapses, decide_eq_true_eq] at ht
    obtain ⟨⟨ht1, ht2, ht3⟩, ht4⟩ := ht
    obtain ⟨hz, hi⟩ := hc.through ht4
    have hb : (blockInfo cb style .sameFormattingContextBlock fc.collapsibleMarginsInChildren fc.blockSize).borderBlockSize = 0 := by
      simp only [BoxInfo.borderBlockSize, blockInfo, collapseWithChildren, decide_true, Bool.true_and, Css.endCollapses, Css.startCollapses, ht1, ht2, ht3,
        inFlow_padding, inFlow_border, Sides.blockSum, LengthOrAuto.autoIs, if_true, hz]
      linarith
    refine ⟨hb, fun o => ?_⟩
    rw [Fragment.ink, BoxInfo.ink_flat hb, hi, List.nil_append]
  | _, _, _, .independent (cb := cb) (style := style) (fc := fc) h => by
    have hc := LaysC.sound asc h
    obtain ⟨h1, h2⟩ := collapse_sane (margin := (inFlowSizes cb style).margin)
      (s := decide (BlockLevelKind.establishesAnIndependentFormattingContext = .sameFormattingContextBlock) && Css.startCollapses cb style)
      (e := decide (BlockLevelKind.establishesAnIndependentFormattingContext = .sameFormattingContextBlock) && Css.endCollapses cb style)
      (m := fc.finishBlockFormattingContext.collapsibleMarginsInChildren)
      (h := fc.finishBlockFormattingContext.blockSize) hc.start CollapsedMargin.sane_zero
    refine ⟨h1, h2, fun ht => ?_⟩
    simp [blockInfo, collapseWithChildren] at ht
  | _, _, _, .float => ⟨rfl, rfl⟩
theorem LaysL.sound (asc : Rat) : ∀ {cb bs fs}, LaysL F cb bs fs → ∀ f ∈ fs, f.Sound asc
  | _, _, _, .nil => by simp
  | _, _, _, .cons h1 h2 => by
    intro f hf
    rcases List.mem_cons.1 hf with rfl | hf
    · exact LaysB.sound asc h1
    · exact LaysL.sound asc h2 f hf
end

end Verif.Layout
