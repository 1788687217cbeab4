/- The margins that block layout computes are those of the specification: whole containers and boxes. -/
import Verif.Layout.MarginLemmas
namespace Verif.Layout
open Verif.Style Verif.Text

theorem placeAll_append : ∀ (fs fs2 : List Fragment) (s s' : PlacementState) (r : List Fragment),
    placeAll s (fs ++ fs2) = some (r, s') ↔
      ∃ r1 s1 r2, placeAll s fs = some (r1, s1) ∧ placeAll s1 fs2 = some (r2, s') ∧ r = r1 ++ r2 := by
  intro fs fs2
  induction fs with
  | nil => intro s s' r; simp [placeAll]
  | cons f fs ih =>
    intro s s' r
    simp only [List.cons_append, placeAll]
    rcases placeFragment s f with _ | ⟨f', s1⟩
    · simp
    · constructor
      · intro h
        rcases hq : placeAll s1 (fs ++ fs2) with _ | ⟨r', s2⟩
        · simp [hq] at h
        · simp only [hq, Option.some.injEq, Prod.mk.injEq] at h
          obtain ⟨rfl, rfl⟩ := h
          obtain ⟨r1, s1', r2, h1, h2, rfl⟩ := (ih _ _ _).mp hq
          exact ⟨f' :: r1, s1', r2, by simp [h1], h2, rfl⟩
      · rintro ⟨r1, s1', r2, h1, h2, rfl⟩
        rcases hq : placeAll s1 fs with _ | ⟨r1', s2⟩
        · simp [hq] at h1
        · simp only [hq, Option.some.injEq, Prod.mk.injEq] at h1
          obtain ⟨rfl, rfl⟩ := h1
          simp [(ih s1 s' (r1' ++ r2)).mpr ⟨r1', s2, r2, hq, h2, rfl⟩]

theorem placeAll_length : ∀ (fs : List Fragment) (s s' : PlacementState) (r : List Fragment),
    placeAll s fs = some (r, s') → r.length = fs.length := by
  intro fs
  induction fs with
  | nil => intro s s' r h; simp [placeAll] at h; simp [← h.1]
  | cons f fs ih =>
    intro s s' r h
    simp only [placeAll] at h
    rcases h0 : placeFragment s f with _ | ⟨f', s1⟩
    · simp [h0] at h
    · simp only [h0] at h
      rcases hq : placeAll s1 fs with _ | ⟨r', s2⟩
      · simp [hq] at h
      · simp only [hq, Option.some.injEq, Prod.mk.injEq] at h
        rw [← h.1]; simp [ih _ _ _ hq]

theorem place_list {cb : ContainingBlock} {collapsible : Bool} :
    ∀ (bs : List BlockLevelBox) (fs : List Fragment) (pre : List BlockLevelBox) (s s' : PlacementState) (fs' : List Fragment),
      PlacedBefore cb collapsible pre s → List.Forall₂ (Unplaced cb) bs fs → placeAll s fs = some (fs', s') →
      PlacedBefore cb collapsible (pre ++ bs) s' := by
  intro bs
  induction bs with
  | nil =>
    intro fs pre s s' fs' hs hf hp
    cases hf
    simp only [placeAll, Option.some.injEq, Prod.mk.injEq] at hp
    simpa [← hp.2] using hs
  | cons b bs ih =>
    intro fs pre s s' fs' hs hf hp
    cases hf with
    | cons hb hbs =>
      rename_i f fs
      simp only [placeAll] at hp
      rcases hq : placeFragment s f with _ | ⟨f', s1⟩
      · simp [hq] at hp
      · simp only [hq] at hp
        rcases hr : placeAll s1 fs with _ | ⟨r', s2⟩
        · simp [hr] at hp
        · simp only [hr, Option.some.injEq, Prod.mk.injEq] at hp
          obtain ⟨-, rfl⟩ := hp
          have := ih fs (pre ++ [b]) s1 s2 r' (place_step hs hb hq).1 hbs hr
          simpa using this

theorem seqChildren_forall₂ {g : Nat → BlockLevelBox → Option (Fragment × Absolutes)} {P : BlockLevelBox → Fragment → Prop}
    (h : ∀ rank b f as, g rank b = some (f, as) → P b f) :
    ∀ (bs : List BlockLevelBox) (rank : Nat) (fs : List Fragment) (as : Absolutes),
      seqChildren g rank bs = some (fs, as) → List.Forall₂ P bs fs := by
  intro bs
  induction bs with
  | nil => intro rank fs as hs; simp only [seqChildren, Option.some.injEq, Prod.mk.injEq] at hs; rw [← hs.1]; exact .nil
  | cons b bs ih =>
    intro rank fs as hs
    simp only [seqChildren] at hs
    rcases hb : g rank b with _ | ⟨f, as1⟩
    · simp [hb] at hs
    · rcases hq : seqChildren g (rank + 1) bs with _ | ⟨fs', as2⟩
      · simp [hb, hq] at hs
      · simp only [hb, hq, Option.some.injEq, Prod.mk.injEq] at hs
        rw [← hs.1]
        exact .cons (h _ _ _ _ hb) (ih _ _ _ hq)

/-- What is known of the layout of a list of block-level boxes: the fragments before they are placed, and the placement. -/
theorem canonicalChildren_some {g : Nat → BlockLevelBox → Option (Fragment × Absolutes)} {bs : List BlockLevelBox} {rank : Nat}
    {collapsible : Bool} {fc : FlowChildren} {as : Absolutes}
    (h : canonicalChildren g bs rank collapsible = some (fc, as)) :
    ∃ fs as' s, seqChildren g 0 bs = some (fs, as') ∧ placeAll (.initial collapsible) fs = some (fc.fragments, s) ∧
      fc.blockSize = s.currentBlockDirectionPosition ∧
      fc.collapsibleMarginsInChildren =
        ⟨s.nextInFlowMarginCollapsesWithParentStartMargin, s.startMargin, s.currentMargin⟩ ∧
      adjustStaticPositions as' fc.fragments rank = some as := by
  simp only [canonicalChildren] at h
  rcases h1 : seqChildren g 0 bs with _ | ⟨fs, as'⟩
  · simp [h1] at h
  · simp only [h1] at h
    rcases h2 : placeAll (.initial collapsible) fs with _ | ⟨fs', s⟩
    · simp [h2] at h
    · simp only [h2, finishChildren, List.drop_zero, List.take_zero, List.nil_append] at h
      rcases h3 : adjustStaticPositions as' fs' rank with _ | as''
      · simp [h3] at h
      · simp only [h3, Option.some.injEq, Prod.mk.injEq] at h
        obtain ⟨rfl, rfl⟩ := h
        exact ⟨fs, as', s, rfl, h2, rfl, rfl, h3⟩

/-- What `layoutInFlow` gives. -/
theorem layoutInFlow_some {cb : ContainingBlock} {style : ComputedValues} {kind : BlockLevelKind}
    {lc : ContainingBlock → Absolutes → Bool → Option (FlowChildren × Absolutes)}
    {la : DefiniteContainingBlock → Nat → AbsolutelyPositionedFragment → Option Fragment} {f : Fragment} {as : Absolutes}
    (h : layoutInFlow cb [] style kind lc la = some (f, as)) :
    ∃ fc as' info children,
      lc (Css.inner cb style) [] (decide (kind = .sameFormattingContextBlock) && Css.startCollapses cb style) = some (fc, as') ∧
      f = .box info children ∧
      info.style = style ∧
      info.padding = (inFlowSizes cb style).padding ∧ info.border = (inFlowSizes cb style).border ∧
      info.margin = (inFlowSizes cb style).margin ∧
      info.contentRect.startCorner =
        ⟨Css.paddingLeft cb style + Css.borderLeft cb style +
            (relativeAdjustement style (Css.width cb style) (Css.height cb style)).inline +
            (inFlowSizes cb style).margin.inlineStart,
         Css.paddingTop cb style + Css.borderTop cb style + Css.relativeShift cb style⟩ ∧
      info.contentRect.size = ⟨Css.width cb style, (Css.height cb style).autoIs
        (collapseWithChildren (inFlowSizes cb style).margin
          (decide (kind = .sameFormattingContextBlock) && Css.startCollapses cb style)
          (decide (kind = .sameFormattingContextBlock) && Css.endCollapses cb style)
          fc.collapsibleMarginsInChildren fc.blockSize).2⟩ ∧
      info.blockMarginsCollapsedWithChildren = (collapseWithChildren (inFlowSizes cb style).margin
          (decide (kind = .sameFormattingContextBlock) && Css.startCollapses cb style)
          (decide (kind = .sameFormattingContextBlock) && Css.endCollapses cb style)
          fc.collapsibleMarginsInChildren fc.blockSize).1 ∧
      (if (positionOf style).isRelativelyPositioned then
        as = [] ∧ inPositionedContainingBlock la as' fc.fragments info.contentRect.size info.padding (.horizontalTb, .ltr) =
          some children
       else as = as' ∧ children = fc.fragments) ∧
      cb.mode = (.horizontalTb, .ltr) := by
  have hs : decide (((inFlowSizes cb style).padding.add (inFlowSizes cb style).border).blockStart = 0) =
      Css.startCollapses cb style := by rw [inFlow_padding, inFlow_border]; rfl
  have he : (decide (((inFlowSizes cb style).padding.add (inFlowSizes cb style).border).blockEnd = 0) &&
      decide ((inFlowSizes cb style).blockSize = .auto)) = Css.endCollapses cb style := by
    rw [inFlow_padding, inFlow_border, inFlow_height]; rfl
  have hm : writingMode style = (.horizontalTb, .ltr) := rfl
  have hcs : ((inFlowSizes cb style).padding.add (inFlowSizes cb style).border).inlineStart =
      Css.paddingLeft cb style + Css.borderLeft cb style := by rw [inFlow_padding, inFlow_border]; rfl
  have hct : ((inFlowSizes cb style).padding.add (inFlowSizes cb style).border).blockStart =
      Css.paddingTop cb style + Css.borderTop cb style := by rw [inFlow_padding, inFlow_border]; rfl
  have hh := inFlow_height cb style
  have hinner : (⟨Css.width cb style, Css.height cb style, (.horizontalTb, .ltr)⟩ : ContainingBlock) = Css.inner cb style := rfl
  simp only [hh] at he
  simp only [layoutInFlow, hs, inFlow_width cb style, hh, hm, hinner, Bool.and_assoc, he, relativeAdjustement_block,
    ite_self] at h
  by_cases hmode : cb.mode = (.horizontalTb, .ltr)
  · have hmode' : ¬ (cb.mode ≠ (.horizontalTb, .ltr)) := by rw [hmode]; simp
    rw [if_neg hmode'] at h
    rcases hl : lc (Css.inner cb style) [] (decide (kind = .sameFormattingContextBlock) && Css.startCollapses cb style) with
      _ | ⟨fc, as'⟩
    · simp [hl] at h
    · simp only [hl] at h
      cases hrel : (positionOf style).isRelativelyPositioned with
      | true =>
        simp only [hrel, if_true] at h
        split at h
        · simp at h
        · rename_i fragments hq
          simp only [Option.some.injEq, Prod.mk.injEq] at h
          obtain ⟨rfl, rfl⟩ := h
          refine ⟨fc, as', _, _, rfl, rfl, rfl, rfl, rfl, rfl, ?_, ?_, rfl, ?_, hmode⟩
          · simp only [hcs, hct]
          · rfl
          · simp only [if_true]; exact ⟨trivial, hq⟩
      | false =>
        simp only [hrel, Bool.false_eq_true, if_false, Option.some.injEq, Prod.mk.injEq] at h
        obtain ⟨rfl, rfl⟩ := h
        refine ⟨fc, _, _, _, rfl, rfl, rfl, rfl, rfl, rfl, ?_, ?_, rfl, ?_, hmode⟩
        · simp only [hcs, hct]
        · rfl
        · simp
  · exfalso
    have hmode' : cb.mode ≠ (.horizontalTb, .ltr) := hmode
    rw [if_pos hmode'] at h
    simp at h

theorem collapse_of {cb : ContainingBlock} {style : ComputedValues} {c : BlockContainer}
    {m : CollapsedBlockMargins} {size : Rat} {s e : Bool}
    (hm : ContentMargins (Css.inner cb style) c s m) :
    ((collapseWithChildren (inFlowSizes cb style).margin s e m size).1.collapsedThrough =
        (s && e && Css.throughContents (Css.inner cb style) c)) ∧
    (collapseWithChildren (inFlowSizes cb style).margin s e m size).1.start.Of
      (Css.marginTop cb style :: if s then Css.leadingContents (Css.inner cb style) c else []) ∧
    (collapseWithChildren (inFlowSizes cb style).margin s e m size).1.end.Of
      (Css.marginBottom cb style :: if e && !(s && Css.throughContents (Css.inner cb style) c)
        then Css.trailingContents (Css.inner cb style) c else []) := by
  obtain ⟨h1, h2, h3⟩ := hm
  obtain ⟨hms, hme⟩ := inFlow_margin_block cb style
  have hns := CollapsedMargin.of_new (Css.marginTop cb style)
  have hne := CollapsedMargin.of_new (Css.marginBottom cb style)
  simp only [collapseWithChildren, CollapsedBlockMargins.fromMargin, hms, hme, h1]
  by_cases hs : s = true
  · subst hs
    by_cases ht : Css.throughContents (Css.inner cb style) c = true
    · simp only [ht, Bool.and_true, if_true, Bool.not_true, Bool.and_false, Bool.false_eq_true, if_false] at h2 h3 ⊢
      refine ⟨trivial, ?_, ?_⟩
      · have := (hns.adjoin h2).adjoin h3
        simpa using this
      · cases e
        · simpa using hne
        · simpa using hne.adjoin CollapsedMargin.of_zero
    · simp only [ht, Bool.and_false, Bool.false_eq_true, if_false, if_true, Bool.not_false, Bool.and_true] at h2 h3 ⊢
      refine ⟨trivial, by simpa using hns.adjoin h2, ?_⟩
      cases e
      · simpa using hne
      · simpa using hne.adjoin h3
  · have hs' : s = false := by simpa using hs
    subst hs'
    simp only [Bool.false_and, Bool.false_eq_true, if_false, Bool.not_false, Bool.and_true] at h2 h3 ⊢
    refine ⟨trivial, hns, ?_⟩
    cases e
    · simpa using hne
    · simpa using hne.adjoin h3

theorem layoutInline_margins {Err : Type} (F : FontApi Rat Err) (cb : ContainingBlock) (rank : Nat) :
    ∀ (fuel : Nat) (ifc : InlineState) (absolute : Absolutes) (fc : FlowChildren) (as : Absolutes),
      inlineLoop F cb rank fuel ifc absolute = some (fc, as) → fc.collapsibleMarginsInChildren = .zero := by
  intro fuel
  induction fuel with
  | zero => intro ifc absolute fc as h; simp [inlineLoop] at h
  | succ fuel ih =>
    intro ifc absolute fc as h
    simp only [inlineLoop] at h
    rcases hs : inlineStep F cb rank ifc absolute with _ | (⟨ifc', a⟩ | ⟨fc', a⟩)
    · simp [hs] at h
    · simp only [hs] at h; exact ih _ _ _ _ h
    · simp only [hs, Option.some.injEq, Prod.mk.injEq] at h
      obtain ⟨rfl, rfl⟩ := h
      simp only [inlineStep] at hs
      cases hr : ifc.current.remainingBoxes with
      | cons child rest =>
        simp only [hr] at hs
        cases child with
        | inlineBox => simp at hs
        | textRun style text =>
          simp only at hs
          split at hs <;> simp at hs
        | outOfFlowAbsolutelyPositioned =>
          simp only at hs
          split at hs <;> simp at hs
        | outOfFlowFloat => simp at hs
      | nil =>
        simp only [hr] at hs
        cases hst : ifc.stack with
        | cons p stack => simp [hst] at hs
        | nil =>
          simp only [hst, Option.some.injEq, Sum.inr.injEq, Prod.mk.injEq] at hs
          rw [← hs.1]

/-- The margins that layout computes, for every box and container. -/
theorem layout_margins {Err : Type} (F : FontApi Rat Err) : ∀ (fuel : Nat),
    (∀ c cb rank collapsible fc as, layoutContainer F fuel inOrder c cb rank [] false collapsible = some (fc, as) →
      ContentMargins cb c collapsible fc.collapsibleMarginsInChildren) ∧
    (∀ b cb rank f as, layoutBox F fuel inOrder b cb rank [] false = some (f, as) → Unplaced cb b f) := by
  intro fuel
  induction fuel with
  | zero => exact ⟨by intros; simp_all [layoutContainer], by intros; simp_all [layoutBox]⟩
  | succ fuel ih =>
    obtain ⟨ihc, ihb⟩ := ih
    refine ⟨?_, ?_⟩
    · intro c cb rank collapsible fc as h
      cases c with
      | blockLevelBoxes boxes =>
        simp only [layoutContainer] at h
        rw [layoutChildren_eq (g := fun rank b => layoutBox F fuel inOrder b cb rank [] false)
              (fun rank b absolute => (layout_prepend F fuel).2.1 _ b cb rank absolute false), prepend_nil] at h
        obtain ⟨fs, as', s, hseq, hplace, -, hmargins, -⟩ := canonicalChildren_some h
        have hun := seqChildren_forall₂ (P := Unplaced cb) (fun rank b f as hb => ihb b cb rank f as hb) _ _ _ _ hseq
        have hp := place_list boxes fs [] _ s _ (placedBefore_initial cb collapsible) hun hplace
        rw [List.nil_append] at hp
        rw [hmargins]
        exact ⟨hp.flag, hp.start, hp.current⟩
      | inlineFormattingContext boxes =>
        simp only [layoutContainer, layoutInline] at h
        rw [layoutInline_margins F cb rank _ _ _ _ _ h]
        refine ⟨?_, ?_, ?_⟩ <;> cases collapsible <;>
          simp [CollapsedBlockMargins.zero, Css.throughContents, Css.leadingContents, Css.trailingContents,
            CollapsedMargin.of_zero]
    · intro b cb rank f as h
      cases b with
      | sameFormattingContextBlock style contents =>
        simp only [layoutBox] at h
        obtain ⟨fc, as', info, children, hl, rfl, -, hpad, hbor, -, hstart, -, hmargins, -, -⟩ := layoutInFlow_some h
        simp only [decide_true, Bool.true_and] at hl hmargins
        have hc := ihc _ _ _ _ _ _ hl
        obtain ⟨h1, h2, h3⟩ := collapse_of (size := fc.blockSize)
          (e := Css.endCollapses cb style) hc
        simp only [Unplaced, Css.inFlow, if_true, Css.styleOf]
        refine ⟨info, children, rfl, ?_, ?_, ?_, ?_, ?_, ?_⟩
        · rw [hpad, inFlow_padding]
        · rw [hbor, inFlow_border]
        · rw [hstart]
        · rw [hmargins, h1, Css.through]
        · rw [hmargins, Css.startMargins]; exact h2
        · rw [hmargins, Css.endMargins]; exact h3
      | independent style containsFloats contents =>
        simp only [layoutBox] at h
        obtain ⟨fc, as', info, children, hl, rfl, -, hpad, hbor, -, hstart, -, hmargins, -, -⟩ := layoutInFlow_some h
        have hd : decide (BlockLevelKind.establishesAnIndependentFormattingContext =
          BlockLevelKind.sameFormattingContextBlock) = false := by decide
        simp only [hd, Bool.false_and] at hl hmargins
        obtain ⟨hms, hme⟩ := inFlow_margin_block cb style
        simp only [Unplaced, Css.inFlow, if_true, Css.styleOf]
        refine ⟨info, children, rfl, ?_, ?_, ?_, ?_, ?_, ?_⟩
        · rw [hpad, inFlow_padding]
        · rw [hbor, inFlow_border]
        · rw [hstart]
        · rw [hmargins, Css.through]; simp [collapseWithChildren]
        · rw [hmargins, Css.startMargins]
          simpa [collapseWithChildren, CollapsedBlockMargins.fromMargin, hms] using CollapsedMargin.of_new _
        · rw [hmargins, Css.endMargins]
          simpa [collapseWithChildren, CollapsedBlockMargins.fromMargin, hme] using CollapsedMargin.of_new _
      | outOfFlowAbsolutelyPositioned style containsFloats contents =>
        simp only [layoutBox, Option.some.injEq, Prod.mk.injEq] at h
        simp [Unplaced, Css.inFlow, h.1]
      | outOfFlowFloat style containsFloats contents =>
        simp only [layoutBox, Option.some.injEq, Prod.mk.injEq] at h
        simp [Unplaced, Css.inFlow, h.1]

end Verif.Layout
