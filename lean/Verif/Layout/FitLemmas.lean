/- The sizes and places of boxes: lemmas for C111. -/
import Verif.Layout.FitBoxes
import Verif.Layout.BoundLemmas
import Verif.Layout.TotalLemmas
namespace Verif.Layout
open Verif.Style Verif.Text
variable {Err : Type} {F : FontApi Rat Err}

/-! ### What is left to be positioned -/

/-- Blocks in flow are not absolutely positioned; absolutely positioned boxes are, and are not inline; inline boxes are. -/
def plainKinds : Kinds where
  flow s := positionOf s ≠ .absolute
  aside s := positionOf s = .absolute ∧ displayOf s ≠ .generatingBox .inline .flow
  line s := displayOf s = .generatingBox .inline .flow

theorem plainKinds_holds : plainKinds.Holds where
  block _ _ _ h := h
  absolute _ i h h' := ⟨h', by rw [h]; simp⟩
  inline _ h := h
  anonymous s h := by
    have e : positionOf (ComputedValues.anonymousInheritingFrom (some s)) = .static := rfl
    rw [e] at h
    cases h

/-- The box is of its kind, and so are those in it; it has been left to be positioned with some static position. -/
def AsideOk (a : AbsolutelyPositionedFragment) : Prop :=
  (plainKinds.aside a.box.style ∧ a.box.contents.contents.Sorts plainKinds) ∧ ∃ corner rank, a = a.box.layout corner rank

theorem asideOk_carried : Carried AsideOk := by
  intro a rank i b h
  obtain ⟨h1, corner, r, h2⟩ := h
  refine ⟨h1, ⟨corner.inline + i, corner.block + b⟩, rank, ?_⟩
  conv_lhs => rw [h2]
  simp only [AbsolutelyPositionedBox.layout, moveStatic_offsets]

theorem asideOk_made {s : ComputedValues} {f : Bool} {c : BlockContainer} (h : plainKinds.aside s ∧ c.Sorts plainKinds) :
    Makes AsideOk ⟨s, ⟨c, f⟩⟩ := fun corner rank => ⟨h, corner, rank, rfl⟩

mutual
theorem BlockContainer.Sorts.asides : ∀ c : BlockContainer, c.Sorts plainKinds → c.Asides (Makes AsideOk)
  | .blockLevelBoxes boxes, h => by
    rw [BlockContainer.Sorts] at h
    exact blocksSort_asides boxes h
  | .inlineFormattingContext boxes, h => by
    rw [BlockContainer.Sorts] at h
    exact inlinesSort_asides boxes h
theorem BlockLevelBox.Sorts.asides : ∀ b : BlockLevelBox, b.Sorts plainKinds → b.Asides (Makes AsideOk)
  | .sameFormattingContextBlock _ c, h => by
    rw [BlockLevelBox.Sorts] at h
    exact BlockContainer.Sorts.asides c h.2
  | .independent _ _ c, h => by
    rw [BlockLevelBox.Sorts] at h
    exact BlockContainer.Sorts.asides c h.2
  | .outOfFlowAbsolutelyPositioned _ _ _, h => by
    rw [BlockLevelBox.Sorts] at h
    exact asideOk_made h
  | .outOfFlowFloat _ _ _, _ => trivial
theorem blocksSort_asides : ∀ bs : List BlockLevelBox, blocksSort plainKinds bs → blocksAsides (Makes AsideOk) bs
  | [], _ => trivial
  | b :: bs, h => by
    rw [blocksSort] at h
    exact ⟨BlockLevelBox.Sorts.asides b h.1, blocksSort_asides bs h.2⟩
theorem InlineLevelBox.Sorts.asides : ∀ b : InlineLevelBox, b.Sorts plainKinds → b.Asides (Makes AsideOk)
  | .inlineBox _ _ _ children, h => by
    rw [InlineLevelBox.Sorts] at h
    exact inlinesSort_asides children h.2
  | .textRun _ _, _ => trivial
  | .outOfFlowAbsolutelyPositioned _ _ _, h => by
    rw [InlineLevelBox.Sorts] at h
    exact asideOk_made h
  | .outOfFlowFloat _ _ _, _ => trivial
theorem inlinesSort_asides : ∀ bs : List InlineLevelBox, inlinesSort plainKinds bs → inlinesAsides (Makes AsideOk) bs
  | [], _ => trivial
  | b :: bs, h => by
    rw [inlinesSort] at h
    exact ⟨InlineLevelBox.Sorts.asides b h.1, inlinesSort_asides bs h.2⟩
end

/-! ### Lists of items -/

theorem itemsAt_append (o : Vec2 Rat) (a b : List Fragment) : itemsAt o (a ++ b) = itemsAt o a ++ itemsAt o b := by
  induction a with
  | nil => rfl
  | cons f a ih => simp only [List.cons_append, itemsAt, ih]

theorem itemsFit_append {left : Rat} {cb : ContainingBlock} {pad : Extent} {onLine : Bool} (a b : List PageItem) :
    itemsFit left cb pad onLine (a ++ b) ↔ itemsFit left cb pad onLine a ∧ itemsFit left cb pad onLine b := by
  induction a with
  | nil => simp [itemsFit]
  | cons i a ih => simp only [List.cons_append, itemsFit, ih, and_assoc]

theorem itemsFit_of {left : Rat} {cb : ContainingBlock} {pad : Extent} {onLine : Bool} {o : Vec2 Rat} {fs : List Fragment}
    (h : ∀ f ∈ fs, (f.item o).Fits left cb pad onLine) : itemsFit left cb pad onLine (itemsAt o fs) := by
  induction fs with
  | nil => trivial
  | cons f fs ih => exact ⟨h f List.mem_cons_self, ih fun g hg => h g (List.mem_cons_of_mem _ hg)⟩

/-! ### Lines -/

mutual
/-- All the boxes in it are inline. -/
def Fragment.AllInline : Fragment → Prop
  | .box info children => displayOf info.style = .generatingBox .inline .flow ∧ allInline children
  | .anonymous _ _ _ => False
  | .text _ _ _ => True
/-- All the boxes in them are inline. -/
def allInline : List Fragment → Prop
  | [] => True
  | f :: fs => f.AllInline ∧ allInline fs
end

theorem allInline_append (a b : List Fragment) : allInline (a ++ b) ↔ allInline a ∧ allInline b := by
  induction a with
  | nil => simp [allInline]
  | cons f a ih => simp only [List.cons_append, allInline, ih, and_assoc]

mutual
theorem Fragment.AllInline.fits : ∀ (f : Fragment), f.AllInline → ∀ o left cb pad, (f.item o).Fits left cb pad true
  | .box info children, h, o, left, cb, pad => by
    rw [Fragment.AllInline] at h
    rw [Fragment.item, PageItem.Fits, if_pos ⟨rfl, h.1⟩]
    exact allInline.fits children h.2 _ _ _ _
  | .text _ _ _, _, _, _, _, _ => by rw [Fragment.item]; trivial
theorem allInline.fits : ∀ (fs : List Fragment), allInline fs → ∀ o left cb pad, itemsFit left cb pad true (itemsAt o fs)
  | [], _, _, _, _, _ => trivial
  | f :: fs, h, o, left, cb, pad => by
    rw [allInline] at h
    exact ⟨Fragment.AllInline.fits f h.1 _ _ _ _, allInline.fits fs h.2 _ _ _ _⟩
end

/-- A line with inline boxes. -/
def InlineLine (f : Fragment) : Prop := ∃ rect children mode, f = .anonymous rect children mode ∧ allInline children

/-- A nesting level with inline boxes. -/
def LevelInline (l : NestingLevel) : Prop := inlinesSort plainKinds l.remainingBoxes ∧ allInline l.fragmentsSoFar

/-- All that is on lines is inline. -/
structure StateInline (s : InlineState) : Prop where
  lines : ∀ f ∈ s.lineBoxes.boxes, InlineLine f
  stack : ∀ p ∈ s.stack, displayOf p.style = .generatingBox .inline .flow ∧ LevelInline p.parentNestingLevel
  current : LevelInline s.current

theorem finish_inline {p : PartialInlineBox} {level : NestingLevel} {position : Rat} {b : Bool}
    (hp : displayOf p.style = .generatingBox .inline .flow ∧ LevelInline p.parentNestingLevel) (hl : LevelInline level) :
    (displayOf (p.finish level position b).1.style = .generatingBox .inline .flow ∧
      LevelInline (p.finish level position b).1.parentNestingLevel) ∧ LevelInline (p.finish level position b).2.1 := by
  refine ⟨⟨hp.1, hp.2.1, ?_⟩, hl.1, trivial⟩
  simp only [PartialInlineBox.finish, allInline_append]
  exact ⟨hp.2.2, ⟨hp.1, hl.2⟩, trivial⟩

theorem finishLine_inline {lines : LinesBoxes} {top : NestingLevel} {cb : ContainingBlock} (hl : ∀ f ∈ lines.boxes, InlineLine f)
    (ht : LevelInline top) : (∀ f ∈ (finishLine lines top cb).1.boxes, InlineLine f) ∧ LevelInline (finishLine lines top cb).2 := by
  refine ⟨fun f hf => ?_, ht.1, trivial⟩
  simp only [finishLine, List.mem_append, List.mem_singleton] at hf
  rcases hf with hf | rfl
  · exact hl f hf
  · exact ⟨_, _, _, rfl, ht.2⟩

theorem breakLine_inline (cb : ContainingBlock) : ∀ (stack : List PartialInlineBox) (level : NestingLevel) (position : Rat) (lines : LinesBoxes),
    (∀ p ∈ stack, displayOf p.style = .generatingBox .inline .flow ∧ LevelInline p.parentNestingLevel) → LevelInline level →
    (∀ f ∈ lines.boxes, InlineLine f) →
    (∀ p ∈ (breakLine cb stack level position lines).1, displayOf p.style = .generatingBox .inline .flow ∧ LevelInline p.parentNestingLevel) ∧
    LevelInline (breakLine cb stack level position lines).2.1 ∧ ∀ f ∈ (breakLine cb stack level position lines).2.2.boxes, InlineLine f := by
  intro stack
  induction stack with
  | nil =>
    intro level position lines _ hl hb
    have := finishLine_inline (cb := cb) hb (top := { level with inlineStart := 0 }) hl
    exact ⟨by simp [breakLine], this.2, this.1⟩
  | cons p rest ih =>
    intro level position lines hs hl hb
    obtain ⟨f1, f2⟩ := finish_inline (position := position) (b := true) (hs p List.mem_cons_self)
      (level := { level with inlineStart := 0 }) hl
    obtain ⟨i1, i2, i3⟩ := ih (p.finish { level with inlineStart := 0 } position true).1.parentNestingLevel
      (p.finish { level with inlineStart := 0 } position true).2.2 lines (fun q hq => hs q (List.mem_cons_of_mem _ hq)) f1.2 hb
    refine ⟨fun q hq => ?_, f2, i3⟩
    simp only [breakLine, List.mem_cons] at hq
    rcases hq with rfl | hq
    · exact ⟨f1.1, i2⟩
    · exact i1 q hq

theorem stateInline_invariant (cb : ContainingBlock) : Invariant cb StateInline (fun fs => ∀ f ∈ fs, InlineLine f) where
  start {ifc style first last children remaining} h hr := by
    have hc := h.current.1
    rw [hr] at hc
    refine ⟨h.lines, fun p hp => ?_, hc.1.2, trivial⟩
    simp only [startInlineBox, List.mem_cons] at hp
    rcases hp with rfl | hp
    · exact ⟨hc.1.1, hc.2, h.current.2⟩
    · exact h.stack p hp
  skip {ifc b remaining} h hr := by
    have hc := h.current.1
    rw [hr] at hc
    exact ⟨h.lines, h.stack, hc.2, h.current.2⟩
  text style shaped h := by
    refine ⟨h.lines, h.stack, h.current.1, ?_⟩
    simp only [pushText, allInline_append]
    exact ⟨h.current.2, trivial, trivial⟩
  line {ifc} h := by
    obtain ⟨h1, h2, h3⟩ := breakLine_inline cb ifc.stack ifc.current ifc.inlinePosition ifc.lineBoxes h.stack h.current h.lines
    exact ⟨h3, h1, h2⟩
  close {ifc p stack} h _ hst := by
    have h1 := h.stack
    rw [hst] at h1
    obtain ⟨f1, -⟩ := finish_inline (position := ifc.inlinePosition) (b := false) (h1 p List.mem_cons_self) h.current
    exact ⟨h.lines, fun q hq => h1 q (List.mem_cons_of_mem _ hq), f1.2⟩
  «end» h _ _ := (finishLine_inline h.lines h.current).1

/-! ### Blocks -/

theorem placeFragment_fitItem {s s' : PlacementState} {f f' : Fragment} (h : placeFragment s f = some (f', s')) (o : Vec2 Rat) :
    ∃ d : Rat, f'.item o = f.item ⟨o.inline, o.block + d⟩ := by
  have hbox (info : BoxInfo) (children : List Fragment) (d : Rat) :
      (Fragment.box (info.moveBlock d) children).item o = (Fragment.box info children).item ⟨o.inline, o.block + d⟩ := by
    have e : o.add (info.moveBlock d).contentRect.startCorner = Vec2.add ⟨o.inline, o.block + d⟩ info.contentRect.startCorner := by
      simp only [BoxInfo.moveBlock, Vec2.add, Vec2.mk.injEq, true_and]
      ring
    have e1 : (info.moveBlock d).borderAt o = info.borderAt ⟨o.inline, o.block + d⟩ := by
      simp only [BoxInfo.borderAt, BoxInfo.moveBlock, Extent.mk.injEq, true_and, and_true]
      ring
    have e2 : (info.moveBlock d).contentAt o = info.contentAt ⟨o.inline, o.block + d⟩ := by
      simp only [BoxInfo.contentAt, BoxInfo.moveBlock, Extent.mk.injEq, true_and, and_true]
      ring
    rw [Fragment.item, Fragment.item, e, e1, e2]
    rfl
  cases f with
  | text _ _ _ => simp [placeFragment] at h
  | anonymous rect children mode =>
    simp only [placeFragment] at h
    split at h
    · cases h
      refine ⟨s.currentBlockDirectionPosition, ?_⟩
      simp only [Fragment.item, Vec2.add, PageItem.line.injEq]
      congr 2
      ring
    · cases h
  | box info children =>
    simp only [placeFragment] at h
    split at h
    · split at h
      · split at h
        · cases h
          exact ⟨0, by rw [Rat.add_zero]⟩
        · cases h
          exact ⟨_, hbox _ _ _⟩
      · cases h
    · split at h <;> cases h <;> exact ⟨_, hbox _ _ _⟩

/-- Wherever the fragment is. -/
def FitsAnywhere (cb : ContainingBlock) (f : Fragment) : Prop := ∀ (o : Vec2 Rat) (pad : Extent), (f.item o).Fits o.inline cb pad false

theorem placeAll_fit {cb : ContainingBlock} : ∀ {fs : List Fragment} {s : PlacementState} {fs' : List Fragment} {s' : PlacementState},
    placeAll s fs = some (fs', s') → (∀ f ∈ fs, FitsAnywhere cb f) → ∀ f ∈ fs', FitsAnywhere cb f
  | [], s, fs', s', h, _ => by
    simp only [placeAll, Option.some.injEq, Prod.mk.injEq] at h
    rw [← h.1]
    simp
  | f :: fs, s, fs', s', h, hf => by
    simp only [placeAll] at h
    rcases hp : placeFragment s f with _ | ⟨f1, s1⟩
    · simp [hp] at h
    · simp only [hp] at h
      rcases ha : placeAll s1 fs with _ | ⟨fs1, s2⟩
      · simp [ha] at h
      · simp only [ha, Option.some.injEq, Prod.mk.injEq] at h
        obtain ⟨rfl, -⟩ := h
        intro g hg
        rcases List.mem_cons.1 hg with rfl | hg
        · intro o pad
          obtain ⟨d, hd⟩ := placeFragment_fitItem hp o
          rw [hd]
          exact hf f List.mem_cons_self ⟨o.inline, o.block + d⟩ pad
        · exact placeAll_fit ha (fun f h => hf f (List.mem_cons_of_mem _ h)) g hg

theorem relativeAdjustement_inline (cb : ContainingBlock) (s : ComputedValues) (w : Rat) (h : LengthOrAuto)
    (h1 : positionOf s = .relative → Css.NotPercentage (Css.left s) ∧ Css.NotPercentage (Css.right s)) :
    (relativeAdjustement s w h).inline = (Css.displacement cb s).inline := by
  have e1 : (boxOffsets s).inlineStart = Css.left s := rfl
  have e2 : (boxOffsets s).inlineEnd = Css.right s := rfl
  simp only [relativeAdjustement, Css.displacement, Position.isRelativelyPositioned, Sides.mapInlineAndBlockAxes, e1, e2]
  by_cases hp : positionOf s = .relative
  · obtain ⟨h1, h2⟩ := h1 hp
    simp only [hp, decide_true, if_true]
    revert h1 h2
    generalize Css.left s = a
    generalize Css.right s = b
    intro h1 h2
    cases a <;> cases b <;> first | exact absurd rfl (h1 _) | exact absurd rfl (h2 _) | simp [autoPercentageRelativeTo, adjust, Css.usedOrZero]
  · simp only [hp, decide_false, Bool.false_eq_true, if_false]
    rfl

theorem usedMarginLeft_eq {cb : ContainingBlock} {s : ComputedValues} (h : ¬ Css.LeftDoubtful cb s) :
    (inFlowSizes cb s).margin.inlineStart = Css.usedMarginLeft cb s := by
  have h1 := congrArg Prod.fst (inFlow_margin_inline cb s)
  simp only at h1
  rw [h1]
  unfold Css.LeftDoubtful at h
  unfold Css.usedMarginLeft
  by_cases hw : Css.widthProperty s = .auto
  · rw [if_neg (fun h => h.1 hw), hw]
  · by_cases hl : Css.marginLeft s = .auto
    · rw [if_pos ⟨hw, hl⟩]
      have h2 : ¬ (Css.marginRest cb s < 0 ∨ Css.usedOrZero cb.inlineSize (Css.marginRight s) ≠ 0) := fun h3 => h ⟨hw, hl, h3⟩
      simp only [not_or, not_lt, ne_eq, not_not] at h2
      have e : cb.inlineSize - Css.width cb s -
          (Css.paddingLeft cb s + Css.borderLeft cb s + (Css.paddingRight cb s + Css.borderRight cb s)) = Css.marginRest cb s := by
        unfold Css.marginRest
        ring
      rw [e, hl]
      by_cases hr : Css.marginRight s = .auto
      · rw [if_pos hr, hr]
        have := h2.1
        rw [max_eq_right (by linarith)]
        cases hw' : Css.widthProperty s <;> first | rfl | exact absurd hw' hw
      · rw [if_neg hr, h2.2, sub_zero, max_eq_right h2.1]
        cases hw' : Css.widthProperty s <;> cases hr' : Css.marginRight s <;>
          first | rfl | exact absurd hw' hw | exact absurd hr' hr
    · rw [if_neg (fun h => hl h.2)]
      cases hw' : Css.widthProperty s <;> cases hl' : Css.marginLeft s <;> cases hr' : Css.marginRight s <;>
        first | rfl | exact absurd hw' hw | exact absurd hl' hl

/-! ### Positioned boxes -/

/-- What is placed in the padding area of a box: that which is in its content area, and the absolutely positioned boxes. -/
theorem inPositioned_fit {la : DefiniteContainingBlock → Nat → AbsolutelyPositionedFragment → Option Fragment} {as : Absolutes}
    {fs children : List Fragment} {size : Vec2 Rat} {pad : Sides Rat}
    (h : inPositionedContainingBlock la as fs size pad (.horizontalTb, .ltr) = some children) {o : Vec2 Rat} {cb : ContainingBlock}
    {area : Extent} (harea : area = ⟨o.inline - pad.inlineStart, o.block - pad.blockStart, size.inline + pad.inlineSum, size.block + pad.blockSum⟩)
    (hfs : itemsFit o.inline cb area false (itemsAt o fs))
    (hla : ∀ k a f, a ∈ as → la ⟨⟨area.width, area.height⟩, (.horizontalTb, .ltr)⟩ k a = some f →
      (f.item ⟨area.left, area.top⟩).Fits o.inline cb area true) : itemsFit o.inline cb area false (itemsAt o children) := by
  subst harea
  have hall : ∀ (as' : Absolutes) (k : Nat) (gs : List Fragment), (∀ a ∈ as', a ∈ as) →
      layoutAll (la ⟨⟨size.inline + pad.inlineSum, size.block + pad.blockSum⟩, (.horizontalTb, .ltr)⟩) k as' = some gs →
      itemsFit o.inline cb ⟨o.inline - pad.inlineStart, o.block - pad.blockStart, size.inline + pad.inlineSum, size.block + pad.blockSum⟩ true
        (itemsAt ⟨o.inline - pad.inlineStart, o.block - pad.blockStart⟩ gs) := by
    intro as'
    induction as' with
    | nil =>
      intro k gs _ hg
      simp only [layoutAll, Option.some.injEq] at hg
      rw [← hg]
      trivial
    | cons a as' ih =>
      intro k gs hm hg
      simp only [layoutAll] at hg
      rcases h1 : la ⟨⟨size.inline + pad.inlineSum, size.block + pad.blockSum⟩, (.horizontalTb, .ltr)⟩ k a with _ | f
      · simp [h1] at hg
      · rcases h2 : layoutAll (la ⟨⟨size.inline + pad.inlineSum, size.block + pad.blockSum⟩, (.horizontalTb, .ltr)⟩) (k + 1) as' with _ | gs'
        · simp [h1, h2] at hg
        · simp only [h1, h2, Option.some.injEq] at hg
          rw [← hg]
          exact ⟨hla k a f (hm a List.mem_cons_self) h1, ih _ _ (fun x hx => hm x (List.mem_cons_of_mem _ hx)) h2⟩
  cases as with
  | nil =>
    simp only [inPositionedContainingBlock, Option.some.injEq] at h
    rw [← h]
    exact hfs
  | cons a as =>
    simp only [inPositionedContainingBlock] at h
    split at h
    · cases h
    · rename_i gs hg
      simp only [Option.some.injEq] at h
      rw [← h, itemsAt_append, itemsFit_append]
      refine ⟨hfs, ?_, trivial⟩
      rw [Fragment.item, PageItem.Fits]
      have e : o.add ((⟨Vec2.zero, size⟩ : Rect Rat).inflate pad).startCorner = ⟨o.inline - pad.inlineStart, o.block - pad.blockStart⟩ := by
        simp only [Rect.inflate, Vec2.zero, Vec2.add, Vec2.mk.injEq]
        constructor <;> ring
      rw [e]
      exact hall (a :: as) 0 gs (fun _ h => h) hg

/-- The layout of absolutely positioned boxes does what it should. -/
def AsidesFit (la : DefiniteContainingBlock → Nat → AbsolutelyPositionedFragment → Option Fragment) : Prop :=
  ∀ (size : Vec2 Rat) k a f, AsideOk a → la ⟨size, (.horizontalTb, .ltr)⟩ k a = some f →
    ∀ (o : Vec2 Rat) left cb onLine, (f.item o).Fits left cb ⟨o.inline, o.block, size.inline, size.block⟩ onLine

theorem layoutInFlow_fit {cb : ContainingBlock} {style : ComputedValues} {kind : BlockLevelKind}
    {lc : ContainingBlock → Absolutes → Bool → Option (FlowChildren × Absolutes)}
    {la : DefiniteContainingBlock → Nat → AbsolutelyPositionedFragment → Option Fragment} {f : Fragment} {as : Absolutes}
    (hs : positionOf style ≠ .absolute)
    (hlc : ∀ coll fc as, lc (Css.inner cb style) [] coll = some (fc, as) →
      (∀ f ∈ fc.fragments, FitsAnywhere (Css.inner cb style) f) ∧ ∀ a ∈ as, AsideOk a)
    (hla : AsidesFit la) (h : layoutInFlow cb [] style kind lc la = some (f, as)) : FitsAnywhere cb f := by
  obtain ⟨fc, as', info, children, hl, rfl, hstyle, hpad, hbor, hmar, hstart, hsize, -, hch, -⟩ := layoutInFlow_some h
  obtain ⟨hfs, has⟩ := hlc _ _ _ hl
  intro o pad
  rw [inFlow_padding] at hpad
  rw [inFlow_border] at hbor
  rw [Fragment.item, PageItem.Fits, if_neg (fun h => by simp at h), hstyle, if_neg hs]
  refine ⟨rfl, ⟨⟨?_, ?_, ?_, ?_⟩, ?_, ?_, ?_⟩, ?_⟩
  · simp only [BoxInfo.borderAt, BoxInfo.contentAt, hpad, hbor]; ring
  · simp only [BoxInfo.borderAt, BoxInfo.contentAt, Extent.right, hpad, hbor]; ring
  · simp only [BoxInfo.borderAt, BoxInfo.contentAt, hpad, hbor]; ring
  · simp only [BoxInfo.borderAt, BoxInfo.contentAt, Extent.bottom, hpad, hbor]; ring
  · simp only [BoxInfo.contentAt, hsize]
  · intro x hx
    simp only [BoxInfo.contentAt, hsize, hx, LengthOrAuto.autoIs]
  · intro h1 h2
    rw [← usedMarginLeft_eq h1, ← relativeAdjustement_inline cb style (Css.width cb style) (Css.height cb style) h2]
    simp only [BoxInfo.borderAt, hstart, hpad, hbor]
    ring
  · have e : (info.contentAt o).left = (o.add info.contentRect.startCorner).inline := rfl
    rw [e]
    by_cases hp : positionOf style = .relative
    · rw [if_pos hp]
      rw [hp] at hch
      simp only [Position.isRelativelyPositioned, decide_true, if_true] at hch
      refine inPositioned_fit hch.2 ?_ (itemsFit_of fun f hf => hfs f hf _ _) ?_
      · simp only [Css.paddingBox, BoxInfo.contentAt, hpad, Vec2.add, Sides.inlineSum, Sides.blockSum, Extent.mk.injEq, true_and]
        constructor <;> ring
      · intro k a f ha hf
        exact hla ⟨_, _⟩ k a f (has a ha) hf ⟨(Css.paddingBox cb style (info.contentAt o)).left, (Css.paddingBox cb style (info.contentAt o)).top⟩ _ _ _
    · rw [if_neg hp]
      have : (positionOf style).isRelativelyPositioned = false := by simp [Position.isRelativelyPositioned, hp]
      rw [this] at hch
      simp only [Bool.false_eq_true, if_false] at hch
      rw [hch.2]
      exact itemsFit_of fun f hf => hfs f hf _ _

theorem layoutAbsolute_some {fuel : Nat} {s : Oracle} {cb : DefiniteContainingBlock} {a : AbsolutelyPositionedFragment} {f : Fragment}
    (h : layoutAbsolute F (fuel + 1) s cb a = some f) :
    ∃ fc as fragments, layoutContainer F fuel inOrder a.box.contents.contents
        ⟨(absoluteSizes cb a).inlineSize, (absoluteSizes cb a).blockSize, (.horizontalTb, .ltr)⟩ 0 [] false false = some (fc, as) ∧
      inPositionedContainingBlock (fun cb k a => layoutAbsolute F fuel (s.sub (k + 1)) cb a) as fc.fragments
        (absoluteContentRect cb (absoluteSizes cb a) fc.finishBlockFormattingContext.blockSize).size (absoluteSizes cb a).padding
        (.horizontalTb, .ltr) = some fragments ∧
      f = .box ⟨a.box.style, absoluteContentRect cb (absoluteSizes cb a) fc.finishBlockFormattingContext.blockSize, (absoluteSizes cb a).padding,
        (absoluteSizes cb a).border, (absoluteSizes cb a).margin, .zero⟩ fragments := by
  simp only [layoutAbsolute] at h
  split at h
  · cases h
  · rw [(layout_prepend F fuel).1, prepend_nil] at h
    rcases h1 : layoutContainer F fuel inOrder a.box.contents.contents
        ⟨(absoluteSizes cb a).inlineSize, (absoluteSizes cb a).blockSize, (.horizontalTb, .ltr)⟩ 0 [] false false with _ | ⟨fc, as⟩
    · rw [show writingMode a.box.style = (.horizontalTb, .ltr) from rfl, h1] at h
      simp [mapFst] at h
    · rw [show writingMode a.box.style = (.horizontalTb, .ltr) from rfl, h1] at h
      simp only [mapFst] at h
      split at h
      · cases h
      · rename_i fragments hf
        injection h with h
        exact ⟨fc, as, fragments, rfl, hf, h.symm⟩

theorem heightGiven (cb : DefiniteContainingBlock) (b : AbsolutelyPositionedBox) (corner : Vec2 Rat) (rank : Nat) :
    Css.HeightGiven b.style (absoluteSizes cb (b.layout corner rank)).blockSize := by
  have e : (absoluteSizes cb (b.layout corner rank)).blockSize = (solveAxis cb.size.inline
      ((absoluteSizes cb (b.layout corner rank)).padding.add (absoluteSizes cb (b.layout corner rank)).border).blockSum
      (autoPercentageRelativeTo (Css.marginTopProperty b.style) cb.size.inline)
      (autoPercentageRelativeTo (Css.marginBottomProperty b.style) cb.size.inline) (fun margins => (margins / 2, margins / 2))
      (absoluteBoxOffsets corner.block (Css.top b.style) (Css.bottom b.style)) (Css.heightProperty b.style)).2.1 := rfl
  constructor
  · intro l hl
    rw [e, hl]
    cases Css.top b.style <;> cases Css.bottom b.style <;> cases Css.marginTopProperty b.style <;> cases Css.marginBottomProperty b.style <;> rfl
  · intro ha h
    rw [e, ha]
    rcases h with h | h <;> rw [h]
    · cases Css.bottom b.style <;> rfl
    · cases Css.top b.style <;> rfl

theorem layoutAbsolute_fit {fuel : Nat} {s : Oracle} {size : Vec2 Rat} {a : AbsolutelyPositionedFragment} {f : Fragment} (ha : AsideOk a)
    (hc : ∀ cb fc as, layoutContainer F fuel inOrder a.box.contents.contents cb 0 [] false false = some (fc, as) →
      ∀ f ∈ fc.fragments, FitsAnywhere cb f)
    (hla : ∀ s : Oracle, AsidesFit (fun cb k a => layoutAbsolute F fuel (s.sub (k + 1)) cb a))
    (h : layoutAbsolute F (fuel + 1) s ⟨size, (.horizontalTb, .ltr)⟩ a = some f) (o : Vec2 Rat) (left : Rat) (cb : ContainingBlock)
    (onLine : Bool) : (f.item o).Fits left cb ⟨o.inline, o.block, size.inline, size.block⟩ onLine := by
  obtain ⟨fc, as, fragments, h1, h2, rfl⟩ := layoutAbsolute_some h
  obtain ⟨⟨hk, hsort⟩, corner, rank, hcorner⟩ := ha
  have hcon := hc _ _ _ h1
  have has : ∀ a ∈ as, AsideOk a := (layout_made asideOk_carried F fuel).1 _ _ _ _ _ _ (BlockContainer.Sorts.asides _ hsort) h1
  rw [hcorner] at h
  obtain ⟨info, children, he, hst, hh, hv⟩ := C40_exact h
  rw [← hcorner] at he
  have hhg := heightGiven ⟨size, (.horizontalTb, .ltr)⟩ a.box corner rank
  rw [← hcorner] at hhg
  injection he with he1 he2
  have hstyle : info.style = a.box.style := by rw [← he1]
  have hpad : info.padding = ⟨Css.paddingLeft (Extent.block ⟨o.inline, o.block, size.inline, size.block⟩) info.style,
      Css.paddingRight (Extent.block ⟨o.inline, o.block, size.inline, size.block⟩) info.style,
      Css.paddingTop (Extent.block ⟨o.inline, o.block, size.inline, size.block⟩) info.style,
      Css.paddingBottom (Extent.block ⟨o.inline, o.block, size.inline, size.block⟩) info.style⟩ := by
    rw [hstyle, ← he1]
    simp only [absoluteSizes, Sides.percentagesRelativeTo, Sides.map, percentageRelativeTo_eq]; rfl
  have hbor : info.border = ⟨Css.borderLeft (Extent.block ⟨o.inline, o.block, size.inline, size.block⟩) info.style,
      Css.borderRight (Extent.block ⟨o.inline, o.block, size.inline, size.block⟩) info.style,
      Css.borderTop (Extent.block ⟨o.inline, o.block, size.inline, size.block⟩) info.style,
      Css.borderBottom (Extent.block ⟨o.inline, o.block, size.inline, size.block⟩) info.style⟩ := by
    rw [hstyle, ← he1]
    simp only [absoluteSizes, Sides.percentagesRelativeTo, Sides.map, percentageRelativeTo_eq]; rfl
  have hrect : info.contentRect.size.inline = (absoluteSizes ⟨size, (.horizontalTb, .ltr)⟩ a).inlineSize := by rw [← he1]; rfl
  have hpos : positionOf info.style = .absolute := by rw [hstyle]; exact hk.1
  have hdis : displayOf info.style ≠ .generatingBox .inline .flow := by
    rw [hstyle]
    exact hk.2
  have h2' : inPositionedContainingBlock (fun cb k a => layoutAbsolute F fuel (s.sub (k + 1)) cb a) as fc.fragments
        info.contentRect.size info.padding (.horizontalTb, .ltr) = some fragments := by rw [← he1]; exact h2
  rw [← hstyle] at hhg
  rw [he1]
  rw [Fragment.item, PageItem.Fits, if_neg (fun h => hdis h.2), if_pos hpos]
  clear he1 he2 h hstyle hcorner hk hc
  obtain ⟨H, HM⟩ := hh
  obtain ⟨V, -⟩ := hv
  unfold Css.HorizontalMargins at HM
  have e1 : info.leftEdge = info.contentRect.startCorner.inline - info.padding.inlineStart - info.border.inlineStart - info.margin.inlineStart := rfl
  have e2 : info.rightEdge = info.contentRect.startCorner.inline + info.contentRect.size.inline + info.padding.inlineEnd + info.border.inlineEnd +
    info.margin.inlineEnd := rfl
  have e3 : info.topEdge = info.contentRect.startCorner.block - info.padding.blockStart - info.border.blockStart - info.margin.blockStart := rfl
  have e4 : info.bottomEdge = info.contentRect.startCorner.block + info.contentRect.size.block + info.padding.blockEnd + info.border.blockEnd +
    info.margin.blockEnd := rfl
  have hzero (w : Rat) : Css.usedOrZero w .auto = 0 := rfl
  refine ⟨⟨⟨?_, ?_, ?_, ?_⟩, ?_, ?_, ?_, ?_, ?_, ?_, ?_⟩, _, hhg, ?_⟩
  · simp only [BoxInfo.borderAt, BoxInfo.contentAt, hpad, hbor]; ring
  · simp only [BoxInfo.borderAt, BoxInfo.contentAt, Extent.right, hpad, hbor]; ring
  · simp only [BoxInfo.borderAt, BoxInfo.contentAt, hpad, hbor]; ring
  · simp only [BoxInfo.borderAt, BoxInfo.contentAt, Extent.bottom, hpad, hbor]; ring
  · exact H.specifiedSize
  · intro h3 h4
    rw [h4.used size.block size.inline]
    exact V.specifiedSize h3
  · intro h3 h4
    have h5 := H.startOffset h3
    have h6 : info.margin.inlineStart = Css.usedOrZero size.inline (Css.marginLeft info.style) := by
      by_cases hm : Css.marginLeft info.style = .auto
      · rw [hm, hzero]
        refine (H.zeroMargins ?_).1 hm
        tauto
      · exact H.specifiedMarginStart hm
    simp only [BoxInfo.borderAt, ← h5, ← h6, e1]
    ring
  · intro h3 h4 h5
    have h6 := H.bothOffsets h3 h4 (by tauto)
    have h7 : info.margin.inlineEnd = Css.usedOrZero size.inline (Css.marginRight info.style) := by
      by_cases hm : Css.marginRight info.style = .auto
      · rw [hm, hzero]
        refine (H.zeroMargins ?_).2 hm
        tauto
      · exact H.specifiedMarginEnd hm
    simp only [BoxInfo.borderAt, Extent.right, ← h7]
    linarith
  · intro h3 h4 h5 h6 h7
    have h8 := H.bothOffsets h3 h4 (by tauto)
    have h9 := H.startOffset h3
    simp only [BoxInfo.borderAt]
    rcases HM h3 h4 h5 h6 h7 with ⟨k1, k2⟩ | ⟨k1, k2⟩
    · rw [max_eq_right (by linarith)]
      linarith
    · rw [max_eq_left (by linarith)]
      linarith
  · intro h3 h4 h5
    have h6 := V.startOffset h3
    have h7 : info.margin.blockStart = Css.usedOrZero size.inline (Css.marginTopProperty info.style) := by
      by_cases hm : Css.marginTopProperty info.style = .auto
      · rw [hm, hzero]
        refine (V.zeroMargins ?_).1 hm
        tauto
      · exact V.specifiedMarginStart hm
    rw [h4.used size.block size.inline]
    simp only [BoxInfo.borderAt, ← h6, ← h7, e3]
    ring
  · intro h3 h4 h5
    have h6 := V.endOffset h3 h4
    have h7 : info.margin.blockEnd = Css.usedOrZero size.inline (Css.marginBottomProperty info.style) := by
      by_cases hm : Css.marginBottomProperty info.style = .auto
      · rw [hm, hzero]
        exact (V.zeroMargins (.inl h3)).2 hm
      · exact V.specifiedMarginEnd hm
    rw [h5.used size.block size.inline]
    simp only [BoxInfo.borderAt, Extent.bottom, ← h7]
    linarith
  · have e : (info.contentAt o).left = (o.add info.contentRect.startCorner).inline := rfl
    rw [e]
    refine inPositioned_fit h2' ?_ (itemsFit_of fun f hf => ?_) ?_
    · simp only [Css.paddingBox, BoxInfo.contentAt, hpad, Vec2.add, Sides.inlineSum, Sides.blockSum, Extent.mk.injEq, true_and]
      constructor <;> ring
    · have := hcon f hf (o.add info.contentRect.startCorner)
      rw [← hrect] at this
      exact this _
    · intro k a f ha hf
      exact hla s ⟨_, _⟩ k a f (has a ha) hf ⟨(Css.paddingBox _ info.style (info.contentAt o)).left, (Css.paddingBox _ info.style (info.contentAt o)).top⟩ _ _ _

/-! ### Everything -/

theorem blocksSort_mem {K : Kinds} {bs : List BlockLevelBox} (h : blocksSort K bs) : ∀ b ∈ bs, b.Sorts K := by
  induction bs with
  | nil => simp
  | cons b bs ih =>
    rw [blocksSort] at h
    intro x hx
    rcases List.mem_cons.1 hx with rfl | hx
    · exact h.1
    · exact ih h.2 x hx

theorem noOp_fit (cb : ContainingBlock) (mode : Mode) : FitsAnywhere cb (.noOp mode) := by
  intro o pad
  simp only [Fragment.noOp, Fragment.item, itemsAt, PageItem.Fits, itemsFit]

theorem layout_fits : ∀ (fuel : Nat),
    (∀ c cb rank collapsible fc as, c.Sorts plainKinds → layoutContainer F fuel inOrder c cb rank [] false collapsible = some (fc, as) →
      ∀ f ∈ fc.fragments, FitsAnywhere cb f) ∧
    (∀ b cb rank f as, b.Sorts plainKinds → layoutBox F fuel inOrder b cb rank [] false = some (f, as) → FitsAnywhere cb f) ∧
    (∀ s : Oracle, AsidesFit (fun cb k a => layoutAbsolute F fuel (s.sub k) cb a)) := by
  intro fuel
  induction fuel with
  | zero =>
    refine ⟨by intros; simp_all [layoutContainer], by intros; simp_all [layoutBox], ?_⟩
    intro s size k a f _ h
    simp [layoutAbsolute] at h
  | succ fuel ih =>
    obtain ⟨ihc, ihb, iha⟩ := ih
    have hp := layout_prepend F fuel
    have hmade := (layout_made asideOk_carried F fuel).1
    have iha' : ∀ s : Oracle, AsidesFit (fun cb k a => layoutAbsolute F fuel (s.sub (k + 1)) cb a) :=
      fun s size k a f ha h => iha s size (k + 1) a f ha h
    refine ⟨?_, ?_, ?_⟩
    · intro c cb rank collapsible fc as hs h
      cases c with
      | blockLevelBoxes boxes =>
        rw [BlockContainer.Sorts] at hs
        simp only [layoutContainer] at h
        rw [layoutChildren_eq (g := fun rank b => layoutBox F fuel inOrder b cb rank [] false)
              (fun rank b absolute => hp.2.1 _ b cb rank absolute false), prepend_nil] at h
        obtain ⟨fs, as', s, hseq, hplace, -, -, -⟩ := canonicalChildren_some h
        have hst := seqChildren_forall₂ (P := fun b f => b.Sorts plainKinds → FitsAnywhere cb f)
          (fun rank b f as hb hu => ihb b cb rank f as hu hb) _ _ _ _ hseq
        refine placeAll_fit hplace ?_
        clear hplace hseq h
        induction hst with
        | nil => simp
        | cons h1 _ ih =>
          rw [blocksSort] at hs
          intro f hf
          rcases List.mem_cons.1 hf with rfl | hf
          · exact h1 hs.1
          · exact ih hs.2 f hf
      | inlineFormattingContext boxes =>
        rw [BlockContainer.Sorts] at hs
        simp only [layoutContainer] at h
        have := (stateInline_invariant cb).layout (boxes := boxes) ⟨by simp [initialInlineState], by simp [initialInlineState], hs, trivial⟩ h
        intro f hf o pad
        obtain ⟨rect, children, mode, rfl, hall⟩ := this f hf
        rw [Fragment.item, PageItem.Fits]
        exact allInline.fits children hall _ _ _ _
    · intro b cb rank f as hs h
      rw [BlockLevelBox.Sorts.eq_def] at hs
      cases b with
      | sameFormattingContextBlock style contents =>
        simp only [layoutBox] at h
        refine layoutInFlow_fit hs.1 (fun coll fc as hl => ?_) (iha' inOrder) h
        rw [hp.1 (inOrder.sub 0), prepend_nil] at hl
        exact ⟨ihc contents _ rank coll fc as hs.2 hl, hmade _ _ _ _ _ _ (BlockContainer.Sorts.asides _ hs.2) hl⟩
      | independent style floats contents =>
        simp only [layoutBox] at h
        refine layoutInFlow_fit hs.1 (fun coll fc as hl => ?_) (iha' inOrder) h
        rw [hp.1 (inOrder.sub 0), prepend_nil] at hl
        rcases h1 : layoutContainer F fuel inOrder contents (Css.inner cb style) rank [] false false with _ | ⟨fc1, as1⟩
        · simp [h1, mapFst] at hl
        · rw [h1] at hl
          simp only [mapFst] at hl
          cases hl
          exact ⟨ihc contents _ rank false fc1 _ hs.2 h1, hmade _ _ _ _ _ _ (BlockContainer.Sorts.asides _ hs.2) h1⟩
      | outOfFlowAbsolutelyPositioned style floats contents =>
        simp only [layoutBox] at h
        cases h
        exact noOp_fit _ _
      | outOfFlowFloat style floats contents =>
        simp only [layoutBox] at h
        cases h
        exact noOp_fit _ _
    · intro s size k a f ha h o left cb onLine
      exact layoutAbsolute_fit ha (fun cb fc as hl => ihc _ _ _ _ _ _ ha.1.2 hl) iha' h o left cb onLine

/-- A whole page. -/
theorem layoutRoot_fits {fuel : Nat} {s : Oracle} {root : BlockFormattingContext} {viewport : Vec2 Rat} {fragments : List Fragment}
    (hs : root.contents.Sorts plainKinds) (h : layoutRoot F fuel s root viewport = some fragments) :
    itemsFit 0 ⟨viewport.inline, .length viewport.block, (.horizontalTb, .ltr)⟩ ⟨0, 0, viewport.inline, viewport.block⟩ false
      (itemsAt ⟨0, 0⟩ fragments) := by
  simp only [layoutRoot, BlockFormattingContext.layout] at h
  rw [(layout_prepend F fuel).1 (s.sub 0), prepend_nil] at h
  rcases h1 : layoutContainer F fuel inOrder root.contents ⟨viewport.inline, .length viewport.block, (.horizontalTb, .ltr)⟩ 0 [] false
    false with _ | ⟨fc, as⟩
  · simp [h1, mapFst] at h
  · simp only [h1, mapFst] at h
    obtain ⟨lc, -, la⟩ := layout_fits (F := F) fuel
    have has := (layout_made asideOk_carried F fuel).1 _ _ _ _ _ _ (BlockContainer.Sorts.asides _ hs) h1
    have hall : ∀ (as : Absolutes) (k : Nat) (gs : List Fragment), (∀ a ∈ as, AsideOk a) →
        layoutAll (fun k a => layoutAbsolute F fuel (s.sub (k + 1)) ⟨viewport, (.horizontalTb, .ltr)⟩ a) k as = some gs →
        itemsFit 0 ⟨viewport.inline, .length viewport.block, (.horizontalTb, .ltr)⟩ ⟨0, 0, viewport.inline, viewport.block⟩ false
          (itemsAt ⟨0, 0⟩ gs) := by
      intro as
      induction as with
      | nil =>
        intro k gs _ hg
        simp only [layoutAll, Option.some.injEq] at hg
        rw [← hg]
        trivial
      | cons a as ih =>
        intro k gs hm hg
        simp only [layoutAll] at hg
        split at hg
        · rename_i f fs h2 h3
          simp only [Option.some.injEq] at hg
          rw [← hg]
          exact ⟨la s viewport (k + 1) a f (hm a List.mem_cons_self) h2 ⟨0, 0⟩ _ _ _, ih _ _ (fun x hx => hm x (List.mem_cons_of_mem _ hx)) h3⟩
        · cases hg
    split at h
    · cases h
    · rename_i gs hg
      simp only [Option.some.injEq] at h
      rw [← h, itemsAt_append, itemsFit_append]
      exact ⟨itemsFit_of fun f hf => lc _ _ _ _ _ _ hs h1 f hf ⟨0, 0⟩ _, hall _ _ _ has hg⟩

end Verif.Layout
