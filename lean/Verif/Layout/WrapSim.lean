/- Blocks that have nothing of their own change nothing in layout. -/
import Verif.Layout.WrapLayout
namespace Verif.Layout
open Verif.Style Verif.Text

variable {Err : Type} {F : FontApi Rat Err}

/-- The height of the block is not a percentage of the height of the block around it. -/
def BlockLevelBox.Unmeasured : BlockLevelBox → Prop
  | .sameFormattingContextBlock s _ => ∀ p, (s.values .height : LengthOrPercentageOrAuto) ≠ .percentage p
  | .independent s _ _ => ∀ p, (s.values .height : LengthOrPercentageOrAuto) ≠ .percentage p
  | .outOfFlowAbsolutelyPositioned _ _ _ => True
  | .outOfFlowFloat _ _ _ => True

mutual
/-- The second container is the first with blocks added that have nothing of their own. -/
inductive WrapC : BlockContainer → BlockContainer → Prop
  | inlines {xs xs'} : fadeInlines xs = fadeInlines xs' → WrapC (.inlineFormattingContext xs) (.inlineFormattingContext xs')
  | boxes {bs bs'} : WrapL bs bs' → WrapC (.blockLevelBoxes bs) (.blockLevelBoxes bs')
  | unwrap {a xs bs'} : Bare a → inlineAll UnmeasuredStyle xs → WrapL [.sameFormattingContextBlock a (.inlineFormattingContext xs)] bs' →
      WrapC (.inlineFormattingContext xs) (.blockLevelBoxes bs')
/-- See `WrapC`. -/
inductive WrapB : BlockLevelBox → BlockLevelBox → Prop
  | same {s s' c c'} : (s = s' ∨ (Bare s ∧ Bare s')) → WrapC c c' →
      WrapB (.sameFormattingContextBlock s c) (.sameFormattingContextBlock s' c')
  | independent {s f f' c c'} : WrapC c c' → WrapB (.independent s f c) (.independent s f' c')
  | float {s f c s' f' c'} : WrapB (.outOfFlowFloat s f c) (.outOfFlowFloat s' f' c')
  | absolute {s f c} : WrapB (.outOfFlowAbsolutelyPositioned s f c) (.outOfFlowAbsolutelyPositioned s f c)
/-- See `WrapC`. -/
inductive WrapL : List BlockLevelBox → List BlockLevelBox → Prop
  | nil : WrapL [] []
  | cons {b b' bs bs'} : WrapB b b' → WrapL bs bs' → WrapL (b :: bs) (b' :: bs')
  | wrap {s mid mid' rest rest'} : Bare s → (∀ b ∈ mid, BlockLevelBox.Unmeasured b) → WrapL mid mid' → WrapL rest rest' →
      WrapL (mid ++ rest) (.sameFormattingContextBlock s (.blockLevelBoxes mid') :: rest')
end

/-! ### A block that has nothing of its own -/

section
variable {s : ComputedValues} (hs : Bare s) (cb : ContainingBlock)
include hs

theorem Bare.paddings : Css.paddingTop cb s = 0 ∧ Css.paddingRight cb s = 0 ∧ Css.paddingBottom cb s = 0 ∧ Css.paddingLeft cb s = 0 := by
  simp [Css.paddingTop, Css.paddingRight, Css.paddingBottom, Css.paddingLeft, hs.padding, Css.used]

theorem Bare.borders : Css.borderTop cb s = 0 ∧ Css.borderRight cb s = 0 ∧ Css.borderBottom cb s = 0 ∧ Css.borderLeft cb s = 0 := by
  simp [Css.borderTop, Css.borderRight, Css.borderBottom, Css.borderLeft, hs.border, Css.used]

theorem Bare.inner_eq : Css.inner cb s = ⟨cb.inlineSize, .auto, (.horizontalTb, .ltr)⟩ := by
  obtain ⟨-, p2, -, p4⟩ := hs.paddings cb
  obtain ⟨-, b2, -, b4⟩ := hs.borders cb
  have hw : Css.width cb s = cb.inlineSize := by
    simp only [Css.width, hs.width, p2, p4, b2, b4, hs.margin, Css.usedOrZero]
    ring
  have hh : Css.height cb s = .auto := by simp only [Css.height, hs.height]
  rw [Css.inner, hw, hh]

theorem Bare.margins_eq : (inFlowSizes cb s).margin = ⟨0, 0, 0, 0⟩ := by
  have hw : (boxSize s).inline = .auto := hs.width
  simp only [inFlowSizes, hw]
  have h1 : (Layout.margin s).inlineStart = .length 0 := hs.margin.2.2.2
  have h2 : (Layout.margin s).inlineEnd = .length 0 := hs.margin.2.1
  have h3 : (Layout.margin s).blockStart = .length 0 := hs.margin.1
  have h4 : (Layout.margin s).blockEnd = .length 0 := hs.margin.2.2.1
  simp only [Sides.autoPercentagesRelativeTo, Sides.autoIs, Sides.map, autoPercentageRelativeTo, h1, h2, h3, h4]
  rfl

theorem Bare.start_eq : Css.startCollapses cb s = true := by
  simp [Css.startCollapses, hs.paddings cb, hs.borders cb]

theorem Bare.end_eq : Css.endCollapses cb s = true := by
  have hh : Css.height cb s = .auto := by simp only [Css.height, hs.height]
  simp [Css.endCollapses, hs.paddings cb, hs.borders cb, hh]

/-- The box of a block that has nothing of its own. -/
theorem Bare.info (m : CollapsedBlockMargins) (h : Rat) (h1 : m.start.Sane) (h2 : m.end.Sane) :
    blockInfo cb s .sameFormattingContextBlock m h =
      ⟨s, ⟨⟨0, 0⟩, ⟨cb.inlineSize, h⟩⟩, ⟨0, 0, 0, 0⟩, ⟨0, 0, 0, 0⟩, ⟨0, 0, 0, 0⟩,
        ⟨m.collapsedThrough, if m.collapsedThrough then m.start.adjoin m.end else m.start,
          if m.collapsedThrough then .zero else m.end⟩⟩ := by
  have hi := hs.inner_eq cb
  simp only [Css.inner, ContainingBlock.mk.injEq] at hi
  obtain ⟨hw, hh, -⟩ := hi
  obtain ⟨p1, p2, p3, p4⟩ := hs.paddings cb
  obtain ⟨b1, b2, b3, b4⟩ := hs.borders cb
  have hr : relativeAdjustement s cb.inlineSize .auto = ⟨0, 0⟩ := by
    simp [relativeAdjustement, hs.position, Position.isRelativelyPositioned, Vec2.zero]
  have hsh : Css.relativeShift cb s = 0 := by simp [Css.relativeShift, hs.position]
  have hn : CollapsedMargin.new 0 = .zero := by decide +kernel
  simp only [blockInfo, decide_true, Bool.true_and, hs.start_eq cb, hs.end_eq cb, hs.margins_eq cb, inFlow_padding, inFlow_border, p1, p2, p3, p4, b1, b2, b3, b4,
    hw, hh, hr, hsh, collapseWithChildren, CollapsedBlockMargins.fromMargin, if_true, hn, LengthOrAuto.autoIs, h1.zero_adjoin, add_zero]
  congr 2
  cases m.collapsedThrough
  · simp only [Bool.false_eq_true, if_false, h2.zero_adjoin]
  · simp only [if_true, CollapsedMargin.sane_zero.zero_adjoin]

end

theorem Bare.ink {s : ComputedValues} (hs : Bare s) (asc : Rat) (info : BoxInfo) (h : info.style = s) (h0 : info.contentRect.startCorner = ⟨0, 0⟩)
    (children : List Fragment) (o : Vec2 Rat) : (Fragment.box info children).ink asc o = inkOf asc o children := by
  rw [Fragment.ink, h0, Vec2.add_zero_block, BoxInfo.ink, Fragment.shape, h]
  simp [hs.background]

/-- Placing a block that has nothing of its own is placing what is in it. -/
theorem Bare.place {s : ComputedValues} (hs : Bare s) (asc : Rat) (cb : ContainingBlock) {fs gs : List Fragment} {t : PlacementState}
    (hf : ∀ f ∈ fs, f.Sound asc) (hp : placeAll (.initial true) fs = some (gs, t)) {r : PlacementState} (hr : r.Reached) :
    ∃ g, placeFragment r (.box (blockInfo cb s .sameFormattingContextBlock
        ⟨t.nextInFlowMarginCollapsesWithParentStartMargin, t.startMargin, t.currentMargin⟩ t.currentBlockDirectionPosition) gs) = some (g, r.from t) ∧
      ∀ o, g.ink asc o = inkOf asc (o.add ⟨0, r.down t⟩) gs := by
  obtain ⟨gs', t', h1, h2, h3⟩ := placeAll_sound fs _ (reached_initial true) hf
  rw [hp] at h1
  cases h1
  rw [hs.info cb _ _ h2.start h2.current]
  obtain ⟨tn, T, tc, tp⟩ := t
  obtain ⟨rn, S, m, y⟩ := r
  cases tn with
  | true =>
    obtain ⟨h4, h5⟩ := h2.first rfl
    simp only at h4 h5
    subst h4 h5
    have hi := (h3 rfl).2
    have hT : T.adjoin .zero = T := CollapsedMargin.Sane.adjoin_zero h2.start
    simp only [placeFragment, if_true, hT]
    cases rn with
    | true =>
      obtain ⟨h6, h7⟩ := hr.first rfl
      simp only at h6 h7
      subst h6 h7
      have hS : (S.adjoin T).adjoin .zero = S.adjoin T := by rw [CollapsedMargin.adjoin_assoc, hT]
      simp only [if_true, zero_solve, PlacementState.from, PlacementState.down, hS]
      exact ⟨_, rfl, fun o => by rw [hs.ink _ _ rfl rfl, hi, hi]⟩
    | false =>
      have hm : (m.adjoin T).adjoin .zero = m.adjoin T := by rw [CollapsedMargin.adjoin_assoc, hT]
      simp only [Bool.false_eq_true, if_false, if_true, PlacementState.from, PlacementState.down, hm]
      exact ⟨_, rfl, fun o => by rw [Fragment.ink_move, hs.ink _ _ rfl rfl, hi, hi]⟩
  | false =>
    simp only [placeFragment, Bool.false_eq_true, if_false]
    have hb : ∀ mg : CollapsedBlockMargins, (⟨s, ⟨⟨0, 0⟩, ⟨cb.inlineSize, tp⟩⟩, ⟨0, 0, 0, 0⟩, ⟨0, 0, 0, 0⟩, ⟨0, 0, 0, 0⟩, mg⟩ : BoxInfo).borderBlockSize = tp := by
      intro mg
      simp [BoxInfo.borderBlockSize, Sides.blockSum]
    rw [hb]
    cases rn with
    | true =>
      obtain ⟨h6, h7⟩ := hr.first rfl
      simp only at h6 h7
      subst h6 h7
      simp only [if_true, zero_solve, PlacementState.from, PlacementState.down, zero_add]
      exact ⟨_, rfl, fun o => by rw [Fragment.ink_move, hs.ink _ _ rfl rfl, Vec2.add_zero_block]⟩
    | false =>
      simp only [Bool.false_eq_true, if_false, PlacementState.from, PlacementState.down]
      refine ⟨_, by congr 3; ring, fun o => ?_⟩
      rw [Fragment.ink_move, hs.ink _ _ rfl rfl, add_comm y]

/-! ### The two layouts -/

/-- The contents of two blocks are alike. -/
structure FlowChildren.Alike (asc : Rat) (fc fc' : FlowChildren) : Prop where
  size : fc.blockSize = fc'.blockSize
  margins : fc.collapsibleMarginsInChildren = fc'.collapsibleMarginsInChildren
  ink : ∀ o, inkOf asc o fc.fragments = inkOf asc o fc'.fragments

theorem height_unmeasured {cb cb' : ContainingBlock} {s : ComputedValues}
    (h : cb.blockSize = cb'.blockSize ∨ ∀ p, (s.values .height : LengthOrPercentageOrAuto) ≠ .percentage p) :
    Css.height cb s = Css.height cb' s := by
  rcases h with h | h
  · simp only [Css.height, h]
  · simp only [Css.height]
    rcases hv : (s.values .height : LengthOrPercentageOrAuto) with l | p | _
    · rfl
    · exact absurd hv (h p)
    · rfl

/-- All that layout takes from the containing block. -/
theorem blockInfo_unmeasured {cb cb' : ContainingBlock} (hw : cb.inlineSize = cb'.inlineSize) {s : ComputedValues}
    (h : Css.height cb s = Css.height cb' s) (kind : BlockLevelKind) (m : CollapsedBlockMargins) (size : Rat) :
    blockInfo cb s kind m size = blockInfo cb' s kind m size ∧ Css.inner cb s = Css.inner cb' s ∧
      Css.startCollapses cb s = Css.startCollapses cb' s := by
  have h1 : Css.width cb s = Css.width cb' s := by simp only [Css.width, Css.borderLeft, Css.borderRight, Css.paddingLeft, Css.paddingRight, hw]
  have h2 : Css.startCollapses cb s = Css.startCollapses cb' s := by simp only [Css.startCollapses, Css.paddingTop, Css.borderTop, hw]; rfl
  have h3 : Css.endCollapses cb s = Css.endCollapses cb' s := by simp only [Css.endCollapses, Css.paddingBottom, Css.borderBottom, hw, h]; rfl
  have h4 : Css.relativeShift cb s = Css.relativeShift cb' s := by simp only [Css.relativeShift, h]
  have h5 : (inFlowSizes cb s).padding = (inFlowSizes cb' s).padding := by simp only [inFlowSizes, hw]
  have h6 : (inFlowSizes cb s).border = (inFlowSizes cb' s).border := by simp only [inFlowSizes, hw]
  have h7 : (inFlowSizes cb s).margin = (inFlowSizes cb' s).margin := by simp only [inFlowSizes, hw]
  refine ⟨?_, ?_, h2⟩
  · simp only [blockInfo, h, h1, h2, h3, h4, h5, h6, h7, Css.paddingLeft, Css.borderLeft, Css.paddingTop, Css.borderTop, hw]
  · rw [Css.inner, Css.inner, h1, h]

theorem box_alike {asc : Rat} {info : BoxInfo} {fc fc' : FlowChildren} (h : fc.Alike asc fc') :
    (Fragment.box info fc.fragments).Alike asc (.box info fc'.fragments) :=
  ⟨rfl, rfl, fun o => by rw [Fragment.ink, Fragment.ink, h.ink]⟩

theorem layoutInline_alike (asc : Rat) {cb : ContainingBlock} {xs xs' : List InlineLevelBox} (h : fadeInlines xs = fadeInlines xs') {rank rank' : Nat}
    {fc fc' : FlowChildren} {as as' : Absolutes} (h1 : layoutInline F xs cb rank [] = some (fc, as))
    (h2 : layoutInline F xs' cb rank' [] = some (fc', as')) : fc.Alike asc fc' := by
  have e1 := layoutInline_fade (F := F) xs cb rank []
  have e2 := layoutInline_fade (F := F) xs' cb rank' []
  rw [h1] at e1
  rw [h2, ← h] at e2
  have e3 : (layoutInline F (fadeInlines xs) cb rank []).map Prod.fst = (layoutInline F (fadeInlines xs) cb rank' []).map Prod.fst :=
    inlineLoop_rank cb rank rank' _ _ _ _
  rw [e1, e2] at e3
  simp only [mapFst, Option.map_some, Option.some.injEq] at e3
  have e4 : fc.fade.blockSize = fc'.fade.blockSize := by rw [e3]
  have e5 : fc.fade.collapsibleMarginsInChildren = fc'.fade.collapsibleMarginsInChildren := by rw [e3]
  have e6 : fadeFragments fc.fragments = fadeFragments fc'.fragments := congrArg FlowChildren.fragments e3
  exact ⟨e4, e5, fun o => by rw [← inkOf_fade, e6, inkOf_fade]⟩

/-- The two lists of blocks are placed in the same way, from whatever point on, and look the same. -/
def ListsAlike (asc : Rat) (fs fs' : List Fragment) : Prop :=
  ∀ s : PlacementState, s.Reached → ∀ gs t gs' t', placeAll s fs = some (gs, t) → placeAll s fs' = some (gs', t') →
    t = t' ∧ ∀ o, inkOf asc o gs = inkOf asc o gs'

theorem ListsAlike.append {asc : Rat} {as as' bs bs' : List Fragment} (ha : ListsAlike asc as as') (hb : ListsAlike asc bs bs')
    (h : ∀ f ∈ as, f.Sound asc) : ListsAlike asc (as ++ bs) (as' ++ bs') := by
  intro s hs gs t gs' t' hp hp'
  obtain ⟨g1, s1, g2, q1, q2, rfl⟩ := (placeAll_append as bs s t gs).1 hp
  obtain ⟨g1', s1', g2', q1', q2', rfl⟩ := (placeAll_append as' bs' s t' gs').1 hp'
  obtain ⟨rfl, h1⟩ := ha s hs _ _ _ _ q1 q1'
  obtain ⟨gs1, t1, r1, r2, -⟩ := placeAll_sound as s hs h
  rw [q1] at r1
  cases r1
  obtain ⟨rfl, h2⟩ := hb s1 r2 _ _ _ _ q2 q2'
  exact ⟨rfl, fun o => by rw [inkOf_append, inkOf_append, h1, h2]⟩

theorem ListsAlike.one {asc : Rat} {f f' : Fragment} (h : f.Alike asc f') : ListsAlike asc [f] [f'] := by
  intro s hs gs t gs' t' hp hp'
  simp only [placeAll] at hp hp'
  rcases h1 : placeFragment s f with _ | ⟨g, s1⟩
  · simp [h1] at hp
  · rcases h2 : placeFragment s f' with _ | ⟨g', s1'⟩
    · simp [h2] at hp'
    · simp only [h1, h2] at hp hp'
      cases hp
      cases hp'
      obtain ⟨h3, h4⟩ := place_alike h h1 h2
      exact ⟨h3, fun o => by simp only [inkOf, h4]⟩

mutual
theorem WrapC.alike (asc : Rat) : ∀ {c c' : BlockContainer}, WrapC c c' → ∀ (cb : ContainingBlock) coll fc fc',
    cb.mode = (.horizontalTb, .ltr) → LaysC F cb coll c fc → LaysC F cb coll c' fc' → fc.Alike asc fc'
  | _, _, .inlines h => by
    intro cb coll fc fc' _ h1 h2
    cases h1 with
    | inlines h1 =>
      cases h2 with
      | inlines h2 => exact layoutInline_alike asc h h1 h2
  | _, _, .boxes h => by
    intro cb coll fc fc' hm h1 h2
    cases h1 with
    | boxes l1 p1 =>
      cases h2 with
      | boxes l2 p2 =>
        obtain ⟨rfl, hi⟩ := WrapL.alike asc h _ _ _ _ hm rfl rfl (.inl rfl) l1 l2 _ (reached_initial _) _ _ _ _ p1 p2
        exact ⟨rfl, rfl, hi⟩
  | _, _, .unwrap (a := a) (xs := xs) ha hu h => by
    intro cb coll fc fc' hm h1 h2
    cases h1 with
    | inlines h1 =>
      cases h2 with
      | boxes l2 p2 =>
        have hmar := layoutInline_margins F _ _ _ _ _ _ _ h1
        have hin := layoutInline_height (F := F) (cb := cb) (cb' := Css.inner cb a) (by rw [ha.inner_eq]) (by rw [ha.inner_eq, hm]) xs hu
        rw [hin] at h1
        have l1 : LaysL F cb [.sameFormattingContextBlock a (.inlineFormattingContext xs)] _ := .cons (.same (.inlines h1)) .nil
        rw [hmar] at l1
        obtain ⟨gs, t, p1, -, -⟩ := placeAll_sound (asc := asc) _ _ (reached_initial coll) (l1.sound asc)
        obtain ⟨rfl, hi⟩ := WrapL.alike asc h _ _ _ _ hm rfl rfl (.inl rfl) l1 l2 _ (reached_initial _) _ _ _ _ p1 p2
        rw [ha.info cb _ _ CollapsedMargin.sane_zero CollapsedMargin.sane_zero] at p1
        have hz : CollapsedMargin.zero.adjoin .zero = .zero := CollapsedMargin.sane_zero.adjoin_zero
        have hb : ∀ mg : CollapsedBlockMargins,
            (⟨a, ⟨⟨0, 0⟩, ⟨cb.inlineSize, fc.blockSize⟩⟩, ⟨0, 0, 0, 0⟩, ⟨0, 0, 0, 0⟩, ⟨0, 0, 0, 0⟩, mg⟩ : BoxInfo).borderBlockSize = fc.blockSize := by
          intro mg
          simp [BoxInfo.borderBlockSize, Sides.blockSum]
        simp only [placeAll, placeFragment, PlacementState.initial, zero_solve, hz, CollapsedBlockMargins.zero, if_true, Bool.false_eq_true, if_false, hb,
          zero_add] at p1
        cases coll with
        | true =>
          simp only [if_true] at p1
          cases p1
          refine ⟨rfl, hmar, fun o => ?_⟩
          rw [← hi, inkOf, inkOf, List.append_nil, Fragment.ink_move, ha.ink _ _ rfl rfl, Vec2.add_zero_block]
        | false =>
          simp only [Bool.false_eq_true, if_false] at p1
          cases p1
          refine ⟨rfl, hmar, fun o => ?_⟩
          rw [← hi, inkOf, inkOf, List.append_nil, Fragment.ink_move, ha.ink _ _ rfl rfl, Vec2.add_zero_block]
theorem WrapB.alike (asc : Rat) : ∀ {b b' : BlockLevelBox}, WrapB b b' → ∀ (cb cb' : ContainingBlock) f f',
    cb.mode = (.horizontalTb, .ltr) → cb.inlineSize = cb'.inlineSize → cb.mode = cb'.mode → (cb.blockSize = cb'.blockSize ∨ b.Unmeasured) →
    LaysB F cb b f → LaysB F cb' b' f' → f.Alike asc f'
  | _, _, .same (s := s) (s' := s') hss h => by
    intro cb cb' f f' hm hw hmode hh h1 h2
    cases h1 with
    | same l1 =>
      cases h2 with
      | same l2 =>
        rename_i fc fc'
        rcases hss with rfl | ⟨b1, b2⟩
        · have he := height_unmeasured hh
          obtain ⟨e1, e2, e3⟩ := blockInfo_unmeasured hw he .sameFormattingContextBlock fc.collapsibleMarginsInChildren fc.blockSize
          rw [← e2, ← e3] at l2
          have ha := WrapC.alike asc h _ _ _ _ rfl l1 l2
          rw [e1, ha.size, ha.margins]
          exact box_alike ha
        · rw [b1.inner_eq, b1.start_eq] at l1
          rw [b2.inner_eq, b2.start_eq, ← hw] at l2
          have ha := WrapC.alike asc h _ _ _ _ rfl l1 l2
          have s1 := l1.sound asc
          have s2 := l2.sound asc
          rw [b1.info cb _ _ s1.start s1.end, b2.info cb' _ _ s2.start s2.end]
          refine ⟨?_, ?_, fun o => ?_⟩
          · simp only [ha.margins]
          · simp only [BoxInfo.borderBlockSize, ha.size]
          · rw [b1.ink _ _ rfl rfl, b2.ink _ _ rfl rfl, ha.ink]
  | _, _, .independent (s := s) h => by
    intro cb cb' f f' hm hw hmode hh h1 h2
    cases h1 with
    | independent l1 =>
      cases h2 with
      | independent l2 =>
        rename_i fc fc'
        have he := height_unmeasured hh
        obtain ⟨e1, e2, e3⟩ := blockInfo_unmeasured hw he .establishesAnIndependentFormattingContext
          fc.finishBlockFormattingContext.collapsibleMarginsInChildren fc.finishBlockFormattingContext.blockSize
        rw [← e2] at l2
        have ha := WrapC.alike asc h _ _ _ _ rfl l1 l2
        rw [e1]
        simp only [FlowChildren.finishBlockFormattingContext, ha.size, ha.margins]
        exact box_alike ha
  | _, _, .float => by
    intro cb cb' f f' hm hw hmode hh h1 h2
    cases h1
    cases h2
    exact ⟨rfl, rfl, hmode⟩
  | _, _, .absolute => by
    intro cb cb' f f' hm hw hmode hh h1 h2
    cases h1
theorem WrapL.alike (asc : Rat) : ∀ {bs bs' : List BlockLevelBox}, WrapL bs bs' → ∀ (cb cb' : ContainingBlock) fs fs',
    cb.mode = (.horizontalTb, .ltr) → cb.inlineSize = cb'.inlineSize → cb.mode = cb'.mode → (cb.blockSize = cb'.blockSize ∨ ∀ b ∈ bs, b.Unmeasured) →
    LaysL F cb bs fs → LaysL F cb' bs' fs' → ListsAlike asc fs fs'
  | _, _, .nil => by
    intro cb cb' fs fs' hm hw hmode hh h1 h2
    cases h1
    cases h2
    intro s hs gs t gs' t' hp hp'
    cases hp
    cases hp'
    exact ⟨rfl, fun _ => rfl⟩
  | _, _, .cons hb hbs => by
    intro cb cb' fs fs' hm hw hmode hh h1 h2
    cases h1 with
    | cons a1 a2 =>
      cases h2 with
      | cons b1 b2 =>
        have x1 := WrapB.alike asc hb _ _ _ _ hm hw hmode (hh.imp id fun h => h _ List.mem_cons_self) a1 b1
        have x2 := WrapL.alike asc hbs _ _ _ _ hm hw hmode (hh.imp id fun h b hb => h b (List.mem_cons_of_mem _ hb)) a2 b2
        exact (ListsAlike.one x1).append x2 fun f hf => by rw [List.mem_singleton.1 hf]; exact a1.sound asc
  | _, _, .wrap (s := s) (mid := mid) (mid' := mid') hs hu hmid hrest => by
    intro cb cb' fs fs' hm hw hmode hh h1 h2
    obtain ⟨fa, fb, rfl, a1, a2⟩ := LaysL.append h1
    cases h2 with
    | cons b1 b2 =>
      have x2 := WrapL.alike asc hrest _ _ _ _ hm hw hmode (hh.imp id fun h b hb => h b (List.mem_append_right _ hb)) a2 b2
      cases b1 with
      | same l =>
        rename_i fc'
        rw [hs.inner_eq, hs.start_eq] at l
        cases l with
        | boxes l p =>
          have x1 := WrapL.alike asc hmid cb ⟨cb'.inlineSize, .auto, (.horizontalTb, .ltr)⟩ _ _ hm hw hm (.inr hu) a1 l
          refine ListsAlike.append (as' := [_]) ?_ x2 (a1.sound asc)
          intro r hr gs t gs' t' hp hp'
          obtain ⟨ga, ta, q1, q2, -⟩ := placeAll_sound fa _ (reached_initial true) (a1.sound asc)
          obtain ⟨rfl, hi⟩ := x1 _ (reached_initial true) _ _ _ _ q1 p
          obtain ⟨ga', q3, q4, -⟩ := placeAll_from hr fa ga _ _ (reached_initial true) (a1.sound asc) q1
          rw [PlacementState.from_initial hr, hp] at q3
          cases q3
          obtain ⟨g, q5, q6⟩ := hs.place asc cb' (l.sound asc) p hr
          simp only [placeAll, q5] at hp'
          cases hp'
          exact ⟨rfl, fun o => by rw [q4, hi, inkOf, inkOf, List.append_nil, q6]⟩
end

end Verif.Layout
