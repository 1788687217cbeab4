/- Layout terminates and does not panic: lemmas. -/
import Verif.Layout.TotalSpec
import Verif.Layout.MarginLemmas2
namespace Verif.Layout
open Verif.Style Verif.Text
variable {Err : Type} {F : FontApi Rat Err}

/-- What is known of the absolutely positioned fragments that the layout of a tree of depth `n` leaves. -/
structure Pending (F : FontApi Rat Err) (n rank : Nat) (a : AbsolutelyPositionedFragment) : Prop where
  treeRank : a.treeRank = rank
  wf : a.box.contents.contents.Wf F
  depth : a.box.contents.contents.depth + 1 ≤ n
  shape : ∃ corner, a = a.box.layout corner rank

theorem Pending.mono {n m rank : Nat} {a : AbsolutelyPositionedFragment} (h : Pending F n rank a) (hm : n ≤ m) :
    Pending F m rank a := ⟨h.treeRank, h.wf, le_trans h.depth hm, h.shape⟩

/-! ### Inline formatting contexts -/

theorem shapeLine_some (fontSize available : Rat) (n : Nat) :
    ∀ (chars : List Nat) (shaped : ShapedSegment Rat) (last : Option (ShapedSegmentState Rat × List Nat)),
      (∀ ch ∈ chars, Shapable F ch) → chars.length ≤ n →
      (∀ state iter, last = some (state, iter) → iter.length < n ∧ ∀ ch ∈ iter, Shapable F ch) →
      ∃ shaped' rest, shapeLine F fontSize available chars shaped last = some (shaped', rest) ∧
        (rest ≠ [] → rest.length < n) ∧ ∀ ch ∈ rest, Shapable F ch := by
  intro chars
  induction chars with
  | nil =>
    intro shaped last hc hn hlast
    simp only [shapeLine]
    split
    · rcases last with _ | ⟨state, iter⟩
      · exact ⟨_, _, rfl, by simp, by simp⟩
      · exact ⟨_, _, rfl, fun _ => (hlast _ _ rfl).1, (hlast _ _ rfl).2⟩
    · exact ⟨_, _, rfl, by simp, by simp⟩
  | cons ch chars ih =>
    intro shaped last hc hn hlast
    simp only [List.length_cons] at hn
    have hc' : ∀ ch ∈ chars, Shapable F ch := fun x hx => hc x (List.mem_cons_of_mem _ hx)
    simp only [shapeLine]
    split
    · rcases last with _ | ⟨state, iter⟩
      · exact ⟨_, _, rfl, fun _ => by omega, hc'⟩
      · exact ⟨_, _, rfl, fun _ => (hlast _ _ rfl).1, (hlast _ _ rfl).2⟩
    · rcases appendChar_eq F shaped ch with ⟨id, w, -, -, he⟩ | ⟨hn, -⟩
      · simp only [he]
        refine ih _ _ hc' (by omega) ?_
        intro state iter h
        split at h
        · injection h with h; injection h with h1 h2; subst h2
          exact ⟨by omega, hc'⟩
        · exact hlast _ _ h
      · exact absurd (hc ch List.mem_cons_self) hn

/-- The boxes that remain in the nesting levels outside the current one. -/
def PartialInlineBox.remaining (p : PartialInlineBox) : List InlineLevelBox := p.parentNestingLevel.remainingBoxes

/-- All the boxes that remain. -/
def InlineState.allRemaining (ifc : InlineState) : List (List InlineLevelBox) :=
  ifc.current.remainingBoxes :: ifc.stack.map PartialInlineBox.remaining

theorem breakLine_remaining (cb : ContainingBlock) :
    ∀ (stack : List PartialInlineBox) (level : NestingLevel) (position : Rat) (lines : LinesBoxes),
      (breakLine cb stack level position lines).2.1.remainingBoxes = level.remainingBoxes ∧
      (breakLine cb stack level position lines).1.map PartialInlineBox.remaining = stack.map PartialInlineBox.remaining := by
  intro stack
  induction stack with
  | nil => intro level position lines; exact ⟨rfl, rfl⟩
  | cons p rest ih =>
    intro level position lines
    simp only [breakLine]
    refine ⟨rfl, ?_⟩
    obtain ⟨h1, h2⟩ := ih (p.finish { level with inlineStart := 0 } position true).1.parentNestingLevel
      (p.finish { level with inlineStart := 0 } position true).2.2 lines
    simp only [List.map_cons, h2, List.cons.injEq, and_true]
    simp only [PartialInlineBox.remaining, h1]
    rfl

theorem textLines_some (cb : ContainingBlock) (style : ComputedValues) (available : Rat) :
    ∀ (fuel : Nat) (chars : List Nat) (ifc : InlineState), chars.length < fuel → (∀ ch ∈ chars, Shapable F ch) →
      ∃ ifc', textLines F cb style available fuel chars ifc = some ifc' ∧ ifc'.allRemaining = ifc.allRemaining := by
  intro fuel
  induction fuel with
  | zero => intro chars ifc h; omega
  | succ fuel ih =>
    intro chars ifc hn hc
    obtain ⟨shaped, rest, hs, hlt, hrest⟩ := shapeLine_some (fontSizeOf style) available chars.length chars
      (ShapedSegment.new F) none hc le_rfl (by simp)
    simp only [textLines, hs]
    split
    · exact ⟨_, rfl, rfl⟩
    · rename_i hne
      obtain ⟨ifc', h1, h2⟩ := ih rest
        { lineBoxes := (breakLine cb (pushText style shaped ifc).stack (pushText style shaped ifc).current
            (pushText style shaped ifc).inlinePosition (pushText style shaped ifc).lineBoxes).2.2
          inlinePosition := 0
          stack := (breakLine cb (pushText style shaped ifc).stack (pushText style shaped ifc).current
            (pushText style shaped ifc).inlinePosition (pushText style shaped ifc).lineBoxes).1
          current := (breakLine cb (pushText style shaped ifc).stack (pushText style shaped ifc).current
            (pushText style shaped ifc).inlinePosition (pushText style shaped ifc).lineBoxes).2.1 }
        (by have := hlt hne; omega) hrest
      refine ⟨ifc', h1, ?_⟩
      rw [h2]
      obtain ⟨h3, h4⟩ := breakLine_remaining cb (pushText style shaped ifc).stack (pushText style shaped ifc).current
        (pushText style shaped ifc).inlinePosition (pushText style shaped ifc).lineBoxes
      simp only [InlineState.allRemaining, h3, h4]
      rfl

/-- The iterations that remain. -/
def remainingCost : List (List InlineLevelBox) → Nat
  | [] => 0
  | bs :: rest => costs bs + 1 + remainingCost rest

theorem inlineLoop_some (cb : ContainingBlock) (rank n : Nat) :
    ∀ (fuel : Nat) (ifc : InlineState), remainingCost ifc.allRemaining ≤ fuel →
      (∀ bs ∈ ifc.allRemaining, inlinesWf F bs ∧ inlineDepths bs ≤ n) →
      ∃ fc new, inlineLoop F cb rank fuel ifc [] = some (fc, new) ∧ ∀ a ∈ new, Pending F n rank a := by
  intro fuel
  induction fuel with
  | zero => intro ifc h; simp [InlineState.allRemaining, remainingCost] at h
  | succ fuel ih =>
    intro ifc hf hwf
    simp only [inlineLoop, inlineStep]
    rcases hr : ifc.current.remainingBoxes with _ | ⟨child, remaining⟩
    · rcases hst : ifc.stack with _ | ⟨p, stack⟩
      · exact ⟨_, _, rfl, by simp⟩
      · simp only
        refine ih _ ?_ ?_
        · simp only [InlineState.allRemaining, hr, hst, List.map_cons, remainingCost, costs] at hf ⊢
          have : (p.finish ifc.current ifc.inlinePosition false).1.parentNestingLevel.remainingBoxes = p.remaining := rfl
          rw [this]
          omega
        · intro bs hbs
          refine hwf bs ?_
          simp only [InlineState.allRemaining, hst, List.map_cons, List.mem_cons] at hbs ⊢
          exact Or.inr hbs
    · have hw := hwf (child :: remaining) (by simp [InlineState.allRemaining, hr])
      simp only [inlinesWf, inlineDepths] at hw
      obtain ⟨⟨hw1, hw2⟩, hw3⟩ := hw
      have hrest : ∀ bs ∈ ifc.stack.map PartialInlineBox.remaining, inlinesWf F bs ∧ inlineDepths bs ≤ n :=
        fun bs hbs => hwf bs (by simp only [InlineState.allRemaining]; exact List.mem_cons_of_mem _ hbs)
      have hrem : inlinesWf F remaining ∧ inlineDepths remaining ≤ n := ⟨hw2, by omega⟩
      simp only [InlineState.allRemaining, hr, remainingCost, costs] at hf
      cases child with
      | inlineBox style first last children =>
        simp only
        refine ih _ ?_ ?_
        · simp only [startInlineBox, InlineState.allRemaining, List.map_cons, remainingCost, PartialInlineBox.remaining,
            InlineLevelBox.cost] at hf ⊢
          omega
        · intro bs hbs
          simp only [startInlineBox, InlineState.allRemaining, List.map_cons, List.mem_cons, PartialInlineBox.remaining] at hbs
          rcases hbs with rfl | rfl | hbs
          · simp only [InlineLevelBox.Wf, InlineLevelBox.depth] at hw1 hw3
            exact ⟨hw1, by omega⟩
          · exact hrem
          · exact hrest bs hbs
      | textRun style text =>
        simp only [InlineLevelBox.Wf] at hw1
        obtain ⟨ifc', h1, h2⟩ := textLines_some (F := F) cb style (cb.inlineSize - ifc.inlinePosition) (text.length + 1) text
          { ifc with current := { ifc.current with remainingBoxes := remaining } } (by omega) hw1
        simp only [layoutTextRun, h1]
        refine ih _ ?_ ?_
        · rw [h2]
          simp only [InlineState.allRemaining, remainingCost, InlineLevelBox.cost] at hf ⊢
          omega
        · rw [h2]
          intro bs hbs
          simp only [InlineState.allRemaining, List.mem_cons] at hbs
          rcases hbs with rfl | hbs
          · exact hrem
          · exact hrest bs hbs
      | outOfFlowAbsolutelyPositioned style floats contents =>
        simp only [InlineLevelBox.Wf, InlineLevelBox.depth] at hw1 hw3
        obtain ⟨⟨outside, inside, hd⟩, hwc⟩ := hw1
        have hi : ∃ i, staticInlineStart style ifc.inlinePosition = some i := by
          simp only [staticInlineStart, hd]
          cases outside <;> exact ⟨_, rfl⟩
        obtain ⟨i, hi⟩ := hi
        simp only [hi, List.nil_append]
        obtain ⟨fc, new, h1, h2⟩ := ih { ifc with current := { ifc.current with remainingBoxes := remaining } } (by
            simp only [InlineState.allRemaining, remainingCost, InlineLevelBox.cost] at hf ⊢
            omega) (by
          intro bs hbs
          simp only [InlineState.allRemaining, List.mem_cons] at hbs
          rcases hbs with rfl | hbs
          · exact hrem
          · exact hrest bs hbs)
        refine ⟨fc, _ ++ new, by rw [inlineLoop_prepend, h1]; rfl, ?_⟩
        intro a ha
        rcases List.mem_append.mp ha with ha | ha
        · rw [List.mem_singleton.mp ha]
          exact ⟨rfl, hwc, by simp only [AbsolutelyPositionedBox.layout]; omega, ⟨_, rfl⟩⟩
        · exact h2 a ha
      | outOfFlowFloat style floats contents =>
        simp only
        refine ih _ ?_ ?_
        · simp only [InlineState.allRemaining, remainingCost, InlineLevelBox.cost] at hf ⊢
          omega
        · intro bs hbs
          simp only [InlineState.allRemaining, List.mem_cons] at hbs
          rcases hbs with rfl | hbs
          · exact hrem
          · exact hrest bs hbs

theorem layoutInline_some (boxes : List InlineLevelBox) (cb : ContainingBlock) (rank : Nat) (hwf : inlinesWf F boxes) :
    ∃ fc new, layoutInline F boxes cb rank [] = some (fc, new) ∧ ∀ a ∈ new, Pending F (inlineDepths boxes) rank a := by
  refine inlineLoop_some cb rank (inlineDepths boxes) _ _ ?_ ?_
  · simp [InlineState.allRemaining, initialInlineState, remainingCost]
  · intro bs hbs
    simp only [InlineState.allRemaining, initialInlineState, List.map_nil, List.mem_singleton] at hbs
    subst hbs
    exact ⟨hwf, le_rfl⟩

/-! ### Lists of block-level boxes -/

/-- A fragment that can be placed. -/
def Placeable (f : Fragment) : Prop :=
  (∃ info children, f = .box info children) ∨ ∃ mode, f = .noOp mode

theorem placeAll_some : ∀ (fs : List Fragment) (s : PlacementState), (∀ f ∈ fs, Placeable f) →
    (s.nextInFlowMarginCollapsesWithParentStartMargin = true → s.currentMargin = .zero) →
    ∃ fs' s', placeAll s fs = some (fs', s') ∧ fs'.length = fs.length ∧ ∀ f ∈ fs', f.rect?.isSome = true := by
  intro fs
  induction fs with
  | nil => intro s _ _; exact ⟨[], s, rfl, rfl, by simp⟩
  | cons f fs ih =>
    intro s hf hs
    have key : ∃ f' s1, placeFragment s f = some (f', s1) ∧ f'.rect?.isSome = true ∧
        (s1.nextInFlowMarginCollapsesWithParentStartMargin = true → s1.currentMargin = .zero) := by
      rcases hf f List.mem_cons_self with ⟨info, children, rfl⟩ | ⟨mode, rfl⟩
      · simp only [placeFragment]
        cases hflag : s.nextInFlowMarginCollapsesWithParentStartMargin with
        | true =>
          simp only [hs hflag, solve_zero, if_true]
          cases info.blockMarginsCollapsedWithChildren.collapsedThrough with
          | true => exact ⟨_, _, rfl, rfl, fun _ => rfl⟩
          | false => exact ⟨_, _, rfl, rfl, by simp⟩
        | false =>
          simp only [Bool.false_eq_true, if_false]
          cases info.blockMarginsCollapsedWithChildren.collapsedThrough with
          | true => exact ⟨_, _, rfl, rfl, by simp⟩
          | false => exact ⟨_, _, rfl, rfl, by simp⟩
      · simp only [Fragment.noOp, placeFragment]
        exact ⟨_, _, if_pos ⟨rfl, rfl⟩, rfl, hs⟩
    obtain ⟨f', s1, h1, h2, h3⟩ := key
    obtain ⟨fs', s', h4, h5, h6⟩ := ih s1 (fun g hg => hf g (List.mem_cons_of_mem _ hg)) h3
    refine ⟨f' :: fs', s', by simp [placeAll, h1, h4], by simp [h5], ?_⟩
    intro g hg
    rcases List.mem_cons.mp hg with rfl | hg
    · exact h2
    · exact h6 g hg

theorem moveStatic_offsets (s d : Rat) (a b : LengthOrPercentageOrAuto) :
    (absoluteBoxOffsets s a b).moveStatic d = absoluteBoxOffsets (s + d) a b := by
  cases a <;> cases b <;> rfl

theorem adjustStaticPositions_some (n rank : Nat) (fs : List Fragment) (hfs : ∀ f ∈ fs, f.rect?.isSome = true) :
    ∀ (as : Absolutes), (∀ a ∈ as, ∃ r, r < fs.length ∧ Pending F n r a) →
      ∃ as', adjustStaticPositions as fs rank = some as' ∧ ∀ a ∈ as', Pending F n rank a := by
  intro as
  induction as with
  | nil => intro _; exact ⟨[], rfl, by simp⟩
  | cons a as ih =>
    intro h
    obtain ⟨r, hr, hp⟩ := h a List.mem_cons_self
    obtain ⟨as', h1, h2⟩ := ih (fun x hx => h x (List.mem_cons_of_mem _ hx))
    have hget : fs[a.treeRank]? = some fs[r] := by rw [hp.treeRank]; exact List.getElem?_eq_getElem hr
    obtain ⟨rect, hrect⟩ := Option.isSome_iff_exists.mp (hfs fs[r] (List.getElem_mem hr))
    simp only [adjustStaticPositions, hget, hrect, h1]
    refine ⟨_, rfl, ?_⟩
    intro x hx
    rcases List.mem_cons.mp hx with rfl | hx
    · obtain ⟨corner, hcorner⟩ := hp.shape
      refine ⟨rfl, hp.wf, hp.depth, ⟨⟨corner.inline + rect.startCorner.inline, corner.block + rect.startCorner.block⟩, ?_⟩⟩
      rw [hcorner]
      simp only [AbsolutelyPositionedBox.layout, moveStatic_offsets]
    · exact h2 x hx

theorem seqChildren_some (n : Nat) {g : Nat → BlockLevelBox → Option (Fragment × Absolutes)} :
    ∀ (bs : List BlockLevelBox) (rank : Nat), blocksWf F bs → blockDepths bs ≤ n →
      (∀ rank b, b.Wf F → b.depth ≤ n → ∃ f as, g rank b = some (f, as) ∧ Placeable f ∧ ∀ a ∈ as, Pending F n rank a) →
      ∃ fs as, seqChildren g rank bs = some (fs, as) ∧ fs.length = bs.length ∧ (∀ f ∈ fs, Placeable f) ∧
        ∀ a ∈ as, ∃ r, r < rank + bs.length ∧ Pending F n r a := by
  intro bs
  induction bs with
  | nil => intro rank _ _ _; exact ⟨[], [], rfl, rfl, by simp, by simp⟩
  | cons b bs ih =>
    intro rank hwf hd hg
    simp only [blocksWf, blockDepths] at hwf hd
    obtain ⟨f, as, h1, h2, h3⟩ := hg rank b hwf.1 (by omega)
    obtain ⟨fs, as', h4, h5, h6, h7⟩ := ih (rank + 1) hwf.2 (by omega) hg
    refine ⟨f :: fs, as ++ as', by simp [seqChildren, h1, h4], by simp [h5], ?_, ?_⟩
    · intro x hx
      rcases List.mem_cons.mp hx with rfl | hx
      · exact h2
      · exact h6 x hx
    · intro a ha
      rcases List.mem_append.mp ha with ha | ha
      · exact ⟨rank, by simp, h3 a ha⟩
      · obtain ⟨r, hr, hp⟩ := h7 a ha
        exact ⟨r, by simp only [List.length_cons]; omega, hp⟩

theorem canonicalChildren_total (n : Nat) {g : Nat → BlockLevelBox → Option (Fragment × Absolutes)} (boxes : List BlockLevelBox)
    (rank : Nat) (collapsible : Bool) (hwf : blocksWf F boxes) (hd : blockDepths boxes ≤ n)
    (hg : ∀ rank b, b.Wf F → b.depth ≤ n → ∃ f as, g rank b = some (f, as) ∧ Placeable f ∧ ∀ a ∈ as, Pending F n rank a) :
    ∃ fc as, canonicalChildren g boxes rank collapsible = some (fc, as) ∧ ∀ a ∈ as, Pending F n rank a := by
  obtain ⟨fs, as, h1, h2, h3, h4⟩ := seqChildren_some n boxes 0 hwf hd hg
  obtain ⟨fs', s', h5, h6, h7⟩ := placeAll_some fs (.initial collapsible) h3 (fun _ => rfl)
  obtain ⟨as', h8, h9⟩ := adjustStaticPositions_some n rank fs' h7 as (by
    intro a ha
    obtain ⟨r, hr, hp⟩ := h4 a ha
    exact ⟨r, by omega, hp⟩)
  exact ⟨_, as', by simp [canonicalChildren, h1, h5, finishChildren, h8]; rfl, h9⟩

/-! ### Everything -/

theorem layoutAll_some {la : Nat → AbsolutelyPositionedFragment → Option Fragment} :
    ∀ (as : Absolutes) (k : Nat), (∀ k, ∀ a ∈ as, ∃ f, la k a = some f) → ∃ fs, layoutAll la k as = some fs := by
  intro as
  induction as with
  | nil => intro k _; exact ⟨[], rfl⟩
  | cons a as ih =>
    intro k h
    obtain ⟨f, hf⟩ := h k a List.mem_cons_self
    obtain ⟨fs, hfs⟩ := ih (k + 1) (fun k x hx => h k x (List.mem_cons_of_mem _ hx))
    exact ⟨f :: fs, by simp [layoutAll, hf, hfs]⟩

theorem inPositioned_some {la : DefiniteContainingBlock → Nat → AbsolutelyPositionedFragment → Option Fragment}
    (as : Absolutes) (fs : List Fragment) (size : Vec2 Rat) (padding : Sides Rat)
    (h : ∀ (cb : DefiniteContainingBlock) k, cb.mode = (.horizontalTb, .ltr) → ∀ a ∈ as, ∃ f, la cb k a = some f) :
    ∃ r, inPositionedContainingBlock la as fs size padding (.horizontalTb, .ltr) = some r := by
  cases as with
  | nil => exact ⟨fs, rfl⟩
  | cons a as =>
    simp only [inPositionedContainingBlock]
    obtain ⟨r, hr⟩ := layoutAll_some (la := la ⟨_, (.horizontalTb, .ltr)⟩) (a :: as) 0 (fun k x hx => h _ k rfl x hx)
    rw [hr]
    exact ⟨_, rfl⟩

theorem layoutInFlow_total (n rank : Nat) (cb : ContainingBlock) (style : ComputedValues) (kind : BlockLevelKind)
    {lc : ContainingBlock → Absolutes → Bool → Option (FlowChildren × Absolutes)}
    {la : DefiniteContainingBlock → Nat → AbsolutelyPositionedFragment → Option Fragment}
    (hcb : cb.mode = (.horizontalTb, .ltr))
    (hlc : ∀ (cb : ContainingBlock) coll, cb.mode = (.horizontalTb, .ltr) →
      ∃ fc as, lc cb [] coll = some (fc, as) ∧ ∀ a ∈ as, Pending F n rank a)
    (hla : ∀ (cb : DefiniteContainingBlock) k a, cb.mode = (.horizontalTb, .ltr) → Pending F n rank a → ∃ f, la cb k a = some f) :
    ∃ info children as, layoutInFlow cb [] style kind lc la = some (.box info children, as) ∧ ∀ a ∈ as, Pending F n rank a := by
  have hm : writingMode style = (.horizontalTb, .ltr) := rfl
  simp only [layoutInFlow, hm, hcb, ne_eq, not_true_eq_false, if_false, ite_self]
  obtain ⟨fc, as, h1, h2⟩ := hlc ⟨(inFlowSizes cb style).inlineSize, (inFlowSizes cb style).blockSize, (.horizontalTb, .ltr)⟩
    (decide (kind = .sameFormattingContextBlock) &&
      decide (((inFlowSizes cb style).padding.add (inFlowSizes cb style).border).blockStart = 0)) rfl
  simp only [h1]
  split
  · obtain ⟨r, hr⟩ := inPositioned_some (la := la) as fc.fragments _ (inFlowSizes cb style).padding
      (fun cb k hcb a ha => hla cb k a hcb (h2 a ha))
    rw [hr]
    exact ⟨_, _, _, rfl, by simp⟩
  · exact ⟨_, _, _, rfl, h2⟩

theorem layout_total : ∀ (fuel : Nat),
    (∀ c cb rank collapsible, c.Wf F → c.depth ≤ fuel → cb.mode = (.horizontalTb, .ltr) →
      ∃ fc as, layoutContainer F fuel inOrder c cb rank [] false collapsible = some (fc, as) ∧
        ∀ a ∈ as, Pending F (c.depth - 1) rank a) ∧
    (∀ b cb rank, b.Wf F → b.depth ≤ fuel → cb.mode = (.horizontalTb, .ltr) →
      ∃ f as, layoutBox F fuel inOrder b cb rank [] false = some (f, as) ∧ Placeable f ∧ ∀ a ∈ as, Pending F b.depth rank a) ∧
    (∀ (cb : DefiniteContainingBlock) n rank a, cb.mode = (.horizontalTb, .ltr) → Pending F n rank a → n ≤ fuel →
      ∃ f, layoutAbsolute F fuel inOrder cb a = some f) := by
  intro fuel
  induction fuel with
  | zero =>
    refine ⟨?_, ?_, ?_⟩
    · intro c cb rank coll hwf hd
      cases c <;> simp [BlockContainer.depth] at hd
    · intro b cb rank hwf hd
      cases b <;> simp [BlockLevelBox.depth] at hd
    · intro cb n rank a hcb hp hn
      have := hp.depth
      omega
  | succ fuel ih =>
    obtain ⟨ih1, ih2, ih3⟩ := ih
    have hp := layout_prepend F fuel
    have hmap (c : BlockContainer) (cb : ContainingBlock) (rank : Nat) (s : Oracle) (floats coll : Bool) (hwf : c.Wf F)
        (hd : c.depth ≤ fuel) (hcb : cb.mode = (.horizontalTb, .ltr)) :
        ∃ fc as, mapFst FlowChildren.finishBlockFormattingContext (layoutContainer F fuel s c cb rank [] floats coll) =
          some (fc, as) ∧ ∀ a ∈ as, Pending F (c.depth - 1) rank a := by
      obtain ⟨fc, as, h1, h2⟩ := ih1 c cb rank coll hwf hd hcb
      rw [hp.1 s, h1]
      exact ⟨_, as, rfl, h2⟩
    refine ⟨?_, ?_, ?_⟩
    · intro c cb rank coll hwf hd hcb
      cases c with
      | inlineFormattingContext boxes =>
        simp only [BlockContainer.Wf] at hwf
        simpa [layoutContainer, BlockContainer.depth] using layoutInline_some boxes cb rank hwf
      | blockLevelBoxes boxes =>
        simp only [BlockContainer.Wf] at hwf
        simp only [BlockContainer.depth] at hd ⊢
        simp only [layoutContainer]
        rw [layoutChildren_eq (g := fun rank b => layoutBox F fuel inOrder b cb rank [] false)
          (fun rank b absolute => hp.2.1 _ b cb rank absolute false), prepend_nil]
        simp only [Nat.add_sub_cancel]
        refine canonicalChildren_total (blockDepths boxes) boxes rank coll hwf le_rfl ?_
        intro rank b hb hbd
        obtain ⟨f, as, h1, h2, h3⟩ := ih2 b cb rank hb (by omega) hcb
        exact ⟨f, as, h1, h2, fun a ha => (h3 a ha).mono hbd⟩
    · intro b cb rank hwf hd hcb
      cases b with
      | sameFormattingContextBlock style contents =>
        simp only [BlockLevelBox.Wf] at hwf
        simp only [BlockLevelBox.depth] at hd ⊢
        simp only [layoutBox]
        obtain ⟨info, children, as, h1, h2⟩ := layoutInFlow_total (F := F) (contents.depth - 1) rank cb style
          .sameFormattingContextBlock
          (lc := fun cb absolute collapsible => layoutContainer F fuel (inOrder.sub 0) contents cb rank absolute false collapsible)
          (la := fun cb k a => layoutAbsolute F fuel (inOrder.sub (k + 1)) cb a) hcb
          (by
            intro cb coll hcb
            exact ih1 contents cb rank coll hwf (by omega) hcb)
          (by
            intro cb k a hcb hpend
            rw [hp.2.2]
            exact ih3 cb _ rank a hcb hpend (by omega))
        exact ⟨_, as, h1, Or.inl ⟨info, children, rfl⟩, fun a ha => (h2 a ha).mono (by omega)⟩
      | independent style floats contents =>
        simp only [BlockLevelBox.Wf] at hwf
        simp only [BlockLevelBox.depth] at hd ⊢
        simp only [layoutBox]
        obtain ⟨info, children, as, h1, h2⟩ := layoutInFlow_total (F := F) (contents.depth - 1) rank cb style
          .establishesAnIndependentFormattingContext
          (lc := fun cb absolute _ => mapFst FlowChildren.finishBlockFormattingContext
            (layoutContainer F fuel (inOrder.sub 0) contents cb rank absolute floats false))
          (la := fun cb k a => layoutAbsolute F fuel (inOrder.sub (k + 1)) cb a) hcb
          (by
            intro cb coll hcb
            exact hmap contents cb rank _ floats false hwf (by omega) hcb)
          (by
            intro cb k a hcb hpend
            rw [hp.2.2]
            exact ih3 cb _ rank a hcb hpend (by omega))
        exact ⟨_, as, h1, Or.inl ⟨info, children, rfl⟩, fun a ha => (h2 a ha).mono (by omega)⟩
      | outOfFlowAbsolutelyPositioned style floats contents =>
        simp only [BlockLevelBox.Wf] at hwf
        simp only [layoutBox, BlockLevelBox.depth]
        refine ⟨_, _, rfl, Or.inr ⟨_, rfl⟩, ?_⟩
        intro a ha
        rw [List.nil_append, List.mem_singleton] at ha
        rw [ha]
        exact ⟨rfl, hwf, le_rfl, ⟨_, rfl⟩⟩
      | outOfFlowFloat style floats contents =>
        simp only [layoutBox]
        exact ⟨_, _, rfl, Or.inr ⟨_, rfl⟩, by simp⟩
    · intro cb n rank a hcb hpend hn
      have hm : writingMode a.box.style = (.horizontalTb, .ltr) := rfl
      have hdepth := hpend.depth
      simp only [layoutAbsolute, hm, hcb, ne_eq, not_true_eq_false, if_false]
      obtain ⟨fc, as, h1, h2⟩ := hmap a.box.contents.contents
        ⟨(absoluteSizes cb a).inlineSize, (absoluteSizes cb a).blockSize, (.horizontalTb, .ltr)⟩ 0 (inOrder.sub 0)
        a.box.contents.containsFloats false hpend.wf (by omega) rfl
      simp only [h1]
      obtain ⟨r, hr⟩ := inPositioned_some (la := fun cb k a => layoutAbsolute F fuel (inOrder.sub (k + 1)) cb a) as fc.fragments
        (absoluteContentRect cb (absoluteSizes cb a) fc.blockSize).size (absoluteSizes cb a).padding
        (by
          intro cb k hcb a ha
          rw [hp.2.2]
          exact ih3 cb _ 0 a hcb (h2 a ha) (by omega))
      simp only [hr]
      exact ⟨_, rfl⟩

end Verif.Layout
