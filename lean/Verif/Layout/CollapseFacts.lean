/- Which margins collapse: the margins and the heights of blocks. Lemmas for C106. -/
import Verif.Layout.CollapseLemmas
import Verif.Layout.CollapseKinds
namespace Verif.Layout
open Verif.Style Verif.Text
variable {Err : Type} {F : FontApi Rat Err}

theorem CollapsedMargin.Of.swap {c : CollapsedMargin} {a b : List Rat} (h : c.Of (a ++ b)) : c.Of (b ++ a) := by
  obtain ⟨⟨h1, h2⟩, h3, h4⟩ := h
  simp only [List.mem_cons, List.mem_append] at h1 h2 h3 h4
  refine ⟨⟨?_, ?_⟩, ?_, ?_⟩ <;> simp only [List.mem_cons, List.mem_append]
  · tauto
  · intro x hx; exact h2 x (by tauto)
  · tauto
  · intro x hx; exact h4 x (by tauto)

/-- What keeps margins apart, if anything does. -/
def Norm.wall (open_ : Bool) (h : Rat) : Norm := if open_ then .run [] else .solid [] h []

theorem collapse_auto {margin : Sides Rat} {s e : Bool} {m : CollapsedBlockMargins} {h pa pb : Rat} {n : Norm}
    (hn : StateFacts s n m.collapsedThrough m.start m.end h) (hs : s = true → pa = 0) (he : e = true → pb = 0) :
    BoxFacts ((Norm.run [margin.blockStart]).then ((Norm.wall s pa).then (n.then ((Norm.wall e pb).then (.run [margin.blockEnd])))))
      (collapseWithChildren margin s e m h).1 (pa + pb + (collapseWithChildren margin s e m h).2) := by
  have o1 := CollapsedMargin.of_new margin.blockStart
  have o2 := CollapsedMargin.of_new margin.blockEnd
  cases n with
  | run ms =>
    obtain ⟨h1, h2, h3, h4⟩ := hn
    cases s <;> cases e <;> simp only [if_true, if_false, Bool.false_eq_true] at h3 h4 hs he <;>
      simp only [Norm.wall, Norm.then, if_true, if_false, Bool.false_eq_true, collapseWithChildren, h1, h2, Bool.and_true, Bool.and_false, Bool.true_and,
        Bool.false_and, CollapsedBlockMargins.fromMargin, List.append_nil, List.nil_append, BoxFacts]
    · exact ⟨trivial, o1, o2, by rw [h4.size]; ring⟩
    · exact ⟨trivial, o1, (o2.adjoin h4).swap, by rw [he trivial]; ring⟩
    · exact ⟨trivial, by simpa using (o1.adjoin h3).adjoin h4, o2, by rw [hs trivial, solve_zero]; ring⟩
    · exact ⟨trivial, [margin.blockStart] ++ ms, [margin.blockEnd], by simp, by simpa using (o1.adjoin h3).adjoin h4, by simpa using o2.adjoin CollapsedMargin.of_zero⟩
  | solid l c t =>
    obtain ⟨h1, h2, h3, h4⟩ := hn
    cases s <;> cases e <;> simp only [if_true, if_false, Bool.false_eq_true] at h2 h3 hs he <;>
      simp only [Norm.wall, Norm.then, if_true, if_false, Bool.false_eq_true, collapseWithChildren, h1, h2, Bool.and_true, Bool.and_false, Bool.true_and,
        Bool.false_and, CollapsedBlockMargins.fromMargin, List.append_nil, List.nil_append, BoxFacts]
    · exact ⟨trivial, o1, o2, by rw [h4.size]; ring⟩
    · exact ⟨trivial, o1, (o2.adjoin h4).swap, by rw [he trivial]; ring⟩
    · exact ⟨trivial, o1.adjoin h3, o2, by rw [hs trivial, h4.size]; ring⟩
    · exact ⟨trivial, o1.adjoin h3, (o2.adjoin h4).swap, by rw [hs trivial, he trivial]; ring⟩

theorem collapse_fixed {margin : Sides Rat} {s e : Bool} {m : CollapsedBlockMargins} {h H pa pb : Rat} {n : Norm}
    (hn : StateFacts s n m.collapsedThrough m.start m.end h) (hs : s = true → pa = 0) (he : e = true → pb = 0) :
    BoxFacts ((Norm.run [margin.blockStart]).then ((Norm.wall s pa).then ((Norm.run (if s then n.lead else [])).then
        ((Norm.solid [] H []).then ((Norm.wall e pb).then (.run [margin.blockEnd]))))))
      (collapseWithChildren margin s false m h).1 (pa + pb + H) := by
  have o1 := CollapsedMargin.of_new margin.blockStart
  have o2 := CollapsedMargin.of_new margin.blockEnd
  cases n with
  | run ms =>
    obtain ⟨h1, h2, h3, h4⟩ := hn
    cases s <;> cases e <;> simp only [if_true, if_false, Bool.false_eq_true] at h3 h4 hs he <;>
      simp only [Norm.wall, Norm.then, if_true, if_false, Bool.false_eq_true, collapseWithChildren, h1, h2, Bool.and_true, Bool.and_false, Bool.true_and,
        Bool.false_and, CollapsedBlockMargins.fromMargin, List.append_nil, List.nil_append, BoxFacts, Norm.lead, collapsedSize_nil]
    · exact ⟨trivial, o1, o2, by ring⟩
    · exact ⟨trivial, o1, o2, by rw [he trivial]⟩
    · exact ⟨trivial, by simpa using (o1.adjoin h3).adjoin h4, o2, by rw [hs trivial]; ring⟩
    · exact ⟨trivial, by simpa using (o1.adjoin h3).adjoin h4, o2, by rw [hs trivial, he trivial]; ring⟩
  | solid l c t =>
    obtain ⟨h1, h2, h3, h4⟩ := hn
    cases s <;> cases e <;> simp only [if_true, if_false, Bool.false_eq_true] at h2 h3 hs he <;>
      simp only [Norm.wall, Norm.then, if_true, if_false, Bool.false_eq_true, collapseWithChildren, h1, h2, Bool.and_true, Bool.and_false, Bool.true_and,
        Bool.false_and, CollapsedBlockMargins.fromMargin, List.append_nil, List.nil_append, BoxFacts, Norm.lead, collapsedSize_nil]
    · exact ⟨trivial, o1, o2, by ring⟩
    · exact ⟨trivial, o1, o2, by rw [he trivial]⟩
    · exact ⟨trivial, o1.adjoin h3, o2, by rw [hs trivial]; ring⟩
    · exact ⟨trivial, o1.adjoin h3, o2, by rw [hs trivial, he trivial]; ring⟩

theorem collapse_finished (margin : Sides Rat) (fc : FlowChildren) :
    collapseWithChildren margin false false fc.finishBlockFormattingContext.collapsibleMarginsInChildren fc.finishBlockFormattingContext.blockSize =
      collapseWithChildren margin false false fc.collapsibleMarginsInChildren fc.blockSize := by
  simp [collapseWithChildren, FlowChildren.finishBlockFormattingContext, solve_zero]

/-! ### Steps of boxes -/

/-- The steps down the contents of a block that are `h` high. -/
def contentSteps (cb : ContainingBlock) (h : Rat) (items : List PageItem) : List DownStep :=
  if items.any (PageItem.isLine cb) then [.part h] else itemsSteps cb items

/-- The margins on both sides of the top border and padding collapse. -/
def openAbove (apart : Bool) (cb : ContainingBlock) (s : ComputedValues) : Bool := !apart && decide (Css.paddingTop cb s + Css.borderTop cb s = 0)

/-- The margins on both sides of the bottom border and padding collapse. -/
def openBelow (apart : Bool) (cb : ContainingBlock) (s : ComputedValues) : Bool :=
  !apart && decide (Css.paddingBottom cb s + Css.borderBottom cb s = 0)

theorem stepsAbove_eq (apart : Bool) (cb : ContainingBlock) (s : ComputedValues) :
    stepsAbove apart cb s = if openAbove apart cb s then [] else [.part (Css.paddingTop cb s + Css.borderTop cb s)] := by
  unfold stepsAbove openAbove
  cases apart <;> by_cases h : Css.paddingTop cb s + Css.borderTop cb s = 0 <;> simp [h]

theorem stepsBelow_eq (apart : Bool) (cb : ContainingBlock) (s : ComputedValues) :
    stepsBelow apart cb s = if openBelow apart cb s then [] else [.part (Css.paddingBottom cb s + Css.borderBottom cb s)] := by
  unfold stepsBelow openBelow
  cases apart <;> by_cases h : Css.paddingBottom cb s + Css.borderBottom cb s = 0 <;> simp [h]

theorem norm_above (apart : Bool) (cb : ContainingBlock) (s : ComputedValues) :
    norm (stepsAbove apart cb s) = Norm.wall (openAbove apart cb s) (Css.paddingTop cb s + Css.borderTop cb s) := by
  rw [stepsAbove_eq]
  unfold Norm.wall
  split <;> rfl

theorem norm_below (apart : Bool) (cb : ContainingBlock) (s : ComputedValues) :
    norm (stepsBelow apart cb s) = Norm.wall (openBelow apart cb s) (Css.paddingBottom cb s + Css.borderBottom cb s) := by
  rw [stepsBelow_eq]
  unfold Norm.wall
  split <;> rfl

theorem isEmpty_above (apart : Bool) (cb : ContainingBlock) (s : ComputedValues) : (stepsAbove apart cb s).isEmpty = openAbove apart cb s := by
  rw [stepsAbove_eq]
  split <;> simp_all

theorem norm_margin_cons (m : Rat) (l : List DownStep) : norm (.margin m :: l) = (Norm.run [m]).then (norm l) := rfl

theorem norm_single (m : Rat) : norm [.margin m] = .run [m] := rfl

theorem steps_auto {root : Bool} {cb : ContainingBlock} {style : ComputedValues} {border content : Extent} {items : List PageItem}
    (h : Css.height cb style = .auto) :
    norm (PageItem.steps root cb (.box style border content items)) =
      (Norm.run [Css.marginTop cb style]).then ((Norm.wall (openAbove (root || isFlowRoot style) cb style) (Css.paddingTop cb style + Css.borderTop cb style)).then
        ((norm (contentSteps (Css.inner cb style) content.height items)).then
          ((Norm.wall (openBelow (root || isFlowRoot style) cb style) (Css.paddingBottom cb style + Css.borderBottom cb style)).then
            (.run [Css.marginBottom cb style])))) := by
  rw [PageItem.steps]
  simp only [h]
  rw [norm_margin_cons, norm_append, norm_append, norm_append, norm_above, norm_below, norm_single, Norm.then_assoc, Norm.then_assoc]
  rfl

theorem steps_fixed {root : Bool} {cb : ContainingBlock} {style : ComputedValues} {border content : Extent} {items : List PageItem} {H : Rat}
    (h : Css.height cb style = .length H) (hz : ¬(H = 0 ∧ items.all (fun i => !i.isLine (Css.inner cb style) && !i.isBox))) :
    norm (PageItem.steps root cb (.box style border content items)) =
      (Norm.run [Css.marginTop cb style]).then ((Norm.wall (openAbove (root || isFlowRoot style) cb style) (Css.paddingTop cb style + Css.borderTop cb style)).then
        ((Norm.run (if openAbove (root || isFlowRoot style) cb style then (norm (itemsSteps (Css.inner cb style) items)).lead else [])).then
          ((Norm.solid [] H []).then
            ((Norm.wall (openBelow (root || isFlowRoot style) cb style) (Css.paddingBottom cb style + Css.borderBottom cb style)).then
              (.run [Css.marginBottom cb style]))))) := by
  rw [PageItem.steps]
  simp only [h, if_neg hz]
  rw [norm_margin_cons, norm_append, norm_append, norm_append, norm_append, norm_above, norm_below, norm_single, isEmpty_above, Norm.then_assoc, Norm.then_assoc,
    Norm.then_assoc]
  congr 3
  split
  · rw [norm_leading]
  · rfl

/-! ### Blocks -/

/-- What is known of the contents of a block. -/
structure FlowChildren.Known (cb : ContainingBlock) (coll : Bool) (fc : FlowChildren) : Prop where
  facts : StateFacts coll (norm (contentSteps cb fc.blockSize (itemsAt Vec2.zero fc.fragments))) fc.collapsibleMarginsInChildren.collapsedThrough
    fc.collapsibleMarginsInChildren.start fc.collapsibleMarginsInChildren.end fc.blockSize
  lines : (itemsAt Vec2.zero fc.fragments).any (PageItem.isLine cb) = true →
    itemsSteps cb (itemsAt Vec2.zero fc.fragments) = [] ∧ fc.collapsibleMarginsInChildren = .zero
  seen : fc.fragments ≠ [] → (itemsAt Vec2.zero fc.fragments).all (fun i => !i.isLine cb && !i.isBox) = false

theorem FlowChildren.Known.lead {cb : ContainingBlock} {coll : Bool} {fc : FlowChildren} (h : fc.Known cb coll) :
    (norm (contentSteps cb fc.blockSize (itemsAt Vec2.zero fc.fragments))).lead = (norm (itemsSteps cb (itemsAt Vec2.zero fc.fragments))).lead := by
  unfold contentSteps
  split
  · rename_i k
    rw [(h.lines k).1]
    rfl
  · rfl

/-- What is known of a block. -/
def Fragment.Known (root : Bool) (cb : ContainingBlock) (f : Fragment) : Prop :=
  ∃ info children, f = .box info children ∧
    BoxFacts (norm ((f.item Vec2.zero).steps root cb)) info.blockMarginsCollapsedWithChildren info.borderBlockSize

theorem known_box {cb : ContainingBlock} {style : ComputedValues} {root : Bool} {kind : BlockLevelKind} {fc : FlowChildren}
    {m : CollapsedBlockMargins} {h : Rat}
    (hk : decide (kind = .sameFormattingContextBlock) = !(root || isFlowRoot style))
    (hm : (m = fc.collapsibleMarginsInChildren ∧ h = fc.blockSize) ∨ (kind = .establishesAnIndependentFormattingContext ∧
      m = fc.finishBlockFormattingContext.collapsibleMarginsInChildren ∧ h = fc.finishBlockFormattingContext.blockSize))
    (hc : fc.Known (Css.inner cb style) (openAbove (root || isFlowRoot style) cb style))
    (hf : Css.height cb style = .length 0 → fc.fragments ≠ []) :
    Fragment.Known root cb (.box (blockInfo cb style kind m h) fc.fragments) := by
  refine ⟨_, _, rfl, ?_⟩
  have hs : (decide (kind = .sameFormattingContextBlock) && Css.startCollapses cb style) = openAbove (root || isFlowRoot style) cb style := by
    rw [hk]; rfl
  have hcoll : ∀ e, (kind = .establishesAnIndependentFormattingContext → e = false) →
      collapseWithChildren (inFlowSizes cb style).margin (openAbove (root || isFlowRoot style) cb style) e m h =
      collapseWithChildren (inFlowSizes cb style).margin (openAbove (root || isFlowRoot style) cb style) e fc.collapsibleMarginsInChildren fc.blockSize := by
    intro e he
    rcases hm with ⟨rfl, rfl⟩ | ⟨k, rfl, rfl⟩
    · rfl
    · have : openAbove (root || isFlowRoot style) cb style = false := by
        rw [← hs, k]; rfl
      rw [this, he k, collapse_finished]
  have hmt := (inFlow_margin_block cb style).1
  have hmb := (inFlow_margin_block cb style).2
  have hpos : ∀ (H : Rat), (blockInfo cb style kind m h).contentRect.size.block = H →
      (blockInfo cb style kind m h).borderBlockSize =
        (Css.paddingTop cb style + Css.borderTop cb style) + (Css.paddingBottom cb style + Css.borderBottom cb style) + H := by
    intro H hH
    rw [BoxInfo.borderBlockSize, hH]
    simp only [blockInfo, inFlow_padding, inFlow_border, Sides.blockSum]
    ring
  have ho1 : openAbove (root || isFlowRoot style) cb style = true → Css.paddingTop cb style + Css.borderTop cb style = 0 := by
    intro k
    simp only [openAbove, Bool.and_eq_true, decide_eq_true_eq] at k
    exact k.2
  have ho2 : openBelow (root || isFlowRoot style) cb style = true → Css.paddingBottom cb style + Css.borderBottom cb style = 0 := by
    intro k
    simp only [openBelow, Bool.and_eq_true, decide_eq_true_eq] at k
    exact k.2
  have hseen := hc.seen
  rw [itemsAt_allNothing _ _ _ (Vec2.zero.add (blockInfo cb style kind m h).contentRect.startCorner)] at hseen
  rcases hh : Css.height cb style with H | _
  · have he : (decide (kind = .sameFormattingContextBlock) && Css.endCollapses cb style) = false := by
      simp [Css.endCollapses, hh]
    have hz : ¬(H = 0 ∧ (itemsAt (Vec2.zero.add (blockInfo cb style kind m h).contentRect.startCorner) fc.fragments).all
        (fun i => !i.isLine (Css.inner cb style) && !i.isBox)) := by
      rintro ⟨rfl, k⟩
      rw [hseen (hf hh)] at k
      cases k
    have hm' : (blockInfo cb style kind m h).blockMarginsCollapsedWithChildren =
        (collapseWithChildren (inFlowSizes cb style).margin (openAbove (root || isFlowRoot style) cb style) false fc.collapsibleMarginsInChildren fc.blockSize).1 := by
      rw [← hcoll false (fun _ => rfl), ← hs, ← he]
      rfl
    rw [Fragment.item, hm', hpos H (by simp only [blockInfo, hh]; rfl)]
    rw [show (blockInfo cb style kind m h).style = style from rfl, steps_fixed hh hz, ← hmt, ← hmb]
    rw [itemsAt_steps _ _ _ Vec2.zero, ← hc.lead]
    exact collapse_fixed hc.facts ho1 ho2
  · have he : (decide (kind = .sameFormattingContextBlock) && Css.endCollapses cb style) = openBelow (root || isFlowRoot style) cb style := by
      rw [hk]
      simp [Css.endCollapses, hh, openBelow]
    have hind : kind = .establishesAnIndependentFormattingContext → openBelow (root || isFlowRoot style) cb style = false := by
      rintro rfl
      rw [← he]
      rfl
    have hcw := hcoll _ hind
    have hm' : (blockInfo cb style kind m h).blockMarginsCollapsedWithChildren =
        (collapseWithChildren (inFlowSizes cb style).margin (openAbove (root || isFlowRoot style) cb style)
          (openBelow (root || isFlowRoot style) cb style) fc.collapsibleMarginsInChildren fc.blockSize).1 := by
      rw [← hcw, ← hs, ← he]
      rfl
    have hb' : (blockInfo cb style kind m h).contentRect.size.block =
        (collapseWithChildren (inFlowSizes cb style).margin (openAbove (root || isFlowRoot style) cb style)
          (openBelow (root || isFlowRoot style) cb style) fc.collapsibleMarginsInChildren fc.blockSize).2 := by
      rw [← hcw, ← hs, ← he]
      simp only [blockInfo, hh]
      rfl
    have hcs : contentSteps (Css.inner cb style) ((blockInfo cb style kind m h).contentAt Vec2.zero).height
        (itemsAt (Vec2.zero.add (blockInfo cb style kind m h).contentRect.startCorner) fc.fragments) =
        contentSteps (Css.inner cb style) fc.blockSize (itemsAt Vec2.zero fc.fragments) := by
      unfold contentSteps
      rw [itemsAt_anyLine _ _ _ Vec2.zero, itemsAt_steps _ _ _ Vec2.zero]
      split
      · rename_i k
        rw [show ((blockInfo cb style kind m h).contentAt Vec2.zero).height = (blockInfo cb style kind m h).contentRect.size.block from rfl, hb',
          (hc.lines k).2]
        cases openBelow (root || isFlowRoot style) cb style <;>
          simp [collapseWithChildren, CollapsedBlockMargins.zero, solve_zero]
      · rfl
    rw [Fragment.item, hm', hpos _ hb']
    rw [show (blockInfo cb style kind m h).style = style from rfl, steps_auto hh, hcs, ← hmt, ← hmb]
    exact collapse_auto hc.facts ho1 ho2

end Verif.Layout
