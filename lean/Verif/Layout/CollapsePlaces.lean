/- Which margins collapse: the places of blocks. Lemmas for C106. -/
import Verif.Layout.CollapseFacts
namespace Verif.Layout
open Verif.Style Verif.Text
variable {Err : Type} {F : FontApi Rat Err}

/-- What placement makes of blocks, after these steps. -/
inductive Stacked (root : Bool) (cb : ContainingBlock) (coll : Bool) : Norm → List Fragment → List Fragment → Prop
  | nil {n} : Stacked root cb coll n [] []
  | cons {n info children d fs gs} :
      BoxFacts (norm (((Fragment.box info children).item Vec2.zero).steps root cb)) info.blockMarginsCollapsedWithChildren info.borderBlockSize →
      (∀ l c t, norm (((Fragment.box info children).item Vec2.zero).steps root cb) = .solid l c t → d = placeDown coll n l) →
      Stacked root cb coll (n.then (norm (((Fragment.box info children).item Vec2.zero).steps root cb))) fs gs →
      Stacked root cb coll n (.box info children :: fs) (.box (info.moveBlock d) children :: gs)

theorem moved_steps (info : BoxInfo) (children : List Fragment) (d : Rat) (root : Bool) (cb : ContainingBlock) :
    ((Fragment.box (info.moveBlock d) children).item Vec2.zero).steps root cb = ((Fragment.box info children).item Vec2.zero).steps root cb := by
  rw [item_moveBlock]
  exact Fragment.item_steps _ _ _ _ _

theorem placeFragment_anonymous {s s' : PlacementState} {r : Rect Rat} {c : List Fragment} {m : Mode} {f : Fragment}
    (h : placeFragment s (.anonymous r c m) = some (f, s')) : ¬(f.item Vec2.zero).Written := by
  simp only [placeFragment] at h
  split at h
  · rename_i k
    simp only [Option.some.injEq, Prod.mk.injEq] at h
    obtain ⟨rfl, -⟩ := h
    obtain ⟨k, -⟩ := k
    rw [List.isEmpty_iff] at k
    subst k
    simp [Fragment.item, PageItem.Written, itemsAt, itemTexts]
  · cases h

theorem placeAll_stacked {root : Bool} {cb : ContainingBlock} {coll : Bool} : ∀ (fs gs : List Fragment) (s s' : PlacementState) (n : Norm),
    (∀ f ∈ fs, (f.item Vec2.zero).Written → (f.item Vec2.zero).NotFlat cb → f.Known root cb) →
    itemsWritten (itemsAt Vec2.zero gs) → itemsNotFlat cb (itemsAt Vec2.zero gs) →
    StateFacts coll n s.nextInFlowMarginCollapsesWithParentStartMargin s.startMargin s.currentMargin s.currentBlockDirectionPosition →
    placeAll s fs = some (gs, s') →
    Stacked root cb coll n fs gs ∧ (root = false →
    StateFacts coll (n.then (norm (itemsSteps cb (itemsAt Vec2.zero gs)))) s'.nextInFlowMarginCollapsesWithParentStartMargin s'.startMargin
      s'.currentMargin s'.currentBlockDirectionPosition) := by
  intro fs
  induction fs with
  | nil =>
    intro gs s s' n _ _ _ hs h
    simp only [placeAll, Option.some.injEq, Prod.mk.injEq] at h
    obtain ⟨rfl, rfl⟩ := h
    refine ⟨.nil, fun _ => ?_⟩
    rw [itemsAt, itemsSteps, norm, Norm.then_nil]
    exact hs
  | cons f fs ih =>
    intro gs s s' n hk hw hn hs h
    simp only [placeAll] at h
    rcases h1 : placeFragment s f with _ | ⟨g, s1⟩
    · simp [h1] at h
    · rcases h2 : placeAll s1 fs with _ | ⟨gs1, s2⟩
      · simp [h1, h2] at h
      · simp only [h1, h2, Option.some.injEq, Prod.mk.injEq] at h
        obtain ⟨rfl, rfl⟩ := h
        rw [itemsAt] at hw hn
        cases f with
        | text => simp [placeFragment] at h1
        | anonymous r c m => exact absurd hw.1 (placeFragment_anonymous h1)
        | box info children =>
          obtain ⟨d0, rfl⟩ : ∃ d, g = .box (info.moveBlock d) children := by
            have hz : info = info.moveBlock 0 := by simp [BoxInfo.moveBlock]
            simp only [placeFragment] at h1
            split at h1
            · split at h1
              · split at h1
                · simp only [Option.some.injEq, Prod.mk.injEq] at h1
                  exact ⟨0, by rw [← hz, h1.1]⟩
                · simp only [Option.some.injEq, Prod.mk.injEq] at h1
                  exact ⟨_, h1.1.symm⟩
              · cases h1
            · split at h1 <;>
              · simp only [Option.some.injEq, Prod.mk.injEq] at h1
                exact ⟨_, h1.1.symm⟩
          have hw1 := hw.1
          have hn1 := hn.1
          rw [item_moveBlock] at hw1 hn1
          obtain ⟨info', children', he, hb⟩ := hk _ List.mem_cons_self (Fragment.item_written _ _ _ hw1) (Fragment.item_notFlat _ _ _ _ hn1)
          cases he
          obtain ⟨h3, d, h4, h5⟩ := place_facts hs hb h1
          obtain ⟨h6, h7⟩ := ih gs1 s1 s2 _ (fun f hf => hk f (List.mem_cons_of_mem _ hf)) hw.2 hn.2 h3 h2
          refine ⟨h4 ▸ .cons hb h5 h6, fun hr => ?_⟩
          subst hr
          rw [itemsAt, itemsSteps, norm_append, moved_steps, ← Norm.then_assoc]
          exact h7 rfl

theorem Stacked.boxes {root : Bool} {cb : ContainingBlock} {coll : Bool} {n : Norm} {fs gs : List Fragment} (h : Stacked root cb coll n fs gs) :
    ∀ g ∈ gs, ∃ info children, g = .box info children := by
  induction h with
  | nil => simp
  | cons _ _ _ ih =>
    intro g hg
    rcases List.mem_cons.1 hg with rfl | hg
    · exact ⟨_, _, rfl⟩
    · exact ih g hg

theorem mem_itemsAt {fs : List Fragment} {o : Vec2 Rat} {i : PageItem} (h : i ∈ itemsAt o fs) : ∃ f ∈ fs, i = f.item o := by
  induction fs with
  | nil => simp [itemsAt] at h
  | cons f fs ih =>
    rw [itemsAt, List.mem_cons] at h
    rcases h with rfl | h
    · exact ⟨f, by simp, rfl⟩
    · obtain ⟨g, hg, rfl⟩ := ih h
      exact ⟨g, by simp [hg], rfl⟩

theorem boxes_noLine {cb : ContainingBlock} {gs : List Fragment} {o : Vec2 Rat} (h : ∀ g ∈ gs, ∃ info children, g = Fragment.box info children) :
    (itemsAt o gs).any (PageItem.isLine cb) = false := by
  rw [List.any_eq_false]
  intro i hi
  obtain ⟨f, hf, rfl⟩ := mem_itemsAt hi
  obtain ⟨info, children, rfl⟩ := h f hf
  simp [Fragment.item, PageItem.isLine]

theorem boxes_seen {cb : ContainingBlock} {gs : List Fragment} {o : Vec2 Rat} (h : ∀ g ∈ gs, ∃ info children, g = Fragment.box info children)
    (hne : gs ≠ []) : (itemsAt o gs).all (fun i => !i.isLine cb && !i.isBox) = false := by
  cases gs with
  | nil => exact absurd rfl hne
  | cons g gs =>
    obtain ⟨info, children, rfl⟩ := h g (by simp)
    simp [itemsAt, Fragment.item, PageItem.isBox]

mutual
theorem PageItem.counts_of_text (cb : ContainingBlock) : ∀ i : PageItem, i.texts ≠ [] → i.counts cb = true
  | .text _, _ => rfl
  | .box style _ _ items, h => by
    rw [PageItem.counts, itemsCount_of_text cb items h, Bool.or_true]
  | .line items, h => by
    rw [PageItem.counts, itemsCount_of_text cb items h]
theorem itemsCount_of_text (cb : ContainingBlock) : ∀ is : List PageItem, itemTexts is ≠ [] → itemsCount cb is = true
  | [], h => absurd rfl h
  | i :: is, h => by
    rw [itemsCount]
    by_cases hi : i.texts = []
    · rw [itemTexts, hi, List.nil_append] at h
      rw [itemsCount_of_text cb is h, Bool.or_true]
    · rw [PageItem.counts_of_text cb i hi, Bool.true_or]
end

theorem anonymous_steps {cb : ContainingBlock} {fs : List Fragment} (o : Vec2 Rat) (h : AllAnonymous fs) : itemsSteps cb (itemsAt o fs) = [] := by
  induction fs with
  | nil => rfl
  | cons f fs ih =>
    obtain ⟨r, c, m, rfl⟩ := h f (by simp)
    rw [itemsAt, itemsSteps, ih (fun g hg => h g (by simp [hg]))]
    rfl

theorem anonymous_line {cb : ContainingBlock} {fs : List Fragment} {o : Vec2 Rat} (h : AllAnonymous fs) (hne : fs ≠ [])
    (hw : itemsWritten (itemsAt o fs)) : (itemsAt o fs).any (PageItem.isLine cb) = true := by
  cases fs with
  | nil => exact absurd rfl hne
  | cons f fs =>
    obtain ⟨r, c, m, rfl⟩ := h f (by simp)
    rw [itemsAt, List.any_cons]
    rw [itemsAt] at hw
    have := hw.1
    rw [Fragment.item, PageItem.Written] at this
    rw [Fragment.item, PageItem.isLine, itemsCount_of_text cb _ this, Bool.true_or]

theorem LaysL.mem {cb : ContainingBlock} {bs : List BlockLevelBox} {fs : List Fragment} (h : LaysL F cb bs fs) (f : Fragment) (hf : f ∈ fs) :
    ∃ b ∈ bs, LaysB F cb b f := by
  induction bs generalizing fs with
  | nil => cases h; simp at hf
  | cons b bs ih =>
    cases h with
    | cons h1 h2 =>
      rcases List.mem_cons.1 hf with rfl | hf
      · exact ⟨b, by simp, h1⟩
      · obtain ⟨b', hb', h3⟩ := ih h2 hf
        exact ⟨b', by simp [hb'], h3⟩

mutual
theorem LaysC.known : ∀ {cb coll c fc}, LaysC F cb coll c fc → c.Kinded → itemsWritten (itemsAt Vec2.zero fc.fragments) →
    itemsNotFlat cb (itemsAt Vec2.zero fc.fragments) → fc.Known cb coll
  | cb, coll, _, fc, .inlines h, _, hw, _ => by
    obtain ⟨h1, h2⟩ := layoutInline_lines h
    have hm := layoutInline_margins F _ _ _ _ _ _ _ h
    have hl := anonymous_line (cb := cb) h2 h1 hw
    refine ⟨?_, fun _ => ⟨anonymous_steps _ h2, hm⟩, fun _ => ?_⟩
    · unfold contentSteps
      rw [if_pos hl, hm]
      refine ⟨rfl, ?_, ?_, CollapsedMargin.of_zero⟩
      · simp [collapsedSize_nil]
      · rw [ite_self]
        exact CollapsedMargin.of_zero
    · rw [List.any_eq_true] at hl
      obtain ⟨i, hi, hl⟩ := hl
      rw [List.all_eq_false]
      exact ⟨i, hi, by simp [hl]⟩
  | cb, coll, _, _, .boxes (gs := gs) (s := s) h hp, hk, hw, hn => by
    obtain ⟨h1, h2⟩ := placeAll_stacked (root := false) (cb := cb) (coll := coll) _ _ _ _ (.run []) (LaysL.known h hk) hw hn
      ⟨rfl, rfl, by cases coll <;> exact CollapsedMargin.of_zero, by cases coll <;> exact CollapsedMargin.of_zero⟩ hp
    have h2 := h2 rfl
    rw [Norm.nil_then] at h2
    have hnl := boxes_noLine (cb := cb) (o := Vec2.zero) h1.boxes
    refine ⟨?_, fun k => ?_, fun k => boxes_seen h1.boxes k⟩
    · unfold contentSteps
      simp only [hnl, Bool.false_eq_true, if_false]
      exact h2
    · simp [hnl] at k
theorem LaysB.known : ∀ {cb b f}, LaysB F cb b f → ∀ (root : Bool), b.Kinded root → (f.item Vec2.zero).Written → (f.item Vec2.zero).NotFlat cb → f.Known root cb
  | cb, _, _, .same (style := style) (c := c) (fc := fc) h, root, hk, hw, hn => by
    obtain ⟨rfl, hf, hk⟩ := hk
    rw [Fragment.item, PageItem.Written] at hw
    rw [Fragment.item, PageItem.NotFlat] at hn
    have hc := LaysC.known h hk (itemsAt_written _ _ _ hw) (itemsAt_notFlat _ _ _ _ hn.2)
    refine known_box (by simp [hf]) (.inl ⟨rfl, rfl⟩) ?_ (fun k => itemsAt_ne_nil (hn.1 k))
    rw [hf]
    exact hc
  | cb, _, _, .independent (style := style) (c := c) (fc := fc) h, root, hk, hw, hn => by
    obtain ⟨hf, hk⟩ := hk
    rw [Fragment.item, PageItem.Written] at hw
    rw [Fragment.item, PageItem.NotFlat] at hn
    have hc := LaysC.known h hk (itemsAt_written _ _ _ hw) (itemsAt_notFlat _ _ _ _ hn.2)
    refine known_box (by simp [hf]) (.inr ⟨rfl, rfl, rfl⟩) ?_ (fun k => itemsAt_ne_nil (hn.1 k))
    rw [hf]
    exact hc
  | _, _, _, .float, _, _, hw, _ => by
    simp [Fragment.noOp, Fragment.item, PageItem.Written, itemsAt, itemTexts] at hw
theorem LaysL.known : ∀ {cb bs fs}, LaysL F cb bs fs → blocksKinded bs → ∀ f ∈ fs, (f.item Vec2.zero).Written → (f.item Vec2.zero).NotFlat cb →
    f.Known false cb
  | _, _, _, .nil, _ => by simp
  | _, _, _, .cons h1 h2, hk => by
    intro f hf hw hn
    rcases List.mem_cons.1 hf with rfl | hf
    · exact LaysB.known h1 false hk.1 hw hn
    · exact LaysL.known h2 hk.2 f hf hw hn
end

/-! ### Places -/

theorem Norm.lead_run (a : List Rat) (n : Norm) : ((Norm.run a).then n).lead = a ++ n.lead := by cases n <;> rfl

theorem Norm.lead_solid (l : List Rat) (c : Rat) (t : List Rat) (n : Norm) : ((Norm.solid l c t).then n).lead = l := by cases n <;> rfl

theorem Norm.then_solid_ne (p r : Norm) (l : List Rat) (c : Rat) (t ms : List Rat) : p.then ((Norm.solid l c t).then r) ≠ .run ms := by
  cases p <;> cases r <;> simp [Norm.then]

theorem Norm.exists_solid {n : Norm} (h : ∀ ms, n ≠ .run ms) : ∃ c t, n = .solid n.lead c t := by
  cases n with
  | run ms => exact absurd rfl (h ms)
  | solid l c t => exact ⟨c, t, rfl⟩

theorem settle_auto (N P R W : Norm) (s : Bool) (pa mt : Rat) (l : List Rat) (c : Rat) (t : List Rat) (hs : s = true → pa = 0) :
    (N.then (.run ((Norm.run [mt]).then ((Norm.wall s pa).then ((P.then ((Norm.solid l c t).then R)).then W))).lead)).total + pa + placeDown s P l =
      (((N.then ((Norm.run [mt]).then (Norm.wall s pa))).then P).then (.run l)).total := by
  cases s with
  | true =>
    rw [hs rfl]
    cases P with
    | run ms =>
      cases N <;> simp only [Norm.wall, if_true, Norm.then_assoc, Norm.lead_run, Norm.lead_solid] <;> simp only [placeDown, if_true, if_false, Bool.false_eq_true, Norm.then, Norm.total, List.append_nil,
        List.nil_append, List.append_assoc] <;> ring
    | solid l' c' t' =>
      cases N <;> simp only [Norm.wall, if_true, Norm.then_assoc, Norm.lead_run, Norm.lead_solid] <;> simp only [placeDown, if_true, if_false, Bool.false_eq_true, Norm.then, Norm.total, List.append_nil,
        List.nil_append, List.append_assoc] <;> ring
  | false =>
    cases P with
    | run ms =>
      cases N <;> simp only [Norm.wall, if_false, Bool.false_eq_true, Norm.then_assoc, Norm.lead_run, Norm.lead_solid] <;> simp only [placeDown, if_true, if_false, Bool.false_eq_true, Norm.then, Norm.total, List.append_nil,
        List.nil_append, List.append_assoc] <;> ring
    | solid l' c' t' =>
      cases N <;> simp only [Norm.wall, if_false, Bool.false_eq_true, Norm.then_assoc, Norm.lead_run, Norm.lead_solid] <;> simp only [placeDown, if_true, if_false, Bool.false_eq_true, Norm.then, Norm.total, List.append_nil,
        List.nil_append, List.append_assoc] <;> ring

theorem settle_fixed (P R : Norm) (s : Bool) (l : List Rat) (c : Rat) (t : List Rat) :
    placeDown s P l + (if s then collapsedSize (P.then ((Norm.solid l c t).then R)).lead else 0) = (P.then (.run l)).total := by
  cases s <;> cases P <;> simp only [if_true, if_false, Bool.false_eq_true, Norm.lead_run, Norm.lead_solid] <;> simp only [placeDown, if_true, if_false, Bool.false_eq_true, Norm.then, Norm.total] <;> ring

theorem total_solid (N : Norm) (l : List Rat) (c : Rat) : (N.then (.solid l c [])).total = (N.then (.run l)).total + c := by
  cases N <;> simp only [Norm.then, Norm.total, collapsedSize_nil] <;> ring

theorem settle_box {cb : ContainingBlock} {style : ComputedValues} {root : Bool} {kind : BlockLevelKind} {fc : FlowChildren}
    {m : CollapsedBlockMargins} {h : Rat} {o : Vec2 Rat} {origin : Rat} {before : List DownStep} {coll : Bool}
    (hcoll : coll = openAbove (root || isFlowRoot style) cb style)
    (hc : fc.Known (Css.inner cb style) coll)
    (hf : Css.height cb style = .length 0 → fc.fragments ≠ [])
    (hb : Fragment.Known root cb (.box (blockInfo cb style kind m h) fc.fragments))
    (hin : ∀ (origin' : Rat) (before' : List DownStep) (o' : Vec2 Rat),
      (∀ P l c t R, norm (itemsSteps (Css.inner cb style) (itemsAt Vec2.zero fc.fragments)) = Norm.then P ((Norm.solid l c t).then R) →
        o'.block + placeDown coll P l = origin' + (((norm before').then P).then (.run l)).total) →
      itemsSettled (Css.inner cb style) origin' before' (itemsAt o' fc.fragments))
    (hpos : (∀ ms, norm (((Fragment.box (blockInfo cb style kind m h) fc.fragments).item Vec2.zero).steps root cb) ≠ .run ms) →
      o.block = origin + ((norm before).then
        (.run (norm (((Fragment.box (blockInfo cb style kind m h) fc.fragments).item Vec2.zero).steps root cb)).lead)).total) :
    ((Fragment.box (blockInfo cb style kind m h) fc.fragments).item o).Settled root cb origin before := by
  have hsteps := Fragment.item_steps (.box (blockInfo cb style kind m h) fc.fragments) root cb o Vec2.zero
  have hs : coll = true → Css.paddingTop cb style + Css.borderTop cb style = 0 := by
    rw [hcoll]
    intro k
    simp only [openAbove, Bool.and_eq_true, decide_eq_true_eq] at k
    exact k.2
  have hbt : ((blockInfo cb style kind m h).borderAt o).top = o.block + Css.relativeShift cb style := by
    simp only [BoxInfo.borderAt, blockInfo, inFlow_padding, inFlow_border]
    ring
  have hct : ((blockInfo cb style kind m h).contentAt o).top =
      o.block + Css.relativeShift cb style + (Css.paddingTop cb style + Css.borderTop cb style) := by
    simp only [BoxInfo.contentAt, blockInfo]
    ring
  have hseen := hc.seen
  rw [itemsAt_allNothing _ _ _ (o.add (blockInfo cb style kind m h).contentRect.startCorner)] at hseen
  obtain ⟨_, _, he, hb⟩ := hb
  cases he
  rw [Fragment.item] at hsteps ⊢
  rw [show (blockInfo cb style kind m h).style = style from rfl] at hsteps ⊢
  rw [PageItem.Settled]
  refine ⟨by rw [hct, hbt], fun hall => ?_, ?_⟩
  · rw [hsteps] at hall ⊢
    have hne : ∀ ms, norm (((Fragment.box (blockInfo cb style kind m h) fc.fragments).item Vec2.zero).steps root cb) ≠ .run ms := by
      intro ms k
      rw [(norm_margins _).2 ⟨ms, k⟩] at hall
      cases hall
    obtain ⟨c, t, hst⟩ := Norm.exists_solid hne
    have hp := hpos hne
    rw [descend_total, descend_total, norm_append, norm_append, norm_leading, norm_withoutTrailing _ hst, total_solid, hbt, hp]
    rw [hst] at hb
    refine ⟨by ring, ?_⟩
    have hh : ((blockInfo cb style kind m h).borderAt o).height = c := by
      rw [← hb.2.2.2]
      simp only [BoxInfo.borderAt, BoxInfo.borderBlockSize, Sides.blockSum]
      ring
    rw [hh]
    ring
  · have ho' : (o.add (blockInfo cb style kind m h).contentRect.startCorner).block =
        o.block + Css.relativeShift cb style + (Css.paddingTop cb style + Css.borderTop cb style) := hct
    rcases hh : Css.height cb style with H | _
    · simp only
      apply hin
      intro P l c t R k
      rw [ho', hct, isEmpty_above, ← hcoll, descend_total, norm_leading, itemsAt_steps _ _ _ Vec2.zero, k, norm, Norm.nil_then, ← settle_fixed P R coll l c t]
      simp only [Norm.total]
      ring
    · simp only
      apply hin
      intro P l c t R k
      have hnl : contentSteps (Css.inner cb style) ((blockInfo cb style kind m h).contentAt Vec2.zero).height
          (itemsAt (Vec2.zero.add (blockInfo cb style kind m h).contentRect.startCorner) fc.fragments) =
          itemsSteps (Css.inner cb style) (itemsAt Vec2.zero fc.fragments) := by
        unfold contentSteps
        rw [itemsAt_anyLine _ _ _ Vec2.zero, itemsAt_steps _ _ _ Vec2.zero]
        split
        · rename_i k'
          rw [(hc.lines k').1] at k
          exact absurd k.symm (Norm.then_solid_ne P R l c t [])
        · rfl
      have hn : norm (((Fragment.box (blockInfo cb style kind m h) fc.fragments).item Vec2.zero).steps root cb) =
          (Norm.run [Css.marginTop cb style]).then ((Norm.wall coll (Css.paddingTop cb style + Css.borderTop cb style)).then
            ((P.then ((Norm.solid l c t).then R)).then
              ((Norm.wall (openBelow (root || isFlowRoot style) cb style) (Css.paddingBottom cb style + Css.borderBottom cb style)).then
                (.run [Css.marginBottom cb style])))) := by
        rw [Fragment.item, show (blockInfo cb style kind m h).style = style from rfl, steps_auto hh, hnl, k, hcoll]
      have hp := hpos (by
        intro ms k'
        rw [hn, Norm.then_assoc P, Norm.then_assoc (Norm.solid l c t), ← Norm.then_assoc _ P, ← Norm.then_assoc (Norm.run _)] at k'
        exact Norm.then_solid_ne _ _ _ _ _ _ k')
      rw [hn] at hp
      have := settle_auto (norm before) P R ((Norm.wall (openBelow (root || isFlowRoot style) cb style) (Css.paddingBottom cb style + Css.borderBottom cb style)).then
                (.run [Css.marginBottom cb style])) coll (Css.paddingTop cb style + Css.borderTop cb style) (Css.marginTop cb style) l c t hs
      rw [ho', norm_append, norm_margin_cons, norm_above, ← hcoll, ← this, hp]
      ring

theorem anonymous_settled {cb : ContainingBlock} {fs : List Fragment} {o : Vec2 Rat} {origin : Rat} (h : AllAnonymous fs) :
    ∀ before, itemsSettled cb origin before (itemsAt o fs) := by
  induction fs with
  | nil => intro; trivial
  | cons f fs ih =>
    intro before
    obtain ⟨r, c, m, rfl⟩ := h f (by simp)
    exact ⟨trivial, ih (fun g hg => h g (by simp [hg])) _⟩

mutual
theorem LaysC.settled : ∀ {cb coll c fc}, LaysC F cb coll c fc → c.Kinded → itemsWritten (itemsAt Vec2.zero fc.fragments) →
    itemsNotFlat cb (itemsAt Vec2.zero fc.fragments) → ∀ (origin : Rat) (before : List DownStep) (o : Vec2 Rat),
      (∀ P l c t R, norm (itemsSteps cb (itemsAt Vec2.zero fc.fragments)) = Norm.then P ((Norm.solid l c t).then R) →
        o.block + placeDown coll P l = origin + (((norm before).then P).then (.run l)).total) →
      itemsSettled cb origin before (itemsAt o fc.fragments)
  | cb, coll, _, fc, .inlines h, _, _, _, origin, before, o, _ => anonymous_settled (layoutInline_lines h).2 before
  | cb, coll, _, _, .boxes (gs := gs) (s := s) h hp, hk, hw, hn, origin, before, o, hyp => by
    obtain ⟨h1, -⟩ := placeAll_stacked (root := false) (cb := cb) (coll := coll) _ _ _ _ (.run []) (LaysL.known h hk) hw hn
      ⟨rfl, rfl, by cases coll <;> exact CollapsedMargin.of_zero, by cases coll <;> exact CollapsedMargin.of_zero⟩ hp
    refine LaysL.settled h hk hw hn h1 origin before o (fun P l c t R k => ?_)
    rw [Norm.nil_then]
    exact hyp P l c t R k
theorem LaysB.settled : ∀ {cb b f}, LaysB F cb b f → ∀ (root : Bool), b.Kinded root → (f.item Vec2.zero).Written → (f.item Vec2.zero).NotFlat cb →
    ∀ (origin : Rat) (before : List DownStep) (o : Vec2 Rat),
      ((∀ ms, norm ((f.item Vec2.zero).steps root cb) ≠ .run ms) →
        o.block = origin + ((norm before).then (.run (norm ((f.item Vec2.zero).steps root cb)).lead)).total) →
      (f.item o).Settled root cb origin before
  | cb, _, _, .same (style := style) (c := c) (fc := fc) h, root, hk, hw, hn, origin, before, o, hpos => by
    have hb := LaysB.known (.same h) root hk hw hn
    obtain ⟨rfl, hf, hk⟩ := hk
    rw [Fragment.item, PageItem.Written] at hw
    rw [Fragment.item, PageItem.NotFlat] at hn
    have hw' := itemsAt_written _ _ Vec2.zero hw
    have hn' := itemsAt_notFlat _ _ _ Vec2.zero hn.2
    have hc := LaysC.known h hk hw' hn'
    refine settle_box (coll := Css.startCollapses cb style) (by rw [hf]; rfl) hc (fun k => itemsAt_ne_nil (hn.1 k)) hb ?_ hpos
    intro origin' before' o' hyp
    exact LaysC.settled h hk hw' hn' origin' before' o' hyp
  | cb, _, _, .independent (style := style) (c := c) (fc := fc) h, root, hk, hw, hn, origin, before, o, hpos => by
    have hb := LaysB.known (.independent h) root hk hw hn
    obtain ⟨hf, hk⟩ := hk
    rw [Fragment.item, PageItem.Written] at hw
    rw [Fragment.item, PageItem.NotFlat] at hn
    have hw' := itemsAt_written _ _ Vec2.zero hw
    have hn' := itemsAt_notFlat _ _ _ Vec2.zero hn.2
    have hc := LaysC.known h hk hw' hn'
    refine settle_box (coll := false) (by rw [hf]; rfl) hc (fun k => itemsAt_ne_nil (hn.1 k)) hb ?_ hpos
    intro origin' before' o' hyp
    exact LaysC.settled h hk hw' hn' origin' before' o' hyp
  | _, _, _, .float, _, _, hw, _, _, _, _, _ => by
    simp [Fragment.noOp, Fragment.item, PageItem.Written, itemsAt, itemTexts] at hw
theorem LaysL.settled : ∀ {cb bs fs}, LaysL F cb bs fs → blocksKinded bs → ∀ {gs coll N}, itemsWritten (itemsAt Vec2.zero gs) →
    itemsNotFlat cb (itemsAt Vec2.zero gs) → Stacked false cb coll N fs gs → ∀ (origin : Rat) (before : List DownStep) (o : Vec2 Rat),
      (∀ P l c t R, norm (itemsSteps cb (itemsAt Vec2.zero gs)) = Norm.then P ((Norm.solid l c t).then R) →
        o.block + placeDown coll (N.then P) l = origin + (((norm before).then P).then (.run l)).total) →
      itemsSettled cb origin before (itemsAt o gs)
  | _, _, _, .nil, _, _, _, _, _, _, hs, _, _, _, _ => by cases hs; trivial
  | cb, _, _, .cons h1 h2, hk, _, coll, N, hw, hn, hs, origin, before, o, hyp => by
    cases hs with
    | @cons _ info children d fs gs hb hd hrest =>
      rw [itemsAt] at hw hn
      have hw1 := hw.1
      have hn1 := hn.1
      rw [item_moveBlock] at hw1 hn1
      have hw1 := Fragment.item_written _ _ Vec2.zero hw1
      have hn1 := Fragment.item_notFlat _ _ _ Vec2.zero hn1
      rw [itemsAt, itemsSteps, norm_append, moved_steps] at hyp
      rw [itemsAt, itemsSettled]
      constructor
      · rw [item_moveBlock]
        refine LaysB.settled h1 false hk.1 hw1 hn1 origin before _ (fun hne => ?_)
        obtain ⟨c, t, hst⟩ := Norm.exists_solid hne
        have := hyp (.run []) _ c t (norm (itemsSteps cb (itemsAt Vec2.zero gs))) (by rw [← hst, Norm.nil_then])
        rw [Norm.then_nil, Norm.then_nil, ← hd _ _ _ hst] at this
        exact this
      · have hst := moved_steps info children d false cb
        rw [Fragment.item_steps _ _ _ _ o] at hst
        rw [hst]
        refine LaysL.settled h2 hk.2 hw.2 hn.2 hrest origin _ o (fun P l c t R k => ?_)
        have := hyp ((norm (((Fragment.box info children).item Vec2.zero).steps false cb)).then P) l c t R (by rw [k, Norm.then_assoc])
        rw [norm_append, Norm.then_assoc N, Norm.then_assoc (norm before)]
        exact this
end

end Verif.Layout
