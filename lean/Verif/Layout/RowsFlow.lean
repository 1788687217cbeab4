/- C125: blocks, and documents. -/
import Verif.Layout.RowsInline
namespace Verif.Layout.Machine
open Verif.Style Verif.Text Verif.Float

attribute [local instance] singleNumbers exactNumbers

section
variable {P : Single → Rat → Prop}

theorem place_box {R : Type} [Numbers R] {s : PlacementState R} {b : BoxInfo R} {c : List (Fragment R)} {r}
    (h : placeFragment s (.box b c) = some r) : r.1 = .box b c ∨ ∃ d, r.1 = .box (b.moveBlock d) c := by
  simp only [placeFragment] at h
  split at h
  · split at h
    · split at h
      · cases h; exact .inl rfl
      · cases h; exact .inr ⟨_, rfl⟩
    · cases h
  · split at h
    · cases h; exact .inr ⟨_, rfl⟩
    · cases h; exact .inr ⟨_, rfl⟩

/-- Fragments are only placed in the direction of blocks. -/
theorem placeFragment_rows (s : PlacementState Single) (s' : PlacementState Rat) {f : Fragment Single} {f' : Fragment Rat} (h : RowsAgree P f f') :
    BothAgree (fun r r' => RowsAgree P r.1 r'.1) (placeFragment s f) (placeFragment s' f') := by
  intro r hr r' hr'
  cases h with
  | box h1 h2 h3 h4 h5 h6 hc =>
    rcases place_box hr with e | ⟨d, e⟩ <;> rcases place_box hr' with e' | ⟨d', e'⟩ <;> rw [e, e'] <;> exact .box h1 h2 h3 h4 h5 h6 hc
  | anonymous h1 h2 hc =>
    simp only [placeFragment] at hr hr'
    split at hr
    · split at hr'
      · cases hr; cases hr'
        exact .anonymous h1 h2 hc
      · cases hr'
    · cases hr
  | text => cases hr

theorem placeAll_rows : ∀ {fs : List (Fragment Single)} {fs' : List (Fragment Rat)} (s : PlacementState Single) (s' : PlacementState Rat),
    List.Forall₂ (RowsAgree P) fs fs' →
    BothAgree (fun r r' => List.Forall₂ (RowsAgree P) r.1 r'.1) (placeAll s fs) (placeAll s' fs') := by
  intro fs fs' s s' h
  induction h generalizing s s' with
  | nil =>
    intro r hr r' hr'
    cases hr; cases hr'
    exact .nil
  | @cons f f' fs fs' h1 h2 ih =>
    intro r hr r' hr'
    unfold placeAll at hr hr'
    rcases e1 : placeFragment s f with _ | ⟨g, t⟩
    · rw [e1] at hr; cases hr
    rcases e2 : placeFragment s' f' with _ | ⟨g', t'⟩
    · rw [e2] at hr'; cases hr'
    rw [e1] at hr
    rw [e2] at hr'
    simp only at hr hr'
    rcases e3 : placeAll t fs with _ | ⟨gs, u⟩
    · rw [e3] at hr; cases hr
    rcases e4 : placeAll t' fs' with _ | ⟨gs', u'⟩
    · rw [e4] at hr'; cases hr'
    rw [e3] at hr
    rw [e4] at hr'
    cases hr; cases hr'
    exact .cons (placeFragment_rows s s' h1 _ e1 _ e2) (ih t t' _ e3 _ e4)

variable {l : Nat → BlockLevelBox → Absolutes Single → Option (Fragment Single × Absolutes Single)}
  {l' : Nat → BlockLevelBox → Absolutes Rat → Option (Fragment Rat × Absolutes Rat)}

/-- What is known of the layout of one child. -/
abbrev ChildRows (P : Single → Rat → Prop) (l : Nat → BlockLevelBox → Absolutes Single → Option (Fragment Single × Absolutes Single))
    (l' : Nat → BlockLevelBox → Absolutes Rat → Option (Fragment Rat × Absolutes Rat)) (b : BlockLevelBox) : Prop :=
  ∀ rank, BothAgree (fun p p' => RowsAgree P p.1 p'.1 ∧ p.2 = [] ∧ p'.2 = []) (l rank b []) (l' rank b [])

theorem layoutInOrder_rows : ∀ {bs : List BlockLevelBox} {rank : Nat} (s : PlacementState Single) (s' : PlacementState Rat),
    (∀ b ∈ bs, ChildRows P l l' b) →
    BothAgree (fun p p' => List.Forall₂ (RowsAgree P) p.1 p'.1 ∧ p.2.1 = [] ∧ p'.2.1 = [])
      (layoutInOrder l rank bs [] s) (layoutInOrder l' rank bs [] s') := by
  intro bs
  induction bs with
  | nil =>
    intro rank s s' hf r hr r' hr'
    cases hr; cases hr'
    exact ⟨.nil, rfl, rfl⟩
  | cons b bs ih =>
    intro rank s s' hf r hr r' hr'
    unfold layoutInOrder at hr hr'
    rcases e1 : l rank b [] with _ | ⟨f, as⟩
    · rw [e1] at hr; cases hr
    rcases e2 : l' rank b [] with _ | ⟨f', as'⟩
    · rw [e2] at hr'; cases hr'
    obtain ⟨h1, h2, h3⟩ := hf b (List.mem_cons_self ..) rank _ e1 _ e2
    simp only at h1 h2 h3
    subst h2 h3
    rw [e1] at hr
    rw [e2] at hr'
    simp only at hr hr'
    rcases e3 : placeFragment s f with _ | ⟨g, t⟩
    · rw [e3] at hr; cases hr
    rcases e4 : placeFragment s' f' with _ | ⟨g', t'⟩
    · rw [e4] at hr'; cases hr'
    rw [e3] at hr
    rw [e4] at hr'
    simp only at hr hr'
    rcases e5 : layoutInOrder l (rank + 1) bs [] t with _ | ⟨gs, u⟩
    · rw [e5] at hr; cases hr
    rcases e6 : layoutInOrder l' (rank + 1) bs [] t' with _ | ⟨gs', u'⟩
    · rw [e6] at hr'; cases hr'
    rw [e5] at hr
    rw [e6] at hr'
    cases hr; cases hr'
    obtain ⟨h4, h5⟩ := ih t t' (fun c hc => hf c (List.mem_cons_of_mem _ hc)) _ e5 _ e6
    exact ⟨.cons (placeFragment_rows s s' h1 _ e3 _ e4) h4, h5⟩

theorem foldTask_rows : ∀ {bs : List BlockLevelBox} {rank : Nat}, (∀ b ∈ bs, ChildRows P l l' b) →
    BothAgree (fun p p' => List.Forall₂ (RowsAgree P) p.1 p'.1 ∧ p.2 = [] ∧ p'.2 = [])
      (mapfold.foldTask l rank bs []) (mapfold.foldTask l' rank bs []) := by
  intro bs
  induction bs with
  | nil =>
    intro rank hf r hr r' hr'
    cases hr; cases hr'
    exact ⟨.nil, rfl, rfl⟩
  | cons b bs ih =>
    intro rank hf r hr r' hr'
    unfold mapfold.foldTask at hr hr'
    rcases e1 : l rank b [] with _ | ⟨f, as⟩
    · rw [e1] at hr; cases hr
    rcases e2 : l' rank b [] with _ | ⟨f', as'⟩
    · rw [e2] at hr'; cases hr'
    obtain ⟨h1, h2, h3⟩ := hf b (List.mem_cons_self ..) rank _ e1 _ e2
    simp only at h1 h2 h3
    subst h2 h3
    rw [e1] at hr
    rw [e2] at hr'
    simp only at hr hr'
    rcases e5 : mapfold.foldTask l (rank + 1) bs [] with _ | ⟨gs, u⟩
    · rw [e5] at hr; cases hr
    rcases e6 : mapfold.foldTask l' (rank + 1) bs [] with _ | ⟨gs', u'⟩
    · rw [e6] at hr'; cases hr'
    rw [e5] at hr
    rw [e6] at hr'
    cases hr; cases hr'
    obtain ⟨h4, h5⟩ := ih (fun c hc => hf c (List.mem_cons_of_mem _ hc)) _ e5 _ e6
    exact ⟨.cons h1 h4, h5⟩

theorem mapfold_rows : ∀ {schedule : Schedule} {bs : List BlockLevelBox} {rank : Nat}, (∀ b ∈ bs, ChildRows P l l' b) →
    BothAgree (fun p p' => List.Forall₂ (RowsAgree P) p.1 p'.1 ∧ p.2 = [] ∧ p'.2 = [])
      (mapfold l schedule rank bs) (mapfold l' schedule rank bs) := by
  intro schedule
  induction schedule with
  | task => intro bs rank hf; exact foldTask_rows hf
  | join cut left right ihl ihr =>
    intro bs rank hf r hr r' hr'
    unfold mapfold at hr hr'
    rcases e1 : mapfold l left rank (bs.take cut) with _ | ⟨fs, as⟩
    · rw [e1] at hr; cases hr
    rcases e2 : mapfold l' left rank (bs.take cut) with _ | ⟨fs', as'⟩
    · rw [e2] at hr'; cases hr'
    rcases e3 : mapfold l right (rank + cut) (bs.drop cut) with _ | ⟨gs, bs1⟩
    · rw [e1, e3] at hr; cases hr
    rcases e4 : mapfold l' right (rank + cut) (bs.drop cut) with _ | ⟨gs', bs1'⟩
    · rw [e2, e4] at hr'; cases hr'
    rw [e1, e3] at hr
    rw [e2, e4] at hr'
    cases hr; cases hr'
    obtain ⟨h1, h2, h3⟩ := ihl (fun c hc => hf c (List.mem_of_mem_take hc)) _ e1 _ e2
    obtain ⟨h4, h5, h6⟩ := ihr (fun c hc => hf c (List.mem_of_mem_drop hc)) _ e3 _ e4
    simp only at h1 h2 h3 h4 h5 h6
    subst h2 h3 h5 h6
    exact ⟨List.rel_append h1 h4, rfl, rfl⟩

theorem layoutChildren_rows {schedule : Schedule} {bs : List BlockLevelBox} {rank : Nat} {floats coll coll' : Bool}
    (hf : ∀ b ∈ bs, ChildRows P l l' b) :
    BothAgree (fun p p' => List.Forall₂ (RowsAgree P) p.1.fragments p'.1.fragments ∧ p.2 = [] ∧ p'.2 = [])
      (layoutChildren schedule l bs rank [] floats coll) (layoutChildren schedule l' bs rank [] floats coll') := by
  intro r hr r' hr'
  unfold layoutChildren at hr hr'
  cases floats with
  | true =>
    simp only [if_true, List.length_nil] at hr hr'
    rcases e3 : layoutInOrder l 0 bs [] (.initial coll) with _ | ⟨gs, as, u⟩
    · rw [e3] at hr; cases hr
    rcases e4 : layoutInOrder l' 0 bs [] (.initial coll') with _ | ⟨gs', as', u'⟩
    · rw [e4] at hr'; cases hr'
    obtain ⟨h1, h2, h3⟩ := layoutInOrder_rows _ _ hf _ e3 _ e4
    simp only at h1 h2 h3
    subst h2 h3
    rw [e3] at hr
    rw [e4] at hr'
    cases hr; cases hr'
    exact ⟨h1, rfl, rfl⟩
  | false =>
    simp only [if_false, Bool.false_eq_true, List.length_nil, List.nil_append] at hr hr'
    rcases e3 : mapfold l schedule 0 bs with _ | ⟨gs, as⟩
    · rw [e3] at hr; cases hr
    rcases e4 : mapfold l' schedule 0 bs with _ | ⟨gs', as'⟩
    · rw [e4] at hr'; cases hr'
    obtain ⟨h1, h2, h3⟩ := mapfold_rows hf _ e3 _ e4
    simp only at h1 h2 h3
    subst h2 h3
    rw [e3] at hr
    rw [e4] at hr'
    simp only at hr hr'
    rcases e5 : placeAll (.initial coll) gs with _ | ⟨fs, u⟩
    · rw [e5] at hr; cases hr
    rcases e6 : placeAll (.initial coll') gs' with _ | ⟨fs', u'⟩
    · rw [e6] at hr'; cases hr'
    rw [e5] at hr
    rw [e6] at hr'
    cases hr; cases hr'
    exact ⟨placeAll_rows _ _ h1 _ e5 _ e6, rfl, rfl⟩

end

variable {k : Nat} {T : Rat} (S : Simulation (R := Single) (R' := Rat) T (WholeIs k))
include S

theorem layoutInFlow_rows {I own : Rat} {cb : ContainingBlock Single} {cb' : ContainingBlock Rat} {style : ComputedValues}
    (kind : BlockLevelKind) (hcb : WholeIs k false I cb.inlineSize cb'.inlineSize)
    (hs : StylesAgree (R := Single) (R' := Rat) (WholeIs k false own) (Numbers.lengths style) (Numbers.lengths style)) (h0 : 0 ≤ own)
    (hT : I + 16 * own ≤ T)
    {l : ContainingBlock Single → Absolutes Single → Bool → Option (FlowChildren Single × Absolutes Single)}
    {l' : ContainingBlock Rat → Absolutes Rat → Bool → Option (FlowChildren Rat × Absolutes Rat)}
    (hl : ∀ (c : ContainingBlock Single) (c' : ContainingBlock Rat) (coll coll' : Bool), c.mode = c'.mode →
      WholeIs k false (I + 6 * own) c.inlineSize c'.inlineSize →
      BothAgree (fun p p' => List.Forall₂ (RowsAgree (WholeIs k true T)) p.1.fragments p'.1.fragments ∧ p.2 = [] ∧ p'.2 = [])
        (l c [] coll) (l' c' [] coll'))
    (a : DefiniteContainingBlock Single → Nat → AbsolutelyPositionedFragment Single → Option (Fragment Single))
    (a' : DefiniteContainingBlock Rat → Nat → AbsolutelyPositionedFragment Rat → Option (Fragment Rat)) :
    BothAgree (fun p p' => RowsAgree (WholeIs k true T) p.1 p'.1 ∧ p.2 = [] ∧ p'.2 = [])
      (layoutInFlow cb [] style kind l a) (layoutInFlow cb' [] style kind l' a') := by
  have nI := S.nonneg hcb
  obtain ⟨z1, z2, z3, z4, z5, z6, z7, z8⟩ := inFlowSizes_agree S hcb hs (by linarith) h0
  have pb := plus_agree S z1 z2 (by linarith)
  obtain ⟨r1, r2⟩ := relative_agree S hs h0 (inFlowSizes cb style).inlineSize (inFlowSizes cb' style).inlineSize
    (inFlowSizes cb style).blockSize (inFlowSizes cb' style).blockSize
  have big : ∀ {g : Bool} {B : Rat} {u : Single} {u' : Rat}, WholeIs k g B u u' → B ≤ T → WholeIs k true T u u' := by
    intro g B u u' h hB
    cases g
    · exact S.fine (S.mono h hB)
    · exact S.mono h hB
  have first := big (S.add (S.fine (S.add pb.1 r1 (by linarith))) z5 (by linarith)) (by linarith)
  have e1 : (if (positionOf style).isRelativelyPositioned = true then ([] : Absolutes Single) else []) = [] := by split <;> rfl
  have e2 : (if (positionOf style).isRelativelyPositioned = true then ([] : Absolutes Rat) else []) = [] := by split <;> rfl
  intro r hr r' hr'
  unfold layoutInFlow at hr hr'
  simp only [e1] at hr
  simp only [e2] at hr'
  split at hr
  · cases hr
  split at hr'
  · cases hr'
  split at hr
  · cases hr
  rename_i c as e3
  split at hr'
  · cases hr'
  rename_i c' as' e4
  obtain ⟨h1, h2, h3⟩ := hl _ _ _ _ rfl z7 _ e3 _ e4
  simp only at h1 h2 h3
  subst h2 h3
  simp only [inPositionedContainingBlock] at hr hr'
  split at hr <;> split at hr' <;> first | contradiction | skip
  · cases hr; cases hr'
    exact ⟨.box rfl first (big z7 (by linarith)) ⟨big z1.1 (by linarith), big z1.2.1 (by linarith)⟩
      ⟨big z2.1 (by linarith), big z2.2.1 (by linarith)⟩ ⟨big z5 (by linarith), big z6 (by linarith)⟩ h1, rfl, rfl⟩
  · cases hr; cases hr'
    exact ⟨.box rfl first (big z7 (by linarith)) ⟨big z1.1 (by linarith), big z1.2.1 (by linarith)⟩
      ⟨big z2.1 (by linarith), big z2.2.1 (by linarith)⟩ ⟨big z5 (by linarith), big z6 (by linarith)⟩ h1, rfl, rfl⟩

omit S in
theorem reach_le (units : List Nat → Nat) (e : Nat) : ∀ {bs : List BlockLevelBox} {b : BlockLevelBox}, b ∈ bs → b.reach units e ≤ blocksReach units e bs
  | c :: bs, b, h => by
    rw [blocksReach]
    rcases List.mem_cons.1 h with rfl | h
    · exact le_max_left _ _
    · exact le_trans (reach_le units e h) (le_max_right _ _)

omit S in
theorem ruledBlocks_mem {e : Nat} : ∀ {bs : List BlockLevelBox} {b : BlockLevelBox}, ruledBlocks k e bs → b ∈ bs → b.Ruled k e
  | c :: bs, b, h, hb => by
    rw [ruledBlocks] at h
    rcases List.mem_cons.1 hb with rfl | hb
    · exact h.1
    · exact ruledBlocks_mem h.2 hb

omit S in
mutual
theorem containerReach_nonneg (units : List Nat → Nat) (e : Nat) : ∀ c : BlockContainer, 0 ≤ c.reach units e
  | .blockLevelBoxes boxes => by rw [BlockContainer.reach]; exact blocksReach_nonneg units e boxes
  | .inlineFormattingContext boxes => by rw [BlockContainer.reach]; linarith [lineReach_nonneg (e := e) units boxes]
theorem boxReach_nonneg (units : List Nat → Nat) (e : Nat) : ∀ b : BlockLevelBox, 0 ≤ b.reach units e
  | .sameFormattingContextBlock style contents => by
    rw [BlockLevelBox.reach]; linarith [lengthsSum_nonneg style, containerReach_nonneg units e contents]
  | .outOfFlowAbsolutelyPositioned _ _ _ => by rw [BlockLevelBox.reach]
  | .outOfFlowFloat _ _ _ => by rw [BlockLevelBox.reach]
  | .independent style _ contents => by
    rw [BlockLevelBox.reach]; linarith [lengthsSum_nonneg style, containerReach_nonneg units e contents]
theorem blocksReach_nonneg (units : List Nat → Nat) (e : Nat) : ∀ bs : List BlockLevelBox, 0 ≤ blocksReach units e bs
  | [] => by rw [blocksReach]
  | b :: bs => by rw [blocksReach]; exact le_trans (boxReach_nonneg units e b) (le_max_left _ _)
end

section
variable {Err : Type} {api : FontApi Single Err} {advance : Nat → Nat} {e : Nat}
  (hst : ∀ style, WholeStyle k style → lengthsSum style ≤ T →
    StylesAgree (R := Single) (R' := Rat) (WholeIs k false (lengthsSum style)) (Numbers.lengths style) (Numbers.lengths style))
include hst

/-- Layout with both kinds of numbers. -/
theorem layout_rows (hk : k ≤ 100) (hT' : T < 2 ^ 23 / 2 ^ k) (hf : EmFont api (2 ^ e) advance) (he : e < 16) (fuel : Nat) : ∀ (s : Oracle),
    (∀ (c : BlockContainer) (cb : ContainingBlock Single) (cb' : ContainingBlock Rat) (rank : Nat) (floats coll coll' : Bool) (I : Rat),
      c.Ruled k e → cb.mode = cb'.mode → WholeIs k false I cb.inlineSize cb'.inlineSize → I + c.reach (textUnits api advance) e ≤ T →
      BothAgree (fun p p' => List.Forall₂ (RowsAgree (WholeIs k true T)) p.1.fragments p'.1.fragments ∧ p.2 = [] ∧ p'.2 = [])
        (layoutContainer api fuel s c cb rank [] floats coll)
        (layoutContainer (exactFont api (2 ^ e) advance) fuel s c cb' rank [] floats coll')) ∧
    (∀ (b : BlockLevelBox) (cb : ContainingBlock Single) (cb' : ContainingBlock Rat) (rank : Nat) (floats : Bool) (I : Rat),
      b.Ruled k e → cb.mode = cb'.mode → WholeIs k false I cb.inlineSize cb'.inlineSize → I + b.reach (textUnits api advance) e ≤ T →
      BothAgree (fun p p' => RowsAgree (WholeIs k true T) p.1 p'.1 ∧ p.2 = [] ∧ p'.2 = [])
        (layoutBox api fuel s b cb rank [] floats) (layoutBox (exactFont api (2 ^ e) advance) fuel s b cb' rank [] floats)) := by
  induction fuel with
  | zero =>
    intro s
    constructor
    · intro c cb cb' rank floats coll coll' I _ _ _ _ r hr
      simp only [layoutContainer] at hr
      cases hr
    · intro b cb cb' rank floats I _ _ _ _ r hr
      simp only [layoutBox] at hr
      cases hr
  | succ fuel ih =>
    intro s
    constructor
    · intro c cb cb' rank floats coll coll' I hc hmode hI hT
      have nI := S.nonneg hI
      cases c with
      | inlineFormattingContext boxes =>
        rw [BlockContainer.Ruled] at hc
        rw [BlockContainer.reach] at hT
        rw [layoutContainer, layoutContainer]
        exact layoutInline_rows S hst hk hT' hf he hI hc hT hmode
      | blockLevelBoxes boxes =>
        rw [BlockContainer.Ruled] at hc
        rw [BlockContainer.reach] at hT
        rw [layoutContainer, layoutContainer]
        refine layoutChildren_rows ?_
        intro b hb r
        exact (ih (s.sub r)).2 b cb cb' r floats I (ruledBlocks_mem hc hb) hmode hI
          (by linarith [reach_le (textUnits api advance) e hb])
    · intro b cb cb' rank floats I hb hmode hI hT
      have nI := S.nonneg hI
      cases b with
      | outOfFlowAbsolutelyPositioned => rw [BlockLevelBox.Ruled] at hb; exact hb.elim
      | outOfFlowFloat =>
        rw [BlockLevelBox.reach] at hT
        simp only [layoutBox, Fragment.noOp, hmode]
        intro r hr r' hr'
        cases hr; cases hr'
        exact ⟨.anonymous (S.mono S.zero (by linarith)) (S.mono S.zero (by linarith)) .nil, rfl, rfl⟩
      | sameFormattingContextBlock style contents =>
        rw [BlockLevelBox.Ruled] at hb
        rw [BlockLevelBox.reach] at hT
        have n0 := lengthsSum_nonneg style
        have n1 := containerReach_nonneg (textUnits api advance) e contents
        rw [layoutBox, layoutBox]
        refine layoutInFlow_rows S _ hI (hst style hb.1 (by linarith)) n0 (by linarith) ?_ _ _
        intro c c' coll coll' hm hi
        exact (ih (s.sub 0)).1 contents c c' rank floats coll coll' _ hb.2 hm hi (by linarith)
      | independent style containsFloats contents =>
        rw [BlockLevelBox.Ruled] at hb
        rw [BlockLevelBox.reach] at hT
        have n0 := lengthsSum_nonneg style
        have n1 := containerReach_nonneg (textUnits api advance) e contents
        rw [layoutBox, layoutBox]
        refine layoutInFlow_rows S _ hI (hst style hb.1 (by linarith)) n0 (by linarith) ?_ _ _
        intro c c' coll coll' hm hi r hr r' hr'
        have h := (ih (s.sub 0)).1 contents c c' rank containsFloats false false _ hb.2 hm hi (by linarith)
        rcases e1 : layoutContainer api fuel (s.sub 0) contents c rank [] containsFloats false with _ | ⟨p, as⟩
        · simp only [e1, mapFst] at hr; cases hr
        rcases e2 : layoutContainer (exactFont api (2 ^ e) advance) fuel (s.sub 0) contents c' rank [] containsFloats false with _ | ⟨p', as'⟩
        · simp only [e2, mapFst] at hr'; cases hr'
        simp only [e1, mapFst] at hr
        simp only [e2, mapFst] at hr'
        cases hr; cases hr'
        have h2 := h _ e1 _ e2
        exact ⟨h2.1, h2.2⟩

/-- Layout of a page. -/
theorem layoutRoot_rows (hk : k ≤ 100) (hT' : T < 2 ^ 23 / 2 ^ k) (hf : EmFont api (2 ^ e) advance) (he : e < 16) (fuel : Nat) (s : Oracle)
    (root : BlockFormattingContext) (viewport : Vec2 Single) (viewport' : Vec2 Rat) (I : Rat) (hb : root.contents.Ruled k e)
    (hI : WholeIs k false I viewport.inline viewport'.inline) (hT : I + root.contents.reach (textUnits api advance) e ≤ T) :
    BothAgree (List.Forall₂ (RowsAgree (WholeIs k true T))) (layoutRoot api fuel s root viewport)
      (layoutRoot (exactFont api (2 ^ e) advance) fuel s root viewport') := by
  have h := (layout_rows S hst hk hT' hf he fuel (s.sub 0)).1 root.contents ⟨viewport.inline, .length viewport.block, (.horizontalTb, .ltr)⟩
    ⟨viewport'.inline, .length viewport'.block, (.horizontalTb, .ltr)⟩ 0 root.containsFloats false false I hb rfl hI hT
  intro r hr r' hr'
  simp only [layoutRoot, layoutContext] at hr hr'
  rcases e1 : layoutContainer api fuel (s.sub 0) root.contents ⟨viewport.inline, .length viewport.block, (.horizontalTb, .ltr)⟩ 0 []
      root.containsFloats false with _ | ⟨p, as⟩
  · simp only [e1, mapFst] at hr; cases hr
  rcases e2 : layoutContainer (exactFont api (2 ^ e) advance) fuel (s.sub 0) root.contents
      ⟨viewport'.inline, .length viewport'.block, (.horizontalTb, .ltr)⟩ 0 [] root.containsFloats false with _ | ⟨p', as'⟩
  · simp only [e2, mapFst] at hr'; cases hr'
  obtain ⟨h1, h2, h3⟩ := h _ e1 _ e2
  simp only at h1 h2 h3
  subst h2 h3
  simp only [e1, mapFst, layoutAll, List.append_nil] at hr
  simp only [e2, mapFst, layoutAll, List.append_nil] at hr'
  cases hr; cases hr'
  exact h1
end

end Verif.Layout.Machine
