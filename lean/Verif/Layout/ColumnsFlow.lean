/- C127: blocks, and documents, vertically. -/
import Verif.Layout.ColumnsInline
import Verif.Layout.RowsFlow
namespace Verif.Layout.Machine
open Verif.Style Verif.Text Verif.Float

attribute [local instance] singleNumbers exactNumbers

/-! ### Margins -/

/-- Margins correspond; they have not been rounded. -/
def MarginsNear (B : Rat) (m : CollapsedMargin Single) (m' : CollapsedMargin Rat) : Prop :=
  Follows 0 B m.maxPositive m'.maxPositive ∧ Follows 0 B m.minNegative m'.minNegative

theorem MarginsNear.zero : MarginsNear 0 .zero .zero := ⟨Follows.zero, Follows.zero⟩

theorem MarginsNear.nonneg {B : Rat} {m : CollapsedMargin Single} {m' : CollapsedMargin Rat} (h : MarginsNear B m m') : 0 ≤ B := h.1.nonneg

theorem MarginsNear.new {B : Rat} {a : Single} {a' : Rat} (h : Follows 0 B a a') : MarginsNear B (.new a) (.new a') :=
  ⟨(h.max (Follows.zero (n := 0)) (le_refl B) h.nonneg).mono (n' := 0) (by simp) (le_refl _),
   (h.min (Follows.zero (n := 0)) (le_refl B) h.nonneg).mono (n' := 0) (by simp) (le_refl _)⟩

theorem MarginsNear.adjoin {B C : Rat} {m n : CollapsedMargin Single} {m' n' : CollapsedMargin Rat} (h : MarginsNear B m m')
    (h' : MarginsNear C n n') : MarginsNear (B + C) (m.adjoin n) (m'.adjoin n') := by
  have n0 := h.nonneg
  have n1 := h'.nonneg
  exact ⟨(h.1.max h'.1 (by linarith) (by linarith)).mono (n' := 0) (by simp) (le_refl _),
    (h.2.min h'.2 (by linarith) (by linarith)).mono (n' := 0) (by simp) (le_refl _)⟩

theorem MarginsNear.solve {B : Rat} {m : CollapsedMargin Single} {m' : CollapsedMargin Rat} (h : MarginsNear B m m') :
    Follows 1 (B + B) m.solve m'.solve := (h.1.add h.2).mono (by simp) (le_refl _)

/-! ### Placing -/

/-- The states correspond, and what has been placed takes at most `m`, with at most `n` roundings. -/
def PlacedNear (n : Nat) (m : Rat) (s : PlacementState Single) (s' : PlacementState Rat) : Prop :=
  s.nextInFlowMarginCollapsesWithParentStartMargin = s'.nextInFlowMarginCollapsesWithParentStartMargin ∧
  ∃ A C P, MarginsNear A s.startMargin s'.startMargin ∧ MarginsNear C s.currentMargin s'.currentMargin ∧
    Follows n P s.currentBlockDirectionPosition s'.currentBlockDirectionPosition ∧ 2 * A + 2 * C + P ≤ m

/-- The fragments correspond before they are placed. -/
def BlockNear (D : Nat) (K : Rat) : Fragment Single → Fragment Rat → Prop
  | .box b c, .box b' c' =>
    ColumnsAgree (Follows ((Fragment.box b' c').steps D) ((Fragment.box b' c').mass K)) (.box b c) (.box b' c') ∧
    b.blockMarginsCollapsedWithChildren.collapsedThrough = b'.blockMarginsCollapsedWithChildren.collapsedThrough ∧
    ∃ A C P X nb, MarginsNear A b.blockMarginsCollapsedWithChildren.start b'.blockMarginsCollapsedWithChildren.start ∧
      MarginsNear C b.blockMarginsCollapsedWithChildren.end b'.blockMarginsCollapsedWithChildren.end ∧
      Follows nb P b.borderBlockSize b'.borderBlockSize ∧ Follows 2 X b.contentRect.startCorner.block b'.contentRect.startCorner.block ∧
      2 * A + 2 * C + P + X ≤ (Fragment.box b' c').mass K ∧ nb + 2 ≤ (Fragment.box b' c').steps D
  | .anonymous r c m, .anonymous r' c' m' =>
    Follows 0 0 r.startCorner.block r'.startCorner.block ∧ Follows 0 0 r.size.block r'.size.block ∧ c = [] ∧ c' = [] ∧ m = m'
  | _, _ => False

variable {D : Nat} {K : Rat}

theorem move_near {n : Nat} {m : Rat} {b : BoxInfo Single} {b' : BoxInfo Rat} {c : List (Fragment Single)} {c' : List (Fragment Rat)} {d : Single}
    {d' : Rat} (h : ColumnsAgree (Follows n m) (.box b c) (.box b' c'))
    (hx : Follows n m (b.contentRect.startCorner.block + d) (b'.contentRect.startCorner.block + d')) :
    ColumnsAgree (Follows n m) (.box (b.moveBlock d) c) (.box (b'.moveBlock d') c') := by
  cases h with
  | box h1 h2 h3 h4 h5 h6 hc => exact .box h1 hx h3 h4 h5 h6 hc

theorem placeFragment_near {n : Nat} {m : Rat} {s : PlacementState Single} {s' : PlacementState Rat} {f : Fragment Single} {f' : Fragment Rat}
    (hs : PlacedNear n m s s') (hf : BlockNear D K f f') (hK : 0 ≤ K) :
    BothAgree (fun r r' => ColumnsAgree (Follows (max n (r'.1.steps D) + 3) (m + r'.1.mass K)) r.1 r'.1 ∧
        PlacedNear (max n (r'.1.steps D) + 1) (m + r'.1.mass K) r.2 r'.2) (placeFragment s f) (placeFragment s' f') := by
  obtain ⟨hflag, A, C, P, hA, hC, hP, hE⟩ := hs
  have nA := hA.nonneg
  have nC := hC.nonneg
  have nP := hP.nonneg
  intro r hr r' hr'
  cases f with
  | text => cases f' <;> exact hf.elim
  | anonymous q c mode =>
    cases f' with
    | text => exact hf.elim
    | box => exact hf.elim
    | anonymous q' c' mode' =>
      obtain ⟨hx, hz, rfl, rfl, rfl⟩ := hf
      simp only [placeFragment] at hr hr'
      split at hr
      · split at hr'
        · cases hr; cases hr'
          simp only [Fragment.steps, Fragment.mass]
          exact ⟨.anonymous ((hx.add hP).mono (by omega) (by linarith)) (hz.mono (by omega) (by linarith)) .nil, hflag, A, C, P, hA, hC,
            hP.mono (by omega) (le_refl _), by linarith⟩
        · cases hr'
      · cases hr
  | box b c =>
    cases f' with
    | text => exact hf.elim
    | anonymous => exact hf.elim
    | box b' c' =>
      obtain ⟨h, hct, A1, C1, P1, X1, nb, hA1, hC1, hP1, hX1, he, hn⟩ := hf
      have nA1 := hA1.nonneg
      have nC1 := hC1.nonneg
      have nP1 := hP1.nonneg
      have nX1 := hX1.nonneg
      have nM : 0 ≤ (Fragment.box b' c').mass K := by linarith
      have hm : ∀ d, (Fragment.box (b'.moveBlock d) c').mass K = (Fragment.box b' c').mass K := fun d => by
        simp only [Fragment.mass, BoxInfo.moveBlock]
      have hst : ∀ d, (Fragment.box (b'.moveBlock d) c').steps D = (Fragment.box b' c').steps D := fun d => by
        simp only [Fragment.steps]
      have up := ColumnsAgree.imp (fun a a' (h : Follows _ _ a a') => h.mono (show _ ≤ max n ((Fragment.box b' c').steps D) + 3 by omega)
        (show _ ≤ m + (Fragment.box b' c').mass K by linarith)) _ _ h
      have moved : ∀ {B : Rat} {d : Single} {d' : Rat}, Follows 1 B d d' → X1 + (B + P) ≤ m + (Fragment.box b' c').mass K →
          ColumnsAgree (Follows (max n ((Fragment.box b' c').steps D) + 3) (m + (Fragment.box b' c').mass K))
            (.box (b.moveBlock (d + s.currentBlockDirectionPosition)) c) (.box (b'.moveBlock (d' + s'.currentBlockDirectionPosition)) c') := by
        intro B d d' hd hB
        exact move_near up ((hX1.add (hd.add hP)).mono (by omega) hB)
      have next : ∀ {B : Rat} {d : Single} {d' : Rat}, Follows 1 B d d' →
          Follows (max n ((Fragment.box b' c').steps D) + 1) (P + (B + P1)) (s.currentBlockDirectionPosition + (d + b.borderBlockSize))
            (s'.currentBlockDirectionPosition + (d' + b'.borderBlockSize)) := by
        intro B d d' hd
        exact (hP.add (hd.add hP1)).mono (by omega) (le_refl _)
      simp only [placeFragment, ← hflag, ← hct] at hr hr'
      split at hr
      · rename_i h2
        rw [if_pos h2] at hr'
        split at hr
        · split at hr'
          · split at hr
            · rename_i h3
              rw [if_pos h3] at hr'
              cases hr; cases hr'
              exact ⟨up, rfl, A + A1 + C1, C, P, (hA.adjoin hA1).adjoin hC1, hC, hP.mono (by omega) (le_refl _), by simp only; linarith⟩
            · rename_i h3
              rw [if_neg h3] at hr'
              cases hr; cases hr'
              simp only [hm, hst]
              exact ⟨moved hC.solve (by linarith), rfl, A + A1, C1, _, hA.adjoin hA1, hC1, next hC.solve, by linarith⟩
          · cases hr'
        · cases hr
      · rename_i h2
        rw [if_neg h2] at hr'
        have hadj := hC.adjoin hA1
        split at hr
        · rename_i h3
          rw [if_pos h3] at hr'
          cases hr; cases hr'
          simp only [hm, hst]
          exact ⟨moved hadj.solve (by linarith), rfl, A, C + A1 + C1, P, hA, hadj.adjoin hC1, hP.mono (by omega) (le_refl _), by linarith⟩
        · rename_i h3
          rw [if_neg h3] at hr'
          cases hr; cases hr'
          simp only [hm, hst]
          exact ⟨moved hadj.solve (by linarith), rfl, A, C1, _, hA, hC1, next hadj.solve, by linarith⟩

theorem PlacedNear.mono {n n' : Nat} {m m' : Rat} {s : PlacementState Single} {s' : PlacementState Rat} (h : PlacedNear n m s s') (hn : n ≤ n')
    (hm : m ≤ m') : PlacedNear n' m' s s' := by
  obtain ⟨h1, A, C, P, hA, hC, hP, hE⟩ := h
  exact ⟨h1, A, C, P, hA, hC, hP.mono hn (le_refl _), by linarith⟩

mutual
theorem mass_nonneg (hK : 0 ≤ K) : ∀ f : Fragment Rat, 0 ≤ f.mass K
  | .box b c => by rw [Fragment.mass]; linarith [lengthsSum_nonneg b.style, massAll_nonneg hK c]
  | .anonymous _ _ _ => by rw [Fragment.mass]; exact hK
  | .text _ _ _ => by rw [Fragment.mass]
theorem massAll_nonneg (hK : 0 ≤ K) : ∀ fs : List (Fragment Rat), 0 ≤ massAll K fs
  | [] => by rw [massAll]
  | f :: fs => by rw [massAll]; exact add_nonneg (mass_nonneg hK f) (massAll_nonneg hK fs)
end

/-- What is known of the fragments that have been placed. -/
def AllPlaced (D : Nat) (K : Rat) (n : Nat) (m : Rat) (fs : List (Fragment Single)) (fs' : List (Fragment Rat)) (s : PlacementState Single)
    (s' : PlacementState Rat) : Prop :=
  List.Forall₂ (ColumnsAgree (Follows (max n (mostSteps D fs') + fs'.length + 3) (m + massAll K fs'))) fs fs' ∧
  PlacedNear (max n (mostSteps D fs') + fs'.length) (m + massAll K fs') s s'

theorem allPlaced_nil {n : Nat} {m : Rat} {s : PlacementState Single} {s' : PlacementState Rat} (h : PlacedNear n m s s') :
    AllPlaced D K n m [] [] s s' := by
  refine ⟨.nil, ?_⟩
  simp only [mostSteps, massAll, List.length_nil]
  exact h.mono (by omega) (by linarith)

theorem allPlaced_cons {n : Nat} {m : Rat} {f : Fragment Single} {f' : Fragment Rat} {fs : List (Fragment Single)} {fs' : List (Fragment Rat)}
    {s : PlacementState Single} {s' : PlacementState Rat} (hK : 0 ≤ K)
    (hf : ColumnsAgree (Follows (max n (f'.steps D) + 3) (m + f'.mass K)) f f')
    (h : AllPlaced D K (max n (f'.steps D) + 1) (m + f'.mass K) fs fs' s s') : AllPlaced D K n m (f :: fs) (f' :: fs') s s' := by
  obtain ⟨h1, h2⟩ := h
  have := massAll_nonneg hK fs'
  unfold AllPlaced
  simp only [mostSteps, massAll, List.length_cons]
  refine ⟨.cons (ColumnsAgree.imp (fun _ _ h => h.mono (by omega) (by linarith)) _ _ hf) (follows_all (by omega) (by linarith) h1),
    h2.mono (by omega) (by linarith)⟩

theorem placeAll_near (hK : 0 ≤ K) {fs : List (Fragment Single)} {fs' : List (Fragment Rat)} {n : Nat} {m : Rat} {s : PlacementState Single}
    {s' : PlacementState Rat} (hs : PlacedNear n m s s') (h : List.Forall₂ (BlockNear D K) fs fs') :
    BothAgree (fun r r' => AllPlaced D K n m r.1 r'.1 r.2 r'.2) (placeAll s fs) (placeAll s' fs') := by
  induction h generalizing s s' n m with
  | nil =>
    intro r hr r' hr'
    cases hr; cases hr'
    exact allPlaced_nil hs
  | @cons f f' fs fs' h1 h2 ih =>
    intro r hr r' hr'
    unfold placeAll at hr hr'
    rcases e1 : placeFragment s f with _ | ⟨g, t⟩
    · rw [e1] at hr; cases hr
    rcases e2 : placeFragment s' f' with _ | ⟨g', t'⟩
    · rw [e2] at hr'; cases hr'
    rw [e1] at hr
    rw [e2] at hr'
    simp only at hr hr'
    rcases e3 : placeAll t fs with _ | ⟨gs, u⟩
    · rw [e3] at hr; cases hr
    rcases e4 : placeAll t' fs' with _ | ⟨gs', u'⟩
    · rw [e4] at hr'; cases hr'
    rw [e3] at hr
    rw [e4] at hr'
    cases hr; cases hr'
    obtain ⟨p1, p2⟩ := placeFragment_near hs h1 hK _ e1 _ e2
    exact allPlaced_cons hK p1 (ih p2 _ e3 _ e4)

/-! ### Children -/

variable {l : Nat → BlockLevelBox → Absolutes Single → Option (Fragment Single × Absolutes Single)}
  {l' : Nat → BlockLevelBox → Absolutes Rat → Option (Fragment Rat × Absolutes Rat)}

/-- What is known of the layout of one child. -/
abbrev ChildNear (D : Nat) (K : Rat) (l : Nat → BlockLevelBox → Absolutes Single → Option (Fragment Single × Absolutes Single))
    (l' : Nat → BlockLevelBox → Absolutes Rat → Option (Fragment Rat × Absolutes Rat)) (b : BlockLevelBox) : Prop :=
  ∀ rank, BothAgree (fun p p' => BlockNear D K p.1 p'.1 ∧ p.2 = [] ∧ p'.2 = []) (l rank b []) (l' rank b [])

theorem layoutInOrder_near (hK : 0 ≤ K) : ∀ {bs : List BlockLevelBox} {rank n : Nat} {m : Rat} {s : PlacementState Single}
    {s' : PlacementState Rat}, PlacedNear n m s s' → (∀ b ∈ bs, ChildNear D K l l' b) →
    BothAgree (fun p p' => AllPlaced D K n m p.1 p'.1 p.2.2 p'.2.2 ∧ p.2.1 = [] ∧ p'.2.1 = [])
      (layoutInOrder l rank bs [] s) (layoutInOrder l' rank bs [] s') := by
  intro bs
  induction bs with
  | nil =>
    intro rank n m s s' hs hf r hr r' hr'
    cases hr; cases hr'
    exact ⟨allPlaced_nil hs, rfl, rfl⟩
  | cons b bs ih =>
    intro rank n m s s' hs hf r hr r' hr'
    unfold layoutInOrder at hr hr'
    rcases e1 : l rank b [] with _ | ⟨f, as⟩
    · rw [e1] at hr; cases hr
    rcases e2 : l' rank b [] with _ | ⟨f', as'⟩
    · rw [e2] at hr'; cases hr'
    obtain ⟨h1, h2, h3⟩ := hf b (List.mem_cons_self ..) rank _ e1 _ e2
    simp only at h1 h2 h3
    subst h2 h3
    rw [e1] at hr
    rw [e2] at hr'
    simp only at hr hr'
    rcases e3 : placeFragment s f with _ | ⟨g, t⟩
    · rw [e3] at hr; cases hr
    rcases e4 : placeFragment s' f' with _ | ⟨g', t'⟩
    · rw [e4] at hr'; cases hr'
    rw [e3] at hr
    rw [e4] at hr'
    simp only at hr hr'
    rcases e5 : layoutInOrder l (rank + 1) bs [] t with _ | ⟨gs, u⟩
    · rw [e5] at hr; cases hr
    rcases e6 : layoutInOrder l' (rank + 1) bs [] t' with _ | ⟨gs', u'⟩
    · rw [e6] at hr'; cases hr'
    rw [e5] at hr
    rw [e6] at hr'
    cases hr; cases hr'
    obtain ⟨p1, p2⟩ := placeFragment_near hs h1 hK _ e3 _ e4
    obtain ⟨h4, h5⟩ := ih p2 (fun c hc => hf c (List.mem_cons_of_mem _ hc)) _ e5 _ e6
    exact ⟨allPlaced_cons hK p1 h4, h5⟩

theorem foldTask_near : ∀ {bs : List BlockLevelBox} {rank : Nat}, (∀ b ∈ bs, ChildNear D K l l' b) →
    BothAgree (fun p p' => List.Forall₂ (BlockNear D K) p.1 p'.1 ∧ p.2 = [] ∧ p'.2 = [])
      (mapfold.foldTask l rank bs []) (mapfold.foldTask l' rank bs []) := by
  intro bs
  induction bs with
  | nil =>
    intro rank hf r hr r' hr'
    cases hr; cases hr'
    exact ⟨.nil, rfl, rfl⟩
  | cons b bs ih =>
    intro rank hf r hr r' hr'
    unfold mapfold.foldTask at hr hr'
    rcases e1 : l rank b [] with _ | ⟨f, as⟩
    · rw [e1] at hr; cases hr
    rcases e2 : l' rank b [] with _ | ⟨f', as'⟩
    · rw [e2] at hr'; cases hr'
    obtain ⟨h1, h2, h3⟩ := hf b (List.mem_cons_self ..) rank _ e1 _ e2
    simp only at h1 h2 h3
    subst h2 h3
    rw [e1] at hr
    rw [e2] at hr'
    simp only at hr hr'
    rcases e5 : mapfold.foldTask l (rank + 1) bs [] with _ | ⟨gs, u⟩
    · rw [e5] at hr; cases hr
    rcases e6 : mapfold.foldTask l' (rank + 1) bs [] with _ | ⟨gs', u'⟩
    · rw [e6] at hr'; cases hr'
    rw [e5] at hr
    rw [e6] at hr'
    cases hr; cases hr'
    obtain ⟨h4, h5⟩ := ih (fun c hc => hf c (List.mem_cons_of_mem _ hc)) _ e5 _ e6
    exact ⟨.cons h1 h4, h5⟩

theorem mapfold_near : ∀ {schedule : Schedule} {bs : List BlockLevelBox} {rank : Nat}, (∀ b ∈ bs, ChildNear D K l l' b) →
    BothAgree (fun p p' => List.Forall₂ (BlockNear D K) p.1 p'.1 ∧ p.2 = [] ∧ p'.2 = [])
      (mapfold l schedule rank bs) (mapfold l' schedule rank bs) := by
  intro schedule
  induction schedule with
  | task => intro bs rank hf; exact foldTask_near hf
  | join cut left right ihl ihr =>
    intro bs rank hf r hr r' hr'
    unfold mapfold at hr hr'
    rcases e1 : mapfold l left rank (bs.take cut) with _ | ⟨fs, as⟩
    · rw [e1] at hr; cases hr
    rcases e2 : mapfold l' left rank (bs.take cut) with _ | ⟨fs', as'⟩
    · rw [e2] at hr'; cases hr'
    rcases e3 : mapfold l right (rank + cut) (bs.drop cut) with _ | ⟨gs, bs1⟩
    · rw [e1, e3] at hr; cases hr
    rcases e4 : mapfold l' right (rank + cut) (bs.drop cut) with _ | ⟨gs', bs1'⟩
    · rw [e2, e4] at hr'; cases hr'
    rw [e1, e3] at hr
    rw [e2, e4] at hr'
    cases hr; cases hr'
    obtain ⟨h1, h2, h3⟩ := ihl (fun c hc => hf c (List.mem_of_mem_take hc)) _ e1 _ e2
    obtain ⟨h4, h5, h6⟩ := ihr (fun c hc => hf c (List.mem_of_mem_drop hc)) _ e3 _ e4
    simp only at h1 h2 h3 h4 h5 h6
    subst h2 h3 h5 h6
    exact ⟨List.rel_append h1 h4, rfl, rfl⟩

/-- The contents correspond. -/
def ContentsNear (D : Nat) (K : Rat) (x : Nat) (c : FlowChildren Single) (c' : FlowChildren Rat) : Prop :=
  List.Forall₂ (ColumnsAgree (Follows (c'.fragments.length + mostSteps D c'.fragments + 3) (massAll K c'.fragments))) c.fragments c'.fragments ∧
  c.collapsibleMarginsInChildren.collapsedThrough = c'.collapsibleMarginsInChildren.collapsedThrough ∧
  ∃ A C P, MarginsNear A c.collapsibleMarginsInChildren.start c'.collapsibleMarginsInChildren.start ∧
    MarginsNear C c.collapsibleMarginsInChildren.end c'.collapsibleMarginsInChildren.end ∧
    Follows (c'.fragments.length + mostSteps D c'.fragments + x) P c.blockSize c'.blockSize ∧ 2 * A + 2 * C + P ≤ massAll K c'.fragments

theorem initial_near (collapsible : Bool) : PlacedNear 0 0 (.initial collapsible) (.initial collapsible) :=
  ⟨rfl, 0, 0, 0, .zero, .zero, Follows.zero, by norm_num⟩

theorem layoutChildren_near (hK : 0 ≤ K) {schedule : Schedule} {bs : List BlockLevelBox} {rank : Nat} {floats coll : Bool}
    (hf : ∀ b ∈ bs, ChildNear D K l l' b) :
    BothAgree (fun p p' => ContentsNear D K 0 p.1 p'.1 ∧ p.2 = [] ∧ p'.2 = [])
      (layoutChildren schedule l bs rank [] floats coll) (layoutChildren schedule l' bs rank [] floats coll) := by
  have done : ∀ {fs : List (Fragment Single)} {fs' : List (Fragment Rat)} {s : PlacementState Single} {s' : PlacementState Rat},
      AllPlaced D K 0 0 fs fs' s s' → BothAgree (fun p p' => ContentsNear D K 0 p.1 p'.1 ∧ p.2 = [] ∧ p'.2 = [])
        (finishChildren [] 0 fs s rank) (finishChildren [] 0 fs' s' rank) := by
    intro fs fs' s s' h r hr r' hr'
    simp only [finishChildren, List.drop_nil, adjustStaticPositions, List.take_nil, List.append_nil] at hr hr'
    cases hr; cases hr'
    obtain ⟨h1, h2, A, C, P, hA, hC, hP, hE⟩ := h
    exact ⟨⟨follows_all (by simp only; omega) (by simp only; linarith) h1, h2, A, C, P, hA, hC, hP.mono (by simp only; omega) (le_refl _),
      by simp only; linarith⟩, rfl, rfl⟩
  intro r hr r' hr'
  unfold layoutChildren at hr hr'
  cases floats with
  | true =>
    simp only [if_true, List.length_nil] at hr hr'
    rcases e3 : layoutInOrder l 0 bs [] (.initial coll) with _ | ⟨gs, as, u⟩
    · rw [e3] at hr; cases hr
    rcases e4 : layoutInOrder l' 0 bs [] (.initial coll) with _ | ⟨gs', as', u'⟩
    · rw [e4] at hr'; cases hr'
    obtain ⟨h1, h2, h3⟩ := layoutInOrder_near hK (initial_near coll) hf _ e3 _ e4
    simp only at h1 h2 h3
    subst h2 h3
    rw [e3] at hr
    rw [e4] at hr'
    exact done h1 _ hr _ hr'
  | false =>
    simp only [if_false, Bool.false_eq_true, List.length_nil, List.nil_append] at hr hr'
    rcases e3 : mapfold l schedule 0 bs with _ | ⟨gs, as⟩
    · rw [e3] at hr; cases hr
    rcases e4 : mapfold l' schedule 0 bs with _ | ⟨gs', as'⟩
    · rw [e4] at hr'; cases hr'
    obtain ⟨h1, h2, h3⟩ := mapfold_near hf _ e3 _ e4
    simp only at h1 h2 h3
    subst h2 h3
    rw [e3] at hr
    rw [e4] at hr'
    simp only at hr hr'
    rcases e5 : placeAll (.initial coll) gs with _ | ⟨fs, u⟩
    · rw [e5] at hr; cases hr
    rcases e6 : placeAll (.initial coll) gs' with _ | ⟨fs', u'⟩
    · rw [e6] at hr'; cases hr'
    rw [e5] at hr
    rw [e6] at hr'
    exact done (placeAll_near hK (initial_near coll) h1 _ e5 _ e6) _ hr _ hr'

theorem finishContext_near {c : FlowChildren Single} {c' : FlowChildren Rat} (hc : ContentsNear D K 0 c c') :
    ContentsNear D K 2 c.finishBlockFormattingContext c'.finishBlockFormattingContext := by
  obtain ⟨h1, -, A, C, P, hA, hC, hP, hE⟩ := hc
  have nA := hA.nonneg
  have nC := hC.nonneg
  exact ⟨h1, rfl, A, 0, P + (C + C), hA, .zero, (hP.add hC.solve).mono (by simp only [FlowChildren.finishBlockFormattingContext]; omega) (le_refl _),
    by simp only [FlowChildren.finishBlockFormattingContext]; linarith⟩

theorem collapse_near {own : Rat} {m : Sides Single} {m' : Sides Rat} (hm : Follows 0 own m.blockStart m'.blockStart)
    (hm' : Follows 0 own m.blockEnd m'.blockEnd) (canStart canEnd : Bool) {c : FlowChildren Single} {c' : FlowChildren Rat}
    (hc : ContentsNear D K 2 c c') :
    (collapseWithChildren m canStart canEnd c.collapsibleMarginsInChildren c.blockSize).1.collapsedThrough =
      (collapseWithChildren m' canStart canEnd c'.collapsibleMarginsInChildren c'.blockSize).1.collapsedThrough ∧
    ∃ A C P, MarginsNear A (collapseWithChildren m canStart canEnd c.collapsibleMarginsInChildren c.blockSize).1.start
        (collapseWithChildren m' canStart canEnd c'.collapsibleMarginsInChildren c'.blockSize).1.start ∧
      MarginsNear C (collapseWithChildren m canStart canEnd c.collapsibleMarginsInChildren c.blockSize).1.end
        (collapseWithChildren m' canStart canEnd c'.collapsibleMarginsInChildren c'.blockSize).1.end ∧
      Follows (c'.fragments.length + mostSteps D c'.fragments + 3) P
        (collapseWithChildren m canStart canEnd c.collapsibleMarginsInChildren c.blockSize).2
        (collapseWithChildren m' canStart canEnd c'.collapsibleMarginsInChildren c'.blockSize).2 ∧
      2 * A + 2 * C + P ≤ 4 * own + massAll K c'.fragments := by
  obtain ⟨-, ht, A, C, P, hA, hC, hP, hE⟩ := hc
  have nA := hA.nonneg
  have nC := hC.nonneg
  have s1 := MarginsNear.new hm
  have s2 := MarginsNear.new hm'
  have hP3 := hP.mono (show _ ≤ c'.fragments.length + mostSteps D c'.fragments + 3 by omega) (le_refl P)
  have hsolve := (hP.add hC.solve).mono (show _ ≤ c'.fragments.length + mostSteps D c'.fragments + 3 by omega) (le_refl _)
  have hsolve0 := (hP.add MarginsNear.zero.solve).mono (show _ ≤ c'.fragments.length + mostSteps D c'.fragments + 3 by omega) (le_refl _)
  refine ⟨by simp only [collapseWithChildren, ht], ?_⟩
  simp only [collapseWithChildren, CollapsedBlockMargins.fromMargin, ht]
  cases canStart <;> cases canEnd <;> cases c'.collapsibleMarginsInChildren.collapsedThrough <;>
    simp only [Bool.true_and, Bool.false_and, if_true, if_false, Bool.false_eq_true]
  · exact ⟨_, _, _, s1, s2, hsolve, by linarith⟩
  · exact ⟨_, _, _, s1, s2, hsolve, by linarith⟩
  · exact ⟨_, _, _, s1, s2.adjoin hC, hP3, by linarith⟩
  · exact ⟨_, _, _, s1, s2.adjoin hC, hP3, by linarith⟩
  · exact ⟨_, _, _, s1.adjoin hA, s2, hsolve, by linarith⟩
  · exact ⟨_, _, _, (s1.adjoin hA).adjoin hC, s2, hsolve0, by linarith⟩
  · exact ⟨_, _, _, s1.adjoin hA, s2.adjoin hC, hP3, by linarith⟩
  · exact ⟨_, _, _, (s1.adjoin hA).adjoin hC, s2.adjoin .zero, hP3, by linarith⟩

theorem box_near {own A C P Q : Rat} {x : BoxInfo Single} {x' : BoxInfo Rat} {c : List (Fragment Single)} {c' : List (Fragment Rat)}
    (h0 : 0 ≤ own) (hK : 0 ≤ K) (hstyle : x.style = x'.style) (hown : own ≤ lengthsSum x'.style)
    (hx : Follows 1 (3 * own) x.contentRect.startCorner.block x'.contentRect.startCorner.block)
    (hz : Follows (c'.length + mostSteps D c' + 3) Q x.contentRect.size.block x'.contentRect.size.block)
    (hp : SideHeightsAgree (Follows 0 own) x.padding x'.padding) (hb : SideHeightsAgree (Follows 0 own) x.border x'.border)
    (hm : SideHeightsAgree (Follows 0 own) x.margin x'.margin)
    (hc : List.Forall₂ (ColumnsAgree (Follows (c'.length + mostSteps D c' + 3) (massAll K c'))) c c')
    (ht : x.blockMarginsCollapsedWithChildren.collapsedThrough = x'.blockMarginsCollapsedWithChildren.collapsedThrough)
    (hA : MarginsNear A x.blockMarginsCollapsedWithChildren.start x'.blockMarginsCollapsedWithChildren.start)
    (hC : MarginsNear C x.blockMarginsCollapsedWithChildren.end x'.blockMarginsCollapsedWithChildren.end)
    (hQ : Q ≤ own + P) (hE : 2 * A + 2 * C + P ≤ 4 * own + massAll K c') : BlockNear D K (.box x c) (.box x' c') := by
  have nA := hA.nonneg
  have nC := hC.nonneg
  have nM := massAll_nonneg hK c'
  have up : ∀ {u : Single} {u' : Rat}, Follows 0 own u u' →
      Follows (8 + (c'.length + mostSteps D c')) (16 * lengthsSum x'.style + massAll K c') u u' :=
    fun h => h.mono (by omega) (by linarith)
  have size := ((hp.1.add hp.2).add (hb.1.add hb.2)).add hz
  unfold BlockNear
  simp only [Fragment.steps, Fragment.mass]
  exact ⟨.box hstyle (hx.mono (by omega) (by linarith)) (hz.mono (by omega) (by linarith)) ⟨up hp.1, up hp.2⟩ ⟨up hb.1, up hb.2⟩
    ⟨up hm.1, up hm.2⟩ (follows_all (by omega) (by linarith) hc), ht, A, C, _, _, _, hA, hC, size, hx.mono (by omega) (le_refl _),
    by linarith, by omega⟩

variable {k : Nat} {T : Rat} (S : Simulation (R := Single) (R' := Rat) T (WholeIs k))
include S

theorem layoutInFlow_near {I : Rat} {cb : ContainingBlock Single} {cb' : ContainingBlock Rat} {style : ComputedValues}
    (kind : BlockLevelKind) (hcb : WholeIs k false I cb.inlineSize cb'.inlineSize)
    (hs : StylesAgree (R := Single) (R' := Rat) (WholeIs k false (lengthsSum style)) (Numbers.lengths style) (Numbers.lengths style))
    (hT : I + 16 * lengthsSum style ≤ T) (hK : 0 ≤ K)
    {l : ContainingBlock Single → Absolutes Single → Bool → Option (FlowChildren Single × Absolutes Single)}
    {l' : ContainingBlock Rat → Absolutes Rat → Bool → Option (FlowChildren Rat × Absolutes Rat)}
    (hl : ∀ (c : ContainingBlock Single) (c' : ContainingBlock Rat) (coll : Bool), c.mode = c'.mode →
      WholeIs k false (I + 6 * lengthsSum style) c.inlineSize c'.inlineSize →
      BothAgree (fun p p' => ContentsNear D K 2 p.1 p'.1 ∧ p.2 = [] ∧ p'.2 = []) (l c [] coll) (l' c' [] coll))
    (a : DefiniteContainingBlock Single → Nat → AbsolutelyPositionedFragment Single → Option (Fragment Single))
    (a' : DefiniteContainingBlock Rat → Nat → AbsolutelyPositionedFragment Rat → Option (Fragment Rat)) :
    BothAgree (fun p p' => BlockNear D K p.1 p'.1 ∧ p.2 = [] ∧ p'.2 = [])
      (layoutInFlow cb [] style kind l a) (layoutInFlow cb' [] style kind l' a') := by
  have nI := S.nonneg hcb
  have h0 := lengthsSum_nonneg style
  obtain ⟨z1, z2, z3, z4, z5, z6, z7, z8⟩ := inFlowSizes_agree S hcb hs (by linarith) h0
  have pb := plus_agree S z1 z2 (by linarith)
  obtain ⟨-, r2⟩ := relative_agree S hs h0 (inFlowSizes cb style).inlineSize (inFlowSizes cb' style).inlineSize
    (inFlowSizes cb style).blockSize (inFlowSizes cb' style).blockSize
  have e1 : (if (positionOf style).isRelativelyPositioned = true then ([] : Absolutes Single) else []) = [] := by split <;> rfl
  have e2 : (if (positionOf style).isRelativelyPositioned = true then ([] : Absolutes Rat) else []) = [] := by split <;> rfl
  intro r hr r' hr'
  unfold layoutInFlow at hr hr'
  simp only [e1, S.isZero pb.2.2.1, S.isZero pb.2.2.2, isAuto_agree z8] at hr
  simp only [e2] at hr'
  split at hr
  · cases hr
  split at hr'
  · cases hr'
  split at hr
  · cases hr
  rename_i c as e3
  split at hr'
  · cases hr'
  rename_i c' as' e4
  obtain ⟨h1, h2, h3⟩ := hl _ _ _ rfl z7 _ e3 _ e4
  simp only at h1 h2 h3
  subst h2 h3
  simp only [inPositionedContainingBlock] at hr hr'
  obtain ⟨k1, A, C, P, k2, k3, k4, k5⟩ := collapse_near (Follows.whole z3) (Follows.whole z4)
    (decide (kind = .sameFormattingContextBlock) && Numbers.isZero ((inFlowSizes cb' style).padding.plus (inFlowSizes cb' style).border).blockStart)
    (decide (kind = .sameFormattingContextBlock) && Numbers.isZero ((inFlowSizes cb' style).padding.plus (inFlowSizes cb' style).border).blockEnd
      && (inFlowSizes cb' style).blockSize.isAuto) h1
  have nA := k2.nonneg
  have nC := k3.nonneg
  have nP := k4.nonneg
  have nM := massAll_nonneg hK c'.fragments
  have size := autoIs_agree (used_imp (fun a a' h => (Follows.whole h).mono (n' := c'.fragments.length + mostSteps D c'.fragments + 3)
      (m' := lengthsSum style + P) (by omega) (by linarith)) z8)
    (k4.mono (le_refl _) (show P ≤ lengthsSum style + P by linarith))
  have corner := ((Follows.whole pb.2.2.1).add (Follows.whole r2)).mono (n' := 1) (m' := 3 * lengthsSum style) (by omega) (by linarith)
  have f : ∀ {u : Single} {u' : Rat}, WholeIs k false (lengthsSum style) u u' → Follows 0 (lengthsSum style) u u' := fun h => Follows.whole h
  split at hr <;> split at hr' <;> first | contradiction | skip
  · cases hr; cases hr'
    exact ⟨box_near h0 hK rfl (le_refl _) corner size ⟨f z1.2.2.1, f z1.2.2.2⟩ ⟨f z2.2.2.1, f z2.2.2.2⟩ ⟨f z3, f z4⟩ h1.1 k1 k2 k3 (le_refl _) k5,
      rfl, rfl⟩
  · cases hr; cases hr'
    exact ⟨box_near h0 hK rfl (le_refl _) corner size ⟨f z1.2.2.1, f z1.2.2.2⟩ ⟨f z2.2.2.1, f z2.2.2.2⟩ ⟨f z3, f z4⟩ h1.1 k1 k2 k3 (le_refl _) k5,
      rfl, rfl⟩

omit S in
theorem lowBlocks_mem : ∀ {bs : List BlockLevelBox} {b : BlockLevelBox}, lowBlocks D K bs → b ∈ bs → b.Low D K
  | c :: bs, b, h, hb => by
    rw [lowBlocks] at h
    rcases List.mem_cons.1 hb with rfl | hb
    · exact h.1
    · exact lowBlocks_mem h.2 hb

omit S in
theorem paragraph_contents {c : FlowChildren Single} {c' : FlowChildren Rat} (h : ParagraphNear D K c c') : ContentsNear D K 0 c c' := by
  obtain ⟨⟨h1, h2⟩, h3, h4⟩ := h
  refine ⟨follows_all (Nat.le_add_right _ 3) (le_refl _) h1, by rw [h3, h4]; rfl, 0, 0, _, ?_, ?_, h2, by linarith⟩
  · rw [h3, h4]; exact .zero
  · rw [h3, h4]; exact .zero

omit S in
theorem ContentsNear.loose {c : FlowChildren Single} {c' : FlowChildren Rat} (h : ContentsNear D K 0 c c') : ContentsNear D K 2 c c' := by
  obtain ⟨h1, h2, A, C, P, hA, hC, hP, hE⟩ := h
  exact ⟨h1, h2, A, C, P, hA, hC, hP.mono (by omega) (le_refl _), hE⟩

section
variable {Err : Type} {api : FontApi Single Err} {advance : Nat → Nat} {e : Nat}
  (hst : ∀ style, WholeStyle k style → lengthsSum style ≤ T →
    StylesAgree (R := Single) (R' := Rat) (WholeIs k false (lengthsSum style)) (Numbers.lengths style) (Numbers.lengths style))
include hst

/-- Layout with both kinds of numbers, vertically. -/
theorem layout_near (hk : k ≤ 100) (hT' : T < 2 ^ 23 / 2 ^ k) (hf : EmFont api (2 ^ e) advance) (he : e < 16) (hK : 0 ≤ K) (fuel : Nat) :
    ∀ (s : Oracle),
    (∀ (c : BlockContainer) (cb : ContainingBlock Single) (cb' : ContainingBlock Rat) (rank : Nat) (floats coll : Bool) (I : Rat),
      c.Ruled k e → c.Low D K → cb.mode = cb'.mode → WholeIs k false I cb.inlineSize cb'.inlineSize →
      I + c.reach (textUnits api advance) e ≤ T →
      BothAgree (fun p p' => ContentsNear D K 0 p.1 p'.1 ∧ p.2 = [] ∧ p'.2 = [])
        (layoutContainer api fuel s c cb rank [] floats coll)
        (layoutContainer (exactFont api (2 ^ e) advance) fuel s c cb' rank [] floats coll)) ∧
    (∀ (b : BlockLevelBox) (cb : ContainingBlock Single) (cb' : ContainingBlock Rat) (rank : Nat) (floats : Bool) (I : Rat),
      b.Ruled k e → b.Low D K → cb.mode = cb'.mode → WholeIs k false I cb.inlineSize cb'.inlineSize →
      I + b.reach (textUnits api advance) e ≤ T →
      BothAgree (fun p p' => BlockNear D K p.1 p'.1 ∧ p.2 = [] ∧ p'.2 = [])
        (layoutBox api fuel s b cb rank [] floats) (layoutBox (exactFont api (2 ^ e) advance) fuel s b cb' rank [] floats)) := by
  induction fuel with
  | zero =>
    intro s
    constructor
    · intro c cb cb' rank floats coll I _ _ _ _ _ r hr
      simp only [layoutContainer] at hr
      cases hr
    · intro b cb cb' rank floats I _ _ _ _ _ r hr
      simp only [layoutBox] at hr
      cases hr
  | succ fuel ih =>
    intro s
    constructor
    · intro c cb cb' rank floats coll I hc hlow hmode hI hT
      have nI := S.nonneg hI
      cases c with
      | inlineFormattingContext boxes =>
        rw [BlockContainer.Ruled] at hc
        rw [BlockContainer.reach] at hT
        rw [BlockContainer.Low] at hlow
        rw [layoutContainer, layoutContainer]
        intro r hr r' hr'
        have h := layoutInline_near S hst hk hT' hf he hI hc hT hmode hlow.1 hlow.2 r hr r' hr'
        exact ⟨paragraph_contents h.1, h.2⟩
      | blockLevelBoxes boxes =>
        rw [BlockContainer.Ruled] at hc
        rw [BlockContainer.reach] at hT
        rw [BlockContainer.Low] at hlow
        rw [layoutContainer, layoutContainer]
        refine layoutChildren_near hK ?_
        intro b hb r
        exact (ih (s.sub r)).2 b cb cb' r floats I (ruledBlocks_mem hc hb) (lowBlocks_mem hlow hb) hmode hI
          (by linarith [reach_le (textUnits api advance) e hb])
    · intro b cb cb' rank floats I hb hlow hmode hI hT
      have nI := S.nonneg hI
      cases b with
      | outOfFlowAbsolutelyPositioned => rw [BlockLevelBox.Ruled] at hb; exact hb.elim
      | outOfFlowFloat =>
        simp only [layoutBox, Fragment.noOp, hmode]
        intro r hr r' hr'
        cases hr; cases hr'
        exact ⟨⟨Follows.zero, Follows.zero, rfl, rfl, rfl⟩, rfl, rfl⟩
      | sameFormattingContextBlock style contents =>
        rw [BlockLevelBox.Ruled] at hb
        rw [BlockLevelBox.reach] at hT
        rw [BlockLevelBox.Low] at hlow
        have n0 := lengthsSum_nonneg style
        have n1 := containerReach_nonneg (textUnits api advance) e contents
        rw [layoutBox, layoutBox]
        refine layoutInFlow_near S _ hI (hst style hb.1 (by linarith)) (by linarith) hK ?_ _ _
        intro c c' coll hm hi r hr r' hr'
        have h := (ih (s.sub 0)).1 contents c c' rank floats coll _ hb.2 hlow hm hi (by linarith) r hr r' hr'
        exact ⟨h.1.loose, h.2⟩
      | independent style containsFloats contents =>
        rw [BlockLevelBox.Ruled] at hb
        rw [BlockLevelBox.reach] at hT
        rw [BlockLevelBox.Low] at hlow
        have n0 := lengthsSum_nonneg style
        have n1 := containerReach_nonneg (textUnits api advance) e contents
        rw [layoutBox, layoutBox]
        refine layoutInFlow_near S _ hI (hst style hb.1 (by linarith)) (by linarith) hK ?_ _ _
        intro c c' coll hm hi r hr r' hr'
        have h := (ih (s.sub 0)).1 contents c c' rank containsFloats false _ hb.2 hlow hm hi (by linarith)
        rcases e1 : layoutContainer api fuel (s.sub 0) contents c rank [] containsFloats false with _ | ⟨p, as⟩
        · simp only [e1, mapFst] at hr; cases hr
        rcases e2 : layoutContainer (exactFont api (2 ^ e) advance) fuel (s.sub 0) contents c' rank [] containsFloats false with _ | ⟨p', as'⟩
        · simp only [e2, mapFst] at hr'; cases hr'
        simp only [e1, mapFst] at hr
        simp only [e2, mapFst] at hr'
        cases hr; cases hr'
        have h2 := h _ e1 _ e2
        exact ⟨finishContext_near h2.1, h2.2⟩

/-- Layout of a page, vertically. -/
theorem layoutRoot_near (hk : k ≤ 100) (hT' : T < 2 ^ 23 / 2 ^ k) (hf : EmFont api (2 ^ e) advance) (he : e < 16) (hK : 0 ≤ K) (fuel : Nat)
    (s : Oracle) (root : BlockFormattingContext) (viewport : Vec2 Single) (viewport' : Vec2 Rat) (I : Rat) (hb : root.contents.Ruled k e)
    (hlow : root.contents.Low D K) (hI : WholeIs k false I viewport.inline viewport'.inline)
    (hT : I + root.contents.reach (textUnits api advance) e ≤ T) :
    BothAgree (fun fs fs' => List.Forall₂ (ColumnsAgree (Follows (fs'.length + mostSteps D fs' + 3) (massAll K fs'))) fs fs')
      (layoutRoot api fuel s root viewport) (layoutRoot (exactFont api (2 ^ e) advance) fuel s root viewport') := by
  have h := (layout_near (D := D) (K := K) S hst hk hT' hf he hK fuel (s.sub 0)).1 root.contents
    ⟨viewport.inline, .length viewport.block, (.horizontalTb, .ltr)⟩
    ⟨viewport'.inline, .length viewport'.block, (.horizontalTb, .ltr)⟩ 0 root.containsFloats false I hb hlow rfl hI hT
  intro r hr r' hr'
  simp only [layoutRoot, layoutContext] at hr hr'
  rcases e1 : layoutContainer api fuel (s.sub 0) root.contents ⟨viewport.inline, .length viewport.block, (.horizontalTb, .ltr)⟩ 0 []
      root.containsFloats false with _ | ⟨p, as⟩
  · simp only [e1, mapFst] at hr; cases hr
  rcases e2 : layoutContainer (exactFont api (2 ^ e) advance) fuel (s.sub 0) root.contents
      ⟨viewport'.inline, .length viewport'.block, (.horizontalTb, .ltr)⟩ 0 [] root.containsFloats false with _ | ⟨p', as'⟩
  · simp only [e2, mapFst] at hr'; cases hr'
  obtain ⟨h1, h2, h3⟩ := h _ e1 _ e2
  simp only at h1 h2 h3
  subst h2 h3
  simp only [e1, mapFst, layoutAll, List.append_nil] at hr
  simp only [e2, mapFst, layoutAll, List.append_nil] at hr'
  cases hr; cases hr'
  exact h1.1
end

end Verif.Layout.Machine
