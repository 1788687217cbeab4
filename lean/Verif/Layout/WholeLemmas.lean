/- C123: layout of blocks, step by step, with two kinds of numbers that correspond as long as they are not too large. -/
import Verif.Layout.WholeSpec
import Mathlib.Tactic.Linarith
namespace Verif.Layout.Machine
open Verif.Style

variable {R R' : Type} [Numbers R] [Numbers R']

/-- `Is g B a a'`: `a` corresponds to `a'`, which is at most `B`; for `g = true` it may be on a grid that is finer by one step. -/
structure Simulation (T : Rat) (Is : Bool → Rat → R → R' → Prop) : Prop where
  fine : ∀ {B a a'}, Is false B a a' → Is true B a a'
  mono : ∀ {g B C a a'}, Is g B a a' → B ≤ C → Is g C a a'
  nonneg : ∀ {g B a a'}, Is g B a a' → 0 ≤ B
  zero : ∀ {g}, Is g 0 0 0
  add : ∀ {g B C a a' b b'}, Is g B a a' → Is g C b b' → B + C ≤ T → Is g (B + C) (a + b) (a' + b')
  sub : ∀ {g B C a a' b b'}, Is g B a a' → Is g C b b' → B + C ≤ T → Is g (B + C) (a - b) (a' - b')
  neg : ∀ {g B a a'}, Is g B a a' → Is g B (-a) (-a')
  max : ∀ {g B C a a' b b'}, Is g B a a' → Is g C b b' → Is g (B + C) (Max.max a b) (Max.max a' b')
  min : ∀ {g B C a a' b b'}, Is g B a a' → Is g C b b' → Is g (B + C) (Min.min a b) (Min.min a' b')
  half : ∀ {B a a'}, Is false B a a' → B ≤ T → Is true B (Numbers.half a) (Numbers.half a')
  isZero : ∀ {g B a a'}, Is g B a a' → Numbers.isZero a = Numbers.isZero a'

/-- The lengths correspond. -/
def LengthsAgree (P : R → R' → Prop) : LengthOrPercentage R → LengthOrPercentage R' → Prop
  | .length a, .length a' => P a a'
  | _, _ => False

/-- The lengths correspond, or both are `auto`. -/
def AutosAgree (P : R → R' → Prop) : LengthOrPercentageOrAuto R → LengthOrPercentageOrAuto R' → Prop
  | .length a, .length a' => P a a'
  | .auto, .auto => True
  | _, _ => False

/-- The lengths correspond, or both are `auto`. -/
def UsedAgree (P : R → R' → Prop) : LengthOrAuto R → LengthOrAuto R' → Prop
  | .length a, .length a' => P a a'
  | .auto, .auto => True
  | _, _ => False

section
variable {A A' : Type} (P : A → A' → Prop)
/-- On all sides. -/
def EachSide (s : Sides A) (s' : Sides A') : Prop :=
  P s.inlineStart s'.inlineStart ∧ P s.inlineEnd s'.inlineEnd ∧ P s.blockStart s'.blockStart ∧ P s.blockEnd s'.blockEnd
end

/-- The lengths of a style correspond. -/
def StylesAgree (P : R → R' → Prop) (l : StyleLengths R) (l' : StyleLengths R') : Prop :=
  EachSide (AutosAgree P) l.offsets l'.offsets ∧ AutosAgree P l.size.inline l'.size.inline ∧ AutosAgree P l.size.block l'.size.block ∧
  EachSide (LengthsAgree P) l.padding l'.padding ∧ EachSide (LengthsAgree P) l.border l'.border ∧ EachSide (AutosAgree P) l.margin l'.margin

section
variable {T : Rat} {Is : Bool → Rat → R → R' → Prop}

/-- Margins correspond. -/
def MarginsAgree (Is : Bool → Rat → R → R' → Prop) (B : Rat) (m : CollapsedMargin R) (m' : CollapsedMargin R') : Prop :=
  Is true B m.maxPositive m'.maxPositive ∧ Is true B m.minNegative m'.minNegative

variable (S : Simulation T Is)
include S

theorem margins_zero : MarginsAgree Is 0 (.zero : CollapsedMargin R) (.zero : CollapsedMargin R') := ⟨S.zero, S.zero⟩

theorem margins_new {B : Rat} {a : R} {a' : R'} (h : Is true B a a') : MarginsAgree Is B (.new a) (.new a') := by
  constructor
  · simpa [CollapsedMargin.new] using S.max h S.zero
  · simpa [CollapsedMargin.new] using S.min h S.zero

theorem margins_adjoin {B C : Rat} {m n : CollapsedMargin R} {m' n' : CollapsedMargin R'} (h : MarginsAgree Is B m m')
    (h' : MarginsAgree Is C n n') : MarginsAgree Is (B + C) (m.adjoin n) (m'.adjoin n') := ⟨S.max h.1 h'.1, S.min h.2 h'.2⟩

theorem margins_solve {B : Rat} {m : CollapsedMargin R} {m' : CollapsedMargin R'} (h : MarginsAgree Is B m m') (hT : B + B ≤ T) :
    Is true (B + B) m.solve m'.solve := S.add h.1 h.2 hT

theorem margins_nonneg {B : Rat} {m : CollapsedMargin R} {m' : CollapsedMargin R'} (h : MarginsAgree Is B m m') : 0 ≤ B := S.nonneg h.1

end

/-! ### Placing -/

section
variable {T : Rat} {Is : Bool → Rat → R → R' → Prop}

/-- The states correspond, and what has been placed takes at most `E`. -/
def StatesAgree (Is : Bool → Rat → R → R' → Prop) (E : Rat) (s : PlacementState R) (s' : PlacementState R') : Prop :=
  s.nextInFlowMarginCollapsesWithParentStartMargin = s'.nextInFlowMarginCollapsesWithParentStartMargin ∧
  ∃ A C P, MarginsAgree Is A s.startMargin s'.startMargin ∧ MarginsAgree Is C s.currentMargin s'.currentMargin ∧
    Is true P s.currentBlockDirectionPosition s'.currentBlockDirectionPosition ∧ 2 * A + 2 * C + P ≤ E

/-- The fragments correspond, and placing it takes at most `E`. -/
def BlocksAgree (Is : Bool → Rat → R → R' → Prop) (T E : Rat) : Fragment R → Fragment R' → Prop
  | .box b c, .box b' c' =>
    FragmentsAgree (Is true T) (.box b c) (.box b' c') ∧
    b.blockMarginsCollapsedWithChildren.collapsedThrough = b'.blockMarginsCollapsedWithChildren.collapsedThrough ∧
    ∃ A C P X, MarginsAgree Is A b.blockMarginsCollapsedWithChildren.start b'.blockMarginsCollapsedWithChildren.start ∧
      MarginsAgree Is C b.blockMarginsCollapsedWithChildren.end b'.blockMarginsCollapsedWithChildren.end ∧
      Is true P b.borderBlockSize b'.borderBlockSize ∧ Is true X b.contentRect.startCorner.block b'.contentRect.startCorner.block ∧
      2 * A + 2 * C + P + X ≤ E
  | .anonymous r c m, .anonymous r' c' m' =>
    FragmentsAgree (Is true T) (.anonymous r c m) (.anonymous r' c' m') ∧ c = [] ∧ c' = [] ∧ Is true 0 r.startCorner.block r'.startCorner.block ∧
    Is true 0 r.size.block r'.size.block ∧ 0 ≤ E
  | _, _ => False

variable (S : Simulation T Is)
include S

theorem move_agree {D : Rat} {b : BoxInfo R} {b' : BoxInfo R'} {c : List (Fragment R)} {c' : List (Fragment R')} {d : R} {d' : R'}
    (h : FragmentsAgree (Is true T) (.box b c) (.box b' c')) {X : Rat}
    (hx : Is true X b.contentRect.startCorner.block b'.contentRect.startCorner.block) (hd : Is true D d d') (hT : X + D ≤ T) :
    FragmentsAgree (Is true T) (.box (b.moveBlock d) c) (.box (b'.moveBlock d') c') := by
  cases h with
  | box h hc =>
    obtain ⟨h1, ⟨r1, r2, r3, r4⟩, h3, h4, h5⟩ := h
    exact .box ⟨h1, ⟨r1, S.mono (S.add hx hd hT) hT, r3, r4⟩, h3, h4, h5⟩ hc

theorem placeFragment_agree {E e : Rat} {s : PlacementState R} {s' : PlacementState R'} {f : Fragment R} {f' : Fragment R'}
    (hs : StatesAgree Is E s s') (hf : BlocksAgree Is T e f f') (hT : E + e ≤ T) :
    ResultsAgree (fun p p' => FragmentsAgree (Is true T) p.1 p'.1 ∧ StatesAgree Is (E + e) p.2 p'.2)
      (placeFragment s f) (placeFragment s' f') := by
  obtain ⟨hflag, A, C, P, hA, hC, hP, hE⟩ := hs
  have nA := margins_nonneg S hA
  have nC := margins_nonneg S hC
  have nP := S.nonneg hP
  cases f with
  | text => cases f' <;> exact hf.elim
  | anonymous r c m =>
    cases f' with
    | text => exact hf.elim
    | box => exact hf.elim
    | anonymous r' c' m' =>
      obtain ⟨h, hc, hc', hx, hz, he⟩ := hf
      cases h with
      | anonymous hr hcc =>
        subst hc hc'
        simp only [placeFragment, List.isEmpty_nil, true_and, S.isZero hz]
        by_cases h0 : Numbers.isZero r'.size.block = true
        · simp only [h0, if_true, ResultsAgree]
          refine ⟨.anonymous ⟨hr.1, S.mono (S.add hx hP (by linarith)) (by linarith), hr.2.2⟩ .nil, hflag, A, C, P, hA, hC, hP, by linarith⟩
        · simp only [h0, if_false, ResultsAgree, Bool.false_eq_true]
  | box b c =>
    cases f' with
    | text => exact hf.elim
    | anonymous => exact hf.elim
    | box b' c' =>
      obtain ⟨h, hct, A1, C1, P1, X1, hA1, hC1, hP1, hX1, he⟩ := hf
      have nA1 := margins_nonneg S hA1
      have nC1 := margins_nonneg S hC1
      have nP1 := S.nonneg hP1
      have nX1 := S.nonneg hX1
      simp only [placeFragment, ← hflag, ← hct, ← S.isZero (margins_solve S hC (by linarith))]
      by_cases h1 : s.nextInFlowMarginCollapsesWithParentStartMargin = true
      · simp only [h1, if_true]
        by_cases h2 : Numbers.isZero s.currentMargin.solve = true
        · simp only [h2, if_true]
          by_cases h3 : b.blockMarginsCollapsedWithChildren.collapsedThrough = true
          · simp only [h3, if_true, ResultsAgree]
            exact ⟨h, rfl, A + A1 + C1, C, P, margins_adjoin S (margins_adjoin S hA hA1) hC1, hC, hP, by linarith⟩
          · simp only [h3, if_false, ResultsAgree, Bool.false_eq_true]
            have hsolve := margins_solve S hC (by linarith)
            refine ⟨move_agree S h hX1 (S.add hsolve hP (by linarith)) (by linarith), rfl, A + A1, C1, P + ((C + C) + P1),
              margins_adjoin S hA hA1, hC1, S.add hP (S.add hsolve hP1 (by linarith)) (by linarith), by linarith⟩
        · simp only [h2, if_false, ResultsAgree, Bool.false_eq_true]
      · simp only [h1, if_false, Bool.false_eq_true]
        have hadj := margins_adjoin S hC hA1
        have hsolve := margins_solve S hadj (by linarith)
        have hmove := move_agree S h hX1 (S.add hsolve hP (by linarith)) (by linarith)
        by_cases h3 : b.blockMarginsCollapsedWithChildren.collapsedThrough = true
        · simp only [h3, if_true, ResultsAgree]
          exact ⟨hmove, rfl, A, C + A1 + C1, P, hA, margins_adjoin S hadj hC1, hP, by linarith⟩
        · simp only [h3, if_false, ResultsAgree, Bool.false_eq_true]
          exact ⟨hmove, rfl, A, C1, P + ((C + A1 + (C + A1)) + P1), hA, hC1,
            S.add hP (S.add hsolve hP1 (by linarith)) (by linarith), by linarith⟩

theorem placeAll_agree : ∀ {fs : List (Fragment R)} {fs' : List (Fragment R')} {es : List Rat} {E : Rat} {s : PlacementState R}
    {s' : PlacementState R'}, StatesAgree Is E s s' → List.Forall₂ (fun e p => BlocksAgree Is T e p.1 p.2) es (fs.zip fs') →
    fs.length = fs'.length → (∀ e ∈ es, 0 ≤ e) → E + es.sum ≤ T →
    ResultsAgree (fun p p' => List.Forall₂ (FragmentsAgree (Is true T)) p.1 p'.1 ∧ StatesAgree Is (E + es.sum) p.2 p'.2)
      (placeAll s fs) (placeAll s' fs') := by
  intro fs
  induction fs with
  | nil =>
    intro fs' es E s s' hs hf hl hn hT
    cases fs' with
    | cons => simp at hl
    | nil =>
      cases hf
      simp only [placeAll, ResultsAgree, List.sum_nil, add_zero]
      exact ⟨.nil, hs⟩
  | cons f fs ih =>
    intro fs' es E s s' hs hf hl hn hT
    cases fs' with
    | nil => simp at hl
    | cons f' fs' =>
      cases hf with
      | @cons e _ es _ h1 h2 =>
        have he := hn e (List.mem_cons_self ..)
        have hes : 0 ≤ es.sum := List.sum_nonneg fun x hx => hn x (List.mem_cons_of_mem _ hx)
        rw [List.sum_cons] at hT ⊢
        have h := placeFragment_agree S hs h1 (by linarith)
        unfold placeAll
        rcases e1 : placeFragment s f with _ | ⟨g, t⟩ <;> rcases e2 : placeFragment s' f' with _ | ⟨g', t'⟩ <;> rw [e1, e2] at h
        · simp only [ResultsAgree]
        · exact h.elim
        · exact h.elim
        · obtain ⟨h3, h4⟩ := h
          have h := ih h4 h2 (by simpa using hl) (fun x hx => hn x (List.mem_cons_of_mem _ hx)) (by linarith)
          simp only
          rcases e3 : placeAll t fs with _ | ⟨gs, u⟩ <;> rcases e4 : placeAll t' fs' with _ | ⟨gs', u'⟩ <;> rw [e3, e4] at h
          · simp only [ResultsAgree]
          · exact h.elim
          · exact h.elim
          · rw [← add_assoc]
            exact ⟨.cons h3 h.1, h.2⟩

end

/-! ### Children -/

section
variable {T : Rat} {Is : Bool → Rat → R → R' → Prop}

/-- The contents correspond, and they take at most `E`. -/
def ContentsAgree (Is : Bool → Rat → R → R' → Prop) (T E : Rat) (c : FlowChildren R) (c' : FlowChildren R') : Prop :=
  List.Forall₂ (FragmentsAgree (Is true T)) c.fragments c'.fragments ∧
  c.collapsibleMarginsInChildren.collapsedThrough = c'.collapsibleMarginsInChildren.collapsedThrough ∧
  ∃ A C P, MarginsAgree Is A c.collapsibleMarginsInChildren.start c'.collapsibleMarginsInChildren.start ∧
    MarginsAgree Is C c.collapsibleMarginsInChildren.end c'.collapsibleMarginsInChildren.end ∧ Is true P c.blockSize c'.blockSize ∧
    2 * A + 2 * C + P ≤ E

variable (S : Simulation T Is)
include S

/-- What is known of the layout of one child. -/
abbrev ChildAgrees (Is : Bool → Rat → R → R' → Prop) (T : Rat) (size : BlockLevelBox → Rat)
    (l : Nat → BlockLevelBox → Absolutes R → Option (Fragment R × Absolutes R))
    (l' : Nat → BlockLevelBox → Absolutes R' → Option (Fragment R' × Absolutes R')) (b : BlockLevelBox) : Prop :=
  ∀ rank, ResultsAgree (fun p p' => BlocksAgree Is T (size b) p.1 p'.1 ∧ p.2 = [] ∧ p'.2 = []) (l rank b []) (l' rank b [])

variable {size : BlockLevelBox → Rat} {l : Nat → BlockLevelBox → Absolutes R → Option (Fragment R × Absolutes R)}
  {l' : Nat → BlockLevelBox → Absolutes R' → Option (Fragment R' × Absolutes R')}

theorem layoutInOrder_agree : ∀ {bs : List BlockLevelBox} {rank : Nat} {E : Rat} {s : PlacementState R} {s' : PlacementState R'},
    StatesAgree Is E s s' → (∀ b ∈ bs, ChildAgrees Is T size l l' b) → (∀ b ∈ bs, 0 ≤ size b) → E + (bs.map size).sum ≤ T →
    ResultsAgree (fun p p' => List.Forall₂ (FragmentsAgree (Is true T)) p.1 p'.1 ∧ p.2.1 = [] ∧ p'.2.1 = [] ∧
        StatesAgree Is (E + (bs.map size).sum) p.2.2 p'.2.2)
      (layoutInOrder l rank bs [] s) (layoutInOrder l' rank bs [] s') := by
  intro bs
  induction bs with
  | nil =>
    intro rank E s s' hs hf hn hT
    simp only [layoutInOrder, ResultsAgree, List.map_nil, List.sum_nil, add_zero]
    exact ⟨.nil, trivial, trivial, hs⟩
  | cons b bs ih =>
    intro rank E s s' hs hf hn hT
    have he := hn b (List.mem_cons_self ..)
    have hes : 0 ≤ (bs.map size).sum := List.sum_nonneg fun x hx => by
      obtain ⟨c, hc, rfl⟩ := List.mem_map.1 hx
      exact hn c (List.mem_cons_of_mem _ hc)
    rw [List.map_cons, List.sum_cons] at hT ⊢
    have h0 := hf b (List.mem_cons_self ..) rank
    unfold layoutInOrder
    rcases e1 : l rank b [] with _ | ⟨f, as⟩ <;> rcases e2 : l' rank b [] with _ | ⟨f', as'⟩ <;> rw [e1, e2] at h0
    · simp only [ResultsAgree]
    · exact h0.elim
    · exact h0.elim
    · obtain ⟨hb, ha, ha'⟩ := h0
      simp only at ha ha' hb
      subst ha ha'
      have h := placeFragment_agree S hs hb (by linarith)
      simp only
      rcases e1 : placeFragment s f with _ | ⟨g, t⟩ <;> rcases e2 : placeFragment s' f' with _ | ⟨g', t'⟩ <;> rw [e1, e2] at h
      · simp only [ResultsAgree]
      · exact h.elim
      · exact h.elim
      · obtain ⟨h3, h4⟩ := h
        have h := ih (rank := rank + 1) h4 (fun c hc => hf c (List.mem_cons_of_mem _ hc)) (fun x hx => hn x (List.mem_cons_of_mem _ hx))
          (by linarith)
        simp only
        rcases e3 : layoutInOrder l (rank + 1) bs [] t with _ | ⟨gs, as, u⟩ <;>
          rcases e4 : layoutInOrder l' (rank + 1) bs [] t' with _ | ⟨gs', as', u'⟩ <;> rw [e3, e4] at h
        · simp only [ResultsAgree]
        · exact h.elim
        · exact h.elim
        · rw [← add_assoc]
          exact ⟨.cons h3 h.1, h.2⟩

/-- The fragments before they are placed. -/
def UnplacedAgree (Is : Bool → Rat → R → R' → Prop) (T : Rat) (es : List Rat) (p : List (Fragment R) × Absolutes R)
    (p' : List (Fragment R') × Absolutes R') : Prop :=
  p.1.length = p'.1.length ∧ p.1.length = es.length ∧ List.Forall₂ (fun e q => BlocksAgree Is T e q.1 q.2) es (p.1.zip p'.1) ∧
  p.2 = [] ∧ p'.2 = []

omit S in
theorem foldTask_agree : ∀ {bs : List BlockLevelBox} {rank : Nat}, (∀ b ∈ bs, ChildAgrees Is T size l l' b) →
    ResultsAgree (UnplacedAgree Is T (bs.map size)) (mapfold.foldTask l rank bs []) (mapfold.foldTask l' rank bs []) := by
  intro bs
  induction bs with
  | nil =>
    intro rank hf
    simp only [mapfold.foldTask, ResultsAgree]
    exact ⟨rfl, rfl, .nil, rfl, rfl⟩
  | cons b bs ih =>
    intro rank hf
    have h0 := hf b (List.mem_cons_self ..) rank
    unfold mapfold.foldTask
    rcases e1 : l rank b [] with _ | ⟨f, as⟩ <;> rcases e2 : l' rank b [] with _ | ⟨f', as'⟩ <;> rw [e1, e2] at h0
    · simp only [ResultsAgree]
    · exact h0.elim
    · exact h0.elim
    · obtain ⟨hb, ha, ha'⟩ := h0
      simp only at ha ha' hb
      subst ha ha'
      have h := ih (rank := rank + 1) (fun c hc => hf c (List.mem_cons_of_mem _ hc))
      simp only
      rcases e3 : mapfold.foldTask l (rank + 1) bs [] with _ | ⟨gs, as⟩ <;>
        rcases e4 : mapfold.foldTask l' (rank + 1) bs [] with _ | ⟨gs', as'⟩ <;> rw [e3, e4] at h
      · simp only [ResultsAgree]
      · exact h.elim
      · exact h.elim
      · obtain ⟨q1, q2, q3, q4⟩ := h
        exact ⟨by simpa using q1, by simpa using q2, .cons hb q3, q4⟩

omit S in
theorem mapfold_agree : ∀ {schedule : Schedule} {bs : List BlockLevelBox} {rank : Nat}, (∀ b ∈ bs, ChildAgrees Is T size l l' b) →
    ResultsAgree (UnplacedAgree Is T (bs.map size)) (mapfold l schedule rank bs) (mapfold l' schedule rank bs) := by
  intro schedule
  induction schedule with
  | task => intro bs rank hf; exact foldTask_agree hf
  | join cut left right ihl ihr =>
    intro bs rank hf
    have h1 := ihl (bs := bs.take cut) (rank := rank) (fun c hc => hf c (List.mem_of_mem_take hc))
    have h2 := ihr (bs := bs.drop cut) (rank := rank + cut) (fun c hc => hf c (List.mem_of_mem_drop hc))
    unfold mapfold
    rcases e1 : mapfold l left rank (bs.take cut) with _ | ⟨fs, as⟩ <;>
      rcases e2 : mapfold l' left rank (bs.take cut) with _ | ⟨fs', as'⟩ <;> rw [e1, e2] at h1
    · simp only [ResultsAgree]
    · exact h1.elim
    · exact h1.elim
    · rcases e3 : mapfold l right (rank + cut) (bs.drop cut) with _ | ⟨gs, bs1⟩ <;>
        rcases e4 : mapfold l' right (rank + cut) (bs.drop cut) with _ | ⟨gs', bs1'⟩ <;> rw [e3, e4] at h2
      · simp only [ResultsAgree]
      · exact h2.elim
      · exact h2.elim
      · obtain ⟨p1, p2, p3, p4, p5⟩ := h1
        obtain ⟨q1, q2, q3, q4, q5⟩ := h2
        simp only at p1 p2 p3 p4 p5 q1 q2 q3 q4 q5
        subst p4 p5 q4 q5
        refine ⟨by simp [p1, q1], ?_, ?_, rfl, rfl⟩
        · simp only [List.length_append, p2, q2]
          rw [← List.length_append, ← List.map_append, List.take_append_drop]
        · simp only
          rw [List.zip_append p1]
          have : List.Forall₂ _ (_ ++ _) (_ ++ _) := List.rel_append p3 q3
          rwa [← List.map_append, List.take_append_drop] at this

theorem initial_agree (collapsible : Bool) : StatesAgree Is 0 (.initial collapsible) (.initial collapsible) :=
  ⟨rfl, 0, 0, 0, margins_zero S, margins_zero S, S.zero, by norm_num⟩

theorem layoutChildren_agree {schedule : Schedule} {bs : List BlockLevelBox} {rank : Nat} {floats collapsible : Bool}
    (hf : ∀ b ∈ bs, ChildAgrees Is T size l l' b) (hn : ∀ b ∈ bs, 0 ≤ size b) (hT : (bs.map size).sum ≤ T) :
    ResultsAgree (fun p p' => ContentsAgree Is T (bs.map size).sum p.1 p'.1 ∧ p.2 = [] ∧ p'.2 = [])
      (layoutChildren schedule l bs rank [] floats collapsible) (layoutChildren schedule l' bs rank [] floats collapsible) := by
  have finish : ∀ {fs : List (Fragment R)} {fs' : List (Fragment R')} {s : PlacementState R} {s' : PlacementState R'},
      List.Forall₂ (FragmentsAgree (Is true T)) fs fs' → StatesAgree Is (bs.map size).sum s s' →
      ResultsAgree (fun p p' => ContentsAgree Is T (bs.map size).sum p.1 p'.1 ∧ p.2 = [] ∧ p'.2 = [])
        (finishChildren [] 0 fs s rank) (finishChildren [] 0 fs' s' rank) := by
    intro fs fs' s s' h1 h2
    simp only [finishChildren, List.drop_nil, adjustStaticPositions, List.take_nil, List.append_nil, ResultsAgree, and_true]
    exact ⟨h1, h2.1, h2.2⟩
  unfold layoutChildren
  cases floats with
  | true =>
    simp only [if_true, List.length_nil]
    have h := layoutInOrder_agree S (rank := 0) (initial_agree S collapsible) hf hn (by linarith)
    rw [zero_add] at h
    rcases e3 : layoutInOrder l 0 bs [] (.initial collapsible) with _ | ⟨gs, as, u⟩ <;>
      rcases e4 : layoutInOrder l' 0 bs [] (.initial collapsible) with _ | ⟨gs', as', u'⟩ <;> rw [e3, e4] at h
    · simp only [ResultsAgree]
    · exact h.elim
    · exact h.elim
    · obtain ⟨h1, h2, h3, h4⟩ := h
      simp only at h1 h2 h3 h4
      subst h2 h3
      exact finish h1 h4
  | false =>
    simp only [if_false, Bool.false_eq_true, List.length_nil, List.nil_append]
    have h := mapfold_agree (schedule := schedule) (rank := 0) hf
    rcases e3 : mapfold l schedule 0 bs with _ | ⟨gs, as⟩ <;>
      rcases e4 : mapfold l' schedule 0 bs with _ | ⟨gs', as'⟩ <;> rw [e3, e4] at h
    · simp only [ResultsAgree]
    · exact h.elim
    · exact h.elim
    · obtain ⟨h1, h2, h3, h4, h5⟩ := h
      simp only at h1 h2 h3 h4 h5
      subst h4 h5
      have h := placeAll_agree S (initial_agree S collapsible) h3 h1 (by
        intro e he
        obtain ⟨c, hc, rfl⟩ := List.mem_map.1 he
        exact hn c hc) (by linarith)
      rw [zero_add] at h
      simp only
      rcases e5 : placeAll (.initial collapsible) gs with _ | ⟨fs, u⟩ <;>
        rcases e6 : placeAll (.initial collapsible) gs' with _ | ⟨fs', u'⟩ <;> rw [e5, e6] at h
      · simp only [ResultsAgree]
      · exact h.elim
      · exact h.elim
      · exact finish h.1 h.2

end

end Verif.Layout.Machine
