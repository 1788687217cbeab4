/- Measures of a tree of boxes for C127, with which its bound does not mention layout with the numbers of mathematics. -/
import Verif.Layout.ColumnsTheorems
namespace Verif.Layout.Machine
open Verif.Style Verif.Text Verif.Float Verif.Font

/-! ### Specification -/

mutual
/-- In how many places a line can end in this: after each of its characters. -/
def _root_.Verif.Layout.InlineLevelBox.breaks : InlineLevelBox → Nat
  | .inlineBox _ _ _ children => lineBreaks children
  | .textRun _ text => text.length
  | .outOfFlowAbsolutelyPositioned _ _ _ => 0
  | .outOfFlowFloat _ _ _ => 0
/-- See `InlineLevelBox.breaks`. -/
def lineBreaks : List InlineLevelBox → Nat
  | [] => 0
  | b :: bs => b.breaks + lineBreaks bs
end

mutual
/-- How many things can be below each other in this, added up over the boxes inside each other: a paragraph has a line for each place where one can end,
and one more, with `D` roundings each; a box has 8 roundings. -/
def _root_.Verif.Layout.BlockContainer.tallness (D : Nat) : BlockContainer → Nat
  | .blockLevelBoxes boxes => boxes.length + blocksTallness D boxes
  | .inlineFormattingContext boxes => lineBreaks boxes + 1 + D
/-- See `BlockContainer.tallness`. -/
def _root_.Verif.Layout.BlockLevelBox.tallness (D : Nat) : BlockLevelBox → Nat
  | .sameFormattingContextBlock _ contents => 8 + contents.tallness D
  | .outOfFlowAbsolutelyPositioned _ _ _ => 0
  | .outOfFlowFloat _ _ _ => D
  | .independent _ _ contents => 8 + contents.tallness D
/-- See `BlockContainer.tallness`. -/
def blocksTallness (D : Nat) : List BlockLevelBox → Nat
  | [] => 0
  | b :: bs => max (b.tallness D) (blocksTallness D bs)
end

mutual
/-- How high this can be, roughly: 16 times the lengths of each block, and `K` for each line that there can be. -/
def _root_.Verif.Layout.BlockContainer.bulk (K : Rat) : BlockContainer → Rat
  | .blockLevelBoxes boxes => blocksBulk K boxes
  | .inlineFormattingContext boxes => (lineBreaks boxes + 1 : Nat) * K
/-- See `BlockContainer.bulk`. -/
def _root_.Verif.Layout.BlockLevelBox.bulk (K : Rat) : BlockLevelBox → Rat
  | .sameFormattingContextBlock style contents => 16 * lengthsSum style + contents.bulk K
  | .outOfFlowAbsolutelyPositioned _ _ _ => 0
  | .outOfFlowFloat _ _ _ => K
  | .independent style _ contents => 16 * lengthsSum style + contents.bulk K
/-- See `BlockContainer.bulk`. -/
def blocksBulk (K : Rat) : List BlockLevelBox → Rat
  | [] => 0
  | b :: bs => b.bulk K + blocksBulk K bs
end

/-! ### Proof: paragraphs -/

attribute [local instance] exactNumbers

/-- The boxes that are still to be laid out. -/
def pending (stack : List (PartialInlineBox Rat)) (level : NestingLevel Rat) : List InlineLevelBox :=
  level.remainingBoxes ++ stack.flatMap (·.parentNestingLevel.remainingBoxes)

theorem lineBreaks_append : ∀ (a b : List InlineLevelBox), lineBreaks (a ++ b) = lineBreaks a + lineBreaks b
  | [], b => by simp [lineBreaks]
  | x :: a, b => by rw [List.cons_append, lineBreaks, lineBreaks, lineBreaks_append a b, Nat.add_assoc]

theorem ruledLine_append {k e : Nat} : ∀ {a b : List InlineLevelBox}, ruledLine k e (a ++ b) ↔ ruledLine k e a ∧ ruledLine k e b
  | [], b => by simp [ruledLine]
  | x :: a, b => by rw [List.cons_append, ruledLine, ruledLine, ruledLine_append (a := a), and_assoc]

/-- It is a line. -/
def IsLine (f : Fragment Rat) : Prop := ∃ r c m, f = .anonymous r c m

theorem breakLine_counts (cb : ContainingBlock Rat) : ∀ (stack : List (PartialInlineBox Rat)) (level : NestingLevel Rat) (position : Rat)
    (lines : LinesBoxes Rat), ∃ f, IsLine f ∧ (breakLine cb stack level position lines).2.2.boxes = lines.boxes ++ [f] ∧
    (breakLine cb stack level position lines).2.1.remainingBoxes = level.remainingBoxes ∧
    (breakLine cb stack level position lines).1.flatMap (·.parentNestingLevel.remainingBoxes) =
      stack.flatMap (·.parentNestingLevel.remainingBoxes)
  | [], level, position, lines => ⟨_, ⟨_, _, _, rfl⟩, rfl, rfl, rfl⟩
  | p :: rest, level, position, lines => by
    obtain ⟨f, h1, h2, h3, h4⟩ := breakLine_counts cb rest (p.finish { level with inlineStart := 0 } position true).1.parentNestingLevel
      (p.finish { level with inlineStart := 0 } position true).2.2 lines
    refine ⟨f, h1, h2, rfl, ?_⟩
    simp only [breakLine, List.flatMap_cons]
    rw [h4, h3]
    rfl

theorem textLines_counts {Err : Type} (F : FontApi Rat Err) (cb : ContainingBlock Rat) (style : ComputedValues) (available : Rat) :
    ∀ (fuel : Nat) (chars : List Nat) (i j : InlineState Rat), textLines F cb style available (fuel + 1) chars i = some j →
      (∀ f ∈ i.lineBoxes.boxes, IsLine f) → (∀ f ∈ j.lineBoxes.boxes, IsLine f) ∧
      j.lineBoxes.boxes.length ≤ i.lineBoxes.boxes.length + fuel ∧ pending j.stack j.current = pending i.stack i.current := by
  intro fuel
  induction fuel with
  | zero =>
    intro chars i j h hi
    unfold textLines at h
    split at h
    · cases h
    · simp only at h
      split at h
      · cases h
        exact ⟨hi, Nat.le_add_right _ _, rfl⟩
      · simp only [textLines] at h
        cases h
  | succ fuel ih =>
    intro chars i j h hi
    unfold textLines at h
    split at h
    · cases h
    rename_i shaped rest _
    simp only at h
    split at h
    · cases h
      exact ⟨hi, Nat.le_add_right _ _, rfl⟩
    obtain ⟨f, h1, h2, h3, h4⟩ := breakLine_counts cb (pushText style shaped i).stack (pushText style shaped i).current
      (pushText style shaped i).inlinePosition (pushText style shaped i).lineBoxes
    obtain ⟨k1, k2, k3⟩ := ih _ _ _ h (by
      simp only
      rw [h2]
      intro g hg
      rcases List.mem_append.1 hg with hg | hg
      · exact hi g hg
      · rw [List.mem_singleton.1 hg]; exact h1)
    simp only at k2 k3
    rw [h2, List.length_append, List.length_singleton] at k2
    refine ⟨k1, ?_, ?_⟩
    · have : (pushText style shaped i).lineBoxes.boxes.length = i.lineBoxes.boxes.length := rfl
      omega
    · rw [k3, pending, pending, h3, h4]
      rfl

/-- How many lines there are, and can be. -/
def LinesBound (N : Nat) (i : InlineState Rat) : Prop :=
  (∀ f ∈ i.lineBoxes.boxes, IsLine f) ∧ i.lineBoxes.boxes.length + lineBreaks (pending i.stack i.current) ≤ N

theorem inlineLoop_counts {Err : Type} (F : FontApi Rat Err) (cb : ContainingBlock Rat) (rank k e N : Nat) : ∀ (fuel : Nat) (i : InlineState Rat)
    (c : FlowChildren Rat) (as : Absolutes Rat), LinesBound N i → ruledLine k e (pending i.stack i.current) →
    inlineLoop F cb rank fuel i [] = some (c, as) → as = [] ∧ (∀ f ∈ c.fragments, IsLine f) ∧ c.fragments.length ≤ N + 1 := by
  intro fuel
  induction fuel with
  | zero => intro i c as _ _ h; cases h
  | succ fuel ih =>
    intro i c as hi hr h
    obtain ⟨lines, position, stack, ⟨boxes, sofar, start, size⟩⟩ := i
    unfold inlineLoop at h
    cases boxes with
    | cons b bs =>
      have hp : pending stack ⟨b :: bs, sofar, start, size⟩ = b :: pending stack ⟨bs, sofar, start, size⟩ := rfl
      simp only [LinesBound, hp, lineBreaks, ruledLine] at hi hr
      cases b with
      | inlineBox style first last children =>
        simp only [inlineStep] at h
        refine ih _ _ _ ⟨hi.1, ?_⟩ ?_ h
        · have := hi.2
          rw [InlineLevelBox.breaks] at this
          simp only [startInlineBox, pending, List.flatMap_cons, lineBreaks_append] at this ⊢
          omega
        · have := hr
          rw [InlineLevelBox.Ruled] at this
          simp only [startInlineBox, pending, List.flatMap_cons, ruledLine_append] at this ⊢
          exact ⟨this.1.2, this.2⟩
      | textRun style text =>
        simp only [inlineStep, layoutTextRun] at h
        split at h
        · cases h
        · rename_i e1
          split at e1
          · rename_i j e2
            cases e1
            obtain ⟨k1, k2, k3⟩ := textLines_counts F cb style _ _ _ _ _ e2 hi.1
            refine ih _ _ _ ⟨k1, ?_⟩ ?_ h
            · have := hi.2
              rw [InlineLevelBox.breaks] at this
              rw [k3]
              simp only at k2 ⊢
              omega
            · rw [k3]; exact hr.2
          · cases e1
        · rename_i e1
          split at e1
          · cases e1
          · cases e1
      | outOfFlowAbsolutelyPositioned =>
        rw [InlineLevelBox.Ruled] at hr
        exact hr.1.elim
      | outOfFlowFloat =>
        simp only [inlineStep] at h
        refine ih _ _ _ ⟨hi.1, ?_⟩ hr.2 h
        have := hi.2
        rw [InlineLevelBox.breaks] at this
        simp only at this ⊢
        omega
    | nil =>
      cases stack with
      | cons p stack =>
        simp only [inlineStep] at h
        refine ih _ _ _ ?_ ?_ h
        · exact ⟨hi.1, hi.2⟩
        · exact hr
      | nil =>
        simp only [inlineStep, finishLine] at h
        cases h
        refine ⟨rfl, ?_, ?_⟩
        · intro g hg
          rcases List.mem_append.1 hg with hg | hg
          · exact hi.1 g hg
          · rw [List.mem_singleton.1 hg]; exact ⟨_, _, _, rfl⟩
        · have := hi.2
          simp only [List.length_append, List.length_singleton] at this ⊢
          omega

theorem mostSteps_lines {D : Nat} : ∀ {fs : List (Fragment Rat)}, (∀ f ∈ fs, IsLine f) → mostSteps D fs ≤ D
  | [], _ => by rw [mostSteps]; exact Nat.zero_le _
  | f :: fs, h => by
    obtain ⟨r, c, m, rfl⟩ := h f (List.mem_cons_self ..)
    rw [mostSteps, Fragment.steps]
    exact max_le (le_refl _) (mostSteps_lines fun g hg => h g (List.mem_cons_of_mem _ hg))

theorem massAll_lines {K : Rat} : ∀ {fs : List (Fragment Rat)}, (∀ f ∈ fs, IsLine f) → massAll K fs = fs.length * K
  | [], _ => by rw [massAll]; simp
  | f :: fs, h => by
    obtain ⟨r, c, m, rfl⟩ := h f (List.mem_cons_self ..)
    rw [massAll, Fragment.mass, massAll_lines fun g hg => h g (List.mem_cons_of_mem _ hg), List.length_cons]
    push_cast
    ring

/-! ### Proof: blocks -/

/-- The fragment is not more than the box allows. -/
def Fits (D : Nat) (K : Rat) (b : BlockLevelBox) (f : Fragment Rat) : Prop := f.steps D ≤ b.tallness D ∧ f.mass K ≤ b.bulk K

theorem placeFragment_measures {D : Nat} {K : Rat} {s t : PlacementState Rat} {f g : Fragment Rat} (h : placeFragment s f = some (g, t)) :
    g.steps D = f.steps D ∧ g.mass K = f.mass K := by
  cases f with
  | text => cases h
  | anonymous =>
    simp only [placeFragment] at h
    split at h
    · cases h; exact ⟨by rw [Fragment.steps, Fragment.steps], by rw [Fragment.mass, Fragment.mass]⟩
    · cases h
  | box b c =>
    simp only [placeFragment] at h
    repeat' split at h
    all_goals first | contradiction | skip
    all_goals
      cases h
      exact ⟨rfl, rfl⟩

theorem Fits.placed {D : Nat} {K : Rat} {b : BlockLevelBox} {s t : PlacementState Rat} {f g : Fragment Rat} (h : Fits D K b f)
    (hp : placeFragment s f = some (g, t)) : Fits D K b g := by
  obtain ⟨h1, h2⟩ := placeFragment_measures (D := D) (K := K) hp
  exact ⟨by rw [h1]; exact h.1, by rw [h2]; exact h.2⟩

/-- Layout of the box gives no more than it allows. -/
def ChildFits (D : Nat) (K : Rat) (l : Nat → BlockLevelBox → Absolutes Rat → Option (Fragment Rat × Absolutes Rat)) (b : BlockLevelBox) : Prop :=
  ∀ r f as, l r b [] = some (f, as) → as = [] ∧ Fits D K b f

section
variable {D : Nat} {K : Rat} {l : Nat → BlockLevelBox → Absolutes Rat → Option (Fragment Rat × Absolutes Rat)}

theorem placeAll_fits : ∀ {bs : List BlockLevelBox} {fs gs : List (Fragment Rat)} {s t : PlacementState Rat},
    List.Forall₂ (Fits D K) bs fs → placeAll s fs = some (gs, t) → List.Forall₂ (Fits D K) bs gs
  | _, _, _, _, _, .nil, h => by cases h; exact .nil
  | _, _, _, _, _, .cons h1 h2, h => by
    simp only [placeAll] at h
    split at h
    · cases h
    rename_i e1
    split at h
    · cases h
    rename_i e2
    cases h
    exact .cons (h1.placed e1) (placeAll_fits h2 e2)

theorem layoutInOrder_fits : ∀ {bs : List BlockLevelBox} {rank : Nat} {s t : PlacementState Rat} {fs : List (Fragment Rat)} {as : Absolutes Rat},
    (∀ b ∈ bs, ChildFits D K l b) → layoutInOrder l rank bs [] s = some (fs, as, t) → as = [] ∧ List.Forall₂ (Fits D K) bs fs
  | [], _, _, _, _, _, _, h => by cases h; exact ⟨rfl, .nil⟩
  | b :: bs, rank, s, t, fs, as, hf, h => by
    simp only [layoutInOrder] at h
    split at h
    · cases h
    rename_i f as1 e1
    obtain ⟨rfl, h1⟩ := hf b (List.mem_cons_self ..) _ _ _ e1
    split at h
    · cases h
    rename_i e2
    split at h
    · cases h
    rename_i e3
    cases h
    obtain ⟨h2, h3⟩ := layoutInOrder_fits (fun c hc => hf c (List.mem_cons_of_mem _ hc)) e3
    exact ⟨h2, .cons (h1.placed e2) h3⟩

theorem foldTask_fits : ∀ {bs : List BlockLevelBox} {rank : Nat} {fs : List (Fragment Rat)} {as : Absolutes Rat},
    (∀ b ∈ bs, ChildFits D K l b) → mapfold.foldTask l rank bs [] = some (fs, as) → as = [] ∧ List.Forall₂ (Fits D K) bs fs
  | [], _, _, _, _, h => by cases h; exact ⟨rfl, .nil⟩
  | b :: bs, rank, fs, as, hf, h => by
    simp only [mapfold.foldTask] at h
    split at h
    · cases h
    rename_i f as1 e1
    obtain ⟨rfl, h1⟩ := hf b (List.mem_cons_self ..) _ _ _ e1
    split at h
    · cases h
    rename_i e3
    cases h
    obtain ⟨h2, h3⟩ := foldTask_fits (fun c hc => hf c (List.mem_cons_of_mem _ hc)) e3
    exact ⟨h2, .cons h1 h3⟩

theorem mapfold_fits : ∀ {schedule : Schedule} {bs : List BlockLevelBox} {rank : Nat} {fs : List (Fragment Rat)} {as : Absolutes Rat},
    (∀ b ∈ bs, ChildFits D K l b) → mapfold l schedule rank bs = some (fs, as) → as = [] ∧ List.Forall₂ (Fits D K) bs fs
  | .task, _, _, _, _, hf, h => foldTask_fits hf h
  | .join cut left right, bs, rank, fs, as, hf, h => by
    simp only [mapfold] at h
    split at h
    · rename_i e1 e2
      cases h
      obtain ⟨rfl, h1⟩ := mapfold_fits (fun c hc => hf c (List.mem_of_mem_take hc)) e1
      obtain ⟨rfl, h2⟩ := mapfold_fits (fun c hc => hf c (List.mem_of_mem_drop hc)) e2
      refine ⟨rfl, ?_⟩
      rw [← List.take_append_drop cut bs]
      exact List.rel_append h1 h2
    · cases h

theorem layoutChildren_fits {schedule : Schedule} {bs : List BlockLevelBox} {rank : Nat} {floats coll : Bool} {c : FlowChildren Rat}
    {as : Absolutes Rat} (hf : ∀ b ∈ bs, ChildFits D K l b) (h : layoutChildren schedule l bs rank [] floats coll = some (c, as)) :
    as = [] ∧ List.Forall₂ (Fits D K) bs c.fragments := by
  unfold layoutChildren at h
  cases floats with
  | true =>
    simp only [if_true, List.length_nil] at h
    split at h
    · cases h
    rename_i e1
    obtain ⟨rfl, h1⟩ := layoutInOrder_fits hf e1
    simp only [finishChildren, List.drop_nil, adjustStaticPositions, List.take_nil, List.append_nil] at h
    cases h
    exact ⟨rfl, h1⟩
  | false =>
    simp only [if_false, Bool.false_eq_true, List.length_nil, List.nil_append] at h
    split at h
    · cases h
    rename_i e1
    obtain ⟨rfl, h1⟩ := mapfold_fits hf e1
    split at h
    · cases h
    rename_i e2
    simp only [finishChildren, List.drop_nil, adjustStaticPositions, List.take_nil, List.append_nil] at h
    cases h
    exact ⟨rfl, placeAll_fits h1 e2⟩

theorem fits_steps : ∀ {bs : List BlockLevelBox} {fs : List (Fragment Rat)}, List.Forall₂ (Fits D K) bs fs →
    mostSteps D fs ≤ blocksTallness D bs
  | _, _, .nil => by rw [mostSteps, blocksTallness]
  | _, _, .cons h1 h2 => by rw [mostSteps, blocksTallness]; exact max_le_max h1.1 (fits_steps h2)

theorem fits_mass : ∀ {bs : List BlockLevelBox} {fs : List (Fragment Rat)}, List.Forall₂ (Fits D K) bs fs →
    massAll K fs ≤ blocksBulk K bs
  | _, _, .nil => by rw [massAll, blocksBulk]
  | _, _, .cons h1 h2 => by rw [massAll, blocksBulk]; exact add_le_add h1.2 (fits_mass h2)
end

/-- The contents are not more than the container allows. -/
def ContentsFit (D : Nat) (K : Rat) (c : BlockContainer) (fs : List (Fragment Rat)) : Prop :=
  fs.length + mostSteps D fs ≤ c.tallness D ∧ massAll K fs ≤ c.bulk K

theorem layoutInFlow_fits {D : Nat} {K : Rat} {cb : ContainingBlock Rat} {style : ComputedValues} {kind : BlockLevelKind} {contents : BlockContainer}
    {l : ContainingBlock Rat → Absolutes Rat → Bool → Option (FlowChildren Rat × Absolutes Rat)}
    {a : DefiniteContainingBlock Rat → Nat → AbsolutelyPositionedFragment Rat → Option (Fragment Rat)} {f : Fragment Rat} {as : Absolutes Rat}
    (hl : ∀ c coll p as, l c [] coll = some (p, as) → as = [] ∧ ContentsFit D K contents p.fragments)
    (h : layoutInFlow cb [] style kind l a = some (f, as)) :
    as = [] ∧ f.steps D ≤ 8 + contents.tallness D ∧ f.mass K ≤ 16 * lengthsSum style + contents.bulk K := by
  have e : (if (positionOf style).isRelativelyPositioned = true then ([] : Absolutes Rat) else []) = [] := by split <;> rfl
  unfold layoutInFlow at h
  simp only [e] at h
  split at h
  · cases h
  split at h
  · cases h
  rename_i p as1 e1
  obtain ⟨rfl, h1, h2⟩ := hl _ _ _ _ e1
  simp only [inPositionedContainingBlock] at h
  split at h
  all_goals
    cases h
    refine ⟨rfl, ?_, ?_⟩
    · rw [Fragment.steps]; exact Nat.add_le_add_left h1 8
    · rw [Fragment.mass]; exact (add_le_add_iff_left _).2 h2

theorem layout_fits {Err : Type} (F : FontApi Rat Err) (k e D : Nat) {K : Rat} (hK : 0 ≤ K) (fuel : Nat) : ∀ (s : Oracle),
    (∀ (c : BlockContainer) (cb : ContainingBlock Rat) (rank : Nat) (floats coll : Bool) (p : FlowChildren Rat) (as : Absolutes Rat),
      c.Ruled k e → layoutContainer F fuel s c cb rank [] floats coll = some (p, as) → as = [] ∧ ContentsFit D K c p.fragments) ∧
    (∀ (b : BlockLevelBox) (cb : ContainingBlock Rat) (rank : Nat) (floats : Bool) (f : Fragment Rat) (as : Absolutes Rat),
      b.Ruled k e → layoutBox F fuel s b cb rank [] floats = some (f, as) → as = [] ∧ Fits D K b f) := by
  induction fuel with
  | zero =>
    intro s
    exact ⟨fun c cb rank floats coll p as _ h => (by simp only [layoutContainer] at h; cases h),
      fun b cb rank floats f as _ h => (by simp only [layoutBox] at h; cases h)⟩
  | succ fuel ih =>
    intro s
    constructor
    · intro c cb rank floats coll p as hc h
      cases c with
      | inlineFormattingContext boxes =>
        rw [BlockContainer.Ruled] at hc
        rw [layoutContainer, layoutInline] at h
        have hp : pending [] (initialInlineState (R := Rat) boxes).current = boxes := by simp [pending, initialInlineState]
        obtain ⟨h1, h2, h3⟩ := inlineLoop_counts F cb rank k e (lineBreaks boxes) _ (initialInlineState boxes) _ _
          ⟨fun f hf => (by cases hf), by rw [show (initialInlineState (R := Rat) boxes).stack = [] from rfl, hp]; simp [initialInlineState]⟩
          (by rw [show (initialInlineState (R := Rat) boxes).stack = [] from rfl, hp]; exact hc) h
        refine ⟨h1, ?_, ?_⟩
        · rw [BlockContainer.tallness]; exact Nat.add_le_add h3 (mostSteps_lines h2)
        · rw [BlockContainer.bulk, massAll_lines h2]
          exact mul_le_mul_of_nonneg_right (by exact_mod_cast h3) hK
      | blockLevelBoxes boxes =>
        rw [BlockContainer.Ruled] at hc
        rw [layoutContainer] at h
        obtain ⟨h1, h2⟩ := layoutChildren_fits (D := D) (K := K)
          (fun b hb r f as hr => (ih (s.sub r)).2 b cb r floats f as (ruledBlocks_mem hc hb) hr) h
        refine ⟨h1, ?_, ?_⟩
        · rw [BlockContainer.tallness]; exact Nat.add_le_add (le_of_eq h2.length_eq.symm) (fits_steps h2)
        · rw [BlockContainer.bulk]; exact fits_mass h2
    · intro b cb rank floats f as hb h
      cases b with
      | outOfFlowAbsolutelyPositioned => rw [BlockLevelBox.Ruled] at hb; exact hb.elim
      | outOfFlowFloat =>
        simp only [layoutBox, Fragment.noOp] at h
        cases h
        exact ⟨rfl, by rw [Fragment.steps, BlockLevelBox.tallness], by rw [Fragment.mass, BlockLevelBox.bulk]⟩
      | sameFormattingContextBlock style contents =>
        rw [BlockLevelBox.Ruled] at hb
        rw [layoutBox] at h
        rw [Fits, BlockLevelBox.tallness, BlockLevelBox.bulk]
        exact layoutInFlow_fits (fun c coll p as hp => (ih (s.sub 0)).1 contents c rank floats coll p as hb.2 hp) h
      | independent style containsFloats contents =>
        rw [BlockLevelBox.Ruled] at hb
        rw [layoutBox] at h
        rw [Fits, BlockLevelBox.tallness, BlockLevelBox.bulk]
        refine layoutInFlow_fits (fun c coll p as hp => ?_) h
        rcases e1 : layoutContainer F fuel (s.sub 0) contents c rank [] containsFloats false with _ | ⟨q, as1⟩
        · simp only [e1, mapFst] at hp; cases hp
        simp only [e1, mapFst] at hp
        cases hp
        exact (ih (s.sub 0)).1 contents c rank containsFloats false q as hb.2 e1

theorem layoutRoot_fits {Err : Type} (F : FontApi Rat Err) (k e D : Nat) {K : Rat} (hK : 0 ≤ K) (fuel : Nat) (s : Oracle)
    (root : BlockFormattingContext) (viewport : Vec2 Rat) (hr : root.contents.Ruled k e) (gs : List (Fragment Rat))
    (h : layoutRoot F fuel s root viewport = some gs) : ContentsFit D K root.contents gs := by
  simp only [layoutRoot, layoutContext] at h
  rcases e1 : layoutContainer F fuel (s.sub 0) root.contents ⟨viewport.inline, .length viewport.block, (.horizontalTb, .ltr)⟩ 0 []
      root.containsFloats false with _ | ⟨p, as⟩
  · simp only [e1, mapFst] at h; cases h
  obtain ⟨rfl, h1⟩ := (layout_fits F k e D hK fuel (s.sub 0)).1 _ _ _ _ _ _ _ hr e1
  simp only [e1, mapFst, layoutAll, List.append_nil] at h
  cases h
  exact h1

/-! ### Theorems -/

section
attribute [local instance] singleNumbers
variable {Err : Type} {api : FontApi Single Err} {advance : Nat → Nat} {e : Nat}

/-- **C127** with measures of the tree of boxes alone: under conditions that are about the tree of boxes, the font and the width of the page only, layout
with `f32` and layout with the numbers of mathematics both succeed, on every division of the work between threads; the lines and all that is from left
to right are the same, and nothing is moved up or down by more than `(tallness + 3) * bulk / 2 ^ 23` pixels. -/
theorem C127_static (hf : EmFont api (2 ^ e) advance) (he : e < 16) (k : Nat) (hk : k ≤ 100) (root : BlockFormattingContext)
    (width height : Rat) (hr : root.contents.Ruled k e) (hw : Whole k width)
    (hs : |width| + root.contents.reach (textUnits api advance) e < 2 ^ 23 / 2 ^ k) (D : Nat) (K : Rat) (hK : 0 ≤ K)
    (hlow : root.contents.Low D K) (hwf : root.contents.Wf api) (fuel : Nat) (hfuel : root.contents.depth ≤ fuel) (schedule : Oracle)
    (hn : root.contents.tallness D + 3 ≤ 2 ^ 23) (hm : root.contents.bulk K ≤ 2 ^ 100) :
    ∃ fs gs, layoutRoot api fuel schedule root ⟨Single.round width, Single.round height⟩ = some fs ∧
      layoutRoot (exactFont api (2 ^ e) advance) fuel schedule root ⟨width, height⟩ = some gs ∧ List.Forall₂ (RowsAgree Exactly) fs gs ∧
      List.Forall₂ (ColumnsAgree (Within ((root.contents.tallness D + 3 : Nat) * root.contents.bulk K / 2 ^ 23))) fs gs := by
  obtain ⟨fs, gs, h1, h2, h3⟩ := C125_exists hf he k hk root width height hr hw hs hwf fuel hfuel schedule
  obtain ⟨s1, s2⟩ := layoutRoot_fits (exactFont api (2 ^ e) advance) k e D hK fuel schedule root ⟨width, height⟩ hr gs h2
  refine ⟨fs, gs, h1, h2, h3, ?_⟩
  have := C127_columns hf he k hk root width height hr hw hs D K hK hlow fuel schedule fs gs h1 h2 (by omega) (s2.trans hm)
  refine ColumnsAgree.impAll (fun a a' h => ⟨h.1, h.2.trans ?_⟩) fs gs this
  refine div_le_div_of_nonneg_right ?_ (by positivity)
  exact mul_le_mul (by exact_mod_cast (by omega : gs.length + mostSteps D gs + 3 ≤ root.contents.tallness D + 3)) s2 (massAll_nonneg hK gs)
    (Nat.cast_nonneg _)
end

/-! ### An example -/

mutual
/-- A test for `BlockContainer.Wf` with a font that has all characters: nothing is out of flow. -/
def inFlowTest : BlockContainer → Bool
  | .blockLevelBoxes boxes => inFlowBlocksTest boxes
  | .inlineFormattingContext boxes => inFlowLineTest boxes
/-- See `inFlowTest`. -/
def inFlowBoxTest : BlockLevelBox → Bool
  | .sameFormattingContextBlock _ contents => inFlowTest contents
  | .outOfFlowAbsolutelyPositioned _ _ _ => false
  | .outOfFlowFloat _ _ _ => false
  | .independent _ _ contents => inFlowTest contents
/-- See `inFlowTest`. -/
def inFlowBlocksTest : List BlockLevelBox → Bool
  | [] => true
  | b :: bs => inFlowBoxTest b && inFlowBlocksTest bs
/-- See `inFlowTest`. -/
def inFlowInlineTest : InlineLevelBox → Bool
  | .inlineBox _ _ _ children => inFlowLineTest children
  | .textRun _ _ => true
  | .outOfFlowAbsolutelyPositioned _ _ _ => false
  | .outOfFlowFloat _ _ _ => false
/-- See `inFlowTest`. -/
def inFlowLineTest : List InlineLevelBox → Bool
  | [] => true
  | b :: bs => inFlowInlineTest b && inFlowLineTest bs
end

section
variable {Err : Type} {F : FontApi Single Err} (hF : ∀ ch, Shapable F ch)
include hF
mutual
theorem inFlowTest_sound : ∀ {c : BlockContainer}, inFlowTest c = true → c.Wf F
  | .blockLevelBoxes _, h => by rw [inFlowTest] at h; rw [BlockContainer.Wf]; exact inFlowBlocksTest_sound h
  | .inlineFormattingContext _, h => by rw [inFlowTest] at h; rw [BlockContainer.Wf]; exact inFlowLineTest_sound h
theorem inFlowBoxTest_sound : ∀ {b : BlockLevelBox}, inFlowBoxTest b = true → b.Wf F
  | .sameFormattingContextBlock _ _, h => by rw [inFlowBoxTest] at h; rw [BlockLevelBox.Wf]; exact inFlowTest_sound h
  | .outOfFlowAbsolutelyPositioned _ _ _, h => by rw [inFlowBoxTest] at h; cases h
  | .outOfFlowFloat _ _ _, h => by rw [inFlowBoxTest] at h; cases h
  | .independent _ _ _, h => by rw [inFlowBoxTest] at h; rw [BlockLevelBox.Wf]; exact inFlowTest_sound h
theorem inFlowBlocksTest_sound : ∀ {bs : List BlockLevelBox}, inFlowBlocksTest bs = true → blocksWf F bs
  | [], _ => by rw [blocksWf]; trivial
  | _ :: _, h => by
    rw [inFlowBlocksTest, Bool.and_eq_true] at h; rw [blocksWf]; exact ⟨inFlowBoxTest_sound h.1, inFlowBlocksTest_sound h.2⟩
theorem inFlowInlineTest_sound : ∀ {b : InlineLevelBox}, inFlowInlineTest b = true → b.Wf F
  | .inlineBox _ _ _ _, h => by rw [inFlowInlineTest] at h; rw [InlineLevelBox.Wf]; exact inFlowLineTest_sound h
  | .textRun _ _, _ => by rw [InlineLevelBox.Wf]; exact fun ch _ => hF ch
  | .outOfFlowAbsolutelyPositioned _ _ _, h => by rw [inFlowInlineTest] at h; cases h
  | .outOfFlowFloat _ _ _, h => by rw [inFlowInlineTest] at h; cases h
theorem inFlowLineTest_sound : ∀ {bs : List InlineLevelBox}, inFlowLineTest bs = true → inlinesWf F bs
  | [], _ => by rw [inlinesWf]; trivial
  | _ :: _, h => by
    rw [inFlowLineTest, Bool.and_eq_true] at h; rw [inlinesWf]; exact ⟨inFlowInlineTest_sound h.1, inFlowLineTest_sound h.2⟩
end
end

/-- All hypotheses of `C127_static` are met by the boxes of `rowDocument`, with `k = 7`, `e = 11`, `D = 6`, `K = 60` and the fuel 9. The tests are sound
by `ruledTest_sound`, `lowTest_sound` and `inFlowTest_sound`. So nothing in it is moved by more than 0.01 pixels. -/
theorem C127_static_example :
    (constructDocument rowEngine rowDocument 9).map (fun root => (ruledTest 7 11 root.contents && lowTest 6 60 root.contents &&
      inFlowTest root.contents && decide (root.contents.reach (textUnits halfFont fun _ => 1024) 11 = 1456) &&
      decide (root.contents.bulk 60 = 1444), root.contents.tallness 6 + 3, root.contents.depth)) = some (true, 38, 5) ∧
    (600 + 1456 : Rat) < 2 ^ 23 / 2 ^ 7 ∧ (∀ ch, Shapable halfFont ch) ∧ (38 * 1444 / 2 ^ 23 : Rat) < 1 / 100 := by
  have hp : parseStylesheets rowEngine rowDocument = some ⟨[]⟩ := rowEngine_sheets rfl
  refine ⟨?_, by norm_num, fun ch => ⟨_, _, rfl, rfl⟩, by norm_num⟩
  simp only [constructDocument, hp]
  decide +kernel

end Verif.Layout.Machine
