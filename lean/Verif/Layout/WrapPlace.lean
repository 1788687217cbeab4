/- Placing blocks from another point on. -/
import Verif.Layout.WrapInline
namespace Verif.Layout
open Verif.Style Verif.Text

theorem Vec2.add_zero_block (o : Vec2 Rat) : o.add ⟨0, 0⟩ = o := by simp [Vec2.add]

theorem Vec2.add_down (o : Vec2 Rat) (d e : Rat) : (o.add ⟨0, d⟩).add ⟨0, e⟩ = o.add ⟨0, d + e⟩ := by
  simp [Vec2.add, add_assoc]

theorem Fragment.ink_move (asc : Rat) (o : Vec2 Rat) (info : BoxInfo) (children : List Fragment) (d : Rat) :
    (Fragment.box (info.moveBlock d) children).ink asc o = (Fragment.box info children).ink asc (o.add ⟨0, d⟩) := by
  have e : o.add (info.moveBlock d).contentRect.startCorner = (o.add ⟨0, d⟩).add info.contentRect.startCorner := by
    simp only [BoxInfo.moveBlock, Vec2.add, Vec2.mk.injEq]
    constructor <;> ring
  have e2 : (info.moveBlock d).ink o = info.ink (o.add ⟨0, d⟩) := by
    simp only [BoxInfo.ink, Fragment.shape, BoxInfo.moveBlock, Vec2.add]
    have h1 : o.inline + info.contentRect.startCorner.inline - info.padding.inlineStart - info.border.inlineStart =
      o.inline + 0 + info.contentRect.startCorner.inline - info.padding.inlineStart - info.border.inlineStart := by ring
    have h2 : o.block + (info.contentRect.startCorner.block + d) - info.padding.blockStart - info.border.blockStart =
      o.block + d + info.contentRect.startCorner.block - info.padding.blockStart - info.border.blockStart := by ring
    rw [h1, h2]
    rfl
  rw [Fragment.ink, Fragment.ink, e, e2]

/-- Margins as they come about. -/
def CollapsedMargin.Sane (m : CollapsedMargin) : Prop := 0 ≤ m.maxPositive ∧ m.minNegative ≤ 0

theorem CollapsedMargin.sane_zero : CollapsedMargin.zero.Sane := ⟨le_refl _, le_refl _⟩
theorem CollapsedMargin.sane_new (x : Rat) : (CollapsedMargin.new x).Sane := ⟨le_max_right _ _, min_le_right _ _⟩
theorem CollapsedMargin.Sane.adjoin {a b : CollapsedMargin} (ha : a.Sane) (_ : b.Sane) : (a.adjoin b).Sane :=
  ⟨le_trans ha.1 (le_max_left _ _), le_trans (min_le_left _ _) ha.2⟩
theorem CollapsedMargin.Sane.adjoin_zero {a : CollapsedMargin} (ha : a.Sane) : a.adjoin .zero = a := by
  simp only [CollapsedMargin.adjoin, CollapsedMargin.zero, max_eq_left ha.1, min_eq_left ha.2]
theorem CollapsedMargin.Sane.zero_adjoin {a : CollapsedMargin} (ha : a.Sane) : CollapsedMargin.zero.adjoin a = a := by
  simp only [CollapsedMargin.adjoin, CollapsedMargin.zero, max_eq_right ha.1, min_eq_right ha.2]
theorem CollapsedMargin.adjoin_assoc (a b c : CollapsedMargin) : (a.adjoin b).adjoin c = a.adjoin (b.adjoin c) := by
  simp only [CollapsedMargin.adjoin, max_assoc, min_assoc]

/-- What is known of the state while blocks are placed. -/
structure PlacementState.Reached (s : PlacementState) : Prop where
  start : s.startMargin.Sane
  current : s.currentMargin.Sane
  first : s.nextInFlowMarginCollapsesWithParentStartMargin = true → s.currentMargin = .zero ∧ s.currentBlockDirectionPosition = 0

theorem reached_initial (c : Bool) : (PlacementState.initial c).Reached :=
  ⟨CollapsedMargin.sane_zero, CollapsedMargin.sane_zero, fun _ => ⟨rfl, rfl⟩⟩

/-- What is known of the fragment of a block that is not placed yet. -/
def Fragment.Sound (asc : Rat) : Fragment → Prop
  | .box info children =>
    info.blockMarginsCollapsedWithChildren.start.Sane ∧ info.blockMarginsCollapsedWithChildren.end.Sane ∧
    (info.blockMarginsCollapsedWithChildren.collapsedThrough = true →
      info.borderBlockSize = 0 ∧ ∀ o, (Fragment.box info children).ink asc o = [])
  | .anonymous rect children _ => rect = Rect.zero ∧ children = []
  | .text _ _ _ => False

/-- The state that `a` becomes if what led to it is done from `s` on. -/
def PlacementState.from (s a : PlacementState) : PlacementState :=
  if s.nextInFlowMarginCollapsesWithParentStartMargin then
    ⟨a.nextInFlowMarginCollapsesWithParentStartMargin, s.startMargin.adjoin a.startMargin, a.currentMargin, a.currentBlockDirectionPosition⟩
  else if a.nextInFlowMarginCollapsesWithParentStartMargin then
    ⟨false, s.startMargin, s.currentMargin.adjoin a.startMargin, s.currentBlockDirectionPosition⟩
  else ⟨false, s.startMargin, a.currentMargin,
    s.currentBlockDirectionPosition + (s.currentMargin.adjoin a.startMargin).solve + a.currentBlockDirectionPosition⟩

/-- How far down what led to `a` is if it is done from `s` on. -/
def PlacementState.down (s a : PlacementState) : Rat :=
  if s.nextInFlowMarginCollapsesWithParentStartMargin then 0
  else s.currentBlockDirectionPosition + (s.currentMargin.adjoin a.startMargin).solve

theorem PlacementState.from_initial {s : PlacementState} (h : s.Reached) : s.from (.initial true) = s := by
  obtain ⟨n, S, m, y⟩ := s
  cases n with
  | true =>
    obtain ⟨h1, h2⟩ := h.first rfl
    simp only at h1 h2
    simp only [PlacementState.from, PlacementState.initial, if_true, h.start.adjoin_zero, h1, h2]
  | false =>
    simp only [PlacementState.from, PlacementState.initial, Bool.false_eq_true, if_false, if_true]
    rw [CollapsedMargin.Sane.adjoin_zero h.current]

theorem zero_solve : CollapsedMargin.zero.solve = 0 := solve_zero

/-- The result of one step. -/
theorem place_sound {asc : Rat} {a : PlacementState} {f : Fragment} (ha : a.Reached) (hf : f.Sound asc) :
    ∃ g a1, placeFragment a f = some (g, a1) ∧ a1.Reached ∧
      (a1.nextInFlowMarginCollapsesWithParentStartMargin = true →
        a.nextInFlowMarginCollapsesWithParentStartMargin = true ∧ ∀ o, g.ink asc o = []) := by
  cases f with
  | text => exact hf.elim
  | anonymous rect children mode =>
    obtain ⟨rfl, rfl⟩ := hf
    simp only [placeFragment, Rect.zero, Vec2.zero, List.isEmpty_nil, and_self, if_true]
    exact ⟨_, _, rfl, ha, fun h => ⟨h, fun o => by simp [Fragment.ink, inkOf]⟩⟩
  | box info children =>
    obtain ⟨h1, h2, h3⟩ := hf
    simp only [placeFragment]
    cases hn : a.nextInFlowMarginCollapsesWithParentStartMargin with
    | true =>
      obtain ⟨h4, h5⟩ := ha.first hn
      rw [if_pos rfl, if_pos (by rw [h4, zero_solve])]
      cases ht : info.blockMarginsCollapsedWithChildren.collapsedThrough with
      | true =>
        refine ⟨_, _, rfl, ⟨(ha.start.adjoin h1).adjoin h2, ha.current, fun _ => ⟨h4, h5⟩⟩, fun _ => ⟨rfl, (h3 ht).2⟩⟩
      | false =>
        refine ⟨_, _, rfl, ⟨ha.start.adjoin h1, h2, fun h => by cases h⟩, fun h => by cases h⟩
    | false =>
      simp only [Bool.false_eq_true, if_false]
      cases ht : info.blockMarginsCollapsedWithChildren.collapsedThrough with
      | true =>
        simp only [if_true]
        exact ⟨_, _, rfl, ⟨ha.start, (ha.current.adjoin h1).adjoin h2, fun h => by simp at h⟩, fun h => by simp at h⟩
      | false =>
        simp only [Bool.false_eq_true, if_false]
        exact ⟨_, _, rfl, ⟨ha.start, h2, fun h => by simp at h⟩, fun h => by simp at h⟩

/-- One step from another point on. -/
theorem place_from {asc : Rat} {s a a1 : PlacementState} {f g : Fragment} (hs : s.Reached) (ha : a.Reached) (hf : f.Sound asc)
    (h : placeFragment a f = some (g, a1)) :
    ∃ g', placeFragment (s.from a) f = some (g', s.from a1) ∧ (∀ o, g'.ink asc o = g.ink asc (o.add ⟨0, s.down a1⟩)) ∧
      (a.nextInFlowMarginCollapsesWithParentStartMargin = false → s.down a1 = s.down a) := by
  obtain ⟨sn, S, m, y⟩ := s
  obtain ⟨an, T, c, p⟩ := a
  cases f with
  | text => exact hf.elim
  | anonymous rect children mode =>
    obtain ⟨rfl, rfl⟩ := hf
    simp only [placeFragment, Rect.zero, Vec2.zero, List.isEmpty_nil, and_self, if_true] at h ⊢
    cases h
    exact ⟨_, rfl, fun o => by simp [Fragment.ink, inkOf], fun _ => rfl⟩
  | box info children =>
    obtain ⟨h1, h2, h3⟩ := hf
    simp only [placeFragment] at h ⊢
    cases an with
    | true =>
      obtain ⟨h4, h5⟩ := ha.first rfl
      simp only at h4 h5
      subst h4 h5
      simp only [if_true, zero_solve] at h
      cases ht : info.blockMarginsCollapsedWithChildren.collapsedThrough with
      | true =>
        simp only [ht, if_true] at h
        cases h
        cases sn with
        | true =>
          simp only [PlacementState.from, PlacementState.down, if_true, zero_solve, CollapsedMargin.adjoin_assoc]
          exact ⟨_, rfl, fun o => by rw [Vec2.add_zero_block], fun h => by cases h⟩
        | false =>
          simp only [PlacementState.from, PlacementState.down, if_true, Bool.false_eq_true, if_false, CollapsedMargin.adjoin_assoc]
          exact ⟨_, rfl, fun o => by rw [Fragment.ink_move, (h3 ht).2, (h3 ht).2], fun h => by cases h⟩
      | false =>
        simp only [ht, Bool.false_eq_true, if_false] at h
        cases h
        cases sn with
        | true =>
          simp only [PlacementState.from, PlacementState.down, if_true, zero_solve, CollapsedMargin.adjoin_assoc, Bool.false_eq_true, if_false]
          exact ⟨_, rfl, fun o => by rw [Vec2.add_zero_block], fun h => by cases h⟩
        | false =>
          simp only [PlacementState.from, PlacementState.down, if_true, Bool.false_eq_true, if_false, CollapsedMargin.adjoin_assoc]
          refine ⟨_, by congr 3; ring, fun o => ?_, fun h => by cases h⟩
          rw [Fragment.ink_move, Fragment.ink_move, Vec2.add_down]
          congr 3
          ring
    | false =>
      simp only [Bool.false_eq_true, if_false] at h
      cases ht : info.blockMarginsCollapsedWithChildren.collapsedThrough with
      | true =>
        simp only [ht, if_true] at h
        cases h
        cases sn with
        | true =>
          simp only [PlacementState.from, PlacementState.down, if_true, Bool.false_eq_true, if_false]
          exact ⟨_, rfl, fun o => by rw [Vec2.add_zero_block], fun _ => trivial⟩
        | false =>
          simp only [PlacementState.from, PlacementState.down, if_true, Bool.false_eq_true, if_false]
          exact ⟨_, rfl, fun o => by rw [Fragment.ink_move, Fragment.ink_move, (h3 ht).2, (h3 ht).2], fun _ => trivial⟩
      | false =>
        simp only [ht, Bool.false_eq_true, if_false] at h
        cases h
        cases sn with
        | true =>
          simp only [PlacementState.from, PlacementState.down, if_true, Bool.false_eq_true, if_false]
          exact ⟨_, rfl, fun o => by rw [Vec2.add_zero_block], fun _ => trivial⟩
        | false =>
          simp only [PlacementState.from, PlacementState.down, Bool.false_eq_true, if_false]
          refine ⟨_, by congr 3; ring, fun o => ?_, fun _ => trivial⟩
          rw [Fragment.ink_move, Fragment.ink_move, Vec2.add_down]
          congr 3
          ring

theorem placeAll_sound {asc : Rat} : ∀ (fs : List Fragment) (a : PlacementState), a.Reached → (∀ f ∈ fs, f.Sound asc) →
    ∃ gs a1, placeAll a fs = some (gs, a1) ∧ a1.Reached ∧
      (a1.nextInFlowMarginCollapsesWithParentStartMargin = true →
        a.nextInFlowMarginCollapsesWithParentStartMargin = true ∧ ∀ o, inkOf asc o gs = []) := by
  intro fs
  induction fs with
  | nil => intro a ha _; exact ⟨[], a, rfl, ha, fun h => ⟨h, fun _ => rfl⟩⟩
  | cons f fs ih =>
    intro a ha hf
    obtain ⟨g, a1, h1, h2, h3⟩ := place_sound ha (hf f List.mem_cons_self)
    obtain ⟨gs, a2, h4, h5, h6⟩ := ih a1 h2 fun f hm => hf f (List.mem_cons_of_mem _ hm)
    refine ⟨g :: gs, a2, by simp only [placeAll, h1, h4], h5, fun h => ?_⟩
    obtain ⟨h7, h8⟩ := h6 h
    obtain ⟨h9, h10⟩ := h3 h7
    exact ⟨h9, fun o => by rw [inkOf, h8, h10, List.nil_append]⟩

/-- Placing blocks from another point on gives the same, further down. -/
theorem placeAll_from {asc : Rat} {s : PlacementState} (hs : s.Reached) : ∀ (fs gs : List Fragment) (a a1 : PlacementState), a.Reached →
    (∀ f ∈ fs, f.Sound asc) → placeAll a fs = some (gs, a1) →
    ∃ gs', placeAll (s.from a) fs = some (gs', s.from a1) ∧ (∀ o, inkOf asc o gs' = inkOf asc (o.add ⟨0, s.down a1⟩) gs) ∧
      (a.nextInFlowMarginCollapsesWithParentStartMargin = false → s.down a1 = s.down a) := by
  intro fs
  induction fs with
  | nil =>
    intro gs a a1 ha hf h
    cases h
    exact ⟨[], rfl, fun _ => rfl, fun _ => rfl⟩
  | cons f fs ih =>
    intro gs a a2 ha hf h
    obtain ⟨g, a1, h1, h2, h3⟩ := place_sound ha (hf f List.mem_cons_self)
    simp only [placeAll, h1] at h
    rcases h4 : placeAll a1 fs with _ | ⟨gs1, a2'⟩
    · simp [h4] at h
    · simp only [h4] at h
      cases h
      obtain ⟨g', p1, p2, p3⟩ := place_from hs ha (hf f List.mem_cons_self) h1
      obtain ⟨gs', q1, q2, q3⟩ := ih gs1 a1 a2 h2 (fun f hm => hf f (List.mem_cons_of_mem _ hm)) h4
      refine ⟨g' :: gs', by simp only [placeAll, p1, q1], fun o => ?_, fun h => ?_⟩
      · rw [inkOf, inkOf, q2, p2]
        congr 1
        cases hn : a1.nextInFlowMarginCollapsesWithParentStartMargin with
        | true => rw [(h3 hn).2, (h3 hn).2]
        | false => rw [q3 hn]
      · rw [← p3 h]
        refine q3 ?_
        cases hn : a1.nextInFlowMarginCollapsesWithParentStartMargin with
        | true => rw [(h3 hn).1] at h; cases h
        | false => rfl

/-- The two fragments are placed in the same way, and look the same. -/
def Fragment.Alike (asc : Rat) : Fragment → Fragment → Prop
  | .box i c, .box i' c' => i.blockMarginsCollapsedWithChildren = i'.blockMarginsCollapsedWithChildren ∧
      i.borderBlockSize = i'.borderBlockSize ∧ ∀ o, (Fragment.box i c).ink asc o = (Fragment.box i' c').ink asc o
  | .anonymous r c m, .anonymous r' c' m' => r = r' ∧ c = c' ∧ m = m'
  | _, _ => False

theorem place_alike {asc : Rat} {s s1 s1' : PlacementState} {f f' g g' : Fragment} (h : f.Alike asc f') (hp : placeFragment s f = some (g, s1))
    (hp' : placeFragment s f' = some (g', s1')) : s1 = s1' ∧ ∀ o, g.ink asc o = g'.ink asc o := by
  cases f with
  | text => cases f' <;> exact h.elim
  | anonymous r c m =>
    cases f' with
    | anonymous r' c' m' =>
      obtain ⟨rfl, rfl, rfl⟩ := h
      rw [hp] at hp'
      cases hp'
      exact ⟨rfl, fun _ => rfl⟩
    | _ => exact h.elim
  | box i c =>
    cases f' with
    | box i' c' =>
      obtain ⟨h1, h2, h3⟩ := h
      simp only [placeFragment, ← h1, ← h2] at hp hp'
      split at hp
      · rename_i hn
        rw [if_pos hn] at hp'
        split at hp
        · rename_i hz
          rw [if_pos hz] at hp'
          split at hp
          · rename_i ht
            rw [if_pos ht] at hp'
            cases hp
            cases hp'
            exact ⟨rfl, h3⟩
          · rename_i ht
            rw [if_neg ht] at hp'
            cases hp
            cases hp'
            exact ⟨rfl, fun o => by rw [Fragment.ink_move, Fragment.ink_move, h3]⟩
        · cases hp
      · rename_i hn
        rw [if_neg hn] at hp'
        split at hp
        · rename_i ht
          rw [if_pos ht] at hp'
          cases hp
          cases hp'
          exact ⟨rfl, fun o => by rw [Fragment.ink_move, Fragment.ink_move, h3]⟩
        · rename_i ht
          rw [if_neg ht] at hp'
          cases hp
          cases hp'
          exact ⟨rfl, fun o => by rw [Fragment.ink_move, Fragment.ink_move, h3]⟩
    | _ => exact h.elim

end Verif.Layout
