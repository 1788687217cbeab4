/- Which margins collapse: steps down a page, in normal form. Lemmas for C106. -/
import Verif.Layout.CollapseSpec
import Verif.Layout.BoundLemmas
import Verif.Layout.WrapLayout
namespace Verif.Layout
open Verif.Style Verif.Text

/-- What matters of steps: they are margins only, or there are margins, then parts that take up `size` in all, then margins. -/
inductive Norm where
  | run (margins : List Rat)
  | solid (lead : List Rat) (size : Rat) (trail : List Rat)

/-- Some steps after others. -/
def Norm.then : Norm → Norm → Norm
  | .run a, .run b => .run (a ++ b)
  | .run a, .solid l c t => .solid (a ++ l) c t
  | .solid l c t, .run b => .solid l c (t ++ b)
  | .solid l c t, .solid l' c' t' => .solid l (c + collapsedSize (t ++ l') + c') t'

def Norm.total : Norm → Rat
  | .run a => collapsedSize a
  | .solid l c t => collapsedSize l + c + collapsedSize t

def Norm.lead : Norm → List Rat
  | .run a => a
  | .solid l _ _ => l

def Norm.ofStep : DownStep → Norm
  | .margin m => .run [m]
  | .part h => .solid [] h []

def norm : List DownStep → Norm
  | [] => .run []
  | s :: ss => (Norm.ofStep s).then (norm ss)

theorem collapsedSize_nil : collapsedSize [] = 0 := by simp [collapsedSize]

theorem Norm.then_assoc (a b c : Norm) : (a.then b).then c = a.then (b.then c) := by
  cases a <;> cases b <;> cases c <;> simp only [Norm.then, List.append_assoc, Norm.solid.injEq, true_and, and_true]
  ring

theorem Norm.nil_then (a : Norm) : (Norm.run []).then a = a := by cases a <;> rfl

theorem Norm.then_nil (a : Norm) : a.then (.run []) = a := by cases a <;> simp [Norm.then]

theorem norm_append (a b : List DownStep) : norm (a ++ b) = (norm a).then (norm b) := by
  induction a with
  | nil => rw [List.nil_append, norm, Norm.nil_then]
  | cons s a ih => rw [List.cons_append, norm, norm, ih, Norm.then_assoc]

theorem descend_norm (p : List Rat) (steps : List DownStep) : descend p steps = ((Norm.run p).then (norm steps)).total := by
  induction steps generalizing p with
  | nil => simp [descend, norm, Norm.then, Norm.total]
  | cons s steps ih =>
    cases s with
    | margin m => rw [descend, ih, norm, Norm.ofStep, ← Norm.then_assoc]; rfl
    | part h =>
      rw [descend, ih, norm, Norm.ofStep, ← Norm.then_assoc, Norm.nil_then]
      cases norm steps <;> simp only [Norm.then, Norm.total, List.append_nil, List.nil_append] <;> ring

theorem descend_total (steps : List DownStep) : descend [] steps = (norm steps).total := by rw [descend_norm, Norm.nil_then]

theorem norm_leading (steps : List DownStep) : norm (leadingMargins steps) = .run (norm steps).lead := by
  induction steps with
  | nil => rfl
  | cons s steps ih =>
    cases s with
    | margin m =>
      have : leadingMargins (.margin m :: steps) = .margin m :: leadingMargins steps := rfl
      rw [this, norm, ih, norm, Norm.ofStep]
      cases norm steps <;> rfl
    | part h =>
      have : leadingMargins (.part h :: steps) = [] := rfl
      rw [this, norm, norm, Norm.ofStep]
      cases norm steps <;> rfl

theorem norm_margins (steps : List DownStep) : steps.all DownStep.isMargin = true ↔ ∃ ms, norm steps = .run ms := by
  induction steps with
  | nil => simp [norm]
  | cons s steps ih =>
    cases s with
    | margin m =>
      rw [List.all_cons, norm, Norm.ofStep]
      simp only [DownStep.isMargin, Bool.true_and, ih]
      cases norm steps <;> simp [Norm.then]
    | part h =>
      rw [List.all_cons, norm, Norm.ofStep]
      simp only [DownStep.isMargin, Bool.false_and, Bool.false_eq_true, false_iff]
      cases norm steps <;> simp [Norm.then]

theorem withoutTrailing_append_margin (steps : List DownStep) (m : Rat) : withoutTrailing (steps ++ [.margin m]) = withoutTrailing steps := by
  simp only [withoutTrailing, List.reverse_append, List.reverse_singleton, List.singleton_append]
  rw [List.dropWhile_cons_of_pos rfl]

theorem withoutTrailing_append_part (steps : List DownStep) (h : Rat) : withoutTrailing (steps ++ [.part h]) = steps ++ [.part h] := by
  simp [withoutTrailing, DownStep.isMargin]

theorem norm_withoutTrailing {l t : List Rat} {c : Rat} (steps : List DownStep) (h : norm steps = .solid l c t) :
    norm (withoutTrailing steps) = .solid l c [] := by
  induction steps using List.reverseRecOn generalizing t with
  | nil => cases h
  | append_singleton steps s ih =>
    rw [norm_append] at h
    cases s with
    | margin m =>
      rw [withoutTrailing_append_margin]
      cases hn : norm steps with
      | run a => rw [hn] at h; cases h
      | solid l' c' t' =>
        rw [hn] at h
        cases h
        exact ih hn
    | part p =>
      rw [withoutTrailing_append_part, norm_append]
      cases hn : norm steps with
      | run a => rw [hn] at h; cases h; rfl
      | solid l' c' t' => rw [hn] at h; cases h; rfl

/-! ### Collapsed margins -/

theorem collapsedSize_largest (l : List Rat) : LargestPositive l (l.foldr max 0) := by
  induction l with
  | nil => simp [LargestPositive]
  | cons m l ih =>
    obtain ⟨h1, h2⟩ := ih
    refine ⟨?_, ?_⟩
    · rw [List.foldr_cons]
      rcases max_choice m (l.foldr max 0) with h | h <;> rw [h]
      · simp
      · rcases List.mem_cons.1 h1 with h1 | h1
        · rw [h1]; simp
        · simp [h1]
    · intro x hx
      rw [List.foldr_cons]
      rcases List.mem_cons.1 hx with rfl | hx
      · exact le_max_of_le_right (h2 0 (by simp))
      · rcases List.mem_cons.1 hx with rfl | hx
        · exact le_max_left _ _
        · exact le_max_of_le_right (h2 x (by simp [hx]))

theorem collapsedSize_smallest (l : List Rat) : MostNegative l (l.foldr min 0) := by
  induction l with
  | nil => simp [MostNegative]
  | cons m l ih =>
    obtain ⟨h1, h2⟩ := ih
    refine ⟨?_, ?_⟩
    · rw [List.foldr_cons]
      rcases min_choice m (l.foldr min 0) with h | h <;> rw [h]
      · simp
      · rcases List.mem_cons.1 h1 with h1 | h1
        · rw [h1]; simp
        · simp [h1]
    · intro x hx
      rw [List.foldr_cons]
      rcases List.mem_cons.1 hx with rfl | hx
      · exact min_le_of_right_le (h2 0 (by simp))
      · rcases List.mem_cons.1 hx with rfl | hx
        · exact min_le_left _ _
        · exact min_le_of_right_le (h2 x (by simp [hx]))

theorem CollapsedMargin.Of.size {c : CollapsedMargin} {l : List Rat} (h : c.Of l) : c.solve = collapsedSize l := by
  rw [CollapsedMargin.solve, collapsedSize, h.1.unique (collapsedSize_largest l), h.2.unique (collapsedSize_smallest l)]

/-! ### Placement -/

/-- What is known of the state of placement (or of the contents of a box) after these steps. -/
def StateFacts (coll : Bool) (n : Norm) (flag : Bool) (start current : CollapsedMargin) (position : Rat) : Prop :=
  match n with
  | .run ms => flag = coll ∧ position = 0 ∧ start.Of (if coll then ms else []) ∧ current.Of (if coll then [] else ms)
  | .solid l c t =>
    flag = false ∧ position = (if coll then 0 else collapsedSize l) + c ∧ start.Of (if coll then l else []) ∧ current.Of t

/-- What is known of the margins and of the height of a box that takes these steps. -/
def BoxFacts (n : Norm) (m : CollapsedBlockMargins) (size : Rat) : Prop :=
  match n with
  | .run ms => m.collapsedThrough = true ∧ ∃ a b, ms = a ++ b ∧ m.start.Of a ∧ m.end.Of b
  | .solid l c t => m.collapsedThrough = false ∧ m.start.Of l ∧ m.end.Of t ∧ size = c

/-- How far down a box with these margins at its top is put, after these steps. -/
def placeDown (coll : Bool) (n : Norm) (l : List Rat) : Rat :=
  match n with
  | .run ms => if coll then 0 else collapsedSize (ms ++ l)
  | .solid l' c t => (if coll then 0 else collapsedSize l') + c + collapsedSize (t ++ l)

theorem place_facts {coll : Bool} {n m : Norm} {s s' : PlacementState} {info : BoxInfo} {children : List Fragment} {f : Fragment}
    (hs : StateFacts coll n s.nextInFlowMarginCollapsesWithParentStartMargin s.startMargin s.currentMargin s.currentBlockDirectionPosition)
    (hb : BoxFacts m info.blockMarginsCollapsedWithChildren info.borderBlockSize) (hp : placeFragment s (.box info children) = some (f, s')) :
    StateFacts coll (n.then m) s'.nextInFlowMarginCollapsesWithParentStartMargin s'.startMargin s'.currentMargin s'.currentBlockDirectionPosition ∧
    ∃ d, f = .box (info.moveBlock d) children ∧ ∀ l c t, m = .solid l c t → d = placeDown coll n l := by
  simp only [placeFragment] at hp
  cases n with
  | run ms =>
    obtain ⟨h1, h2, h3, h4⟩ := hs
    cases coll with
    | true =>
      simp only [if_true] at h3 h4
      have hz := CollapsedMargin.of_nil h4
      simp only [h1, if_true, hz, solve_zero, h2, add_zero, zero_add] at hp
      cases m with
      | run ms' =>
        obtain ⟨k1, a, b, rfl, k2, k3⟩ := hb
        simp only [k1, if_true, Option.some.injEq, Prod.mk.injEq] at hp
        obtain ⟨rfl, rfl⟩ := hp
        refine ⟨⟨rfl, rfl, ?_, ?_⟩, 0, ?_, ?_⟩
        · have := (h3.adjoin k2).adjoin k3
          simpa [List.append_assoc] using this
        · exact CollapsedMargin.of_zero
        · simp [BoxInfo.moveBlock]
        · intro l c t h; cases h
      | solid l c t =>
        obtain ⟨k1, k2, k3, k4⟩ := hb
        simp only [k1, Bool.false_eq_true, if_false, Option.some.injEq, Prod.mk.injEq] at hp
        obtain ⟨rfl, rfl⟩ := hp
        refine ⟨⟨rfl, ?_, ?_, k3⟩, 0, rfl, ?_⟩
        · simp [k4]
        · simpa using h3.adjoin k2
        · intro l c t h; rfl
    | false =>
      simp only [Bool.false_eq_true, if_false] at h3 h4
      simp only [h1, Bool.false_eq_true, if_false, h2, add_zero, zero_add] at hp
      cases m with
      | run ms' =>
        obtain ⟨k1, a, b, rfl, k2, k3⟩ := hb
        simp only [k1, if_true, Option.some.injEq, Prod.mk.injEq] at hp
        obtain ⟨rfl, rfl⟩ := hp
        refine ⟨⟨rfl, rfl, by simpa using h3, ?_⟩, _, rfl, ?_⟩
        · have := (h4.adjoin k2).adjoin k3
          simpa [List.append_assoc] using this
        · intro l c t h; cases h
      | solid l c t =>
        obtain ⟨k1, k2, k3, k4⟩ := hb
        simp only [k1, Bool.false_eq_true, if_false, Option.some.injEq, Prod.mk.injEq] at hp
        obtain ⟨rfl, rfl⟩ := hp
        have h5 := (h4.adjoin k2).size
        refine ⟨⟨rfl, ?_, by simpa using h3, k3⟩, _, rfl, ?_⟩
        · simp only [k4, h5, Bool.false_eq_true, if_false]
        · intro l c t h; cases h; simpa [placeDown] using h5
  | solid l' c' t' =>
    obtain ⟨h1, h2, h3, h4⟩ := hs
    simp only [h1, Bool.false_eq_true, if_false, h2] at hp
    cases m with
    | run ms' =>
      obtain ⟨k1, a, b, rfl, k2, k3⟩ := hb
      simp only [k1, if_true, Option.some.injEq, Prod.mk.injEq] at hp
      obtain ⟨rfl, rfl⟩ := hp
      refine ⟨⟨rfl, rfl, h3, ?_⟩, _, rfl, ?_⟩
      · have := (h4.adjoin k2).adjoin k3
        simpa [List.append_assoc] using this
      · intro l c t h; cases h
    | solid l c t =>
      obtain ⟨k1, k2, k3, k4⟩ := hb
      simp only [k1, Bool.false_eq_true, if_false, Option.some.injEq, Prod.mk.injEq] at hp
      obtain ⟨rfl, rfl⟩ := hp
      have h5 := (h4.adjoin k2).size
      refine ⟨⟨rfl, ?_, h3, k3⟩, _, rfl, ?_⟩
      · simp only [k4, h5]; ring
      · intro l c t h; cases h; simp only [placeDown, h5]; ring

end Verif.Layout
