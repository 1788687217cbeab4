/- C36: margin collapsing does not depend on order. -/
import Verif.Layout.Fragment
import Verif.Layout.FragmentSpec
import Mathlib.Data.Rat.Defs
import Mathlib.Algebra.Order.Ring.Rat
namespace Verif.Layout

/-- A way of adjoining some margins. -/
inductive Grouping where
  | none
  | margin (m : Rat)
  | adjoin (a b : Grouping)

/-- The margins, from left to right. -/
def Grouping.margins : Grouping → List Rat
  | .none => []
  | .margin m => [m]
  | .adjoin a b => a.margins ++ b.margins

/-- What the code computes. -/
def Grouping.eval : Grouping → CollapsedMargin
  | .none => .zero
  | .margin m => .new m
  | .adjoin a b => a.eval.adjoin b.eval

/-- The collapsed margin stands for these margins. -/
def CollapsedMargin.Of (c : CollapsedMargin) (margins : List Rat) : Prop :=
  LargestPositive margins c.maxPositive ∧ MostNegative margins c.minNegative

theorem CollapsedMargin.of_zero : CollapsedMargin.zero.Of [] := by
  simp [CollapsedMargin.Of, CollapsedMargin.zero, LargestPositive, MostNegative]

theorem CollapsedMargin.of_new (m : Rat) : (CollapsedMargin.new m).Of [m] := by
  refine ⟨⟨?_, ?_⟩, ⟨?_, ?_⟩⟩
  · rcases max_choice m 0 with h | h <;> simp [CollapsedMargin.new, h]
  · simp [CollapsedMargin.new]
  · rcases min_choice m 0 with h | h <;> simp [CollapsedMargin.new, h]
  · simp [CollapsedMargin.new]

theorem CollapsedMargin.Of.adjoin {a b : CollapsedMargin} {l l' : List Rat} (ha : a.Of l) (hb : b.Of l') :
    (a.adjoin b).Of (l ++ l') := by
  obtain ⟨⟨ha1, ha2⟩, ⟨ha3, ha4⟩⟩ := ha
  obtain ⟨⟨hb1, hb2⟩, ⟨hb3, hb4⟩⟩ := hb
  simp only [List.mem_cons, forall_eq_or_imp] at *
  refine ⟨⟨?_, ?_⟩, ⟨?_, ?_⟩⟩
  · rcases max_choice a.maxPositive b.maxPositive with h | h
    · simp only [CollapsedMargin.adjoin, h, List.mem_cons, List.mem_append]; tauto
    · simp only [CollapsedMargin.adjoin, h, List.mem_cons, List.mem_append]; tauto
  · simp only [CollapsedMargin.adjoin, List.mem_cons, List.mem_append, forall_eq_or_imp]
    refine ⟨le_max_of_le_left ha2.1, fun m hm => ?_⟩
    rcases hm with hm | hm
    · exact le_max_of_le_left (ha2.2 _ hm)
    · exact le_max_of_le_right (hb2.2 _ hm)
  · rcases min_choice a.minNegative b.minNegative with h | h
    · simp only [CollapsedMargin.adjoin, h, List.mem_cons, List.mem_append]; tauto
    · simp only [CollapsedMargin.adjoin, h, List.mem_cons, List.mem_append]; tauto
  · simp only [CollapsedMargin.adjoin, List.mem_cons, List.mem_append, forall_eq_or_imp]
    refine ⟨min_le_of_left_le ha4.1, fun m hm => ?_⟩
    rcases hm with hm | hm
    · exact min_le_of_left_le (ha4.2 _ hm)
    · exact min_le_of_right_le (hb4.2 _ hm)

theorem CollapsedMargin.Of.solve {c : CollapsedMargin} {l : List Rat} (h : c.Of l) : CollapseTo l c.solve :=
  ⟨_, _, h.1, h.2, rfl⟩

theorem CollapsedMargin.Of.perm {c : CollapsedMargin} {l l' : List Rat} (h : c.Of l) (hp : ∀ m, m ∈ l ↔ m ∈ l') : c.Of l' := by
  obtain ⟨⟨h1, h2⟩, ⟨h3, h4⟩⟩ := h
  simp only [CollapsedMargin.Of, LargestPositive, MostNegative, List.mem_cons, hp] at *
  exact ⟨⟨h1, h2⟩, ⟨h3, h4⟩⟩

theorem Grouping.of_eval (g : Grouping) : g.eval.Of g.margins := by
  induction g with
  | none => exact CollapsedMargin.of_zero
  | margin m => exact CollapsedMargin.of_new m
  | adjoin a b iha ihb => exact iha.adjoin ihb

/-- However margins are adjoined, the result is the largest positive one plus the most negative one. -/
theorem C36_collapse (g : Grouping) : CollapseTo g.margins g.eval.solve := g.of_eval.solve

/-- Two ways of adjoining the same margins, in any orders, with any repetitions, give the same result, and go on giving the same
result when both are adjoined to further margins. -/
theorem C36_order (g g' : Grouping) (h : ∀ m, m ∈ g.margins ↔ m ∈ g'.margins) : g.eval = g'.eval := by
  have h1 := g.of_eval.perm h
  have h2 := g'.of_eval
  have e1 := h1.1.unique h2.1
  have e2 := h1.2.unique h2.2
  cases hg : g.eval; cases hg' : g'.eval
  simp_all

/-- Margins of 10, -4 and 7 collapse to 6. -/
example : (Grouping.adjoin (.margin 10) (.adjoin (.margin (-4)) (.margin 7))).eval.solve = 6 ∧
    (Grouping.adjoin (.adjoin (.margin 7) (.margin 10)) (.margin (-4))).eval.solve = 6 := by decide +kernel

end Verif.Layout
