/- The boxes of a document whose absolutely positioned elements are empty. -/
import Verif.Layout.AsideVoid
namespace Verif.Layout
open Verif.Style

mutual
/-- There is nothing in the absolutely positioned elements, nor anything to be seen of them. -/
def StyledNode.Hollow : StyledNode → Prop
  | .ignored => True
  | .text _ => True
  | .element s children => if IsAside s then children = [] ∧ (backgroundOf s).alpha = 0 else nodesHollow children
/-- See `StyledNode.Hollow`. -/
def nodesHollow : List StyledNode → Prop
  | [] => True
  | n :: ns => n.Hollow ∧ nodesHollow ns
end

mutual
theorem emptied_hollow : ∀ n n' : StyledNode, n.Emptied n' → n'.Hollow
  | .ignored, .ignored, _ => trivial
  | .text _, .text _, _ => trivial
  | .element s children, .element s' children', h => by
    simp only [StyledNode.Emptied] at h
    simp only [StyledNode.Hollow]
    split at h
    · rw [if_pos h.1]
      exact h.2
    · rename_i ha
      rw [← h.1, if_neg ha]
      exact nodesEmptied_hollow children children' h.2
  | .ignored, .text _, h => h.elim
  | .ignored, .element _ _, h => h.elim
  | .text _, .ignored, h => h.elim
  | .text _, .element _ _, h => h.elim
  | .element _ _, .ignored, h => h.elim
  | .element _ _, .text _, h => h.elim
theorem nodesEmptied_hollow : ∀ ns ns' : List StyledNode, nodesEmptied ns ns' → nodesHollow ns'
  | [], [], _ => trivial
  | n :: ns, n' :: ns', h => ⟨emptied_hollow n n' h.1, nodesEmptied_hollow ns ns' h.2⟩
  | [], _ :: _, h => h.elim
  | _ :: _, [], h => h.elim
end

variable {Q : AbsolutelyPositionedBox → Prop}

theorem inlinesAsides_append {a b : List InlineLevelBox} : inlinesAsides Q (a ++ b) ↔ inlinesAsides Q a ∧ inlinesAsides Q b := by
  induction a with
  | nil => simp [inlinesAsides]
  | cons x a ih => simp only [List.cons_append, inlinesAsides, ih, and_assoc]

theorem blocksAsides_append {a b : List BlockLevelBox} : blocksAsides Q (a ++ b) ↔ blocksAsides Q a ∧ blocksAsides Q b := by
  induction a with
  | nil => simp [blocksAsides]
  | cons x a ih => simp only [List.cons_append, blocksAsides, ih, and_assoc]

/-- See `InlineLevelBox.Asides`. -/
structure Builder.Asides (Q : AbsolutelyPositionedBox → Prop) (b : Builder) : Prop where
  blocks : blocksAsides Q b.blockLevelBoxes
  ongoing : inlinesAsides Q b.ongoing
  stack : ∀ o ∈ b.stack, inlinesAsides Q o.children

theorem Builder.Asides.current {b : Builder} (h : b.Asides Q) : inlinesAsides Q b.current := by
  obtain ⟨bs, o, stack, f⟩ := b
  cases stack with
  | nil => exact h.ongoing
  | cons x stack => exact h.stack x List.mem_cons_self

theorem Builder.Asides.setCurrent {b : Builder} (h : b.Asides Q) {xs : List InlineLevelBox} (hx : inlinesAsides Q xs) : (b.setCurrent xs).Asides Q := by
  obtain ⟨bs, o, stack, f⟩ := b
  cases stack with
  | nil => exact ⟨h.blocks, hx, h.stack⟩
  | cons y stack =>
    refine ⟨h.blocks, h.ongoing, fun o ho => ?_⟩
    rcases List.mem_cons.1 ho with rfl | ho
    · exact hx
    · exact h.stack o (List.mem_cons_of_mem _ ho)

theorem Builder.Asides.push {b : Builder} (h : b.Asides Q) {x : InlineLevelBox} (hx : x.Asides Q) : (b.push x).Asides Q :=
  h.setCurrent (inlinesAsides_append.2 ⟨h.current, hx, trivial⟩)

theorem appendText_asides (s : ComputedValues) (t : List Nat) : ∀ xs : List InlineLevelBox, inlinesAsides Q xs → inlinesAsides Q (appendText s t xs)
  | [], _ => ⟨trivial, trivial⟩
  | [x], h => by
    cases x with
    | textRun s t => exact ⟨trivial, trivial⟩
    | _ => exact ⟨h.1, trivial, trivial⟩
  | x :: y :: xs, h => by
    have e : appendText s t (x :: y :: xs) = x :: appendText s t (y :: xs) := by cases x <;> rfl
    rw [e]
    exact ⟨h.1, appendText_asides s t (y :: xs) h.2⟩

theorem Builder.Asides.handleText {b : Builder} (h : b.Asides Q) (t : List Nat) (s : ComputedValues) : (b.handleText t s).Asides Q := by
  rw [handleText_eq]
  split
  · exact h
  · exact h.setCurrent (appendText_asides _ _ _ h.current)

theorem Builder.Asides.endOngoing {b b1 : Builder} {s : ComputedValues} (h : b.Asides Q) (he : b.endOngoing s = some b1) : b1.Asides Q := by
  unfold Builder.endOngoing at he
  split at he
  · cases he
  · split at he
    · cases he
      exact h
    · cases he
      exact ⟨blocksAsides_append.2 ⟨h.blocks, h.ongoing, trivial⟩, trivial, h.stack⟩

theorem fragmentStack_asides : ∀ (stack : List OngoingInlineBox) (inner : Option InlineLevelBox), (∀ o ∈ stack, inlinesAsides Q o.children) →
    inlinesAsides Q inner.toList → inlinesAsides Q (fragmentStack inner stack).toList
  | [], _, _, h => h
  | o :: stack, inner, hs, h =>
    fragmentStack_asides stack _ (fun o ho => hs o (List.mem_cons_of_mem _ ho)) ⟨inlinesAsides_append.2 ⟨hs o List.mem_cons_self, h⟩, trivial⟩

theorem Builder.Asides.splitInlines {b b1 : Builder} {s : ComputedValues} (h : b.Asides Q) (he : b.splitInlines s = some b1) : b1.Asides Q := by
  unfold Builder.splitInlines at he
  refine Builder.Asides.endOngoing ?_ he
  refine ⟨h.blocks, inlinesAsides_append.2 ⟨h.ongoing, fragmentStack_asides _ _ h.stack trivial⟩, fun o ho => ?_⟩
  obtain ⟨o', -, rfl⟩ := List.mem_map.1 ho
  trivial

theorem Builder.Asides.finish {b : Builder} {s : ComputedValues} {c : BlockContainer} {f : Bool} (h : b.Asides Q) (he : b.finish s = some (c, f)) :
    c.Asides Q := by
  unfold Builder.finish at he
  split at he
  · cases he
    exact h.blocks
  · split at he
    · cases he
      exact h.ongoing
    · split at he
      · cases he
      · rename_i b1 h1
        cases he
        exact (h.endOngoing h1).blocks

theorem Builder.Asides.new : Builder.new.Asides Q := ⟨trivial, trivial, by simp [Builder.new]⟩

theorem hollow_element {s : ComputedValues} {ch : List StyledNode} (h : (StyledNode.element s ch).Hollow) (hn : positionOf s ≠ .absolute) :
    nodesHollow ch := by
  simp only [StyledNode.Hollow, isAside_not_absolute hn, Bool.false_eq_true, if_false] at h
  exact h

theorem hollow_display {s : ComputedValues} {ch : List StyledNode} (h : (StyledNode.element s ch).Hollow)
    (hn : ∀ inside, displayOf s ≠ .generatingBox .block inside) : nodesHollow ch := by
  have ha : IsAside s = false := by
    rcases ha : IsAside s with _ | _
    · rfl
    · obtain ⟨⟨inside, hd⟩, -⟩ := isAside_iff.1 ha
      exact absurd hd (hn inside)
  simp only [StyledNode.Hollow, ha, Bool.false_eq_true, if_false] at h
  exact h

theorem hollow_contents {s : ComputedValues} {ch : List StyledNode} {inner : Builder} {c : BlockContainer} {g : Bool} {inside : DisplayInside}
    (hd : displayOf s = .generatingBox .block inside) (hp : positionOf s = .absolute) (h : (StyledNode.element s ch).Hollow)
    (h3 : ch = [] → inner = Builder.new) (h4 : inner.finish s = some (c, g)) : HollowBox ⟨s, ⟨c, g⟩⟩ := by
  simp only [StyledNode.Hollow, isAside_iff.2 ⟨⟨inside, hd⟩, hp⟩, if_true] at h
  rw [h3 h.1] at h4
  cases h4
  exact ⟨rfl, h.2⟩

theorem traverse_hollow : TraversalCases (fun _ _ n b b' => n.Hollow → b.Asides HollowBox → b'.Asides HollowBox)
    (fun _ _ ns b b' => (ns = [] → b' = b) ∧ (nodesHollow ns → b.Asides HollowBox → b'.Asides HollowBox)) where
  ignored _ _ _ _ h := h
  text _ _ _ _ _ h := h.handleText _ _
  none _ _ _ _ _ _ _ h := h
  contents cs ps s ch b b' hd h hh hb := h.2 (hollow_display hh (by simp [hd])) hb
  inline cs ps s ch b b1 o rest hd h hs hh hb := by
    have h1 := h.2 (hollow_display hh (by simp [hd])) ⟨hb.blocks, hb.ongoing, fun o ho => by
      rcases List.mem_cons.1 ho with rfl | ho
      · trivial
      · exact hb.stack o ho⟩
    refine Builder.Asides.push (b := { b1 with stack := rest })
      ⟨h1.blocks, h1.ongoing, fun q hq => h1.stack q (by rw [hs]; exact List.mem_cons_of_mem _ hq)⟩ ?_
    exact h1.stack o (by rw [hs]; exact List.mem_cons_self)
  absoluteInline cs ps s ch b inner c g i hd h2 h3 h4 h5 hh hb := hb.push (hollow_contents hd h2 hh h3.1 h4)
  absoluteBlock cs ps s ch b inner c g i hd h2 h3 h4 h5 hh hb :=
    ⟨blocksAsides_append.2 ⟨hb.blocks, hollow_contents hd h2 hh h3.1 h4, trivial⟩, hb.ongoing, hb.stack⟩
  floatInline cs ps s ch b inner c g i hd h2 h2' h3 h4 h5 hh hb :=
    Builder.Asides.push (b := { b with containsFloats := true }) (x := .outOfFlowFloat s g c) ⟨hb.blocks, hb.ongoing, hb.stack⟩ trivial
  floatBlock cs ps s ch b inner c g i hd h2 h2' h3 h4 h5 hh hb := ⟨blocksAsides_append.2 ⟨hb.blocks, trivial, trivial⟩, hb.ongoing, hb.stack⟩
  block cs ps s ch b b1 inner c g i hd h2 h2' hs h3 h4 hh hb := by
    have h1 := hb.splitInlines hs
    have hc := (h3.2 (hollow_element hh h2) .new).finish h4
    refine ⟨blocksAsides_append.2 ⟨h1.blocks, ?_, trivial⟩, h1.ongoing, h1.stack⟩
    cases i <;> exact hc
  nil _ _ _ := ⟨fun _ => rfl, fun _ h => h⟩
  cons cs ps n ns b b1 b2 h1 h2 := ⟨by simp, fun hh hb => h2.2 hh.2 (h1 hh.1 hb)⟩

theorem constructRoot_hollow {s : ComputedValues} (hp : positionOf s ≠ .absolute) {nodes : List StyledNode} (h : nodesHollow nodes)
    {r : BlockFormattingContext} (h1 : constructRoot s nodes = some r) : r.contents.Asides HollowBox := by
  simp only [constructRoot, absolute_of, decide_eq_false hp] at h1
  rcases hd : displayOf s with _ | _ | ⟨outside, inside⟩ <;> simp only [hd] at h1
  · cases h1
    trivial
  all_goals
    rcases c1 : constructContainer s nodes with _ | ⟨c, f⟩
    · simp [c1] at h1
    simp only [c1, Bool.false_eq_true, if_false] at h1
    unfold constructContainer at c1
    rcases t1 : traverseNodes s s nodes Builder.new with _ | b
    · simp [t1] at c1
    simp only [t1] at c1
    have hc := ((traverseNodes_induct traverse_hollow _ _ _ _ _ t1).2 h .new).finish c1
    split at h1
    · cases h1
      exact ⟨trivial, trivial⟩
    · cases h1
      exact ⟨hc, trivial⟩

end Verif.Layout
