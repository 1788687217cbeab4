/- The styles of the boxes that are constructed are those of the elements that have boxes: lemmas for C85. -/
import Verif.Layout.GroundSpec
import Verif.Layout.ShownBoxes
import Verif.Layout.ConstructTheorems
namespace Verif.Layout
open Verif.Style Verif.Text

mutual
/-- The styles of the elements that have boxes, in document order. -/
def StyledNode.elements : StyledNode → List ComputedValues
  | .ignored => []
  | .text _ => []
  | .element style children =>
    match displayOf style with
    | .none => []
    | .contents => nodesElements children
    | .generatingBox _ _ => style :: nodesElements children
/-- See `StyledNode.elements`. -/
def nodesElements : List StyledNode → List ComputedValues
  | [] => []
  | n :: ns => n.elements ++ nodesElements ns
end

variable {β : Type} (f : Bool → ComputedValues → List β)

mutual
/-- Something of all boxes, in order, without floating boxes: `f` of whether it is an inline box, and of its style. -/
def BlockContainer.collect : BlockContainer → List β
  | .blockLevelBoxes boxes => blocksCollect boxes
  | .inlineFormattingContext boxes => inlinesCollect boxes
/-- See `BlockContainer.collect`. -/
def BlockLevelBox.collect : BlockLevelBox → List β
  | .sameFormattingContextBlock style contents => f false style ++ contents.collect
  | .outOfFlowAbsolutelyPositioned style _ contents => f false style ++ contents.collect
  | .outOfFlowFloat _ _ _ => []
  | .independent style _ contents => f false style ++ contents.collect
/-- See `BlockContainer.collect`. -/
def blocksCollect : List BlockLevelBox → List β
  | [] => []
  | b :: bs => b.collect ++ blocksCollect bs
/-- See `BlockContainer.collect`. -/
def InlineLevelBox.collect : InlineLevelBox → List β
  | .inlineBox style _ _ children => f true style ++ inlinesCollect children
  | .textRun _ _ => []
  | .outOfFlowAbsolutelyPositioned style _ contents => f false style ++ contents.collect
  | .outOfFlowFloat _ _ _ => []
/-- See `BlockContainer.collect`. -/
def inlinesCollect : List InlineLevelBox → List β
  | [] => []
  | b :: bs => b.collect ++ inlinesCollect bs
end

theorem blocksCollect_append (bs cs : List BlockLevelBox) : blocksCollect f (bs ++ cs) = blocksCollect f bs ++ blocksCollect f cs := by
  induction bs with
  | nil => rfl
  | cons b bs ih => simp [blocksCollect, ih]

theorem inlinesCollect_append (bs cs : List InlineLevelBox) :
    inlinesCollect f (bs ++ cs) = inlinesCollect f bs ++ inlinesCollect f cs := by
  induction bs with
  | nil => rfl
  | cons b bs ih => simp [inlinesCollect, ih]

/-- Something of the ongoing inline boxes. -/
def stackCollect : List OngoingInlineBox → List β
  | [] => []
  | o :: rest => stackCollect rest ++ (f true o.style ++ inlinesCollect f o.children)

/-- Something of all boxes in a builder. -/
def Builder.collect (b : Builder) : List β :=
  blocksCollect f b.blockLevelBoxes ++ (inlinesCollect f b.ongoing ++ stackCollect f b.stack)

theorem collect_current (b : Builder) : ∃ pre, b.collect f = pre ++ inlinesCollect f b.current ∧
    ∀ bs, (b.setCurrent bs).collect f = pre ++ inlinesCollect f bs := by
  rcases h : b.stack with _ | ⟨o, rest⟩
  · exact ⟨blocksCollect f b.blockLevelBoxes, by simp [Builder.collect, Builder.current, Builder.setCurrent, h, stackCollect]⟩
  · exact ⟨blocksCollect f b.blockLevelBoxes ++ (inlinesCollect f b.ongoing ++ (stackCollect f rest ++ f true o.style)), by
      simp [Builder.collect, Builder.current, Builder.setCurrent, h, stackCollect]⟩

theorem collect_push (b : Builder) (box : InlineLevelBox) : (b.push box).collect f = b.collect f ++ box.collect f := by
  obtain ⟨pre, h1, h2⟩ := collect_current f b
  rw [Builder.push, h2, h1, inlinesCollect_append]
  simp [inlinesCollect]

theorem collect_handleText (b : Builder) (t : List Nat) (ps : ComputedValues) : (b.handleText t ps).collect f = b.collect f := by
  rw [handleText_eq]
  split
  · rfl
  · obtain ⟨pre, h1, h2⟩ := collect_current f b
    rw [h2, h1]
    rcases appendText_cases ps (b.added t) b.current with h3 | ⟨pre', s, u, h3, h4⟩
    · rw [h3, inlinesCollect_append]
      simp [inlinesCollect, InlineLevelBox.collect]
    · rw [h4, h3, inlinesCollect_append, inlinesCollect_append]
      simp [inlinesCollect, InlineLevelBox.collect]

variable {f} (hf : ∀ s, f false (ComputedValues.anonymousInheritingFrom (some s)) = [])
include hf

theorem collect_endOngoing {b b1 : Builder} {cs : ComputedValues} (he : b.endOngoing cs = some b1) :
    b1.collect f = b.collect f ∧ b1.collect f = blocksCollect f b1.blockLevelBoxes ∧ b1.ongoing = [] ∧ b1.stack = [] := by
  have hs := (endOngoing_stack he).1
  have hs1 := (endOngoing_stack he).2
  unfold Builder.endOngoing at he
  simp only [hs, List.isEmpty_nil, Bool.not_true, Bool.false_eq_true, if_false] at he
  split at he
  · rename_i h1
    simp only [List.isEmpty_iff] at h1
    injection he with he
    subst he
    exact ⟨rfl, by simp [Builder.collect, hs, h1, stackCollect, inlinesCollect], h1, hs1⟩
  · injection he with he
    subst he
    refine ⟨?_, ?_, rfl, hs1⟩ <;>
    simp [Builder.collect, hs, stackCollect, blocksCollect_append, blocksCollect, BlockLevelBox.collect, hf, BlockContainer.collect,
        inlinesCollect]

theorem collect_finish {b : Builder} {cs : ComputedValues} {c : BlockContainer} {g : Bool} (hs : b.stack = [])
    (he : b.finish cs = some (c, g)) : c.collect f = b.collect f := by
  have hst : b.collect f = blocksCollect f b.blockLevelBoxes ++ inlinesCollect f b.ongoing := by
    simp [Builder.collect, hs, stackCollect]
  unfold Builder.finish at he
  split at he
  · rename_i h1
    simp only [List.isEmpty_iff] at h1
    simp only [Option.some.injEq, Prod.mk.injEq] at he
    obtain ⟨rfl, -⟩ := he
    simp [hst, h1, inlinesCollect, BlockContainer.collect]
  · split at he
    · rename_i h1 h2
      simp only [List.isEmpty_iff] at h2
      simp only [Option.some.injEq, Prod.mk.injEq] at he
      obtain ⟨rfl, -⟩ := he
      simp [hst, h2, blocksCollect, BlockContainer.collect]
    · rcases h3 : b.endOngoing cs with _ | b1
      · simp [h3] at he
      · simp only [h3, Option.some.injEq, Prod.mk.injEq] at he
        obtain ⟨rfl, -⟩ := he
        obtain ⟨e1, e2, -, -⟩ := collect_endOngoing hf h3
        rw [← e1, e2, BlockContainer.collect]

omit hf
theorem collect_pushBlock {b : Builder} (box : BlockLevelBox) (g : Bool) (h1 : b.ongoing = []) (h2 : b.stack = []) :
    ({ b with blockLevelBoxes := b.blockLevelBoxes ++ [box], containsFloats := g } : Builder).collect f = b.collect f ++ box.collect f := by
  simp [Builder.collect, h1, h2, stackCollect, inlinesCollect, blocksCollect_append, blocksCollect]

/-- What `f` gives of the elements. -/
def ofElements (f : Bool → ComputedValues → List β) (styles : List ComputedValues) : List β := styles.flatMap fun s => f (isInline s) s

theorem ofElements_append (a b : List ComputedValues) : ofElements f (a ++ b) = ofElements f a ++ ofElements f b := by simp [ofElements]

/-- No element that has a box floats. -/
def NoneFloat (styles : List ComputedValues) : Prop := ∀ s ∈ styles, floatOf s = .none

theorem elements_box {s : ComputedValues} {ch : List StyledNode} {o i} (h : displayOf s = .generatingBox o i) :
    (StyledNode.element s ch).elements = s :: nodesElements ch := by
  simp [StyledNode.elements, h]

theorem isInline_block {s : ComputedValues} {i} (h : displayOf s = .generatingBox .block i) : isInline s = false := by simp [isInline, h]
theorem isInline_inline {s : ComputedValues} {i} (h : displayOf s = .generatingBox .inline i) : isInline s = true := by simp [isInline, h]

include hf
theorem inner_collect {s : ComputedValues} {ch : List StyledNode} {inner : Builder} {c : BlockContainer} {fl : Bool}
    (h : SameOutside Builder.new inner ∧
      (NoneFloat (nodesElements ch) → inner.collect f = Builder.new.collect f ++ ofElements f (nodesElements ch)))
    (hn : NoneFloat (nodesElements ch)) (he : inner.finish s = some (c, fl)) : c.collect f = ofElements f (nodesElements ch) := by
  rw [collect_finish hf h.1.new_stack he, h.2 hn]
  simp [Builder.new, Builder.collect, blocksCollect, inlinesCollect, stackCollect]

theorem traverse_collect :
    TraversalCases (fun _ _ n b b' => SameOutside b b' ∧ (NoneFloat n.elements → b'.collect f = b.collect f ++ ofElements f n.elements))
      (fun _ _ ns b b' => SameOutside b b' ∧
        (NoneFloat (nodesElements ns) → b'.collect f = b.collect f ++ ofElements f (nodesElements ns))) where
  ignored _ _ b := ⟨.refl b, fun _ => by simp [StyledNode.elements, ofElements]⟩
  text _ _ t b := ⟨.handleText _ _ _, fun _ => by rw [collect_handleText]; simp [StyledNode.elements, ofElements]⟩
  none _ _ s _ b hd := ⟨.refl b, fun _ => by simp [StyledNode.elements, hd, ofElements]⟩
  contents cs ps s ch b b' hd h := by
    refine ⟨h.1, fun hn => ?_⟩
    have : (StyledNode.element s ch).elements = nodesElements ch := by simp [StyledNode.elements, hd]
    rw [this] at hn ⊢
    exact h.2 hn
  inline cs ps s ch b b1 o rest hd h hs := by
    refine ⟨traverse_shape.inline cs ps s ch b b1 o rest hd h.1 hs, fun hn => ?_⟩
    rw [elements_box hd] at hn ⊢
    obtain ⟨rfl, rfl, -, h2, h3⟩ := inline_inner h.1 hs
    have h4 := h.2 fun s hs => hn s (List.mem_cons_of_mem _ hs)
    have hcol : ({ b1 with stack := b.stack } : Builder).collect f = b.collect f := by
      simp [Builder.collect, h2, h3]
    have e1 : ({ b with stack := ⟨o.style, true, []⟩ :: b.stack } : Builder).collect f = b.collect f ++ f true o.style := by
      simp [Builder.collect, stackCollect, inlinesCollect]
    have e2 : b1.collect f = b.collect f ++ (f true o.style ++ inlinesCollect f o.children) := by
      simp [Builder.collect, h2, h3, hs, stackCollect]
    rw [e1, e2] at h4
    rw [collect_push, hcol, InlineLevelBox.collect, h4]
    simp [ofElements, isInline_inline hd]
  absoluteInline cs ps s ch b inner c g i hd h2 h3 h4 h5 := by
    refine ⟨.setCurrent _ _, fun hn => ?_⟩
    rw [elements_box hd] at hn ⊢
    rw [collect_push, InlineLevelBox.collect, inner_collect hf h3 (fun s hs => hn s (List.mem_cons_of_mem _ hs)) h4]
    simp [ofElements, isInline_block hd]
  absoluteBlock cs ps s ch b inner c g i hd h2 h3 h4 h5 := by
    refine ⟨traverse_shape.absoluteBlock cs ps s ch b inner c g i hd h2 h3.1 h4 h5, fun hn => ?_⟩
    rw [elements_box hd] at hn ⊢
    obtain ⟨e1, e2⟩ := hasOngoing_false h5
    have := collect_pushBlock (f := f) (.outOfFlowAbsolutelyPositioned s g c) b.containsFloats e1 e2
    rw [BlockLevelBox.collect, inner_collect hf h3 (fun s hs => hn s (List.mem_cons_of_mem _ hs)) h4] at this
    rw [this]
    simp [ofElements, isInline_block hd]
  floatInline cs ps s ch b inner c g i hd h2 h2' h3 h4 h5 := by
    refine ⟨traverse_shape.floatInline cs ps s ch b inner c g i hd h2 h2' h3.1 h4 h5, fun hn => ?_⟩
    rw [elements_box hd] at hn
    exact absurd (hn s List.mem_cons_self) h2'
  floatBlock cs ps s ch b inner c g i hd h2 h2' h3 h4 h5 := by
    refine ⟨traverse_shape.floatBlock cs ps s ch b inner c g i hd h2 h2' h3.1 h4 h5, fun hn => ?_⟩
    rw [elements_box hd] at hn
    exact absurd (hn s List.mem_cons_self) h2'
  block cs ps s ch b b1 inner c g i hd h2 h2' h0 h3 h4 := by
    refine ⟨traverse_shape.block cs ps s ch b b1 inner c g i hd h2 h2' h0 h3.1 h4, fun hn => ?_⟩
    rw [elements_box hd] at hn ⊢
    obtain ⟨e1, -, e2, e3⟩ := collect_endOngoing hf (splitInlines_eq h0).2
    have hc := inner_collect hf h3 (fun s hs => hn s (List.mem_cons_of_mem _ hs)) h4
    cases i with
    | flow =>
      have := collect_pushBlock (f := f) (.sameFormattingContextBlock s c) (b1.containsFloats || g) e2 e3
      rw [BlockLevelBox.collect, hc, e1] at this
      simp only
      rw [this]
      simp [ofElements, isInline_block hd]
    | flowRoot =>
      have := collect_pushBlock (f := f) (.independent s g c) (b1.containsFloats || false) e2 e3
      rw [BlockLevelBox.collect, hc, e1] at this
      simp only
      rw [this]
      simp [ofElements, isInline_block hd]
  nil _ _ b := ⟨.refl b, fun _ => by simp [nodesElements, ofElements]⟩
  cons cs ps n ns b b1 b2 h h' := by
    refine ⟨h.1.trans h'.1, fun hn => ?_⟩
    rw [nodesElements] at hn ⊢
    rw [h'.2 fun s hs => hn s (List.mem_append_right _ hs), h.2 fun s hs => hn s (List.mem_append_left _ hs), ofElements_append,
      List.append_assoc]

theorem constructContainer_collect {style : ComputedValues} {children : List StyledNode} {c : BlockContainer} {g : Bool}
    (hn : NoneFloat (nodesElements children)) (h : constructContainer style children = some (c, g)) :
    c.collect f = ofElements f (nodesElements children) := by
  obtain ⟨b, h1, h2⟩ := traversed (traverse_collect hf) h
  exact inner_collect hf h1 hn h2

theorem constructRoot_collect {style : ComputedValues} {children : List StyledNode} {root : BlockFormattingContext}
    (hd : displayOf style ≠ .none) (hs : floatOf style = .none) (hn : NoneFloat (nodesElements children))
    (h : constructRoot style children = some root) :
    root.contents.collect f = f false style ++ ofElements f (nodesElements children) := by
  unfold constructRoot at h
  split at h
  · rename_i hd'
    exact absurd hd' hd
  all_goals
    split at h
    · cases h
    · rename_i c fl hc
      have hc := constructContainer_collect hf hn hc
      split at h
      · cases h
        simp [BlockContainer.collect, blocksCollect, BlockLevelBox.collect, hc]
      · split at h
        · rename_i hfl
          exact absurd hs ((isFloating_iff _).1 hfl)
        · cases h
          simp [BlockContainer.collect, blocksCollect, BlockLevelBox.collect, hc]

end Verif.Layout
