/- The boxes of a document and those of the document without its absolutely positioned elements. -/
import Verif.Layout.AsideSpec
import Verif.Layout.AsideLayout
import Verif.Layout.WrapMain
namespace Verif.Layout
open Verif.Style

theorem isAside_iff {s : ComputedValues} : IsAside s = true ↔ (∃ inside, displayOf s = .generatingBox .block inside) ∧ positionOf s = .absolute := by
  unfold IsAside
  rcases hd : displayOf s with _ | _ | ⟨outside, inside⟩
  · simp
  · simp
  · cases outside <;> simp

theorem isAside_not_absolute {s : ComputedValues} (h : positionOf s ≠ .absolute) : IsAside s = false := by
  rcases hc : IsAside s with _ | _
  · rfl
  · exact absurd (isAside_iff.1 hc).2 h

theorem absolute_of {s : ComputedValues} : (positionOf s).isAbsolutelyPositioned = decide (positionOf s = .absolute) := by
  rcases positionOf s with _ | _ | _ <;> rfl

theorem floating_of {s : ComputedValues} : (floatOf s).isFloating = decide (floatOf s ≠ .none) := by
  rcases floatOf s with _ | _ | _ <;> rfl

/-! ### Without absolutely positioned elements nothing changes -/

mutual
theorem settled_still : ∀ n : StyledNode, n.Still → n.settled = [n]
  | .ignored, _ => rfl
  | .text _, _ => rfl
  | .element s children, h => by
    simp only [StyledNode.Still] at h
    simp only [StyledNode.settled]
    rcases h with h | ⟨h1, h2⟩
    · rw [if_pos h]
    · rw [isAside_not_absolute h1, nodesSettled_still children h2]
      simp
theorem nodesSettled_still : ∀ ns : List StyledNode, nodesStill ns → nodesSettled ns = ns
  | [], _ => rfl
  | n :: ns, h => by
    rw [nodesSettled, settled_still n h.1, nodesSettled_still ns h.2]
    rfl
end

mutual
theorem apart_still : ∀ (n : StyledNode) (spot : Spot), n.Apart spot → nodesStill n.settled
  | .ignored, _, _ => ⟨trivial, trivial⟩
  | .text _, _, _ => ⟨trivial, trivial⟩
  | .element s children, spot, h => by
    simp only [StyledNode.Apart] at h
    simp only [StyledNode.settled]
    rcases hd : displayOf s with _ | _ | ⟨outside, inside⟩ <;> simp only [hd] at h
    · simp [nodesStill, StyledNode.Still, hd]
    · rw [isAside_not_absolute h.1]
      simp only [reduceCtorEq, if_false, Bool.false_eq_true]
      exact ⟨.inr ⟨h.1, nodesApart_still children spot h.2⟩, trivial⟩
    · cases outside with
      | inline =>
        simp only at h
        rw [isAside_not_absolute h.1]
        simp only [reduceCtorEq, if_false, Bool.false_eq_true]
        exact ⟨.inr ⟨h.1, nodesApart_still children _ h.2.2⟩, trivial⟩
      | block =>
        simp only at h
        simp only [reduceCtorEq, if_false]
        by_cases hp : positionOf s = .absolute
        · rw [isAside_iff.2 ⟨⟨inside, hd⟩, hp⟩]
          trivial
        · rw [if_neg hp] at h
          rw [isAside_not_absolute hp]
          simp only [if_false, Bool.false_eq_true]
          refine ⟨.inr ⟨hp, ?_⟩, trivial⟩
          split at h
          · rw [nodesSettled_still children h]
            exact h
          · exact nodesApart_still children _ h
theorem nodesApart_still : ∀ (ns : List StyledNode) (spot : Spot), nodesApart spot ns → nodesStill (nodesSettled ns)
  | [], _, _ => trivial
  | n :: ns, spot, h => by
    have h1 := apart_still n spot h.1
    have h2 := nodesApart_still ns _ h.2
    rw [nodesSettled]
    generalize n.settled = l at h1
    induction l with
    | nil => exact h2
    | cons a l ih => exact ⟨h1.1, ih h1.2⟩
end

/-! ### The two builders -/

/-- The builders of the two documents at the same point: `b` is that of the document with the absolutely positioned elements. -/
structure Settles (spot : Spot) (b b' : Builder) : Prop where
  blocks : WrapL b'.blockLevelBoxes (blocksFlow b.blockLevelBoxes)
  ongoing : b'.ongoing = b.ongoing
  stack : b'.stack = b.stack
  pure : inlinesFlow b.ongoing = b.ongoing
  pureStack : ∀ o ∈ b.stack, inlinesFlow o.children = o.children
  unmeasured : b.Unmeasured
  between : spot = .between → b.ongoing = [] ∧ b.stack = []
  line : spot = .line → b.stack = []

theorem Settles.new : Settles .between Builder.new Builder.new :=
  ⟨.nil, rfl, rfl, rfl, by simp [Builder.new], ⟨trivial, by simp [Builder.new]⟩, fun _ => ⟨rfl, rfl⟩, fun _ => rfl⟩

theorem Settles.current {spot : Spot} {b b' : Builder} (h : Settles spot b b') : b'.current = b.current ∧ inlinesFlow b.current = b.current := by
  simp only [Builder.current, h.stack, h.ongoing, true_and]
  split
  · rename_i o rest hs
    exact h.pureStack o (by simp [hs])
  · exact h.pure

theorem Settles.setCurrent {spot : Spot} {b b' : Builder} (h : Settles spot b b') {xs : List InlineLevelBox} (hx : inlinesFlow xs = xs)
    (hu : inlineAll UnmeasuredStyle xs) : Settles (if spot = .between then .line else spot) (b.setCurrent xs) (b'.setCurrent xs) := by
  have hl : spot ≠ .inline → b.stack = [] := by
    intro hne
    cases spot with
    | between => exact (h.between rfl).2
    | line => exact h.line rfl
    | inline => exact absurd rfl hne
  refine ⟨by rw [setCurrent_blocks, setCurrent_blocks]; exact h.blocks, ?_, ?_, ?_, ?_, h.unmeasured.setCurrent hu, ?_, ?_⟩
  · simp only [Builder.setCurrent, h.stack]
    split
    · exact h.ongoing
    · rfl
  · simp only [Builder.setCurrent, h.stack]
    split
    · rfl
    · rfl
  · simp only [Builder.setCurrent]
    split
    · exact h.pure
    · exact hx
  · simp only [Builder.setCurrent]
    split
    · rename_i o rest hs
      intro o' ho
      rcases List.mem_cons.1 ho with rfl | ho
      · exact hx
      · exact h.pureStack o' (by simp [hs, ho])
    · exact h.pureStack
  · intro e
    split at e <;> simp_all
  · intro e
    have : spot ≠ .inline := by
      intro e2
      rw [e2] at e
      simp at e
    have := hl this
    simp [Builder.setCurrent, this]

theorem inlinesFlow_appendText (ps : ComputedValues) (out : List Nat) (xs : List InlineLevelBox) (h : inlinesFlow xs = xs) :
    inlinesFlow (appendText ps out xs) = appendText ps out xs := by
  rcases appendText_cases ps out xs with e | ⟨pre, s, t, e, e'⟩
  · rw [e, inlinesFlow_append, h]
    rfl
  · rw [e']
    rw [e, inlinesFlow_append] at h
    rw [inlinesFlow_append]
    have : inlinesFlow [InlineLevelBox.textRun s t] = [.textRun s t] := rfl
    rw [this] at h
    rw [List.append_cancel_right h]
    rfl

theorem Settles.later {spot : Spot} {b b' : Builder} (h : Settles spot b b') : Settles (if spot = .between then .line else spot) b b' := by
  refine ⟨h.blocks, h.ongoing, h.stack, h.pure, h.pureStack, h.unmeasured, fun e => ?_, fun e => ?_⟩
  · split at e <;> simp_all
  · split at e
    · rename_i hs
      exact (h.between hs).2
    · exact h.line e

theorem dropWhile_all : ∀ l : List Nat, l.all isAsciiWhitespace = true → l.dropWhile isAsciiWhitespace = []
  | [], _ => rfl
  | c :: l, h => by
    simp only [List.all_cons, Bool.and_eq_true] at h
    rw [List.dropWhile_cons, if_pos h.1]
    exact dropWhile_all l h.2

theorem whitespace_nothing {t : List Nat} (h : t.all isAsciiWhitespace = true) {b : Builder} (hc : b.current = []) (ps : ComputedValues) :
    b.handleText t ps = b := by
  have : b.handleLeadingWhitespace t = (false, []) := by
    cases t with
    | nil => rfl
    | cons c t =>
      have hd := dropWhile_all _ h
      simp only [List.all_cons, Bool.and_eq_true] at h
      simp only [Builder.handleLeadingWhitespace, h.1, if_true, hc, spaceAfterAll, hd]
  simp [Builder.handleText, this]

theorem Settles.handleText {spot : Spot} {b b' : Builder} (h : Settles spot b b') (t : List Nat) (ps : ComputedValues) :
    Settles ((StyledNode.text t).after spot) (b.handleText t ps) (b'.handleText t ps) := by
  have hc := h.current
  have he : b'.handleLeadingWhitespace t = b.handleLeadingWhitespace t := by
    simp only [Builder.handleLeadingWhitespace, hc.1]
  have hgen : Settles (if spot = .between then .line else spot) (b.handleText t ps) (b'.handleText t ps) := by
    simp only [Builder.handleText, he, hc.1]
    generalize ((b.handleLeadingWhitespace t).1 || !(b.handleLeadingWhitespace t).2.isEmpty) = q
    cases q
    · simp only [Bool.false_eq_true, if_false]
      exact h.later
    · simp only [if_true]
      exact h.setCurrent (inlinesFlow_appendText _ _ _ hc.2) (inlineAll_appendText _ _ _ h.unmeasured.current)
  simp only [StyledNode.after]
  split
  · rename_i hw
    by_cases hs : spot = .between
    · have e := h.between hs
      have e1 : b.current = [] := by simp [Builder.current, e.1, e.2]
      rw [whitespace_nothing hw e1, whitespace_nothing hw (hc.1.trans e1)]
      exact h
    · rw [if_neg hs] at hgen
      exact hgen
  · exact hgen

theorem Settles.push {spot : Spot} {b b' : Builder} (h : Settles spot b b') {x : BlockLevelBox} {ys : List BlockLevelBox} (hx : WrapL ys x.flow)
    (f f' : Bool) : Settles spot { b with blockLevelBoxes := b.blockLevelBoxes ++ [x], containsFloats := f }
      { b' with blockLevelBoxes := b'.blockLevelBoxes ++ ys, containsFloats := f' } := by
  refine ⟨?_, h.ongoing, h.stack, h.pure, h.pureStack, ⟨h.unmeasured.ongoing, h.unmeasured.stack⟩, h.between, h.line⟩
  simp only [blocksFlow_append, blocksFlow, List.append_nil]
  exact h.blocks.append hx

theorem Settles.ended {spot : Spot} {b b' b1 b1' : Builder} {cs : ComputedValues} (h : Settles spot b b') (h1 : b.endOngoing cs = some b1)
    (h2 : b'.endOngoing cs = some b1') : Settles .between b1 b1' := by
  obtain ⟨s1, s2, s3, s4⟩ := endOngoing_some h1
  obtain ⟨t1, t2, t3, t4⟩ := endOngoing_some h2
  refine ⟨?_, by rw [s3, t3], by rw [s2, t2], by rw [s3]; rfl, by simp [s2], ⟨by rw [s3]; trivial, by simp [s2]⟩, fun _ => ⟨s3, s2⟩, fun _ => s2⟩
  rw [s4, t4, h.ongoing, blocksFlow_append]
  refine h.blocks.append ?_
  split
  · exact .nil
  · simp only [blocksFlow, BlockLevelBox.flow, BlockContainer.flow, h.pure]
    exact .refl _

theorem Settles.finish {spot : Spot} {b b' : Builder} {cs : ComputedValues} (h : Settles spot b b') (hs : b.stack = []) {c c' : BlockContainer}
    {f f' : Bool} (h1 : b.finish cs = some (c, f)) (h2 : b'.finish cs = some (c', f')) : WrapC c' c.flow := by
  have e1 := finish_some hs h1
  have e2 := finish_some (h.stack.trans hs) h2
  rw [h.ongoing] at e2
  by_cases ho : b.ongoing = []
  · rw [if_pos ho] at e1 e2
    rw [e1, e2]
    exact .boxes h.blocks
  · rw [if_neg ho] at e1 e2
    have hlast : WrapL [anonymousBlock cs b.ongoing] (blocksFlow [anonymousBlock cs b.ongoing]) := by
      simp only [anonymousBlock, blocksFlow, BlockLevelBox.flow, BlockContainer.flow, h.pure]
      exact .refl _
    by_cases hb : b.blockLevelBoxes = []
    · have hb' : b'.blockLevelBoxes = [] := by
        have := h.blocks
        rw [hb] at this
        exact this.to_nil
      rw [if_pos hb] at e1
      rw [if_pos hb'] at e2
      rw [e1, e2, BlockContainer.flow, h.pure]
      exact .refl _
    · rw [if_neg hb] at e1
      rw [e1, BlockContainer.flow, blocksFlow_append]
      by_cases hb' : b'.blockLevelBoxes = []
      · rw [if_pos hb'] at e2
        rw [e2]
        have := h.blocks
        rw [hb'] at this
        exact .unwrap (bare_fade cs) h.unmeasured.ongoing (this.append hlast)
      · rw [if_neg hb'] at e2
        rw [e2]
        exact .boxes (h.blocks.append hlast)

mutual
theorem settles_node : ∀ (n : StyledNode) (spot : Spot) (cs ps : ComputedValues) (b b' b1 b1' : Builder), n.Apart spot → Settles spot b b' →
    traverseNode cs ps n b = some b1 → traverseNodes cs ps n.settled b' = some b1' → Settles (n.after spot) b1 b1'
  | .ignored => by
    intro spot cs ps b b' b1 b1' hn h h1 h2
    simp only [traverseNode] at h1
    simp only [StyledNode.settled, traverseNodes, traverseNode] at h2
    cases h1
    cases h2
    exact h
  | .text t => by
    intro spot cs ps b b' b1 b1' hn h h1 h2
    simp only [traverseNode] at h1
    simp only [StyledNode.settled, traverseNodes, traverseNode] at h2
    cases h1
    cases h2
    exact h.handleText t ps
  | .element s children => by
    intro spot cs ps b b' b1 b1' hn h h1 h2
    simp only [traverseNode] at h1
    simp only [StyledNode.settled] at h2
    simp only [StyledNode.after]
    simp only [StyledNode.Apart] at hn
    rcases hd : displayOf s with _ | _ | ⟨outside, inside⟩ <;> simp only [hd] at h1 h2 hn ⊢
    · simp only [if_true, traverseNodes, traverseNode, hd] at h2
      cases h1
      cases h2
      exact h
    · simp only [isAside_not_absolute hn.1, reduceCtorEq, if_false, Bool.false_eq_true, traverseNodes, traverseNode, hd] at h2
      have t2 : traverseNodes cs s (nodesSettled children) b' = some b1' := by
        split at h2
        · cases h2
        · rename_i t2
          rw [t2]
          exact h2
      exact settles_nodes children spot cs s b b' b1 b1' hn.2 h h1 t2
    · cases outside with
      | inline =>
        simp only at hn ⊢
        cases inside with
        | flowRoot => cases h1
        | flow =>
          simp only [isAside_not_absolute hn.1, reduceCtorEq, if_false, Bool.false_eq_true, traverseNodes, traverseNode, hd] at h2
          simp only at h1
          rcases t1 : traverseNodes cs s children { b with stack := ⟨s, true, []⟩ :: b.stack } with _ | c1
          · simp [t1] at h1
          rcases t2 : traverseNodes cs s (nodesSettled children) { b' with stack := ⟨s, true, []⟩ :: b'.stack } with _ | c2
          · simp [t2] at h2
          have hin : Settles .inline { b with stack := ⟨s, true, []⟩ :: b.stack } { b' with stack := ⟨s, true, []⟩ :: b'.stack } := by
            refine ⟨h.blocks, h.ongoing, by simp [h.stack], h.pure, fun o ho => ?_, ⟨h.unmeasured.ongoing, fun o ho => ?_⟩, by simp, by simp⟩
            · rcases List.mem_cons.1 ho with rfl | ho
              · rfl
              · exact h.pureStack o ho
            · rcases List.mem_cons.1 ho with rfl | ho
              · exact ⟨hn.2.1, trivial⟩
              · exact h.unmeasured.stack o ho
          have st := settles_nodes children .inline cs s _ _ c1 c2 hn.2.2 hin t1 t2
          simp only [t1, t2] at h1 h2
          rw [st.stack] at h2
          rcases hs : c1.stack with _ | ⟨o, rest⟩
          · simp [hs] at h1
          simp only [hs, Option.some.injEq] at h1 h2
          subst h1 h2
          obtain ⟨i1, i2, i3, i4, i5⟩ := inline_inner (traverseNodes_induct traverse_shape _ _ _ _ _ t1) hs
          have ho : o ∈ c1.stack := by simp [hs]
          have hout : Settles spot { c1 with stack := rest } { c2 with stack := rest } := by
            refine ⟨st.blocks, st.ongoing, rfl, st.pure, fun o ho => st.pureStack o (by simp [hs, show o ∈ rest from ho]),
              ⟨st.unmeasured.ongoing, fun o ho => st.unmeasured.stack o (by simp [hs, show o ∈ rest from ho])⟩, fun e => ?_, fun e => ?_⟩
            · exact ⟨i4.trans (h.between e).1, i1.trans (h.between e).2⟩
            · exact i1.trans (h.line e)
          have hcur := hout.current
          rw [hcur.1]
          refine hout.setCurrent ?_ (inlineAll_append.2 ⟨hout.unmeasured.current, st.unmeasured.stack o ho, trivial⟩)
          rw [inlinesFlow_append, hcur.2]
          simp only [inlinesFlow, InlineLevelBox.flow, st.pureStack o ho, List.append_nil]
      | block =>
        simp only at hn h1 ⊢
        by_cases hp : positionOf s = .absolute
        · rw [if_pos hp] at hn
          rw [if_pos (.inl hp)]
          rw [absolute_of, if_pos (decide_eq_true hp)] at h1
          rw [isAside_iff.2 ⟨⟨inside, hd⟩, hp⟩] at h2
          simp only [reduceCtorEq, if_false, if_true, traverseNodes] at h2
          cases h2
          have hb := h.between hn
          have hon : b.hasOngoing = false := by simp [Builder.hasOngoing, hb.1, hb.2]
          rw [hon] at h1
          simp only [Bool.false_eq_true, if_false] at h1
          split at h1
          · cases h1
          · split at h1
            · cases h1
            · rename_i contents floats _
              cases h1
              have := h.push (x := .outOfFlowAbsolutelyPositioned s floats contents) (ys := []) .nil b.containsFloats b'.containsFloats
              rw [List.append_nil] at this
              exact this
        · rw [if_neg hp] at hn
          rw [absolute_of, decide_eq_false hp, floating_of] at h1
          rw [isAside_not_absolute hp] at h2
          simp only [reduceCtorEq, if_false, Bool.false_eq_true, traverseNodes, traverseNode, hd, absolute_of, decide_eq_false hp, floating_of] at h1 h2
          by_cases hf : floatOf s ≠ .none
          · rw [if_pos hf] at hn
            rw [if_pos (.inr hf)]
            rw [nodesSettled_still children hn] at h2
            rw [if_pos (decide_eq_true hf)] at h1 h2
            rcases t : traverseNodes s s children Builder.new with _ | inner
            · simp [t] at h1
            rcases tf : inner.finish s with _ | ⟨contents, floats⟩
            · simp [t, tf] at h1
            simp only [t, tf] at h1 h2
            have e1 : Builder.hasOngoing { b with containsFloats := true } = b.hasOngoing := rfl
            have e2 : Builder.hasOngoing { b' with containsFloats := true } = b.hasOngoing := by simp only [Builder.hasOngoing, h.ongoing, h.stack]
            have hf' : Settles spot { b with containsFloats := true } { b' with containsFloats := true } :=
              ⟨h.blocks, h.ongoing, h.stack, h.pure, h.pureStack, ⟨h.unmeasured.ongoing, h.unmeasured.stack⟩, h.between, h.line⟩
            rw [e1] at h1
            rw [e2] at h2
            rcases ho : b.hasOngoing with _ | _
            · simp only [ho, Bool.false_eq_true, if_false] at h1 h2
              cases h1
              cases h2
              exact h.push (x := .outOfFlowFloat s floats contents) (.refl _) true true
            · simp only [ho, if_true] at h1 h2
              cases h1
              cases h2
              have hne : spot ≠ .between := by
                intro e
                have := h.between e
                simp [Builder.hasOngoing, this.1, this.2] at ho
              have hcur := hf'.current
              rw [hcur.1]
              have := hf'.setCurrent (xs := Builder.current { b with containsFloats := true } ++ [.outOfFlowFloat s floats contents])
                (by rw [inlinesFlow_append, hcur.2]; rfl) (inlineAll_append.2 ⟨hf'.unmeasured.current, by exact ⟨trivial, trivial⟩⟩)
              rw [if_neg hne] at this
              exact this
          · rw [if_neg hf] at hn
            rw [if_neg (by simp [hp, hf])]
            rw [decide_eq_false hf] at h1 h2
            simp only [Bool.false_eq_true, if_false] at h1 h2
            rcases p1 : b.splitInlines cs with _ | c1
            · simp [p1] at h1
            rcases p2 : b'.splitInlines cs with _ | c2
            · simp [p2] at h2
            simp only [p1, p2] at h1 h2
            have st := h.ended (splitInlines_eq p1).2 (splitInlines_eq p2).2
            rcases t1 : traverseNodes s s children Builder.new with _ | inner
            · simp [t1] at h1
            rcases t2 : traverseNodes s s (nodesSettled children) Builder.new with _ | inner'
            · simp [t2] at h2
            have sin := settles_nodes children .between s s _ _ inner inner' hn .new t1 t2
            simp only [t1, t2] at h1 h2
            rcases f1 : inner.finish s with _ | ⟨contents, floats⟩
            · simp [f1] at h1
            rcases f2 : inner'.finish s with _ | ⟨contents', floats'⟩
            · simp [f2] at h2
            simp only [f1, f2] at h1 h2
            have hc := sin.finish (traverse_stack rfl t1) f1 f2
            have hspot : Settles (if spot = .inline then .inline else .between) c1 c2 := by
              split
              · exact ⟨st.blocks, st.ongoing, st.stack, st.pure, st.pureStack, st.unmeasured, by simp, by simp⟩
              · exact st
            cases inside with
            | flow =>
              cases h1
              cases h2
              exact hspot.push (x := .sameFormattingContextBlock s contents) (.one (.same (.inl rfl) hc)) _ _
            | flowRoot =>
              cases h1
              cases h2
              exact hspot.push (x := .independent s floats contents) (.one (.independent hc)) _ _
theorem settles_nodes : ∀ (ns : List StyledNode) (spot : Spot) (cs ps : ComputedValues) (b b' b1 b1' : Builder), nodesApart spot ns → Settles spot b b' →
    traverseNodes cs ps ns b = some b1 → traverseNodes cs ps (nodesSettled ns) b' = some b1' → Settles (nodesAfter spot ns) b1 b1'
  | [] => by
    intro spot cs ps b b' b1 b1' hn h h1 h2
    simp only [nodesSettled, traverseNodes] at h1 h2
    cases h1
    cases h2
    exact h
  | n :: ns => by
    intro spot cs ps b b' b1 b1' hn h h1 h2
    simp only [traverseNodes] at h1
    rw [nodesSettled] at h2
    obtain ⟨c', t2, h2⟩ := traverse_append _ _ _ _ h2
    rcases t1 : traverseNode cs ps n b with _ | c
    · simp [t1] at h1
    simp only [t1] at h1
    exact settles_nodes ns _ cs ps c c' b1 b1' hn.2 (settles_node n spot cs ps b b' c c' hn.1 h t1 t2) h1 h2
end

/-- The boxes of the contents of a block. -/
theorem constructContainer_settled {s : ComputedValues} {nodes : List StyledNode} (h : nodesApart .between nodes) {c c' : BlockContainer} {f f' : Bool}
    (h1 : constructContainer s nodes = some (c, f)) (h2 : constructContainer s (nodesSettled nodes) = some (c', f')) : WrapC c' c.flow := by
  simp only [constructContainer] at h1 h2
  rcases t1 : traverseNodes s s nodes Builder.new with _ | b
  · simp [t1] at h1
  rcases t2 : traverseNodes s s (nodesSettled nodes) Builder.new with _ | b'
  · simp [t2] at h2
  simp only [t1, t2] at h1 h2
  exact (settles_nodes nodes .between s s _ _ b b' h .new t1 t2).finish (traverse_stack rfl t1) h1 h2

/-- The boxes of a document. -/
theorem constructRoot_settled {s : ComputedValues} (hp : positionOf s ≠ .absolute) {nodes : List StyledNode} (h : nodesApart .between nodes)
    {r r' : BlockFormattingContext} (h1 : constructRoot s nodes = some r) (h2 : constructRoot s (nodesSettled nodes) = some r') :
    WrapC r'.contents r.contents.flow := by
  simp only [constructRoot, absolute_of, decide_eq_false hp] at h1 h2
  rcases hd : displayOf s with _ | _ | ⟨outside, inside⟩ <;> simp only [hd] at h1 h2
  · cases h1
    cases h2
    exact .boxes .nil
  all_goals
    rcases c1 : constructContainer s nodes with _ | ⟨c, f⟩
    · simp [c1] at h1
    rcases c2 : constructContainer s (nodesSettled nodes) with _ | ⟨c', f'⟩
    · simp [c2] at h2
    have hw := constructContainer_settled h c1 c2
    simp only [c1, c2, Bool.false_eq_true, if_false] at h1 h2
    split at h1
    · rename_i hf
      rw [if_pos hf] at h2
      cases h1
      cases h2
      exact .boxes (.one .float)
    · rename_i hf
      rw [if_neg hf] at h2
      cases h1
      cases h2
      exact .boxes (.one (.independent hw))

end Verif.Layout
