/- The boxes of documents that differ in what is in their absolutely positioned elements. -/
import Verif.Layout.AsideBuild
namespace Verif.Layout
open Verif.Style

mutual
/-- The box without what is in absolutely positioned boxes and in floats. -/
def InlineLevelBox.void : InlineLevelBox → InlineLevelBox
  | .inlineBox style first last children => .inlineBox style first last (inlinesVoid children)
  | .textRun style text => .textRun style text
  | .outOfFlowAbsolutelyPositioned _ _ _ =>
    .outOfFlowAbsolutelyPositioned (ComputedValues.anonymousInheritingFrom none) false (.blockLevelBoxes [])
  | .outOfFlowFloat style floats _ => .outOfFlowFloat style floats (.blockLevelBoxes [])
/-- See `InlineLevelBox.void`. -/
def inlinesVoid : List InlineLevelBox → List InlineLevelBox
  | [] => []
  | x :: xs => x.void :: inlinesVoid xs
end

mutual
/-- See `InlineLevelBox.void`. -/
def BlockContainer.void : BlockContainer → BlockContainer
  | .blockLevelBoxes bs => .blockLevelBoxes (blocksVoid bs)
  | .inlineFormattingContext xs => .inlineFormattingContext (inlinesVoid xs)
/-- See `InlineLevelBox.void`. -/
def BlockLevelBox.void : BlockLevelBox → BlockLevelBox
  | .sameFormattingContextBlock s c => .sameFormattingContextBlock s c.void
  | .independent s floats c => .independent s floats c.void
  | .outOfFlowFloat s floats _ => .outOfFlowFloat s floats (.blockLevelBoxes [])
  | .outOfFlowAbsolutelyPositioned _ _ _ =>
    .outOfFlowAbsolutelyPositioned (ComputedValues.anonymousInheritingFrom none) false (.blockLevelBoxes [])
/-- See `InlineLevelBox.void`. -/
def blocksVoid : List BlockLevelBox → List BlockLevelBox
  | [] => []
  | b :: bs => b.void :: blocksVoid bs
end

def OngoingInlineBox.void (o : OngoingInlineBox) : OngoingInlineBox := ⟨o.style, o.firstFragment, inlinesVoid o.children⟩
def Builder.void (b : Builder) : Builder :=
  ⟨blocksVoid b.blockLevelBoxes, inlinesVoid b.ongoing, b.stack.map OngoingInlineBox.void, b.containsFloats⟩

theorem inlinesVoid_eq (xs : List InlineLevelBox) : inlinesVoid xs = xs.map InlineLevelBox.void := by
  induction xs with
  | nil => rfl
  | cons x xs ih => rw [inlinesVoid, ih, List.map_cons]
theorem blocksVoid_eq (bs : List BlockLevelBox) : blocksVoid bs = bs.map BlockLevelBox.void := by
  induction bs with
  | nil => rfl
  | cons b bs ih => rw [blocksVoid, ih, List.map_cons]
theorem inlinesVoid_append (a b : List InlineLevelBox) : inlinesVoid (a ++ b) = inlinesVoid a ++ inlinesVoid b := by
  simp [inlinesVoid_eq]
theorem blocksVoid_append (a b : List BlockLevelBox) : blocksVoid (a ++ b) = blocksVoid a ++ blocksVoid b := by
  simp [blocksVoid_eq]
theorem inlinesVoid_isEmpty (a : List InlineLevelBox) : (inlinesVoid a).isEmpty = a.isEmpty := by simp [inlinesVoid_eq]
theorem blocksVoid_isEmpty (a : List BlockLevelBox) : (blocksVoid a).isEmpty = a.isEmpty := by simp [blocksVoid_eq]

theorem void_current (b : Builder) : b.void.current = inlinesVoid b.current := by
  obtain ⟨bs, o, stack, f⟩ := b
  cases stack <;> rfl

theorem void_setCurrent (b : Builder) (boxes : List InlineLevelBox) : (b.setCurrent boxes).void = b.void.setCurrent (inlinesVoid boxes) := by
  obtain ⟨bs, o, stack, f⟩ := b
  cases stack <;> rfl

theorem void_push (b : Builder) (x : InlineLevelBox) :
    (b.setCurrent (b.current ++ [x])).void = b.void.setCurrent (b.void.current ++ [x.void]) := by
  rw [void_setCurrent, void_current, inlinesVoid_append]
  rfl

theorem void_hasOngoing (b : Builder) : b.void.hasOngoing = b.hasOngoing := by
  simp [Builder.hasOngoing, Builder.void, inlinesVoid_isEmpty]

mutual
theorem void_spaceAfter : ∀ b : InlineLevelBox, b.void.spaceAfter = b.spaceAfter
  | .inlineBox _ _ _ children => by
    rw [InlineLevelBox.void, InlineLevelBox.spaceAfter, InlineLevelBox.spaceAfter, void_spaceAfterAll children]
  | .textRun _ _ => by rw [InlineLevelBox.void]
  | .outOfFlowAbsolutelyPositioned _ _ _ => by rw [InlineLevelBox.void, InlineLevelBox.spaceAfter, InlineLevelBox.spaceAfter]
  | .outOfFlowFloat _ _ _ => by rw [InlineLevelBox.void, InlineLevelBox.spaceAfter, InlineLevelBox.spaceAfter]
theorem void_spaceAfterAll : ∀ bs : List InlineLevelBox, spaceAfterAll (inlinesVoid bs) = spaceAfterAll bs
  | [] => by rw [inlinesVoid]
  | b :: bs => by rw [inlinesVoid, spaceAfterAll, spaceAfterAll, void_spaceAfter b, void_spaceAfterAll bs]
end

theorem void_appendText (s : ComputedValues) (t : List Nat) (bs : List InlineLevelBox) :
    inlinesVoid (appendText s t bs) = appendText s t (inlinesVoid bs) := by
  induction bs with
  | nil => simp only [inlinesVoid, appendText, InlineLevelBox.void]
  | cons b bs ih =>
    cases bs with
    | nil => cases b <;> simp only [inlinesVoid, appendText, InlineLevelBox.void]
    | cons b2 bs =>
      simp only [inlinesVoid] at ih ⊢
      rw [show appendText s t (b.void :: b2.void :: inlinesVoid bs) =
        b.void :: appendText s t (b2.void :: inlinesVoid bs) from by cases b <;> rfl, ← ih,
        show appendText s t (b :: b2 :: bs) = b :: appendText s t (b2 :: bs) from by cases b <;> rfl, inlinesVoid]

theorem void_handleText (b : Builder) (t : List Nat) (s : ComputedValues) : (b.handleText t s).void = b.void.handleText t s := by
  have h : b.void.handleLeadingWhitespace t = b.handleLeadingWhitespace t := by
    cases t <;> simp only [Builder.handleLeadingWhitespace, void_current, void_spaceAfterAll]
  simp only [Builder.handleText, h, void_current, ← void_appendText, ← void_setCurrent]
  split <;> rfl

theorem void_endOngoing (b : Builder) (s : ComputedValues) : (b.endOngoing s).map Builder.void = b.void.endOngoing s := by
  obtain ⟨bs, o, stack, f⟩ := b
  cases stack with
  | cons => rfl
  | nil =>
    cases o with
    | nil => rfl
    | cons x o =>
      simp [Builder.endOngoing, Builder.void, inlinesVoid, blocksVoid, blocksVoid_append, BlockLevelBox.void, BlockContainer.void]

theorem void_fragmentStack (inner : Option InlineLevelBox) (stack : List OngoingInlineBox) :
    (fragmentStack inner stack).map InlineLevelBox.void = fragmentStack (inner.map InlineLevelBox.void) (stack.map OngoingInlineBox.void) := by
  induction stack generalizing inner with
  | nil => rfl
  | cons o stack ih =>
    simp only [List.map_cons, fragmentStack]
    rw [ih]
    cases inner <;> simp [OngoingInlineBox.void, InlineLevelBox.void, inlinesVoid_append, inlinesVoid]

theorem void_splitInlines (b : Builder) (s : ComputedValues) : (b.splitInlines s).map Builder.void = b.void.splitInlines s := by
  simp only [Builder.splitInlines]
  rw [void_endOngoing]
  have h := void_fragmentStack none b.stack
  rw [Option.map_none] at h
  congr 1
  simp only [Builder.void, ← h, inlinesVoid_append, List.map_map]
  congr 2
  cases fragmentStack none b.stack <;> simp [inlinesVoid]

theorem void_finish (b : Builder) (s : ComputedValues) : (b.finish s).map (fun r => (r.1.void, r.2)) = b.void.finish s := by
  simp only [Builder.finish, ← void_endOngoing]
  rw [show b.void.ongoing = inlinesVoid b.ongoing from rfl, show b.void.blockLevelBoxes = blocksVoid b.blockLevelBoxes from rfl,
    inlinesVoid_isEmpty, blocksVoid_isEmpty]
  split
  · simp [BlockContainer.void, Builder.void]
  · split
    · simp [BlockContainer.void, Builder.void]
    · rcases b.endOngoing s with _ | b1
      · rfl
      · simp [BlockContainer.void, Builder.void]

/-- Two builders with the same boxes, but for what is in absolutely positioned boxes and in floats. -/
theorem void_finish_eq {b b' : Builder} {s : ComputedValues} {c c' : BlockContainer} {f f' : Bool} (h : b.void = b'.void)
    (h1 : b.finish s = some (c, f)) (h2 : b'.finish s = some (c', f')) : c.void = c'.void ∧ f = f' := by
  have e1 := void_finish b s
  have e2 := void_finish b' s
  rw [h1, h] at e1
  rw [h2, ← e1] at e2
  simp only [Option.map_some, Option.some.injEq, Prod.mk.injEq] at e2
  exact ⟨e2.1.symm, e2.2.symm⟩

theorem void_splitInlines_eq {b b' b1 b1' : Builder} {s : ComputedValues} (h : b.void = b'.void)
    (h1 : b.splitInlines s = some b1) (h2 : b'.splitInlines s = some b1') : b1.void = b1'.void := by
  have e1 := void_splitInlines b s
  have e2 := void_splitInlines b' s
  rw [h1, h] at e1
  rw [h2, ← e1] at e2
  simpa using e2.symm

theorem void_hasOngoing_eq {b b' : Builder} (h : b.void = b'.void) : b.hasOngoing = b'.hasOngoing := by
  rw [← void_hasOngoing, h, void_hasOngoing]

theorem void_push_eq {b b' : Builder} {x x' : InlineLevelBox} (h : b.void = b'.void) (hx : x.void = x'.void) :
    (b.setCurrent (b.current ++ [x])).void = (b'.setCurrent (b'.current ++ [x'])).void := by
  rw [void_push, void_push, h, hx]

theorem void_pushBlock_eq {b b' : Builder} {x x' : BlockLevelBox} {f f' : Bool} (h : b.void = b'.void) (hx : x.void = x'.void) (hf : f = f') :
    ({ b with blockLevelBoxes := b.blockLevelBoxes ++ [x], containsFloats := f } : Builder).void =
      ({ b' with blockLevelBoxes := b'.blockLevelBoxes ++ [x'], containsFloats := f' } : Builder).void := by
  simp only [Builder.void, Builder.mk.injEq] at h ⊢
  obtain ⟨h1, h2, h3, h4⟩ := h
  simp only [blocksVoid_append, h1, h2, h3, blocksVoid, hx, hf, and_self]

theorem void_floats {b b' : Builder} (h : b.void = b'.void) : b.containsFloats = b'.containsFloats := by
  simp only [Builder.void, Builder.mk.injEq] at h
  exact h.2.2.2

theorem void_mark {b b' : Builder} (h : b.void = b'.void) (f : Bool) :
    ({ b with containsFloats := f } : Builder).void = ({ b' with containsFloats := f } : Builder).void := by
  simp only [Builder.void, Builder.mk.injEq] at h ⊢
  exact ⟨h.1, h.2.1, h.2.2.1, trivial⟩

mutual
theorem emptied_node : ∀ (n n' : StyledNode) (cs ps : ComputedValues) (b b' b1 b1' : Builder), n.Emptied n' → b.void = b'.void →
    traverseNode cs ps n b = some b1 → traverseNode cs ps n' b' = some b1' → b1.void = b1'.void
  | .ignored, .ignored, cs, ps, b, b', b1, b1', _, h, h1, h2 => by
    simp only [traverseNode, Option.some.injEq] at h1 h2
    rw [← h1, ← h2, h]
  | .text t, .text t', cs, ps, b, b', b1, b1', he, h, h1, h2 => by
    simp only [traverseNode, Option.some.injEq] at h1 h2
    have he : t = t' := he
    rw [← h1, ← h2, he, void_handleText, void_handleText, h]
  | .element s children, .element s' children', cs, ps, b, b', b1, b1', he, h, h1, h2 => by
    simp only [StyledNode.Emptied] at he
    rcases ha : IsAside s with _ | _
    · rw [ha] at he
      simp only [Bool.false_eq_true, if_false] at he
      obtain ⟨rfl, he⟩ := he
      have ih := emptied_nodes children children'
      simp only [traverseNode] at h1 h2
      rcases hd : displayOf s with _ | _ | ⟨outside, inside⟩ <;> simp only [hd] at h1 h2
      · simp only [Option.some.injEq] at h1 h2
        rw [← h1, ← h2, h]
      · exact ih _ _ _ _ _ _ he h h1 h2
      · cases outside with
        | inline =>
          cases inside with
          | flowRoot => cases h1
          | flow =>
            simp only at h1 h2
            rcases t1 : traverseNodes cs s children { b with stack := ⟨s, true, []⟩ :: b.stack } with _ | c
            · simp [t1] at h1
            rcases t2 : traverseNodes cs s children' { b' with stack := ⟨s, true, []⟩ :: b'.stack } with _ | c'
            · simp [t2] at h2
            simp only [t1] at h1
            simp only [t2] at h2
            have hc := ih _ _ _ _ _ _ he (by
              simp only [Builder.void, Builder.mk.injEq, List.map_cons] at h ⊢
              exact ⟨h.1, h.2.1, by rw [h.2.2.1], h.2.2.2⟩) t1 t2
            rcases k1 : c.stack with _ | ⟨o, rest⟩
            · simp [k1] at h1
            rcases k2 : c'.stack with _ | ⟨o', rest'⟩
            · simp [k2] at h2
            simp only [k1, Option.some.injEq] at h1
            simp only [k2, Option.some.injEq] at h2
            rw [← h1, ← h2]
            have hs := congrArg Builder.stack hc
            simp only [Builder.void, k1, k2, List.map_cons, List.cons.injEq] at hs
            obtain ⟨ho, hrest⟩ := hs
            simp only [OngoingInlineBox.void, OngoingInlineBox.mk.injEq] at ho
            refine void_push_eq ?_ ?_
            · simp only [Builder.void, Builder.mk.injEq] at hc ⊢
              exact ⟨hc.1, hc.2.1, hrest, hc.2.2.2⟩
            · simp only [InlineLevelBox.void, ho]
        | block =>
          have hp : positionOf s ≠ .absolute := fun hp => by
            rw [isAside_iff.2 ⟨⟨inside, hd⟩, hp⟩] at ha
            cases ha
          simp only [absolute_of, decide_eq_false hp, Bool.false_eq_true, if_false] at h1 h2
          split at h1
          · rename_i hf
            rw [if_pos hf] at h2
            rcases t1 : traverseNodes s s children Builder.new with _ | c
            · simp [t1] at h1
            rcases t2 : traverseNodes s s children' Builder.new with _ | c'
            · simp [t2] at h2
            simp only [t1] at h1
            simp only [t2] at h2
            rcases k1 : c.finish s with _ | ⟨d, f⟩
            · simp [k1] at h1
            rcases k2 : c'.finish s with _ | ⟨d', f'⟩
            · simp [k2] at h2
            simp only [k1] at h1
            simp only [k2] at h2
            obtain ⟨-, rfl⟩ := void_finish_eq (ih _ _ _ _ _ _ he rfl t1 t2) k1 k2
            have hm := void_mark h true
            rw [void_hasOngoing_eq hm] at h1
            split at h1
            · rename_i ho
              rw [if_pos ho] at h2
              simp only [Option.some.injEq] at h1 h2
              rw [← h1, ← h2]
              exact void_push_eq hm rfl
            · rename_i ho
              rw [if_neg ho] at h2
              simp only [Option.some.injEq] at h1 h2
              rw [← h1, ← h2]
              exact void_pushBlock_eq (f := true) (f' := true) h rfl rfl
          · rename_i hf
            rw [if_neg hf] at h2
            rcases s1 : b.splitInlines cs with _ | e
            · simp [s1] at h1
            rcases s2 : b'.splitInlines cs with _ | e'
            · simp [s2] at h2
            simp only [s1] at h1
            simp only [s2] at h2
            have hs := void_splitInlines_eq h s1 s2
            rcases t1 : traverseNodes s s children Builder.new with _ | c
            · simp [t1] at h1
            rcases t2 : traverseNodes s s children' Builder.new with _ | c'
            · simp [t2] at h2
            simp only [t1] at h1
            simp only [t2] at h2
            rcases k1 : c.finish s with _ | ⟨d, f⟩
            · simp [k1] at h1
            rcases k2 : c'.finish s with _ | ⟨d', f'⟩
            · simp [k2] at h2
            simp only [k1] at h1
            simp only [k2] at h2
            obtain ⟨hv, rfl⟩ := void_finish_eq (ih _ _ _ _ _ _ he rfl t1 t2) k1 k2
            cases inside with
            | flow =>
              simp only [Option.some.injEq] at h1 h2
              rw [← h1, ← h2]
              exact void_pushBlock_eq hs (by simp only [BlockLevelBox.void, hv]) (by rw [void_floats hs])
            | flowRoot =>
              simp only [Option.some.injEq] at h1 h2
              rw [← h1, ← h2]
              exact void_pushBlock_eq (f := e.containsFloats) (f' := e'.containsFloats) hs (by simp only [BlockLevelBox.void, hv]) (void_floats hs)
    · rw [ha] at he
      simp only [if_true] at he
      obtain ⟨ha', rfl, -⟩ := he
      obtain ⟨⟨inside, hd⟩, hp⟩ := isAside_iff.1 ha
      obtain ⟨⟨inside', hd'⟩, hp'⟩ := isAside_iff.1 ha'
      have hb : (positionOf s).isAbsolutelyPositioned = true := by rw [absolute_of, hp]; rfl
      have hb' : (positionOf s').isAbsolutelyPositioned = true := by rw [absolute_of, hp']; rfl
      simp only [traverseNode, hd, hb, if_true] at h1
      simp only [traverseNode, hd', hb', if_true, traverseNodes] at h2
      rcases t1 : traverseNodes s s children Builder.new with _ | c
      · simp [t1] at h1
      simp only [t1] at h1
      rcases k1 : c.finish s with _ | ⟨d, f⟩
      · simp [k1] at h1
      rcases k2 : Builder.new.finish s' with _ | ⟨d', f'⟩
      · simp [k2] at h2
      simp only [k1] at h1
      simp only [k2] at h2
      rw [void_hasOngoing_eq h] at h1
      split at h1
      · rename_i ho
        rw [if_pos ho] at h2
        simp only [Option.some.injEq] at h1 h2
        rw [← h1, ← h2]
        exact void_push_eq h rfl
      · rename_i ho
        rw [if_neg ho] at h2
        simp only [Option.some.injEq] at h1 h2
        rw [← h1, ← h2]
        exact void_pushBlock_eq (f := b.containsFloats) (f' := b'.containsFloats) h rfl (void_floats h)
  | .ignored, .text _, _, _, _, _, _, _, he, _, _, _ => he.elim
  | .ignored, .element _ _, _, _, _, _, _, _, he, _, _, _ => he.elim
  | .text _, .ignored, _, _, _, _, _, _, he, _, _, _ => he.elim
  | .text _, .element _ _, _, _, _, _, _, _, he, _, _, _ => he.elim
  | .element _ _, .ignored, _, _, _, _, _, _, he, _, _, _ => he.elim
  | .element _ _, .text _, _, _, _, _, _, _, he, _, _, _ => he.elim
theorem emptied_nodes : ∀ (ns ns' : List StyledNode) (cs ps : ComputedValues) (b b' b1 b1' : Builder), nodesEmptied ns ns' → b.void = b'.void →
    traverseNodes cs ps ns b = some b1 → traverseNodes cs ps ns' b' = some b1' → b1.void = b1'.void
  | [], [], cs, ps, b, b', b1, b1', _, h, h1, h2 => by
    simp only [traverseNodes, Option.some.injEq] at h1 h2
    rw [← h1, ← h2, h]
  | n :: ns, n' :: ns', cs, ps, b, b', b1, b1', he, h, h1, h2 => by
    simp only [traverseNodes] at h1 h2
    rcases t1 : traverseNode cs ps n b with _ | c
    · simp [t1] at h1
    rcases t2 : traverseNode cs ps n' b' with _ | c'
    · simp [t2] at h2
    simp only [t1] at h1
    simp only [t2] at h2
    exact emptied_nodes ns ns' _ _ _ _ _ _ he.2 (emptied_node n n' _ _ _ _ _ _ he.1 h t1 t2) h1 h2
  | [], _ :: _, _, _, _, _, _, _, he, _, _, _ => he.elim
  | _ :: _, [], _, _, _, _, _, _, he, _, _, _ => he.elim
end

/-! ### What is in flow -/

mutual
theorem flow_void_inline : ∀ (x x' : InlineLevelBox), x.void = x'.void → fadeInlines x.flow = fadeInlines x'.flow
  | .inlineBox s f l ch, x', h => by
    cases x' with
    | inlineBox s' f' l' ch' =>
      simp only [InlineLevelBox.void, InlineLevelBox.inlineBox.injEq] at h
      obtain ⟨rfl, rfl, rfl, h⟩ := h
      simp only [InlineLevelBox.flow, fadeInlines, InlineLevelBox.fade, flow_void_inlines ch ch' h]
    | textRun s t => simp [InlineLevelBox.void] at h
    | outOfFlowAbsolutelyPositioned s f c => simp [InlineLevelBox.void] at h
    | outOfFlowFloat s f c => simp [InlineLevelBox.void] at h
  | .textRun s t, x', h => by
    cases x' <;> simp [InlineLevelBox.void] at h
    rw [h.1, h.2]
  | .outOfFlowAbsolutelyPositioned s f c, x', h => by
    cases x' <;> simp [InlineLevelBox.void] at h
    rfl
  | .outOfFlowFloat s f c, x', h => by
    cases x' <;> simp [InlineLevelBox.void] at h
    simp only [InlineLevelBox.flow, fadeInlines, InlineLevelBox.fade, h.1, h.2]
theorem flow_void_inlines : ∀ (xs xs' : List InlineLevelBox), inlinesVoid xs = inlinesVoid xs' → fadeInlines (inlinesFlow xs) = fadeInlines (inlinesFlow xs')
  | [], xs', h => by
    cases xs' with
    | nil => rfl
    | cons x' xs' => simp [inlinesVoid] at h
  | x :: xs, xs', h => by
    cases xs' with
    | nil => simp [inlinesVoid] at h
    | cons x' xs' =>
      simp only [inlinesVoid, List.cons.injEq] at h
      simp only [inlinesFlow, fadeInlines_append, flow_void_inline x x' h.1, flow_void_inlines xs xs' h.2]
end

mutual
theorem flow_void_container : ∀ (c c' : BlockContainer), c.void = c'.void → WrapC c.flow c'.flow
  | .blockLevelBoxes bs, c', h => by
    cases c' with
    | blockLevelBoxes bs' =>
      simp only [BlockContainer.void, BlockContainer.blockLevelBoxes.injEq] at h
      exact .boxes (flow_void_blocks bs bs' h)
    | inlineFormattingContext xs => simp [BlockContainer.void] at h
  | .inlineFormattingContext xs, c', h => by
    cases c' with
    | blockLevelBoxes bs' => simp [BlockContainer.void] at h
    | inlineFormattingContext xs' =>
      simp only [BlockContainer.void, BlockContainer.inlineFormattingContext.injEq] at h
      exact .inlines (flow_void_inlines xs xs' h)
theorem flow_void_block : ∀ (b b' : BlockLevelBox), b.void = b'.void → WrapL b.flow b'.flow
  | .sameFormattingContextBlock s c, b', h => by
    cases b' with
    | sameFormattingContextBlock s' c' =>
      simp only [BlockLevelBox.void, BlockLevelBox.sameFormattingContextBlock.injEq] at h
      exact .cons (.same (.inl h.1) (flow_void_container c c' h.2)) .nil
    | _ => simp [BlockLevelBox.void] at h
  | .independent s f c, b', h => by
    cases b' with
    | independent s' f' c' =>
      simp only [BlockLevelBox.void, BlockLevelBox.independent.injEq] at h
      obtain ⟨rfl, rfl, h⟩ := h
      exact .cons (.independent (flow_void_container c c' h)) .nil
    | _ => simp [BlockLevelBox.void] at h
  | .outOfFlowAbsolutelyPositioned s f c, b', h => by
    cases b' <;> simp [BlockLevelBox.void] at h
    exact .nil
  | .outOfFlowFloat s f c, b', h => by
    cases b' <;> simp [BlockLevelBox.void] at h
    exact .cons .float .nil
theorem flow_void_blocks : ∀ (bs bs' : List BlockLevelBox), blocksVoid bs = blocksVoid bs' → WrapL (blocksFlow bs) (blocksFlow bs')
  | [], bs', h => by
    cases bs' with
    | nil => exact .nil
    | cons b' bs' => simp [blocksVoid] at h
  | b :: bs, bs', h => by
    cases bs' with
    | nil => simp [blocksVoid] at h
    | cons b' bs' =>
      simp only [blocksVoid, List.cons.injEq] at h
      simp only [blocksFlow]
      exact (flow_void_block b b' h.1).append (flow_void_blocks bs bs' h.2)
end

theorem constructRoot_emptied {s : ComputedValues} (hp : positionOf s ≠ .absolute) {nodes nodes' : List StyledNode} (h : nodesEmptied nodes nodes')
    {r r' : BlockFormattingContext} (h1 : constructRoot s nodes = some r) (h2 : constructRoot s nodes' = some r') :
    WrapC r'.contents.flow r.contents.flow := by
  simp only [constructRoot, absolute_of, decide_eq_false hp] at h1 h2
  rcases hd : displayOf s with _ | _ | ⟨outside, inside⟩ <;> simp only [hd] at h1 h2
  · cases h1
    cases h2
    exact .boxes .nil
  all_goals
    rcases c1 : constructContainer s nodes with _ | ⟨c, f⟩
    · simp [c1] at h1
    rcases c2 : constructContainer s nodes' with _ | ⟨c', f'⟩
    · simp [c2] at h2
    simp only [c1, Bool.false_eq_true, if_false] at h1
    simp only [c2, Bool.false_eq_true, if_false] at h2
    unfold constructContainer at c1 c2
    rcases t1 : traverseNodes s s nodes Builder.new with _ | b
    · simp [t1] at c1
    rcases t2 : traverseNodes s s nodes' Builder.new with _ | b'
    · simp [t2] at c2
    simp only [t1] at c1
    simp only [t2] at c2
    obtain ⟨hv, rfl⟩ := void_finish_eq (emptied_nodes nodes nodes' _ _ _ _ _ _ h rfl t1 t2) c1 c2
    split at h1
    · rename_i hf
      rw [if_pos hf] at h2
      cases h1
      cases h2
      exact .boxes (.cons .float .nil)
    · rename_i hf
      rw [if_neg hf] at h2
      cases h1
      cases h2
      exact .boxes (.cons (.independent (flow_void_container c' c hv.symm)) .nil)

end Verif.Layout
