/- The boxes that are stored in elements are the boxes of the tree. -/
import Verif.Layout.SlotsEvents
import Mathlib.Data.Multiset.AddSub
import Mathlib.Algebra.Order.Group.Multiset
import Mathlib.Tactic.Abel
namespace Verif.Layout
open Verif.Style

mutual
/-- All the boxes in a block container, without text runs. -/
def BlockContainer.parts : BlockContainer → List StoredBox
  | .blockLevelBoxes boxes => blocksParts boxes
  | .inlineFormattingContext boxes => inlinesParts boxes
/-- See `BlockContainer.parts`. -/
def BlockLevelBox.parts : BlockLevelBox → List StoredBox
  | .sameFormattingContextBlock s c => .blockLevel (.sameFormattingContextBlock s c) :: c.parts
  | .outOfFlowAbsolutelyPositioned s f c => .blockLevel (.outOfFlowAbsolutelyPositioned s f c) :: c.parts
  | .outOfFlowFloat s f c => .blockLevel (.outOfFlowFloat s f c) :: c.parts
  | .independent s f c => .blockLevel (.independent s f c) :: c.parts
/-- See `BlockContainer.parts`. -/
def blocksParts : List BlockLevelBox → List StoredBox
  | [] => []
  | b :: bs => b.parts ++ blocksParts bs
/-- See `BlockContainer.parts`. -/
def InlineLevelBox.parts : InlineLevelBox → List StoredBox
  | .inlineBox s f l children => .inlineLevel (.inlineBox s f l children) :: inlinesParts children
  | .textRun _ _ => []
  | .outOfFlowAbsolutelyPositioned s f c => .inlineLevel (.outOfFlowAbsolutelyPositioned s f c) :: c.parts
  | .outOfFlowFloat s f c => .inlineLevel (.outOfFlowFloat s f c) :: c.parts
/-- See `BlockContainer.parts`. -/
def inlinesParts : List InlineLevelBox → List StoredBox
  | [] => []
  | b :: bs => b.parts ++ inlinesParts bs
end

/-- An anonymous block: it holds the inline-level boxes between the blocks of a container. -/
def Anonymous (b : StoredBox) : Prop :=
  ∃ containerStyle boxes, b = .blockLevel (.sameFormattingContextBlock (ComputedValues.anonymousInheritingFrom (some containerStyle))
    (.inlineFormattingContext boxes))

/-- What an event stores. -/
def Event.stores : Event → Option StoredBox
  | .set _ box => some box
  | _ => none

/-- The boxes that are stored by events. -/
def storedBy (l : List Event) : List StoredBox := l.filterMap Event.stores

/-- `l` are the boxes `m` and anonymous ones. -/
def SameParts (l m : List StoredBox) : Prop := ∃ anon, l.Perm (m ++ anon) ∧ ∀ a ∈ anon, Anonymous a

theorem storedBy_append (l m : List Event) : storedBy (l ++ m) = storedBy l ++ storedBy m := List.filterMap_append

theorem storedBy_set (id : Nat) (box : StoredBox) : storedBy [.set id box] = [box] := rfl

theorem inlinesParts_append (l m : List InlineLevelBox) : inlinesParts (l ++ m) = inlinesParts l ++ inlinesParts m := by
  induction l with
  | nil => rfl
  | cons b bs ih => simp [inlinesParts, ih]

theorem appendText_parts (ps : ComputedValues) (out : List Nat) : ∀ l : List InlineLevelBox,
    inlinesParts (appendText ps out l) = inlinesParts l := by
  intro l
  fun_induction appendText ps out l with
  | case1 => rfl
  | case2 => rfl
  | case3 b h => simp [inlinesParts, InlineLevelBox.parts]
  | case4 b bs h1 h2 ih => simp only [inlinesParts, ih]

/-- The parts of the boxes that are not deferred. -/
def tasksParts : List (Intermediate × Option Nat) → List StoredBox
  | [] => []
  | (.inlines s boxes, _) :: ts =>
    .blockLevel (.sameFormattingContextBlock s (.inlineFormattingContext boxes)) :: (inlinesParts boxes ++ tasksParts ts)
  | _ :: ts => tasksParts ts

theorem tasksParts_append (l m : List (Intermediate × Option Nat)) : tasksParts (l ++ m) = tasksParts l ++ tasksParts m := by
  induction l with
  | nil => rfl
  | cons t ts ih =>
    obtain ⟨i, s⟩ := t
    cases i <;> simp [tasksParts, ih]

/-- The parts of the ongoing inline boxes. -/
def stackParts : List OngoingInlineBox → List StoredBox
  | [] => []
  | o :: os => inlinesParts o.children ++ stackParts os

/-- The parts of the boxes that a builder has. -/
def SlotBuilder.parts (b : SlotBuilder) : List StoredBox := tasksParts b.boxes ++ inlinesParts b.ongoing ++ stackParts b.stack

/-- Elements have slots and anonymous blocks have none. -/
def WfTask : Intermediate × Option Nat → Prop
  | (.inlines s _, slot) => slot = none ∧ ∃ cs, s = ComputedValues.anonymousInheritingFrom (some cs)
  | (_, slot) => slot.isSome = true

/-- What a builder has is what was stored, and anonymous blocks. -/
structure SlotBuilder.Tidy (b : SlotBuilder) : Prop where
  same : SameParts b.parts (storedBy b.program.events)
  tasks : ∀ t ∈ b.boxes, WfTask t

theorem setCurrent_parts (b : SlotBuilder) (box : InlineLevelBox) :
    (b.setInlinePart (b.inlinePart.setCurrent (b.inlinePart.current ++ [box]))).parts.Perm (b.parts ++ box.parts) := by
  obtain ⟨boxes, ongoing, stack, f, p⟩ := b
  cases stack with
  | nil =>
    simp [SlotBuilder.setInlinePart, SlotBuilder.inlinePart, Builder.setCurrent, Builder.current, SlotBuilder.parts, inlinesParts_append,
      stackParts, inlinesParts]
  | cons o os =>
    simp only [SlotBuilder.setInlinePart, SlotBuilder.inlinePart, Builder.setCurrent, Builder.current, SlotBuilder.parts,
      inlinesParts_append, stackParts, inlinesParts, List.append_nil, ← Multiset.coe_eq_coe, ← Multiset.coe_add]
    abel

theorem handleText_parts (b : SlotBuilder) (t : List Nat) (ps : ComputedValues) :
    (b.setInlinePart (b.inlinePart.handleText t ps)).parts = b.parts := by
  unfold Builder.handleText
  rcases b.inlinePart.handleLeadingWhitespace t with ⟨lw, input⟩
  dsimp only
  obtain ⟨boxes, ongoing, stack, f, p⟩ := b
  split
  · cases stack with
    | nil => simp [SlotBuilder.setInlinePart, SlotBuilder.inlinePart, Builder.setCurrent, Builder.current, SlotBuilder.parts, appendText_parts]
    | cons o os =>
      simp [SlotBuilder.setInlinePart, SlotBuilder.inlinePart, Builder.setCurrent, Builder.current, SlotBuilder.parts, appendText_parts,
        stackParts]
  · rfl

theorem endOngoing_tidy {b b2 : SlotBuilder} {cs : ComputedValues} (h : b.Tidy) (e : b.endOngoing cs = .ok b2) : b2.Tidy := by
  unfold SlotBuilder.endOngoing at e
  split at e
  · cases e
  · split at e
    · cases e; exact h
    · cases e
      obtain ⟨⟨anon, h1, h2⟩, h3⟩ := h
      refine ⟨⟨.blockLevel (.sameFormattingContextBlock (ComputedValues.anonymousInheritingFrom (some cs))
        (.inlineFormattingContext b.ongoing)) :: anon, ?_, ?_⟩, ?_⟩
      · simp only [SlotBuilder.parts, tasksParts_append, tasksParts, inlinesParts, List.append_nil, ← Multiset.coe_eq_coe, ← Multiset.coe_add,
          ← Multiset.cons_coe, ← Multiset.singleton_add] at h1 ⊢
        simpa only [add_assoc, add_comm, add_left_comm] using congrArg (· + ({.blockLevel (.sameFormattingContextBlock
          (ComputedValues.anonymousInheritingFrom (some cs)) (.inlineFormattingContext b.ongoing))} : Multiset StoredBox)) h1
      · intro a ha
        rcases List.mem_cons.1 ha with rfl | ha
        · exact ⟨cs, b.ongoing, rfl⟩
        · exact h2 a ha
      · intro t ht
        rcases List.mem_append.1 ht with ht | ht
        · exact h3 t ht
        · simp only [List.mem_singleton] at ht
          subst ht
          exact ⟨rfl, cs, rfl⟩

/-- The construction stores all the boxes that it makes, except anonymous blocks. -/
def TidyAll (C : ComputedValues → List IdNode → Outcome Built) : Prop :=
  ∀ style cs built, C style cs = .ok built → SameParts built.contents.parts (storedBy built.program.events)

theorem SlotBuilder.Tidy.emit {b : SlotBuilder} (h : b.Tidy) (e : Event) (he : e.stores = none) : (b.emit (.event e)).Tidy := by
  refine ⟨?_, h.tasks⟩
  simp only [SlotBuilder.emit, Program.events, storedBy_append]
  simpa [storedBy, he, SlotBuilder.parts] using h.same

mutual
theorem slotNode_tidy {C : ComputedValues → List IdNode → Outcome Built} (hC : TidyAll C) :
    ∀ (n : IdNode) (cst ps : ComputedValues) (b b2 : SlotBuilder), b.Tidy → slotNode C cst ps n b = .ok b2 → b2.Tidy
  | .ignored, cst, ps, b, b2, h, e => by rw [slotNode] at e; cases e; exact h
  | .text contents, cst, ps, b, b2, h, e => by
    rw [slotNode] at e; cases e
    exact ⟨by rw [handleText_parts]; exact h.same, h.tasks⟩
  | .element id style children, cst, ps, b, b2, h, e => by
    rw [slotNode] at e
    rcases hdis : displayOf style with _ | _ | ⟨_ | _, inside⟩ <;> rw [hdis] at e
    · cases e; exact h.emit _ rfl
    · exact slotNodes_tidy hC children cst style _ b2 (h.emit _ rfl) e
    · cases inside with
      | flow =>
        obtain ⟨b3, e1, e2⟩ := Outcome.andThen_ok (Outcome.owning_ok e)
        have h3 := slotNodes_tidy hC children _ _ _ _ (by
          have h0 := h.emit (.borrow id) rfl
          refine ⟨?_, h0.tasks⟩
          have := h0.same
          simp only [SlotBuilder.parts, stackParts, inlinesParts, List.nil_append] at this ⊢
          exact this) e1
        rcases hst : b3.stack with _ | ⟨o, rest⟩
        · simp only [hst] at e2; cases e2
        · simp only [hst] at e2
          cases e2
          obtain ⟨⟨anon, h1, h2⟩, h4⟩ := h3
          refine ⟨⟨anon, ?_, h2⟩, h4⟩
          have hp := setCurrent_parts { b3 with stack := rest } (.inlineBox o.style o.firstFragment true o.children)
          refine (show SlotBuilder.parts _ = _ from rfl).subst (motive := fun x => List.Perm x _) (hp.trans ?_)
          simp only [SlotBuilder.emit, SlotBuilder.setInlinePart, Program.events, storedBy_append]
          simp only [SlotBuilder.parts, hst, stackParts, ← Multiset.coe_eq_coe, ← Multiset.coe_add, InlineLevelBox.parts, storedBy_set, ← Multiset.cons_coe, ← Multiset.singleton_add] at h1 ⊢
          simpa only [Multiset.coe_nil, add_zero, zero_add, add_assoc, add_comm, add_left_comm] using congrArg (· + ({.inlineLevel
            (.inlineBox o.style o.firstFragment true o.children)} : Multiset StoredBox)) h1
      | flowRoot => cases e
    · -- finished at once
      have now : ∀ (built : Built) (box : InlineLevelBox) (b1 : SlotBuilder), C style children = .ok built →
          box.parts = .inlineLevel box :: built.contents.parts → b1.Tidy →
          ((((b1.emit built.program).setInlinePart ((b1.emit built.program).inlinePart.setCurrent
            ((b1.emit built.program).inlinePart.current ++ [box])))).emit (.event (.set id (.inlineLevel box)))).Tidy := by
        intro built box b1 h1 h2 ht
        obtain ⟨anon', g1, g2⟩ := hC style children built h1
        obtain ⟨⟨anon, k1, k2⟩, k3⟩ := ht
        refine ⟨⟨anon ++ anon', ?_, ?_⟩, k3⟩
        · have hp := setCurrent_parts (b1.emit built.program) box
          refine hp.trans ?_
          have hb1 : (b1.emit built.program).parts = b1.parts := rfl
          rw [hb1, h2]
          simp only [SlotBuilder.emit, SlotBuilder.setInlinePart, Program.events, storedBy_append, storedBy_set, ← Multiset.coe_eq_coe, ← Multiset.coe_add, ← Multiset.cons_coe, ← Multiset.singleton_add, Multiset.coe_nil]
            at k1 g1 ⊢
          rw [k1, g1]
          abel
        · intro a ha
          rcases List.mem_append.1 ha with ha | ha
          · exact k2 a ha
          · exact g2 a ha
      -- deferred
      have later : ∀ (i : Intermediate) (b1 b3 : SlotBuilder), WfTask (i, some id) → tasksParts [(i, some id)] = [] →
          b1.Tidy → b3.program = b1.program → b3.boxes = b1.boxes ++ [(i, some id)] → b3.ongoing = b1.ongoing → b3.stack = b1.stack →
          b3.Tidy := by
        intro i b1 b3 h1 h2 h3 h4 h5 h6 h7
        refine ⟨?_, ?_⟩
        · have := h3.same
          simp only [SlotBuilder.parts, h4, h5, h6, h7, tasksParts_append, h2, List.append_nil] at this ⊢
          exact this
        · intro t ht
          rw [h5] at ht
          rcases List.mem_append.1 ht with ht | ht
          · exact h3.tasks t ht
          · simp only [List.mem_singleton] at ht
            subst ht
            exact h1
      have hb := h.emit (.borrow id) rfl
      dsimp only at e
      split at e
      · split at e
        · obtain ⟨built, e1, e2⟩ := Outcome.andThen_ok (Outcome.owning_ok e)
          cases e2
          exact now built _ _ e1 (by simp [InlineLevelBox.parts]) hb
        · cases e
          exact later (.absolutelyPositioned style children) _ _ rfl rfl hb rfl rfl rfl rfl
      · split at e
        · split at e
          · obtain ⟨built, e1, e2⟩ := Outcome.andThen_ok (Outcome.owning_ok e)
            cases e2
            exact now built _ { b.emit (.event (.borrow id)) with containsFloats := true } e1 (by simp [InlineLevelBox.parts]) ⟨hb.same, hb.tasks⟩
          · cases e
            exact later (.float style children) _ _ rfl rfl hb rfl rfl rfl rfl
        · obtain ⟨b3, e1, e2⟩ := Outcome.andThen_ok (Outcome.owning_ok e)
          have h3 : b3.Tidy := by
            unfold SlotBuilder.splitInlines at e1
            have hstack : b.stack = [] := by
              unfold SlotBuilder.endOngoing at e1
              dsimp only at e1
              split at e1
              · cases e1
              · rename_i hs
                simpa [SlotBuilder.emit] using hs
            dsimp only at e1
            refine endOngoing_tidy (SlotBuilder.Tidy.mk (b := { b.emit (.event (.borrow id)) with
              ongoing := (b.emit (.event (.borrow id))).ongoing ++ (fragmentStack none (b.emit (.event (.borrow id))).stack).toList
              stack := (b.emit (.event (.borrow id))).stack.map fun (o : OngoingInlineBox) => ⟨o.style, false, []⟩ }) ?_ hb.tasks) e1
            have := hb.same
            simp only [SlotBuilder.parts, SlotBuilder.emit, hstack, fragmentStack, Option.toList_none, List.append_nil, List.map_nil] at this ⊢
            exact this
          cases inside with
          | flow => cases e2; exact later (.deferred style children) b3 _ rfl rfl h3 rfl rfl rfl rfl
          | flowRoot => cases e2; exact later (.independent style children) b3 _ rfl rfl h3 rfl rfl rfl rfl
theorem slotNodes_tidy {C : ComputedValues → List IdNode → Outcome Built} (hC : TidyAll C) :
    ∀ (ns : List IdNode) (cst ps : ComputedValues) (b b2 : SlotBuilder), b.Tidy → slotNodes C cst ps ns b = .ok b2 → b2.Tidy
  | [], cst, ps, b, b2, h, e => by rw [slotNodes] at e; cases e; exact h
  | n :: ns, cst, ps, b, b2, h, e => by
    rw [slotNodes] at e
    obtain ⟨b3, e1, e2⟩ := Outcome.andThen_ok e
    exact slotNodes_tidy hC ns cst ps b3 b2 (slotNode_tidy hC n cst ps b b3 h e1) e2
end

theorem finishTask_parts {C : ComputedValues → List IdNode → Outcome Built} (hC : TidyAll C) {t : Intermediate × Option Nat}
    {r : BlockLevelBox × Bool × Program} (hw : WfTask t) (h : finishTask C t = .ok r) :
    SameParts r.1.parts (storedBy r.2.2.events ++ tasksParts [t]) := by
  obtain ⟨i, slot⟩ := t
  obtain ⟨r0, e1, e2⟩ := Outcome.andThen_ok (Outcome.owning_ok h)
  have one : ∀ (style : ComputedValues) (cs : List IdNode) (mk : Built → BlockLevelBox) (fl : Built → Bool), slot.isSome = true →
      (∀ built, (mk built).parts = .blockLevel (mk built) :: built.contents.parts) → tasksParts [(i, slot)] = [] →
      ((C style cs).andThen fun r => Outcome.ok (mk r, fl r, r.program)) = .ok r0 →
      SameParts r.1.parts (storedBy r.2.2.events ++ tasksParts [(i, slot)]) := by
    intro style cs mk fl hs hp ht he
    obtain ⟨built, e3, e4⟩ := Outcome.andThen_ok he
    cases e4
    obtain ⟨anon, g1, g2⟩ := hC style cs built e3
    obtain ⟨id, hs⟩ := Option.isSome_iff_exists.mp hs
    subst hs
    cases e2
    refine ⟨anon, ?_, g2⟩
    simp only [ht, hp, Program.events, storedBy_append, storedBy_set,
      ← Multiset.coe_eq_coe, ← Multiset.coe_add, ← Multiset.cons_coe, ← Multiset.singleton_add, Multiset.coe_nil] at g1 ⊢
    rw [g1]
    abel
  cases i with
  | inlines s boxes =>
    cases e1
    obtain ⟨rfl, _⟩ := hw
    cases e2
    refine ⟨[], ?_, by simp⟩
    simp [BlockLevelBox.parts, BlockContainer.parts, storedBy, Program.events, tasksParts]
  | deferred s cs => exact one s cs (fun r => .sameFormattingContextBlock s r.contents) Built.floats hw (fun _ => by simp [BlockLevelBox.parts]) rfl e1
  | independent s cs => exact one s cs (fun r => .independent s r.floats r.contents) (fun _ => false) hw (fun _ => by simp [BlockLevelBox.parts]) rfl e1
  | absolutelyPositioned s cs =>
    exact one s cs (fun r => .outOfFlowAbsolutelyPositioned s r.floats r.contents) (fun _ => false) hw (fun _ => by simp [BlockLevelBox.parts]) rfl e1
  | float s cs => exact one s cs (fun r => .outOfFlowFloat s r.floats r.contents) (fun _ => true) hw (fun _ => by simp [BlockLevelBox.parts]) rfl e1

theorem finishTasks_parts {C : ComputedValues → List IdNode → Outcome Built} (hC : TidyAll C) :
    ∀ (ts : List (Intermediate × Option Nat)) (r : List BlockLevelBox × Bool × Program), (∀ t ∈ ts, WfTask t) →
      finishTasks C ts = .ok r → SameParts (blocksParts r.1) (storedBy r.2.2.events ++ tasksParts ts)
  | [], r, _, h => by cases h; exact ⟨[], by simp [blocksParts, storedBy, Program.events, tasksParts], by simp⟩
  | t :: ts, r, hw, h => by
    rw [finishTasks] at h
    obtain ⟨r1, e1, h⟩ := Outcome.andThen_ok h
    obtain ⟨r2, e2, h⟩ := Outcome.andThen_ok h
    cases h
    obtain ⟨a1, p1, q1⟩ := finishTask_parts hC (hw t (by simp)) e1
    obtain ⟨a2, p2, q2⟩ := finishTasks_parts hC ts r2 (fun t ht => hw t (by simp [ht])) e2
    refine ⟨a1 ++ a2, ?_, ?_⟩
    · have ht : tasksParts (t :: ts) = tasksParts [t] ++ tasksParts ts := tasksParts_append [t] ts
      simp only [ht, blocksParts, Program.events, storedBy_append, ← Multiset.coe_eq_coe, ← Multiset.coe_add] at p1 p2 ⊢
      rw [p1, p2]
      abel
    · intro a ha
      rcases List.mem_append.1 ha with ha | ha
      · exact q1 a ha
      · exact q2 a ha

theorem constructSlots_tidy : ∀ fuel, TidyAll (constructSlots fuel)
  | 0 => by intro style cs built h; cases h
  | fuel + 1 => by
    have hC := constructSlots_tidy fuel
    intro style cs built h
    rw [constructSlots] at h
    obtain ⟨b, e1, h⟩ := Outcome.andThen_ok h
    have h0 : SlotBuilder.new.Tidy := ⟨⟨[], by simp [SlotBuilder.new, SlotBuilder.parts, tasksParts, inlinesParts, stackParts, storedBy, Program.events], by simp⟩, by simp [SlotBuilder.new]⟩
    have h1 := slotNodes_tidy hC cs style style .new b h0 e1
    have hst : b.stack = [] := by
      have := slotNodes_stack cs _ _ _ _ e1
      simpa [SlotBuilder.new] using this
    have go : ∀ b2 : SlotBuilder, b2.Tidy → b2.stack = [] → b2.ongoing = [] →
        ((finishTasks (constructSlots fuel) b2.boxes).andThen fun r =>
          Outcome.ok ⟨.blockLevelBoxes r.1, b2.containsFloats || r.2.1, .seq b2.program r.2.2⟩) = .ok built →
        SameParts built.contents.parts (storedBy built.program.events) := by
      intro b2 h2 hs2 ho2 h
      obtain ⟨r, e2, h⟩ := Outcome.andThen_ok h
      cases h
      obtain ⟨a1, p1, q1⟩ := finishTasks_parts hC b2.boxes r h2.tasks e2
      obtain ⟨a2, p2, q2⟩ := h2.same
      refine ⟨a1 ++ a2, ?_, ?_⟩
      · simp only [SlotBuilder.parts, hs2, ho2, stackParts, inlinesParts, List.append_nil] at p2
        simp only [BlockContainer.parts, Program.events, storedBy_append, ← Multiset.coe_eq_coe, ← Multiset.coe_add] at p1 p2 ⊢
        rw [p1, p2]
        abel
      · intro a ha
        rcases List.mem_append.1 ha with ha | ha
        · exact q1 a ha
        · exact q2 a ha
    unfold SlotBuilder.finish at h
    split at h
    · rename_i hc
      cases h
      simp only [Bool.and_eq_true, List.isEmpty_iff] at hc
      have := h1.same
      simpa [SlotBuilder.parts, hc.2, hst, tasksParts, stackParts, BlockContainer.parts] using this
    · split at h
      · rename_i ho
        exact go b h1 hst (by simpa using ho) h
      · obtain ⟨b2, e2, h⟩ := Outcome.andThen_ok h
        have e2 := Outcome.owning_ok e2
        have h2 := endOngoing_tidy h1 e2
        have hb := endOngoing_boxes e2
        unfold SlotBuilder.endOngoing at e2
        simp only [hst, List.isEmpty_nil, Bool.not_true, Bool.false_eq_true, if_false] at e2
        split at e2
        · rename_i h3 _ _ h4; exact absurd h4 h3
        · cases e2
          exact go _ h2 (by simp [hst]) rfl h

end Verif.Layout
