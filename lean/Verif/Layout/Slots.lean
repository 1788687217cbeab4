/- Model of box construction with what Verif/Layout/Construct.lean leaves out: the boxes that are stored in elements, the deferred boxes that
are finished in parallel, and what a panic does to the slots that are not set.
`victor/src/layout/flow/construct.rs`, `layout/dom_traversal.rs` 53-125 and 249-297, `flow/root.rs` 15-85. -/
import Verif.Layout.Document
namespace Verif.Layout
open Verif.Style

/-- A node as the traversal sees it, like `StyledNode`, with the identity of elements. -/
inductive IdNode where
  | ignored
  | text (contents : List Nat)
  | element (id : Nat) (style : ComputedValues) (children : List IdNode)

mutual
/-- The node without identities. -/
def IdNode.forget : IdNode → StyledNode
  | .ignored => .ignored
  | .text contents => .text contents
  | .element _ style children => .element style (forgetAll children)
/-- The nodes without identities. -/
def forgetAll : List IdNode → List StyledNode
  | [] => []
  | n :: ns => n.forget :: forgetAll ns
end

/-- element_data.rs 15-19, `LayoutBox`. -/
inductive StoredBox where
  | displayContents
  | blockLevel (box : BlockLevelBox)
  | inlineLevel (box : InlineLevelBox)

/-- What is done with the layout data of an element, atomically:
`borrow`, dom_traversal.rs 281-286 and 254-257, `element_box_slot` with `BoxSlot::new`;
`set`, 263-267 and 270-276, `BoxSlot::set` and `drop`;
`contents`, 111; `unset`, 312-327, `unset_boxes_in_subtree` for an element without a box. -/
inductive Event where
  | borrow (id : Nat)
  | set (id : Nat) (box : StoredBox)
  | contents (id : Nat)
  | unset (id : Nat)

/-- The element that an event is about. -/
def Event.id : Event → Nat
  | .borrow id => id
  | .set id _ => id
  | .contents id => id
  | .unset id => id

/-- What a task does: events, one part after another, and parts in parallel. -/
inductive Program where
  | nil
  | event (e : Event)
  | seq (first second : Program)
  | par (left right : Program)

/-- A result, a panic, an abort of the process (a panic while a panic unwinds the stack), or no result with this fuel. -/
inductive Outcome (α : Type) where
  | ok (value : α)
  | panic
  | abort
  | running

/-- The next step, for a result. -/
def Outcome.andThen {α β : Type} (o : Outcome α) (f : α → Outcome β) : Outcome β :=
  match o with
  | .ok a => f a
  | .panic => .panic
  | .abort => .abort
  | .running => .running

/-- dom_traversal.rs 270-276, `BoxSlot::drop`: a panic that unwinds a frame that owns a slot that is not set drops that slot, which panics
again, and that aborts the process. -/
def Outcome.owning {α : Type} (o : Outcome α) (slot : Bool) : Outcome α :=
  match o with
  | .panic => if slot then .abort else .panic
  | o => o

/-- construct.rs 17-49, `IntermediateBlockLevelBox`. -/
inductive Intermediate where
  | inlines (style : ComputedValues) (boxes : List InlineLevelBox)
  | deferred (style : ComputedValues) (children : List IdNode)
  | independent (style : ComputedValues) (children : List IdNode)
  | absolutelyPositioned (style : ComputedValues) (children : List IdNode)
  | float (style : ComputedValues) (children : List IdNode)

/-- construct.rs 55-104, `BlockContainerBuilder`, with the slot of each box, and what was done so far. -/
structure SlotBuilder where
  boxes : List (Intermediate × Option Nat)
  ongoing : List InlineLevelBox
  stack : List OngoingInlineBox
  containsFloats : Bool
  program : Program

/-- construct.rs 112-120. -/
def SlotBuilder.new : SlotBuilder := ⟨[], [], [], false, .nil⟩

/-- The inline part of the builder: what `Builder` has in common with `SlotBuilder`. -/
def SlotBuilder.inlinePart (b : SlotBuilder) : Builder := ⟨[], b.ongoing, b.stack, b.containsFloats⟩

/-- A change of the inline part. -/
def SlotBuilder.setInlinePart (b : SlotBuilder) (inner : Builder) : SlotBuilder :=
  { b with ongoing := inner.ongoing, stack := inner.stack }

/-- Something is done. -/
def SlotBuilder.emit (b : SlotBuilder) (p : Program) : SlotBuilder := { b with program := .seq b.program p }

/-- construct.rs 472-502, `end_ongoing_inline_formatting_context`. -/
def SlotBuilder.endOngoing (b : SlotBuilder) (containerStyle : ComputedValues) : Outcome SlotBuilder :=
  if !b.stack.isEmpty then .panic
  else if b.ongoing.isEmpty then .ok b
  else
    .ok { b with
      ongoing := []
      boxes := b.boxes ++ [(.inlines (ComputedValues.anonymousInheritingFrom (some containerStyle)) b.ongoing, none)] }

/-- construct.rs 343-385. -/
def SlotBuilder.splitInlines (b : SlotBuilder) (containerStyle : ComputedValues) : Outcome SlotBuilder :=
  let b := { b with
    ongoing := b.ongoing ++ (fragmentStack none b.stack).toList
    stack := b.stack.map fun (o : OngoingInlineBox) => ⟨o.style, false, []⟩ }
  b.endOngoing containerStyle

/-- A block container that was constructed: construct.rs 111, and what was done. -/
structure Built where
  contents : BlockContainer
  floats : Bool
  program : Program

mutual
/-- dom_traversal.rs 91-125 and 68-80, and construct.rs 162-192: `construct` is `BlockContainer::construct`, for the boxes that
are finished at once. -/
def slotNode (construct : ComputedValues → List IdNode → Outcome Built) (containerStyle parentStyle : ComputedValues) :
    IdNode → SlotBuilder → Outcome SlotBuilder
  | .ignored, b => .ok b
  | .text contents, b => .ok (b.setInlinePart (b.inlinePart.handleText contents parentStyle))
  | .element id style children, b =>
    match displayOf style with
    | .none => .ok (b.emit (.event (.unset id)))
    | .contents => slotNodes construct containerStyle style children (b.emit (.event (.contents id)))
    -- construct.rs 171-173 and 295-334: the slot is borrowed before and set after
    | .generatingBox .inline .flow =>
      (((slotNodes construct containerStyle style children
          { b.emit (.event (.borrow id)) with stack := ⟨style, true, []⟩ :: b.stack }).andThen fun b =>
        match b.stack with
        | [] => .panic
        | o :: rest =>
          let box := InlineLevelBox.inlineBox o.style o.firstFragment true o.children
          let b := { b with stack := rest }
          let b := b.setInlinePart (b.inlinePart.setCurrent (b.inlinePart.current ++ [box]))
          .ok (b.emit (.event (.set id (.inlineLevel box)))))).owning true
    | .generatingBox .inline .flowRoot => Outcome.panic.owning true
    | .generatingBox .block inside =>
      let b := b.emit (.event (.borrow id))
      if (positionOf style).isAbsolutelyPositioned then
        -- construct.rs 410-439
        if b.inlinePart.hasOngoing then
          ((construct style children).andThen fun built =>
            let box := InlineLevelBox.outOfFlowAbsolutelyPositioned style built.floats built.contents
            let b := b.emit built.program
            let b := b.setInlinePart (b.inlinePart.setCurrent (b.inlinePart.current ++ [box]))
            Outcome.ok (b.emit (.event (.set id (.inlineLevel box))))).owning true
        else .ok { b with boxes := b.boxes ++ [(.absolutelyPositioned style children, some id)] }
      else if (floatOf style).isFloating then
        -- construct.rs 441-470
        let b := { b with containsFloats := true }
        if b.inlinePart.hasOngoing then
          ((construct style children).andThen fun built =>
            let box := InlineLevelBox.outOfFlowFloat style built.floats built.contents
            let b := b.emit built.program
            let b := b.setInlinePart (b.inlinePart.setCurrent (b.inlinePart.current ++ [box]))
            Outcome.ok (b.emit (.event (.set id (.inlineLevel box))))).owning true
        else .ok { b with boxes := b.boxes ++ [(.float style children, some id)] }
      else
        -- construct.rs 336-408
        ((b.splitInlines containerStyle).andThen fun b =>
          match inside with
          | .flow => Outcome.ok { b with boxes := b.boxes ++ [(.deferred style children, some id)] }
          | .flowRoot => .ok { b with boxes := b.boxes ++ [(.independent style children, some id)] }).owning true
/-- dom_traversal.rs 53-89. A panic comes out of `handle_element`, which has aborted then; so the slots in the builder need not be looked
at. -/
def slotNodes (construct : ComputedValues → List IdNode → Outcome Built) (containerStyle parentStyle : ComputedValues) :
    List IdNode → SlotBuilder → Outcome SlotBuilder
  | [], b => .ok b
  | n :: ns, b => (slotNode construct containerStyle parentStyle n b).andThen (slotNodes construct containerStyle parentStyle ns)
end

/-- construct.rs 520-605, `finish`. -/
def finishBox (construct : ComputedValues → List IdNode → Outcome Built) : Intermediate → Outcome (BlockLevelBox × Bool × Program)
  | .inlines style boxes => .ok (.sameFormattingContextBlock style (.inlineFormattingContext boxes), false, .nil)
  | .deferred style children =>
    (construct style children).andThen fun r => .ok (.sameFormattingContextBlock style r.contents, r.floats, r.program)
  | .independent style children =>
    (construct style children).andThen fun r => .ok (.independent style r.floats r.contents, false, r.program)
  | .absolutelyPositioned style children =>
    (construct style children).andThen fun r => .ok (.outOfFlowAbsolutelyPositioned style r.floats r.contents, false, r.program)
  | .float style children =>
    (construct style children).andThen fun r => .ok (.outOfFlowFloat style r.floats r.contents, true, r.program)

/-- construct.rs 147-152: one task: the box is finished, then stored. -/
def finishTask (construct : ComputedValues → List IdNode → Outcome Built) (task : Intermediate × Option Nat) :
    Outcome (BlockLevelBox × Bool × Program) :=
  ((finishBox construct task.1).andThen fun r =>
    .ok (r.1, r.2.1, match task.2 with
      | some id => .seq r.2.2 (.event (.set id (.blockLevel r.1)))
      | none => r.2.2)).owning task.2.isSome

/-- construct.rs 140-156: the tasks are run in parallel, their boxes are collected in order and their floats are joined. If some do not
return a box, which of them decides does not matter: the task of an element that fails aborts the process. -/
def finishTasks (construct : ComputedValues → List IdNode → Outcome Built) :
    List (Intermediate × Option Nat) → Outcome (List BlockLevelBox × Bool × Program)
  | [] => .ok ([], false, .nil)
  | task :: tasks =>
    (finishTask construct task).andThen fun r =>
      (finishTasks construct tasks).andThen fun rs => .ok (r.1 :: rs.1, r.2.1 || rs.2.1, .par r.2.2 rs.2.2)

/-- construct.rs 122-157: from the builder at the end of the traversal to the block container. -/
def SlotBuilder.finish (construct : ComputedValues → List IdNode → Outcome Built) (containerStyle : ComputedValues) (b : SlotBuilder) :
    Outcome Built :=
  if !b.ongoing.isEmpty && b.boxes.isEmpty then .ok ⟨.inlineFormattingContext b.ongoing, b.containsFloats, b.program⟩
  else
    ((if b.ongoing.isEmpty then Outcome.ok b else b.endOngoing containerStyle).owning (b.boxes.any (·.2.isSome))).andThen fun b =>
      (finishTasks construct b.boxes).andThen fun r =>
        .ok ⟨.blockLevelBoxes r.1, b.containsFloats || r.2.1, .seq b.program r.2.2⟩

/-- construct.rs 107-158, `BlockContainer::construct`. The fuel bounds the nesting of block containers. -/
def constructSlots : (fuel : Nat) → ComputedValues → List IdNode → Outcome Built
  | 0, _, _ => .running
  | fuel + 1, style, children =>
    (slotNodes (constructSlots fuel) style style children .new).andThen (SlotBuilder.finish (constructSlots fuel) style)

/-- flow/root.rs 31-85, `construct_for_root_element`: the root element has no slot. -/
def constructRootSlots (fuel : Nat) (style : ComputedValues) (children : List IdNode) : Outcome (BlockFormattingContext × Program) :=
  match displayOf style with
  | .none => .ok (⟨.blockLevelBoxes [], false⟩, .nil)
  | .contents | .generatingBox _ _ =>
    (constructSlots fuel style children).andThen fun r =>
      if (positionOf style).isAbsolutelyPositioned then
        .ok (⟨.blockLevelBoxes [.outOfFlowAbsolutelyPositioned style r.floats r.contents], false⟩, r.program)
      else if (floatOf style).isFloating then
        .ok (⟨.blockLevelBoxes [.outOfFlowFloat style r.floats r.contents], true⟩, r.program)
      else .ok (⟨.blockLevelBoxes [.independent style r.floats r.contents], false⟩, r.program)

/-- Two threads: the events of both, in any order that keeps the order of each. -/
inductive Shuffle {α : Type} : List α → List α → List α → Prop
  | nil : Shuffle [] [] []
  | left {a l m n} : Shuffle l m n → Shuffle (a :: l) m (a :: n)
  | right {a l m n} : Shuffle l m n → Shuffle l (a :: m) (a :: n)

/-- The sequences of events that a program can come to, depending on how its parts are scheduled. -/
inductive Runs : Program → List Event → Prop
  | nil : Runs .nil []
  | event {e} : Runs (.event e) [e]
  | seq {p q l m} : Runs p l → Runs q m → Runs (.seq p q) (l ++ m)
  | par {p q l m n} : Runs p l → Runs q m → Shuffle l m n → Runs (.par p q) n

/-- The layout data of an element: element_data.rs 3-7, in an `AtomicRefCell`. -/
structure SlotCell where
  box : Option StoredBox
  borrowed : Bool

/-- An event on the cell of its element; `none` is a panic of `borrow_mut` or, for `unset`, what Verif/Layout/Unset.lean models. -/
def SlotCell.step (c : SlotCell) : Event → Option SlotCell
  | .borrow _ => if c.borrowed then none else some ⟨none, true⟩
  | .set _ box => some ⟨some box, false⟩
  | .contents _ => if c.borrowed then none else some ⟨some .displayContents, false⟩
  | .unset _ => if c.borrowed || c.box.isSome then none else some c

/-- The layout data of all elements. -/
abbrev Heap := Nat → SlotCell

/-- The events, one after another. -/
def runEvents : List Event → Heap → Option Heap
  | [], h => some h
  | e :: es, h =>
    match (h e.id).step e with
    | none => none
    | some c => runEvents es fun n => if n = e.id then c else h n

end Verif.Layout
