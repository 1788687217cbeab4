/- Model of box construction: `victor/src/layout/flow/construct.rs`, the traversal of `layout/dom_traversal.rs` 53-125 and
`construct_for_root_element` of `flow/root.rs` 31-85.

Simplifications:
* The document is given as a tree of styled nodes (`StyledNode`); Verif/Layout/Document.lean makes that tree from the arena.
* `pseudo_element_style` is always `None` (dom_traversal.rs 224-233) and `ReplacedContent::for_element` too (replaced.rs 10-13), so
  pseudo-elements and replaced contents are left out.
* Deferred boxes (construct.rs 17-49 and 521-600) are finished when they are found, not at the end in parallel. Verif/Layout/Slots.lean
  models what the code does; theorem `C73_boxes` is that it makes the same boxes.
* Box slots (the boxes stored in elements) are left out; see Verif/Layout/Slots.lean and Verif/Layout/Unset.lean for them.
* The anonymous style (construct.rs 489-494) is computed each time instead of being kept.
* A panic is `none`. -/
import Verif.Layout.Boxes
import Verif.Dom.Model
namespace Verif.Layout
open Verif.Style

/-- A node as the traversal sees it (dom_traversal.rs 69-78, 97-102): comments, doctypes and processing instructions are ignored, an
element comes with its style. -/
inductive StyledNode where
  | ignored
  | text (contents : List Nat)
  | element (style : ComputedValues) (children : List StyledNode)

/-- `u8::is_ascii_whitespace` and `char::is_ascii_whitespace`: space, tab, line feed, form feed, carriage return. -/
def isAsciiWhitespace (c : Nat) : Bool := c == 32 || c == 9 || c == 10 || c == 12 || c == 13

/-- An inline box that is not complete: construct.rs 93, flow/inline.rs 24-29. `last_fragment` is `false` until it is complete. -/
structure OngoingInlineBox where
  style : ComputedValues
  firstFragment : Bool
  children : List InlineLevelBox

/-- construct.rs 55-104, `BlockContainerBuilder`. The innermost ongoing inline box comes first. -/
structure Builder where
  blockLevelBoxes : List BlockLevelBox
  ongoing : List InlineLevelBox
  stack : List OngoingInlineBox
  containsFloats : Bool

/-- construct.rs 112-120. -/
def Builder.new : Builder := ⟨[], [], [], false⟩

/-- construct.rs 504-509, `current_inline_level_boxes`. -/
def Builder.current (b : Builder) : List InlineLevelBox :=
  match b.stack with
  | last :: _ => last.children
  | [] => b.ongoing

/-- A change of `current_inline_level_boxes()`. -/
def Builder.setCurrent (b : Builder) (boxes : List InlineLevelBox) : Builder :=
  match b.stack with
  | last :: rest => { b with stack := { last with children := boxes } :: rest }
  | [] => { b with ongoing := boxes }

/-- construct.rs 511-518. -/
def Builder.hasOngoing (b : Builder) : Bool := !b.ongoing.isEmpty || !b.stack.isEmpty

mutual
/-- construct.rs 272-290, for one box: whether a space after it is preserved, `none` if that depends on what precedes it. The
explicit stack of iterators of the code is the recursion. -/
def InlineLevelBox.spaceAfter : InlineLevelBox → Option Bool
  | .textRun _ text => some (text.getLast? != some 32)
  | .outOfFlowAbsolutelyPositioned _ _ _ => none
  | .outOfFlowFloat _ _ _ => none
  | .inlineBox _ _ _ children => spaceAfterAll children
/-- construct.rs 272-290: the boxes are looked at from the last one on. -/
def spaceAfterAll : List InlineLevelBox → Option Bool
  | [] => none
  | b :: bs =>
    match spaceAfterAll bs with
    | some preserved => some preserved
    | none => b.spaceAfter
end

/-- construct.rs 264-293, `handle_leading_whitespace`. -/
def Builder.handleLeadingWhitespace (b : Builder) (text : List Nat) : Bool × List Nat :=
  match text with
  | c :: _ =>
    if isAsciiWhitespace c then
      ((match spaceAfterAll b.current with
        | some preserved => preserved
        | none => false), text.dropWhile isAsciiWhitespace)
    else (false, text)
  | [] => (false, text)

/-- construct.rs 232-246: what the loop appends to the text run. The fuel bounds the number of iterations; each one consumes one
character at least. -/
def collapseLoop : (fuel : Nat) → List Nat → List Nat
  | 0, _ => []
  | fuel + 1, input =>
    let word := input.takeWhile (fun c => !isAsciiWhitespace c)
    match input.dropWhile (fun c => !isAsciiWhitespace c) with
    | [] => word
    | rest =>
      match rest.dropWhile isAsciiWhitespace with
      | [] => word ++ [32]
      | rest => word ++ 32 :: collapseLoop fuel rest

/-- construct.rs 203-216, `last_text`, and 218-227, 248-254: the text is appended to the text run that comes last, or to a new one. -/
def appendText (parentStyle : ComputedValues) (output : List Nat) : List InlineLevelBox → List InlineLevelBox
  | [] => [.textRun parentStyle output]
  | [.textRun style text] => [.textRun style (text ++ output)]
  | [b] => [b, .textRun parentStyle output]
  | b :: bs => b :: appendText parentStyle output bs

/-- construct.rs 194-256, `handle_text`. -/
def Builder.handleText (b : Builder) (input : List Nat) (parentStyle : ComputedValues) : Builder :=
  match b.handleLeadingWhitespace input with
  | (leadingWhitespace, input) =>
    if leadingWhitespace || !input.isEmpty then
      let output := (if leadingWhitespace then [32] else []) ++ collapseLoop (input.length + 1) input
      b.setCurrent (appendText parentStyle output b.current)
    else b

/-- construct.rs 472-502, `end_ongoing_inline_formatting_context`. -/
def Builder.endOngoing (b : Builder) (containerStyle : ComputedValues) : Option Builder :=
  if !b.stack.isEmpty then none
  else if b.ongoing.isEmpty then some b
  else
    some { b with
      ongoing := []
      blockLevelBoxes := b.blockLevelBoxes ++
        [.sameFormattingContextBlock (ComputedValues.anonymousInheritingFrom (some containerStyle))
          (.inlineFormattingContext b.ongoing)] }

/-- construct.rs 348-376: the ongoing inline boxes, from the innermost one on, as a single inline-level box. -/
def fragmentStack : Option InlineLevelBox → List OngoingInlineBox → Option InlineLevelBox
  | inner, [] => inner
  | inner, o :: outer =>
    fragmentStack (some (.inlineBox o.style o.firstFragment false (o.children ++ inner.toList))) outer

/-- construct.rs 343-385: a block-level element splits the ongoing inline boxes, and ends the inline formatting context. -/
def Builder.splitInlines (b : Builder) (containerStyle : ComputedValues) : Option Builder :=
  let b := { b with
    ongoing := b.ongoing ++ (fragmentStack none b.stack).toList
    stack := b.stack.map fun (o : OngoingInlineBox) => ⟨o.style, false, []⟩ }
  b.endOngoing containerStyle

/-- construct.rs 122-157: the block container of a builder that has seen all the contents. -/
def Builder.finish (b : Builder) (containerStyle : ComputedValues) : Option (BlockContainer × Bool) :=
  if b.ongoing.isEmpty then some (.blockLevelBoxes b.blockLevelBoxes, b.containsFloats)
  else if b.blockLevelBoxes.isEmpty then some (.inlineFormattingContext b.ongoing, b.containsFloats)
  else
    match b.endOngoing containerStyle with
    | none => none
    | some b => some (.blockLevelBoxes b.blockLevelBoxes, b.containsFloats)

mutual
/-- dom_traversal.rs 91-125, `traverse_element`, with `handle_element` (construct.rs 162-192), and 68-80. `containerStyle` is the
style of the block container, `parentStyle` that of the element whose children are traversed. -/
def traverseNode (containerStyle parentStyle : ComputedValues) : StyledNode → Builder → Option Builder
  | .ignored, b => some b
  | .text contents, b => some (b.handleText contents parentStyle)
  | .element style children, b =>
    match displayOf style with
    | .none => some b
    | .contents => traverseNodes containerStyle style children b
    -- construct.rs 295-334, `handle_inline_level_element`
    | .generatingBox .inline .flow =>
      match traverseNodes containerStyle style children { b with stack := ⟨style, true, []⟩ :: b.stack } with
      | none => none
      | some b =>
        match b.stack with
        | [] => none
        | o :: rest =>
          let b := { b with stack := rest }
          some (b.setCurrent (b.current ++ [.inlineBox o.style o.firstFragment true o.children]))
    | .generatingBox .inline .flowRoot => none
    | .generatingBox .block inside =>
      if (positionOf style).isAbsolutelyPositioned then
        -- construct.rs 410-439, `handle_absolutely_positioned_element`
        match traverseNodes style style children Builder.new with
        | none => none
        | some inner =>
          match inner.finish style with
          | none => none
          | some (contents, floats) =>
            if b.hasOngoing then
              some (b.setCurrent (b.current ++ [.outOfFlowAbsolutelyPositioned style floats contents]))
            else
              some { b with blockLevelBoxes := b.blockLevelBoxes ++ [.outOfFlowAbsolutelyPositioned style floats contents] }
      else if (floatOf style).isFloating then
        -- construct.rs 441-470, `handle_float_element`
        match traverseNodes style style children Builder.new with
        | none => none
        | some inner =>
          match inner.finish style with
          | none => none
          | some (contents, floats) =>
            let b := { b with containsFloats := true }
            if b.hasOngoing then some (b.setCurrent (b.current ++ [.outOfFlowFloat style floats contents]))
            else some { b with blockLevelBoxes := b.blockLevelBoxes ++ [.outOfFlowFloat style floats contents] }
      else
        -- construct.rs 336-408, `handle_block_level_element`, and 521-600, `finish`
        match b.splitInlines containerStyle with
        | none => none
        | some b =>
          match traverseNodes style style children Builder.new with
          | none => none
          | some inner =>
            match inner.finish style with
            | none => none
            | some (contents, floats) =>
              match inside with
              | .flow =>
                some { b with
                  blockLevelBoxes := b.blockLevelBoxes ++ [.sameFormattingContextBlock style contents]
                  containsFloats := b.containsFloats || floats }
              | .flowRoot =>
                some { b with blockLevelBoxes := b.blockLevelBoxes ++ [.independent style floats contents] }
/-- dom_traversal.rs 53-89, `traverse_children_of`. -/
def traverseNodes (containerStyle parentStyle : ComputedValues) : List StyledNode → Builder → Option Builder
  | [], b => some b
  | n :: ns, b =>
    match traverseNode containerStyle parentStyle n b with
    | none => none
    | some b => traverseNodes containerStyle parentStyle ns b
end

/-- construct.rs 107-158, `BlockContainer::construct`. -/
def constructContainer (style : ComputedValues) (children : List StyledNode) : Option (BlockContainer × Bool) :=
  match traverseNodes style style children Builder.new with
  | none => none
  | some b => b.finish style

/-- flow/root.rs 15-85, `BoxTreeRoot::construct` and `construct_for_root_element`. -/
def constructRoot (style : ComputedValues) (children : List StyledNode) : Option BlockFormattingContext :=
  match displayOf style with
  | .none => some ⟨.blockLevelBoxes [], false⟩
  | .contents | .generatingBox _ _ =>
    match constructContainer style children with
    | none => none
    | some (contents, floats) =>
      if (positionOf style).isAbsolutelyPositioned then
        some ⟨.blockLevelBoxes [.outOfFlowAbsolutelyPositioned style floats contents], false⟩
      else if (floatOf style).isFloating then some ⟨.blockLevelBoxes [.outOfFlowFloat style floats contents], true⟩
      else some ⟨.blockLevelBoxes [.independent style floats contents], false⟩

end Verif.Layout
