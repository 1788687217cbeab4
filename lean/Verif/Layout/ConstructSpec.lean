/- What box construction keeps of a document: the specifications of C41, C42, C62 and C63. -/
import Verif.Layout.Construct
namespace Verif.Layout
open Verif.Style

/-! ### The text of a document -/

mutual
/-- The text of the elements that are displayed, in document order. -/
def StyledNode.visibleText : StyledNode → List Nat
  | .ignored => []
  | .text contents => contents
  | .element style children => if displayOf style = .none then [] else visibleTexts children
/-- See `StyledNode.visibleText`. -/
def visibleTexts : List StyledNode → List Nat
  | [] => []
  | n :: ns => n.visibleText ++ visibleTexts ns
end

mutual
/-- The characters of the elements that are displayed, in document order, each with the style of the element it is in. -/
def StyledNode.styledText (parent : ComputedValues) : StyledNode → List (ComputedValues × Nat)
  | .ignored => []
  | .text contents => contents.map fun c => (parent, c)
  | .element style children => if displayOf style = .none then [] else styledTexts style children
/-- See `StyledNode.styledText`. -/
def styledTexts (parent : ComputedValues) : List StyledNode → List (ComputedValues × Nat)
  | [] => []
  | n :: ns => n.styledText parent ++ styledTexts parent ns
end

/-! ### The text of boxes -/

mutual
/-- All the characters in boxes, in order, each with the style with which it is rendered. -/
def BlockContainer.styledText : BlockContainer → List (ComputedValues × Nat)
  | .blockLevelBoxes boxes => blocksStyledText boxes
  | .inlineFormattingContext boxes => inlinesStyledText boxes
/-- See `BlockContainer.styledText`. -/
def BlockLevelBox.styledText : BlockLevelBox → List (ComputedValues × Nat)
  | .sameFormattingContextBlock _ contents => contents.styledText
  | .outOfFlowAbsolutelyPositioned _ _ contents => contents.styledText
  | .outOfFlowFloat _ _ contents => contents.styledText
  | .independent _ _ contents => contents.styledText
/-- See `BlockContainer.styledText`. -/
def blocksStyledText : List BlockLevelBox → List (ComputedValues × Nat)
  | [] => []
  | b :: bs => b.styledText ++ blocksStyledText bs
/-- See `BlockContainer.styledText`. -/
def InlineLevelBox.styledText : InlineLevelBox → List (ComputedValues × Nat)
  | .inlineBox _ _ _ children => inlinesStyledText children
  | .textRun style text => text.map fun c => (style, c)
  | .outOfFlowAbsolutelyPositioned _ _ contents => contents.styledText
  | .outOfFlowFloat _ _ contents => contents.styledText
/-- See `BlockContainer.styledText`. -/
def inlinesStyledText : List InlineLevelBox → List (ComputedValues × Nat)
  | [] => []
  | b :: bs => b.styledText ++ inlinesStyledText bs
end

/-- The characters that are not white space, with their styles. -/
def ink (t : List (ComputedValues × Nat)) : List (ComputedValues × Nat) := t.filter fun c => !isAsciiWhitespace c.2

mutual
/-- The text that flows along the lines of an inline formatting context: without the contents of boxes that are out of flow. -/
def InlineLevelBox.flowText : InlineLevelBox → List Nat
  | .inlineBox _ _ _ children => flowTexts children
  | .textRun _ text => text
  | .outOfFlowAbsolutelyPositioned _ _ _ => []
  | .outOfFlowFloat _ _ _ => []
/-- See `InlineLevelBox.flowText`. -/
def flowTexts : List InlineLevelBox → List Nat
  | [] => []
  | b :: bs => b.flowText ++ flowTexts bs
end

mutual
/-- Every inline formatting context in the boxes has this property. -/
def BlockContainer.AllContexts (P : List InlineLevelBox → Prop) : BlockContainer → Prop
  | .blockLevelBoxes boxes => blocksAllContexts P boxes
  | .inlineFormattingContext boxes => P boxes ∧ inlinesAllContexts P boxes
/-- See `BlockContainer.AllContexts`. -/
def BlockLevelBox.AllContexts (P : List InlineLevelBox → Prop) : BlockLevelBox → Prop
  | .sameFormattingContextBlock _ contents => contents.AllContexts P
  | .outOfFlowAbsolutelyPositioned _ _ contents => contents.AllContexts P
  | .outOfFlowFloat _ _ contents => contents.AllContexts P
  | .independent _ _ contents => contents.AllContexts P
/-- See `BlockContainer.AllContexts`. -/
def blocksAllContexts (P : List InlineLevelBox → Prop) : List BlockLevelBox → Prop
  | [] => True
  | b :: bs => b.AllContexts P ∧ blocksAllContexts P bs
/-- The inline formatting contexts inside boxes that are out of flow. -/
def InlineLevelBox.AllContexts (P : List InlineLevelBox → Prop) : InlineLevelBox → Prop
  | .inlineBox _ _ _ children => inlinesAllContexts P children
  | .textRun _ _ => True
  | .outOfFlowAbsolutelyPositioned _ _ contents => contents.AllContexts P
  | .outOfFlowFloat _ _ contents => contents.AllContexts P
/-- See `InlineLevelBox.AllContexts`. -/
def inlinesAllContexts (P : List InlineLevelBox → Prop) : List InlineLevelBox → Prop
  | [] => True
  | b :: bs => b.AllContexts P ∧ inlinesAllContexts P bs
end

/-! ### White space -/

/-- No space at the start, no two spaces in a row, and no other white space. -/
structure Collapsed (text : List Nat) : Prop where
  start : text.head? ≠ some 32
  single : ¬ [32, 32] <:+: text
  only : ∀ c ∈ text, isAsciiWhitespace c → c = 32

/-- Each run of white space becomes one space, or none if a space precedes it. -/
def squeeze : (afterSpace : Bool) → List Nat → List Nat
  | _, [] => []
  | afterSpace, c :: cs =>
    if isAsciiWhitespace c then
      if afterSpace then squeeze true cs else 32 :: squeeze true cs
    else c :: squeeze false cs

/-- CSS 2 section 16.6.1 for a paragraph, but for a space at its end: white space at the start is removed, and each other run of
white space becomes one space. -/
def collapse (text : List Nat) : List Nat := squeeze true text

/-! ### What can be constructed -/

mutual
/-- Inside an inline element (`inInline`) there is no block-level element in flow, and no element is an inline flow root. -/
def StyledNode.Supported (inInline : Bool) : StyledNode → Prop
  | .ignored => True
  | .text _ => True
  | .element style children =>
    match displayOf style with
    | .none => True
    | .contents => allSupported inInline children
    | .generatingBox .inline .flow => allSupported true children
    | .generatingBox .inline .flowRoot => False
    | .generatingBox .block _ =>
      if positionOf style = .absolute ∨ floatOf style ≠ .none then allSupported false children
      else inInline = false ∧ allSupported false children
/-- See `StyledNode.Supported`. -/
def allSupported (inInline : Bool) : List StyledNode → Prop
  | [] => True
  | n :: ns => n.Supported inInline ∧ allSupported inInline ns
end

mutual
/-- A property of the style and the children of every element that is displayed. -/
def StyledNode.All (P : ComputedValues → List StyledNode → Prop) : StyledNode → Prop
  | .ignored => True
  | .text _ => True
  | .element style children => displayOf style = .none ∨ (P style children ∧ nodesAll P children)
/-- See `StyledNode.All`. -/
def nodesAll (P : ComputedValues → List StyledNode → Prop) : List StyledNode → Prop
  | [] => True
  | n :: ns => n.All P ∧ nodesAll P ns
end

mutual
/-- `f` of the style of every element with `display: contents` is `f` of the style of the element around it. -/
def StyledNode.ContentsKeep {α : Type} (f : ComputedValues → α) (parent : ComputedValues) : StyledNode → Prop
  | .ignored => True
  | .text _ => True
  | .element style children =>
    displayOf style = .none ∨ ((displayOf style = .contents → f style = f parent) ∧ nodesContentsKeep f style children)
/-- See `StyledNode.ContentsKeep`. -/
def nodesContentsKeep {α : Type} (f : ComputedValues → α) (parent : ComputedValues) : List StyledNode → Prop
  | [] => True
  | n :: ns => n.ContentsKeep f parent ∧ nodesContentsKeep f parent ns
end

/-- The characters that are not white space, with `f` of their styles. -/
def inkWith {α : Type} (f : ComputedValues → α) (t : List (ComputedValues × Nat)) : List (α × Nat) :=
  (ink t).map fun c => (f c.1, c.2)

/-! ### Paragraphs -/

/-- The element is inline-level: its contents are part of the paragraph around it. -/
def IsInline (style : ComputedValues) : Prop := displayOf style = .generatingBox .inline .flow

/-- The element is a block, perhaps out of flow. -/
def IsBlock (style : ComputedValues) : Prop := ∃ inside, displayOf style = .generatingBox .block inside

/-- The element is out of flow: its contents are not part of the paragraph around it. -/
def IsOutOfFlow (style : ComputedValues) : Prop := IsBlock style ∧ (positionOf style = .absolute ∨ floatOf style ≠ .none)

open Classical in
mutual
/-- The text in flow: without what is not displayed and what is out of flow. -/
noncomputable def StyledNode.flowText : StyledNode → List Nat
  | .ignored => []
  | .text contents => contents
  | .element style children => if displayOf style = .none ∨ IsOutOfFlow style then [] else nodesFlowText children
/-- See `StyledNode.flowText`. -/
noncomputable def nodesFlowText : List StyledNode → List Nat
  | [] => []
  | n :: ns => n.flowText ++ nodesFlowText ns
end

open Classical in
mutual
/-- The paragraphs in flow, after those before the node: a block ends the paragraph before it and the last one in it, inline-level
elements do not. The second component is the paragraph that is not ended. -/
noncomputable def StyledNode.paragraphs : StyledNode → List (List Nat) × List Nat → List (List Nat) × List Nat
  | .ignored, acc => acc
  | .text contents, acc => (acc.1, acc.2 ++ contents)
  | .element style children, acc =>
    if displayOf style = .none ∨ IsOutOfFlow style then acc
    else if IsBlock style then
      let inner := nodesParagraphs children ([], [])
      (acc.1 ++ [acc.2] ++ inner.1 ++ [inner.2], [])
    else nodesParagraphs children acc
/-- See `StyledNode.paragraphs`. -/
noncomputable def nodesParagraphs : List StyledNode → List (List Nat) × List Nat → List (List Nat) × List Nat
  | [], acc => acc
  | n :: ns, acc => nodesParagraphs ns (n.paragraphs acc)
end

/-- The paragraphs of the contents of a block, in order. -/
noncomputable def paragraphsOf (children : List StyledNode) : List (List Nat) :=
  (nodesParagraphs children ([], [])).1 ++ [(nodesParagraphs children ([], [])).2]

mutual
/-- The text of each inline formatting context in flow, in order. -/
def BlockContainer.paragraphs : BlockContainer → List (List Nat)
  | .blockLevelBoxes boxes => blocksParagraphs boxes
  | .inlineFormattingContext boxes => [flowTexts boxes]
/-- See `BlockContainer.paragraphs`. -/
def BlockLevelBox.paragraphs : BlockLevelBox → List (List Nat)
  | .sameFormattingContextBlock _ contents => contents.paragraphs
  | .independent _ _ contents => contents.paragraphs
  | .outOfFlowAbsolutelyPositioned _ _ _ => []
  | .outOfFlowFloat _ _ _ => []
/-- See `BlockContainer.paragraphs`. -/
def blocksParagraphs : List BlockLevelBox → List (List Nat)
  | [] => []
  | b :: bs => b.paragraphs ++ blocksParagraphs bs
end

/-- The texts that are not empty. -/
def nonEmpty (texts : List (List Nat)) : List (List Nat) := texts.filter fun t => !t.isEmpty

mutual
/-- No inline element in flow begins with white space. -/
def StyledNode.NoLeadingSpace : StyledNode → Prop
  | .ignored => True
  | .text _ => True
  | .element style children =>
    displayOf style = .none ∨ IsOutOfFlow style ∨
    ((IsInline style → ∀ c ∈ (nodesFlowText children).head?, isAsciiWhitespace c = false) ∧ noLeadingSpaces children)
/-- See `StyledNode.NoLeadingSpace`. -/
def noLeadingSpaces : List StyledNode → Prop
  | [] => True
  | n :: ns => n.NoLeadingSpace ∧ noLeadingSpaces ns
end

end Verif.Layout
