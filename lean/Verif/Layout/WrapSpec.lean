/- A block that has nothing of its own: the specification of C93. -/
import Verif.Layout.PaintSpec
import Verif.Layout.LookSpec
import Verif.Layout.FlowSpec
namespace Verif.Layout
open Verif.Style

/-- A block in this style has nothing of its own: no margins, borders, padding or background, and it is as wide as what is around it and as
high as what is in it. -/
structure Bare (s : ComputedValues) : Prop where
  margin : (s.values .marginTop : LengthOrPercentageOrAuto) = .length 0 ∧ (s.values .marginRight : LengthOrPercentageOrAuto) = .length 0 ∧
    (s.values .marginBottom : LengthOrPercentageOrAuto) = .length 0 ∧ (s.values .marginLeft : LengthOrPercentageOrAuto) = .length 0
  padding : (s.values .paddingTop : LengthOrPercentage) = .length 0 ∧ (s.values .paddingRight : LengthOrPercentage) = .length 0 ∧
    (s.values .paddingBottom : LengthOrPercentage) = .length 0 ∧ (s.values .paddingLeft : LengthOrPercentage) = .length 0
  border : (s.values .borderTopWidth : LengthOrPercentage) = .length 0 ∧ (s.values .borderRightWidth : LengthOrPercentage) = .length 0 ∧
    (s.values .borderBottomWidth : LengthOrPercentage) = .length 0 ∧ (s.values .borderLeftWidth : LengthOrPercentage) = .length 0
  width : (s.values .width : LengthOrPercentageOrAuto) = .auto
  height : (s.values .height : LengthOrPercentageOrAuto) = .auto
  position : positionOf s = .static
  background : (backgroundOf s).alpha = 0

/-- An element in this style is a block among the others of its parent. -/
def BlockInFlow (s : ComputedValues) : Prop :=
  (∃ inside, displayOf s = .generatingBox .block inside) ∧ positionOf s ≠ .absolute ∧ floatOf s = .none

/-- The style of a `div` without declarations: a block that has nothing of its own, with the colour and the font size of its parent. -/
structure PlainBlock (parent s : ComputedValues) : Prop where
  bare : Bare s
  display : displayOf s = .generatingBox .block .flow
  float : floatOf s = .none
  look : look s = look parent

mutual
/-- Nothing that is absolutely positioned. -/
def StyledNode.Still : StyledNode → Prop
  | .ignored => True
  | .text _ => True
  | .element s children => displayOf s = .none ∨ (positionOf s ≠ .absolute ∧ nodesStill children)
/-- Nothing that is absolutely positioned. -/
def nodesStill : List StyledNode → Prop
  | [] => True
  | n :: ns => n.Still ∧ nodesStill ns
end

mutual
/-- Nothing in the node is computed from the height of the block that it is in. -/
def StyledNode.Unmeasured : StyledNode → Prop
  | .ignored => True
  | .text _ => True
  | .element s children =>
    match displayOf s with
    | .none => True
    | .contents => nodesUnmeasured children
    | .generatingBox .inline _ =>
      (positionOf s = .static ∨ ((∀ p, Css.top s ≠ .percentage p) ∧ ∀ p, Css.bottom s ≠ .percentage p)) ∧ nodesUnmeasured children
    | .generatingBox .block _ => ∀ p, (s.values .height : LengthOrPercentageOrAuto) ≠ .percentage p
/-- Nothing in the nodes is computed from the height of the block that they are in. -/
def nodesUnmeasured : List StyledNode → Prop
  | [] => True
  | n :: ns => n.Unmeasured ∧ nodesUnmeasured ns
end

/-- Whether what comes next begins a new line, given whether that was so before this node. It does so after a block; `false` stands for
"perhaps not". -/
def StyledNode.fresh (before : Bool) : StyledNode → Bool
  | .ignored => before
  | .text contents => before && contents.all isAsciiWhitespace
  | .element s _ =>
    match displayOf s with
    | .none => before
    | .contents => false
    | .generatingBox .inline _ => false
    | .generatingBox .block _ => decide (positionOf s ≠ .absolute ∧ floatOf s = .none)

/-- See `StyledNode.fresh`. -/
def freshAfter (before : Bool) : List StyledNode → Bool
  | [] => before
  | n :: ns => freshAfter (n.fresh before) ns

/-- A block comes first. -/
inductive BeginsWithBlock : List StyledNode → Prop
  | ignored {ns} : BeginsWithBlock ns → BeginsWithBlock (.ignored :: ns)
  | none {s children ns} : displayOf s = .none → BeginsWithBlock ns → BeginsWithBlock (.element s children :: ns)
  | block {s children ns} : BlockInFlow s → BeginsWithBlock (.element s children :: ns)

/-- There is a box for the node: it is an element that makes one, or text that is not white space. -/
def StyledNode.Occupies : StyledNode → Prop
  | .ignored => False
  | .text contents => contents.all isAsciiWhitespace = false
  | .element s _ => ∃ outside inside, displayOf s = .generatingBox outside inside

/-- `BlocksAdded parent fresh nodes nodes'`: `nodes'` are the contents `nodes` of a block, or the rest of them, with blocks added around some
of them, at any depth, each of which has nothing of its own. `fresh` is whether what comes first begins a new line. What is put in a
new block does so too, and so does what comes after it. Nothing in the new block is computed from the height of the block that it was in
before; if there may be no box in the new block, this is so for what comes after it. -/
inductive BlocksAdded : ComputedValues → Bool → List StyledNode → List StyledNode → Prop
  | nil {parent fresh} : BlocksAdded parent fresh [] []
  | same {parent fresh n ns ns'} : n.Still → BlocksAdded parent (n.fresh fresh) ns ns' → BlocksAdded parent fresh (n :: ns) (n :: ns')
  | inside {parent fresh s children children' ns ns'} : BlockInFlow s → BlocksAdded s true children children' →
      BlocksAdded parent true ns ns' → BlocksAdded parent fresh (.element s children :: ns) (.element s children' :: ns')
  | added {parent fresh s inner inner' ns ns'} : PlainBlock parent s → nodesUnmeasured inner → BlocksAdded s true inner inner' →
      (fresh = true ∨ BeginsWithBlock inner) → (freshAfter true inner = true ∨ ns = [] ∨ BeginsWithBlock ns) →
      ((∃ n ∈ inner, n.Occupies) ∨ nodesUnmeasured ns) →
      BlocksAdded parent (freshAfter fresh inner) ns ns' → BlocksAdded parent fresh (inner ++ ns) (.element s inner' :: ns')

/-- There is something to see: a rectangle is neither without width nor without height. -/
def Shape.visible : Shape → Bool
  | .rect _ size _ => decide (size.inline ≠ 0) && decide (size.block ≠ 0)
  | .glyphs _ _ _ _ => true

end Verif.Layout
