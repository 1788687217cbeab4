/- Absolutely positioned elements: the specification of C100. -/
import Verif.Layout.WrapSpec
namespace Verif.Layout
open Verif.Style

/-- An element in this style is an absolutely positioned box. -/
def IsAside (s : ComputedValues) : Bool :=
  match displayOf s with
  | .generatingBox .block _ => decide (positionOf s = .absolute)
  | _ => false

mutual
/-- The node without the absolutely positioned elements in it: nothing if it is one. (What is not displayed is left as it is.) -/
def StyledNode.settled : StyledNode → List StyledNode
  | .ignored => [.ignored]
  | .text contents => [.text contents]
  | .element s children =>
    if displayOf s = .none then [.element s children] else if IsAside s then [] else [.element s (nodesSettled children)]
/-- The nodes without the absolutely positioned elements in them. -/
def nodesSettled : List StyledNode → List StyledNode
  | [] => []
  | n :: ns => n.settled ++ nodesSettled ns
end

/-- Where a node is: between blocks, after something that may be in the same line, or in an inline element. -/
inductive Spot
  | between
  | line
  | inline
deriving DecidableEq

mutual
/-- Where what comes after the node is, given where the node is. -/
def StyledNode.after (spot : Spot) : StyledNode → Spot
  | .ignored => spot
  | .text contents => if contents.all isAsciiWhitespace then spot else if spot = .between then .line else spot
  | .element s children =>
    match displayOf s with
    | .none => spot
    | .contents => nodesAfter spot children
    | .generatingBox .inline _ => if spot = .between then .line else spot
    | .generatingBox .block _ =>
      if positionOf s = .absolute ∨ floatOf s ≠ .none then spot else if spot = .inline then .inline else .between
/-- See `StyledNode.after`. -/
def nodesAfter (spot : Spot) : List StyledNode → Spot
  | [] => spot
  | n :: ns => nodesAfter (n.after spot) ns
end

mutual
/-- Every absolutely positioned element in the node that is not inside of another one comes between blocks: not in a line, nor in an
inline element or a float. No inline element is moved by a percentage of the height of the block that it is in. -/
def StyledNode.Apart (spot : Spot) : StyledNode → Prop
  | .ignored => True
  | .text _ => True
  | .element s children =>
    match displayOf s with
    | .none => True
    | .contents => positionOf s ≠ .absolute ∧ nodesApart spot children
    | .generatingBox .inline _ =>
      positionOf s ≠ .absolute ∧ (positionOf s = .static ∨ ((∀ p, Css.top s ≠ .percentage p) ∧ ∀ p, Css.bottom s ≠ .percentage p)) ∧
        nodesApart .inline children
    | .generatingBox .block _ =>
      if positionOf s = .absolute then spot = .between
      else if floatOf s ≠ .none then nodesStill children
      else nodesApart .between children
/-- See `StyledNode.Apart`. -/
def nodesApart (spot : Spot) : List StyledNode → Prop
  | [] => True
  | n :: ns => n.Apart spot ∧ nodesApart (n.after spot) ns
end

/-! ### What is in absolutely positioned elements -/

mutual
/-- The second node is the first, but there is nothing in the absolutely positioned elements in it, nor anything to be seen of them. They
may be in other styles. -/
def StyledNode.Emptied : StyledNode → StyledNode → Prop
  | .ignored, .ignored => True
  | .text contents, .text contents' => contents = contents'
  | .element s children, .element s' children' =>
    if IsAside s then IsAside s' ∧ children' = [] ∧ (backgroundOf s').alpha = 0 else s = s' ∧ nodesEmptied children children'
  | _, _ => False
/-- See `StyledNode.Emptied`. -/
def nodesEmptied : List StyledNode → List StyledNode → Prop
  | [], [] => True
  | n :: ns, n' :: ns' => n.Emptied n' ∧ nodesEmptied ns ns'
  | _, _ => False
end

end Verif.Layout
