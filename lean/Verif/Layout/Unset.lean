/- Model of `unset_boxes_in_subtree`, `victor/src/layout/dom_traversal.rs` 312-343. -/
import Verif.Dom.Model
namespace Verif.Layout
open Verif.Dom

/-- layout/element_data.rs, `LayoutDataForElement`: whether the element has a box, and whether it has data for pseudo-elements. What
the boxes are does not matter here. -/
structure LayoutData where
  selfBox : Bool
  pseudoElements : Bool
deriving DecidableEq

/-- The layout data of all nodes; nodes that are not elements have none, and it is `⟨false, false⟩` for them. -/
abbrev AllLayoutData := Nat → LayoutData

/-- The layout data after a change of that of one node. -/
def AllLayoutData.set (data : AllLayoutData) (node : Nat) (value : LayoutData) : AllLayoutData :=
  fun n => if n = node then value else data n

/-- What a run of the function comes to: `running` when the fuel is used up. -/
inductive Run (α : Type) where
  | done (value : α)
  | panic
  | running

/-- dom_traversal.rs 328-337, the inner loop: `node` is that of the outer loop, `current` is `next_is_a_sibling_of`. The result is
`next_is_a_sibling_of` and its sibling. -/
def siblingLoop (d : Document) (node : Node) : (fuel : Nat) → (current : Nat) → Run (Nat × Nat)
  | 0, _ => .running
  | fuel + 1, current =>
    match d.get current with
    | none => .panic
    | some c =>
      match c.nextSibling with
      | some sibling => .done (current, sibling)
      | none =>
        match node.parent with
        | none => .panic
        | some parent => siblingLoop d node fuel parent

/-- dom_traversal.rs 315-327: the layout data is reset, and the first child is next if there was a box. -/
def visit (node : Node) (id : Nat) (data : AllLayoutData) : AllLayoutData × Option Nat :=
  match node.data with
  | .element _ => (data.set id ⟨false, false⟩, if (data id).selfBox then node.firstChild else none)
  | _ => (data, none)

/-- dom_traversal.rs 312-343, `unset_boxes_in_subtree`. The fuel bounds the iterations of the outer loop; the inner one
has two more. -/
def unsetLoop (d : Document) (base : Nat) : (fuel : Nat) → (id : Nat) → AllLayoutData → Run AllLayoutData
  | 0, _, _ => .running
  | fuel + 1, id, data =>
    match d.get id with
    | none => .panic
    | some node =>
      match visit node id data with
      | (data, some child) => unsetLoop d base fuel child data
      | (data, none) =>
        match siblingLoop d node (fuel + 2) id with
        | .running => .running
        | .panic => .panic
        | .done (current, sibling) => if current = base then .done data else unsetLoop d base fuel sibling data

/-- dom_traversal.rs 312-313. -/
def unsetBoxesInSubtree (d : Document) (fuel : Nat) (base : Nat) (data : AllLayoutData) : Run AllLayoutData :=
  unsetLoop d base fuel base data

end Verif.Layout
