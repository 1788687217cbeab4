/- Model of `victor/src/style/selectors.rs`: what the crate `selectors` is told about elements. The parsing and the matching of
selectors are that crate's. -/
import Verif.Dom.Model
namespace Verif.Style
open Verif.Dom

/-- `document[node].as_element().is_some()`; an index out of range is a panic. -/
def isElementNode (d : Document) (node : Nat) : Option Bool :=
  match d.get node with
  | none => none
  | some n => some n.asElement.isSome

/-- selectors.rs 104-119, `find_element`; `none` is a panic or out of fuel. -/
def findElement (d : Document) (next : Node → Option Nat) : (fuel : Nat) → Option Nat → Option (Option Nat)
  | _, none => some none
  | 0, some _ => none
  | fuel + 1, some node =>
    match d.get node with
    | none => none
    | some n => if n.asElement.isSome then some (some node) else findElement d next fuel (next n)

/-- selectors.rs 128-135, `parent_element`. -/
def parentElement (d : Document) (node : Nat) : Option (Option Nat) :=
  match d.get node with
  | none => none
  | some n =>
    match n.parent with
    | none => some none
    | some parent =>
      match d.get parent with
      | none => none
      | some p => if p.asElement.isSome then some (some parent) else some none

/-- selectors.rs 137-141, `next_sibling_element`. -/
def nextSiblingElement (d : Document) (fuel node : Nat) : Option (Option Nat) :=
  match d.get node with
  | none => none
  | some n => findElement d Node.nextSibling fuel n.nextSibling

/-- selectors.rs 143-147, `prev_sibling_element`. -/
def prevSiblingElement (d : Document) (fuel node : Nat) : Option (Option Nat) :=
  match d.get node with
  | none => none
  | some n => findElement d Node.previousSibling fuel n.previousSibling

/-- The element data of a node; `unwrap` panics. -/
def elementOf (d : Document) (node : Nat) : Option ElementData :=
  match d.get node with
  | none => none
  | some n => n.asElement

/-- selectors.rs 149-151 with dom/mod.rs 272-275. -/
def isHtmlElementInHtmlDocument (d : Document) (node : Nat) : Option Bool :=
  (elementOf d node).map fun e => e.name.ns == htmlNs

/-- selectors.rs 153-155, `local_name`. -/
def localName (d : Document) (node : Nat) : Option String := (elementOf d node).map fun e => e.name.loc

/-- selectors.rs 157-159, `namespace`. -/
def namespaceOf (d : Document) (node : Nat) : Option String := (elementOf d node).map fun e => e.name.ns

/-- selectors.rs 173-187, `attr_matches`. `ns` is `none` for `NamespaceConstraint::Any`; `operation` is the crate's comparison. -/
def attrMatches (d : Document) (node : Nat) (ns : Option String) (loc : String) (operation : String → Bool) : Option Bool :=
  (elementOf d node).map fun e => e.attrs.any fun a =>
    a.name.loc == loc && (match ns with | none => true | some ns => a.name.ns == ns) && operation a.value

/-- selectors.rs 209-217, `is_link`. -/
def isLink (d : Document) (node : Nat) : Option Bool :=
  (elementOf d node).map fun e =>
    e.name.ns == htmlNs && (e.name.loc == "a" || e.name.loc == "area" || e.name.loc == "link") && (e.getAttr "href").isSome

/-- The crate's `CaseSensitivity`. -/
inductive CaseSensitivity where
  | caseSensitive
  | asciiCaseInsensitive
deriving DecidableEq

/-- The crate's `CaseSensitivity::eq`. -/
def CaseSensitivity.eq : CaseSensitivity → String → String → Bool
  | .caseSensitive, a, b => a == b
  | .asciiCaseInsensitive, a, b => Document.eqIgnoreAsciiCase a b

/-- selectors.rs 219-227, `has_id`. -/
def hasId (d : Document) (node : Nat) (id : String) (c : CaseSensitivity) : Option Bool :=
  (elementOf d node).map fun e => match e.getAttr "id" with
    | none => false
    | some attr => c.eq id attr

/-- selectors.rs 229-237, `has_class`. -/
def hasClass (d : Document) (node : Nat) (cls : String) (c : CaseSensitivity) : Option Bool :=
  (elementOf d node).map fun e => match e.getAttr "class" with
    | none => false
    | some attr => c.eq cls attr

/-- selectors.rs 242-255, the loop of `is_empty`. -/
def emptyFrom (d : Document) : (fuel : Nat) → Nat → Option Bool
  | 0, _ => none
  | fuel + 1, node =>
    match d.get node with
    | none => none
    | some n =>
      if n.asElement.isSome then some false
      else if (match n.asText with | some t => !t.isEmpty | none => false) then some false
      else match n.nextSibling with
        | none => some true
        | some next => emptyFrom d fuel next

/-- selectors.rs 239-257, `is_empty`. -/
def isEmptyElement (d : Document) (fuel node : Nat) : Option Bool :=
  match d.get node with
  | none => none
  | some n =>
    match n.firstChild with
    | none => some true
    | some child => emptyFrom d fuel child

/-- selectors.rs 259-261, `is_root`. -/
def isRoot (d : Document) (node : Nat) : Option Bool := (parentElement d node).map Option.isNone

end Verif.Style
