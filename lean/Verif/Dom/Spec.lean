import Verif.Dom.Model
/-
Specification vocabulary for the DOM: an abstract ordered forest and what it means for the links of a
document to represent it. Nothing here mentions how the code updates links.
-/
namespace Verif.Dom

/-- An ordered forest: the child sequence of each node. -/
abbrev Forest := Nat → List Nat

namespace Forest

/-- Remove `n` from wherever it is. -/
def detach (F : Forest) (n : Nat) : Forest := fun p => (F p).filter (· ≠ n)

/-- Move `n` to the end of the children of `p`. -/
def append (F : Forest) (p n : Nat) : Forest := fun q =>
  if q = p then (F.detach n) q ++ [n] else (F.detach n) q

/-- `n` placed immediately before the (first) occurrence of `s`. -/
def insertBeforeList (s n : Nat) : List Nat → List Nat
  | [] => []
  | x :: xs => if x = s then n :: x :: xs else x :: insertBeforeList s n xs

/-- Move `n` to just before `s`, in whichever child sequence holds `s`. -/
def insertBefore (F : Forest) (s n : Nat) : Forest := fun q => insertBeforeList s n ((F.detach n) q)

/-- `a` is a proper ancestor of `b`. -/
inductive Ancestor (F : Forest) : Nat → Nat → Prop
  | parent {p c : Nat} : c ∈ F p → Ancestor F p c
  | step {a p c : Nat} : Ancestor F a p → c ∈ F p → Ancestor F a c

/-- No node is its own ancestor. -/
def Acyclic (F : Forest) : Prop := ∀ n, ¬ F.Ancestor n n

end Forest

/-- The links of node `c` are those of the position between `before` and `after` among the children of `p`. -/
structure LinksAt (n : Node) (p : Nat) (before after : List Nat) : Prop where
  parent : n.parent = some p
  prev : n.previousSibling = before.getLast?
  next : n.nextSibling = after.head?

/-- All links of the document agree with the forest `F`. -/
structure Represents (d : Document) (F : Forest) : Prop where
  /-- the ends of each child chain -/
  ends : ∀ (p : Nat) (n : Node), d.nodes[p]? = some n → n.firstChild = (F p).head? ∧ n.lastChild = (F p).getLast?
  /-- every child is a node whose parent and sibling links are those of its place in the sequence -/
  child : ∀ p before c after, F p = before ++ c :: after →
    ∃ n, d.nodes[c]? = some n ∧ LinksAt n p before after
  /-- a node that claims a parent is in that parent's sequence -/
  claimed : ∀ (c : Nat) (n : Node) (p : Nat), d.nodes[c]? = some n → n.parent = some p → c ∈ F p
  /-- a node without a parent has no siblings -/
  orphan : ∀ (c : Nat) (n : Node), d.nodes[c]? = some n → n.parent = none →
    n.previousSibling = none ∧ n.nextSibling = none
  /-- no child sequence mentions a node twice -/
  nodup : ∀ p, (F p).Nodup
  /-- nodes that do not exist have no children -/
  outside : ∀ p, d.nodes.length ≤ p → F p = []

/-- A document is a consistent tree structure. -/
def Document.WellFormed (d : Document) : Prop := ∃ F, Represents d F ∧ F.Acyclic

end Verif.Dom

namespace Verif.Dom

/-- What the tree builder promises before moving node `n` under `p`: both exist, `n` is not the document
node, and the move does not make `n` its own ancestor. -/
structure MayMoveUnder (d : Document) (F : Forest) (n p : Nat) : Prop where
  child_exists : n < d.nodes.length
  parent_exists : p < d.nodes.length
  not_document : n ≠ documentNodeId
  not_self : n ≠ p
  not_ancestor : ¬ F.Ancestor n p

/-- Promise of the tree builder for an insertion at the end of `p`. -/
def MayAppend (d : Document) (F : Forest) (p : Nat) : NodeOrText → Prop
  | .node n => MayMoveUnder d F n p
  | .text _ => p < d.nodes.length

/-- Promise of the tree builder for an insertion before `s`: `s` has a parent. -/
def MayInsertBefore (d : Document) (F : Forest) (s : Nat) : NodeOrText → Prop
  | .node n => n ≠ s ∧ ∃ p, s ∈ F p ∧ MayMoveUnder d F n p
  | .text _ => ∃ p, s ∈ F p

/-- The calls the tree builder may make on a document representing the forest `F`. -/
def LegalOp (d : Document) (F : Forest) : SinkOp → Prop
  | .createElement _ | .createComment _ | .createPi .. | .appendDoctype .. => True
  | .append p c => MayAppend d F p c
  | .appendBeforeSibling s c => MayInsertBefore d F s c
  | .appendBasedOnParentNode e p c =>
      e < d.nodes.length ∧ ((∃ q, e ∈ F q) → MayInsertBefore d F e c) ∧ ((¬ ∃ q, e ∈ F q) → MayAppend d F p c)
  | .addAttrsIfMissing t _ => ∃ n e, d.nodes[t]? = some n ∧ n.data = .element e
  | .removeFromParent t => t < d.nodes.length
  | .reparentChildren n p => n < d.nodes.length ∧ ∀ c ∈ F n, MayMoveUnder d F c p

/-- Every call of the history is legal in the state it is made in. -/
def LegalHistory : Document → List SinkOp → Prop
  | _, [] => True
  | d, op :: ops => (∀ F, Represents d F → LegalOp d F op) ∧ ∀ d', d.applyOp op = some d' → LegalHistory d' ops

/-- The document node is a parentless node of kind document. -/
def DocumentNodeIsRoot (d : Document) : Prop :=
  ∃ n, d.nodes[documentNodeId]? = some n ∧ n.data = .document ∧ n.parent = none

end Verif.Dom

namespace Verif.Dom

/-- `PreOrder F roots out`: `out` is the document order (each node before its children, children in order) of
the trees hanging from `roots`. -/
inductive PreOrder (F : Forest) : List Nat → List Nat → Prop
  | nil : PreOrder F [] []
  | cons {n : Nat} {ns below rest : List Nat} :
      PreOrder F (F n) below → PreOrder F ns rest → PreOrder F (n :: ns) (n :: below ++ rest)

end Verif.Dom

namespace Verif.Dom

/-- The data of the nodes in a list of ids. -/
def Document.dataOf (d : Document) (ids : List Nat) : List NodeData :=
  ids.filterMap fun i => (d.nodes[i]?).map Node.data

/-- Text inserted at the end of a sequence of nodes: it extends a final text node, or becomes a new one. -/
def appendText (l : List NodeData) (s : String) : List NodeData :=
  match l.getLast? with
  | some (.text t) => l.dropLast ++ [.text (t ++ s)]
  | _ => l ++ [.text s]

/-- The concatenated text of a sequence of nodes. -/
def textContent : List NodeData → String
  | [] => ""
  | .text t :: l => t ++ textContent l
  | _ :: l => textContent l

/-- No text node directly follows another. -/
def NoAdjacentText (l : List NodeData) : Prop :=
  ∀ a b s t, l ≠ a ++ [NodeData.text s, NodeData.text t] ++ b

/-- All children of `n` moved, in order, to the end of the children of `p`. -/
def Forest.reparent (F : Forest) (n p : Nat) : Forest := fun q =>
  if q = n then [] else if q = p then F p ++ F n else F q

/-- Doctypes, comments and processing instructions: what may surround the root element. -/
def NodeData.isMisc : NodeData → Bool
  | .doctype .. | .comment _ | .pi .. => true
  | _ => false

/-- An HTML `style` element. -/
def NodeData.isStyle : NodeData → Bool
  | .element e => e.name.ns == htmlNs && e.name.loc == "style"
  | _ => false

/-- The `(rel, href)` pair of an HTML `link` element having both attributes. -/
def NodeData.linkOf : NodeData → Option (String × String)
  | .element e =>
    if e.name.ns = htmlNs ∧ e.name.loc = "link" then
      match e.getAttr "rel", e.getAttr "href" with
      | some r, some h => some (r, h)
      | _, _ => none
    else none
  | _ => none

/-- A `style` element is used unless its `type` attribute is something else than `text/css`, up to ASCII
case. -/
def NodeData.styleEnabled : NodeData → Bool
  | .element e => match e.getAttr "type" with
    | some t => t.toList.map Char.toLower == "text/css".toList
    | none => true
  | _ => false

/-- The ids of the nodes whose data satisfies `q`, in creation order. -/
def Document.idsWith (d : Document) (q : NodeData → Bool) : List Nat :=
  (List.range d.nodes.length).filter fun i => ((d.nodes[i]?).map Node.data).any q

end Verif.Dom
