/-
Model of the DOM arena: /repo/victor/src/dom/mod.rs and the tree sink in /repo/victor/src/dom/html.rs.

Simplifications common to this file:
* `NonZeroUsize` node ids are `Nat` indices into the node list.
* `String`s are kept; html5ever atoms and tendrils are `String`s.
* `ElementData::layout_data` is left out here: no function in this file reads or writes it (see Verif/Layout for boxes).
* A panic (index out of range, failed `assert!`, `debug_assert!`, `unwrap`, `panic!`) is `none`.
-/
namespace Verif.Dom

/-- html5ever `QualName`: `prefix`, namespace and local name. -/
structure QualName where
  prefix? : Option String
  ns : String
  loc : String
deriving DecidableEq, Repr

/-- dom/mod.rs 246-251 `Attribute`. -/
structure Attribute where
  name : QualName
  value : String
deriving DecidableEq, Repr

/-- dom/mod.rs 239-244 `ElementData` (without `layout_data`). -/
structure ElementData where
  name : QualName
  attrs : List Attribute
  mathmlIntegrationPoint : Bool
deriving DecidableEq, Repr

/-- dom/mod.rs 219-237 `NodeData`. -/
inductive NodeData where
  | document
  | doctype (name publicId systemId : String)
  | text (contents : String)
  | comment (contents : String)
  | element (e : ElementData)
  | pi (target contents : String)
deriving DecidableEq, Repr

/-- dom/mod.rs 19-26 `Node`. -/
structure Node where
  parent : Option Nat
  nextSibling : Option Nat
  previousSibling : Option Nat
  firstChild : Option Nat
  lastChild : Option Nat
  data : NodeData
deriving DecidableEq, Repr

/-- dom/mod.rs 291-300 `Node::new`. -/
def Node.new (data : NodeData) : Node :=
  { parent := none, nextSibling := none, previousSibling := none,
    firstChild := none, lastChild := none, data := data }

/-- dom/mod.rs 14-17 `Document`. -/
structure Document where
  nodes : List Node
  styleElements : List Nat
deriving DecidableEq, Repr

/-- dom/mod.rs 43-45 `document_node_id`. -/
def documentNodeId : Nat := 1

namespace Document

/-- dom/mod.rs 32-41 `Document::new`: a dummy node at index 0 and the document node at index 1. -/
def new : Document :=
  { nodes := [Node.new .document, Node.new .document], styleElements := [] }

/-- dom/mod.rs 203-210 `Index<NodeId>`: out of range panics. -/
def get (d : Document) (i : Nat) : Option Node := d.nodes[i]?

/-- dom/mod.rs 212-217 `IndexMut<NodeId>` followed by an in-place change: out of range panics. -/
def modify (d : Document) (i : Nat) (f : Node → Node) : Option Document :=
  if i < d.nodes.length then some { d with nodes := d.nodes.modify i f } else none

/-- dom/mod.rs 102-106 `push_node`. -/
def pushNode (d : Document) (n : Node) : Document × Nat :=
  ({ d with nodes := d.nodes ++ [n] }, d.nodes.length)

/-- dom/mod.rs 108-129 `detach`. -/
def detach (d : Document) (node : Nat) : Option Document := do
  let n ← d.get node
  let d ← d.modify node
    fun x => { x with parent := none, previousSibling := none, nextSibling := none }
  let d ← match n.nextSibling with
    | some next => d.modify next fun x => { x with previousSibling := n.previousSibling }
    | none => match n.parent with
      | some parent => d.modify parent fun x => { x with lastChild := n.previousSibling }
      | none => some d
  match n.previousSibling with
    | some prev => d.modify prev fun x => { x with nextSibling := n.nextSibling }
    | none => match n.parent with
      | some parent => d.modify parent fun x => { x with firstChild := n.nextSibling }
      | none => some d

/-- dom/mod.rs 131-143 `append`, `debug_assert!`s included. -/
def append (d : Document) (parent newChild : Nat) : Option Document := do
  let d ← d.detach newChild
  let d ← d.modify newChild fun x => { x with parent := some parent }
  let p ← d.get parent
  let d ← d.modify parent fun x => { x with lastChild := none }
  let d ← match p.lastChild with
    | some lastChild => do
        let d ← d.modify newChild fun x => { x with previousSibling := some lastChild }
        let l ← d.get lastChild
        if l.nextSibling.isSome then none
        else d.modify lastChild fun x => { x with nextSibling := some newChild }
    | none => do
        let p ← d.get parent
        if p.firstChild.isSome then none
        else d.modify parent fun x => { x with firstChild := some newChild }
  d.modify parent fun x => { x with lastChild := some newChild }

/-- dom/mod.rs 145-158 `insert_before`, `debug_assert_eq!`s included. -/
def insertBefore (d : Document) (sibling newSibling : Nat) : Option Document := do
  let d ← d.detach newSibling
  let s ← d.get sibling
  let d ← d.modify newSibling fun x => { x with parent := s.parent }
  let d ← d.modify newSibling fun x => { x with nextSibling := some sibling }
  let s ← d.get sibling
  let d ← d.modify sibling fun x => { x with previousSibling := none }
  let d ← match s.previousSibling with
    | some prev => do
        let d ← d.modify newSibling fun x => { x with previousSibling := some prev }
        let p ← d.get prev
        if p.nextSibling = some sibling then
          d.modify prev fun x => { x with nextSibling := some newSibling }
        else none
    | none => do
        let s ← d.get sibling
        match s.parent with
        | some parent => do
            let p ← d.get parent
            if p.firstChild = some sibling then
              d.modify parent fun x => { x with firstChild := some newSibling }
            else none
        | none => some d
  d.modify sibling fun x => { x with previousSibling := some newSibling }

/-- dom/mod.rs 176-181 `node_and_following_siblings`, collected. `none`: index panic or not finished within
`fuel` steps. -/
def nodeAndFollowingSiblings (d : Document) : (fuel : Nat) → Option Nat → Option (List Nat)
  | _, none => some []
  | 0, some _ => none
  | fuel + 1, some i => do
      let n ← d.get i
      let rest ← d.nodeAndFollowingSiblings fuel n.nextSibling
      return i :: rest

/-- The child sequence as the code enumerates it: `first_child`, then `next_sibling` links
(dom/mod.rs 85, 162-172; style/selectors.rs; layout/dom_traversal.rs). -/
def childrenOf (d : Document) (fuel : Nat) (p : Nat) : Option (List Nat) := do
  let n ← d.get p
  d.nodeAndFollowingSiblings fuel n.firstChild

/-- dom/mod.rs 190-195, the `node_and_ancestors(node).find_map(next_sibling)` part. The outer `Option` is
panic / out of fuel. -/
def climb (d : Document) : (fuel : Nat) → Nat → Option (Option Nat)
  | 0, _ => none
  | fuel + 1, i => do
      let n ← d.get i
      match n.nextSibling with
      | some s => return some s
      | none => match n.parent with
        | some p => d.climb fuel p
        | none => return none

/-- dom/mod.rs 190-195 `next_in_tree_order`. -/
def nextInTreeOrder (d : Document) (fuel : Nat) (node : Nat) : Option (Option Nat) := do
  let n ← d.get node
  match n.firstChild with
  | some c => return some c
  | none => d.climb fuel node

/-- dom/mod.rs 199 `successors(Some(root), |n| next_in_tree_order(n))`, collected; `fuel` bounds both loops. -/
def nodesFrom (d : Document) (fuel : Nat) : (steps : Nat) → Option Nat → Option (List Nat)
  | _, none => some []
  | 0, some _ => none
  | steps + 1, some i => do
      let next ← d.nextInTreeOrder fuel i
      let rest ← d.nodesFrom fuel steps next
      return i :: rest

/-- dom/mod.rs 197-200 `nodes`. -/
def allNodes (d : Document) (fuel : Nat) : Option (List Nat) :=
  d.nodesFrom fuel fuel (some documentNodeId)

end Document

/-- dom/mod.rs 277-282 `as_element`. -/
def Node.asElement (n : Node) : Option ElementData :=
  match n.data with
  | .element e => some e
  | _ => none

/-- dom/mod.rs 284-289 `as_text`. -/
def Node.asText (n : Node) : Option String :=
  match n.data with
  | .text s => some s
  | _ => none

/-- dom/mod.rs 253-260 `get_attr`. -/
def ElementData.getAttr (e : ElementData) (name : String) : Option String :=
  (e.attrs.find? fun a => a.name.ns == "" && a.name.loc == name).map (·.value)

/-- The namespace behind `expanded_name!(html "...")` in html5ever/markup5ever. -/
def htmlNs : String := "http://www.w3.org/1999/xhtml"

namespace Document

/-- dom/mod.rs 62-76 `html_link_elements`, collected. -/
def htmlLinkElements (d : Document) (fuel : Nat) : Option (List (String × String)) := do
  let ids ← d.allNodes fuel
  let nodes ← ids.mapM d.get
  return nodes.filterMap fun n =>
    match n.asElement with
    | none => none
    | some e =>
      if e.name.ns = htmlNs ∧ e.name.loc = "link" then
        match e.getAttr "rel", e.getAttr "href" with
        | some rel, some href => some (rel, href)
        | _, _ => none
      else none

/-- dom/mod.rs 78-100, the `for child in ...` loop of `root_element`; `none` is a panic. -/
def rootLoop (d : Document) : List Nat → Option Nat → Option (Option Nat)
  | [], root => some root
  | c :: cs, root => do
      let n ← d.get c
      match n.data with
      | .doctype .. | .comment _ | .pi .. => d.rootLoop cs root
      | .document | .text _ => none
      | .element _ => if root.isSome then none else d.rootLoop cs (some c)

/-- dom/mod.rs 78-100 `root_element`; `none` is a panic. -/
def rootElement (d : Document) (fuel : Nat) : Option Nat := do
  let n ← d.get documentNodeId
  if n.data ≠ .document ∨ n.parent.isSome ∨ n.nextSibling.isSome ∨ n.previousSibling.isSome then none
  else
    let first ← n.firstChild
    let children ← d.nodeAndFollowingSiblings fuel (some first)
    let root ← d.rootLoop children none
    root

/-- dom/mod.rs 161-174 `child_text_content`: concatenation of the contents of the text children.
The `Cow` is a plain string. -/
def childTextContent (d : Document) (fuel : Nat) (node : Nat) : Option String := do
  let children ← d.childrenOf fuel node
  let nodes ← children.mapM d.get
  return String.join (nodes.filterMap Node.asText)

/-- Rust `str::eq_ignore_ascii_case`. -/
def eqIgnoreAsciiCase (a b : String) : Bool :=
  a.toList.map Char.toLower == b.toList.map Char.toLower

/-- dom/mod.rs 47-60 `parse_stylesheets`, up to the list of style sheet texts handed to
`StyleSetBuilder::add_stylesheet` (57), in order. -/
def stylesheetTexts (d : Document) (fuel : Nat) : List Nat → Option (List String)
  | [] => some []
  | id :: ids => do
      let n ← d.get id
      let e ← n.asElement
      let skip := match e.getAttr "type" with
        | some t => !eqIgnoreAsciiCase t "text/css"
        | none => false
      if skip then d.stylesheetTexts fuel ids
      else
        let t ← d.childTextContent fuel id
        let rest ← d.stylesheetTexts fuel ids
        return t :: rest

end Document

/-- html5ever `NodeOrText`. -/
inductive NodeOrText where
  | node (id : Nat)
  | text (s : String)
deriving DecidableEq, Repr

namespace Document

/-- dom/html.rs 26-28 `new_node`. -/
def newNode (d : Document) (data : NodeData) : Document × Nat := d.pushNode (Node.new data)

/-- dom/html.rs 39-46: push `text` onto node `id` if that is a text node; `none` when it is not. -/
def pushText (d : Document) (id : Nat) (s : String) : Option (Option Document) := do
  let n ← d.get id
  match n.data with
  | .text old => do
      let d ← d.modify id fun x => { x with data := .text (old ++ s) }
      return some d
  | _ => return none

/-- dom/html.rs 30-56 `append_common`, given the value of `previous(document)`. -/
def appendCommon (d : Document) (child : NodeOrText) (previous : Option Nat)
    (append : Document → Nat → Option Document) : Option Document :=
  match child with
  | .node n => append d n
  | .text s => do
      let merged ← match previous with
        | some id => d.pushText id s
        | none => some none
      match merged with
      | some d => return d
      | none =>
          let (d, id) := d.newNode (.text s)
          append d id

/-- dom/html.rs 135-141 `TreeSink::append`. -/
def sinkAppend (d : Document) (parent : Nat) (child : NodeOrText) : Option Document := do
  match child with
  | .node _ => d.appendCommon child none fun d n => d.append parent n
  | .text _ =>
      let p ← d.get parent
      d.appendCommon child p.lastChild fun d n => d.append parent n

/-- dom/html.rs 143-149 `append_before_sibling`. -/
def sinkAppendBeforeSibling (d : Document) (sibling : Nat) (child : NodeOrText) : Option Document := do
  match child with
  | .node _ => d.appendCommon child none fun d n => d.insertBefore sibling n
  | .text _ =>
      let s ← d.get sibling
      d.appendCommon child s.previousSibling fun d n => d.insertBefore sibling n

/-- dom/html.rs 151-162 `append_based_on_parent_node`. -/
def sinkAppendBasedOnParentNode (d : Document) (element prevElement : Nat) (child : NodeOrText) :
    Option Document := do
  let e ← d.get element
  if e.parent.isSome then d.sinkAppendBeforeSibling element child
  else d.sinkAppend prevElement child

/-- dom/html.rs 100-120 `create_element`. -/
def createElement (d : Document) (e : ElementData) : Document × Nat :=
  let (d, id) := d.newNode (.element e)
  if e.name.ns = htmlNs ∧ e.name.loc = "style" then
    ({ d with styleElements := d.styleElements ++ [id] }, id)
  else (d, id)

/-- dom/html.rs 164-176 `append_doctype_to_document`. -/
def appendDoctype (d : Document) (name publicId systemId : String) : Option Document :=
  let (d, id) := d.newNode (.doctype name publicId systemId)
  d.append documentNodeId id

/-- dom/html.rs 184-194: the attribute merge of `add_attrs_if_missing`. -/
def mergeAttrs (old new : List Attribute) : List Attribute :=
  let existing := old.map (·.name)
  old ++ new.filter fun a => !existing.contains a.name

/-- dom/html.rs 178-195 `add_attrs_if_missing`; panics when the target is not an element. -/
def addAttrsIfMissing (d : Document) (target : Nat) (attrs : List Attribute) : Option Document := do
  let n ← d.get target
  match n.data with
  | .element e =>
      d.modify target fun x => { x with data := .element { e with attrs := mergeAttrs e.attrs attrs } }
  | _ => none

/-- dom/html.rs 201-208 `reparent_children`: the loop, from `next_child`. -/
def reparentLoop (d : Document) (node newParent : Nat) : (fuel : Nat) → Option Nat → Option Document
  | _, none => some d
  | 0, some _ => none
  | fuel + 1, some child => do
      let c ← d.get child
      if c.parent = some node then
        let d ← d.append newParent child
        let c ← d.get child
        d.reparentLoop node newParent fuel c.nextSibling
      else none

/-- dom/html.rs 201-208 `reparent_children`, `debug_assert_eq!` included. -/
def reparentChildren (d : Document) (fuel node newParent : Nat) : Option Document := do
  let n ← d.get node
  d.reparentLoop node newParent fuel n.firstChild

end Document
end Verif.Dom

namespace Verif.Dom

/-- The calls html5ever makes on the tree sink that change the document (dom/html.rs 100-208). -/
inductive SinkOp where
  | createElement (e : ElementData)
  | createComment (s : String)
  | createPi (target data : String)
  | append (parent : Nat) (child : NodeOrText)
  | appendBeforeSibling (sibling : Nat) (child : NodeOrText)
  | appendBasedOnParentNode (element prevElement : Nat) (child : NodeOrText)
  | appendDoctype (name publicId systemId : String)
  | addAttrsIfMissing (target : Nat) (attrs : List Attribute)
  | removeFromParent (target : Nat)
  | reparentChildren (node newParent : Nat)

/-- One sink call; `none` is a panic (or, for `reparent_children`, more iterations than there are nodes). -/
def Document.applyOp (d : Document) : SinkOp → Option Document
  | .createElement e => some (d.createElement e).1
  | .createComment s => some (d.newNode (.comment s)).1
  | .createPi t s => some (d.newNode (.pi t s)).1
  | .append p c => d.sinkAppend p c
  | .appendBeforeSibling s c => d.sinkAppendBeforeSibling s c
  | .appendBasedOnParentNode e p c => d.sinkAppendBasedOnParentNode e p c
  | .appendDoctype a b c => d.appendDoctype a b c
  | .addAttrsIfMissing t a => d.addAttrsIfMissing t a
  | .removeFromParent t => d.detach t
  | .reparentChildren n p => d.reparentChildren (d.nodes.length + 1) n p

/-- A sequence of sink calls, as made by `parse_html` (dom/html.rs 9-17). -/
def Document.runOps (d : Document) : List SinkOp → Option Document
  | [] => some d
  | op :: ops => do
      let d ← d.applyOp op
      d.runOps ops

end Verif.Dom
