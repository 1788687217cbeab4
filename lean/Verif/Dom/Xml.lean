import Verif.Dom.Style
/- Model of dom/xml.rs and the specification of what it must build. -/
namespace Verif.Dom

/-- xml-rs `OwnedName`. -/
structure XmlName where
  pre : Option String
  ns : Option String
  loc : String
deriving DecidableEq, Repr

/-- dom/xml.rs 61-67 `convert_name`. -/
def XmlName.convert (n : XmlName) : QualName := ⟨n.pre, n.ns.getD "", n.loc⟩

/-- xml-rs `XmlEvent`, as far as dom/xml.rs 10-55 looks at it. `text` stands for `CData`, `Characters` and
`Whitespace`; `other` for `StartDocument`, `EndDocument` and `Comment`. -/
inductive XmlEvent where
  | startElement (name : XmlName) (attrs : List (XmlName × String))
  | endElement
  | text (s : String)
  | pi (name : String) (data : Option String)
  | other
deriving DecidableEq, Repr

/-- dom/xml.rs 14-27: the element made from a start tag. -/
def xmlElement (name : XmlName) (attrs : List (XmlName × String)) : ElementData :=
  ⟨name.convert, attrs.map fun a => ⟨a.1.convert, a.2⟩, false⟩

namespace Document

/-- dom/xml.rs 33-46: character data. -/
def xmlText (d : Document) (current : Nat) (s : String) : Option Document := do
  let c ← d.get current
  let merged ← match c.lastChild with
    | some id => d.pushText id s
    | none => some none
  match merged with
  | some d => return d
  | none =>
      let (d, id) := d.newNode (.text s)
      d.append current id

/-- dom/xml.rs 9-56, the event loop. The outer `Option` is a panic (`ancestors.pop().unwrap()` on an empty
stack, or an index out of range); the inner `Except` is the `Result` of `parse_xml`. An event of the reader is
`ok` or an `error` (10). -/
def xmlLoop {ε : Type} : List (Except ε XmlEvent) → Document → (current : Nat) → (ancestors : List Nat) →
    Option (Except ε Document)
  | [], d, _, _ => some (.ok d)
  | .error e :: _, _, _, _ => some (.error e)
  | .ok (.startElement name attrs) :: rest, d, current, ancestors => do
      let (d, id) := d.newNode (.element (xmlElement name attrs))
      let d ← d.append current id
      xmlLoop rest d id (current :: ancestors)
  | .ok .endElement :: rest, d, _, ancestors =>
      match ancestors with
      | [] => none
      | a :: ancestors => xmlLoop rest d a ancestors
  | .ok (.text s) :: rest, d, current, ancestors => do
      let d ← d.xmlText current s
      xmlLoop rest d current ancestors
  | .ok (.pi name data) :: rest, d, current, ancestors => do
      let (d, id) := d.newNode (.pi name (data.getD ""))
      let d ← d.append current id
      xmlLoop rest d current ancestors
  | .ok .other :: rest, d, current, ancestors => xmlLoop rest d current ancestors

/-- dom/xml.rs 5-58 `parse_xml`, from the events of the reader on. -/
def parseXml {ε : Type} (events : List (Except ε XmlEvent)) : Option (Except ε Document) :=
  xmlLoop events Document.new documentNodeId []

end Document

/-! ### Specification -/

/-- The content of an XML document or element: a sequence of text, processing instructions, comments and
elements (each constructor is one item followed by the rest of the sequence). -/
inductive XmlContent where
  | nil
  | text (s : String) (rest : XmlContent)
  | pi (target : String) (data : Option String) (rest : XmlContent)
  | comment (rest : XmlContent)
  | element (name : XmlName) (attrs : List (XmlName × String)) (content rest : XmlContent)

/-- The events that describe some content. -/
def XmlContent.events : XmlContent → List XmlEvent
  | nil => []
  | text s r => .text s :: r.events
  | pi t x r => .pi t x :: r.events
  | comment r => .other :: r.events
  | element n a c r => .startElement n a :: c.events ++ .endElement :: r.events

/-- A sequence of DOM trees. -/
inductive Trees where
  | nil
  | text (s : String) (rest : Trees)
  | pi (target data : String) (rest : Trees)
  | element (e : ElementData) (children rest : Trees)

/-- A text in front of a sequence: merged into a leading text. -/
def Trees.textCons (s : String) : Trees → Trees
  | .text t r => .text (s ++ t) r
  | r => .text s r

/-- The DOM trees some content stands for: comments are dropped, and runs of character data that are then
adjacent are joined. -/
def XmlContent.trees : XmlContent → Trees
  | nil => .nil
  | text s r => r.trees.textCons s
  | pi t x r => .pi t (x.getD "") r.trees
  | comment r => r.trees
  | element n a c r => .element (xmlElement n a) c.trees r.trees

/-- The nodes `ids` of the document are, in order, the roots of the given trees. -/
def HasTrees (d : Document) (F : Forest) : List Nat → Trees → Prop
  | [], .nil => True
  | i :: is, .text s r => (d.nodes[i]?).map Node.data = some (.text s) ∧ F i = [] ∧ HasTrees d F is r
  | i :: is, .pi t x r => (d.nodes[i]?).map Node.data = some (.pi t x) ∧ F i = [] ∧ HasTrees d F is r
  | i :: is, .element e c r =>
      (d.nodes[i]?).map Node.data = some (.element e) ∧ HasTrees d F (F i) c ∧ HasTrees d F is r
  | _, _ => False

end Verif.Dom
