/- Documents in which the author leaves it to the user agent how elements are displayed: the specification of C79. -/
import Verif.Layout.Document
import Verif.Style.UserAgentTheorems
import Verif.Dom.XmlTheorems
namespace Verif.Layout
open Verif.Dom Verif.Style Verif.Style.Spec

/-- The engine has the style sheet of the user agent, with the selectors `embed`. (That the crate `selectors` matches them as `UaSelector`
says is an assumption.) -/
structure HasUserAgent {σ : Type} (E : Engine σ) (embed : UaSelector → σ) : Prop where
  rules : ∃ set, addStylesheets E.colors ⟨[]⟩ [userAgentSheet embed] = .ok set ∧ E.ua = set.finish E.specificity
  specificity : ∀ t, E.specificity (embed t) = t.specificity
  isMatch : ∀ t (d : Document) n node e, d.nodes[n]? = some node → node.data = .element e → E.isMatch (embed t) d n = t.matches e

/-- The style sheets and `style` attributes of the document are read without panicking (C30), and set none of `display`, `position`
and `float` on any element. -/
def AuthorLeavesDisplay {σ : Type} (E : Engine σ) (d : Document) : Prop :=
  ∃ texts set author, d.stylesheetTexts d.nodes.length d.styleElements = some texts ∧
    addStylesheets E.colors ⟨[]⟩ (texts.map E.rulesOf) = .ok set ∧ Appearances E.colors (texts.map E.rulesOf).flatten author ∧
    ∀ (n : Nat) (node : Node) e, d.nodes[n]? = some node → node.data = .element e →
      (∃ block, styleAttrBlock E.colors E.tokenize e = .ok block) ∧
      ∃ attr, AttrContents E.colors E.tokenize e attr ∧
        ∀ p, p = .display ∨ p = .position ∨ p = .float → ¬ AuthorSets (fun s => E.isMatch s d n) author attr p

/-- `Plain d F inInline nodes text`: `text` are the characters that are displayed by default of the nodes of the document, whose children
are given by `F`. Elements that are not displayed are not last children, and inside an inline element (`inInline`) there is no block. -/
inductive Plain (d : Document) (F : Forest) : Bool → List Nat → List Nat → Prop
  | nil {b} : Plain d F b [] []
  | ignored {b n ns text} {node : Node} : d.nodes[n]? = some node →
      (node.data = .document ∨ (∃ a b c, node.data = .doctype a b c) ∨ (∃ c, node.data = .comment c) ∨ ∃ a b, node.data = .pi a b) →
      Plain d F b ns text → Plain d F b (n :: ns) text
  | text {b n ns contents text} {node : Node} : d.nodes[n]? = some node → node.data = .text contents → Plain d F b ns text →
      Plain d F b (n :: ns) (contents.toList.map Char.toNat ++ text)
  | hidden {b n ns e text} {node : Node} : d.nodes[n]? = some node → node.data = .element e → DefaultDisplay e .none → ns ≠ [] →
      Plain d F b ns text → Plain d F b (n :: ns) text
  | inline {b n ns e inner text} {node : Node} : d.nodes[n]? = some node → node.data = .element e →
      DefaultDisplay e (.generatingBox .inline .flow) → Plain d F true (F n) inner → Plain d F b ns text →
      Plain d F b (n :: ns) (inner ++ text)
  | block {n ns e inner text} {node : Node} : d.nodes[n]? = some node → node.data = .element e →
      DefaultDisplay e (.generatingBox .block .flow) → Plain d F false (F n) inner → Plain d F false ns text →
      Plain d F false (n :: ns) (inner ++ text)

/-- The content of an XML document is more than comments: a node comes after what is before it. -/
def Comes : XmlContent → Prop
  | .nil => False
  | .text _ _ => True
  | .pi _ _ _ => True
  | .comment rest => Comes rest
  | .element _ _ _ _ => True

/-- The content of an XML document is without text and elements. -/
def Misc : XmlContent → Prop
  | .nil => True
  | .text _ _ => False
  | .pi _ _ rest => Misc rest
  | .comment rest => Misc rest
  | .element _ _ _ _ => False

/-- An XML document with the root element `name attrs` around `content`; around it there are only comments and processing instructions. -/
inductive XmlRoot (name : XmlName) (attrs : List (XmlName × String)) (content : XmlContent) : XmlContent → Prop
  | root {rest} : Misc rest → XmlRoot name attrs content (.element name attrs content rest)
  | pi {target data rest} : XmlRoot name attrs content rest → XmlRoot name attrs content (.pi target data rest)
  | comment {rest} : XmlRoot name attrs content rest → XmlRoot name attrs content (.comment rest)

/-- `XmlText inInline content text`: `text` are the characters that are displayed by default of the content of an XML document. Elements
that are not displayed do not come last, and inside an inline element (`inInline`) there is no block. -/
inductive XmlText : Bool → XmlContent → List Nat → Prop
  | nil {b} : XmlText b .nil []
  | text {b s rest text} : XmlText b rest text → XmlText b (.text s rest) (s.toList.map Char.toNat ++ text)
  | pi {b target data rest text} : XmlText b rest text → XmlText b (.pi target data rest) text
  | comment {b rest text} : XmlText b rest text → XmlText b (.comment rest) text
  | hidden {b name attrs content rest text} : DefaultDisplay (xmlElement name attrs) .none → Comes rest → XmlText b rest text →
      XmlText b (.element name attrs content rest) text
  | inline {b name attrs content rest inner text} : DefaultDisplay (xmlElement name attrs) (.generatingBox .inline .flow) →
      XmlText true content inner → XmlText b rest text → XmlText b (.element name attrs content rest) (inner ++ text)
  | block {name attrs content rest inner text} : DefaultDisplay (xmlElement name attrs) (.generatingBox .block .flow) →
      XmlText false content inner → XmlText false rest text → XmlText false (.element name attrs content rest) (inner ++ text)

/-- No element in the content has an attribute `style` without a name space. -/
def NoStyleAttrs : XmlContent → Prop
  | .nil => True
  | .text _ rest => NoStyleAttrs rest
  | .pi _ _ rest => NoStyleAttrs rest
  | .comment rest => NoStyleAttrs rest
  | .element _ attrs content rest => (∀ a ∈ attrs, a.1.ns.getD "" = "" → a.1.loc ≠ "style") ∧ NoStyleAttrs content ∧ NoStyleAttrs rest

end Verif.Layout
