/- The styled tree that a document denotes: the specification of C64, and of C42 for documents. -/
import Verif.Layout.ConstructSpec
import Verif.Dom.Spec
namespace Verif.Layout
open Verif.Dom Verif.Style

/-- The node has a next sibling. -/
def HasNext (d : Document) (id : Nat) : Prop := ∃ node sibling, d.nodes[id]? = some node ∧ node.nextSibling = some sibling

/-- `StyledTree d F style parent nodes trees hidden`: `trees` are the trees below `nodes` of the document `d` whose children are given
by `F`, each element with the style that `style` gives for it and the style of its parent, without what is below elements with
`display: none`; those are listed in `hidden`. -/
inductive StyledTree (d : Document) (F : Forest) (style : Nat → ComputedValues → Option ComputedValues) :
    ComputedValues → List Nat → List StyledNode → List Nat → Prop
  | nil {ps} : StyledTree d F style ps [] [] []
  | ignored {ps n ns node trees hidden} : d.nodes[n]? = some node →
      (node.data = .document ∨ (∃ a b c, node.data = .doctype a b c) ∨ (∃ c, node.data = .comment c) ∨ ∃ a b, node.data = .pi a b) →
      StyledTree d F style ps ns trees hidden → StyledTree d F style ps (n :: ns) (.ignored :: trees) hidden
  | text {ps n ns node contents trees hidden} : d.nodes[n]? = some node → node.data = .text contents →
      StyledTree d F style ps ns trees hidden →
      StyledTree d F style ps (n :: ns) (.text (contents.toList.map Char.toNat) :: trees) hidden
  | none {ps n ns node e s trees hidden} : d.nodes[n]? = some node → node.data = .element e → style n ps = some s →
      displayOf s = .none → StyledTree d F style ps ns trees hidden →
      StyledTree d F style ps (n :: ns) (.element s [] :: trees) (n :: hidden)
  | element {ps n ns node e s below belowHidden trees hidden} : d.nodes[n]? = some node → node.data = .element e →
      style n ps = some s → displayOf s ≠ .none → StyledTree d F style s (F n) below belowHidden →
      StyledTree d F style ps ns trees hidden →
      StyledTree d F style ps (n :: ns) (.element s below :: trees) (belowHidden ++ hidden)

end Verif.Layout
