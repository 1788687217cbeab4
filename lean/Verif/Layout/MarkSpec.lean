/- What of a document can make a difference to its pages: the specification of C86. -/
import Verif.Layout.LookSpec
namespace Verif.Layout
open Verif.Dom Verif.Style Verif.Style.Spec

/-- The beginning of an element, in its style; the end of an element; a character. -/
inductive Mark where
  | start (style : ComputedValues)
  | stop
  | char (c : Nat)

section
variable {σ : Type} (E : Engine σ)

/-- `Marked … parent nodes marks`: `marks` is what a reader of the document sees of these nodes: the characters, and where elements
begin and end, each with the style that CSS gives it. Elements with `display: none` are left out with all that is in them, and so are
comments and processing instructions. Where one text node ends and the next begins is not seen. -/
inductive Marked (d : Document) (F : Forest) (ua author : List (σ × List (Declaration × Bool))) :
    ComputedValues → List Nat → List Mark → Prop
  | nil {parent} : Marked d F ua author parent [] []
  | ignored {parent n ns marks} {node : Node} : d.nodes[n]? = some node →
      (node.data = .document ∨ (∃ a b c, node.data = .doctype a b c) ∨ (∃ c, node.data = .comment c) ∨ ∃ a b, node.data = .pi a b) →
      Marked d F ua author parent ns marks → Marked d F ua author parent (n :: ns) marks
  | text {parent n ns contents marks} {node : Node} : d.nodes[n]? = some node → node.data = .text contents →
      Marked d F ua author parent ns marks →
      Marked d F ua author parent (n :: ns) ((contents.toList.map fun c => .char c.toNat) ++ marks)
  | none {parent n ns style marks} : HasStyle E d ua author n (some parent) style → displayOf style = .none →
      Marked d F ua author parent ns marks → Marked d F ua author parent (n :: ns) marks
  | element {parent n ns style inner marks} : HasStyle E d ua author n (some parent) style → displayOf style ≠ .none →
      Marked d F ua author style (F n) inner → Marked d F ua author parent ns marks →
      Marked d F ua author parent (n :: ns) (.start style :: inner ++ .stop :: marks)

/-- The root element of the document, in its style, is displayed, and `marks` is what is seen in it. -/
structure DocumentMarked (d : Document) (F : Forest) (ua author : List (σ × List (Declaration × Bool))) (rootStyle : ComputedValues)
    (marks : List Mark) : Prop where
  rules : Rules E d F ua author
  root : ∃ r pre post e, F documentNodeId = pre ++ r :: post ∧ (d.nodes[r]?).map Node.data = some (.element e) ∧
    (∀ x ∈ d.dataOf (pre ++ post), x.isMisc = true) ∧ HasStyle E d ua author r none rootStyle ∧ displayOf rootStyle ≠ .none ∧
    Marked E d F ua author rootStyle (F r) marks
end

/-- A space, a tab, the end of a line, a form feed. -/
def spaceCharacters : List Nat := [32, 9, 10, 12, 13]

/-- Each run of white space, as one space. -/
def squeezeMarks : List Mark → List Mark
  | [] => []
  | .start style :: ms => .start style :: squeezeMarks ms
  | .stop :: ms => .stop :: squeezeMarks ms
  | .char c :: ms =>
    if c ∈ spaceCharacters then
      match squeezeMarks ms with
      | .char 32 :: rest => .char 32 :: rest
      | rest => .char 32 :: rest
    else .char c :: squeezeMarks ms

end Verif.Layout
