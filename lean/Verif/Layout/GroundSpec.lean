/- Which elements have boxes on the page, and in which colours: the specification of C85. -/
import Verif.Layout.LookSpec
namespace Verif.Layout
open Verif.Dom Verif.Style Verif.Style.Spec

section
variable {σ : Type} (E : Engine σ)

/-- `Boxed … parent nodes styles`: `styles` are those of the elements among these nodes and below them that have boxes, in document
order: those with `display: none` have none, nor has anything in them, and those with `display: contents` have none of their own. -/
inductive Boxed (d : Document) (F : Forest) (ua author : List (σ × List (Declaration × Bool))) :
    ComputedValues → List Nat → List ComputedValues → Prop
  | nil {parent} : Boxed d F ua author parent [] []
  | other {parent n ns styles} {node : Node} : d.nodes[n]? = some node → (∀ e, node.data ≠ .element e) →
      Boxed d F ua author parent ns styles → Boxed d F ua author parent (n :: ns) styles
  | none {parent n ns style styles} : HasStyle E d ua author n (some parent) style → displayOf style = .none →
      Boxed d F ua author parent ns styles → Boxed d F ua author parent (n :: ns) styles
  | contents {parent n ns style inner styles} : HasStyle E d ua author n (some parent) style → displayOf style = .contents →
      Boxed d F ua author style (F n) inner → Boxed d F ua author parent ns styles → Boxed d F ua author parent (n :: ns) (inner ++ styles)
  | box {parent n ns style inner styles} : HasStyle E d ua author n (some parent) style → displayOf style ≠ .none →
      displayOf style ≠ .contents → Boxed d F ua author style (F n) inner → Boxed d F ua author parent ns styles →
      Boxed d F ua author parent (n :: ns) (style :: inner ++ styles)

/-- The root element of the document, in its style, is displayed, and `styles` are those of the elements in it that have boxes. -/
structure DocumentBoxed (d : Document) (F : Forest) (ua author : List (σ × List (Declaration × Bool))) (rootStyle : ComputedValues)
    (styles : List ComputedValues) : Prop where
  rules : Rules E d F ua author
  root : ∃ r pre post e, F documentNodeId = pre ++ r :: post ∧ (d.nodes[r]?).map Node.data = some (.element e) ∧
    (∀ x ∈ d.dataOf (pre ++ post), x.isMisc = true) ∧ HasStyle E d ua author r none rootStyle ∧ displayOf rootStyle ≠ .none ∧
    Boxed E d F ua author rootStyle (F r) styles
end

/-- The element has a background that is not transparent. -/
def hasBackground (style : ComputedValues) : Bool := (backgroundOf style).alpha != 0

/-- The element is in a line, where it can be broken into several pieces. -/
def isInline (style : ComputedValues) : Bool :=
  match displayOf style with
  | .generatingBox .inline _ => true
  | _ => false

/-- A rectangle on a page, as a reader finds it. -/
structure SeenRect (R : Type) where
  corner : R × R
  size : R × R
  pageMatrix : List (List (Verif.Pdf.Val R))
  rgb : R × R × R
  alpha : R

/-- The rectangles that something painted fills. -/
def seenRects {R : Type} : Verif.Pdf.Painted R → List (SeenRect R)
  | .fill cm path rgb alpha => path.map fun r => ⟨(r.1, r.2.1), (r.2.2.1, r.2.2.2), cm, rgb, alpha⟩
  | .show _ _ _ _ _ _ _ => []

/-- The rectangle is seen in this colour: in the nearest floats to the parts of the colour, of which 255 is the largest. -/
def SeenRect.Fills {R Er : Type} (P : Painter R Er) (s : SeenRect R) (color : RGBA) : Prop :=
  s.pageMatrix = [Verif.Pdf.pageMatrix P.floats] ∧
  Verif.Pdf.ColorOk P.floats s.rgb s.alpha
    (some (P.round (color.red / 255), P.round (color.green / 255), P.round (color.blue / 255), P.round (color.alpha / 255)))

end Verif.Layout
