/- Which boxes the text of a document is in: the specification of C92. -/
import Verif.Layout.BoundSpec
import Verif.Layout.LookSpec
namespace Verif.Layout
open Verif.Dom Verif.Style Verif.Style.Spec Verif.Text

/-- One more box around these characters. -/
def boxedBy {A B : Type} (s : A) (text : List (List A × B)) : List (List A × B) := text.map fun t => (s :: t.1, t.2)

section
variable {σ : Type} (E : Engine σ)

/-- `Nested … parent nodes text`: `text` are the characters in these nodes and below them, in document order, each with the styles of
those among the elements below them that it is in, the outermost first. Elements with `display: none` are left out, and elements with
`display: contents` are looked through. `Q` holds of every other element: of the style of its parent and its own. -/
inductive Nested (d : Document) (F : Forest) (ua author : List (σ × List (Declaration × Bool)))
    (Q : ComputedValues → ComputedValues → Prop) : ComputedValues → List Nat → List (List ComputedValues × Nat) → Prop
  | nil {parent} : Nested d F ua author Q parent [] []
  | ignored {parent n ns text} {node : Node} : d.nodes[n]? = some node →
      (node.data = .document ∨ (∃ a b c, node.data = .doctype a b c) ∨ (∃ c, node.data = .comment c) ∨ ∃ a b, node.data = .pi a b) →
      Nested d F ua author Q parent ns text → Nested d F ua author Q parent (n :: ns) text
  | text {parent n ns contents text} {node : Node} : d.nodes[n]? = some node → node.data = .text contents →
      Nested d F ua author Q parent ns text →
      Nested d F ua author Q parent (n :: ns) ((contents.toList.map fun c => ([], c.toNat)) ++ text)
  | none {parent n ns style text} : HasStyle E d ua author n (some parent) style → displayOf style = .none →
      Nested d F ua author Q parent ns text → Nested d F ua author Q parent (n :: ns) text
  | contents {parent n ns style inner text} : HasStyle E d ua author n (some parent) style → displayOf style = .contents → Q parent style →
      Nested d F ua author Q style (F n) inner → Nested d F ua author Q parent ns text →
      Nested d F ua author Q parent (n :: ns) (inner ++ text)
  | box {parent n ns style inner text} : HasStyle E d ua author n (some parent) style →
      (∃ outside inside, displayOf style = .generatingBox outside inside) → Q parent style →
      Nested d F ua author Q style (F n) inner → Nested d F ua author Q parent ns text →
      Nested d F ua author Q parent (n :: ns) (boxedBy style inner ++ text)

/-- The root element of the document, in its style, is displayed, and `text` is what is in it, with the elements that it is in. -/
structure DocumentNests (d : Document) (F : Forest) (ua author : List (σ × List (Declaration × Bool)))
    (Q : ComputedValues → ComputedValues → Prop) (rootStyle : ComputedValues) (text : List (List ComputedValues × Nat)) : Prop where
  rules : Rules E d F ua author
  root : ∃ r pre post e inner, F documentNodeId = pre ++ r :: post ∧ (d.nodes[r]?).map Node.data = some (.element e) ∧
    (∀ x ∈ d.dataOf (pre ++ post), x.isMisc = true) ∧ HasStyle E d ua author r none rootStyle ∧ displayOf rootStyle ≠ .none ∧
    Nested E d F ua author Q rootStyle (F r) inner ∧ text = boxedBy rootStyle inner
end

/-- The elements that a character is in, and the boxes around it: one for each element, in the same order and with the same style, and perhaps an
anonymous one directly inside it. -/
inductive Around : List ComputedValues → List ComputedValues → Prop
  | nil : Around [] []
  | box {s elements boxes} : Around elements boxes → Around (s :: elements) (s :: boxes)
  | anonymous {s elements boxes} : Around elements boxes →
      Around (s :: elements) (s :: ComputedValues.anonymousInheritingFrom (some s) :: boxes)

/-- The glyphs of these characters in order, with the same labels; spaces may be left out (those at the end of a line). -/
inductive ShownBy {L Err : Type} (F : FontApi Rat Err) : List (L × Nat) → List (L × Nat) → Prop
  | nil : ShownBy F [] []
  | char {l c g text glyphs} : F.glyphId c = .ok g → ShownBy F text glyphs → ShownBy F ((l, c) :: text) ((l, g) :: glyphs)
  | space {l text glyphs} : ShownBy F text glyphs → ShownBy F ((l, 32) :: text) glyphs

/-- The characters that are not white space, with their labels. -/
def inkedBy {L : Type} (text : List (L × Nat)) : List (L × Nat) := text.filter fun c => !isAsciiWhitespace c.2

mutual
/-- The texts in it, at any depth, each with the boxes around it, the outermost first: their styles and their borders. -/
def PageItem.within : PageItem → List (List (ComputedValues × Extent) × PageText)
  | .text t => [([], t)]
  | .box style border _ items => boxedBy (style, border) (itemsWithin items)
  | .line items => itemsWithin items
/-- See `PageItem.within`. -/
def itemsWithin : List PageItem → List (List (ComputedValues × Extent) × PageText)
  | [] => []
  | i :: is => i.within ++ itemsWithin is
end

/-- The rectangle of a text. -/
def PageText.extent (t : PageText) : Extent := ⟨t.left, t.top, t.width, t.height⟩

/-- The glyphs of texts, each with the styles of the boxes around it. -/
def boxedGlyphs (texts : List (List (ComputedValues × Extent) × PageText)) : List (List ComputedValues × Nat) :=
  texts.flatMap fun t => t.2.glyphs.map fun g => (t.1.map Prod.fst, g)

end Verif.Layout
