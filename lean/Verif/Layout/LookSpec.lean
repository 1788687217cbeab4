/- How CSS says the text of a document looks: the specification of C80. -/
import Verif.Layout.ShownSpec
import Verif.Layout.Paint
import Verif.Layout.Document
import Verif.Pdf.DocExpect
import Verif.Style.CascadeTheorems
import Verif.Dom.Spec
namespace Verif.Layout
open Verif.Dom Verif.Style Verif.Style.Spec

section
variable {σ : Type} (E : Engine σ)

/-- `ua` are the rules of the user agent and `author` those of the enabled style elements of the document: selectors with the
declarations of their blocks, in order of appearance. -/
structure Rules (d : Document) (F : Forest) (ua author : List (σ × List (Declaration × Bool))) : Prop where
  ua : ∃ sheets set, addStylesheets E.colors ⟨[]⟩ sheets = .ok set ∧ E.ua = set.finish E.specificity ∧
    Appearances E.colors sheets.flatten ua
  author : Appearances E.colors
    (((d.idsWith fun x => x.isStyle && x.styleEnabled).map fun i => textContent (d.dataOf (F i))).map E.rulesOf).flatten author

/-- What CSS says about the style of an element: the value of each property is that of the declaration that wins, or else inherited or
initial; `parent` is the style of its parent, if it has one. -/
def HasStyle (d : Document) (ua author : List (σ × List (Declaration × Bool))) (n : Nat) (parent : Option ComputedValues)
    (style : ComputedValues) : Prop :=
  ∃ node e attr v, d.nodes[n]? = some node ∧ node.data = .element e ∧ AttrContents E.colors E.tokenize e attr ∧ FixedUp v style ∧
    (∀ c, Winner E.specificity (fun s => E.isMatch s d n) ua author attr c →
      v c.declaration.longhand = valueOf v.fontSize (parentValues parent) c.declaration) ∧
    ∀ p, (∀ c, Applies E.specificity (fun s => E.isMatch s d n) ua author attr c → c.declaration.longhand ≠ p) →
      v p = unset (parentValues parent) p

/-- `Displayed … parent nodes text`: `text` are the characters in these nodes and below them, in document order, each with the style of
the element it is in, but without elements with `display: none`. `Q` holds of every other element: of the style of its parent and its
own. -/
inductive Displayed (d : Document) (F : Forest) (ua author : List (σ × List (Declaration × Bool)))
    (Q : ComputedValues → ComputedValues → Prop) : ComputedValues → List Nat → List (ComputedValues × Nat) → Prop
  | nil {parent} : Displayed d F ua author Q parent [] []
  | ignored {parent n ns text} {node : Node} : d.nodes[n]? = some node →
      (node.data = .document ∨ (∃ a b c, node.data = .doctype a b c) ∨ (∃ c, node.data = .comment c) ∨ ∃ a b, node.data = .pi a b) →
      Displayed d F ua author Q parent ns text → Displayed d F ua author Q parent (n :: ns) text
  | text {parent n ns contents text} {node : Node} : d.nodes[n]? = some node → node.data = .text contents →
      Displayed d F ua author Q parent ns text →
      Displayed d F ua author Q parent (n :: ns) ((contents.toList.map fun c => (parent, c.toNat)) ++ text)
  | none {parent n ns style text} : HasStyle E d ua author n (some parent) style → displayOf style = .none →
      Displayed d F ua author Q parent ns text → Displayed d F ua author Q parent (n :: ns) text
  | element {parent n ns style inner text} : HasStyle E d ua author n (some parent) style → displayOf style ≠ .none → Q parent style →
      Displayed d F ua author Q style (F n) inner → Displayed d F ua author Q parent ns text →
      Displayed d F ua author Q parent (n :: ns) (inner ++ text)

/-- The root element of the document, in its style, is displayed, and `text` is what is in it. -/
structure DocumentLooks (d : Document) (F : Forest) (ua author : List (σ × List (Declaration × Bool)))
    (Q : ComputedValues → ComputedValues → Prop) (rootStyle : ComputedValues) (text : List (ComputedValues × Nat)) : Prop where
  rules : Rules E d F ua author
  root : ∃ r pre post e, F documentNodeId = pre ++ r :: post ∧ (d.nodes[r]?).map Node.data = some (.element e) ∧
    (∀ x ∈ d.dataOf (pre ++ post), x.isMisc = true) ∧ HasStyle E d ua author r none rootStyle ∧ displayOf rootStyle ≠ .none ∧
    Displayed E d F ua author Q rootStyle (F r) text
end

/-- The font size and the colour of text in this style. -/
def look (style : ComputedValues) : Rat × RGBA := (style.values .fontSize, style.values .color)

/-- A glyph on a page, as a reader finds it. -/
structure SeenGlyph (R : Type) where
  glyph : Nat
  fontSize : Verif.Pdf.Val R
  textMatrix : List (Verif.Pdf.Val R)
  pageMatrix : List (List (Verif.Pdf.Val R))
  rgb : R × R × R
  alpha : R

/-- The glyphs that something painted shows: two bytes each. -/
def seenGlyphs {R : Type} : Verif.Pdf.Painted R → List (SeenGlyph R)
  | .fill _ _ _ _ => []
  | .show cm _ size matrix s rgb alpha => ((Verif.Pdf.decodeCodes s).getD []).map fun g => ⟨g, size, matrix, cm, rgb, alpha⟩

/-- The glyph is seen with this font size and colour: in user space one em is as long as the font size in px, upright, in the nearest
floats to the parts of the colour, of which 255 is the largest. -/
def SeenGlyph.Looks {R Er : Type} (P : Painter R Er) (s : SeenGlyph R) (l : Rat × RGBA) : Prop :=
  s.fontSize = .int 1 ∧ s.pageMatrix = [Verif.Pdf.pageMatrix P.floats] ∧
  (∃ x y, s.textMatrix = [.real (P.round l.1), .int 0, .int 0, .real (P.floats.neg (P.round l.1)), .real x, .real y]) ∧
  Verif.Pdf.ColorOk P.floats s.rgb s.alpha
    (some (P.round (l.2.red / 255), P.round (l.2.green / 255), P.round (l.2.blue / 255), P.round (l.2.alpha / 255)))

end Verif.Layout
