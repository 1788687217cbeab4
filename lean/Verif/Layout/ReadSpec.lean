/- A page that reads from top to bottom and from left to right: the specification of C88. -/
import Verif.Layout.PaintSpec
import Verif.Layout.SizeTheorems
import Verif.Layout.LookSpec
import Verif.Text.ShapedTheorems
namespace Verif.Layout
open Verif.Style Verif.Text

/-- Text on a page: its glyphs, its style, and its rectangle. -/
structure PageText where
  style : ComputedValues
  glyphs : List Nat
  left : Rat
  top : Rat
  width : Rat
  height : Rat

/-- A line of text on a page, between two heights. -/
structure PageLine where
  top : Rat
  bottom : Rat
  texts : List PageText

/-- The rectangle of the text is as wide as its glyphs are together, and 1.2 em high. -/
def PageText.SetIn {Err : Type} (F : FontApi Rat Err) (t : PageText) : Prop :=
  ∃ text width, IsShaped F text t.glyphs width ∧ t.width = fontSizeOf t.style * width ∧ t.height = fontSizeOf t.style * (12 / 10)

/-- All that is on the line is between its top and its bottom, and begins where what is before it on the line ends, or further to the
right. -/
structure PageLine.Reads {Err : Type} (F : FontApi Rat Err) (l : PageLine) : Prop where
  set : ∀ t ∈ l.texts, t.SetIn F
  tall : l.top ≤ l.bottom
  within : ∀ t ∈ l.texts, l.top ≤ t.top ∧ t.top + t.height ≤ l.bottom
  row : l.texts.Pairwise fun a b => a.left + a.width ≤ b.left

/-- The lines are below each other: each begins where those before it end, or further down. -/
def TopDown (lines : List PageLine) : Prop := lines.Pairwise fun a b => a.bottom ≤ b.top

/-- The text that a fragment is, with the point on the page from which its place is counted. -/
def placedText (p : Fragment × Vec2 Rat) : List PageText :=
  match p.1 with
  | .text style rect segment =>
    [⟨style, segment.glyphs, p.2.inline + rect.startCorner.inline, p.2.block + rect.startCorner.block, rect.size.inline, rect.size.block⟩]
  | _ => []

/-- A length that is not negative. -/
def NotNegative : LengthOrPercentage → Prop
  | .length l => 0 ≤ l
  | .percentage p => p = 0

/-- `auto`, or a length that is not negative. -/
def AutoOrNotNegative : LengthOrPercentageOrAuto → Prop
  | .length l => 0 ≤ l
  | .percentage p => p = 0
  | .auto => True

/-- Nothing in the style of an element makes it overlap with others: it is not positioned, it is as tall as its contents, and there
are no negative margins, borders, paddings or font sizes (and no percentages for the first three). -/
structure Upright (s : ComputedValues) : Prop where
  position : positionOf s = .static
  height : Css.heightProperty s = .auto
  fontSize : 0 ≤ fontSizeOf s
  marginTop : AutoOrNotNegative (s.values .marginTop)
  marginRight : AutoOrNotNegative (s.values .marginRight)
  marginBottom : AutoOrNotNegative (s.values .marginBottom)
  marginLeft : AutoOrNotNegative (s.values .marginLeft)
  paddingTop : NotNegative (s.values .paddingTop)
  paddingRight : NotNegative (s.values .paddingRight)
  paddingBottom : NotNegative (s.values .paddingBottom)
  paddingLeft : NotNegative (s.values .paddingLeft)
  borderTop : NotNegative (s.values .borderTopWidth)
  borderRight : NotNegative (s.values .borderRightWidth)
  borderBottom : NotNegative (s.values .borderBottomWidth)
  borderLeft : NotNegative (s.values .borderLeftWidth)

/-- An element in this style is in the flow of the text, and does not overlap with others; or it has no box, because of
`display: contents`. -/
def InTextFlow (s : ComputedValues) : Prop := (floatOf s = .none ∧ Upright s) ∨ (displayOf s = .contents ∧ 0 ≤ fontSizeOf s)

/-- Glyphs do not have negative widths, and are set one after the other. -/
structure Forward {Err : Type} (F : FontApi Rat Err) : Prop where
  zero : F.zero = 0
  add : ∀ a b, F.add a b = a + b
  width : ∀ g w, F.glyphWidth g = .ok w → 0 ≤ w

/-- The glyphs in these lines, with their styles, in reading order: line by line, and from left to right on each line. -/
def glyphsRead (lines : List PageLine) : List (ComputedValues × Nat) :=
  (lines.flatMap PageLine.texts).flatMap fun t => t.glyphs.map fun g => (t.style, g)

/-- What a reader of a PDF file shows is this text: its glyphs in its font size, upright, with the start of the baseline at the left of
its rectangle, below the top by the ascender of the font. -/
def PageText.SeenAs {R Er : Type} (P : Painter R Er) (t : PageText) : Verif.Pdf.Painted R → Prop
  | .fill _ _ _ _ => False
  | .show cm _ size matrix s _ _ =>
    cm = [Verif.Pdf.pageMatrix P.floats] ∧ size = .int 1 ∧ Verif.Pdf.decodeCodes s = some t.glyphs ∧
    matrix = [.real (P.round (fontSizeOf t.style)), .int 0, .int 0, .real (P.floats.neg (P.round (fontSizeOf t.style))),
      .real (P.round t.left), .real (P.round (t.top + P.ascender * fontSizeOf t.style))]

/-- Whether it is text. -/
def isText {R : Type} : Verif.Pdf.Painted R → Bool
  | .fill _ _ _ _ => false
  | .show _ _ _ _ _ _ _ => true

end Verif.Layout
