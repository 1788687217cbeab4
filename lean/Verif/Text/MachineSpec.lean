/- Specification for C114: what a plain text layout should be, with the numbers of the machine. -/
import Verif.Text.Machine
import Verif.Text.PlainSpec
namespace Verif.Text.Machine
open Verif.Pdf

section
variable {R : Type} (A : Arith R)

/-- A segment of text and whether a line must end after it. -/
abbrev Piece (R : Type) := ShapedSegment R × Bool

/-- The width of consecutive segments, as the machine adds them from the first on. -/
def lineWidth (style : Style R) (pieces : List (Piece R)) : R :=
  pieces.foldl (fun total p => A.add total (segmentWidth A style p.1)) A.zero

/-- `line` is a greedy choice of the segments of a line, when `rest` are the segments after it. -/
structure GoodLine (style : Style R) (line rest : List (Piece R)) : Prop where
  nonempty : line ≠ []
  /-- A line goes on after a segment only if no break is required there. -/
  hard : ∀ p ∈ line.dropLast, p.2 = false
  /-- A segment is added to a line that already has some width only if it fits. -/
  fits : ∀ a p b, line = a ++ p :: b → A.gt (lineWidth A style a) A.zero = true →
    A.gt (lineWidth A style (a ++ [p])) (availableWidth A style) = false
  /-- A line ends only at a required break or when the next segment does not fit. -/
  ended : (∃ p, line.getLast? = some p ∧ p.2 = true) ∨
    ∃ p rest', rest = p :: rest' ∧ A.gt (lineWidth A style line) A.zero = true ∧
      A.gt (lineWidth A style (line ++ [p])) (availableWidth A style) = true

/-- `pieces` cut greedily into `lines`, with `pending` left over after the last line. -/
inductive Lines (style : Style R) (pending : List (Piece R)) : List (Piece R) → List (List (Piece R)) → Prop
  | nil : Lines style pending pending []
  | cons {line rest lines} : GoodLine A style line rest → Lines style pending rest lines →
      Lines style pending (line ++ rest) (line :: lines)

/-- The space added between the segments of a line: none unless the style asks for justified text, the line does not end
at a required break, and some space is left. -/
def spacing (style : Style R) (line : List (Piece R)) : R :=
  if style.justify && line.getLast?.all (fun p => !p.2) && A.gt (A.sub (availableWidth A style) (lineWidth A style line)) A.zero then
    A.div (A.sub (availableWidth A style) (lineWidth A style line)) (A.ofNat (line.length - 1))
  else A.zero

/-- The calls that show a line from `x` on: each segment is shown where the one before it ends, after the space between segments. -/
def lineCalls (address : Nat) (style : Style R) (baseline gap : R) : R → List (Piece R) → List (PageOp R)
  | _, [] => []
  | x, p :: rest => .text address p.1.glyphs style.fontSize x baseline ::
      lineCalls address style baseline gap (A.add x (A.add (segmentWidth A style p.1) gap)) rest

/-- The top of the `j`-th line of a page. -/
def top (style : Style R) : Nat → R
  | 0 => minY A style
  | j + 1 => A.add (top style j) (lineHeight A style)

/-- A page: its size, and the lines from the left margin on. -/
def pageCalls (address : Nat) (style : Style R) (page : List (List (Piece R))) : PageCalls R :=
  ⟨width A style, height A style, (page.mapIdx fun j line =>
    lineCalls A address style (A.add (top A style j) (baselineY A style)) (spacing A style line) (minX A style) line).flatten⟩

/-- How many lines each page has: one always fits; another is added only if its top is not below the bottom margin; a new
page is started only if the next line would be below it. -/
structure GoodPages (style : Style R) (pages : List (List (List (Piece R)))) : Prop where
  nonempty : pages ≠ []
  tops : ∀ page ∈ pages, ∀ j, 0 < j → j < page.length → A.gt (top A style j) (maxY A style) = false
  full : ∀ page ∈ pages.dropLast, page ≠ [] ∧ A.gt (top A style page.length) (maxY A style) = true
  last : ∀ page ∈ pages.getLast?, page ≠ [] → A.gt (top A style page.length) (maxY A style) = false

/-- The glyphs that are shown by calls, in order. -/
def shownGlyphs : List (PageOp R) → List (List Nat)
  | [] => []
  | .text _ glyphs _ _ _ :: ops => glyphs :: shownGlyphs ops
  | _ :: ops => shownGlyphs ops

/-- Exact numbers. -/
def exact : Arith Rat where
  zero := 0
  one := 1
  two := 2
  mmPerIn := 254 / 10
  pxPerIn := 96
  ofNat n := n
  add := (· + ·)
  sub := (· - ·)
  mul := (· * ·)
  div := (· / ·)
  gt a b := decide (a > b)

/-- A style of Verif/Text/Plain.lean. -/
def ofExact (s : Verif.Text.Style) : Style Rat :=
  ⟨s.pageWidthMm, s.pageHeightMm, s.pageMarginMm, s.fontSize, s.lineHeightEm, s.ascenderEm, s.justify⟩

end

end Verif.Text.Machine
