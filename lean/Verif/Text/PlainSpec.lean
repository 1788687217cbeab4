/- Specification for C27, C52 and C53: what a plain text layout should be. -/
import Verif.Text.Plain
import Mathlib.Algebra.BigOperators.Group.List.Basic
namespace Verif.Text

/-- A segment of text and whether a line must end after it. -/
abbrev Piece := ShapedSegment Rat × Bool

/-- The width of consecutive segments. -/
def pieceWidth (style : Style) (pieces : List Piece) : Rat := (pieces.map fun p => style.width p.1).sum

/-- `line` is a greedy choice of the segments of a line, when `rest` are the segments after it. -/
structure GoodLine (style : Style) (line rest : List Piece) : Prop where
  nonempty : line ≠ []
  /-- A line goes on after a segment only if no break is required there. -/
  hard : ∀ p ∈ line.dropLast, p.2 = false
  /-- A segment is added to a line that already has some width only if it fits. -/
  fits : ∀ a p b, line = a ++ p :: b → 0 < pieceWidth style a → pieceWidth style (a ++ [p]) ≤ style.availableWidth
  /-- A line ends only at a required break or when the next segment does not fit. -/
  ended : (∃ p, line.getLast? = some p ∧ p.2 = true) ∨
    ∃ p rest', rest = p :: rest' ∧ 0 < pieceWidth style line ∧ style.availableWidth < pieceWidth style (line ++ [p])

/-- `pieces` cut greedily into `lines`, with `pending` left over after the last line. -/
inductive Lines (style : Style) (pending : List Piece) : List Piece → List (List Piece) → Prop
  | nil : Lines style pending pending []
  | cons {line rest lines} : GoodLine style line rest → Lines style pending rest lines →
      Lines style pending (line ++ rest) (line :: lines)

/-- The space added between the segments of a line: none unless the style asks for justified text, the line does not end
at a required break, and the line is not already full. -/
def spacing (style : Style) (line : List Piece) : Rat :=
  if style.justify = true ∧ (∀ p ∈ line.getLast?, p.2 = false) ∧ pieceWidth style line < style.availableWidth then
    (style.availableWidth - pieceWidth style line) / ((line.length - 1 : Nat) : Rat)
  else 0

/-- The runs of the line that is `j`-th on its page (from zero): from the left margin, each starts where the previous ends
plus the spacing; all are on the same baseline, at a distance from the top margin that grows by the line height. -/
def placedLine (style : Style) (j : Nat) (line : List Piece) : List Run :=
  line.mapIdx fun i p => ⟨p.1, style.minX + pieceWidth style (line.take i) + i * spacing style line,
    style.minY + j * style.lineHeight + style.baselineY⟩

/-- The lines of a page. -/
def placedPage (style : Style) (page : List (List Piece)) : List (List Run) := page.mapIdx (placedLine style)

/-- How many lines each page has: one always fits; another is added only if its top is not below the bottom margin; a new
page is started only if the next line would be below it. -/
structure GoodPages (style : Style) (pages : List (List (List Piece))) : Prop where
  nonempty : pages ≠ []
  tops : ∀ page ∈ pages, ∀ j, 0 < j → j < page.length → style.minY + j * style.lineHeight ≤ style.maxY
  full : ∀ page ∈ pages.dropLast, page ≠ [] ∧ style.maxY < style.minY + page.length * style.lineHeight
  last : ∀ page ∈ pages.getLast?, page ≠ [] → style.minY + page.length * style.lineHeight ≤ style.maxY

/-- The breaks of a text: positions in order, the last at the end of the text and required. (`xi_unicode` always reports a
required break at the end: rule LB3 of the Unicode line breaking algorithm.) -/
structure IsBreaks (text : List Nat) (breaks : List (Nat × Bool)) : Prop where
  sorted : (breaks.map (·.1)).Pairwise (· ≤ ·)
  last : breaks.getLast? = some (text.length, true)

/-- `parts` are the texts between the breaks, without the newlines that end them: the text is the parts in order, each
followed by some newlines, and the breaks are after these. -/
inductive Cuts : List Nat → Nat → List (Nat × Bool) → List (List Nat × Bool) → Prop
  | nil {position} : Cuts [] position [] []
  | cons {part newlines rest position hard breaks parts} : part.getLast? ≠ some 10 →
      Cuts rest (position + part.length + newlines) breaks parts →
      Cuts (part ++ List.replicate newlines 10 ++ rest) position ((position + part.length + newlines, hard) :: breaks)
        ((part, hard) :: parts)

end Verif.Text
