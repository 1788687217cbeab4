/- Model of `victor/src/text_plain.rs`: laying out plain text on pages. -/
import Mathlib.Algebra.Order.Field.Rat
import Verif.Text.Shaped
namespace Verif.Text

/-- Why a layout may not give a document: a font error, a failed assertion, or (never, by the theorems) the model's loop
bound being reached. -/
inductive Stop (Err : Type) where
  | font (e : Err)
  | panic
  | outOfFuel
deriving DecidableEq, Repr

/-- text_plain.rs 135-141, `Rewind`: an iterator (here, the list of what it will give) and a one item buffer. -/
structure Rewind (α : Type) where
  inner : List α
  buffer : Option α

/-- text_plain.rs 147-152, `Rewind::new`. -/
def Rewind.new {α : Type} (inner : List α) : Rewind α := ⟨inner, none⟩

/-- text_plain.rs 154-157, `rewind`: `none` is the failure of the assertion. -/
def Rewind.rewind {α : Type} (r : Rewind α) (item : α) : Option (Rewind α) :=
  match r.buffer with
  | none => some ⟨r.inner, some item⟩
  | some _ => none

/-- text_plain.rs 166-168, `next`. -/
def Rewind.next {α : Type} (r : Rewind α) : Option α × Rewind α :=
  match r.buffer with
  | some a => (some a, ⟨r.inner, none⟩)
  | none =>
    match r.inner with
    | [] => (none, r)
    | a :: rest => (some a, ⟨rest, none⟩)

/-- text_plain.rs 31-38, `Style`, with the ascender of its font (in em). Lengths are exact rationals: the rounding of
`f32` is not modelled, and there are no infinities or NaN. -/
structure Style where
  pageWidthMm : Rat
  pageHeightMm : Rat
  pageMarginMm : Rat
  fontSize : Rat
  lineHeightEm : Rat
  ascenderEm : Rat
  justify : Bool

/-- text_plain.rs 24-27, `Px::per_mm`: 96 px per inch, 25.4 mm per inch. -/
def pxPerMm : Rat := 96 / (254 / 10)

/-- text_plain.rs 41-48, `min_x` and `min_y`: the left (and top) edge of the page without its margins. -/
def Style.minX (s : Style) : Rat := s.pageMarginMm * pxPerMm
/-- text_plain.rs 46. -/
def Style.minY (s : Style) : Rat := s.pageMarginMm * pxPerMm
/-- text_plain.rs 47, `content_area.max_y_typed()`: euclid's `inner_rect` takes both margins from the size. -/
def Style.maxY (s : Style) : Rat := s.minY + (s.pageHeightMm * pxPerMm - (s.pageMarginMm * pxPerMm + s.pageMarginMm * pxPerMm))
/-- text_plain.rs 48. -/
def Style.availableWidth (s : Style) : Rat := s.pageWidthMm * pxPerMm - (s.pageMarginMm * pxPerMm + s.pageMarginMm * pxPerMm)
/-- text_plain.rs 51, 57: the height of a line. -/
def Style.lineHeight (s : Style) : Rat := s.lineHeightEm * s.fontSize
/-- text_plain.rs 52-53, 58: the position of the baseline below the top of its line. -/
def Style.baselineY (s : Style) : Rat := ((s.lineHeightEm - 1) / 2 + s.ascenderEm) * s.fontSize
/-- text_plain.rs 89, `segment.advance_width * px_per_em`. -/
def Style.width (s : Style) (segment : ShapedSegment Rat) : Rat := segment.advanceWidth * s.fontSize

/-- primitives.rs 20-24, `TextRun` (the font size is that of the style for each). -/
structure Run where
  segment : ShapedSegment Rat
  x : Rat
  y : Rat

/-- What the stream of segments gives: a shaped segment and whether a line must end after it, or a font error. -/
abbrev Item (Err : Type) := Except Err (ShapedSegment Rat × Bool)

/-- How the loop that fills a line ends: text_plain.rs 86 (`break 'pages`, at the end of the stream), or with a line. -/
inductive Filled (Err : Type) where
  | endOfDocument
  | line (segments : List (ShapedSegment Rat)) (totalWidth : Rat) (justify : Bool) (rest : Rewind (Item Err))

variable {Err : Type}

/-- text_plain.rs 79-104, the inner loop. `fuel` bounds the number of rounds. -/
def fillLine (style : Style) : Nat → Rewind (Item Err) → List (ShapedSegment Rat) → Rat → Except (Stop Err) (Filled Err)
  | 0, _, _, _ => .error .outOfFuel
  | fuel + 1, segments, lineSegments, totalWidth =>
    match segments.next with
    | (none, _) => .ok .endOfDocument
    | (some (.error e), _) => .error (.font e)
    | (some (.ok (segment, isHardBreak)), segments) =>
      if totalWidth + style.width segment > style.availableWidth ∧ totalWidth > 0 then
        match segments.rewind (.ok (segment, isHardBreak)) with
        | none => .error .panic
        | some segments => .ok (.line lineSegments totalWidth style.justify segments)
      else if isHardBreak then
        .ok (.line (lineSegments ++ [segment]) (totalWidth + style.width segment) false segments)
      else
        fillLine style fuel segments (lineSegments ++ [segment]) (totalWidth + style.width segment)

/-- text_plain.rs 106-111, `word_spacing`. With a single segment `f32` division by zero gives an infinity (here zero), which
is not used: it is added to `x` after the only run. -/
def wordSpacing (style : Style) (n : Nat) (totalWidth : Rat) (justify : Bool) : Rat :=
  if justify = true ∧ style.availableWidth - totalWidth > 0 then
    (style.availableWidth - totalWidth) / ((n - 1 : Nat) : Rat)
  else 0

/-- text_plain.rs 112-122, the loop over the segments of a line: the runs that `show_text` is called with. Errors of
`show_text` are not modelled (it fails only for a font without a usable glyph for a width, modelled in `Verif.Pdf.Doc`). -/
def placeRuns (style : Style) (baseline spacing : Rat) : Rat → List (ShapedSegment Rat) → List Run
  | _, [] => []
  | x, segment :: rest =>
    ⟨segment, x, baseline⟩ :: placeRuns style baseline spacing (x + (style.width segment + spacing)) rest

/-- text_plain.rs 78-130, the loop over the lines of a page: its lines and, unless the document ended, what remains. -/
def placeLines (style : Style) : Nat → Rewind (Item Err) → Rat → Except (Stop Err) (List (List Run) × Option (Rewind (Item Err)))
  | 0, _, _ => .error .outOfFuel
  | fuel + 1, segments, y =>
    match fillLine style (fuel + 1) segments [] 0 with
    | .error e => .error e
    | .ok .endOfDocument => .ok ([], none)
    | .ok (.line lineSegments totalWidth justify segments) =>
      if y + style.lineHeight > style.maxY then
        .ok ([placeRuns style (y + style.baselineY) (wordSpacing style lineSegments.length totalWidth justify) style.minX lineSegments],
          some segments)
      else
        match placeLines style fuel segments (y + style.lineHeight) with
        | .error e => .error e
        | .ok (lines, rest) =>
          .ok (placeRuns style (y + style.baselineY) (wordSpacing style lineSegments.length totalWidth justify) style.minX
            lineSegments :: lines, rest)

/-- text_plain.rs 74-131, the loop over the pages. A page is the list of its lines; a line is the list of its runs. -/
def placePages (style : Style) : Nat → Rewind (Item Err) → Except (Stop Err) (List (List (List Run)))
  | 0, _ => .error .outOfFuel
  | fuel + 1, segments =>
    match placeLines style (fuel + 1) segments style.minY with
    | .error e => .error e
    | .ok (lines, none) => .ok [lines]
    | .ok (lines, some segments) =>
      match placePages style fuel segments with
      | .error e => .error e
      | .ok pages => .ok (lines :: pages)

/-- text_plain.rs 68, `trim_end_matches('\n')`. -/
def trimNewlines (text : List Nat) : List Nat := (text.reverse.dropWhile (· == 10)).reverse

/-- text_plain.rs 63-72, the closure given to `map`: the items for the breaks from `previous`. The break positions
themselves are those of `xi_unicode::LineBreakIterator`, a parameter here; positions count characters rather than bytes.
Slicing at a position out of order or out of bounds would panic; the theorems assume that positions are in order and in
bounds. -/
def itemsFrom (F : FontApi Rat Err) (text : List Nat) : Nat → List (Nat × Bool) → List (Item Err)
  | _, [] => []
  | previous, (position, isHardBreak) :: breaks =>
    (match ShapedSegment.naiveShape F (trimNewlines ((text.take position).drop previous)) with
      | .error e => .error e
      | .ok segment => .ok (segment, isHardBreak)) :: itemsFrom F text position breaks

/-- text_plain.rs 40-133, `layout`: the pages of the document. -/
def layout (F : FontApi Rat Err) (style : Style) (text : List Nat) (breaks : List (Nat × Bool)) :
    Except (Stop Err) (List (List (List Run))) :=
  placePages style (breaks.length + 1) (Rewind.new (itemsFrom F text 0 breaks))

end Verif.Text
