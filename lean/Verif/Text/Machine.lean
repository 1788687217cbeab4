/- Model of `victor/src/text_plain.rs` with the numbers of the machine, and with the document that is written. `Verif.Text.Plain` has the
same with exact numbers and without the document; `C114_exact` says that they agree. -/
import Verif.Text.Plain
import Verif.Pdf.Doc
namespace Verif.Text.Machine
open Verif.Pdf

/-- The numbers of the machine (`f32`) and what text_plain.rs does with them. Nothing is assumed of the operations: they may round, and
there may be infinities and numbers that are not comparable. -/
structure Arith (R : Type) where
  zero : R
  one : R
  two : R
  /-- 25.4 -/
  mmPerIn : R
  /-- 96 -/
  pxPerIn : R
  /-- `as f32` -/
  ofNat : Nat → R
  add : R → R → R
  sub : R → R → R
  mul : R → R → R
  div : R → R → R
  /-- `>` -/
  gt : R → R → Bool

/-- text_plain.rs 31-38, `Style`, with the ascender of its font (in em). -/
structure Style (R : Type) where
  pageWidth : R
  pageHeight : R
  pageMargin : R
  fontSize : R
  lineHeight : R
  ascender : R
  justify : Bool

section
variable {R Err : Type} (A : Arith R)

/-- text_plain.rs 24-26, `Px::per_mm`, with euclid's `Scale::inv`. -/
def pxPerMm : R := A.mul (A.div A.one A.mmPerIn) A.pxPerIn

/-- text_plain.rs 41: the size of pages. -/
def width (s : Style R) : R := A.mul s.pageWidth (pxPerMm A)
/-- text_plain.rs 41. -/
def height (s : Style R) : R := A.mul s.pageHeight (pxPerMm A)
/-- text_plain.rs 42, one of the equal margins. -/
def margin (s : Style R) : R := A.mul s.pageMargin (pxPerMm A)
/-- text_plain.rs 43-45, with euclid's `inner_rect`: the origin is zero. -/
def minX (s : Style R) : R := A.add A.zero (margin A s)
/-- text_plain.rs 46. -/
def minY (s : Style R) : R := A.add A.zero (margin A s)
/-- text_plain.rs 47, with euclid's `max_y`. -/
def maxY (s : Style R) : R := A.add (minY A s) (A.sub (height A s) (A.add (margin A s) (margin A s)))
/-- text_plain.rs 48. -/
def availableWidth (s : Style R) : R := A.sub (width A s) (A.add (margin A s) (margin A s))
/-- text_plain.rs 56. -/
def pxPerEm (s : Style R) : R := A.div s.fontSize A.one
/-- text_plain.rs 51 and 57. -/
def lineHeight (s : Style R) : R := A.mul (A.mul A.one s.lineHeight) (pxPerEm A s)
/-- text_plain.rs 52, 53 and 58. -/
def baselineY (s : Style R) : R :=
  A.mul (A.add (A.div (A.sub (A.mul A.one s.lineHeight) A.one) A.two) s.ascender) (pxPerEm A s)
/-- text_plain.rs 89 and 116. -/
def segmentWidth (s : Style R) (segment : ShapedSegment R) : R := A.mul segment.advanceWidth (pxPerEm A s)

/-- What the stream of segments gives: a shaped segment and whether a line must end after it, or a font error. -/
abbrev Item (R Err : Type) := Except Err (ShapedSegment R × Bool)

/-- How the loop that fills a line ends: text_plain.rs 86 (`break 'pages`, at the end of the stream), or with a line. -/
inductive Filled (R Err : Type) where
  | endOfDocument
  | line (segments : List (ShapedSegment R)) (totalWidth : R) (justify : Bool) (rest : Rewind (Item R Err))

/-- text_plain.rs 79-104, the inner loop. `fuel` bounds the number of rounds. -/
def fillLine (style : Style R) : Nat → Rewind (Item R Err) → List (ShapedSegment R) → R → Except (Stop Err) (Filled R Err)
  | 0, _, _, _ => .error .outOfFuel
  | fuel + 1, segments, lineSegments, totalWidth =>
    match segments.next with
    | (none, _) => .ok .endOfDocument
    | (some (.error e), _) => .error (.font e)
    | (some (.ok (segment, isHardBreak)), segments) =>
      if A.gt (A.add totalWidth (segmentWidth A style segment)) (availableWidth A style) && A.gt totalWidth A.zero then
        match segments.rewind (.ok (segment, isHardBreak)) with
        | none => .error .panic
        | some segments => .ok (.line lineSegments totalWidth style.justify segments)
      else if isHardBreak then
        .ok (.line (lineSegments ++ [segment]) (A.add totalWidth (segmentWidth A style segment)) false segments)
      else
        fillLine style fuel segments (lineSegments ++ [segment]) (A.add totalWidth (segmentWidth A style segment))

/-- text_plain.rs 106-111, `word_spacing`. `none` is the panic when 1 is subtracted from a length of 0. -/
def wordSpacing (style : Style R) (n : Nat) (totalWidth : R) (justify : Bool) : Option R :=
  if justify && A.gt (A.sub (availableWidth A style) totalWidth) A.zero then
    match n with
    | 0 => none
    | n + 1 => some (A.div (A.sub (availableWidth A style) totalWidth) (A.ofNat n))
  else some A.zero

variable (F : Floats R) (address : Nat) (font : FontView Err)

/-- text_plain.rs 114-122, the loop over the segments of a line. -/
def showLine (style : Style R) (baseline spacing : R) : R → List (ShapedSegment R) → Doc R × Page R → Except (Stop Err) (Doc R × Page R)
  | _, [], s => .ok s
  | x, segment :: rest, s =>
    match showText F s.1 s.2 address font segment.glyphs style.fontSize x baseline with
    | (_, _, .error e) => .error (.font e)
    | (doc, page, .ok ()) => showLine style baseline spacing (A.add x (A.add (segmentWidth A style segment) spacing)) rest (doc, page)

/-- text_plain.rs 78-130, the loop over the lines of a page: the document and the page, and, unless the text ended, what remains. -/
def showLines (style : Style R) :
    Nat → Rewind (Item R Err) → R → Doc R × Page R → Except (Stop Err) ((Doc R × Page R) × Option (Rewind (Item R Err)))
  | 0, _, _, _ => .error .outOfFuel
  | fuel + 1, segments, y, s =>
    match fillLine A style (fuel + 1) segments [] A.zero with
    | .error e => .error e
    | .ok .endOfDocument => .ok (s, none)
    | .ok (.line lineSegments totalWidth justify segments) =>
      match wordSpacing A style lineSegments.length totalWidth justify with
      | none => .error .panic
      | some spacing =>
        match showLine A F address font style (A.add y (baselineY A style)) spacing (minX A style) lineSegments s with
        | .error e => .error e
        | .ok s =>
          if A.gt (A.add y (lineHeight A style)) (maxY A style) then .ok (s, some segments)
          else showLines style fuel segments (A.add y (lineHeight A style)) s

/-- text_plain.rs 74-131, the loop over the pages. A page is dropped at the end of its round. -/
def showPages (style : Style R) : Nat → Rewind (Item R Err) → Doc R → Except (Stop Err) (Doc R)
  | 0, _, _ => .error .outOfFuel
  | fuel + 1, segments, doc =>
    match showLines A F address font style (fuel + 1) segments (minY A style) (doc, Page.new F (width A style) (height A style)) with
    | .error e => .error e
    | .ok (s, none) => .ok (dropPage F s.1 s.2)
    | .ok (s, some segments) => showPages style fuel segments (dropPage F s.1 s.2)

/-- text_plain.rs 63-72, the closure given to `map`, as `itemsFrom` in Verif/Text/Plain.lean. -/
def itemsFrom (api : FontApi R Err) (text : List Nat) : Nat → List (Nat × Bool) → List (Item R Err)
  | _, [] => []
  | previous, (position, isHardBreak) :: breaks =>
    (match ShapedSegment.naiveShape api (trimNewlines ((text.take position).drop previous)) with
      | .error e => .error e
      | .ok segment => .ok (segment, isHardBreak)) :: itemsFrom api text position breaks

/-- text_plain.rs 40-133, `layout`. -/
def layout (api : FontApi R Err) (style : Style R) (text : List Nat) (breaks : List (Nat × Bool)) : Except (Stop Err) (Doc R) :=
  showPages A F address font style (breaks.length + 1) (Rewind.new (itemsFrom api text 0 breaks)) Doc.new

end

end Verif.Text.Machine
