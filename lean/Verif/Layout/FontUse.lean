/- A font that was parsed from a file, as layout and the PDF writer use it. -/
import Verif.Font.Cmap
import Verif.Text.Shaped
import Verif.Pdf.Doc
namespace Verif.Layout
open Verif.Font

/-- A result of which errors and panics are both failures: `none` is a panic, or undefined behaviour. -/
def failable {α : Type} : Res α → Except (Option FontError) α
  | .ok a => .ok a
  | .err e => .error (some e)
  | .panic => .error none
  | .ub => .error none

/-- fonts/mod.rs 143-176, `Font::glyph_id` and `Font::glyph_width`, as text.rs 48-53 uses them. `ems` divides a length by the number of
units per em. -/
def fontApi (ems : Int → Nat → Rat) (font : Font) : Verif.Text.FontApi Rat (Option FontError) where
  glyphId c := failable (font.glyphId c)
  glyphWidth g := failable (font.glyphWidth ems g)
  zero := 0
  add := (· + ·)

/-- fonts/mod.rs 126-196, the getters of `Font` as pdf/convert.rs 274-364 uses them. `units` is pdf/object.rs 100-109 after `to_ems`: the
length in thousandths of an em. `utf8` is the PostScript name as a Rust string. Simplification: the calls that `each_code_point` makes
before it fails are left out, because nothing is written of them (convert.rs 339). -/
def fontView (units : Int → Nat → Int) (utf8 : NameText → List Byte) (font : Font) : Verif.Pdf.FontView (Option FontError) where
  bytes := font.bytes
  postscriptName := utf8 font.postscriptName
  minX := units font.minX font.unitsPerEm
  minY := units font.minY font.unitsPerEm
  maxX := units font.maxX font.unitsPerEm
  maxY := units font.maxY font.unitsPerEm
  ascender := units font.ascender font.unitsPerEm
  descender := units font.descender font.unitsPerEm
  codePoints := match failable font.eachCodePoint with
    | .ok calls => calls
    | .error _ => []
  codePointsError := match failable font.eachCodePoint with
    | .ok _ => none
    | .error e => some e
  glyphCount := font.glyphCount
  glyphWidth i := failable (font.glyphWidth units i)

end Verif.Layout
