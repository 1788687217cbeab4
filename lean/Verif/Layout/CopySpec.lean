/- Copying text out of a PDF file: the specification of C77. -/
import Verif.Pdf.DocSpec
import Verif.Font.Theorems
namespace Verif.Layout
open Verif.Font

/-- What a reader may make of character codes with the (character, code) pairs of a ToUnicode map: for each code one of the characters
that the map has for it; nothing if the map has none. -/
inductive Decoded (pairs : List (Nat × Nat)) : List Nat → List Nat → Prop
  | nil : Decoded pairs [] []
  | char {g c codes text} : (c, g) ∈ pairs → Decoded pairs codes text → Decoded pairs (g :: codes) (c :: text)
  | unknown {g codes text} : (∀ c, (c, g) ∉ pairs) → Decoded pairs codes text → Decoded pairs (g :: codes) text

section
variable {R : Type} (readReal : List Verif.Pdf.Byte → Option R) (bytes : List Verif.Pdf.Byte) (fonts : List (List Verif.Pdf.Byte × Verif.Pdf.Val R))

/-- What a reader of the PDF file may copy of something painted on a page (PDF 9.10.2): of a string, its codes by the ToUnicode map of the
font that the resources of the page have under the name which is used. -/
def CopiedOne : Verif.Pdf.Painted R → List Nat → Prop
  | .fill _ _ _ _, text => text = []
  | .show _ name _ _ s _ _, text => ∃ id font m codes, Verif.Pdf.dictGet fonts name = some (.ref id 0) ∧
      (∀ fuel, m ≤ fuel → Verif.Pdf.readFont readReal fuel bytes id = some font) ∧ Verif.Pdf.decodeCodes s = some codes ∧
      Decoded font.toUnicode codes text

/-- What a reader of the PDF file may copy of a page, in the order of painting. -/
def Copied : List (Verif.Pdf.Painted R) → List Nat → Prop
  | [], text => text = []
  | p :: ps, text => ∃ a b, text = a ++ b ∧ CopiedOne readReal bytes fonts p a ∧ Copied ps b

end

/-- The character map of the font is well-formed, and its metrics are in the file. In a format 12 map, the glyph numbers fit 16 bits. -/
structure WellFormed (font : Font) : Prop where
  size : font.bytes.length < 4294967296
  map : (∃ h segs, font.Uses4 h ∧ Format4At font.bytes h segs ∧ Format4Ok font.bytes h segs) ∨
    (∃ h groups, font.Uses12 h ∧ Format12At font.bytes h groups ∧ Format12Ok groups ∧
      ∀ x ∈ groups, x.startGlyph + (x.endCode - x.startCode) ≤ 65535)
  metrics : 0 < font.horizontalMetrics.count ∧ font.horizontalMetrics.start + 4 * font.horizontalMetrics.count ≤ font.bytes.length

/-- The font has a glyph for the character: not the one for missing glyphs. -/
def HasGlyph (font : Font) (c : Nat) : Prop := ∃ g, g ≠ 0 ∧ font.glyphId c = .ok g

/-- The two characters look the same: the font has the same glyph for both. -/
def SameGlyph (font : Font) (c c' : Nat) : Prop :=
  isChar c = true ∧ isChar c' = true ∧ ∃ g, g ≠ 0 ∧ font.glyphId c = .ok g ∧ font.glyphId c' = .ok g

end Verif.Layout
