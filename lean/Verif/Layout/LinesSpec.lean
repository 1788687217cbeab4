/- Specification for C120: the lines of a paragraph, with any arithmetic, and what single precision numbers are compared with. -/
import Verif.Layout.MachineSpec
import Verif.Layout.InlineSpec
import Verif.Font.Thousandths
import Verif.Layout.FontUse
namespace Verif.Layout.Machine
open Verif.Style Verif.Text Verif.Float

/-- A text broken into lines at spaces, which are dropped: every line is `ok`, and breaking a line before the `rest` of the text is
`needed`. The space at the end of the text may be dropped too, without a new line, as if the line were broken there. -/
inductive BrokenBy (ok : List Nat → Prop) (needed : List Nat → List Nat → Prop) : List Nat → List (List Nat) → Prop
  | whole {line} : ok line → BrokenBy ok needed line [line]
  | dropped {line} : ok line → needed line [] → BrokenBy ok needed (line ++ [32]) [line]
  | broken {line rest lines} : ok line → needed line rest → rest ≠ [] → BrokenBy ok needed rest lines →
      BrokenBy ok needed (line ++ 32 :: rest) (line :: lines)

variable {R Err : Type} [Numbers R]

/-- The text is wider than `available`, as the program sees it. -/
def Wide (F : FontApi R Err) (fontSize available : R) (text : List Nat) (wide : Bool) : Prop :=
  ∃ glyphs width, IsShaped F text glyphs width ∧ Numbers.gt (fontSize * width) available = wide

/-- The line boxes of these segments, which are all in this style: one below the other, each as wide as the containing block and as high as
a line of text, with its text at its start. -/
def lineBoxesOf (cb : ContainingBlock R) (style : ComputedValues) (height : R) : R → List (ShapedSegment R) → List (Fragment R)
  | _, [] => []
  | top, segment :: rest =>
    .anonymous ⟨⟨0, top⟩, ⟨cb.inlineSize, height⟩⟩
      [.text style ⟨⟨0 - 0, 0⟩, ⟨(Numbers.lengths style).fontSize * segment.advanceWidth, Numbers.lineHeight (Numbers.lengths style).fontSize⟩⟩ segment]
      cb.mode :: lineBoxesOf cb style height (top + height) rest

/-! ### Single precision -/

/-- A font with `unitsPerEm` units per em, whose glyphs have widths of `advance` units, which are 16-bit integers. Its widths are single
precision numbers, and are added as such. -/
structure EmFont (api : FontApi Single Err) (unitsPerEm : Nat) (advance : Nat → Nat) : Prop where
  zero : api.zero = .zero
  add : api.add = .add
  width : ∀ id w, api.glyphWidth id = .ok w → w = Verif.Font.toEms (advance id) unitsPerEm ∧ advance id < 65536

/-- The same font with exact fractions of an em. -/
def exactFont (api : FontApi Single Err) (unitsPerEm : Nat) (advance : Nat → Nat) : FontApi Rat Err where
  glyphId := api.glyphId
  glyphWidth id := (api.glyphWidth id).map fun _ => (advance id : Rat) / unitsPerEm
  zero := 0
  add := (· + ·)

/-- The width of a text in units. -/
def textUnits (api : FontApi Single Err) (advance : Nat → Nat) : List Nat → Nat
  | [] => 0
  | ch :: text => (match api.glyphId ch with | .ok id => advance id | .error _ => 0) + textUnits api advance text

/-- fonts/mod.rs 143-176, `Font::glyph_id` and `Font::glyph_width`, as text.rs 48-53 uses them, with single precision numbers. -/
def singleFont (font : Verif.Font.Font) : FontApi Single (Option Verif.Font.FontError) where
  glyphId c := failable (font.glyphId c)
  glyphWidth g := failable (font.glyphWidth Verif.Font.toEms g)
  zero := .zero
  add := .add

/-- The width of a glyph in the units of the font. -/
def advanceOf (font : Verif.Font.Font) (glyph : Nat) : Nat :=
  match font.glyphWidth (fun units _ => units) glyph with
  | .ok w => w.toNat
  | _ => 0

end Verif.Layout.Machine
