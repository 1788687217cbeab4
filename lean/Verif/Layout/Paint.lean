/- Model of `victor/src/paint.rs`: fragments are painted onto the page of a PDF document.

Simplification: positions are computed exactly and rounded (`Painter.round`) when they are given to the page; the code rounds after each
operation on `f32`. -/
import Verif.Layout.Document
import Verif.Pdf.Doc
namespace Verif.Layout
open Verif.Style Verif.Text

/-- What painting uses besides fragments: floats, and the font. All text is in the one font of layout/flow/inline.rs 298. -/
structure Painter (R E : Type) where
  floats : Verif.Pdf.Floats R
  /-- the `f32` nearest to a number -/
  round : Rat → R
  fontAddress : Nat
  fontView : Verif.Pdf.FontView E
  /-- fonts/mod.rs `ascender`, in em -/
  ascender : Rat

/-- The document and its page that is being painted. -/
abbrev Painting (R : Type) := Verif.Pdf.Doc R × Verif.Pdf.Page R

variable {R E : Type} (P : Painter R E)

/-- paint.rs 57 and 74, `page.set_color(&color.into())`, with primitives.rs 24-28. -/
def paintColor (s : Painting R) (c : RGBA) : Painting R :=
  Verif.Pdf.setColor P.floats s.1 s.2 (P.round (c.red / 255)) (P.round (c.green / 255)) (P.round (c.blue / 255)) (P.round (c.alpha / 255))

/-- paint.rs 80 with geom.rs 323-330. -/
def paintRect (s : Painting R) (r : PRect Rat) : Painting R :=
  (s.1, Verif.Pdf.paintRectangle P.floats s.2 (P.round r.topLeft.x) (P.round r.topLeft.y) (P.round r.size.x) (P.round r.size.y))

/-- paint.rs 58-63: `none` when `unwrap` panics. -/
def paintText (s : Painting R) (text : ShapedSegment Rat) (fontSize : Rat) (origin : PVec2 Rat) : Option (Painting R) :=
  match Verif.Pdf.showText P.floats s.1 s.2 P.fontAddress P.fontView text.glyphs (P.round fontSize) (P.round origin.x) (P.round origin.y) with
  | (doc, page, .ok ()) => some (doc, page)
  | (_, _, .error _) => none

/-- paint.rs 72-82: the background of a box. -/
def paintBackground (s : Painting R) (info : BoxInfo) (containingBlock : PRect Rat) : Option (Painting R) :=
  let backgroundColor := toRgba info.style (info.style.values .backgroundColor)
  if backgroundColor.alpha > 0 then
    let s := paintColor P s backgroundColor
    match info.borderRect.toPhysical (writingMode info.style) with
    | none => none
    | some rect => some (paintRect P s (rect.translate containingBlock.topLeft))
  else some s

mutual
/-- paint.rs 37-89, `Fragment::paint_onto` and `BoxFragment::paint_onto`; `none` when it panics. -/
def paintFragment (containingBlock : PRect Rat) (s : Painting R) : Fragment → Option (Painting R)
  | .box info children =>
    match paintBackground P s info containingBlock with
    | none => none
    | some s =>
      match info.contentRect.toPhysical (writingMode info.style) with
      | none => none
      | some rect => paintFragments (rect.translate containingBlock.topLeft) s children
  | .anonymous rect children mode =>
    match rect.toPhysical mode with
    | none => none
    | some rect => paintFragments (rect.translate containingBlock.topLeft) s children
  | .text parentStyle contentRect text =>
    match contentRect.toPhysical (writingMode parentStyle) with
    | none => none
    | some rect =>
      let origin := (rect.translate containingBlock.topLeft).topLeft
      let ascender := fontSizeOf parentStyle * P.ascender
      let origin := { origin with y := origin.y + ascender }
      let s := paintColor P s (parentStyle.values .color)
      paintText P s text (fontSizeOf parentStyle) origin
/-- paint.rs 27-29, 45-47 and 86-88: the loops over children. -/
def paintFragments (containingBlock : PRect Rat) (s : Painting R) : List Fragment → Option (Painting R)
  | [] => some s
  | f :: fs =>
    match paintFragment containingBlock s f with
    | none => none
    | some s => paintFragments containingBlock s fs
end

/-- paint.rs 11-31: the document with the fragments painted onto its only page. -/
def paintDocument (fragments : List Fragment) : Option (Verif.Pdf.Doc R) :=
  match paintFragments P ⟨⟨0, 0⟩, ⟨600, 800⟩⟩
      (Verif.Pdf.Doc.new, Verif.Pdf.Page.new P.floats (P.round 600) (P.round 800)) fragments with
  | none => none
  | some (doc, page) => some (Verif.Pdf.dropPage P.floats doc page)

/-- paint.rs 8-33, `to_pdf_bytes`. -/
def toPdfBytes {σ Err : Type} (engine : Engine σ) (font : FontApi Rat Err) (d : Verif.Dom.Document) (fuel : Nat) (schedule : Oracle) :
    Option (List Verif.Pdf.Byte) :=
  match layoutDocument engine font d fuel schedule ⟨600, 800⟩ with
  | none => none
  | some fragments =>
    match paintDocument P fragments with
    | none => none
    | some doc => some (doc.write P.floats)

end Verif.Layout
