/- Model of `victor/src/paint.rs` with any arithmetic: see Machine.lean. Nothing is rounded here that the code does not round. -/
import Verif.Layout.Machine
import Verif.Layout.Paint
namespace Verif.Layout.Machine
open Verif.Style Verif.Text

/-- What painting uses besides fragments: floats, and the font. All text is in the one font of layout/flow/inline.rs 298. -/
structure Painter (R E : Type) where
  floats : Verif.Pdf.Floats R
  /-- the `f32` for a literal of the code, and for a component of a colour (primitives.rs 24-28) -/
  round : Rat → R
  fontAddress : Nat
  fontView : Verif.Pdf.FontView E
  /-- fonts/mod.rs `ascender`, in em -/
  ascender : R

variable {R E : Type} [Numbers R] (P : Painter R E)

/-- paint.rs 57 and 74, `page.set_color(&color.into())`, with primitives.rs 24-28. -/
def paintColor (s : Painting R) (c : RGBA) : Painting R :=
  Verif.Pdf.setColor P.floats s.1 s.2 (P.round (c.red / 255)) (P.round (c.green / 255)) (P.round (c.blue / 255)) (P.round (c.alpha / 255))

/-- paint.rs 80 with geom.rs 323-330. -/
def paintRect (s : Painting R) (r : PRect R) : Painting R :=
  (s.1, Verif.Pdf.paintRectangle P.floats s.2 r.topLeft.x r.topLeft.y r.size.x r.size.y)

/-- paint.rs 58-63: `none` when `unwrap` panics. -/
def paintText (s : Painting R) (text : ShapedSegment R) (fontSize : R) (origin : PVec2 R) : Option (Painting R) :=
  match Verif.Pdf.showText P.floats s.1 s.2 P.fontAddress P.fontView text.glyphs fontSize origin.x origin.y with
  | (doc, page, .ok ()) => some (doc, page)
  | (_, _, .error _) => none

/-- paint.rs 72-82: the background of a box. -/
def paintBackground (s : Painting R) (info : BoxInfo R) (containingBlock : PRect R) : Option (Painting R) :=
  let backgroundColor := toRgba info.style (info.style.values .backgroundColor)
  if backgroundColor.alpha > 0 then
    let s := paintColor P s backgroundColor
    match info.borderRect.toPhysical (writingMode info.style) with
    | none => none
    | some rect => some (paintRect P s (rect.moved containingBlock.topLeft))
  else some s

mutual
/-- paint.rs 37-89, `Fragment::paint_onto` and `BoxFragment::paint_onto`; `none` when it panics. -/
def paintFragment (containingBlock : PRect R) (s : Painting R) : Fragment R → Option (Painting R)
  | .box info children =>
    match paintBackground P s info containingBlock with
    | none => none
    | some s =>
      match info.contentRect.toPhysical (writingMode info.style) with
      | none => none
      | some rect => paintFragments (rect.moved containingBlock.topLeft) s children
  | .anonymous rect children mode =>
    match rect.toPhysical mode with
    | none => none
    | some rect => paintFragments (rect.moved containingBlock.topLeft) s children
  | .text parentStyle contentRect text =>
    match contentRect.toPhysical (writingMode parentStyle) with
    | none => none
    | some rect =>
      let origin := (rect.moved containingBlock.topLeft).topLeft
      let fontSize := (Numbers.lengths (R := R) parentStyle).fontSize
      let ascender := fontSize * P.ascender
      let origin := { origin with y := origin.y + ascender }
      let s := paintColor P s (parentStyle.values .color)
      paintText P s text fontSize origin
/-- paint.rs 27-29, 45-47 and 86-88: the loops over children. -/
def paintFragments (containingBlock : PRect R) (s : Painting R) : List (Fragment R) → Option (Painting R)
  | [] => some s
  | f :: fs =>
    match paintFragment containingBlock s f with
    | none => none
    | some s => paintFragments containingBlock s fs
end

/-- paint.rs 11-31: the document with the fragments painted onto its only page. -/
def paintDocument (fragments : List (Fragment R)) : Option (Verif.Pdf.Doc R) :=
  match paintFragments P ⟨⟨0, 0⟩, ⟨P.round 600, P.round 800⟩⟩
      (Verif.Pdf.Doc.new, Verif.Pdf.Page.new P.floats (P.round 600) (P.round 800)) fragments with
  | none => none
  | some (doc, page) => some (Verif.Pdf.dropPage P.floats doc page)

/-- layout/flow/root.rs 4-9, `Document::layout`. -/
def layoutDocument {σ Err : Type} (engine : Engine σ) (font : FontApi R Err) (d : Verif.Dom.Document) (fuel : Nat) (schedule : Oracle)
    (viewport : Vec2 R) : Option (List (Fragment R)) :=
  match constructDocument engine d fuel with
  | none => none
  | some root => layoutRoot font fuel schedule root viewport

/-- paint.rs 8-33, `to_pdf_bytes`. -/
def toPdfBytes {σ Err : Type} (engine : Engine σ) (font : FontApi R Err) (d : Verif.Dom.Document) (fuel : Nat) (schedule : Oracle) :
    Option (List Verif.Pdf.Byte) :=
  match layoutDocument engine font d fuel schedule ⟨P.round 600, P.round 800⟩ with
  | none => none
  | some fragments =>
    match paintDocument P fragments with
    | none => none
    | some doc => some (doc.write P.floats)

end Verif.Layout.Machine
