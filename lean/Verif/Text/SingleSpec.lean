/- Specification for C116: what the order of a plain text on a page should be, with single precision numbers. -/
import Verif.Text.MachineSpec
import Verif.Text.ShapedTheorems
import Verif.Float.Single
namespace Verif.Text.Machine
open Verif.Pdf Verif.Float

/-- The arithmetic of `f32`. -/
def single : Arith Single where
  zero := .zero
  one := .one
  two := .round 2
  mmPerIn := .round (254 / 10)
  pxPerIn := .round 96
  ofNat := .ofNat
  add := .add
  sub := .sub
  mul := .mul
  div := .div
  gt := Single.gt

/-- A usual style: the font size is positive and finite, line height, ascender and margins are not negative. -/
structure Usual (style : Style Single) : Prop where
  fontSize_pos : Single.gt style.fontSize .zero = true
  fontSize_finite : Single.gt (.infinity false) style.fontSize = true
  lineHeight : Single.ge style.lineHeight .zero = true
  ascender : Single.ge style.ascender .zero = true
  margin : Single.ge style.pageMargin .zero = true

/-- A font whose lengths are added as `f32`, and where no glyph has a negative width. -/
structure UsualFont {Err : Type} (api : FontApi Single Err) : Prop where
  zero : api.zero = .zero
  add : api.add = .add
  width : ∀ id w, api.glyphWidth id = .ok w → Single.ge w .zero = true

/-- The width of glyphs in em: the sum of their widths, from the first on. -/
def GlyphsWidth {Err : Type} (api : FontApi Single Err) (glyphs : List Nat) (w : Single) : Prop :=
  ∃ ws, List.Forall₂ (fun id w => api.glyphWidth id = .ok w) glyphs ws ∧ w = ws.foldl .add .zero

/-- A text is shown after another: on the same line, not before its end; or not above it, at the left margin. -/
def Follows {Err : Type} (api : FontApi Single Err) (style : Style Single) : PageOp Single → PageOp Single → Prop
  | .text _ glyphs size x y, .text _ _ _ x' y' =>
    (y' = y ∧ ∃ w, GlyphsWidth api glyphs w ∧ Single.ge x' (.add x (.mul w size)) = true) ∨
    (x' = minX single style ∧ Single.ge y' y = true)
  | _, _ => False

/-- A place on the page: both coordinates are numbers, and it is not left of the margin nor above the first baseline. -/
def InPage (style : Style Single) : PageOp Single → Prop
  | .text _ _ _ x y => Single.ge x (minX single style) = true ∧ Single.ge y (.add (minY single style) (baselineY single style)) = true
  | _ => False

end Verif.Text.Machine
