/- What a tree of fragments looks like: the specification of C46. -/
import Verif.Layout.Fragment
namespace Verif.Layout
open Verif.Style Verif.Text

/-- The place of a fragment in its containing block: that of its content area. -/
def Fragment.offset : Fragment → Vec2 Rat
  | .box info _ => info.contentRect.startCorner
  | .anonymous rect _ _ => rect.startCorner
  | .text _ contentRect _ => contentRect.startCorner

/-- The fragments in it. -/
def Fragment.children : Fragment → List Fragment
  | .box _ children => children
  | .anonymous _ children _ => children
  | .text _ _ _ => []

/-- `Placed origin fragments placed`: `placed` are the fragments and all those in them, each before those in it, with the point on the
page from which its place is counted: `origin` plus the places of all the fragments around it. -/
inductive Placed : Vec2 Rat → List Fragment → List (Fragment × Vec2 Rat) → Prop
  | nil {origin} : Placed origin [] []
  | cons {origin f fs below rest} : Placed (origin.add f.offset) f.children below → Placed origin fs rest →
      Placed origin (f :: fs) ((f, origin) :: below ++ rest)

/-- Something on a page: a rectangle with its corner and size, or glyphs with the font size and the point at the start of the baseline,
in a colour. -/
inductive Shape where
  | rect (corner size : Vec2 Rat) (color : RGBA)
  | glyphs (ids : List Nat) (fontSize : Rat) (baseline : Vec2 Rat) (color : RGBA)
deriving DecidableEq

/-- The background colour of a style. -/
def backgroundOf (style : ComputedValues) : RGBA :=
  match (style.values .backgroundColor : Color) with
  | .rgba c => c
  | .currentColor => style.values .color

/-- What one fragment adds to the page, not counting those in it: a box its background, which covers the content, the padding and the
border, unless it is transparent; text its glyphs, on a baseline that is below its top by the ascender. -/
def Fragment.shape (ascender : Rat) (f : Fragment) (origin : Vec2 Rat) : List Shape :=
  match f with
  | .box info _ =>
    let color := backgroundOf info.style
    if color.alpha = 0 then []
    else [.rect ⟨origin.inline + info.contentRect.startCorner.inline - info.padding.inlineStart - info.border.inlineStart,
                 origin.block + info.contentRect.startCorner.block - info.padding.blockStart - info.border.blockStart⟩
                ⟨info.border.inlineStart + info.padding.inlineStart + info.contentRect.size.inline + info.padding.inlineEnd +
                    info.border.inlineEnd,
                 info.border.blockStart + info.padding.blockStart + info.contentRect.size.block + info.padding.blockEnd +
                    info.border.blockEnd⟩ color]
  | .anonymous _ _ _ => []
  | .text style rect segment =>
    [.glyphs segment.glyphs (fontSizeOf style)
      ⟨origin.inline + rect.startCorner.inline, origin.block + rect.startCorner.block + ascender * fontSizeOf style⟩
      (style.values .color)]

mutual
/-- All fragments are in the only writing mode that is implemented. -/
def Fragment.Horizontal : Fragment → Prop
  | .box _ children => allHorizontal children
  | .anonymous _ children mode => mode = (.horizontalTb, .ltr) ∧ allHorizontal children
  | .text _ _ _ => True
/-- See `Fragment.Horizontal`. -/
def allHorizontal : List Fragment → Prop
  | [] => True
  | f :: fs => f.Horizontal ∧ allHorizontal fs
end

end Verif.Layout
