/- From what is painted on a page of a PDF file to the pixels of its image: the specification of C95. It says what ISO 32000-1 says about
coordinates, how poppler draws a page, and what scaling means in cairo; none of it is code of the repository. -/
import Verif.Pdf.DocExpect
import Verif.Lester.Surface
namespace Verif.Lester
open Verif.Pdf

section
variable {R : Type} (value : R → Rat)

/-- The number that an operand stands for; `value` is that of a real. -/
def number : Val R → Option Rat
  | .int i => some i
  | .real r => some (value r)
  | _ => none

/-- 8.3.3: a transformation. -/
structure Matrix where
  a : Rat
  b : Rat
  c : Rat
  d : Rat
  e : Rat
  f : Rat

/-- 8.3.4: what it does with a point. -/
def Matrix.apply (m : Matrix) (p : Rat × Rat) : Rat × Rat := (m.a * p.1 + m.c * p.2 + m.e, m.b * p.1 + m.d * p.2 + m.f)

/-- The matrix of six operands. -/
def matrixOf : List (Val R) → Option Matrix
  | [a, b, c, d, e, f] => do return ⟨← number value a, ← number value b, ← number value c, ← number value d, ← number value e, ← number value f⟩
  | _ => none

/-- 8.3.4: matrices that were concatenated one after the other by `cm`. The last one is applied first. -/
def applyAll : List (List (Val R)) → Rat × Rat → Option (Rat × Rat)
  | [], p => some p
  | m :: ms, p => do return (← matrixOf value m).apply (← applyAll ms p)

/-- A rectangle with sides that are parallel to the axes. -/
structure Box where
  left : Rat
  bottom : Rat
  right : Rat
  top : Rat

/-- 7.9.5: a rectangle is given by two diagonally opposite corners, in any order. -/
def boxOf : List (Val R) → Option Box
  | [x, y, x', y'] => do
    let x ← number value x
    let y ← number value y
    let x' ← number value x'
    let y' ← number value y'
    return ⟨min x x', min y y', max x x', max y y'⟩
  | _ => none

/-- The size of the page in points: what `poppler_page_get_size` says. -/
def Box.size (box : Box) : Rat × Rat := (box.right - box.left, box.top - box.bottom)

/-- Where poppler draws a point of the page: cairo's axis points downwards, and the top left corner of the page is at the origin. -/
def Box.drawn (box : Box) (p : Rat × Rat) : Rat × Rat := (p.1 - box.left, box.top - p.2)

/-- The scale that is in force when the page is drawn. -/
def scaleAt : Rat × Rat → List RenderStep → Option (Rat × Rat)
  | _, [] => none
  | s, .page _ :: _ => some s
  | s, .scale (.fin x) (.fin y) :: steps => scaleAt (s.1 * x, s.2 * y) steps
  | _, .scale _ _ :: _ => none
  | s, _ :: steps => scaleAt s steps

/-- The point of the image at which a point of user space is drawn: the matrices `cm` of the contents, the media box of the page and the
steps of rendering it. -/
def imagePoint (box : Box) (steps : List RenderStep) (cm : List (List (Val R))) (p : Rat × Rat) : Option (Rat × Rat) := do
  let s ← scaleAt (1, 1) steps
  let p ← applyAll value cm p
  return (s.1 * (box.drawn p).1, s.2 * (box.drawn p).2)

/-- What is painted covers this point of the image. For a path: it is in one of its rectangles. For text: it is the point `(u, v)` of the
line of text, with the font size as the unit (9.4.4; `u` to the right and `v` up from the beginning of the baseline), for a given set of
such points, those of the outlines of the glyphs. -/
def Covers (box : Box) (steps : List RenderStep) (outline : Rat × Rat → Prop) (q : Rat × Rat) : Painted R → Prop
  | .fill cm path _ _ => ∃ r ∈ path, ∃ u v : Rat, 0 ≤ u ∧ u ≤ 1 ∧ 0 ≤ v ∧ v ≤ 1 ∧
      imagePoint value box steps cm (value r.1 + u * value r.2.2.1, value r.2.1 + v * value r.2.2.2) = some q
  | .show cm _ size matrix _ _ _ => ∃ u v s m, outline (u, v) ∧ number value size = some s ∧ matrixOf value matrix = some m ∧
      imagePoint value box steps cm (m.apply (s * u, s * v)) = some q

/-- What the caller asked for covers this point, in CSS `px` from the top left corner of the page. Text stands upright on its baseline. -/
def Asked (outline : Rat × Rat → Prop) (q : Rat × Rat) : Expected R → Prop
  | .rect x y w h _ => ∃ u v : Rat, 0 ≤ u ∧ u ≤ 1 ∧ 0 ≤ v ∧ v ≤ 1 ∧ q = (value x + u * value w, value y + v * value h)
  | .text _ _ size x y _ => ∃ u v, outline (u, v) ∧ q = (value x + value size * u, value y - value size * v)

/-- The constants and the sign of the floats have their values: three quarters of a point is a `px`. -/
structure TrueScale (F : Floats R) : Prop where
  scaleX : value F.scaleX = 3 / 4
  scaleY : value F.scaleY = -(3 / 4)
  neg : ∀ r, value (F.neg r) = -value r

end
end Verif.Lester
