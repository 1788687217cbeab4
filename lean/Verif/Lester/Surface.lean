/- Model of the number conversions of lester (convert.rs), of image surfaces (cairo.rs) and of rendering a page (poppler.rs).

Integers are `Int` and `Nat`; that they are in the range of their type is said where it matters. -/
namespace Verif.Lester

/-- `i32::max_value()`. -/
def i32Max : Int := 2147483647
/-- `i32::min_value()`. -/
def i32Min : Int := -2147483648

/-- A value of type `f64`. -/
inductive F64 where
  | nan
  | inf (negative : Bool)
  | fin (q : Rat)
deriving DecidableEq

/-- Rust's `as i32` for a number in range: towards zero. -/
def truncate (q : Rat) : Int := if 0 ≤ q then q.floor else q.ceil

/-- convert.rs 77-96 for `f64` and `i32`. Both comparisons are false for NaN, and `NaN as i32` is 0. -/
def f64ToI32 : F64 → Option Int
  | .nan => some 0
  | .inf _ => none
  | .fin q => if q < i32Min ∨ q > i32Max then none else some (truncate q)

/-- convert.rs 58-75 for `usize` and `i32`. -/
def usizeToI32 (n : Nat) : Option Int := if (n : Int) > i32Max then none else some n

/-- convert.rs 40-56 for `i32` and `usize`. -/
def i32ToUsize (n : Int) : Option Nat := if n ≥ 0 then some n.toNat else none

/-- `x as usize` with a `usize` of so many bits. -/
def asUsize (bits : Nat) (n : Nat) : Nat := n % 2 ^ bits

/-- convert.rs 26-38 for `u32` and `usize`, which has 32 or 64 bits: convert.rs 4. -/
def u32ToUsize (bits : Nat) (n : Nat) : Option Nat := some (asUsize bits n)

/-- `f64::ceil`. -/
def F64.ceil : F64 → F64
  | .fin q => .fin q.ceil
  | x => x

/-- `a * b` in `i32`: with overflow checks it panics, without it wraps. -/
def mulI32 (checks : Bool) (a b : Int) : Option Int :=
  if i32Min ≤ a * b ∧ a * b ≤ i32Max then some (a * b) else if checks then none else some (Int.bmod (a * b) 4294967296)

/-- `CAIRO_FORMAT_ARGB32`. -/
def formatArgb32 : Nat := 0
/-- `CAIRO_FORMAT_RGB24`. -/
def formatRgb24 : Nat := 1

/-- A surface as cairo's functions describe it. -/
structure Surface where
  format : Nat
  width : Int
  height : Int
  stride : Int
  data : Nat
  status : Nat

/-- Width and height of `Argb32Pixels`, and the length of its buffer. -/
structure Pixels where
  width : Nat
  height : Nat
  length : Nat
deriving DecidableEq

/-- cairo.rs 91-127, `pixels`; `none` is a panic. -/
def Surface.pixels (checks : Bool) (s : Surface) : Option Pixels :=
  if ¬(s.format = formatRgb24 ∨ s.format = formatArgb32) then none
  else
    match mulI32 checks s.width 4 with
    | none => none
    | some bytes =>
      if s.stride ≠ bytes then none
      else if s.data % 4 ≠ 0 then none
      else
        match i32ToUsize s.width, i32ToUsize s.height, (mulI32 checks s.width s.height).bind i32ToUsize with
        | some w, some h, some n => some ⟨w, h, n⟩
        | _, _, _ => none

/-- The outcome of an operation that may panic or return an error of cairo. -/
inductive Made (α : Type) where
  | panicked
  | error (status : Nat)
  | ok (a : α)

/-- cairo.rs 63-74, `new_c_int`; `create` is `cairo_image_surface_create`. -/
def newCInt (create : Nat → Int → Int → Surface) (format : Nat) (width height : Int) : Made Surface :=
  let s := create format width height
  if s.status = 0 then .ok s else .error s.status

/-- cairo.rs 55-61, `new`. -/
def newSurface (create : Nat → Int → Int → Surface) (format width height : Nat) : Made Surface :=
  match usizeToI32 width, usizeToI32 height with
  | some w, some h => newCInt create format w h
  | _, _ => .panicked

/-- What `render_with_options` does with a new surface. -/
inductive RenderStep where
  | setSourceRgb (r g b : Rat)
  | paint
  | scale (x y : F64)
  | page (forPrinting : Bool)
deriving DecidableEq

/-- poppler.rs 233-262, `RenderOptions`; `white` for `Backdrop::White`. -/
structure RenderOptions where
  dppxX : F64
  dppxY : F64
  white : Bool
  forPrinting : Bool

/-- The arithmetic of `f64`: the product, and poppler.rs 220, `PX_PER_PT`. -/
structure F64Arith where
  mul : F64 → F64 → F64
  pxPerPt : F64

/-- poppler.rs 138-141, `size_in_css_px`. -/
def sizeInCssPx (ar : F64Arith) (size : F64 × F64) : F64 × F64 := (ar.mul size.1 ar.pxPerPt, ar.mul size.2 ar.pxPerPt)

/-- poppler.rs 167-198, `render_with_options`: the surface and what is done with it. `size` is what `poppler_page_get_size` says, and `after` is the
status of the context when it is created and after rendering. -/
def renderWithOptions (ar : F64Arith) (create : Nat → Int → Int → Surface) (after : Nat × Nat) (size : F64 × F64) (o : RenderOptions) :
    Made (Surface × List RenderStep) :=
  let px := sizeInCssPx ar size
  match f64ToI32 (ar.mul px.1 o.dppxX).ceil, f64ToI32 (ar.mul px.2 o.dppxY).ceil with
  | some w, some h =>
    match newCInt create (if o.white then formatRgb24 else formatArgb32) w h with
    | .panicked => .panicked
    | .error e => .error e
    | .ok s =>
      if after.1 ≠ 0 then .error after.1
      else
        let steps := (if o.white then [.setSourceRgb 1 1 1, .paint] else []) ++
          [.scale (ar.mul o.dppxX ar.pxPerPt) (ar.mul o.dppxY ar.pxPerPt), .page o.forPrinting]
        if after.2 ≠ 0 then .error after.2 else .ok (s, steps)
  | _, _ => .panicked

/-- A hexadecimal digit, as in `{:X}`. -/
def hexDigit (d : Nat) : Nat := if d < 10 then 48 + d else 55 + d

/-- `{:08X}` of a `u32`. -/
def hex8 (p : Nat) : List Nat :=
  [hexDigit (p / 268435456 % 16), hexDigit (p / 16777216 % 16), hexDigit (p / 1048576 % 16), hexDigit (p / 65536 % 16),
    hexDigit (p / 4096 % 16), hexDigit (p / 256 % 16), hexDigit (p / 16 % 16), hexDigit (p % 16)]

/-- lib.rs 80-86, `pixels_to_hex`. -/
def pixelsToHex : List Nat → List Nat
  | [] => []
  | [p] => hex8 p
  | p :: rest => hex8 p ++ [44, 32] ++ pixelsToHex rest

end Verif.Lester
