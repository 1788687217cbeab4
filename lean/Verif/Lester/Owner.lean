/- Model of how lester owns objects of C libraries: the calls of C functions that each function of lester's API makes, with every way in which
it can end. Values are dropped where Rust drops them. -/
import Verif.Lester.OwnerSpec
namespace Verif.Lester

/-- errors.rs 89-93, `LesterError`, without the contents of I/O errors. -/
inductive LesterError where
  | io
  | cairo (status : Nat)
  | glib (e : Nat)

/-- How a function ends. -/
inductive Outcome (α : Type) where
  | ok (a : α)
  | err (e : LesterError)
  | panic

/-- A function that calls C functions: from the calls so far to the outcome and the calls with its own. -/
def Code (α : Type) := List Event → Outcome α × List Event

def Code.pure {α : Type} (a : α) : Code α := fun log => (.ok a, log)
def Code.fail {α : Type} (e : LesterError) : Code α := fun log => (.err e, log)
def Code.panic {α : Type} : Code α := fun log => (.panic, log)

/-- One after the other; errors are returned by `?`, and panics unwind. -/
def Code.bind {α β : Type} (m : Code α) (f : α → Code β) : Code β := fun log =>
  match m log with
  | (.ok a, log) => f a log
  | (.err e, log) => (.err e, log)
  | (.panic, log) => (.panic, log)

instance : Monad Code where
  pure := Code.pure
  bind := Code.bind

/-- The scope of a value that is moved out when it ends normally, and otherwise dropped. -/
def Code.orDrop {α : Type} (drop : Code Unit) (body : Code α) : Code α := fun log =>
  match body log with
  | (.ok a, log) => (.ok a, log)
  | (.err e, log) => (.err e, (drop log).2)
  | (.panic, log) => (.panic, (drop log).2)

/-- The scope of a value that is dropped at its end. -/
def Code.thenDrop {α : Type} (drop : Code Unit) (body : Code α) : Code α := fun log =>
  match body log with
  | (o, log) => (o, (drop log).2)

section
variable (A : Nat → Answer) (ar : F64Arith)

/-- A call of a C function: its answer, and the reference that it gives if it gives one. `A` says how the calls are answered, in order. -/
def ffi (call : Ffi) : Code (Answer × Nat) := fun log => (.ok (A log.length, log.length), log ++ [⟨call, A log.length⟩])

/-- A call of which the answer is not used. -/
def ffi' (call : Ffi) : Code Unit := (ffi A call).bind fun _ => Code.pure ()

/-- errors.rs 41-47, `CairoError::check`. -/
def cairoCheck (status : Nat) : Code Unit := if status = 0 then Code.pure () else Code.fail (.cairo status)

/-- cairo.rs 36-42, `Drop for ImageSurface`. -/
def dropSurface (s : Nat) : Code Unit := ffi' A (.surfaceDestroy s)
/-- cairo.rs 165-171, `Drop for CairoContext`. -/
def dropContext (c : Nat) : Code Unit := ffi' A (.destroy c)
/-- poppler.rs 76-80, `Drop for PdfDocument`. -/
def dropDocument (d : Nat) : Code Unit := ffi' A (.objectUnref .document d)
/-- poppler.rs 209-213, `Drop for Page`. -/
def dropPage (p : Nat) : Code Unit := ffi' A (.objectUnref .page p)
/-- poppler.rs 293-299, `Drop for GlibString`. -/
def dropString (s : Nat) : Code Unit := ffi' A (.free s)
/-- errors.rs 59-63, `Drop for GlibError`. -/
def dropError (e : Nat) : Code Unit := ffi' A (.errorFree e)

/-- cairo.rs 76-78, `check_status` of a surface. -/
def surfaceCheck (s : Nat) : Code Unit := (ffi A (.surfaceStatus s)).bind fun a => cairoCheck a.1.status
/-- cairo.rs 146-148, `check_status` of a context. -/
def contextCheck (c : Nat) : Code Unit := (ffi A (.status c)).bind fun a => cairoCheck a.1.status

/-- cairo.rs 63-74, `ImageSurface::new_c_int`. -/
def ownedNewCInt (format : Nat) (width height : Int) : Code Nat :=
  (ffi A (.imageSurfaceCreate format width height)).bind fun s =>
    Code.orDrop (dropSurface A s.2) ((surfaceCheck A s.2).bind fun _ => Code.pure s.2)

/-- cairo.rs 45-61, `new_rgb24`, `new_argb32` and `new`. -/
def ownedNew (format width height : Nat) : Code Nat :=
  match usizeToI32 width, usizeToI32 height with
  | some w, some h => ownedNewCInt A format w h
  | _, _ => Code.panic

/-- cairo.rs 80-88, `context`. -/
def ownedContext (s : Nat) : Code Nat :=
  (ffi A (.create s)).bind fun c => Code.orDrop (dropContext A c.2) ((contextCheck A c.2).bind fun _ => Code.pure c.2)

/-- cairo.rs 91-127, `pixels`: the calls; what it returns is `Surface.pixels`. -/
def ownedPixels (checks : Bool) (s : Nat) : Code Pixels :=
  (ffi A (.flush s)).bind fun _ =>
  (ffi A (.getData s)).bind fun data =>
  (ffi A (.getWidth s)).bind fun width =>
  (ffi A (.getHeight s)).bind fun height =>
  (ffi A (.getStride s)).bind fun stride =>
  (ffi A (.getFormat s)).bind fun format =>
  match Surface.pixels checks ⟨format.1.number.toNat, width.1.number, height.1.number, stride.1.number, data.1.number.toNat, 0⟩ with
  | some p => Code.pure p
  | none => Code.panic

/-- What `with_c_callback!` finds after cairo has returned (see `withCCallback`): the stream panicked, failed, or did neither. -/
inductive StreamEnd where
  | panicked | failed | fine

/-- cairo.rs 228-232: the end of `with_c_callback!`. -/
def streamCheck : StreamEnd → Code Unit
  | .panicked => Code.panic
  | .failed => Code.fail .io
  | .fine => Code.pure ()

/-- cairo.rs 244-257, `read_from_png`. -/
def ownedReadFromPng (stream : StreamEnd) : Code Nat :=
  (ffi A .createFromPngStream).bind fun s =>
    Code.orDrop (dropSurface A s.2) ((streamCheck stream).bind fun _ => (surfaceCheck A s.2).bind fun _ => Code.pure s.2)

/-- cairo.rs 265-278, `write_to_png`. -/
def ownedWriteToPng (s : Nat) (stream : StreamEnd) : Code Unit :=
  (ffi A (.writeToPngStream s)).bind fun a => (streamCheck stream).bind fun _ => cairoCheck a.1.status

/-- poppler.rs 21-47, `from_bytes`. -/
def ownedFromBytes (length : Nat) : Code Nat :=
  match usizeToI32 length with
  | none => Code.panic
  | some n => (ffi A (.documentNewFromData n)).bind fun d => if d.1.null then Code.fail (.glib d.2) else Code.pure d.2

/-- poppler.rs 53-59, `pages`: the number of pages. -/
def ownedPages (d : Nat) : Code Int := (ffi A (.getNPages d)).bind fun a => Code.pure a.1.number

/-- poppler.rs 61-68, `get_page`, which the iterator over the pages calls. -/
def ownedGetPage (d : Nat) (index : Int) : Code Nat :=
  (ffi A (.getPage d index)).bind fun p => if p.1.null then Code.panic else Code.pure p.2

/-- poppler.rs 279-285, `from_nullable_ptr`. -/
def fromNullablePtr (s : Answer × Nat) : Option Nat := if s.1.null then none else some s.2

/-- poppler.rs 71-73, `producer`. -/
def ownedProducer (d : Nat) : Code (Option Nat) := (ffi A (.getProducer d)).bind fun s => Code.pure (fromNullablePtr s)

/-- poppler.rs 129-134, `size_in_ps_points`. -/
def ownedSize (p : Nat) : Code (F64 × F64) := (ffi A (.getSize p)).bind fun a => Code.pure (a.1.width, a.1.height)

/-- poppler.rs 201-206, `text`. -/
def ownedText (p : Nat) : Code Nat :=
  (ffi A (.getText p)).bind fun s =>
    match fromNullablePtr s with
    | some s => Code.pure s
    | none => Code.panic

/-- poppler.rs 167-198, `render_with_options`. -/
def ownedRender (p : Nat) (o : RenderOptions) : Code Nat :=
  (ownedSize A p).bind fun size =>
  let px := sizeInCssPx ar size
  match f64ToI32 (ar.mul px.1 o.dppxX).ceil, f64ToI32 (ar.mul px.2 o.dppxY).ceil with
  | some w, some h =>
    (ownedNewCInt A (if o.white then formatRgb24 else formatArgb32) w h).bind fun s =>
    Code.orDrop (dropSurface A s)
      ((ownedContext A s).bind fun c =>
      Code.thenDrop (dropContext A c)
        ((if o.white then (ffi' A (.setSourceRgb c)).bind fun _ => ffi' A (.paint c) else Code.pure ()).bind fun _ =>
        (ffi' A (.scale c (ar.mul o.dppxX ar.pxPerPt) (ar.mul o.dppxY ar.pxPerPt))).bind fun _ =>
        (if o.forPrinting then ffi' A (.renderForPrinting p c) else ffi' A (.render p c)).bind fun _ =>
        (contextCheck A c).bind fun _ => Code.pure s))
  | _, _ => Code.panic

/-- poppler.rs 287-290, `to_str`. -/
def ownedToStr (s : Nat) : Code Unit := ffi' A (.readString s)
/-- errors.rs 8-34, `description` of a `GlibError`; those of `CairoError` are constants of cairo. -/
def ownedDescription (e : Nat) : Code Unit := ffi' A (.readError e)

/-! ## Programs -/

/-- What a program can do with lester. Its values are numbered in the order in which it got them. -/
inductive Op where
  | new (format width height : Nat)
  | readPng (stream : StreamEnd)
  | writePng (i : Nat) (stream : StreamEnd)
  | pixels (i : Nat) (checks : Bool)
  | fromBytes (length : Nat)
  | pages (i : Nat)
  | getPage (i : Nat) (index : Int)
  | producer (i : Nat)
  | size (i : Nat)
  | render (i : Nat) (o : RenderOptions)
  | text (i : Nat)
  | toStr (i : Nat)
  | description (i : Nat)
  | drop (i : Nat)

/-- The calls so far, and the values of the program. Values are owned: each has a reference of its own. -/
structure Program where
  log : List Event
  values : List Ref

/-- A value of lester goes out of scope. -/
def dropRef : Ref → Code Unit
  | (.surface, s) => dropSurface A s
  | (.context, c) => dropContext A c
  | (.document, d) => dropDocument A d
  | (.page, p) => dropPage A p
  | (.string, s) => dropString A s
  | (.error, e) => dropError A e

/-- The value that a function returned belongs to the program, and so does an error. A program can go on after a panic. -/
def Program.get (st : Program) (kind : Kind) (m : Code Nat) : Program :=
  match m st.log with
  | (.ok p, log) => ⟨log, st.values ++ [(kind, p)]⟩
  | (.err (.glib e), log) => ⟨log, st.values ++ [(.error, e)]⟩
  | (_, log) => ⟨log, st.values⟩

/-- As `get`, for an `Option`. -/
def Program.getOption (st : Program) (kind : Kind) (m : Code (Option Nat)) : Program :=
  match m st.log with
  | (.ok (some p), log) => ⟨log, st.values ++ [(kind, p)]⟩
  | (.err (.glib e), log) => ⟨log, st.values ++ [(.error, e)]⟩
  | (_, log) => ⟨log, st.values⟩

/-- A function that returns no value with a reference. -/
def Program.look {α : Type} (st : Program) (m : Code α) : Program :=
  match m st.log with
  | (.err (.glib e), log) => ⟨log, st.values ++ [(.error, e)]⟩
  | (_, log) => ⟨log, st.values⟩

/-- A step of a program. A step on a value that the program does not have, or that is of another type, does nothing: the compiler rejects it. -/
def Program.step (st : Program) : Op → Program
  | .new format width height => st.get .surface (ownedNew A format width height)
  | .readPng stream => st.get .surface (ownedReadFromPng A stream)
  | .writePng i stream =>
    match st.values[i]? with
    | some (.surface, s) => st.look (ownedWriteToPng A s stream)
    | _ => st
  | .pixels i checks =>
    match st.values[i]? with
    | some (.surface, s) => st.look (ownedPixels A checks s)
    | _ => st
  | .fromBytes length => st.get .document (ownedFromBytes A length)
  | .pages i =>
    match st.values[i]? with
    | some (.document, d) => st.look (ownedPages A d)
    | _ => st
  | .getPage i index =>
    match st.values[i]? with
    | some (.document, d) => st.get .page (ownedGetPage A d index)
    | _ => st
  | .producer i =>
    match st.values[i]? with
    | some (.document, d) => st.getOption .string (ownedProducer A d)
    | _ => st
  | .size i =>
    match st.values[i]? with
    | some (.page, p) => st.look (ownedSize A p)
    | _ => st
  | .render i o =>
    match st.values[i]? with
    | some (.page, p) => st.get .surface (ownedRender A ar p o)
    | _ => st
  | .text i =>
    match st.values[i]? with
    | some (.page, p) => st.get .string (ownedText A p)
    | _ => st
  | .toStr i =>
    match st.values[i]? with
    | some (.string, s) => st.look (ownedToStr A s)
    | _ => st
  | .description i =>
    match st.values[i]? with
    | some (.error, e) => st.look (ownedDescription A e)
    | _ => st
  | .drop i =>
    match st.values[i]? with
    | some r => ⟨(dropRef A r st.log).2, st.values.eraseIdx i⟩
    | none => st

/-- A program from its start. -/
def Program.run (ops : List Op) : Program := ops.foldl (Program.step A ar) ⟨[], []⟩

/-- The end of a program: all of its values go out of scope. -/
def Program.dropAll (st : Program) : List Event := st.values.foldl (fun log r => (dropRef A r log).2) st.log

end
end Verif.Lester
