/- C91: how objects of C libraries have to be used. This file says which functions of cairo, poppler and glib give a new reference, which take one
back and which need one that is alive; it follows the documentation of these libraries. A page of poppler keeps its document alive, and a
context of cairo its surface, so that a reference to one of them does not need another. -/
import Verif.Lester.Surface
namespace Verif.Lester

/-- The kinds of objects that belong to C libraries: `cairo_surface_t`, `cairo_t`, `PopplerDocument`, `PopplerPage`, a string, `GError`. -/
inductive Kind where
  | surface | context | document | page | string | error
deriving DecidableEq, Repr

/-- A reference that a C function gave: its kind, and the position of that call among all calls. (The same address may be given again after it
is freed; this tells them apart.) -/
abbrev Ref := Kind × Nat

/-- lester/src/cairo_ffi.rs 5-37 and poppler_ffi.rs 6-27: the C functions. The arguments that are no objects are left out unless they are of
interest. `readString` and `readError` are not functions: they are where Rust reads the memory of C objects (poppler.rs 287-290, errors.rs 64-66). -/
inductive Ffi where
  | surfaceDestroy (s : Nat)
  | surfaceStatus (s : Nat)
  | imageSurfaceCreate (format : Nat) (width height : Int)
  | getWidth (s : Nat)
  | getHeight (s : Nat)
  | getStride (s : Nat)
  | getData (s : Nat)
  | getFormat (s : Nat)
  | createFromPngStream
  | writeToPngStream (s : Nat)
  | flush (s : Nat)
  | create (s : Nat)
  | setSourceRgb (c : Nat)
  | paint (c : Nat)
  | scale (c : Nat) (x y : F64)
  | status (c : Nat)
  | destroy (c : Nat)
  | documentNewFromData (length : Int)
  | getNPages (d : Nat)
  | getPage (d : Nat) (index : Int)
  | getProducer (d : Nat)
  | getSize (p : Nat)
  | render (p : Nat) (c : Nat)
  | renderForPrinting (p : Nat) (c : Nat)
  | getText (p : Nat)
  | errorFree (e : Nat)
  | objectUnref (kind : Kind) (o : Nat)
  | free (s : Nat)
  | readString (s : Nat)
  | readError (e : Nat)

/-- What a C function answers: whether the pointer is null, a status, numbers. -/
structure Answer where
  null : Bool
  status : Nat
  number : Int
  width : F64
  height : F64

/-- A call and its answer. -/
structure Event where
  call : Ffi
  answer : Answer

/-- The kind of the new reference that the caller of the function has to release. cairo's functions never return null. When
`poppler_document_new_from_data` returns null, it sets an error that belongs to the caller. -/
def Event.gives (e : Event) : Option Kind :=
  match e.call with
  | .imageSurfaceCreate .. | .createFromPngStream => some .surface
  | .create _ => some .context
  | .documentNewFromData _ => some (if e.answer.null then .error else .document)
  | .getPage .. => if e.answer.null then none else some .page
  | .getProducer _ | .getText _ => if e.answer.null then none else some .string
  | _ => none

/-- The reference that a call takes back. -/
def Event.takes (e : Event) : Option Ref :=
  match e.call with
  | .surfaceDestroy s => some (.surface, s)
  | .destroy c => some (.context, c)
  | .errorFree x => some (.error, x)
  | .objectUnref kind o => some (kind, o)
  | .free s => some (.string, s)
  | _ => none

/-- The references that a call needs. -/
def Event.needs (e : Event) : List Ref :=
  match e.call with
  | .surfaceDestroy s | .surfaceStatus s | .getWidth s | .getHeight s | .getStride s | .getData s | .getFormat s | .writeToPngStream s
  | .flush s | .create s => [(.surface, s)]
  | .setSourceRgb c | .paint c | .scale c _ _ | .status c | .destroy c => [(.context, c)]
  | .getNPages d | .getPage d _ | .getProducer d => [(.document, d)]
  | .getSize p | .getText p => [(.page, p)]
  | .render p c | .renderForPrinting p c => [(.page, p), (.context, c)]
  | .errorFree x | .readError x => [(.error, x)]
  | .objectUnref kind o => [(kind, o)]
  | .free s | .readString s => [(.string, s)]
  | .imageSurfaceCreate .. | .createFromPngStream | .documentNewFromData _ => []

/-- The reference was given by a call. -/
def Given (log : List Event) (r : Ref) : Prop := ∃ e, log[r.2]? = some e ∧ e.gives = some r.1

/-- How often the reference was taken back. -/
def timesTaken (log : List Event) (r : Ref) : Nat := (log.filterMap Event.takes).count r

/-- Every call is made with references that were given before and not taken back before. -/
def UsedWell (log : List Event) : Prop :=
  ∀ before e after, log = before ++ e :: after → ∀ r ∈ e.needs, Given before r ∧ timesTaken before r = 0

end Verif.Lester
