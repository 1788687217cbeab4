/- Model of reading and writing PNG data through a stream of the user, in lester/src/cairo.rs.

cairo is any program that calls the callback finitely often and returns. A stream is any state machine whose operation succeeds, fails or
panics. -/
namespace Verif.Lester

/-- How an operation of the stream ends: `read_exact` or `write_all`. -/
inductive Ending (E P : Type) where
  | ok
  | err (e : E)
  | panic (payload : P)
deriving DecidableEq, Repr

/-- A stream of the user. `Req` is what the callback passes to it: the length of the buffer for `read_exact`, the bytes for `write_all`. `Resp`
is what it leaves in the buffer. -/
structure Stream (S Req Resp E P : Type) where
  use : S → Req → S × Resp × Ending E P

/-- cairo's function: it returns, or calls the callback and goes on depending on the status that this returns and on the buffer, which is
`none` when the callback has not passed it to the stream. -/
inductive CCode (Req Resp Out : Type) where
  | done (out : Out)
  | call (req : Req) (k : (status : Nat) → (buffer : Option Resp) → CCode Req Resp Out)

variable {S Req Resp E P Out : Type}

/-- cairo.rs 179-183, `ClosureData`; `streamResult` is `none` for `Ok(())`. The last field is not in the code: it records the operations of
the stream. -/
structure ClosureData (S Req Resp E P : Type) where
  stream : S
  streamResult : Option E
  panicPayload : Option P
  uses : List (Req × Resp × Ending E P)

/-- cairo_ffi: `CAIRO_STATUS_SUCCESS`. -/
def statusSuccess : Nat := 0
/-- cairo_ffi: `CAIRO_STATUS_READ_ERROR`. -/
def statusReadError : Nat := 10
/-- cairo_ffi: `CAIRO_STATUS_WRITE_ERROR`. -/
def statusWriteError : Nat := 11

/-- cairo.rs 191-220, `callback`: the status and the buffer. -/
def callback (st : Stream S Req Resp E P) (errorConst : Nat) (d : ClosureData S Req Resp E P) (req : Req) :
    Nat × Option Resp × ClosureData S Req Resp E P :=
  if d.streamResult.isSome then (errorConst, none, d)
  else
    let r := st.use d.stream req
    let d := { d with stream := r.1, uses := d.uses ++ [(req, r.2)] }
    match r.2.2 with
    | .ok => (statusSuccess, some r.2.1, d)
    | .err e => (errorConst, some r.2.1, { d with streamResult := some e })
    | .panic p => (errorConst, some r.2.1, { d with panicPayload := some p })

/-- cairo's function running with the callback: cairo.rs 222-228. -/
def runC (st : Stream S Req Resp E P) (errorConst : Nat) :
    CCode Req Resp Out → ClosureData S Req Resp E P → Out × ClosureData S Req Resp E P
  | .done out, d => (out, d)
  | .call req k, d =>
    let r := callback st errorConst d req
    runC st errorConst (k r.1 r.2.1) r.2.2

/-- How the macro ends. -/
inductive Finish (E P Out : Type) where
  | panicked (payload : P)
  | ioError (e : E)
  | cairoError (status : Nat)
  | ok (out : Out)
deriving DecidableEq, Repr

/-- cairo.rs 173-234, `with_c_callback!`; also the stream at the end and the operations on it. -/
def withCCallback (st : Stream S Req Resp E P) (errorConst : Nat) (c : CCode Req Resp Out) (s : S) :
    Finish E P Out × S × List (Req × Resp × Ending E P) :=
  let r := runC st errorConst c ⟨s, none, none, []⟩
  (match r.2.panicPayload with
    | some p => .panicked p
    | none =>
      match r.2.streamResult with
      | some e => .ioError e
      | none => .ok r.1,
   r.2.stream, r.2.uses)

/-- errors.rs 41-47, `CairoError::check`, in place of `Ok(x)`. -/
def checkStatus (status : Nat) (x : Out) : Finish E P Out := if status = statusSuccess then .ok x else .cairoError status

/-- cairo.rs 244-257, `read_from_png`. cairo returns a surface and its status. -/
def readFromPng (st : Stream S Nat Resp E P) (c : CCode Nat Resp (Out × Nat)) (s : S) :
    Finish E P Out × S × List (Nat × Resp × Ending E P) :=
  let r := withCCallback st statusReadError c s
  (match r.1 with
    | .ok surface => checkStatus surface.2 surface.1
    | .panicked p => .panicked p
    | .ioError e => .ioError e
    | .cairoError n => .cairoError n, r.2)

/-- cairo.rs 265-278, `write_to_png`. cairo returns a status. -/
def writeToPng (st : Stream S (List Nat) Unit E P) (c : CCode (List Nat) Unit Nat) (s : S) :
    Finish E P Unit × S × List (List Nat × Unit × Ending E P) :=
  let r := withCCallback st statusWriteError c s
  (match r.1 with
    | .ok status => checkStatus status ()
    | .panicked p => .panicked p
    | .ioError e => .ioError e
    | .cairoError n => .cairoError n, r.2)

/-! ## Writing to a file -/

/-- A file: the bytes in it, and whether writing these bytes next succeeds. Simplification: a write writes everything or nothing. -/
structure File (E : Type) where
  content : List Nat
  fails : (content : List Nat) → (bytes : List Nat) → Option E

/-- `File::write_all`. -/
def File.write (f : File E) (bytes : List Nat) : File E × Option E :=
  match f.fails f.content bytes with
  | some e => (f, some e)
  | none => ({ f with content := f.content ++ bytes }, none)

/-- `std::io::BufWriter`. -/
structure BufWriter (E : Type) where
  inner : File E
  buf : List Nat

/-- The default capacity of `BufWriter`. -/
def bufCapacity : Nat := 8192

/-- `BufWriter::flush_buf`. -/
def BufWriter.flushBuf (w : BufWriter E) : BufWriter E × Option E :=
  if w.buf = [] then (w, none)
  else
    let r := w.inner.write w.buf
    match r.2 with
    | some e => ({ w with inner := r.1 }, some e)
    | none => (⟨r.1, []⟩, none)

/-- `BufWriter::write_all`: flush when the bytes do not fit, then write large bytes directly and keep others. -/
def BufWriter.writeAll (w : BufWriter E) (bytes : List Nat) : BufWriter E × Option E :=
  let r := if w.buf.length + bytes.length > bufCapacity then w.flushBuf else (w, none)
  match r.2 with
  | some e => (r.1, some e)
  | none =>
    if bytes.length ≥ bufCapacity then
      let f := r.1.inner.write bytes
      ({ r.1 with inner := f.1 }, f.2)
    else ({ r.1 with buf := r.1.buf ++ bytes }, none)

/-- `BufWriter` as a stream. -/
def bufStream (E P : Type) : Stream (BufWriter E) (List Nat) Unit E P where
  use w bytes :=
    let r := w.writeAll bytes
    (r.1, (), match r.2 with | none => .ok | some e => .err e)

/-- Dropping a `BufWriter`: it is flushed, and an error is ignored. -/
def BufWriter.drop (w : BufWriter E) : File E := w.flushBuf.1.inner

/-- cairo.rs 135-137, `write_to_png_file`: the stream is dropped at the end of `write_to_png`. The result and the file. -/
def writeToPngFile (f : File E) (P : Type) (c : CCode (List Nat) Unit Nat) : Finish E P Unit × File E :=
  let r := writeToPng (bufStream E P) c ⟨f, []⟩
  (r.1, r.2.1.drop)

end Verif.Lester
