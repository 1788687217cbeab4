/- Model of writing a document to a stream or a file: pdf/mod.rs 34-56, with `std::io::Write::write_all` and `std::io::BufWriter`. Here are
the calls of `write_all`, one by one, that Verif/Pdf/Object.lean and Verif/Pdf/File.lean put together. -/
import Verif.Pdf.Doc
namespace Verif.Pdf

/-! ### The calls -/

/-- pdf/object.rs 244-252. -/
def nameCalls : List Byte → List (List Byte)
  | [] => []
  | b :: bs => (match kind b with
      | .regular => [[b]]
      | .whitespace | .delimiter => [[35], writeHex b]) ++ nameCalls bs

/-- pdf/object.rs 161-166. -/
def literalCalls : List Byte → List (List Byte)
  | [] => []
  | b :: bs => (if b = 92 ∨ b = 40 ∨ b = 41 then [92, b] else [b]) :: literalCalls bs

section
variable {R : Type} (dtoa : R → List Byte)

mutual
/-- pdf/object.rs 151-210 `Object::write`: the arguments of `write_all`, in order. -/
def Object.calls : Object R → List (List Byte)
  | .usize n => [decimal n]
  | .i32 i => [decimalInt i]
  | .float r => [dtoa r]
  | .name b => [47] :: nameCalls b
  | .literal b => [40] :: literalCalls b ++ [[41]]
  | .hex b => [60] :: b.map writeHex ++ [[62]]
  | .array .nil => [[91], [93]]
  | .array (.cons o l) => [91] :: o.calls ++ l.restCalls ++ [[93]]
  | .dict d => [60, 60] :: d.pairCalls ++ [[32, 62, 62]]
  | .ref id => [decimal id, [32, 48, 32, 82]]
  | .alpha r => [60, 60] :: ([32] :: ([47] :: nameCalls (ascii "CA")) ++ [[32], dtoa r] ++
      ([32] :: ([47] :: nameCalls (ascii "ca")) ++ [[32], dtoa r])) ++ [[32, 62, 62]]
  | .owned p => [60, 60] :: p.calls ++ [[32, 62, 62]]
/-- pdf/object.rs 181-184. -/
def Items.restCalls : Items R → List (List Byte)
  | .nil => []
  | .cons o l => [32] :: o.calls ++ l.restCalls
/-- pdf/object.rs 224-229 and 201-206. -/
def Pairs.calls : Pairs R → List (List Byte)
  | .nil => []
  | .cons k v l => [32] :: ([47] :: nameCalls k) ++ [32] :: v.calls ++ l.calls
/-- pdf/object.rs 220-231 `write_pairs`. -/
def Dictionary.pairCalls : Dictionary R → List (List Byte)
  | .root p => p.calls
  | .linked prev p => prev.pairCalls ++ p.calls
end

/-- pdf/object.rs 214-218 `Dictionary::write`. -/
def Dictionary.calls (d : Dictionary R) : List (List Byte) := [60, 60] :: d.pairCalls dtoa ++ [[32, 62, 62]]

/-- pdf/syntax.rs 153-180 `CountingWrite`: the calls that were made, and `bytes_written`, which counts the bytes of each argument before
the call. -/
structure CountingCalls where
  calls : List (List Byte)
  count : Nat

/-- pdf/syntax.rs 169-174. -/
def CountingCalls.writeAll (w : CountingCalls) (b : List Byte) : CountingCalls := ⟨w.calls ++ [b], w.count + b.length⟩

/-- Several calls. -/
def CountingCalls.writeEach (w : CountingCalls) : List (List Byte) → CountingCalls
  | [] => w
  | b :: bs => (w.writeAll b).writeEach bs

/-- pdf/syntax.rs 80-105: the objects, given by the calls for their contents, with the offsets. -/
def indirectCalls (w : CountingCalls) (id : Nat) : List (List (List Byte)) → CountingCalls × List Nat
  | [] => (w, [])
  | c :: cs =>
    let off := w.count % 2 ^ 32
    let w := (((w.writeAll (decimal id)).writeAll (ascii " 0 obj\n")).writeEach c).writeAll (ascii "\nendobj\n")
    let (w, offs) := indirectCalls w (id + 1) cs
    (w, off :: offs)

/-- pdf/syntax.rs 65-137 `write`: all the calls. -/
def PdfFile.calls (f : PdfFile) (basic : BasicObjects R) : List (List Byte) :=
  let total := (firstAvailableId - firstId) + f.objects.length
  let w := (CountingCalls.mk [] 0).writeAll fileHeader
  let (w, o1) := indirectCalls w firstId [basic.pageTree.calls dtoa, basic.catalog.calls dtoa, basic.info.calls dtoa]
  let (w, o2) := indirectCalls w firstAvailableId (f.objects.map fun contents => [contents])
  let size := total + 1
  w.calls ++ [ascii "xref\n0 ", decimal size, ascii "\n0000000000 65535 f \n"] ++
    ((o1 ++ o2).map fun o => zeroPadded 10 o ++ ascii " 00000 n \n") ++ [ascii "trailer\n"] ++
    (trailerDict size : Dictionary R).calls dtoa ++ [ascii "\nstartxref\n", decimal w.count, ascii "\n%%EOF"]

end

/-- convert.rs 39-58. -/
def Doc.calls {R : Type} (F : Floats R) (d : Doc R) : List (List Byte) := d.pdf.calls F.dtoa d.basic

/-! ### Streams -/

/-- What `Write::write` returns. -/
inductive WriteResult (ε : Type) where
  | wrote (n : Nat)
  | interrupted
  | failed (e : ε)

/-- An error of `write_all`. -/
inductive IoError (ε : Type) where
  | writeZero
  | sink (e : ε)

/-- A stream (`io::Write`), any: its `write` method, and what arrived at the other end. -/
structure Sink (S ε : Type) where
  write : S → List Byte → S × WriteResult ε
  received : S → List Byte

/-- The loop of `std::io::Write::write_all`, and of `BufWriter::flush_buf`: the state, the bytes that were not written, and the error.
The fuel bounds the number of calls of `write`; a stream that is interrupted forever is called forever. -/
def Sink.writeLoop {S ε : Type} (k : Sink S ε) : (fuel : Nat) → S → List Byte → Option (S × List Byte × Option (IoError ε))
  | 0, _, _ => none
  | _ + 1, s, [] => some (s, [], none)
  | fuel + 1, s, b :: bs =>
    match k.write s (b :: bs) with
    | (s, .wrote 0) => some (s, b :: bs, some .writeZero)
    | (s, .wrote n) => k.writeLoop fuel s ((b :: bs).drop n)
    | (s, .interrupted) => k.writeLoop fuel s (b :: bs)
    | (s, .failed e) => some (s, b :: bs, some (.sink e))

/-- `write_all`, then `?`, for each argument. -/
def Sink.writeCalls {S ε : Type} (k : Sink S ε) (fuel : Nat) : S → List (List Byte) → Option (S × Option (IoError ε))
  | s, [] => some (s, none)
  | s, b :: bs =>
    match k.writeLoop fuel s b with
    | none => none
    | some (s, _, some e) => some (s, some e)
    | some (s, _, none) => k.writeCalls fuel s bs

/-- pdf/mod.rs 54-56 `write_to_pdf`: the state of the stream and the result. -/
def Doc.writeToPdf {R S ε : Type} (F : Floats R) (d : Doc R) (k : Sink S ε) (fuel : Nat) (s : S) : Option (S × Option (IoError ε)) :=
  k.writeCalls fuel s (d.calls F)

/-! ### Files -/

/-- `std::io::BufWriter`: the stream and the buffer. -/
structure Buffered (S : Type) where
  inner : S
  buf : List Byte

/-- The default capacity of the buffer. -/
def bufferCapacity : Nat := 8192

/-- `BufWriter::flush_buf`. -/
def Buffered.flushBuf {S ε : Type} (k : Sink S ε) (fuel : Nat) (w : Buffered S) : Option (Buffered S × Option (IoError ε)) :=
  match k.writeLoop fuel w.inner w.buf with
  | none => none
  | some (s, rest, e) => some (⟨s, rest⟩, e)

/-- `BufWriter::write_all`. -/
def Buffered.writeAll {S ε : Type} (k : Sink S ε) (fuel : Nat) (w : Buffered S) (b : List Byte) :
    Option (Buffered S × Option (IoError ε)) :=
  match (if w.buf.length + b.length > bufferCapacity then w.flushBuf k fuel else some (w, none)) with
  | none => none
  | some (w, some e) => some (w, some e)
  | some (w, none) =>
    if b.length ≥ bufferCapacity then
      match k.writeLoop fuel w.inner b with
      | none => none
      | some (s, _, e) => some (⟨s, w.buf⟩, e)
    else some (⟨w.inner, w.buf ++ b⟩, none)

/-- `write_all`, then `?`, for each argument. -/
def Buffered.writeCalls {S ε : Type} (k : Sink S ε) (fuel : Nat) : Buffered S → List (List Byte) →
    Option (Buffered S × Option (IoError ε))
  | w, [] => some (w, none)
  | w, b :: bs =>
    match w.writeAll k fuel b with
    | none => none
    | some (w, some e) => some (w, some e)
    | some (w, none) => Buffered.writeCalls k fuel w bs

/-- pdf/mod.rs 35-37 `write_to_pdf_file`: `s` is the file that was created. At the end the `BufWriter` is dropped, which flushes it and
ignores an error. -/
def Doc.writeToPdfFile {R S ε : Type} (F : Floats R) (d : Doc R) (k : Sink S ε) (fuel : Nat) (s : S) : Option (S × Option (IoError ε)) :=
  match Buffered.writeCalls k fuel ⟨s, []⟩ (d.calls F) with
  | none => none
  | some (w, result) =>
    match w.flushBuf k fuel with
    | none => none
    | some (w, _) => some (w.inner, result)

end Verif.Pdf
