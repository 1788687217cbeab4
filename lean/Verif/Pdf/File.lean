import Verif.Pdf.Object
/- Model of pdf/syntax.rs: indirect objects and the file structure. -/
namespace Verif.Pdf

section
variable {R : Type} (dtoa : R → List Byte)

/-- pdf/syntax.rs 12-17: the fixed object numbers. -/
def firstId : Nat := 1
def pageTreeId : Nat := 1
def catalogId : Nat := 2
def infoId : Nat := 3
def firstAvailableId : Nat := 4

/-- pdf/syntax.rs 25-28 `PdfFile`. The `u32` of `next_id` is unbounded here (its overflow panics or wraps after
4 294 967 291 objects). -/
structure PdfFile where
  objects : List (List Byte)
  nextId : Nat

/-- pdf/syntax.rs 31-36 `PdfFile::new`. -/
def PdfFile.new : PdfFile := ⟨[], firstAvailableId⟩

/-- pdf/syntax.rs 58-63 `add_indirect_object`. -/
def PdfFile.addIndirectObject (f : PdfFile) (contents : List Byte) : PdfFile × Nat :=
  (⟨f.objects ++ [contents], f.nextId + 1⟩, f.nextId)

/-- pdf/syntax.rs 39-48: the bytes of a stream object. -/
def streamBytes (dict : Dictionary R) (contents : List Byte) : List Byte :=
  (Dictionary.linked dict (.cons (ascii "Length") (.usize contents.length) .nil)).write dtoa ++ ascii "\nstream\n" ++
    contents ++ ascii "\nendstream"

/-- pdf/syntax.rs 38-50 `add_stream`. -/
def PdfFile.addStream (f : PdfFile) (dict : Dictionary R) (contents : List Byte) : PdfFile × Nat :=
  f.addIndirectObject (streamBytes dtoa dict contents)

/-- pdf/syntax.rs 52-56 `add_dictionary`. -/
def PdfFile.addDictionary (f : PdfFile) (d : Dictionary R) : PdfFile × Nat :=
  f.addIndirectObject (d.write dtoa)

/-- pdf/syntax.rs 153-156 `CountingWrite`: what was written and the number kept beside it. -/
structure Counting where
  out : List Byte
  count : Nat

/-- pdf/syntax.rs 169-174 `write_all`. `write` (159-166) is not called: `itoa` and `dtoa` use `write_all`. -/
def Counting.writeAll (w : Counting) (b : List Byte) : Counting := ⟨w.out ++ b, w.count + b.length⟩

/-- pdf/syntax.rs 88-92 and 100-104: one indirect object, with the offset pushed (`as u32`). A dictionary is written
in several calls of `write_all`, here in one. -/
def writeIndirect (w : Counting) (id : Nat) (contents : List Byte) : Counting × Nat :=
  ((((w.writeAll (decimal id)).writeAll (ascii " 0 obj\n")).writeAll contents).writeAll (ascii "\nendobj\n"),
    w.count % 2 ^ 32)

/-- pdf/syntax.rs 80-93 and 95-105: the two loops, with `next_object_id`. The assertions at 85 and 94 hold of the
constants. -/
def writeAllIndirect (w : Counting) (id : Nat) : List (List Byte) → Counting × List Nat
  | [] => (w, [])
  | c :: cs =>
    let (w, off) := writeIndirect w id c
    let (w, offs) := writeAllIndirect w (id + 1) cs
    (w, off :: offs)

/-- pdf/syntax.rs 146-151 `itoa_zero_padded`, the last `k` bytes of the buffer. -/
def zeroPadded : Nat → Nat → List Byte
  | 0, _ => []
  | k + 1, v => zeroPadded k (v / 10) ++ [digit v]

/-- pdf/syntax.rs 118-122: one entry of the cross-reference table per offset. -/
def xrefEntries : List Nat → List Byte
  | [] => []
  | o :: os => zeroPadded 10 o ++ ascii " 00000 n \n" ++ xrefEntries os

/-- pdf/syntax.rs 127-131: the trailer dictionary. -/
def trailerDict (size : Nat) : Dictionary R :=
  .root (.cons (ascii "Size") (.usize size) (.cons (ascii "Root") (.ref catalogId) (.cons (ascii "Info") (.ref infoId) .nil)))

/-- pdf/syntax.rs 19-23 `BasicObjects`. -/
structure BasicObjects (R : Type) where
  pageTree : Dictionary R
  catalog : Dictionary R
  info : Dictionary R

/-- pdf/syntax.rs 75: the header. -/
def fileHeader : List Byte := ascii "%PDF-1.5\n%" ++ [0xB5, 0xED, 0xAE, 0xFB] ++ ascii "\n"

/-- pdf/syntax.rs 76-106: header and objects, with the offsets. -/
def PdfFile.writeObjects (f : PdfFile) (basic : BasicObjects R) : Counting × List Nat :=
  let w := (Counting.mk [] 0).writeAll fileHeader
  let (w, o1) := writeAllIndirect w firstId
    [basic.pageTree.write dtoa, basic.catalog.write dtoa, basic.info.write dtoa]
  let (w, o2) := writeAllIndirect w firstAvailableId f.objects
  (w, o1 ++ o2)

/-- pdf/syntax.rs 65-137 `write`, the bytes written if no write fails. -/
def PdfFile.write (f : PdfFile) (basic : BasicObjects R) : List Byte :=
  let total := (firstAvailableId - firstId) + f.objects.length
  let (w, offsets) := f.writeObjects dtoa basic
  let size := total + 1
  w.out ++ ascii "xref\n0 " ++ decimal size ++ ascii "\n0000000000 65535 f \n" ++ xrefEntries offsets ++
    ascii "trailer\n" ++ (trailerDict size : Dictionary R).write dtoa ++ ascii "\nstartxref\n" ++ decimal w.count ++
    ascii "\n%%EOF"

end

end Verif.Pdf
