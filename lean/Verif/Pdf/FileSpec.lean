import Verif.Pdf.Reader
/-
Specification: a reader for the PDF file structure (ISO 32000-1, 7.5), starting from the end of the file, written
independently of the writer.
-/
namespace Verif.Pdf

/-- `bs` without the prefix `p`. -/
def stripPrefix : List Byte → List Byte → Option (List Byte)
  | [], bs => some bs
  | _ :: _, [] => none
  | a :: p, b :: bs => if a = b then stripPrefix p bs else none

/-- An ASCII digit. -/
def isDigit (b : Byte) : Bool := 48 ≤ b.val ∧ b.val ≤ 57

/-- A decimal number and what follows it. -/
def readNumber (bs : List Byte) : Option (Nat × List Byte) :=
  match bs.takeWhile isDigit with
  | [] => none
  | ds => (digitsValue 0 ds).map fun n => (n, bs.dropWhile isDigit)

/-- 7.5.5: the last lines of the file are `startxref`, a byte offset, and `%%EOF`. -/
def readStartXref (file : List Byte) : Option Nat := do
  let r ← stripPrefix (ascii "\n%%EOF").reverse file.reverse
  let ds := (r.takeWhile isDigit).reverse
  let _ ← stripPrefix (ascii "\nstartxref\n").reverse (r.dropWhile isDigit)
  let (n, _) ← readNumber ds
  return n

/-- One entry of the cross-reference table. -/
structure XrefEntry where
  offset : Nat
  generation : Nat
  inUse : Bool
deriving DecidableEq, Repr

/-- 7.5.4: an entry is exactly 20 bytes: ten digits, a space, five digits, a space, `n` or `f`, and a two-byte end of
line. -/
def readXrefEntry (e : List Byte) : Option XrefEntry :=
  if e.length = 20 ∧ (e.drop 10).take 1 = ascii " " ∧ (e.drop 16).take 1 = ascii " " ∧ e.drop 18 = ascii " \n" then do
    let o ← digitsValue 0 (e.take 10)
    let g ← digitsValue 0 ((e.drop 11).take 5)
    let k := (e.drop 17).take 1
    if k = ascii "n" then some ⟨o, g, true⟩ else if k = ascii "f" then some ⟨o, g, false⟩ else none
  else none

/-- `n` entries and what follows them. -/
def readXrefEntries : Nat → List Byte → Option (List XrefEntry × List Byte)
  | 0, bs => some ([], bs)
  | n + 1, bs => do
    let e ← readXrefEntry (bs.take 20)
    let (es, r) ← readXrefEntries n (bs.drop 20)
    return (e :: es, r)

/-- 7.5.4: the cross-reference table at the offset given at the end of the file (one section that starts at object
0), and what follows the word `trailer`. -/
def readXref (file : List Byte) : Option (List XrefEntry × List Byte) := do
  let start ← readStartXref file
  let r ← stripPrefix (ascii "xref\n0 ") (file.drop start)
  let (n, r) ← readNumber r
  let r ← stripPrefix (ascii "\n") r
  let (es, r) ← readXrefEntries n r
  let r ← stripPrefix (ascii "trailer\n") r
  return (es, r)

/-- 7.3.10, 7.5.4: what is in the file after `id 0 obj`, at the offset which the cross-reference table has for object
`id`. -/
def objectAt (file : List Byte) (id : Nat) : Option (List Byte) := do
  let (es, _) ← readXref file
  let e ← es[id]?
  if e.inUse ∧ e.generation = 0 then
    let (n, r) ← readNumber (file.drop e.offset)
    if n = id then stripPrefix (ascii " 0 obj\n") r else none
  else none

section
variable {R : Type} (readReal : List Byte → Option R)

/-- 7.5.5: the trailer dictionary. -/
def readTrailer (fuel : Nat) (file : List Byte) : Option (Val R × List Byte) := do
  let (_, r) ← readXref file
  readObj readReal fuel r

/-- First value of a key. -/
def dictGet (l : List (List Byte × Val R)) (k : List Byte) : Option (Val R) :=
  (l.find? fun e => e.1 = k).map (·.2)

/-- 7.3.8: a stream: a dictionary, `stream`, as many bytes as the `Length` entry says, `endstream`. Returns the
entries of the dictionary, the contents and what follows. -/
def readStream (fuel : Nat) (bs : List Byte) : Option (List (List Byte × Val R) × List Byte × List Byte) :=
  match readObj readReal fuel bs with
  | some (.dict d, r) =>
    match dictGet d (ascii "Length") with
    | some (.int n) => do
      let r ← stripPrefix (ascii "\nstream\n") r
      if n.toNat ≤ r.length then
        let r' ← stripPrefix (ascii "\nendstream") (r.drop n.toNat)
        return (d, r.take n.toNat, r')
      else none
    | _ => none
  | _ => none

end

end Verif.Pdf
