import Verif.Pdf.FileSpec
/-
Specification: reading a PDF document (page tree, content streams, ToUnicode CMaps) as ISO 32000-1 says, and what a
caller of the API expects to see painted. Independent of the writer.
-/
namespace Verif.Pdf

section
variable {R : Type} (readReal : List Byte → Option R)

/-- The dictionary of an object of the file (7.3.10). -/
def getDict (fuel : Nat) (file : List Byte) (id : Nat) : Option (List (List Byte × Val R)) :=
  match objectAt file id with
  | none => none
  | some bs =>
    match readObj readReal fuel bs with
    | some (.dict d, r) => if (stripPrefix (ascii "\nendobj\n") r).isSome then some d else none
    | _ => none

/-- The dictionary and the contents of a stream object of the file (7.3.8). -/
def getStream (fuel : Nat) (file : List Byte) (id : Nat) : Option (List (List Byte × Val R) × List Byte) :=
  match objectAt file id with
  | none => none
  | some bs =>
    match readStream readReal fuel bs with
    | some (d, contents, r) => if (stripPrefix (ascii "\nendobj\n") r).isSome then some (d, contents) else none
    | none => none

/-! ### Content streams (7.8.2) -/

/-- The operators of a content stream, each with the operands before it. -/
def readOps : Nat → List (Val R) → List Byte → Option (List (List (Val R) × List Byte))
  | 0, _, _ => none
  | fuel + 1, operands, bs =>
    match bs.dropWhile isWhite with
    | [] => if operands.isEmpty then some [] else none
    | _ :: _ =>
      match nextToken readReal bs with
      | some (.keyword k, r) => (readOps fuel [] r).map fun l => (operands, k) :: l
      | _ =>
        match readObj readReal fuel bs with
        | some (v, r) => readOps fuel (operands ++ [v]) r
        | none => none

/-- The graphics state (8.4, 9.3), restricted to the operators of this document. `cm` is the list of matrices
concatenated so far, `text` the text matrix inside a text object, `font` the font name and size. -/
structure GState (R : Type) where
  cm : List (List (Val R))
  rgb : R × R × R
  alpha : R
  path : List (R × R × R × R)
  font : Option (List Byte × Val R)
  text : Option (Option (List (Val R)))

/-- What is painted: a filled path or a string, with the graphics state at that point. -/
inductive Painted (R : Type) where
  | fill (cm : List (List (Val R))) (path : List (R × R × R × R)) (rgb : R × R × R) (alpha : R)
  | show (cm : List (List (Val R))) (font : List Byte) (size : Val R) (matrix : List (Val R)) (s : List Byte)
      (rgb : R × R × R) (alpha : R)

/-- One operator. `gs` is the opacity which the graphics state resource of a name has. `none` is an error. -/
def execOp (gs : List Byte → Option R) (s : GState R) (operands : List (Val R)) (op : List Byte) :
    Option (GState R × List (Painted R)) :=
  if op = ascii "cm" then
    if operands.length = 6 then some ({ s with cm := s.cm ++ [operands] }, []) else none
  else if op = ascii "rg" then
    match operands with
    | [.real r, .real g, .real b] => some ({ s with rgb := (r, g, b) }, [])
    | _ => none
  else if op = ascii "gs" then
    match operands with
    | [.name n] => (gs n).map fun a => ({ s with alpha := a }, [])
    | _ => none
  else if op = ascii "re" then
    match operands with
    | [.real x, .real y, .real w, .real h] => some ({ s with path := s.path ++ [(x, y, w, h)] }, [])
    | _ => none
  else if op = ascii "f" then
    match operands with
    | [] => some ({ s with path := [] }, [.fill s.cm s.path s.rgb s.alpha])
    | _ => none
  else if op = ascii "BT" then
    match operands, s.text with
    | [], none => some ({ s with text := some none }, [])
    | _, _ => none
  else if op = ascii "ET" then
    match operands, s.text with
    | [], some _ => some ({ s with text := none }, [])
    | _, _ => none
  else if op = ascii "Tf" then
    match operands with
    | [.name n, size] => some ({ s with font := some (n, size) }, [])
    | _ => none
  else if op = ascii "Tm" then
    match s.text with
    | some _ => if operands.length = 6 then some ({ s with text := some (some operands) }, []) else none
    | none => none
  else if op = ascii "Tj" then
    match operands, s.text, s.font with
    | [.str t], some (some m), some (f, size) => some (s, [.show s.cm f size m t s.rgb s.alpha])
    | _, _, _ => none
  else none

/-- A content stream. -/
def execOps (gs : List Byte → Option R) (s : GState R) : List (List (Val R) × List Byte) →
    Option (GState R × List (Painted R))
  | [] => some (s, [])
  | (operands, op) :: l =>
    match execOp gs s operands op with
    | none => none
    | some (s, p) => match execOps gs s l with
      | none => none
      | some (s, ps) => some (s, p ++ ps)

/-- The initial graphics state: black, opaque (8.4.1). -/
def GState.initial (zero one : R) : GState R := ⟨[], (zero, zero, zero), one, [], none, none⟩

/-- What a reader paints for the bytes of a content stream. -/
def paintContents (zero one : R) (gs : List Byte → Option R) (fuel : Nat) (contents : List Byte) :
    Option (List (Painted R)) :=
  match readOps readReal fuel [] contents with
  | none => none
  | some ops => (execOps gs (.initial zero one) ops).map (·.2)

/-- The opacity of a graphics state dictionary: entry `ca` (11.6.4.4). -/
def gsAlpha (extGState : List (List Byte × Val R)) (n : List Byte) : Option R :=
  match dictGet extGState n with
  | some (.dict d) => match dictGet d (ascii "ca") with
    | some (.real a) => some a
    | _ => none
  | _ => none

end

/-! ### Values -/

section
variable {R : Type}

def asRef : Option (Val R) → Option Nat
  | some (.ref id 0) => some id
  | _ => none
def asDict : Option (Val R) → Option (List (List Byte × Val R))
  | some (.dict d) => some d
  | _ => none
def asArray : Option (Val R) → Option (List (Val R))
  | some (.array l) => some l
  | _ => none
def asInt : Option (Val R) → Option Int
  | some (.int i) => some i
  | _ => none
def asName : Option (Val R) → Option (List Byte)
  | some (.name n) => some n
  | _ => none
/-- All integers. -/
def asInts : List (Val R) → Option (List Int)
  | [] => some []
  | v :: l => match asInt (some v), asInts l with
    | some i, some is => some (i :: is)
    | _, _ => none

end

/-! ### Documents (7.7) -/

/-- A page: its media box and its contents. -/
structure PageRead (R : Type) where
  mediaBox : List (Val R)
  contents : List Byte

/-- A document: its pages, and the entries of the font and graphics state resources. -/
structure DocRead (R : Type) where
  pages : List (PageRead R)
  fonts : List (List Byte × Val R)
  extGState : List (List Byte × Val R)

section
variable {R : Type} (readReal : List Byte → Option R)

/-- 7.7.3.3: a page object, child of the page tree node `parent`. -/
def readPage (fuel : Nat) (file : List Byte) (parent : Nat) (kid : Val R) : Option (PageRead R) := do
  let id ← asRef (some kid)
  let d ← getDict readReal fuel file id
  let t ← asName (dictGet d (ascii "Type"))
  let p ← asRef (dictGet d (ascii "Parent"))
  let box ← asArray (dictGet d (ascii "MediaBox"))
  let c ← asRef (dictGet d (ascii "Contents"))
  let (_, contents) ← getStream readReal fuel file c
  if t = ascii "Page" ∧ p = parent then return ⟨box, contents⟩ else none

/-- The pages, in order. -/
def readPages (fuel : Nat) (file : List Byte) (parent : Nat) : List (Val R) → Option (List (PageRead R))
  | [] => some []
  | k :: ks => match readPage readReal fuel file parent k, readPages fuel file parent ks with
    | some p, some ps => some (p :: ps)
    | _, _ => none

/-- 7.5.5, 7.7.2, 7.7.3: from the trailer to the catalog, the page tree (one node, whose resources all pages inherit),
and the pages. -/
def readDocument (fuel : Nat) (file : List Byte) : Option (DocRead R) := do
  let (t, _) ← readTrailer readReal fuel file
  let t ← asDict (some t)
  let root ← asRef (dictGet t (ascii "Root"))
  let catalog ← getDict readReal fuel file root
  let ct ← asName (dictGet catalog (ascii "Type"))
  let treeId ← asRef (dictGet catalog (ascii "Pages"))
  let tree ← getDict readReal fuel file treeId
  let tt ← asName (dictGet tree (ascii "Type"))
  let count ← asInt (dictGet tree (ascii "Count"))
  let kids ← asArray (dictGet tree (ascii "Kids"))
  let res ← asDict (dictGet tree (ascii "Resources"))
  let fonts ← asDict (dictGet res (ascii "Font"))
  let ext ← asDict (dictGet res (ascii "ExtGState"))
  let pages ← readPages readReal fuel file treeId kids
  if ct = ascii "Catalog" ∧ tt = ascii "Pages" ∧ count = kids.length then return ⟨pages, fonts, ext⟩ else none

end

/-- A big-endian sequence of 16-bit codes. -/
def decodeCodes : List Byte → Option (List Nat)
  | [] => some []
  | [_] => none
  | a :: b :: l => (decodeCodes l).map fun r => (a.val * 256 + b.val) :: r

/-! ### ToUnicode CMaps (9.10.3) -/

/-- The tokens of a CMap file (it contains no real numbers). -/
def cmapTokens : Nat → List Byte → Option (List (Token Empty))
  | 0, _ => none
  | fuel + 1, bs =>
    match bs.dropWhile isWhite with
    | [] => some []
    | _ :: _ => match nextToken (R := Empty) (fun _ => none) bs with
      | none => none
      | some (t, r) => (cmapTokens fuel r).map fun l => t :: l

/-- UTF-16 code units to one character. -/
def decodeUtf16Char : List Nat → Option Nat
  | [u] => if 0xD800 ≤ u ∧ u < 0xE000 then none else some u
  | [h, l] => if 0xD800 ≤ h ∧ h < 0xDC00 ∧ 0xDC00 ≤ l ∧ l < 0xE000 then
      some (0x10000 + (h - 0xD800) * 0x400 + (l - 0xDC00)) else none
  | _ => none

/-- Exactly `n` pairs of strings, a two-byte code and the UTF-16 of a character, then `endbfchar`. -/
def bfcharEntries : Nat → List (Token Empty) → Option (List (Nat × Nat) × List (Token Empty))
  | 0, .keyword k :: l => if k = ascii "endbfchar" then some ([], l) else none
  | n + 1, .str code :: .str text :: l =>
    match decodeCodes code, (decodeCodes text).bind decodeUtf16Char, bfcharEntries n l with
    | some [g], some c, some (es, l) => some ((c, g) :: es, l)
    | _, _, _ => none
  | _, _ => none

/-- All (character, code) pairs of the `beginbfchar` blocks, each of at most 100 entries. -/
def bfcharPairs : Nat → List (Token Empty) → Option (List (Nat × Nat))
  | 0, _ => none
  | _ + 1, [] => some []
  | fuel + 1, .int n :: .keyword k :: l =>
    if k = ascii "beginbfchar" then
      if 0 ≤ n ∧ n ≤ 100 then
        match bfcharEntries n.toNat l with
        | some (es, l) => (bfcharPairs fuel l).map fun r => es ++ r
        | none => none
      else none
    else bfcharPairs fuel l
  | fuel + 1, _ :: l => bfcharPairs fuel l

/-- The (character, code) pairs of a CMap file. -/
def readToUnicode (fuel : Nat) (bs : List Byte) : Option (List (Nat × Nat)) :=
  (cmapTokens fuel bs).bind (bfcharPairs fuel)

/-! ### Fonts (9.7, 9.8, 9.9, 9.10) -/

/-- An embedded font: its name, its program, the widths of glyphs 0, 1, … and the (character, glyph) pairs. -/
structure FontRead where
  name : List Byte
  program : List Byte
  widths : List Int
  toUnicode : List (Nat × Nat)

section
variable {R : Type} (readReal : List Byte → Option R)

/-- A Type 0 font with `Identity-H` encoding, one TrueType descendant, and an embedded font program. -/
def readFont (fuel : Nat) (file : List Byte) (id : Nat) : Option FontRead := do
  let d ← getDict readReal fuel file id
  let t ← asName (dictGet d (ascii "Type"))
  let st ← asName (dictGet d (ascii "Subtype"))
  let enc ← asName (dictGet d (ascii "Encoding"))
  let base ← asName (dictGet d (ascii "BaseFont"))
  let tu ← asRef (dictGet d (ascii "ToUnicode"))
  let (_, cmap) ← getStream readReal fuel file tu
  let pairs ← readToUnicode fuel cmap
  let desc ← asArray (dictGet d (ascii "DescendantFonts"))
  let desc ← asDict (match desc with
    | [v] => some v
    | _ => none)
  let st' ← asName (dictGet desc (ascii "Subtype"))
  let base' ← asName (dictGet desc (ascii "BaseFont"))
  let w ← asArray (dictGet desc (ascii "W"))
  let ws ← (match w with
    | [.int 0, .array l] => asInts l
    | _ => none)
  let fd ← asRef (dictGet desc (ascii "FontDescriptor"))
  let fd ← getDict readReal fuel file fd
  let fname ← asName (dictGet fd (ascii "FontName"))
  let ff ← asRef (dictGet fd (ascii "FontFile2"))
  let (sd, program) ← getStream readReal fuel file ff
  let len ← asInt (dictGet sd (ascii "Length1"))
  if t = ascii "Font" ∧ st = ascii "Type0" ∧ enc = ascii "Identity-H" ∧ st' = ascii "CIDFontType2" ∧ base' = base ∧
      fname = base ∧ len = program.length then
    return ⟨base, program, ws, pairs⟩
  else none

end

end Verif.Pdf
