import Verif.Pdf.File
/- Model of pdf/convert.rs and pdf/mod.rs: documents, pages and their contents. -/
namespace Verif.Pdf

/-- The operations on `f32` which the code uses. -/
structure Floats (R : Type) where
  /-- `0.` and `1.` (convert.rs 151-152). -/
  zero : R
  one : R
  /-- convert.rs 15-16: 0.75 and -0.75. -/
  scaleX : R
  scaleY : R
  mul : R → R → R
  neg : R → R
  /-- `!=`. -/
  ne : R → R → Bool
  /-- convert.rs 243 `alpha.max(0.).min(1.)`. -/
  clampUnit : R → R
  /-- convert.rs 252 `(alpha * (u16::max_value() as f32)) as u16`. -/
  key : R → Nat
  /-- `dtoa::write`. -/
  dtoa : R → List Byte

/-- What convert.rs 268-397 asks of a font. `E` is the type of font errors. Sizes are in thousandths of an em, as
converted to `i32` in object.rs 100-109. -/
structure FontView (E : Type) where
  bytes : List Byte
  postscriptName : List Byte
  minX : Int
  minY : Int
  maxX : Int
  maxY : Int
  ascender : Int
  descender : Int
  /-- The calls that `each_code_point` makes (character, glyph), and the error it ends with, if any. -/
  codePoints : List (Nat × Nat)
  codePointsError : Option E
  glyphCount : Nat
  glyphWidth : Nat → Except E Int

/-- convert.rs 18-25 `InProgressDoc`. The hash maps are association lists: `fonts` is indexed by the address of the
font (61-92). -/
structure Doc (R : Type) where
  pdf : PdfFile
  pageIds : List (Object R)
  extendedGraphicsStates : List (List Byte × Object R)
  fontResources : List (List Byte × Object R)
  alphaStates : List (Nat × List Byte)
  fonts : List (Nat × List Byte)

/-- convert.rs 28-37 `InProgressDoc::new`. -/
def Doc.new {R : Type} : Doc R := ⟨.new, [], [], [], [], []⟩

/-- convert.rs 94-99 `InProgressPage` and 122-125 `GraphicsState`, without the document. -/
structure Page (R : Type) where
  width : R
  height : R
  operations : List Byte
  rgb : R × R × R
  alpha : R

section
variable {R : Type} (F : Floats R)

/-- convert.rs 39-58 `write`: the three fixed dictionaries. -/
def Doc.basic (d : Doc R) : BasicObjects R where
  pageTree := .root (.ofList [
    (ascii "Type", .name (ascii "Pages")),
    (ascii "Count", .usize d.pageIds.length),
    (ascii "Kids", .array (.ofList d.pageIds)),
    (ascii "Resources", .dict (.root (.ofList [
      (ascii "Font", .owned (.ofList d.fontResources)),
      (ascii "ExtGState", .owned (.ofList d.extendedGraphicsStates))])))])
  catalog := .root (.ofList [
    (ascii "Type", .name (ascii "Catalog")),
    (ascii "Pages", .ref pageTreeId)])
  info := .root (.ofList [
    (ascii "Producer", .literal (ascii "Victor <https://github.com/SimonSapin/victor>"))])

/-- convert.rs 39-58 `write`, pdf/mod.rs 54-56 `write_to_pdf` and 40-45 `write_to_pdf_bytes`. -/
def Doc.write (d : Doc R) : List Byte := d.pdf.write F.dtoa d.basic

/-- convert.rs 127-141 `op!`. -/
def opBytes : List (Object R) → List Byte → List Byte
  | [], operator => operator ++ [10]
  | o :: os, operator => o.write F.dtoa ++ 32 :: opBytes os operator

/-- convert.rs 127-141 `op!`, on a page. -/
def Page.op (p : Page R) (operands : List (Object R)) (operator : List Byte) : Page R :=
  { p with operations := p.operations ++ opBytes F operands operator }

/-- convert.rs 144-166 `InProgressPage::new`. -/
def Page.new (width height : R) : Page R :=
  (Page.mk width height [] (F.zero, F.zero, F.zero) F.one).op F
    [.float F.scaleX, .i32 0, .i32 0, .float F.scaleY, .i32 0, .i32 0] (ascii "cm")

/-- First value of a key. -/
def assocGet (l : List (Nat × List Byte)) (k : Nat) : Option (List Byte) :=
  match l with
  | [] => none
  | e :: l => if e.1 = k then some e.2 else assocGet l k

/-- convert.rs 242-266 `set_alpha`. -/
def setAlpha (d : Doc R) (p : Page R) (alpha : R) : Doc R × Page R :=
  let alpha := F.clampUnit alpha
  if F.ne alpha p.alpha then
    let p := { p with alpha := alpha }
    let hashKey := F.key alpha
    let nextId := d.alphaStates.length
    match assocGet d.alphaStates hashKey with
    | some pdfKey => (d, p.op F [.name pdfKey] (ascii "gs"))
    | none =>
      let pdfKey := ascii "a" ++ decimal nextId
      ({ d with
          extendedGraphicsStates := d.extendedGraphicsStates ++ [(pdfKey, .alpha alpha)]
          alphaStates := d.alphaStates ++ [(hashKey, pdfKey)] },
        p.op F [.name pdfKey] (ascii "gs"))
  else (d, p)

/-- `!=` on a tuple of three floats. -/
def Floats.ne3 (a b : R × R × R) : Bool := F.ne a.1 b.1 || F.ne a.2.1 b.2.1 || F.ne a.2.2 b.2.2

/-- convert.rs 168-174 `set_color`. -/
def setColor (d : Doc R) (p : Page R) (r g b a : R) : Doc R × Page R :=
  let p := if F.ne3 p.rgb (r, g, b) then
      { p with rgb := (r, g, b) }.op F [.float r, .float g, .float b] (ascii "rg")
    else p
  setAlpha F d p a

/-- convert.rs 176-186 `paint_rectangle`. -/
def paintRectangle (p : Page R) (x y w h : R) : Page R :=
  (p.op F [.float x, .float y, .float w, .float h] (ascii "re")).op F [] (ascii "f")

/-- Rust `{:04x}` of a `u16`. -/
def hex4 (n : Nat) : List Byte :=
  let h (k : Nat) : Byte := (ascii "0123456789abcdef").getD (k % 16) 0
  [h (n / 4096), h (n / 256), h (n / 16), h n]

/-- Rust `char::encode_utf16`. -/
def encodeUtf16 (c : Nat) : List Nat :=
  if c < 0x10000 then [c] else [0xD800 + (c - 0x10000) / 0x400, 0xDC00 + (c - 0x10000) % 0x400]

/-- convert.rs 316-322: one line. -/
def bfcharLine (e : Nat × Nat) : List Byte :=
  ascii "<" ++ hex4 e.2 ++ ascii "> <" ++ (encodeUtf16 e.1).flatMap hex4 ++ ascii ">\n"

/-- convert.rs 314-324 `write_bfchar`. -/
def bfcharBlock (l : List (Nat × Nat)) : List Byte :=
  decimal l.length ++ ascii " beginbfchar\n" ++ l.flatMap bfcharLine ++ ascii "endbfchar\n"

/-- convert.rs 326-341: the entries are buffered in arrays of 100 (`buf` is the part before `i`), a full buffer is
written when one more entry comes, the rest at the end. -/
def bfcharBlocks (buf : List (Nat × Nat)) : List (Nat × Nat) → List Byte
  | [] => if buf.length > 0 then bfcharBlock buf else []
  | e :: es => if buf.length ≥ 100 then bfcharBlock buf ++ bfcharBlocks [e] es else bfcharBlocks (buf ++ [e]) es

/-- convert.rs 300-312. -/
def toUnicodeHeader : List Byte :=
  ascii "/CIDInit /ProcSet findresource begin\n" ++ ascii "12 dict begin\n" ++ ascii "begincmap\n" ++
  ascii "/CIDSystemInfo\n" ++ ascii "<< /Registry (Adobe) /Ordering (UCS) /Supplement 0 >> def\n" ++
  ascii "/CMapName /Adobe-Identity-UCS def\n" ++ ascii "/CMapType 2 def\n" ++ ascii "1 begincodespacerange\n" ++
  ascii "<0000> <ffff>\n" ++ ascii "endcodespacerange\n"

/-- convert.rs 343-351. -/
def toUnicodeFooter : List Byte :=
  ascii "endcmap\n" ++ ascii "CMapName currentdict /CMap defineresource pop\n" ++ ascii "end\n" ++ ascii "end"

/-- convert.rs 299-351: the ToUnicode CMap. -/
def toUnicodeCMap (l : List (Nat × Nat)) : List Byte := toUnicodeHeader ++ bfcharBlocks [] l ++ toUnicodeFooter

/-- convert.rs 361-363: the widths of glyphs `i`, `i + 1`, …, `n` of them, up to the first error. -/
def glyphWidths {E : Type} (width : Nat → Except E Int) : Nat → Nat → Except E (List (Object R))
  | _, 0 => .ok []
  | i, n + 1 =>
    match width i with
    | .error e => .error e
    | .ok w => match glyphWidths width (i + 1) n with
      | .error e => .error e
      | .ok ws => .ok (.i32 w :: ws)

/-- convert.rs 281-297. -/
def fontDescriptor {E : Type} (font : FontView E) (truetypeId : Nat) : Dictionary R := .root (.ofList [
  (ascii "Type", .name (ascii "FontDescriptor")),
  (ascii "FontName", .name font.postscriptName),
  (ascii "FontBBox", .array (.ofList [.i32 font.minX, .i32 font.minY, .i32 font.maxX, .i32 font.maxY])),
  (ascii "Ascent", .i32 font.ascender),
  (ascii "Descent", .i32 font.descender),
  (ascii "FontFile2", .ref truetypeId),
  (ascii "ItalicAngle", .i32 0),
  (ascii "Flags", .i32 4),
  (ascii "CapHeight", .i32 font.maxY),
  (ascii "StemV", .i32 80),
  (ascii "StemH", .i32 80)])

/-- convert.rs 364-389. -/
def fontDict {E : Type} (font : FontView E) (toUnicodeId fontDescriptorId : Nat) (widths : List (Object R)) :
    Dictionary R := .root (.ofList [
  (ascii "Type", .name (ascii "Font")),
  (ascii "Subtype", .name (ascii "Type0")),
  (ascii "BaseFont", .name font.postscriptName),
  (ascii "ToUnicode", .ref toUnicodeId),
  (ascii "Encoding", .name (ascii "Identity-H")),
  (ascii "DescendantFonts", .array (.ofList [.dict (.root (.ofList [
    (ascii "Type", .name (ascii "Font")),
    (ascii "Subtype", .name (ascii "CIDFontType2")),
    (ascii "BaseFont", .name font.postscriptName),
    (ascii "CIDSystemInfo", .dict (.root (.ofList [
      (ascii "Registry", .literal (ascii "Adobe")),
      (ascii "Ordering", .literal (ascii "Identity")),
      (ascii "Supplement", .i32 0)]))),
    (ascii "FontDescriptor", .ref fontDescriptorId),
    (ascii "W", .array (.ofList [.i32 0, .array (.ofList widths)]))]))]))])

/-- convert.rs 268-397 `add_font`, for the font at address `addr`. -/
def addFont {E : Type} (d : Doc R) (addr : Nat) (font : FontView E) : Doc R × Except E (List Byte) :=
  let nextId := d.fonts.length
  match assocGet d.fonts addr with
  | some key => (d, .ok key)
  | none =>
    let (pdf, truetypeId) := d.pdf.addStream F.dtoa
      (.root (.ofList [(ascii "Length1", .usize font.bytes.length)]) : Dictionary R) font.bytes
    let (pdf, fontDescriptorId) := pdf.addDictionary F.dtoa (fontDescriptor font truetypeId)
    match font.codePointsError with
    | some e => ({ d with pdf := pdf }, .error e)
    | none =>
      let (pdf, toUnicodeId) := pdf.addStream F.dtoa (.root .nil : Dictionary R) (toUnicodeCMap font.codePoints)
      match glyphWidths font.glyphWidth 0 font.glyphCount with
      | .error e => ({ d with pdf := pdf }, .error e)
      | .ok widths =>
        let (pdf, fontDictId) := pdf.addDictionary F.dtoa (fontDict font toUnicodeId fontDescriptorId widths)
        let pdfKey := ascii "f" ++ decimal nextId
        ({ d with
            pdf := pdf
            fontResources := d.fontResources ++ [(pdfKey, .ref fontDictId)]
            fonts := d.fonts ++ [(addr, pdfKey)] },
          .ok pdfKey)

/-- convert.rs 198-203: two bytes per glyph, big-endian. -/
def glyphCodes : List Nat → List Byte
  | [] => []
  | id :: ids => Fin.ofNat 256 (id / 256) :: Fin.ofNat 256 id :: glyphCodes ids

/-- convert.rs 204-216: the operations that show text. -/
def showTextOps (p : Page R) (fontKey : List Byte) (glyphs : List Nat) (fontSize ox oy : R) : Page R :=
  let p := p.op F [] (ascii "BT")
  let p := p.op F [.name fontKey, .i32 1] (ascii "Tf")
  let p := p.op F [.float fontSize, .i32 0, .i32 0, .float (F.neg fontSize), .float ox, .float oy] (ascii "Tm")
  let p := p.op F [.hex (glyphCodes glyphs)] (ascii "Tj")
  p.op F [] (ascii "ET")

/-- convert.rs 188-240 `show_text`. -/
def showText {E : Type} (d : Doc R) (p : Page R) (addr : Nat) (font : FontView E) (glyphs : List Nat)
    (fontSize ox oy : R) : Doc R × Page R × Except E Unit :=
  match addFont F d addr font with
  | (d, .error e) => (d, p, .error e)
  | (d, .ok fontKey) => (d, showTextOps F p fontKey glyphs fontSize ox oy, .ok ())

/-- convert.rs 101-120: what happens when the page is dropped. -/
def dropPage (d : Doc R) (p : Page R) : Doc R :=
  let (pdf, contentId) := d.pdf.addStream F.dtoa (.root .nil : Dictionary R) p.operations
  let (pdf, pageId) := pdf.addDictionary F.dtoa (.root (.ofList [
    (ascii "Type", .name (ascii "Page")),
    (ascii "Parent", .ref pageTreeId),
    (ascii "Contents", .ref contentId),
    (ascii "MediaBox", .array (.ofList [.i32 0, .i32 0, .float (F.mul p.width F.scaleX),
      .float (F.mul p.height F.scaleY)]))]) : Dictionary R)
  { d with pdf := pdf, pageIds := d.pageIds ++ [.ref pageId] }

/-- The calls of the public API on a page (pdf/mod.rs 59-74). A font is given by its address. -/
inductive PageOp (R : Type) where
  | color (r g b a : R)
  | rect (x y w h : R)
  | text (font : Nat) (glyphs : List Nat) (fontSize ox oy : R)

/-- One call (pdf/mod.rs 60-73). An error of `show_text` is returned to the caller, who may go on. -/
def runOp {E : Type} (font : Nat → FontView E) (s : Doc R × Page R) : PageOp R → Doc R × Page R
  | .color r g b a => setColor F s.1 s.2 r g b a
  | .rect x y w h => (s.1, paintRectangle F s.2 x y w h)
  | .text f glyphs fontSize ox oy =>
    let (d, p, _) := showText F s.1 s.2 f (font f) glyphs fontSize ox oy
    (d, p)

/-- What a caller does with one page: its size and the calls made on it. -/
structure PageCalls (R : Type) where
  width : R
  height : R
  ops : List (PageOp R)

/-- pdf/mod.rs 28-32 `add_page`, the calls, and the drop of the page (leaking the page with `mem::forget` is not
modelled). -/
def runPage {E : Type} (font : Nat → FontView E) (d : Doc R) (c : PageCalls R) : Doc R :=
  let s := c.ops.foldl (runOp F font) (d, Page.new F c.width c.height)
  dropPage F s.1 s.2

/-- A history of calls on a document (pdf/mod.rs 21-32). While a page exists the document is borrowed: pages cannot
be interleaved. -/
def runDoc {E : Type} (font : Nat → FontView E) (pages : List (PageCalls R)) : Doc R :=
  pages.foldl (runPage F font) Doc.new

end

end Verif.Pdf
