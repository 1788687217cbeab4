/- Model of `victor/src/fonts/cmap.rs`, `fonts/tables.rs` and `fonts/mod.rs`. -/
import Verif.Font.Parsing
namespace Verif.Font

/-! The positions of the fields of tables are those that derive(SfntTable) computes (proc-macros/src/lib.rs 51-82)
from the field lists of fonts/tables.rs: the sum of the sizes of the fields before. -/

/-- tables.rs 6-13, `size_of::<OffsetSubtable>()`. -/
def sizeOffsetSubtable : Nat := 12
/-- tables.rs 15-21, `size_of::<TableDirectoryEntry>()`. -/
def sizeTableDirectoryEntry : Nat := 16
/-- tables.rs 33-39, `size_of::<NamingTableHeader>()`. -/
def sizeNamingTableHeader : Nat := 6
/-- tables.rs 41-49, `size_of::<NameRecord>()`. -/
def sizeNameRecord : Nat := 12
/-- tables.rs 51-56, `size_of::<CmapHeader>()`. -/
def sizeCmapHeader : Nat := 4
/-- tables.rs 58-63, `size_of::<CmapEncodingRecord>()`. -/
def sizeCmapEncodingRecord : Nat := 8
/-- tables.rs 65-74, `size_of::<CmapFormat4Header>()`. -/
def sizeCmapFormat4Header : Nat := 14
/-- tables.rs 76-83, `size_of::<CmapFormat12Header>()`. -/
def sizeCmapFormat12Header : Nat := 16
/-- tables.rs 85-90, `size_of::<CmapFormat12Group>()`. -/
def sizeCmapFormat12Group : Nat := 12
/-- tables.rs 136-141, `size_of::<LongHorizontalMetricsRecord>()`. -/
def sizeLongHorizontalMetricsRecord : Nat := 4

/-- A field of a table: the accessor method that derive(SfntTable) generates, which adds the offset of the field,
followed by `read_from`. -/
def fieldU16 (bytes : List Byte) (table off : Nat) : Res Nat := do
  let p ← offsetBytes table off
  readU16 bytes p

/-- Same, for a field of type `FWord`. -/
def fieldI16 (bytes : List Byte) (table off : Nat) : Res Int := do
  let p ← offsetBytes table off
  readI16 bytes p

/-- Same, for a field of type `u32`. -/
def fieldU32 (bytes : List Byte) (table off : Nat) : Res Nat := do
  let p ← offsetBytes table off
  readU32 bytes p

/-- Same, for a field of type `Tag`. -/
def fieldTag (bytes : List Byte) (table off : Nat) : Res (List Byte) := do
  let p ← offsetBytes table off
  readTag bytes p

/-- The ASCII bytes of a tag, as in `#[tag = "..."]`. -/
def tag (s : String) : List Byte := s.toList.map fun c => Fin.ofNat 256 c.toNat

/-- mod.rs 263-270, `find_table`: the tag is at offset 0 of a directory entry, the table's offset at 8. -/
def findTable (bytes : List Byte) (directory : Slice) (t : List Byte) : Res Nat := do
  let search ← directory.binarySearchByKey sizeTableDirectoryEntry t fun entry => fieldTag bytes entry 0
  let entry ← Res.ofOption .missingTable search
  let off ← fieldU32 bytes entry 8
  offsetBytes 0 off

/-- cmap.rs 73-80, `Format4`. -/
structure Format4 where
  segmentCount : Nat
  endCodes : Nat
  startCodes : Nat
  idDeltas : Nat
  idRangeOffsets : Nat
  deriving DecidableEq, Repr

/-- cmap.rs 83-101, `Format4::parse`. -/
def Format4.parse (bytes : List Byte) (encodingHeader : Nat) : Res Format4 := do
  let x2 ← fieldU16 bytes encodingHeader 6
  let segmentCount := x2 / 2
  let endCodes ← followedBy sizeCmapFormat4Header encodingHeader
  let n ← addU32 segmentCount 1
  let startCodes ← offset 2 endCodes n
  let idDeltas ← offset 2 startCodes segmentCount
  let idRangeOffsets ← offset 2 idDeltas segmentCount
  pure ⟨segmentCount, endCodes, startCodes, idDeltas, idRangeOffsets⟩

/-- `self.<array>.offset(segment_index).read_from(bytes)`. -/
def readElement (bytes : List Byte) (array index : Nat) : Res Nat := do
  let p ← offset 2 array index
  readU16 bytes p

/-- cmap.rs 165-177: the value of the local variable `glyph_id` in `Format4::glyph_id`. -/
def Format4.rawGlyph (bytes : List Byte) (position idDelta idRangeOffset startCode codePoint : Nat) : Res Nat :=
  if idRangeOffset ≠ 0 then do
    let d ← subU32 codePoint startCode
    let p ← offset 2 position d
    let p ← offsetBytes p idRangeOffset
    let result ← readU16 bytes p
    if result ≠ 0 then pure ((result + idDelta) % 65536) else pure 0
  else pure ((codePoint + idDelta) % 65536)

/-- cmap.rs 154-179, `Format4::glyph_id`. -/
def Format4.glyphId (t : Format4) (bytes : List Byte) (segmentIndex startCode codePoint : Nat) :
    Res (Option Nat) := do
  let idDelta ← readElement bytes t.idDeltas segmentIndex
  let position ← offset 2 t.idRangeOffsets segmentIndex
  let idRangeOffset ← readU16 bytes position
  let glyphId ← Format4.rawGlyph bytes position idDelta idRangeOffset startCode codePoint
  if glyphId ≠ 0 then pure (some glyphId) else pure none

/-- cmap.rs 103-128, `Format4::get`. -/
def Format4.get (t : Format4) (bytes : List Byte) (codePoint : Nat) : Res (Option Nat) :=
  if codePoint > 0xFFFF then pure none
  else do
    let found ← binarySearch t.segmentCount fun segmentIndex => do
      let e ← readElement bytes t.endCodes segmentIndex
      if codePoint > e then pure Ordering.lt
      else do
        let s ← readElement bytes t.startCodes segmentIndex
        if codePoint < s then pure Ordering.gt else pure Ordering.eq
    match found with
    | some segmentIndex => do
      let startCode ← readElement bytes t.startCodes segmentIndex
      t.glyphId bytes segmentIndex startCode codePoint
    | none => pure none

/-- cmap.rs 137-149: the inner loop of `Format4::each_code_point`. `room` is `0xFFFF - code_point`; when it is 0 the
increment of the `u16` overflows. The calls of `f` are returned as a list. When the loop ends with an error the calls
made before it are dropped, as by the only caller (pdf/convert.rs `add_font`, which then fails). -/
def Format4.segmentLoop (t : Format4) (bytes : List Byte) (segmentIndex startCode endCode : Nat) :
    Nat → Nat → Res (List (Nat × Nat))
  | room, codePoint => do
    let g ← t.glyphId bytes segmentIndex startCode codePoint
    let calls := match g with
      | some g => [(codePoint, g)]
      | none => []
    if codePoint = endCode then pure calls
    else match room with
      | 0 => .panic
      | room + 1 => do
        let more ← Format4.segmentLoop t bytes segmentIndex startCode endCode room (codePoint + 1)
        pure (calls ++ more)

/-- cmap.rs 134-151: the outer loop of `Format4::each_code_point`, over the segment indices `i..i + n`. -/
def Format4.segments (t : Format4) (bytes : List Byte) : Nat → Nat → Res (List (Nat × Nat))
  | 0, _ => pure []
  | n + 1, i => do
    let startCode ← readElement bytes t.startCodes i
    let endCode ← readElement bytes t.endCodes i
    let calls ← t.segmentLoop bytes i startCode endCode (65535 - startCode) startCode
    let more ← Format4.segments t bytes n (i + 1)
    pure (calls ++ more)

/-- cmap.rs 130-152, `Format4::each_code_point`. -/
def Format4.eachCodePoint (t : Format4) (bytes : List Byte) : Res (List (Nat × Nat)) :=
  t.segments bytes t.segmentCount 0

/-- cmap.rs 187-197, `Format12::parse`; a `Format12` (182-184) is its slice of groups. -/
def Format12.parse (bytes : List Byte) (encodingHeader : Nat) : Res Slice := do
  let start ← followedBy sizeCmapFormat12Header encodingHeader
  let count ← fieldU32 bytes encodingHeader 12
  pure ⟨start, count⟩

/-- cmap.rs 199-228, `Format12::get`. -/
def Format12.get (groups : Slice) (bytes : List Byte) (codePoint : Nat) : Res (Option Nat) := do
  let found ← binarySearch groups.count fun index => do
    let group ← groups.getUnchecked sizeCmapFormat12Group index
    let s ← fieldU32 bytes group 0
    if codePoint < s then pure Ordering.gt
    else do
      let e ← fieldU32 bytes group 4
      if codePoint > e then pure Ordering.lt else pure Ordering.eq
  match found with
  | some index => do
    let group ← groups.getUnchecked sizeCmapFormat12Group index
    let startGlyphId ← fieldU32 bytes group 8
    let s ← fieldU32 bytes group 0
    let d ← subU32 codePoint s
    let id32 ← addU32 startGlyphId d
    if id32 ≤ 0xFFFF then pure (some id32) else pure none
  | none => pure none

/-- cmap.rs 238-247: the inner loop of `Format12::each_code_point`. `room` is `0xFFFF_FFFF - code_point`; when it is 0
the increment of the `u32` overflows. `as u16` keeps the low 16 bits. -/
def Format12.groupLoop (startCode endCode startGlyphId : Nat) : Nat → Nat → Res (List (Nat × Nat))
  | room, codePoint => do
    let d ← subU32 codePoint startCode
    let glyphId ← addU32 d startGlyphId
    let call := (codePoint, glyphId % 65536)
    if codePoint = endCode then pure [call]
    else match room with
      | 0 => .panic
      | room + 1 => do
        let more ← Format12.groupLoop startCode endCode startGlyphId room (codePoint + 1)
        pure (call :: more)

/-- cmap.rs 234-249: the outer loop of `Format12::each_code_point`. `fuel` bounds the number of groups visited;
`count + 1` is enough (`format12_fuel`). -/
def Format12.groupsLoop (bytes : List Byte) : Nat → SliceIter → Res (List (Nat × Nat))
  | 0, _ => .panic
  | fuel + 1, it => do
    match ← it.next sizeCmapFormat12Group with
    | none => pure []
    | some (group, it) => do
      let startCode ← fieldU32 bytes group 0
      let endCode ← fieldU32 bytes group 4
      let startGlyphId ← fieldU32 bytes group 8
      let calls ← Format12.groupLoop startCode endCode startGlyphId (4294967295 - startCode) startCode
      let more ← Format12.groupsLoop bytes fuel it
      pure (calls ++ more)

/-- cmap.rs 230-250, `Format12::each_code_point`. -/
def Format12.eachCodePoint (groups : Slice) (bytes : List Byte) : Res (List (Nat × Nat)) := do
  let it ← groups.intoIter sizeCmapFormat12Group
  Format12.groupsLoop bytes (groups.count + 1) it

/-- cmap.rs 7-10, `Cmap`. -/
inductive Cmap where
  | format4 (table : Format4)
  | format12 (groups : Slice)
  deriving DecidableEq, Repr

/-- cmap.rs 25-44: the body of the loop of `Cmap::parse`; `some` is an early `return`. -/
def Cmap.record (bytes : List Byte) (cmapHeader record : Nat) : Res (Option Cmap) := do
  let o ← fieldU32 bytes record 4
  let subtable ← offsetBytes cmapHeader o
  let format ← readU16 bytes subtable
  let platformId ← fieldU16 bytes record 0
  let encodingId ← fieldU16 bytes record 2
  if platformId = 3 ∧ encodingId = 1 ∧ format = 4 then do
    let t ← Format4.parse bytes subtable
    pure (some (.format4 t))
  else if platformId = 3 ∧ encodingId = 10 ∧ format = 12 then do
    let g ← Format12.parse bytes subtable
    pure (some (.format12 g))
  else pure none

/-- cmap.rs 13-48, `Cmap::parse`: `.rev()` calls `next_back`. -/
def Cmap.parse (bytes : List Byte) (directory : Slice) : Res Cmap := do
  let cmapHeader ← findTable bytes directory (tag "cmap")
  let start ← followedBy sizeCmapHeader cmapHeader
  let count ← fieldU16 bytes cmapHeader 2
  let records : Slice := ⟨start, count⟩
  let it ← records.intoIter sizeCmapEncodingRecord
  let r ← forLoop (SliceIter.nextBack sizeCmapEncodingRecord) (Cmap.record bytes cmapHeader) (count + 1) it
  Res.ofOption .noSupportedCmap r

/-- `char::from_u32`: whether a number is a Unicode scalar value. -/
def isChar (c : Nat) : Bool := decide (c < 0xD800) || (decide (0xDFFF < c) && decide (c ≤ 0x10FFFF))

/-- cmap.rs 66-69: the match of `Cmap::each_code_point`. -/
def Cmap.calls (t : Cmap) (bytes : List Byte) : Res (List (Nat × Nat)) :=
  match t with
  | .format4 t => t.eachCodePoint bytes
  | .format12 g => Format12.eachCodePoint g bytes

/-- cmap.rs 50-70, `Cmap::each_code_point`. -/
def Cmap.eachCodePoint (t : Cmap) (bytes : List Byte) : Res (List (Nat × Nat)) := do
  let calls ← t.calls bytes
  pure (calls.filter fun call => decide (call.2 ≠ 0) && isChar call.1)

/-- The parts of `read_postscript_name` that decode bytes to text. -/
inductive NameText where
  /-- mod.rs 203-205, `decode_macintosh`: `String::from_utf8_lossy` of these bytes (not modelled further). -/
  | utf8Lossy (bytes : List Byte)
  /-- Characters by scalar value. -/
  | chars (scalars : List Nat)
  deriving DecidableEq, Repr

/-- mod.rs 208-219, `decode_ucs2`. -/
def decodeUcs2 : List Byte → List Nat
  | [] => []
  | [_] => [0xFFFD]
  | a :: b :: rest => (if a.val ≠ 0 then 0xFFFD else b.val) :: decodeUcs2 rest

/-- mod.rs 228-234: the closure `string_bytes`. -/
def nameBytes (bytes : List Byte) (storage record : Nat) : Res (List Byte) := do
  let o ← fieldU16 bytes record 10
  let start ← offsetBytes storage o
  let length ← fieldU16 bytes record 8
  (Slice.mk start length).readBytes bytes

/-- mod.rs 236-254: the body of the loop over name records; `some` is an early `return`. -/
def nameRecord (bytes : List Byte) (storage record : Nat) : Res (Option NameText) := do
  let nameId ← fieldU16 bytes record 6
  if nameId ≠ 6 then pure none
  else do
    let platform ← fieldU16 bytes record 0
    let encoding ← fieldU16 bytes record 2
    if platform = 1 then do
      let s ← nameBytes bytes storage record
      pure (some (.utf8Lossy s))
    else if platform = 3 ∧ encoding = 1 then do
      let s ← nameBytes bytes storage record
      pure (some (.chars (decodeUcs2 s)))
    else pure none

/-- mod.rs 198-257, `read_postscript_name`. -/
def readPostscriptName (bytes : List Byte) (directory : Slice) : Res NameText := do
  let header ← findTable bytes directory (tag "name")
  let start ← followedBy sizeNamingTableHeader header
  let count ← fieldU16 bytes header 2
  let o ← fieldU16 bytes header 4
  let storage ← offsetBytes header o
  let records : Slice := ⟨start, count⟩
  let it ← records.intoIter sizeNameRecord
  let r ← forLoop (SliceIter.next sizeNameRecord) (nameRecord bytes storage) (count + 1) it
  Res.ofOption .noSupportedPostscriptName r

/-- mod.rs 48-67, `Font`. Lengths in design units are integers; `font_design_units_per_em` is kept as the integer that
`cast()` converts to `f32`, which is exact. -/
structure Font where
  bytes : List Byte
  cmap : Cmap
  postscriptName : NameText
  glyphCount : Nat
  unitsPerEm : Nat
  horizontalMetrics : Slice
  ascender : Int
  descender : Int
  minX : Int
  minY : Int
  maxX : Int
  maxY : Int
  deriving DecidableEq, Repr

/-- mod.rs 76-124, `Font::parse`, `parse_cow` and `parse_without_cow_bytes_field`. Field offsets: scaler_type 0 and
table_count 4 (tables.rs 6-13); num_glyphs 4 (23-31); units_per_em 18, min_x 36, min_y 38, max_x 40, max_y 42 (92-113);
ascender 4, descender 6, number_of_long_horizontal_metrics 34 (115-137). -/
def Font.parse (bytes : List Byte) : Res Font := do
  let scalerType ← fieldU32 bytes 0 0
  if scalerType ≠ 0x74727565 ∧ scalerType ≠ 0x00010000 then .err .unsupportedFormat
  else do
    let start ← followedBy sizeOffsetSubtable 0
    let count ← fieldU16 bytes 0 4
    let directory : Slice := ⟨start, count⟩
    let maxp ← findTable bytes directory (tag "maxp")
    let header ← findTable bytes directory (tag "head")
    let glyphCount ← fieldU16 bytes maxp 4
    let horizontalHeader ← findTable bytes directory (tag "hhea")
    let postscriptName ← readPostscriptName bytes directory
    let cmap ← Cmap.parse bytes directory
    let hmtx ← findTable bytes directory (tag "hmtx")
    let metricsCount ← fieldU16 bytes horizontalHeader 34
    let unitsPerEm ← fieldU16 bytes header 18
    let ascender ← fieldI16 bytes horizontalHeader 4
    let descender ← fieldI16 bytes horizontalHeader 6
    let minX ← fieldI16 bytes header 36
    let minY ← fieldI16 bytes header 38
    let maxX ← fieldI16 bytes header 40
    let maxY ← fieldI16 bytes header 42
    pure {
      bytes, cmap, postscriptName, glyphCount, unitsPerEm
      horizontalMetrics := ⟨hmtx, metricsCount⟩
      ascender, descender, minX, minY, maxX, maxY }

/-- mod.rs 136-141, `Font::each_code_point`. -/
def Font.eachCodePoint (font : Font) : Res (List (Nat × Nat)) := font.cmap.eachCodePoint font.bytes

/-- mod.rs 145-148: the match of `Font::glyph_id`. -/
def Font.lookup (font : Font) (ch : Nat) : Res (Option Nat) :=
  match font.cmap with
  | .format4 t => t.get font.bytes ch
  | .format12 g => Format12.get g font.bytes ch

/-- mod.rs 143-151, `Font::glyph_id`. -/
def Font.glyphId (font : Font) (ch : Nat) : Res Nat := do
  let result ← font.lookup ch
  pure (result.getD 0)

/-- `u32::checked_sub`. -/
def checkedSub (a b : Nat) : Option Nat := if b ≤ a then some (a - b) else none

/-- mod.rs 153-176, `Font::glyph_width` and `to_ems`. `ems a u` is the `f32` quotient of two integers that `f32`
represents exactly; it is a parameter. -/
def Font.glyphWidth {R : Type} (ems : Int → Nat → R) (font : Font) (glyphId : Nat) : Res R := do
  let lastIndex ← Res.ofOption .noHorizontalGlyphMetrics (checkedSub font.horizontalMetrics.count 1)
  let index := min glyphId lastIndex
  let record ← font.horizontalMetrics.getUnchecked sizeLongHorizontalMetricsRecord index
  let w ← fieldU16 font.bytes record 0
  pure (ems w font.unitsPerEm)

end Verif.Font
