/- Small complete font files, as witnesses for the font theorems. -/
import Verif.Font.Theorems
namespace Verif.Font

/-- A big-endian 16-bit number. -/
def be16 (n : Nat) : List Byte := [Fin.ofNat 256 (n / 256), Fin.ofNat 256 n]
/-- A big-endian 32-bit number. -/
def be32 (n : Nat) : List Byte := be16 (n / 65536) ++ be16 n

/-- A format 4 map: "A" to "C" by a glyph array, "a" to "c" by a delta, and the final segment. -/
def sampleFormat4 : List Byte :=
  be16 4 ++ be16 0 ++ be16 0 ++ be16 6 ++ be16 0 ++ be16 0 ++ be16 0 ++
  be16 67 ++ be16 99 ++ be16 65535 ++ be16 0 ++
  be16 65 ++ be16 97 ++ be16 65535 ++
  be16 1 ++ be16 65441 ++ be16 1 ++
  be16 6 ++ be16 0 ++ be16 0 ++
  be16 4 ++ be16 0 ++ be16 8

/-- The segments of `sampleFormat4`. -/
def sampleSegs : List Seg := [⟨65, 67, 1, 6⟩, ⟨97, 99, 65441, 0⟩, ⟨65535, 65535, 1, 0⟩]

/-- A format 12 map of "A" and "B", and of one character outside the first 2^16, from the given glyph. -/
def sampleFormat12 (glyph : Nat) : List Byte :=
  be16 12 ++ be16 0 ++ be32 40 ++ be32 0 ++ be32 2 ++
  be32 65 ++ be32 66 ++ be32 glyph ++
  be32 0x1F600 ++ be32 0x1F600 ++ be32 9

/-- The groups of `sampleFormat12`. -/
def sampleGroups (glyph : Nat) : List Group := [⟨65, 66, glyph⟩, ⟨0x1F600, 0x1F600, 9⟩]

/-- An entry of the table directory. -/
def entry (t : String) (off : Nat) : List Byte := tag t ++ be32 0 ++ be32 off ++ be32 0

/-- A font file with six tables, the last of which is the character map `cmap`. -/
def sampleFile (cmap : List Byte) : List Byte :=
  be32 0x00010000 ++ be16 6 ++ be16 0 ++ be16 0 ++ be16 0 ++
  entry "cmap" 246 ++ entry "head" 108 ++ entry "hhea" 162 ++ entry "hmtx" 206 ++ entry "maxp" 198 ++ entry "name" 214 ++
  -- head, at 108
  (be32 0 ++ be32 0 ++ be32 0 ++ be32 0 ++ be16 0 ++ be16 1000 ++ be32 0 ++ be32 0 ++ be32 0 ++ be32 0 ++
    be16 65436 ++ be16 65336 ++ be16 1100 ++ be16 900 ++ be16 0 ++ be16 0 ++ be16 0 ++ be16 0 ++ be16 0) ++
  -- hhea, at 162
  (be32 0 ++ be16 800 ++ be16 65336 ++ be32 0 ++ be32 0 ++ be32 0 ++ be32 0 ++ be32 0 ++ be32 0 ++ be16 0 ++ be16 2) ++
  -- maxp, at 198
  (be32 0 ++ be16 10 ++ be16 0) ++
  -- hmtx, at 206
  (be16 500 ++ be16 0 ++ be16 600 ++ be16 0) ++
  -- name, at 214: two records, the second is the PostScript name "Ab"
  (be16 0 ++ be16 2 ++ be16 30 ++
    (be16 3 ++ be16 1 ++ be16 0 ++ be16 4 ++ be16 2 ++ be16 0) ++
    (be16 1 ++ be16 0 ++ be16 0 ++ be16 6 ++ be16 2 ++ be16 0) ++ [65, 98]) ++
  -- cmap, at 246
  cmap

/-- A `cmap` table with a Macintosh record, a Microsoft record for the given encoding and the subtable, and an empty
record before the subtable. -/
def twoRecords (encoding : Nat) (subtable : List Byte) : List Byte :=
  be16 0 ++ be16 2 ++ (be16 1 ++ be16 0 ++ be32 28) ++ (be16 3 ++ be16 encoding ++ be32 28) ++ be32 0 ++ be32 0 ++ subtable

/-- A `cmap` table with only a Microsoft record, followed by the subtable at once, as the format has it. -/
def oneRecord (encoding : Nat) (subtable : List Byte) : List Byte :=
  be16 0 ++ be16 1 ++ (be16 3 ++ be16 encoding ++ be32 12) ++ subtable

/-- The font that parsing the sample file gives. -/
def sampleParsed (bytes : List Byte) (cmap : Cmap) : Font where
  bytes := bytes
  cmap := cmap
  postscriptName := .utf8Lossy [65, 98]
  glyphCount := 10
  unitsPerEm := 1000
  horizontalMetrics := ⟨206, 2⟩
  ascender := 800
  descender := -200
  minX := -100
  minY := -200
  maxX := 1100
  maxY := 900

/-- Sample file with a format 4 map. -/
def sample4 : List Byte := sampleFile (twoRecords 1 sampleFormat4)
/-- Sample file with a format 12 map. -/
def sample12 (glyph : Nat) : List Byte := sampleFile (twoRecords 10 (sampleFormat12 glyph))

theorem sample4_parse : Font.parse sample4 = .ok (sampleParsed sample4 (.format4 (table4 274 3))) := by decide +kernel

theorem sample12_parse : Font.parse (sample12 65537) = .ok (sampleParsed (sample12 65537) (.format12 ⟨290, 2⟩)) := by
  decide +kernel

theorem bytesAt_of_take {bytes : List Byte} {p : Nat} {s : List Byte} (h : p + s.length ≤ bytes.length)
    (h' : (bytes.drop p).take s.length = s) : BytesAt bytes p s := (bytesAt_iff _ _ _).2 ⟨h, h'⟩

theorem u16At_of_read {bytes : List Byte} {p v : Nat} (h : readU16 bytes p = .ok v) : U16At bytes p v := readU16_ok h

theorem forall_lt_three {P : ∀ i, i < 3 → Prop} (h0 : P 0 (by omega)) (h1 : P 1 (by omega)) (h2 : P 2 (by omega)) :
    ∀ i (hi : i < 3), P i hi := by
  intro i hi
  match i, hi with
  | 0, _ => exact h0
  | 1, _ => exact h1
  | 2, _ => exact h2

theorem sample4_at : Format4At sample4 274 sampleSegs where
  inside := by decide +kernel
  segCountX2 := readU16_ok (by decide +kernel)
  ends := forall_lt_three (readU16_ok (by decide +kernel)) (readU16_ok (by decide +kernel)) (readU16_ok (by decide +kernel))
  starts := forall_lt_three (readU16_ok (by decide +kernel)) (readU16_ok (by decide +kernel)) (readU16_ok (by decide +kernel))
  deltas := forall_lt_three (readU16_ok (by decide +kernel)) (readU16_ok (by decide +kernel)) (readU16_ok (by decide +kernel))
  rangeOffsets :=
    forall_lt_three (readU16_ok (by decide +kernel)) (readU16_ok (by decide +kernel)) (readU16_ok (by decide +kernel))

theorem sample4_ok : Format4Ok sample4 274 sampleSegs where
  nonempty := by decide
  sorted := by decide
  glyphs := by
    refine forall_lt_three ?_ ?_ ?_
    · intro c _ h1 h2
      have h1' : 65 ≤ c := h1
      have h2' : c ≤ 67 := h2
      have : c = 65 ∨ c = 66 ∨ c = 67 := by omega
      rcases this with rfl | rfl | rfl
      · exact ⟨4, readU16_ok (by decide +kernel)⟩
      · exact ⟨0, readU16_ok (by decide +kernel)⟩
      · exact ⟨8, readU16_ok (by decide +kernel)⟩
    · intro c h; exact absurd rfl h
    · intro c h; exact absurd rfl h

/-- The hypotheses of C23 are met by a font read from a file, with glyphs by array and by delta. -/
theorem C23_example : (sampleParsed sample4 (.format4 (table4 274 3))).Uses4 274 ∧ sample4.length < 4294967296 ∧
    Format4At sample4 274 sampleSegs ∧ Format4Ok sample4 274 sampleSegs ∧
    (sampleParsed sample4 (.format4 (table4 274 3))).eachCodePoint =
      .ok [(65, 5), (67, 9), (97, 2), (98, 3), (99, 4)] :=
  ⟨⟨_, rfl, format4Parse_ok sample4 (by decide +kernel) 274 sampleSegs sample4_at⟩, by decide +kernel, sample4_at,
    sample4_ok, by decide +kernel⟩

theorem forall_lt_two {P : ∀ i, i < 2 → Prop} (h0 : P 0 (by omega)) (h1 : P 1 (by omega)) :
    ∀ i (hi : i < 2), P i hi := by
  intro i hi
  match i, hi with
  | 0, _ => exact h0
  | 1, _ => exact h1

theorem sample12_at : Format12At (sample12 65537) 274 (sampleGroups 65537) where
  inside := by decide +kernel
  numGroups := readU32_ok (by decide +kernel)
  starts := forall_lt_two (readU32_ok (by decide +kernel)) (readU32_ok (by decide +kernel))
  ends := forall_lt_two (readU32_ok (by decide +kernel)) (readU32_ok (by decide +kernel))
  glyphs := forall_lt_two (readU32_ok (by decide +kernel)) (readU32_ok (by decide +kernel))

theorem sample12_ok : Format12Ok (sampleGroups 65537) where
  nonempty := by decide
  sorted := by decide
  fit := by decide

/-- C24 is violated: this font's map assigns "A" the glyph number 65537, which does not fit. Looking "A" up gives the
missing glyph, but enumerating the characters yields "A" with glyph 1. -/
theorem C24_enumeration_violated :
    let font := sampleParsed (sample12 65537) (.format12 ⟨290, 2⟩)
    Font.parse (sample12 65537) = .ok font ∧ font.Uses12 274 ∧ Format12At font.bytes 274 (sampleGroups 65537) ∧
    Format12Ok (sampleGroups 65537) ∧ font.glyphId 65 = .ok 0 ∧
    font.eachCodePoint = .ok [(65, 1), (66, 2), (0x1F600, 9)] :=
  ⟨sample12_parse, ⟨_, rfl, format12Parse_ok _ (by decide +kernel) 274 _ sample12_at⟩, sample12_at, sample12_ok,
    by decide +kernel, by decide +kernel⟩

/-- The hypotheses of the C24 theorems are met by a font read from a file whose glyph numbers fit. -/
theorem C24_example :
    let font := sampleParsed (sample12 3) (.format12 ⟨290, 2⟩)
    Font.parse (sample12 3) = .ok font ∧ font.Uses12 274 ∧ Format12At font.bytes 274 (sampleGroups 3) ∧
    Format12Ok (sampleGroups 3) ∧ (∀ x ∈ sampleGroups 3, x.startGlyph + (x.endCode - x.startCode) ≤ 65535) ∧
    font.glyphId 66 = .ok 4 ∧ font.eachCodePoint = .ok [(65, 3), (66, 4), (0x1F600, 9)] := by
  have hat : Format12At (sample12 3) 274 (sampleGroups 3) :=
    { inside := by decide +kernel
      numGroups := readU32_ok (by decide +kernel)
      starts := forall_lt_two (readU32_ok (by decide +kernel)) (readU32_ok (by decide +kernel))
      ends := forall_lt_two (readU32_ok (by decide +kernel)) (readU32_ok (by decide +kernel))
      glyphs := forall_lt_two (readU32_ok (by decide +kernel)) (readU32_ok (by decide +kernel)) }
  exact ⟨by decide +kernel, ⟨_, rfl, format12Parse_ok _ (by decide +kernel) 274 _ hat⟩, hat,
    ⟨by decide, by decide, by decide⟩, by decide, by decide +kernel, by decide +kernel⟩

/-- The hypotheses of C25 and of C21 are met by the sample file: own width, last width, and a sorted directory. -/
theorem C25_example :
    let font := sampleParsed sample4 (.format4 (table4 274 3))
    font.glyphWidth (fun a u => (a, u)) 0 = .ok (500, 1000) ∧ font.glyphWidth (fun a u => (a, u)) 1 = .ok (600, 1000) ∧
    font.glyphWidth (fun a u => (a, u)) 7 = .ok (600, 1000) ∧
    U16At font.bytes (font.horizontalMetrics.start + 4 * (font.horizontalMetrics.count - 1)) 600 :=
  ⟨by decide +kernel, by decide +kernel, by decide +kernel, readU16_ok (by decide +kernel)⟩

theorem sample4_directory : SortedDirectory sample4 6 where
  inside := by decide +kernel
  small := by decide
  sorted := by
    intro i j a b hij hj ha hb
    have key : ∀ i j, i < j → j < 6 → ∀ a b, readU32 sample4 (12 + 16 * i) = .ok a →
        readU32 sample4 (12 + 16 * j) = .ok b → a < b := by
      have tags : ∀ i, i < 6 → ∃ v, readU32 sample4 (12 + 16 * i) = .ok v ∧
          v = [1668112752, 1751474532, 1751672161, 1752003704, 1835104368, 1851878757][i]! := by
        intro i hi
        have : i = 0 ∨ i = 1 ∨ i = 2 ∨ i = 3 ∨ i = 4 ∨ i = 5 := by omega
        rcases this with rfl | rfl | rfl | rfl | rfl | rfl <;> exact ⟨_, by decide +kernel, rfl⟩
      have mono : ∀ i, i < 6 → ∀ j, j < 6 → i < j →
          [1668112752, 1751474532, 1751672161, 1752003704, 1835104368, 1851878757][i]! <
          [1668112752, 1751474532, 1751672161, 1752003704, 1835104368, 1851878757][j]! := by decide
      intro i j hij hj a b ha hb
      obtain ⟨v, hv, hv'⟩ := tags i (by omega)
      obtain ⟨w, hw, hw'⟩ := tags j hj
      rw [hv] at ha
      rw [hw] at hb
      cases ha
      cases hb
      rw [hv', hw']
      exact mono i (by omega) j hj hij
    exact key i j hij hj a b (readU32_at ha) (readU32_at hb)

/-- The hypotheses of C21_find_table are met by the sample file, for a table listed and for one not listed. -/
example : SortedDirectory sample4 6 ∧ findTable sample4 ⟨12, 6⟩ (tag "hmtx") = .ok 206 ∧
    findTable sample4 ⟨12, 6⟩ (tag "glyf") = .err .missingTable :=
  ⟨sample4_directory, by decide +kernel, by decide +kernel⟩

end Verif.Font
