/- What the font theorems say, independently of the code: where values are in a file, and what the TrueType tables
mean (OpenType specification, `cmap` formats 4 and 12). -/
import Verif.Font.Parsing
namespace Verif.Font

/-- The bytes `s` are in the data at position `p`. -/
def BytesAt (bytes : List Byte) (p : Nat) (s : List Byte) : Prop :=
  ∃ pre post, bytes = pre ++ s ++ post ∧ pre.length = p

/-- The two bytes at `p`, most significant first, are the number `v`. -/
def U16At (bytes : List Byte) (p v : Nat) : Prop :=
  ∃ a b, BytesAt bytes p [a, b] ∧ v = a.val * 256 + b.val

/-- The two bytes at `p`, in two's complement, are the number `v`. -/
def I16At (bytes : List Byte) (p : Nat) (v : Int) : Prop :=
  ∃ n, U16At bytes p n ∧ v = (if n < 32768 then (n : Int) else (n : Int) - 65536)

/-- The four bytes at `p`, most significant first, are the number `v`. -/
def U32At (bytes : List Byte) (p v : Nat) : Prop :=
  ∃ a b c d, BytesAt bytes p [a, b, c, d] ∧ v = ((a.val * 256 + b.val) * 256 + c.val) * 256 + d.val

/-- The table directory of a font file with `n` tables lists the table with tag `t` at `off`. -/
def Lists (bytes : List Byte) (n : Nat) (t : List Byte) (off : Nat) : Prop :=
  ∃ i, i < n ∧ BytesAt bytes (12 + 16 * i) t ∧ U32At bytes (12 + 16 * i + 8) off

/-- The `n` entries of the table directory are in the file and in increasing order of tags, read as big-endian
numbers. -/
structure SortedDirectory (bytes : List Byte) (n : Nat) : Prop where
  inside : 12 + 16 * n ≤ bytes.length
  small : n ≤ 65535
  sorted : ∀ i j a b, i < j → j < n → U32At bytes (12 + 16 * i) a → U32At bytes (12 + 16 * j) b → a < b

/-- A segment of a format 4 table. -/
structure Seg where
  startCode : Nat
  endCode : Nat
  delta : Nat
  rangeOffset : Nat
  deriving DecidableEq, Repr

/-- There is a format 4 table with these segments at `h`, all inside the file. -/
structure Format4At (bytes : List Byte) (h : Nat) (segs : List Seg) : Prop where
  inside : h + 16 + 8 * segs.length ≤ bytes.length
  segCountX2 : U16At bytes (h + 6) (2 * segs.length)
  ends : ∀ i (hi : i < segs.length), U16At bytes (h + 14 + 2 * i) segs[i].endCode
  starts : ∀ i (hi : i < segs.length), U16At bytes (h + 16 + 2 * segs.length + 2 * i) segs[i].startCode
  deltas : ∀ i (hi : i < segs.length), U16At bytes (h + 16 + 4 * segs.length + 2 * i) segs[i].delta
  rangeOffsets : ∀ i (hi : i < segs.length), U16At bytes (h + 16 + 6 * segs.length + 2 * i) segs[i].rangeOffset

/-- Where the glyph of character `c` is stored when segment `i` has a range offset: counted in bytes from the
place of the range offset itself. -/
def glyphPlace (h n i : Nat) (s : Seg) (c : Nat) : Nat :=
  h + 16 + 6 * n + 2 * i + s.rangeOffset + 2 * (c - s.startCode)

/-- Segments do not overlap, are in increasing order, and the glyph array is inside the file. -/
structure Format4Ok (bytes : List Byte) (h : Nat) (segs : List Seg) : Prop where
  nonempty : ∀ s ∈ segs, s.startCode ≤ s.endCode
  sorted : segs.Pairwise fun a b => a.endCode < b.startCode
  glyphs : ∀ i (hi : i < segs.length) c, segs[i].rangeOffset ≠ 0 → segs[i].startCode ≤ c → c ≤ segs[i].endCode →
    ∃ w, U16At bytes (glyphPlace h segs.length i segs[i] c) w

/-- The format 4 table maps character `c` to glyph `g`. -/
def Maps4 (bytes : List Byte) (h : Nat) (segs : List Seg) (c g : Nat) : Prop :=
  ∃ i, ∃ hi : i < segs.length, segs[i].startCode ≤ c ∧ c ≤ segs[i].endCode ∧
    (segs[i].rangeOffset = 0 ∧ g = (c + segs[i].delta) % 65536 ∨
     segs[i].rangeOffset ≠ 0 ∧ ∃ w, U16At bytes (glyphPlace h segs.length i segs[i] c) w ∧
       g = if w = 0 then 0 else (w + segs[i].delta) % 65536)

/-- A group of a format 12 table. -/
structure Group where
  startCode : Nat
  endCode : Nat
  startGlyph : Nat
  deriving DecidableEq, Repr

/-- There is a format 12 table with these groups at `h`, all inside the file. -/
structure Format12At (bytes : List Byte) (h : Nat) (groups : List Group) : Prop where
  inside : h + 16 + 12 * groups.length ≤ bytes.length
  numGroups : U32At bytes (h + 12) groups.length
  starts : ∀ i (hi : i < groups.length), U32At bytes (h + 16 + 12 * i) groups[i].startCode
  ends : ∀ i (hi : i < groups.length), U32At bytes (h + 16 + 12 * i + 4) groups[i].endCode
  glyphs : ∀ i (hi : i < groups.length), U32At bytes (h + 16 + 12 * i + 8) groups[i].startGlyph

/-- Groups do not overlap, are in increasing order, and their glyph numbers fit 32 bits. -/
structure Format12Ok (groups : List Group) : Prop where
  nonempty : ∀ g ∈ groups, g.startCode ≤ g.endCode
  sorted : groups.Pairwise fun a b => a.endCode < b.startCode
  fit : ∀ g ∈ groups, g.startGlyph + (g.endCode - g.startCode) < 4294967296

/-- The format 12 table maps character `c` to glyph `g`, a 32-bit number. -/
def Maps12 (groups : List Group) (c g : Nat) : Prop :=
  ∃ x ∈ groups, x.startCode ≤ c ∧ c ≤ x.endCode ∧ g = x.startGlyph + (c - x.startCode)

end Verif.Font
