/- The built-in font: reading the file that the program includes. -/
import Verif.Font.VeraData
import Verif.Font.Example
import Verif.Font.ParseTheorems
namespace Verif.Font

/-- The `n` bytes of a number in base 256, most significant first. -/
def unpack (number n : Nat) : List Byte := (List.range n).map fun i => Fin.ofNat 256 (number / 256 ^ (n - 1 - i))

/-- fonts/mod.rs 277-297, `include_bytes!("../../fonts/vera/Vera.ttf")`. -/
def vera : List Byte := unpack veraNumber 65932

theorem unpack_length (number n : Nat) : (unpack number n).length = n := by simp [unpack]

theorem vera_length : vera.length = 65932 := unpack_length _ _

theorem unpack_at (number n p k : Nat) (h : p + k ≤ n) :
    BytesAt (unpack number n) p ((List.range k).map fun i => Fin.ofNat 256 (number / 256 ^ (n - 1 - (p + i)))) := by
  rw [bytesAt_iff]
  refine ⟨by simpa [unpack_length] using h, ?_⟩
  apply List.ext_getElem
  · simp [unpack]; omega
  · intro i h1 h2
    simp [unpack]

/-- The byte at `p`, by arithmetic. -/
def veraByte (p : Nat) : Byte := Fin.ofNat 256 (veraNumber / 256 ^ (65931 - p))

/-- The big-endian number at `p`, by arithmetic. -/
def veraU16 (p : Nat) : Nat := (veraNumber / 256 ^ (65930 - p)) % 65536

/-- The big-endian number at `p`, by arithmetic. -/
def veraU32 (p : Nat) : Nat := (veraNumber / 256 ^ (65928 - p)) % 4294967296

theorem vera_bytes (p k : Nat) (h : p + k ≤ 65932) : BytesAt vera p ((List.range k).map fun i => veraByte (p + i)) :=
  unpack_at veraNumber 65932 p k h

theorem digits2 (x : Nat) : (x / 256) % 256 * 256 + x % 256 = x % 65536 := by omega

theorem digits4 (x : Nat) : (((x / 16777216) % 256 * 256 + (x / 65536) % 256) * 256 + (x / 256) % 256) * 256 + x % 256 =
    x % 4294967296 := by omega

theorem vera_u16 {p v : Nat} (h : p + 2 ≤ 65932) (hv : veraU16 p = v) : U16At vera p v := by
  refine ⟨_, _, vera_bytes p 2 h, ?_⟩
  subst hv
  simp only [veraByte, Fin.val_ofNat, veraU16]
  rw [← digits2, Nat.div_div_eq_div_mul, ← Nat.pow_succ, show 65931 - (p + 0) = 65930 - p + 1 by omega,
    show 65931 - (p + 1) = 65930 - p by omega]

theorem vera_u32 {p v : Nat} (h : p + 4 ≤ 65932) (hv : veraU32 p = v) : U32At vera p v := by
  refine ⟨_, _, _, _, vera_bytes p 4 h, ?_⟩
  subst hv
  simp only [veraByte, Fin.val_ofNat, veraU32]
  rw [← digits4, Nat.div_div_eq_div_mul, Nat.div_div_eq_div_mul, Nat.div_div_eq_div_mul,
    show (16777216 : Nat) = 256 ^ 3 from rfl, show (65536 : Nat) = 256 ^ 2 from rfl, ← Nat.pow_add, ← Nat.pow_add, ← Nat.pow_succ,
    show 65931 - (p + 0) = 65928 - p + 3 by omega, show 65931 - (p + 1) = 65928 - p + 2 by omega,
    show 65931 - (p + 2) = 65928 - p + 1 by omega, show 65931 - (p + 3) = 65928 - p by omega]

theorem vera_i16 {p : Nat} {v : Int} (h : p + 2 ≤ 65932)
    (hv : (if veraU16 p < 32768 then (veraU16 p : Int) else (veraU16 p : Int) - 65536) = v) : I16At vera p v :=
  ⟨_, vera_u16 h rfl, hv.symm⟩

theorem vera_size : vera.length < 4294967296 := by rw [vera_length]; decide

/-- The table directory of the file, as tags and offsets. -/
def veraTables : List (Nat × Nat) := (List.range 17).map fun i => (veraU32 (12 + 16 * i), veraU32 (12 + 16 * i + 8))

theorem veraTables_eq : veraTables = [
    (0x4F532F32, 60272), (0x50434C54, 60360), (0x636D6170, 45420), (0x63767420, 7932), (0x6670676D, 9824), (0x67617370, 65864),
    (0x676C7966, 9964), (0x68646D78, 60416), (0x68656164, 65876), (0x68686561, 60236), (0x686D7478, 46276), (0x6B65726E, 48544),
    (0x6C6F6361, 48004), (0x6D617870, 60204), (0x6E616D65, 284), (0x706F7374, 47348), (0x70726570, 8440)] := by
  decide +kernel

theorem vera_directory : SortedDirectory vera 17 where
  inside := by rw [vera_length]; decide
  small := by decide
  sorted := by
    intro i j a b hij hj ha hb
    rw [u32At_unique ha (vera_u32 (by omega) rfl), u32At_unique hb (vera_u32 (by omega) rfl)]
    have : ∀ j < 17, ∀ i < j, veraU32 (12 + 16 * i) < veraU32 (12 + 16 * j) := by decide +kernel
    exact this j hj i hij

theorem vera_table {t : String} {off : Nat} (i : Nat) (hi : i < 17) (ht : (tag t).length = 4)
    (h1 : ((List.range 4).map fun k => veraByte (12 + 16 * i + k)) = tag t) (h2 : veraU32 (12 + 16 * i + 8) = off) :
    Lists vera 17 (tag t) off ∧ (∀ o, Lists vera 17 (tag t) o → o = off) ∧ findTable vera ⟨12, 17⟩ (tag t) = .ok off := by
  have hl : Lists vera 17 (tag t) off := ⟨i, hi, h1 ▸ vera_bytes _ 4 (by omega), vera_u32 (by omega) h2⟩
  have hu : ∀ o, Lists vera 17 (tag t) o → o = off := by
    rintro o ⟨j, hj, hb, ho⟩
    have hk : ∀ {k}, k < 17 → BytesAt vera (12 + 16 * k) (tag t) → U32At vera (12 + 16 * k) (fromBe (tag t)) := by
      intro k hk hb
      match h : tag t, ht with
      | [a, b, c, d], _ =>
        rw [h] at hb
        refine ⟨a, b, c, d, hb, ?_⟩
        simp [fromBe]
    have hje : j = i := by
      have e1 := hk hj hb
      have e2 := hk hi (h1 ▸ vera_bytes _ 4 (by omega))
      rcases Nat.lt_trichotomy i j with h | h | h
      · exact absurd (vera_directory.sorted _ _ _ _ h hj e2 e1) (Nat.lt_irrefl _)
      · exact h.symm
      · exact absurd (vera_directory.sorted _ _ _ _ h hi e1 e2) (Nat.lt_irrefl _)
    subst hje
    exact u32At_unique ho (vera_u32 (by omega) h2)
  refine ⟨hl, hu, ?_⟩
  rcases findTable_sorted vera vera_size 17 vera_directory (tag t) ht with ⟨o, ho, hf⟩ | ⟨hn, _⟩
  · rw [hf, hu o ho]
  · exact absurd ⟨off, hl⟩ hn

/-- The segments of the character map of the file. -/
def veraSegs : List Seg := [
  ⟨32, 126, 65507, 0⟩, ⟨160, 255, 0, 56⟩, ⟨262, 263, 65525, 0⟩, ⟨268, 273, 0, 244⟩, ⟨286, 287, 65496, 0⟩, ⟨304, 305, 0, 252⟩,
  ⟨321, 322, 65440, 0⟩, ⟨338, 339, 65374, 0⟩, ⟨350, 353, 0, 250⟩, ⟨376, 376, 65347, 0⟩, ⟨381, 382, 65384, 0⟩, ⟨402, 402, 65300, 0⟩,
  ⟨710, 711, 0, 250⟩, ⟨728, 733, 0, 252⟩, ⟨937, 937, 64758, 0⟩, ⟨960, 960, 64731, 0⟩, ⟨8211, 8230, 0, 258⟩, ⟨8240, 8240, 57494, 0⟩,
  ⟨8249, 8250, 57477, 0⟩, ⟨8364, 8364, 57430, 0⟩, ⟨8482, 8482, 57194, 0⟩, ⟨8706, 8710, 0, 288⟩, ⟨8719, 8734, 0, 296⟩,
  ⟨8747, 8747, 56945, 0⟩, ⟨8776, 8776, 56927, 0⟩, ⟨8800, 8805, 0, 322⟩, ⟨9674, 9674, 56047, 0⟩, ⟨64257, 64258, 1471, 0⟩,
  ⟨65535, 65535, 1, 0⟩]

theorem veraSegs_check : (List.range 29).map (fun i => (⟨veraU16 (45702 + 16 + 2 * 29 + 2 * i), veraU16 (45702 + 14 + 2 * i),
    veraU16 (45702 + 16 + 4 * 29 + 2 * i), veraU16 (45702 + 16 + 6 * 29 + 2 * i)⟩ : Seg)) = veraSegs := by decide +kernel

theorem veraSegs_get (i : Nat) (hi : i < veraSegs.length) :
    veraSegs[i] = ⟨veraU16 (45702 + 16 + 2 * 29 + 2 * i), veraU16 (45702 + 14 + 2 * i),
      veraU16 (45702 + 16 + 4 * 29 + 2 * i), veraU16 (45702 + 16 + 6 * 29 + 2 * i)⟩ := by
  have : veraSegs[i] = _ := (List.getElem_of_eq veraSegs_check (by simpa using (show i < 29 from hi))).symm
  rw [this]
  simp

theorem vera_format4 : Format4At vera 45702 veraSegs where
  inside := by rw [vera_length]; decide
  segCountX2 := vera_u16 (by decide) (by decide +kernel)
  ends := fun i hi => by
    rw [veraSegs_get i hi]
    have : i < 29 := hi
    exact vera_u16 (by omega) rfl
  starts := fun i hi => by
    rw [veraSegs_get i hi]
    have : i < 29 := hi
    exact vera_u16 (by show _ + 2 * 29 + _ + _ ≤ _; omega) rfl
  deltas := fun i hi => by
    rw [veraSegs_get i hi]
    have : i < 29 := hi
    exact vera_u16 (by show _ + 4 * 29 + _ + _ ≤ _; omega) rfl
  rangeOffsets := fun i hi => by
    rw [veraSegs_get i hi]
    have : i < 29 := hi
    exact vera_u16 (by show _ + 6 * 29 + _ + _ ≤ _; omega) rfl

theorem vera_place (i : Nat) (hi : i < veraSegs.length) (c : Nat) (h : veraSegs[i].startCode ≤ c) (h' : c ≤ veraSegs[i].endCode) :
    glyphPlace 45702 veraSegs.length i veraSegs[i] c + 2 ≤ 65932 := by
  have : ∀ i (hi : i < veraSegs.length),
      45702 + 16 + 6 * 29 + 2 * i + veraSegs[i].rangeOffset + 2 * (veraSegs[i].endCode - veraSegs[i].startCode) + 2 ≤ 65932 := by
    decide +kernel
  have := this i hi
  show 45702 + 16 + 6 * 29 + 2 * i + veraSegs[i].rangeOffset + 2 * (c - veraSegs[i].startCode) + 2 ≤ 65932
  omega

theorem vera_format4Ok : Format4Ok vera 45702 veraSegs where
  nonempty := by decide +kernel
  sorted := by decide +kernel
  glyphs := fun i hi c _ h h' => ⟨_, vera_u16 (vera_place i hi c h h') rfl⟩

/-- The PostScript name of the font: "BitstreamVeraSans-Roman". -/
def veraName : List Byte := (codesOf "BitstreamVeraSans-Roman").map fun c => Fin.ofNat 256 c
where codesOf (s : String) : List Nat := s.toList.map Char.toNat

/-- The font that is parsed from the file. -/
def veraFont : Font where
  bytes := vera
  cmap := .format4 (table4 45702 29)
  postscriptName := .utf8Lossy veraName
  glyphCount := 268
  unitsPerEm := 2048
  horizontalMetrics := ⟨46276, 268⟩
  ascender := 1901
  descender := -483
  minX := -375
  minY := -483
  maxX := 2636
  maxY := 1901

theorem vera_cmapRecord : Cmap.record vera 45420 45432 = .ok (some (.format4 (table4 45702 29))) :=
  cmapRecord_format4 vera_size (o := 282) (segs := veraSegs) (vera_u32 (by decide) (by decide +kernel)) (vera_u16 (by decide) (by decide +kernel))
    (vera_u16 (by decide) (by decide +kernel)) (vera_u16 (by decide) (by decide +kernel)) vera_format4

/-- Reverse iteration first reads the bytes after the encoding records as a record; here they are not a supported one. -/
theorem vera_cmapAfter : Cmap.record vera 45420 45440 = .ok none :=
  cmapRecord_unsupported vera_size ⟨256, vera_u32 (by decide) (by decide +kernel), 51401, vera_u16 (by decide) (by decide +kernel)⟩ (by
    rintro sub ⟨_, _, _, h, _⟩
    exact absurd (u16At_unique h (vera_u16 (v := 0) (by decide) (by decide +kernel))) (by decide))

theorem vera_cmap : Cmap.parse vera ⟨12, 17⟩ = .ok (.format4 (table4 45702 29)) := by
  unfold Cmap.parse
  refine bindOk (vera_table (t := "cmap") (off := 45420) 2 (by decide) (by decide) (by decide +kernel) (by decide +kernel)).2.2 ?_
  refine bindOk (a := 45424) rfl ?_
  refine bindOk (a := 2) (fieldU16_at (vera_u16 (by decide) (by decide +kernel)) vera_size) ?_
  dsimp only
  refine bindOk (a := ⟨45424, 45424 + 8 * 2⟩) rfl ?_
  rw [show sizeCmapEncodingRecord = 8 from rfl, forLoop_nextBack _ _ (by decide) _ _ _ (by omega)]
  refine bindOk (a := some (.format4 (table4 45702 29))) ?_ rfl
  exact bindOk vera_cmapAfter (bindOk vera_cmapRecord rfl)

theorem vera_nameRecord (i : Nat) (hi : i < 6) : nameRecord vera 554 (290 + 12 * i) = .ok none := by
  unfold nameRecord
  have h : veraU16 (290 + 12 * i + 6) ≠ 6 := by
    have : ∀ i < 6, veraU16 (290 + 12 * i + 6) ≠ 6 := by decide +kernel
    exact this i hi
  refine bindOk (fieldU16_at (vera_u16 (by omega) rfl) vera_size) ?_
  rw [if_pos h]
  rfl

theorem vera_nameBytes : nameBytes vera 554 362 = .ok veraName := by
  unfold nameBytes
  refine bindOk (a := 77) (fieldU16_at (vera_u16 (by decide) (by decide +kernel)) vera_size) ?_
  refine bindOk (a := 631) rfl ?_
  refine bindOk (a := 23) (fieldU16_at (vera_u16 (by decide) (by decide +kernel)) vera_size) ?_
  have hb : BytesAt vera 631 veraName := by
    have := vera_bytes 631 23 (by decide)
    rwa [show ((List.range 23).map fun i => veraByte (631 + i)) = veraName by decide +kernel] at this
  rcases C20_read_bytes vera ⟨631, 23⟩ with ⟨t, ht, hat, hr⟩ | ⟨hn, _⟩
  · rw [hr]
    have h1 := ((bytesAt_iff _ _ _).1 hb).2
    have h2 := ((bytesAt_iff _ _ _).1 hat).2
    rw [show veraName.length = 23 by decide +kernel] at h1
    rw [ht] at h2
    exact congrArg Res.ok (h2.symm.trans h1)
  · exact absurd hb (hn _ (by decide +kernel))

theorem vera_name : readPostscriptName vera ⟨12, 17⟩ = .ok (.utf8Lossy veraName) := by
  unfold readPostscriptName
  refine bindOk (vera_table (t := "name") (off := 284) 14 (by decide) (by decide) (by decide +kernel) (by decide +kernel)).2.2 ?_
  refine bindOk (a := 290) rfl ?_
  refine bindOk (a := 22) (fieldU16_at (vera_u16 (by decide) (by decide +kernel)) vera_size) ?_
  refine bindOk (a := 270) (fieldU16_at (vera_u16 (by decide) (by decide +kernel)) vera_size) ?_
  refine bindOk (a := 554) rfl ?_
  dsimp only
  refine bindOk (a := ⟨290, 290 + 12 * 22⟩) rfl ?_
  rw [show sizeNameRecord = 12 from rfl, forLoop_next _ _ (by decide) _ _ _ (by omega) (by omega)]
  refine bindOk (a := some (.utf8Lossy veraName)) ?_ rfl
  refine firstSome_ok _ _ _ 6 (by simp) ?_ ?_
  · simp only [List.getElem_map, List.getElem_range]
    unfold nameRecord
    refine bindOk (a := 6) (fieldU16_at (vera_u16 (by decide) (by decide +kernel)) vera_size) ?_
    rw [if_neg (by decide)]
    refine bindOk (a := 1) (fieldU16_at (vera_u16 (by decide) (by decide +kernel)) vera_size) ?_
    refine bindOk (a := 0) (fieldU16_at (vera_u16 (by decide) (by decide +kernel)) vera_size) ?_
    rw [if_pos rfl]
    exact bindOk vera_nameBytes rfl
  · intro j hj
    simp only [List.getElem_map, List.getElem_range]
    exact vera_nameRecord j hj

theorem vera_parse : Font.parse vera = .ok veraFont := by
  unfold Font.parse
  refine bindOk (a := 0x00010000) (fieldU32_at (vera_u32 (by decide) (by decide +kernel)) vera_size) ?_
  rw [if_neg (by decide)]
  refine bindOk (a := 12) rfl ?_
  refine bindOk (a := 17) (fieldU16_at (vera_u16 (by decide) (by decide +kernel)) vera_size) ?_
  dsimp only
  refine bindOk (vera_table (t := "maxp") (off := 60204) 13 (by decide) (by decide) (by decide +kernel) (by decide +kernel)).2.2 ?_
  refine bindOk (vera_table (t := "head") (off := 65876) 8 (by decide) (by decide) (by decide +kernel) (by decide +kernel)).2.2 ?_
  refine bindOk (a := 268) (fieldU16_at (vera_u16 (by decide) (by decide +kernel)) vera_size) ?_
  refine bindOk (vera_table (t := "hhea") (off := 60236) 9 (by decide) (by decide) (by decide +kernel) (by decide +kernel)).2.2 ?_
  refine bindOk vera_name ?_
  refine bindOk vera_cmap ?_
  refine bindOk (vera_table (t := "hmtx") (off := 46276) 10 (by decide) (by decide) (by decide +kernel) (by decide +kernel)).2.2 ?_
  refine bindOk (a := 268) (fieldU16_at (vera_u16 (by decide) (by decide +kernel)) vera_size) ?_
  refine bindOk (a := 2048) (fieldU16_at (vera_u16 (by decide) (by decide +kernel)) vera_size) ?_
  refine bindOk (a := 1901) (fieldI16_at (vera_i16 (by decide) (by decide +kernel)) vera_size) ?_
  refine bindOk (a := -483) (fieldI16_at (vera_i16 (by decide) (by decide +kernel)) vera_size) ?_
  refine bindOk (a := -375) (fieldI16_at (vera_i16 (by decide) (by decide +kernel)) vera_size) ?_
  refine bindOk (a := -483) (fieldI16_at (vera_i16 (by decide) (by decide +kernel)) vera_size) ?_
  refine bindOk (a := 2636) (fieldI16_at (vera_i16 (by decide) (by decide +kernel)) vera_size) ?_
  refine bindOk (a := 1901) (fieldI16_at (vera_i16 (by decide) (by decide +kernel)) vera_size) ?_
  rfl

attribute [irreducible] vera veraName

end Verif.Font
