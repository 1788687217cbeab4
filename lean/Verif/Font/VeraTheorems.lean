/- C78: the characters of the built-in font. -/
import Verif.Font.Vera
namespace Verif.Font

/-- The glyphs of the built-in font, by character. -/
def veraGlyphs : List (Nat × Nat) := [
  (32, 3), (33, 4), (34, 5), (35, 6), (36, 7), (37, 8), (38, 9), (39, 10), (40, 11), (41, 12),
  (42, 13), (43, 14), (44, 15), (45, 16), (46, 17), (47, 18), (48, 19), (49, 20), (50, 21), (51, 22),
  (52, 23), (53, 24), (54, 25), (55, 26), (56, 27), (57, 28), (58, 29), (59, 30), (60, 31), (61, 32),
  (62, 33), (63, 34), (64, 35), (65, 36), (66, 37), (67, 38), (68, 39), (69, 40), (70, 41), (71, 42),
  (72, 43), (73, 44), (74, 45), (75, 46), (76, 47), (77, 48), (78, 49), (79, 50), (80, 51), (81, 52),
  (82, 53), (83, 54), (84, 55), (85, 56), (86, 57), (87, 58), (88, 59), (89, 60), (90, 61), (91, 62),
  (92, 63), (93, 64), (94, 65), (95, 66), (96, 67), (97, 68), (98, 69), (99, 70), (100, 71), (101, 72),
  (102, 73), (103, 74), (104, 75), (105, 76), (106, 77), (107, 78), (108, 79), (109, 80), (110, 81), (111, 82),
  (112, 83), (113, 84), (114, 85), (115, 86), (116, 87), (117, 88), (118, 89), (119, 90), (120, 91), (121, 92),
  (122, 93), (123, 94), (124, 95), (125, 96), (126, 97), (160, 172), (161, 163), (162, 132), (163, 133), (164, 189),
  (165, 150), (166, 231), (167, 134), (168, 142), (169, 139), (170, 157), (171, 169), (172, 164), (173, 256), (174, 138),
  (175, 217), (176, 131), (177, 147), (178, 241), (179, 242), (180, 141), (181, 151), (182, 136), (183, 195), (184, 221),
  (185, 240), (186, 158), (187, 170), (188, 243), (189, 244), (190, 245), (191, 162), (192, 173), (193, 201), (194, 199),
  (195, 174), (196, 98), (197, 99), (198, 144), (199, 100), (200, 203), (201, 101), (202, 200), (203, 202), (204, 207),
  (205, 204), (206, 205), (207, 206), (208, 232), (209, 102), (210, 210), (211, 208), (212, 209), (213, 175), (214, 103),
  (215, 239), (216, 145), (217, 213), (218, 211), (219, 212), (220, 104), (221, 234), (222, 236), (223, 137), (224, 106),
  (225, 105), (226, 107), (227, 109), (228, 108), (229, 110), (230, 160), (231, 111), (232, 113), (233, 112), (234, 114),
  (235, 115), (236, 117), (237, 116), (238, 118), (239, 119), (240, 233), (241, 120), (242, 122), (243, 121), (244, 123),
  (245, 125), (246, 124), (247, 184), (248, 161), (249, 127), (250, 126), (251, 128), (252, 129), (253, 235), (254, 237),
  (255, 186), (262, 251), (263, 252), (268, 253), (269, 254), (273, 255), (286, 246), (287, 247), (304, 248), (305, 214),
  (321, 225), (322, 226), (338, 176), (339, 177), (350, 249), (351, 250), (352, 227), (353, 228), (376, 187), (381, 229),
  (382, 230), (402, 166), (710, 215), (711, 224), (728, 218), (729, 219), (730, 220), (731, 223), (732, 216), (733, 222),
  (937, 159), (960, 155), (8211, 178), (8212, 179), (8216, 182), (8217, 183), (8218, 196), (8220, 180), (8221, 181), (8222, 197),
  (8224, 130), (8225, 194), (8226, 135), (8230, 171), (8240, 198), (8249, 190), (8250, 191), (8364, 258), (8482, 140), (8706, 152),
  (8710, 168), (8719, 154), (8721, 153), (8722, 238), (8725, 188), (8729, 257), (8730, 165), (8734, 146), (8747, 156), (8776, 167),
  (8800, 143), (8804, 148), (8805, 149), (9674, 185), (64257, 192), (64258, 193)]

/-- The glyph of a character in a segment, by arithmetic. -/
def veraGlyph (i : Nat) (s : Seg) (c : Nat) : Nat :=
  if s.rangeOffset = 0 then (c + s.delta) % 65536
  else if veraU16 (glyphPlace 45702 29 i s c) = 0 then 0 else (veraU16 (glyphPlace 45702 29 i s c) + s.delta) % 65536

/-- The characters of a segment with their glyphs. -/
def veraSegment (i : Nat) : List (Nat × Nat) :=
  match veraSegs[i]? with
  | some s => ((List.range (s.endCode - s.startCode + 1)).map fun k => (s.startCode + k, veraGlyph i s (s.startCode + k))).filter fun p =>
      p.2 != 0
  | none => []

theorem veraGlyphs_eq : (List.range 29).flatMap veraSegment = veraGlyphs := by decide +kernel

theorem vera_maps {i : Nat} (hi : i < veraSegs.length) {c : Nat} (h1 : veraSegs[i].startCode ≤ c) (h2 : c ≤ veraSegs[i].endCode) :
    Maps4 vera 45702 veraSegs c (veraGlyph i veraSegs[i] c) := by
  refine ⟨i, hi, h1, h2, ?_⟩
  unfold veraGlyph
  by_cases h : veraSegs[i].rangeOffset = 0
  · rw [if_pos h]
    exact .inl ⟨h, rfl⟩
  · rw [if_neg h]
    exact .inr ⟨h, _, vera_u16 (vera_place i hi c h1 h2) rfl, rfl⟩

theorem veraFont_uses : veraFont.Uses4 45702 := ⟨_, rfl, format4Parse_ok vera vera_size 45702 veraSegs vera_format4⟩

theorem mem_veraGlyphs (c g : Nat) : (c, g) ∈ veraGlyphs ↔ ∃ i, ∃ hi : i < veraSegs.length, veraSegs[i].startCode ≤ c ∧
    c ≤ veraSegs[i].endCode ∧ g = veraGlyph i veraSegs[i] c ∧ g ≠ 0 := by
  rw [← veraGlyphs_eq, List.mem_flatMap]
  constructor
  · rintro ⟨i, hi, h⟩
    have hi : i < veraSegs.length := List.mem_range.1 hi
    rw [veraSegment, List.getElem?_eq_getElem hi] at h
    simp only [List.mem_filter, List.mem_map, List.mem_range, Prod.mk.injEq, bne_iff_ne] at h
    obtain ⟨⟨k, hk, rfl, rfl⟩, h0⟩ := h
    have : veraSegs[i].startCode ≤ veraSegs[i].endCode := vera_format4Ok.nonempty _ (List.getElem_mem hi)
    exact ⟨i, hi, by omega, by omega, rfl, h0⟩
  · rintro ⟨i, hi, h1, h2, rfl, h0⟩
    refine ⟨i, List.mem_range.2 hi, ?_⟩
    rw [veraSegment, List.getElem?_eq_getElem hi]
    simp only [List.mem_filter, List.mem_map, List.mem_range, Prod.mk.injEq, bne_iff_ne]
    exact ⟨⟨c - veraSegs[i].startCode, by omega, by omega, by rw [show veraSegs[i].startCode + (c - veraSegs[i].startCode) = c by omega]⟩, h0⟩

/-- The table lists the glyphs of the font: a character that is not in it has glyph 0, for missing glyphs. -/
theorem veraFont_glyphId (c g : Nat) : veraFont.glyphId c = .ok g ↔ (c, g) ∈ veraGlyphs ∨ g = 0 ∧ ∀ g', (c, g') ∉ veraGlyphs := by
  obtain ⟨hl, hn⟩ := C23_lookup veraFont 45702 veraFont_uses veraSegs vera_size vera_format4 vera_format4Ok c
  by_cases hc : ∃ i, ∃ hi : i < veraSegs.length, veraSegs[i].startCode ≤ c ∧ c ≤ veraSegs[i].endCode
  · obtain ⟨i, hi, h1, h2⟩ := hc
    have hm := hl _ (vera_maps hi h1 h2)
    have hone : ∀ g', (c, g') ∈ veraGlyphs → g' = veraGlyph i veraSegs[i] c := by
      intro g' hg'
      obtain ⟨j, hj, h3, h4, rfl, _⟩ := (mem_veraGlyphs c g').1 hg'
      have := hl _ (vera_maps hj h3 h4)
      rw [hm] at this
      exact (Res.ok.inj this).symm
    rw [hm]
    constructor
    · intro h
      cases h
      by_cases h0 : veraGlyph i veraSegs[i] c = 0
      · refine .inr ⟨h0, fun g' hg' => ?_⟩
        have := (mem_veraGlyphs c g').1 hg'
        obtain ⟨_, _, _, _, _, h⟩ := this
        exact h ((hone g' hg').trans h0)
      · exact .inl ((mem_veraGlyphs _ _).2 ⟨i, hi, h1, h2, rfl, h0⟩)
    · rintro (h | ⟨rfl, h⟩)
      · rw [hone g h]
      · by_cases h0 : veraGlyph i veraSegs[i] c = 0
        · rw [h0]
        · exact absurd ((mem_veraGlyphs _ _).2 ⟨i, hi, h1, h2, rfl, h0⟩) (h _)
  · have hno : ∀ g', (c, g') ∉ veraGlyphs := by
      intro g' hg'
      obtain ⟨i, hi, h1, h2, _⟩ := (mem_veraGlyphs c g').1 hg'
      exact hc ⟨i, hi, h1, h2⟩
    rw [hn (by rintro g' ⟨i, hi, h1, h2, _⟩; exact hc ⟨i, hi, h1, h2⟩)]
    constructor
    · intro h; cases h; exact .inr ⟨rfl, hno⟩
    · rintro (h | ⟨rfl, _⟩)
      · exact absurd h (hno g)
      · rfl

theorem sorted_ext : ∀ {l m : List (Nat × Nat)}, l.Pairwise (fun a b => a.1 < b.1) → m.Pairwise (fun a b => a.1 < b.1) →
    (∀ x, x ∈ l ↔ x ∈ m) → l = m
  | [], [], _, _, _ => rfl
  | [], b :: m, _, _, h => absurd ((h b).2 (by simp)) (by simp)
  | a :: l, [], _, _, h => absurd ((h a).1 (by simp)) (by simp)
  | a :: l, b :: m, hl, hm, h => by
    rw [List.pairwise_cons] at hl hm
    have hab : a = b := by
      rcases List.mem_cons.1 ((h a).1 (by simp)) with e | e
      · exact e
      · rcases List.mem_cons.1 ((h b).2 (by simp)) with e' | e'
        · exact e'.symm
        · have h1 := hl.1 b e'
          have h2 := hm.1 a e
          omega
    subst hab
    rw [sorted_ext hl.2 hm.2 fun x => ?_]
    have hx := h x
    simp only [List.mem_cons] at hx
    constructor
    · intro hxl
      rcases hx.1 (.inr hxl) with rfl | h
      · exact absurd (hl.1 _ hxl) (Nat.lt_irrefl _)
      · exact h
    · intro hxm
      rcases hx.2 (.inr hxm) with rfl | h
      · exact absurd (hm.1 _ hxm) (Nat.lt_irrefl _)
      · exact h

/-- The characters are in increasing order, and no two of them have the same glyph. -/
theorem veraGlyphs_distinct : veraGlyphs.Pairwise fun a b => a.1 < b.1 ∧ a.2 ≠ b.2 := by decide +kernel

/-- **C78**: the file that the program includes is accepted as a font: the program does not panic when the font is first used. -/
theorem C78_parses : ∃ font, Font.parse vera = .ok font ∧ font.bytes = vera ∧
    font.postscriptName = .utf8Lossy ("BitstreamVeraSans-Roman".toList.map fun c => Fin.ofNat 256 c.toNat) ∧
    font.glyphCount = 268 ∧ font.unitsPerEm = 2048 ∧ font.ascender = 1901 ∧ font.descender = -483 :=
  ⟨veraFont, vera_parse, rfl, congrArg NameText.utf8Lossy (by decide +kernel), rfl, rfl, rfl, rfl⟩

/-- **C78**: whatever the character, looking it up in the built-in font gives its glyph in the table of 256 characters, or glyph 0. The
table has glyphs for printable ASCII and Latin-1, and no two characters share a glyph. -/
theorem C78_characters (font : Font) (h : Font.parse vera = .ok font) :
    (∀ c g, font.glyphId c = .ok g ↔ (c, g) ∈ veraGlyphs ∨ g = 0 ∧ ∀ g', (c, g') ∉ veraGlyphs) ∧
    (∀ c, 0x20 ≤ c ∧ c ≤ 0x7E ∨ 0xA0 ≤ c ∧ c ≤ 0xFF → ∃ g, g ≠ 0 ∧ font.glyphId c = .ok g) ∧
    (∀ c c' g, g ≠ 0 → font.glyphId c = .ok g → font.glyphId c' = .ok g → c = c') ∧
    ∃ calls, font.eachCodePoint = .ok calls ∧ calls = veraGlyphs := by
  rw [vera_parse] at h
  cases h
  refine ⟨veraFont_glyphId, fun c hc => ?_, fun c c' g h0 h1 h2 => ?_, ?_⟩
  · have h1 : ∀ c < 256, 0x20 ≤ c ∧ c ≤ 0x7E ∨ 0xA0 ≤ c ∧ c ≤ 0xFF → veraGlyphs.any (fun p => p.1 == c && p.2 != 0) = true := by
      decide +kernel
    have := h1 c (by omega) hc
    rw [List.any_eq_true] at this
    obtain ⟨⟨c', g⟩, hm, hp⟩ := this
    simp only [Bool.and_eq_true, beq_iff_eq, bne_iff_ne] at hp
    obtain ⟨rfl, h0⟩ := hp
    exact ⟨g, h0, (veraFont_glyphId c' g).2 (.inl hm)⟩
  · have h1 := ((veraFont_glyphId c g).1 h1).resolve_right fun h => h0 h.1
    have h2 := ((veraFont_glyphId c' g).1 h2).resolve_right fun h => h0 h.1
    obtain ⟨i, hi, e1⟩ := List.getElem_of_mem h1
    obtain ⟨j, hj, e2⟩ := List.getElem_of_mem h2
    have hd := List.pairwise_iff_getElem.1 veraGlyphs_distinct
    rcases Nat.lt_trichotomy i j with h | h | h
    · have := (hd i j hi hj h).2; rw [e1, e2] at this; exact absurd rfl this
    · subst h; rw [e1] at e2; exact (Prod.mk.inj e2).1
    · have := (hd j i hj hi h).2; rw [e1, e2] at this; exact absurd rfl this
  · obtain ⟨l, hl, hp, hm⟩ := C23_enumeration veraFont 45702 veraFont_uses veraSegs vera_size vera_format4 vera_format4Ok
    refine ⟨l, hl, ?_⟩
    have hall : ∀ p ∈ veraGlyphs, p.2 ≠ 0 ∧ isChar p.1 = true := by decide +kernel
    apply sorted_ext hp (veraGlyphs_distinct.imp fun h => h.1)
    rintro ⟨c, g⟩
    rw [hm, veraFont_glyphId]
    constructor
    · rintro ⟨h0, _, h | h⟩
      · exact h
      · exact absurd h.1 h0
    · exact fun h => ⟨(hall _ h).1, (hall _ h).2, .inl h⟩

/-- A few entries of the table. -/
example : veraFont.glyphId 0x41 = .ok 36 ∧ veraFont.glyphId 0xE9 = .ok 112 ∧ veraFont.glyphId 0x4E00 = .ok 0 :=
  ⟨(veraFont_glyphId _ _).2 (.inl (by decide +kernel)), (veraFont_glyphId _ _).2 (.inl (by decide +kernel)),
    (veraFont_glyphId _ _).2 (.inr ⟨rfl, fun g' h => by
      have : veraGlyphs.all (fun p => p.1 != 0x4E00) = true := by decide +kernel
      exact absurd rfl (bne_iff_ne.1 (List.all_eq_true.1 this _ h))⟩)⟩

end Verif.Font
