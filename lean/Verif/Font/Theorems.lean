/- Theorems about reading fonts: C20 to C25. -/
import Verif.Font.CmapLemmas
namespace Verif.Font

/-! ### C20 -/

/-- C20: a 16-bit read returns the big-endian value of two bytes inside the data, and is an error exactly when they
are not inside. -/
theorem C20_read_u16 (bytes : List Byte) (p : Nat) :
    (∃ v, U16At bytes p v ∧ readU16 bytes p = .ok v) ∨
    ((∀ v, ¬ U16At bytes p v) ∧ ∃ e, readU16 bytes p = .err e ∧
      (e = .offsetBeyondEof ↔ bytes.length < p) ∧ (e = .offsetPlusLengthBeyondEof ↔ p ≤ bytes.length)) := by
  rcases readU16_eq bytes p with h | ⟨h, he⟩
  · exact Or.inl h
  · refine Or.inr ⟨fun v hv => h (u16At_inside hv), _, he, ?_⟩
    split <;> simp <;> omega

/-- C20: the same for signed 16-bit numbers. -/
theorem C20_read_i16 (bytes : List Byte) (p : Nat) :
    (∃ v, I16At bytes p v ∧ readI16 bytes p = .ok v) ∨
    ((∀ v, ¬ I16At bytes p v) ∧ ∃ e, readI16 bytes p = .err e ∧
      (e = .offsetBeyondEof ↔ bytes.length < p) ∧ (e = .offsetPlusLengthBeyondEof ↔ p ≤ bytes.length)) := by
  rcases readI16_eq bytes p with h | ⟨h, he⟩
  · exact Or.inl h
  · refine Or.inr ⟨fun v ⟨_, hv, _⟩ => h (u16At_inside hv), _, he, ?_⟩
    split <;> simp <;> omega

/-- C20: the same for 32-bit numbers. -/
theorem C20_read_u32 (bytes : List Byte) (p : Nat) :
    (∃ v, U32At bytes p v ∧ readU32 bytes p = .ok v) ∨
    ((∀ v, ¬ U32At bytes p v) ∧ ∃ e, readU32 bytes p = .err e ∧
      (e = .offsetBeyondEof ↔ bytes.length < p) ∧ (e = .offsetPlusLengthBeyondEof ↔ p ≤ bytes.length)) := by
  rcases readU32_eq bytes p with h | ⟨h, he⟩
  · exact Or.inl h
  · refine Or.inr ⟨fun v hv => h (u32At_inside hv), _, he, ?_⟩
    split <;> simp <;> omega

/-- C20: the same for tags. -/
theorem C20_read_tag (bytes : List Byte) (p : Nat) :
    (∃ t, t.length = 4 ∧ BytesAt bytes p t ∧ readTag bytes p = .ok t) ∨
    ((∀ t, t.length = 4 → ¬ BytesAt bytes p t) ∧ ∃ e, readTag bytes p = .err e ∧
      (e = .offsetBeyondEof ↔ bytes.length < p) ∧ (e = .offsetPlusLengthBeyondEof ↔ p ≤ bytes.length)) := by
  rcases readTag_eq bytes p with h | ⟨h, he⟩
  · exact Or.inl h
  · refine Or.inr ⟨fun t ht hv => h (by have := ((bytesAt_iff _ _ _).1 hv).1; omega), _, he, ?_⟩
    split <;> simp <;> omega

/-- C20: a slice of bytes is read whole, or the read is an error. -/
theorem C20_read_bytes (bytes : List Byte) (s : Slice) :
    (∃ t, t.length = s.count ∧ BytesAt bytes s.start t ∧ s.readBytes bytes = .ok t) ∨
    ((∀ t, t.length = s.count → ¬ BytesAt bytes s.start t) ∧ ∃ e, s.readBytes bytes = .err e) := by
  unfold Slice.readBytes sliceFrom sliceTo
  by_cases h : s.start + s.count ≤ bytes.length
  · obtain ⟨hl, hb⟩ := bytesAt_of_inside h
    refine Or.inl ⟨_, hl, hb, ?_⟩
    rw [if_pos (by omega)]
    simp only [Res.ofOption, bind_ok, List.length_drop]
    rw [if_pos (by omega)]
  · refine Or.inr ⟨fun t ht hv => h (by have := ((bytesAt_iff _ _ _).1 hv).1; omega), ?_⟩
    by_cases h' : s.start ≤ bytes.length
    · rw [if_pos h']
      simp only [Res.ofOption, bind_ok, List.length_drop]
      rw [if_neg (by omega)]
      exact ⟨_, rfl⟩
    · rw [if_neg h']
      exact ⟨_, rfl⟩

/-- C20: whatever the bytes, no operation on fonts reads memory outside the data. The font need not come from
`Font.parse`. -/
theorem C20_no_undefined_behaviour {R : Type} (ems : Int → Nat → R) (bytes : List Byte) (font : Font) (ch glyph : Nat) :
    Font.parse bytes ≠ .ub ∧ font.glyphId ch ≠ .ub ∧ font.glyphWidth ems glyph ≠ .ub ∧ font.eachCodePoint ≠ .ub :=
  ⟨safe_fontParse bytes, safe_fontGlyphId font ch, safe_glyphWidth ems font glyph, safe_eachCodePoint font⟩

/-- The unsafe read itself is undefined on a short slice, so the theorem above is about the checks before it. -/
example : derefArray 2 [7] = .ub ∧ readU16 [1, 2, 3] 1 = .ok 515 ∧
    readU16 [1, 2, 3] 2 = .err .offsetPlusLengthBeyondEof ∧ readU16 [1, 2, 3] 4 = .err .offsetBeyondEof := by
  decide +kernel

/-! ### C21 -/

/-- C21: the search looks at no record outside the slice: its result depends only on the comparisons inside. -/
theorem C21_inspects_inside (size : Nat) (f g : Nat → Res Ordering) (h : ∀ i, i < size → f i = g i) :
    binarySearch size f = binarySearch size g := by
  unfold binarySearch
  by_cases h0 : size = 0
  · rw [if_pos h0, if_pos h0]
  · rw [if_neg h0, if_neg h0, binarySearchLoop_congr f g size h _ _ _ (by omega)]
    cases hb : binarySearchLoop g size 0 size with
    | ok b =>
      have := binarySearchLoop_lt g _ _ _ _ (by omega) hb
      rw [bind_ok, bind_ok, h b (by omega)]
    | err e => rfl
    | panic => rfl
    | ub => rfl

/-- C21: the search ends normally on any data for which comparing works, sorted or not, and what it finds has the key. -/
theorem C21_terminates_and_sound (size : Nat) (hsize : size < 4294967296) (c : Nat → Ordering) :
    ∃ r, binarySearch size (fun i => .ok (c i)) = .ok r ∧ ∀ i, r = some i → i < size ∧ c i = .eq :=
  binarySearch_ok _ c size hsize fun _ _ => rfl

/-- C21: on sorted records the search finds a record with the key if there is one. -/
theorem C21_complete (size : Nat) (hsize : size < 4294967296) (key : Nat → Nat) (value : Nat)
    (sorted : ∀ i j, i < j → j < size → key i ≤ key j) :
    ∃ r, binarySearch size (fun i => .ok (compare (key i) value)) = .ok r ∧
      (∀ i, r = some i → i < size ∧ key i = value) ∧
      (r = none → ∀ i, i < size → key i ≠ value) := by
  have hs : Sorted3 size fun i => compare (key i) value := by
    intro i j hij hj
    have := sorted i j hij hj
    simp only [Nat.compare_eq_gt, Nat.compare_eq_eq, Ne, Nat.compare_eq_lt]
    omega
  obtain ⟨r, hr, hr'⟩ := binarySearch_ok (fun i => .ok (compare (key i) value)) (fun i => compare (key i) value) size
    hsize fun _ _ => rfl
  refine ⟨r, hr, fun i hi => ?_, ?_⟩
  · have := hr' i hi
    rw [Nat.compare_eq_eq] at this
    exact this
  · rintro rfl i hi he
    obtain ⟨j, hj, _⟩ := binarySearch_complete (fun i => .ok (compare (key i) value)) (fun i => compare (key i) value)
      size hsize (fun _ _ => rfl) hs i hi (Nat.compare_eq_eq.2 he)
    rw [hr] at hj
    cases hj

example : binarySearch 5 (fun i => .ok (compare ([2, 3, 5, 7, 11][i]!) 7)) = .ok (some 3) ∧
    binarySearch 5 (fun i => .ok (compare ([2, 3, 5, 7, 11][i]!) 6)) = .ok none := by decide +kernel

/-- C21: a table that is found is listed in the table directory, whatever the file. -/
theorem C21_find_table_sound (bytes : List Byte) (n : Nat) (t : List Byte) (ht : t.length = 4) (off : Nat)
    (h : findTable bytes ⟨12, n⟩ t = .ok off) : Lists bytes n t off :=
  findTable_inv bytes n t ht off h

/-- C21: in a file with a sorted table directory, a table is found if and only if it is listed; if it is not listed,
the error says so. -/
theorem C21_find_table (bytes : List Byte) (hb : bytes.length < 4294967296) (n : Nat) (hd : SortedDirectory bytes n)
    (t : List Byte) (ht : t.length = 4) :
    (∃ off, Lists bytes n t off ∧ findTable bytes ⟨12, n⟩ t = .ok off) ∨
    ((∀ off, ¬ Lists bytes n t off) ∧ findTable bytes ⟨12, n⟩ t = .err .missingTable) := by
  rcases findTable_sorted bytes hb n hd t ht with h | ⟨h, h'⟩
  · exact Or.inl h
  · exact Or.inr ⟨fun off ho => h ⟨off, ho⟩, h'⟩

/-! ### C22 -/

/-- C22: iterating over a slice of records yields the position of each record once, in order. -/
theorem C22_forward (size : Nat) (hs : 0 < size) (s : Slice) (hb : s.start + size * s.count < 4294967296) :
    (do let it ← s.intoIter size; collect (SliceIter.next size) (s.count + 1) it) =
      .ok ((List.range s.count).map fun i => s.start + size * i) :=
  bindOk (bindOk (offset_ok hb) rfl) (collect_next size hs s.count s.start (s.count + 1) hb (by omega))

/-- C22 is violated for reverse iteration: with one record at position 4, it yields the end of the slice. -/
theorem C22_backward_violated :
    (do let it ← (Slice.mk 4 1).intoIter 8; collect (SliceIter.nextBack 8) 2 it) = .ok [12] ∧
    (do let it ← (Slice.mk 4 1).intoIter 8; collect (SliceIter.next 8) 2 it) = .ok [4] := by decide +kernel

/-- C22, what reverse iteration does: it yields as many positions as there are records, in reverse order, but each is
the position of the record after the one wanted; the first record is never yielded, and the end of the slice is. -/
theorem C22_backward_partial (size : Nat) (hs : 0 < size) (s : Slice) (hb : s.start + size * s.count < 4294967296) :
    (do let it ← s.intoIter size; collect (SliceIter.nextBack size) (s.count + 1) it) =
      .ok (((List.range s.count).map fun i => s.start + size * i).reverse.map fun p => p + size) := by
  have := bindOk (bindOk (offset_ok hb) rfl) (collect_nextBack size hs s.count s.start (s.count + 1) (by omega))
    (x := s.intoIter size) (f := fun it => collect (SliceIter.nextBack size) (s.count + 1) it)
  rw [this]
  congr 1
  rw [← List.map_reverse, List.map_map]
  apply List.map_congr_left
  intro i _
  simp only [Function.comp, Nat.mul_succ]
  omega

example : (do let it ← (Slice.mk 100 3).intoIter 12; collect (SliceIter.next 12) 4 it) = .ok [100, 112, 124] := by
  decide +kernel

/-! ### C23 -/

/-- The font uses the format 4 character map at `h`. -/
def Font.Uses4 (font : Font) (h : Nat) : Prop :=
  ∃ t, font.cmap = .format4 t ∧ Format4.parse font.bytes h = .ok t

/-- The font uses the format 12 character map at `h`. -/
def Font.Uses12 (font : Font) (h : Nat) : Prop :=
  ∃ t, font.cmap = .format12 t ∧ Format12.parse font.bytes h = .ok t

theorem lookup4 (font : Font) (h : Nat) (hu : font.Uses4 h) (segs : List Seg) (hb : font.bytes.length < 4294967296)
    (ht : Format4At font.bytes h segs) (c : Nat) :
    font.cmap = .format4 (table4 h segs.length) ∧
    font.lookup c = (table4 h segs.length).get font.bytes c := by
  obtain ⟨t, hc, hp⟩ := hu
  rw [format4Parse_ok font.bytes hb h segs ht] at hp
  cases hp
  refine ⟨hc, ?_⟩
  unfold Font.lookup
  rw [hc]
  rfl

/-- C23: looking a character up in a well-formed format 4 map gives the glyph that the map assigns to it, and the
missing-glyph number 0 if it assigns none. -/
theorem C23_lookup (font : Font) (h : Nat) (hu : font.Uses4 h) (segs : List Seg)
    (hb : font.bytes.length < 4294967296) (ht : Format4At font.bytes h segs) (hok : Format4Ok font.bytes h segs)
    (c : Nat) :
    (∀ g, Maps4 font.bytes h segs c g → font.glyphId c = .ok g) ∧
    ((∀ g, ¬ Maps4 font.bytes h segs c g) → font.glyphId c = .ok 0) := by
  have hl := (lookup4 font h hu segs hb ht c).2
  rcases format4Get_ok font.bytes hb h segs ht hok c with ⟨i, hi, h1, h2, hg⟩ | ⟨hn, hg⟩
  · obtain ⟨g, hm, hgid⟩ := glyphId_ok font.bytes hb h segs ht hok i hi c h1 h2
    have hres : font.glyphId c = .ok g := by
      refine bindOk (hl.trans (hg.trans hgid)) ?_
      by_cases hg0 : g = 0
      · rw [hg0]; rfl
      · rw [if_pos hg0]; rfl
    refine ⟨?_, fun hno => absurd ⟨i, hi, h1, h2, hm⟩ (hno g)⟩
    rintro g' ⟨j, hj, h3, h4, hm'⟩
    have hij : i = j := by
      rcases Nat.lt_trichotomy i j with hlt | heq | hlt
      · have := pairwise_get hok.sorted hi hj hlt; omega
      · exact heq
      · have := pairwise_get hok.sorted hj hi hlt; omega
    subst hij
    rw [hres, segMaps_unique hm hm']
  · refine ⟨?_, fun _ => bindOk (hl.trans hg) rfl⟩
    rintro g' ⟨j, hj, h3, h4, _⟩
    exact absurd ⟨j, hj, h3, h4⟩ hn

/-- C23: enumerating the characters of a font with a well-formed format 4 map yields, in increasing order and
once each, exactly the characters with a glyph other than 0, each with the glyph that looking it up gives. -/
theorem C23_enumeration (font : Font) (h : Nat) (hu : font.Uses4 h) (segs : List Seg)
    (hb : font.bytes.length < 4294967296) (ht : Format4At font.bytes h segs) (hok : Format4Ok font.bytes h segs) :
    ∃ l, font.eachCodePoint = .ok l ∧ l.Pairwise (fun a b => a.1 < b.1) ∧
      ∀ c g, (c, g) ∈ l ↔ g ≠ 0 ∧ isChar c ∧ font.glyphId c = .ok g := by
  have hc := (lookup4 font h hu segs hb ht 0).1
  obtain ⟨l, hl, hp, hm⟩ := segments_ok font.bytes hb h segs ht hok segs.length 0 (by omega)
  refine ⟨l.filter fun call => decide (call.2 ≠ 0) && isChar call.1, ?_, hp.filter _, ?_⟩
  · unfold Font.eachCodePoint
    rw [hc]
    exact bindOk hl rfl
  · intro c g
    rw [List.mem_filter, hm]
    have hlk := (lookup4 font h hu segs hb ht c).2
    simp only [Bool.and_eq_true, decide_eq_true_eq]
    constructor
    · rintro ⟨⟨j, hj, _, h1, h2, hg⟩, hg0, hch⟩
      refine ⟨hg0, hch, ?_⟩
      rcases format4Get_ok font.bytes hb h segs ht hok c with ⟨i, hi, h3, h4, hg'⟩ | ⟨hn, _⟩
      · have hij : i = j := by
          rcases Nat.lt_trichotomy i j with hlt | heq | hlt
          · have := pairwise_get hok.sorted hi hj hlt; omega
          · exact heq
          · have := pairwise_get hok.sorted hj hi hlt; omega
        subst hij
        exact bindOk (hlk.trans (hg'.trans hg)) rfl
      · exact absurd ⟨j, hj, h1, h2⟩ hn
    · rintro ⟨hg0, hch, hgid⟩
      refine ⟨?_, hg0, hch⟩
      obtain ⟨o, ho, hgo⟩ := bind_eq_ok hgid
      cases hgo
      rw [hlk] at ho
      rcases format4Get_ok font.bytes hb h segs ht hok c with ⟨i, hi, h3, h4, hg'⟩ | ⟨_, hg'⟩
      · rw [hg'] at ho
        cases o with
        | none => exact absurd rfl hg0
        | some g' => exact ⟨i, hi, by omega, h3, h4, ho⟩
      · rw [hg'] at ho
        cases ho
        exact absurd rfl hg0

/-! ### C24 -/

theorem lookup12 (font : Font) (h : Nat) (hu : font.Uses12 h) (groups : List Group)
    (hb : font.bytes.length < 4294967296) (ht : Format12At font.bytes h groups) (c : Nat) :
    font.cmap = .format12 ⟨h + 16, groups.length⟩ ∧
    font.lookup c = Format12.get ⟨h + 16, groups.length⟩ font.bytes c := by
  obtain ⟨t, hc, hp⟩ := hu
  rw [format12Parse_ok font.bytes hb h groups ht] at hp
  cases hp
  refine ⟨hc, ?_⟩
  unfold Font.lookup
  rw [hc]

/-- C24: looking a character up in a well-formed format 12 map gives the glyph that the map assigns to it if its number
fits 16 bits, and 0 if it does not fit or none is assigned. -/
theorem C24_lookup (font : Font) (h : Nat) (hu : font.Uses12 h) (groups : List Group)
    (hb : font.bytes.length < 4294967296) (ht : Format12At font.bytes h groups) (hok : Format12Ok groups) (c : Nat) :
    (∀ g, Maps12 groups c g → font.glyphId c = .ok (if g ≤ 65535 then g else 0)) ∧
    ((∀ g, ¬ Maps12 groups c g) → font.glyphId c = .ok 0) := by
  have hl := (lookup12 font h hu groups hb ht c).2
  rcases format12Get_ok font.bytes hb h groups ht hok c with ⟨i, hi, h1, h2, hg⟩ | ⟨hn, hg⟩
  · refine ⟨?_, fun hno => absurd ⟨groups[i], List.getElem_mem hi, h1, h2, rfl⟩ (hno _)⟩
    rintro g' ⟨x, hx, h3, h4, rfl⟩
    obtain ⟨j, hj, rfl⟩ := List.getElem_of_mem hx
    have hij : i = j := by
      rcases Nat.lt_trichotomy i j with hlt | heq | hlt
      · have := pairwise_get hok.sorted hi hj hlt; omega
      · exact heq
      · have := pairwise_get hok.sorted hj hi hlt; omega
    subst hij
    refine bindOk (hl.trans hg) ?_
    split <;> rfl
  · refine ⟨?_, fun _ => bindOk (hl.trans hg) rfl⟩
    rintro g' ⟨x, hx, h3, h4, _⟩
    obtain ⟨j, hj, rfl⟩ := List.getElem_of_mem hx
    exact absurd ⟨j, hj, h3, h4⟩ hn

/-- C24, what enumeration does on any well-formed format 12 map: in increasing order, each character that the map assigns a
glyph, with the low 16 bits of the glyph number, unless these are 0. -/
theorem C24_enumeration_general (font : Font) (h : Nat) (hu : font.Uses12 h) (groups : List Group)
    (hb : font.bytes.length < 4294967296) (ht : Format12At font.bytes h groups) (hok : Format12Ok groups) :
    ∃ l, font.eachCodePoint = .ok l ∧ l.Pairwise (fun a b => a.1 < b.1) ∧
      ∀ c g, (c, g) ∈ l ↔ g ≠ 0 ∧ isChar c ∧ ∃ g32, Maps12 groups c g32 ∧ g = g32 % 65536 := by
  have hc := (lookup12 font h hu groups hb ht 0).1
  have hin := ht.inside
  obtain ⟨l, hl, hp, hm⟩ := groupsLoop_ok font.bytes hb h groups ht hok groups.length 0 (groups.length + 1)
    (by omega) (by omega)
  refine ⟨l.filter fun call => decide (call.2 ≠ 0) && isChar call.1, ?_, hp.filter _, ?_⟩
  · unfold Font.eachCodePoint
    rw [hc]
    refine bindOk (a := l) ?_ rfl
    refine bindOk (bindOk (offset_ok ?_) rfl) hl
    simp only [sizeCmapFormat12Group]
    omega
  · intro c g
    rw [List.mem_filter, hm]
    simp only [Bool.and_eq_true, decide_eq_true_eq]
    constructor
    · rintro ⟨⟨j, hj, _, h1, h2, hg⟩, hg0, hch⟩
      exact ⟨hg0, hch, _, ⟨groups[j], List.getElem_mem hj, h1, h2, rfl⟩, hg⟩
    · rintro ⟨hg0, hch, g32, ⟨x, hx, h1, h2, rfl⟩, hg⟩
      obtain ⟨j, hj, rfl⟩ := List.getElem_of_mem hx
      exact ⟨⟨j, hj, by omega, h1, h2, hg⟩, hg0, hch⟩

/-- C24 for maps whose glyph numbers fit 16 bits: enumeration yields exactly the characters with a glyph other than 0,
with the glyph that looking it up gives. -/
theorem C24_enumeration_partial (font : Font) (h : Nat) (hu : font.Uses12 h) (groups : List Group)
    (hb : font.bytes.length < 4294967296) (ht : Format12At font.bytes h groups) (hok : Format12Ok groups)
    (fit : ∀ x ∈ groups, x.startGlyph + (x.endCode - x.startCode) ≤ 65535) :
    ∃ l, font.eachCodePoint = .ok l ∧ l.Pairwise (fun a b => a.1 < b.1) ∧
      ∀ c g, (c, g) ∈ l ↔ g ≠ 0 ∧ isChar c ∧ font.glyphId c = .ok g := by
  obtain ⟨l, hl, hp, hm⟩ := C24_enumeration_general font h hu groups hb ht hok
  refine ⟨l, hl, hp, ?_⟩
  intro c g
  rw [hm]
  obtain ⟨hmap, hno⟩ := C24_lookup font h hu groups hb ht hok c
  have small : ∀ g32, Maps12 groups c g32 → g32 ≤ 65535 := by
    rintro g32 ⟨x, hx, h1, h2, rfl⟩
    have := fit x hx
    omega
  constructor
  · rintro ⟨hg0, hch, g32, hm, rfl⟩
    have := small g32 hm
    refine ⟨hg0, hch, ?_⟩
    rw [hmap g32 hm, if_pos this, Nat.mod_eq_of_lt (by omega)]
  · rintro ⟨hg0, hch, hgid⟩
    refine ⟨hg0, hch, ?_⟩
    by_cases hex : ∃ g32, Maps12 groups c g32
    · obtain ⟨g32, hm⟩ := hex
      have := small g32 hm
      rw [hmap g32 hm, if_pos this] at hgid
      cases hgid
      exact ⟨g, hm, by rw [Nat.mod_eq_of_lt (by omega)]⟩
    · rw [hno fun g hg => hex ⟨g, hg⟩] at hgid
      cases hgid
      exact absurd rfl hg0

/-! ### C25 -/

/-- C25: a glyph with its own record of metrics has the advance width of that record. -/
theorem C25_own_width {R : Type} (ems : Int → Nat → R) (font : Font) (hb : font.bytes.length < 4294967296)
    (glyph advance : Nat) (hg : glyph < font.horizontalMetrics.count)
    (hw : U16At font.bytes (font.horizontalMetrics.start + 4 * glyph) advance) :
    font.glyphWidth ems glyph = .ok (ems advance font.unitsPerEm) := by
  have hin := u16At_inside hw
  unfold Font.glyphWidth checkedSub
  rw [if_pos (by omega)]
  refine bindOk rfl ?_
  dsimp only
  rw [Nat.min_eq_left (by omega)]
  refine bindOk (offset_ok (by simp only [sizeLongHorizontalMetricsRecord]; omega)) ?_
  exact bindOk (fieldU16_at hw hb) rfl

/-- C25: any other glyph has the advance width of the last record. -/
theorem C25_last_width {R : Type} (ems : Int → Nat → R) (font : Font) (hb : font.bytes.length < 4294967296)
    (glyph advance : Nat) (hn : 0 < font.horizontalMetrics.count) (hg : font.horizontalMetrics.count ≤ glyph)
    (hw : U16At font.bytes (font.horizontalMetrics.start + 4 * (font.horizontalMetrics.count - 1)) advance) :
    font.glyphWidth ems glyph = .ok (ems advance font.unitsPerEm) := by
  have hin := u16At_inside hw
  unfold Font.glyphWidth checkedSub
  rw [if_pos (by omega)]
  refine bindOk rfl ?_
  dsimp only
  rw [Nat.min_eq_right (by omega)]
  refine bindOk (offset_ok (by simp only [sizeLongHorizontalMetricsRecord]; omega)) ?_
  exact bindOk (fieldU16_at hw hb) rfl

/-- C25: a font without metrics gives an error for every glyph. -/
theorem C25_no_metrics {R : Type} (ems : Int → Nat → R) (font : Font) (hn : font.horizontalMetrics.count = 0)
    (glyph : Nat) : font.glyphWidth ems glyph = .err .noHorizontalGlyphMetrics := by
  unfold Font.glyphWidth checkedSub
  rw [hn]
  rfl

/-- C25: when the record is not inside the file the result is an error (for a table at a position that a parsed font
can have). -/
theorem C25_outside {R : Type} (ems : Int → Nat → R) (font : Font) (glyph : Nat)
    (hp : font.horizontalMetrics.start + 4 * font.horizontalMetrics.count < 4294967296)
    (hn : 0 < font.horizontalMetrics.count)
    (hout : ∀ a, ¬ U16At font.bytes (font.horizontalMetrics.start + 4 * min glyph (font.horizontalMetrics.count - 1)) a) :
    ∃ e, font.glyphWidth ems glyph = .err e := by
  have hle := Nat.min_le_right glyph (font.horizontalMetrics.count - 1)
  rcases readU16_eq font.bytes (font.horizontalMetrics.start + 4 * min glyph (font.horizontalMetrics.count - 1)) with
    ⟨v, hv, _⟩ | ⟨_, he⟩
  · exact absurd hv (hout v)
  · refine ⟨if font.horizontalMetrics.start + 4 * min glyph (font.horizontalMetrics.count - 1) ≤ font.bytes.length
        then .offsetPlusLengthBeyondEof else .offsetBeyondEof, ?_⟩
    unfold Font.glyphWidth checkedSub
    rw [if_pos (by omega)]
    refine bindOk rfl ?_
    dsimp only
    refine bindOk (offset_ok (by simp only [sizeLongHorizontalMetricsRecord]; omega)) ?_
    have : fieldU16 font.bytes (font.horizontalMetrics.start + 4 * min glyph (font.horizontalMetrics.count - 1)) 0 =
      .err (if font.horizontalMetrics.start + 4 * min glyph (font.horizontalMetrics.count - 1) ≤ font.bytes.length
        then .offsetPlusLengthBeyondEof else .offsetBeyondEof) :=
      bindOk (addU32_ok (by omega)) he
    simp only [sizeLongHorizontalMetricsRecord]
    rw [this]
    rfl

end Verif.Font
