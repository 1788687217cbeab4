/- Theorems about parsing a whole font file: C50 and C51. -/
import Verif.Font.Example
namespace Verif.Font

/-- The tables that a font file must list, and where they are. -/
structure Tables where
  count : Nat
  maxp : Nat
  head : Nat
  hhea : Nat
  hmtx : Nat
  name : Nat
  cmap : Nat

/-- The table directory of the file lists these tables. -/
structure Tables.In (bytes : List Byte) (t : Tables) : Prop where
  count : U16At bytes 4 t.count
  maxp : Lists bytes t.count (tag "maxp") t.maxp
  head : Lists bytes t.count (tag "head") t.head
  hhea : Lists bytes t.count (tag "hhea") t.hhea
  hmtx : Lists bytes t.count (tag "hmtx") t.hmtx
  name : Lists bytes t.count (tag "name") t.name
  cmap : Lists bytes t.count (tag "cmap") t.cmap

/-- The numbers of the font are those of its tables, at the places of the TrueType specification. -/
structure Metrics (bytes : List Byte) (t : Tables) (font : Font) : Prop where
  glyphCount : U16At bytes (t.maxp + 4) font.glyphCount
  unitsPerEm : U16At bytes (t.head + 18) font.unitsPerEm
  minX : I16At bytes (t.head + 36) font.minX
  minY : I16At bytes (t.head + 38) font.minY
  maxX : I16At bytes (t.head + 40) font.maxX
  maxY : I16At bytes (t.head + 42) font.maxY
  ascender : I16At bytes (t.hhea + 4) font.ascender
  descender : I16At bytes (t.hhea + 6) font.descender
  metricsStart : font.horizontalMetrics.start = t.hmtx
  metricsCount : U16At bytes (t.hhea + 34) font.horizontalMetrics.count

/-- A name record at `r`, with strings stored from `storage`, is a PostScript name in an encoding that is read. -/
def SupportedName (bytes : List Byte) (r : Nat) : Prop :=
  U16At bytes (r + 6) 6 ∧ (U16At bytes r 1 ∨ U16At bytes r 3 ∧ U16At bytes (r + 2) 1)

/-- `chars` are the characters of a text of two bytes each, the most significant first, of which only those up to 255 are
kept: the others, and an odd byte at the end, become U+FFFD. -/
def Latin1OfUcs2 (s : List Byte) (chars : List Nat) : Prop :=
  chars.length = (s.length + 1) / 2 ∧ ∀ i, i < chars.length →
    (∀ high low, s[2 * i]? = some high → s[2 * i + 1]? = some low → high.val = 0 → chars[i]? = some low.val) ∧
    ((∀ high, s[2 * i]? = some high → high.val ≠ 0) ∨ s[2 * i + 1]? = none → chars[i]? = some 0xFFFD)

theorem decodeUcs2_spec : ∀ s : List Byte, Latin1OfUcs2 s (decodeUcs2 s)
  | [] => ⟨rfl, by intro i hi; simp [decodeUcs2] at hi⟩
  | [_] => by
    refine ⟨by simp [decodeUcs2], ?_⟩
    intro i hi
    have : i = 0 := by simpa [decodeUcs2] using hi
    subst this
    exact ⟨by intro high low _ h; simp at h, fun _ => rfl⟩
  | a :: b :: rest => by
    obtain ⟨hl, hi⟩ := decodeUcs2_spec rest
    refine ⟨by simp only [decodeUcs2, List.length_cons, hl]; omega, ?_⟩
    intro i hlt
    cases i with
    | zero =>
      refine ⟨?_, ?_⟩
      · rintro high low ⟨⟩ ⟨⟩ h0
        simp [decodeUcs2, h0]
      · rintro (h | h)
        · simp [decodeUcs2, h a rfl]
        · simp at h
    | succ i =>
      have := hi i (by simpa [decodeUcs2] using hlt)
      simpa [decodeUcs2, show 2 * (i + 1) = 2 * i + 2 by omega, show 2 * i + 2 + 1 = (2 * i + 1) + 2 by omega] using this

example : Latin1OfUcs2 [⟨0, by decide⟩, ⟨65, by decide⟩, ⟨1, by decide⟩, ⟨65, by decide⟩, ⟨0, by decide⟩] [65, 0xFFFD, 0xFFFD] :=
  decodeUcs2_spec _

/-- The text of a name record: the bytes of a Macintosh name, or a Microsoft name decoded from pairs of bytes, where
anything outside Latin-1 becomes U+FFFD. -/
def NameIs (bytes : List Byte) (storage r : Nat) (text : NameText) : Prop :=
  ∃ o s, U16At bytes (r + 10) o ∧ U16At bytes (r + 8) s.length ∧ BytesAt bytes (storage + o) s ∧
    (U16At bytes r 1 ∧ text = .utf8Lossy s ∨ U16At bytes r 3 ∧ ∃ chars, Latin1OfUcs2 s chars ∧ text = .chars chars)

/-- `text` is the first PostScript name that can be read in the naming table at `header`. -/
def FirstName (bytes : List Byte) (header : Nat) (text : NameText) : Prop :=
  ∃ count o i, U16At bytes (header + 2) count ∧ U16At bytes (header + 4) o ∧ i < count ∧
    SupportedName bytes (header + 6 + 12 * i) ∧ NameIs bytes (header + o) (header + 6 + 12 * i) text ∧
    ∀ j, j < i → ¬ SupportedName bytes (header + 6 + 12 * j)

/-- The 8 bytes at `r` are an encoding record for a character map that can be read: Microsoft, encoding 1 and format 4, or
encoding 10 and format 12; `sub` is where the map is. -/
def SupportedMap (bytes : List Byte) (header r sub : Nat) : Prop :=
  ∃ o, U32At bytes (r + 4) o ∧ sub = header + o ∧ U16At bytes r 3 ∧
    (U16At bytes (r + 2) 1 ∧ U16At bytes sub 4 ∨ U16At bytes (r + 2) 10 ∧ U16At bytes sub 12)

theorem firstSome_inv {β : Type} (body : Nat → Res (Option β)) : ∀ (l : List Nat) (b : β),
    firstSome body l = .ok (some b) →
    ∃ i, ∃ h : i < l.length, body l[i] = .ok (some b) ∧ ∀ j (hj : j < i), body (l[j]'(by omega)) = .ok none := by
  intro l
  induction l with
  | nil => intro b h; cases h
  | cons p l ih =>
    intro b h
    obtain ⟨o, ho, h⟩ := bind_eq_ok h
    cases o with
    | some b' =>
      cases h
      exact ⟨0, by simp, ho, by intro j hj; omega⟩
    | none =>
      obtain ⟨i, hi, hb, hn⟩ := ih b h
      refine ⟨i + 1, by simp; omega, by simpa using hb, ?_⟩
      intro j hj
      cases j with
      | zero => exact ho
      | succ j => simpa using hn j (by omega)

theorem firstSome_ok {β : Type} (body : Nat → Res (Option β)) : ∀ (l : List Nat) (b : β) (i : Nat) (hi : i < l.length),
    body l[i] = .ok (some b) → (∀ j (hj : j < i), body (l[j]'(by omega)) = .ok none) →
    firstSome body l = .ok (some b) := by
  intro l
  induction l with
  | nil => intro b i hi; simp at hi
  | cons p l ih =>
    intro b i hi hb hn
    cases i with
    | zero => exact bindOk hb rfl
    | succ i =>
      refine bindOk (hn 0 (by omega)) ?_
      exact ih b i (by simpa using hi) (by simpa using hb) fun j hj => by
        have := hn (j + 1) (by omega)
        simpa using this

theorem intoIter_inv {size : Nat} {s : Slice} {it : SliceIter} (h : s.intoIter size = .ok it) :
    it = ⟨s.start, s.start + size * s.count⟩ ∧ s.start + size * s.count < 4294967296 := by
  obtain ⟨e, he, h⟩ := bind_eq_ok h
  obtain ⟨rfl, hlt⟩ := offset_inv he
  cases h
  exact ⟨rfl, hlt⟩

theorem nameRecord_some {bytes : List Byte} {storage r : Nat} {text : NameText}
    (h : nameRecord bytes storage r = .ok (some text)) :
    SupportedName bytes r ∧ NameIs bytes storage r text := by
  unfold nameRecord at h
  obtain ⟨id, hid, h⟩ := bind_eq_ok h
  by_cases h6 : id = 6
  · rw [if_neg (by simp [h6])] at h
    obtain ⟨pl, hpl, h⟩ := bind_eq_ok h
    obtain ⟨en, hen, h⟩ := bind_eq_ok h
    have hid' := fieldU16_inv hid
    have hpl' := fieldU16_inv hpl
    have hen' := fieldU16_inv hen
    have str : ∀ s, nameBytes bytes storage r = .ok s →
        ∃ o, U16At bytes (r + 10) o ∧ U16At bytes (r + 8) s.length ∧ BytesAt bytes (storage + o) s := by
      intro s hs
      unfold nameBytes at hs
      obtain ⟨o, ho, hs⟩ := bind_eq_ok hs
      obtain ⟨st, hst, hs⟩ := bind_eq_ok hs
      obtain ⟨len, hlen, hs⟩ := bind_eq_ok hs
      obtain ⟨rfl, _⟩ := addU32_inv hst
      rcases C20_read_bytes bytes ⟨storage + o, len⟩ with ⟨t, htl, htb, htr⟩ | ⟨_, e, he⟩
      · rw [htr] at hs
        cases hs
        refine ⟨o, fieldU16_inv ho, ?_, htb⟩
        rw [htl]
        exact fieldU16_inv hlen
      · rw [he] at hs; cases hs
    rw [h6] at hid'
    by_cases h1 : pl = 1
    · rw [if_pos h1] at h
      obtain ⟨s, hs, h⟩ := bind_eq_ok h
      cases h
      rw [h1] at hpl'
      obtain ⟨o, h2, h3, h4⟩ := str s hs
      exact ⟨⟨hid', Or.inl hpl'⟩, o, s, h2, h3, h4, Or.inl ⟨hpl', rfl⟩⟩
    · rw [if_neg h1] at h
      by_cases h3 : pl = 3 ∧ en = 1
      · rw [if_pos h3] at h
        obtain ⟨s, hs, h⟩ := bind_eq_ok h
        cases h
        rw [h3.1] at hpl'
        rw [h3.2] at hen'
        obtain ⟨o, h2, h3, h4⟩ := str s hs
        exact ⟨⟨hid', Or.inr ⟨hpl', hen'⟩⟩, o, s, h2, h3, h4, Or.inr ⟨hpl', _, decodeUcs2_spec s, rfl⟩⟩
      · rw [if_neg h3] at h
        cases h
  · rw [if_pos h6] at h
    cases h

theorem nameRecord_none {bytes : List Byte} {storage r : Nat}
    (h : nameRecord bytes storage r = .ok none) : ¬ SupportedName bytes r := by
  rintro ⟨hid, hp⟩
  unfold nameRecord at h
  obtain ⟨id, hid', h⟩ := bind_eq_ok h
  have h6 : id = 6 := u16At_unique (fieldU16_inv hid') hid
  rw [if_neg (by simp [h6])] at h
  obtain ⟨pl, hpl, h⟩ := bind_eq_ok h
  obtain ⟨en, hen, h⟩ := bind_eq_ok h
  by_cases h1 : pl = 1
  · rw [if_pos h1] at h
    obtain ⟨s, hs, h⟩ := bind_eq_ok h
    cases h
  · rw [if_neg h1] at h
    rcases hp with hp | ⟨hp, he⟩
    · exact h1 (u16At_unique (fieldU16_inv hpl) hp)
    · rw [if_pos ⟨u16At_unique (fieldU16_inv hpl) hp, u16At_unique (fieldU16_inv hen) he⟩] at h
      obtain ⟨s, hs, h⟩ := bind_eq_ok h
      cases h

theorem readPostscriptName_inv {bytes : List Byte} {n : Nat} {text : NameText}
    (h : readPostscriptName bytes ⟨12, n⟩ = .ok text) :
    ∃ header, Lists bytes n (tag "name") header ∧ FirstName bytes header text := by
  unfold readPostscriptName at h
  obtain ⟨header, hh, h⟩ := bind_eq_ok h
  obtain ⟨start, hs, h⟩ := bind_eq_ok h
  obtain ⟨count, hc, h⟩ := bind_eq_ok h
  obtain ⟨o, ho, h⟩ := bind_eq_ok h
  obtain ⟨storage, hst, h⟩ := bind_eq_ok h
  obtain ⟨it, hit, h⟩ := bind_eq_ok h
  obtain ⟨r, hr, h⟩ := bind_eq_ok h
  obtain ⟨rfl, _⟩ := addU32_inv hs
  obtain ⟨rfl, _⟩ := addU32_inv hst
  obtain ⟨rfl, hlt⟩ := intoIter_inv hit
  dsimp only at hr hlt
  rw [forLoop_next _ _ (by decide) _ _ _ hlt (by omega)] at hr
  cases r with
  | none => cases h
  | some t =>
    cases h
    obtain ⟨i, hi, hb, hn⟩ := firstSome_inv _ _ _ hr
    simp only [List.length_map, List.length_range] at hi
    simp only [List.getElem_map, List.getElem_range] at hb
    obtain ⟨h1, h2⟩ := nameRecord_some hb
    refine ⟨header, findTable_inv bytes n _ (by decide) header hh, count, o, i, fieldU16_inv hc, fieldU16_inv ho, hi,
      h1, h2, ?_⟩
    intro j hj
    have := hn j hj
    simp only [List.getElem_map, List.getElem_range] at this
    exact nameRecord_none this

theorem cmapRecord_some {bytes : List Byte} {header r : Nat} {c : Cmap}
    (h : Cmap.record bytes header r = .ok (some c)) :
    ∃ sub, SupportedMap bytes header r sub ∧
      (U16At bytes sub 4 ∧ (∃ t, c = .format4 t ∧ Format4.parse bytes sub = .ok t) ∨
       U16At bytes sub 12 ∧ ∃ g, c = .format12 g ∧ Format12.parse bytes sub = .ok g) := by
  unfold Cmap.record at h
  obtain ⟨o, ho, h⟩ := bind_eq_ok h
  obtain ⟨sub, hsub, h⟩ := bind_eq_ok h
  obtain ⟨fmt, hf, h⟩ := bind_eq_ok h
  obtain ⟨pl, hpl, h⟩ := bind_eq_ok h
  obtain ⟨en, hen, h⟩ := bind_eq_ok h
  obtain ⟨rfl, _⟩ := addU32_inv hsub
  have hf' := readU16_ok hf
  have hpl' := fieldU16_inv hpl
  have hen' := fieldU16_inv hen
  by_cases h4 : pl = 3 ∧ en = 1 ∧ fmt = 4
  · rw [if_pos h4] at h
    obtain ⟨t, ht, h⟩ := bind_eq_ok h
    cases h
    obtain ⟨rfl, rfl, rfl⟩ := h4
    exact ⟨_, ⟨o, fieldU32_inv ho, rfl, hpl', Or.inl ⟨hen', hf'⟩⟩, Or.inl ⟨hf', t, rfl, ht⟩⟩
  · rw [if_neg h4] at h
    by_cases h12 : pl = 3 ∧ en = 10 ∧ fmt = 12
    · rw [if_pos h12] at h
      obtain ⟨t, ht, h⟩ := bind_eq_ok h
      cases h
      obtain ⟨rfl, rfl, rfl⟩ := h12
      exact ⟨_, ⟨o, fieldU32_inv ho, rfl, hpl', Or.inr ⟨hen', hf'⟩⟩, Or.inr ⟨hf', t, rfl, ht⟩⟩
    · rw [if_neg h12] at h
      cases h

theorem cmapRecord_none {bytes : List Byte} {header r : Nat}
    (h : Cmap.record bytes header r = .ok none) : ∀ sub, ¬ SupportedMap bytes header r sub := by
  rintro sub ⟨o', ho', rfl, hp, hsup⟩
  unfold Cmap.record at h
  obtain ⟨o, ho, h⟩ := bind_eq_ok h
  obtain ⟨sub, hsub, h⟩ := bind_eq_ok h
  obtain ⟨fmt, hf, h⟩ := bind_eq_ok h
  obtain ⟨pl, hpl, h⟩ := bind_eq_ok h
  obtain ⟨en, hen, h⟩ := bind_eq_ok h
  obtain ⟨rfl, _⟩ := addU32_inv hsub
  have heo : o = o' := u32At_unique (fieldU32_inv ho) ho'
  subst heo
  have e1 := u16At_unique (fieldU16_inv hpl) hp
  rcases hsup with ⟨h1, h2⟩ | ⟨h1, h2⟩
  · rw [if_pos ⟨e1, u16At_unique (fieldU16_inv hen) h1, u16At_unique (readU16_ok hf) h2⟩] at h
    obtain ⟨t, ht, h⟩ := bind_eq_ok h
    cases h
  · have e2 := u16At_unique (fieldU16_inv hen) h1
    rw [if_neg (by omega), if_pos ⟨e1, e2, u16At_unique (readU16_ok hf) h2⟩] at h
    obtain ⟨t, ht, h⟩ := bind_eq_ok h
    cases h

/-- The character map of a font is the one at `sub`. -/
def Font.MapAt (font : Font) (sub : Nat) : Prop :=
  U16At font.bytes sub 4 ∧ font.Uses4 sub ∨ U16At font.bytes sub 12 ∧ font.Uses12 sub

/-- `r` is the record that parsing chooses among the `count` records of the `cmap` table at `header`, in the order that
reverse iteration yields them (see C22): the last place after the first record, up to the place after the last
record, that is a supported record. -/
def ChosenRecord (bytes : List Byte) (header count i sub : Nat) : Prop :=
  1 ≤ i ∧ i ≤ count ∧ SupportedMap bytes header (header + 4 + 8 * i) sub ∧
  ∀ j, i < j → j ≤ count → ∀ s, ¬ SupportedMap bytes header (header + 4 + 8 * j) s

theorem cmapParse_inv {bytes : List Byte} {n : Nat} {c : Cmap} (h : Cmap.parse bytes ⟨12, n⟩ = .ok c) :
    ∃ header count i sub, Lists bytes n (tag "cmap") header ∧ U16At bytes (header + 2) count ∧
      ChosenRecord bytes header count i sub ∧
      (U16At bytes sub 4 ∧ (∃ t, c = .format4 t ∧ Format4.parse bytes sub = .ok t) ∨
       U16At bytes sub 12 ∧ ∃ g, c = .format12 g ∧ Format12.parse bytes sub = .ok g) := by
  unfold Cmap.parse at h
  obtain ⟨header, hh, h⟩ := bind_eq_ok h
  obtain ⟨start, hs, h⟩ := bind_eq_ok h
  obtain ⟨count, hc, h⟩ := bind_eq_ok h
  obtain ⟨it, hit, h⟩ := bind_eq_ok h
  obtain ⟨r, hr, h⟩ := bind_eq_ok h
  obtain ⟨rfl, _⟩ := addU32_inv hs
  obtain ⟨rfl, hlt⟩ := intoIter_inv hit
  dsimp only at hr hlt
  rw [forLoop_nextBack _ _ (by decide) _ _ _ (by omega)] at hr
  cases r with
  | none => cases h
  | some t =>
    cases h
    obtain ⟨k, hk, hb, hn⟩ := firstSome_inv _ _ _ hr
    simp only [List.length_map, List.length_reverse, List.length_range] at hk
    simp only [List.getElem_map, List.getElem_reverse, List.getElem_range, List.length_range,
      sizeCmapHeader, sizeCmapEncodingRecord] at hb
    obtain ⟨sub, hsup, hres⟩ := cmapRecord_some hb
    refine ⟨header, count, count - 1 - k + 1, sub, findTable_inv bytes n _ (by decide) header hh, fieldU16_inv hc,
      ⟨by omega, by omega, hsup, ?_⟩, hres⟩
    intro j hj1 hj2
    have := hn (count - j) (by omega)
    simp only [List.getElem_map, List.getElem_reverse, List.getElem_range, List.length_range,
      sizeCmapHeader, sizeCmapEncodingRecord] at this
    rw [show count - 1 - (count - j) + 1 = j by omega] at this
    exact cmapRecord_none this

/-- C50: whatever the file, if it is accepted as a font then it is a TrueType file, its table directory lists the
tables that are needed, the numbers are those of the tables, the name is the first PostScript name that can be read, and
its bytes are those of the file. C51, in part: the character map is one that the `cmap` table has a supported record
for, at a place that reverse iteration visits. -/
theorem C50_parse_sound (bytes : List Byte) (font : Font) (h : Font.parse bytes = .ok font) :
    (U32At bytes 0 0x74727565 ∨ U32At bytes 0 0x00010000) ∧ font.bytes = bytes ∧
    ∃ t : Tables, t.In bytes ∧ Metrics bytes t font ∧ FirstName bytes t.name font.postscriptName ∧
      ∃ count i sub, U16At bytes (t.cmap + 2) count ∧ ChosenRecord bytes t.cmap count i sub ∧ font.MapAt sub := by
  unfold Font.parse at h
  obtain ⟨scaler, hsc, h⟩ := bind_eq_ok h
  have hsc' := fieldU32_inv hsc
  by_cases hbad : scaler ≠ 0x74727565 ∧ scaler ≠ 0x00010000
  · rw [if_pos hbad] at h; cases h
  rw [if_neg hbad] at h
  obtain ⟨start, hst, h⟩ := bind_eq_ok h
  have hst' : start = 12 := by
    unfold followedBy offsetBytes at hst
    have := (addU32_inv hst).1
    simp only [sizeOffsetSubtable] at this
    omega
  subst hst'
  obtain ⟨n, hn, h⟩ := bind_eq_ok h
  dsimp only at h
  obtain ⟨maxp, h1, h⟩ := bind_eq_ok h
  obtain ⟨head, h2, h⟩ := bind_eq_ok h
  obtain ⟨gc, h3, h⟩ := bind_eq_ok h
  obtain ⟨hhea, h4, h⟩ := bind_eq_ok h
  obtain ⟨ps, h5, h⟩ := bind_eq_ok h
  obtain ⟨cm, h6, h⟩ := bind_eq_ok h
  obtain ⟨hmtx, h7, h⟩ := bind_eq_ok h
  obtain ⟨mc, h8, h⟩ := bind_eq_ok h
  obtain ⟨upe, h9, h⟩ := bind_eq_ok h
  obtain ⟨asc, h10, h⟩ := bind_eq_ok h
  obtain ⟨desc, h11, h⟩ := bind_eq_ok h
  obtain ⟨x1, h12, h⟩ := bind_eq_ok h
  obtain ⟨y1, h13, h⟩ := bind_eq_ok h
  obtain ⟨x2, h14, h⟩ := bind_eq_ok h
  obtain ⟨y2, h15, h⟩ := bind_eq_ok h
  cases h
  obtain ⟨name, hname, hfirst⟩ := readPostscriptName_inv h5
  obtain ⟨cmap, count, i, sub, hcmap, hcount, hchosen, hmap⟩ := cmapParse_inv h6
  refine ⟨?_, rfl, ⟨n, maxp, head, hhea, hmtx, name, cmap⟩, ?_, ?_, hfirst, count, i, sub, hcount, hchosen, ?_⟩
  · by_cases he : scaler = 0x74727565
    · left; rw [he] at hsc'; exact hsc'
    · right
      have : scaler = 0x00010000 := by
        by_cases h' : scaler = 0x00010000
        · exact h'
        · exact absurd ⟨he, h'⟩ hbad
      rw [this] at hsc'
      exact hsc'
  · exact ⟨fieldU16_inv hn, findTable_inv bytes n _ (by decide) _ h1, findTable_inv bytes n _ (by decide) _ h2,
      findTable_inv bytes n _ (by decide) _ h4, findTable_inv bytes n _ (by decide) _ h7, hname, hcmap⟩
  · exact ⟨fieldU16_inv h3, fieldU16_inv h9, fieldI16_inv h12, fieldI16_inv h13, fieldI16_inv h14, fieldI16_inv h15,
      fieldI16_inv h10, fieldI16_inv h11, rfl, fieldU16_inv h8⟩
  · rcases hmap with ⟨hf, t, ht, hp⟩ | ⟨hf, g, hg, hp⟩
    · exact Or.inl ⟨hf, t, ht, hp⟩
    · exact Or.inr ⟨hf, g, hg, hp⟩

/-- The hypothesis of C50 is met by the sample file. -/
example : Font.parse sample4 = .ok (sampleParsed sample4 (.format4 (table4 274 3))) := sample4_parse

/-- C51 is violated: a font file whose only character map is a supported one is not accepted, although the same file
with a record for another platform before it is. -/
theorem C51_single_map_violated :
    let bytes := sampleFile (oneRecord 1 sampleFormat4)
    SupportedMap bytes 246 250 258 ∧ U16At bytes 248 1 ∧ SortedDirectory sample4 6 ∧
    Font.parse bytes = .err .noSupportedCmap ∧
    (∃ font, Font.parse sample4 = .ok font) := by
  refine ⟨⟨12, readU32_ok (by decide +kernel), rfl, readU16_ok (by decide +kernel), Or.inl ⟨readU16_ok (by decide +kernel),
    readU16_ok (by decide +kernel)⟩⟩, readU16_ok (by decide +kernel), sample4_directory, by decide +kernel, _, sample4_parse⟩

/-- The place of a `cmap` encoding record can be read, and so can the format of the map that it points to. -/
def ReadableRecord (bytes : List Byte) (header r : Nat) : Prop :=
  ∃ o, U32At bytes (r + 4) o ∧ ∃ f, U16At bytes (header + o) f

theorem cmapRecord_unsupported {bytes : List Byte} (hb : bytes.length < 4294967296) {header r : Nat}
    (hr : ReadableRecord bytes header r) (hn : ∀ sub, ¬ SupportedMap bytes header r sub) :
    Cmap.record bytes header r = .ok none := by
  obtain ⟨o, ho, f, hf⟩ := hr
  have h1 := u32At_inside ho
  have h2 := u16At_inside hf
  obtain ⟨pl, hpl, _⟩ := u16At_exists (bytes := bytes) (p := r) (by omega)
  obtain ⟨en, hen, _⟩ := u16At_exists (bytes := bytes) (p := r + 2) (by omega)
  unfold Cmap.record
  refine bindOk (fieldU32_at ho hb) ?_
  refine bindOk (addU32_ok (by omega)) ?_
  refine bindOk (readU16_at hf) ?_
  refine bindOk (fieldU16_at (o := 0) hpl hb) ?_
  refine bindOk (fieldU16_at hen hb) ?_
  rw [if_neg, if_neg]
  · rfl
  · rintro ⟨rfl, rfl, rfl⟩
    exact hn _ ⟨o, ho, rfl, hpl, Or.inr ⟨hen, hf⟩⟩
  · rintro ⟨rfl, rfl, rfl⟩
    exact hn _ ⟨o, ho, rfl, hpl, Or.inl ⟨hen, hf⟩⟩

theorem cmapRecord_format4 {bytes : List Byte} (hb : bytes.length < 4294967296) {header r o : Nat} {segs : List Seg}
    (ho : U32At bytes (r + 4) o) (h1 : U16At bytes r 3) (h2 : U16At bytes (r + 2) 1)
    (h3 : U16At bytes (header + o) 4) (ht : Format4At bytes (header + o) segs) :
    Cmap.record bytes header r = .ok (some (.format4 (table4 (header + o) segs.length))) := by
  have hi := u16At_inside h3
  unfold Cmap.record
  refine bindOk (fieldU32_at ho hb) ?_
  refine bindOk (addU32_ok (by omega)) ?_
  refine bindOk (readU16_at h3) ?_
  refine bindOk (fieldU16_at (o := 0) h1 hb) ?_
  refine bindOk (fieldU16_at h2 hb) ?_
  rw [if_pos ⟨rfl, rfl, rfl⟩]
  exact bindOk (format4Parse_ok bytes hb _ segs ht) rfl

theorem cmapRecord_format12 {bytes : List Byte} (hb : bytes.length < 4294967296) {header r o : Nat}
    {groups : List Group} (ho : U32At bytes (r + 4) o) (h1 : U16At bytes r 3) (h2 : U16At bytes (r + 2) 10)
    (h3 : U16At bytes (header + o) 12) (ht : Format12At bytes (header + o) groups) :
    Cmap.record bytes header r = .ok (some (.format12 ⟨header + o + 16, groups.length⟩)) := by
  have hi := u16At_inside h3
  unfold Cmap.record
  refine bindOk (fieldU32_at ho hb) ?_
  refine bindOk (addU32_ok (by omega)) ?_
  refine bindOk (readU16_at h3) ?_
  refine bindOk (fieldU16_at (o := 0) h1 hb) ?_
  refine bindOk (fieldU16_at h2 hb) ?_
  rw [if_neg (by omega), if_pos ⟨rfl, rfl, rfl⟩]
  exact bindOk (format12Parse_ok bytes hb _ groups ht) rfl

/-- The map at `sub` is a complete map in one of the two formats. -/
def WholeMap (bytes : List Byte) (sub : Nat) : Prop :=
  (U16At bytes sub 4 ∧ ∃ segs, Format4At bytes sub segs) ∨ (U16At bytes sub 12 ∧ ∃ groups, Format12At bytes sub groups)

/-- C51, the part that holds: the last supported character map is used if it is not that of the first record, and the
bytes after the records happen to read as a record that is not supported. -/
theorem C51_last_map_partial (bytes : List Byte) (hb : bytes.length < 4294967296) (n : Nat)
    (hd : SortedDirectory bytes n) (header count : Nat) (hl : Lists bytes n (tag "cmap") header)
    (huniq : ∀ o, Lists bytes n (tag "cmap") o → o = header)
    (hc : U16At bytes (header + 2) count) (i sub : Nat) (hchosen : ChosenRecord bytes header count i sub)
    (hread : ∀ j, i < j → j ≤ count → ReadableRecord bytes header (header + 4 + 8 * j))
    (hwhole : WholeMap bytes sub) :
    ∃ c, Cmap.parse bytes ⟨12, n⟩ = .ok c ∧
      ((∃ segs, Format4At bytes sub segs ∧ c = .format4 (table4 sub segs.length)) ∨
       ∃ groups, Format12At bytes sub groups ∧ c = .format12 ⟨sub + 16, groups.length⟩) := by
  obtain ⟨hi1, hi2, ⟨o, ho, rfl, hp3, hfmt⟩, hlater⟩ := hchosen
  have hoin := u32At_inside ho
  -- the chosen record
  have hrec : ∃ c, Cmap.record bytes header (header + 4 + 8 * i) = .ok (some c) ∧
      ((∃ segs, Format4At bytes (header + o) segs ∧ c = .format4 (table4 (header + o) segs.length)) ∨
       ∃ groups, Format12At bytes (header + o) groups ∧ c = .format12 ⟨header + o + 16, groups.length⟩) := by
    rcases hfmt with ⟨he, hf⟩ | ⟨he, hf⟩ <;> rcases hwhole with ⟨hw, segs, hs⟩ | ⟨hw, groups, hg⟩
    · exact ⟨_, cmapRecord_format4 hb ho hp3 he hf hs, Or.inl ⟨segs, hs, rfl⟩⟩
    · exact absurd (u16At_unique hf hw) (by decide)
    · exact absurd (u16At_unique hf hw) (by decide)
    · exact ⟨_, cmapRecord_format12 hb ho hp3 he hf hg, Or.inr ⟨groups, hg, rfl⟩⟩
  obtain ⟨c, hrec, hres⟩ := hrec
  refine ⟨c, ?_, hres⟩
  have hft : findTable bytes ⟨12, n⟩ (tag "cmap") = .ok header := by
    rcases findTable_sorted bytes hb n hd (tag "cmap") (by decide) with ⟨off, hlo, hf⟩ | ⟨hno, _⟩
    · rw [hf, huniq off hlo]
    · exact absurd ⟨header, hl⟩ hno
  -- every place up to the end of the slice is inside the file
  have hend : header + 4 + 8 * count < 4294967296 := by
    by_cases hic : i = count
    · subst hic; omega
    · obtain ⟨o', ho', _⟩ := hread count (by omega) (by omega)
      have := u32At_inside ho'
      omega
  unfold Cmap.parse
  refine bindOk hft ?_
  refine bindOk (addU32_ok (by simp only [sizeCmapHeader]; omega)) ?_
  refine bindOk (fieldU16_at hc hb) ?_
  dsimp only
  refine bindOk (a := ⟨header + 4, header + 4 + 8 * count⟩) (bindOk (offset_ok (by
    simp only [sizeCmapHeader, sizeCmapEncodingRecord]; omega)) rfl) ?_
  rw [show sizeCmapEncodingRecord = 8 from rfl, forLoop_nextBack _ _ (by decide) _ _ _ (by omega)]
  have : firstSome (Cmap.record bytes header) ((List.range count).reverse.map fun i => header + 4 + 8 * (i + 1)) =
      .ok (some c) := by
    refine firstSome_ok _ _ c (count - i) (by simp; omega) ?_ ?_
    · simp only [List.getElem_map, List.getElem_reverse, List.getElem_range, List.length_range]
      rw [show count - 1 - (count - i) + 1 = i by omega]
      exact hrec
    · intro j hj
      simp only [List.getElem_map, List.getElem_reverse, List.getElem_range, List.length_range]
      exact cmapRecord_unsupported hb (hread _ (by omega) (by omega)) (hlater _ (by omega) (by omega))
  exact bindOk this rfl

/-- The hypotheses of C51_last_map_partial are met by the sample file. -/
example : ChosenRecord sample4 246 2 1 274 ∧ ReadableRecord sample4 246 (246 + 4 + 8 * 2) ∧ WholeMap sample4 274 ∧
    Lists sample4 6 (tag "cmap") 246 := by
  refine ⟨⟨by omega, by omega, ⟨28, readU32_ok (by decide +kernel), rfl, readU16_ok (by decide +kernel),
    Or.inl ⟨readU16_ok (by decide +kernel), readU16_ok (by decide +kernel)⟩⟩, ?_⟩,
    ⟨0, readU32_ok (by decide +kernel), 0, readU16_ok (by decide +kernel)⟩,
    Or.inl ⟨readU16_ok (by decide +kernel), sampleSegs, sample4_at⟩,
    ⟨0, by omega, bytesAt_of_take (by decide +kernel) (by decide +kernel), readU32_ok (by decide +kernel)⟩⟩
  intro j h1 h2 s
  have : j = 2 := by omega
  subst this
  exact cmapRecord_none (by decide +kernel) s

end Verif.Font
