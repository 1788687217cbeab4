import Verif.Pdf.ToUnicodeLemmas
/- C18 (glyph codes) and C19 (ToUnicode CMaps). -/
namespace Verif.Pdf

/-- With enough fuel, the (character, code) pairs in the tokens `l` are `r`. -/
def CharsRead (l : List (Token Empty)) (r : List (Nat × Nat)) : Prop :=
  ∃ n, ∀ fuel, n ≤ fuel → bfcharPairs fuel l = some r

theorem CharsRead.step {l l' : List (Token Empty)} {r r' : List (Nat × Nat)} (h : CharsRead l r)
    (hs : ∀ f, bfcharPairs f l = some r → bfcharPairs (f + 1) l' = some r') : CharsRead l' r' := by
  obtain ⟨n, h⟩ := h
  refine ⟨n + 1, ?_⟩
  intro fuel hf
  obtain ⟨f, rfl⟩ : ∃ f, fuel = f + 1 := ⟨fuel - 1, by omega⟩
  exact hs f (h f (by omega))

theorem CharsRead.nil : CharsRead [] [] := ⟨1, fun fuel hf => by
  obtain ⟨f, rfl⟩ : ∃ f, fuel = f + 1 := ⟨fuel - 1, by omega⟩
  rfl⟩

theorem CharsRead.name {l : List (Token Empty)} {r : List (Nat × Nat)} {n : List Byte} (h : CharsRead l r) :
    CharsRead (.name n :: l) r := h.step fun _ h => h
theorem CharsRead.keyword {l : List (Token Empty)} {r : List (Nat × Nat)} {n : List Byte} (h : CharsRead l r) :
    CharsRead (.keyword n :: l) r := h.step fun _ h => h
theorem CharsRead.str {l : List (Token Empty)} {r : List (Nat × Nat)} {n : List Byte} (h : CharsRead l r) :
    CharsRead (.str n :: l) r := h.step fun _ h => h
theorem CharsRead.dictOpen {l : List (Token Empty)} {r : List (Nat × Nat)} (h : CharsRead l r) :
    CharsRead (.dictOpen :: l) r := h.step fun _ h => h
theorem CharsRead.intClose {l : List (Token Empty)} {r : List (Nat × Nat)} {n : Int} (h : CharsRead l r) :
    CharsRead (.int n :: .dictClose :: l) r :=
  (h.step (l' := .dictClose :: l) (r' := r) fun _ h => h).step fun _ h => h
theorem CharsRead.intKeyword {l : List (Token Empty)} {r : List (Nat × Nat)} {n : Int} {k : List Byte}
    (hk : k ≠ ascii "beginbfchar") (h : CharsRead l r) : CharsRead (.int n :: .keyword k :: l) r :=
  h.step fun f h => by rw [bfcharPairs, if_neg hk]; exact h

theorem header_tokens {rest : List Byte} {l : List (Token Empty)} {r : List (Nat × Nat)} (h : TokensRead rest l)
    (hc : CharsRead l r) : ∃ ts, TokensRead (toUnicodeHeader ++ rest) ts ∧ CharsRead ts r := by
  have ht := header0 (header1 (header2 (header3 (header4 (header5 (header6 (header7 (header8 (header9 h)))))))))
  unfold toUnicodeHeader
  simp only [List.append_assoc]
  refine ⟨_, ht, ?_⟩
  · refine .name (.name (.keyword (.keyword (.intKeyword (by decide) (.keyword (.keyword (.name
      (.dictOpen (.name (.str (.name (.str (.name (.intClose (.keyword (.name (.name (.keyword (.name
      (.intKeyword (by decide) (.intKeyword (by decide) (.str (.str (.keyword ?_))))))))))))))))))))))))
    exact hc

theorem footer_tokens : ∃ ts, TokensRead toUnicodeFooter ts ∧ CharsRead ts [] := by
  have ht := footer0 (footer1 (footer2 (.cons (t := .keyword (ascii "end")) (bs := ascii "end") (r := []) rfl .nil)))
  unfold toUnicodeFooter
  simp only [List.append_assoc]
  exact ⟨_, ht,  .keyword (.keyword (.keyword (.name (.keyword (.keyword (.keyword (.keyword .nil)))))))⟩

/-! ### Hexadecimal codes -/

/-- A lower case hexadecimal digit. -/
def hexLower (k : Nat) : Byte := (ascii "0123456789abcdef").getD (k % 16) 0

theorem hexLower_spec (k : Nat) : hexValue (hexLower k) = some (k % 16) ∧ hexLower k ≠ 62 ∧
    isWhite (hexLower k) = false ∧ hexLower k ≠ 60 := by
  have key : ∀ n : Fin 16, hexValue ((ascii "0123456789abcdef").getD n.val 0) = some n.val ∧
      (ascii "0123456789abcdef").getD n.val 0 ≠ 62 ∧ isWhite ((ascii "0123456789abcdef").getD n.val 0) = false ∧
      (ascii "0123456789abcdef").getD n.val 0 ≠ 60 := by decide
  exact key ⟨k % 16, Nat.mod_lt _ (by decide)⟩

theorem readHex_lower (a b : Nat) (r : List Byte) : readHex none (hexLower a :: hexLower b :: r) =
    (readHex none r).map fun x => (Fin.ofNat 256 (a % 16 * 16 + b % 16) :: x.1, x.2) := by
  obtain ⟨ha, ha1, ha2, _⟩ := hexLower_spec a
  obtain ⟨hb, hb1, hb2, _⟩ := hexLower_spec b
  rw [readHex, if_neg ha1, if_neg (by simp [ha2]), ha]
  simp only [Option.bind_eq_bind, Option.bind_some]
  rw [readHex, if_neg hb1, if_neg (by simp [hb2]), hb]
  simp only [Option.bind_eq_bind, Option.bind_some]
  cases readHex none r <;> rfl

/-- The two bytes of a 16-bit number. -/
def twoBytes (n : Nat) : List Byte := [Fin.ofNat 256 (n / 256), Fin.ofNat 256 n]

theorem readHex_hex4 (n : Nat) (r : List Byte) : readHex none (hex4 n ++ r) =
    (readHex none r).map fun x => (twoBytes n ++ x.1, x.2) := by
  have e : hex4 n ++ r = hexLower (n / 4096) :: hexLower (n / 256) :: hexLower (n / 16) :: hexLower n :: r := rfl
  rw [e, readHex_lower, readHex_lower]
  have h1 : Fin.ofNat 256 (n / 4096 % 16 * 16 + n / 256 % 16) = Fin.ofNat 256 (n / 256) := by
    apply Fin.ext; simp only [Fin.ofNat]; omega
  have h2 : Fin.ofNat 256 (n / 16 % 16 * 16 + n % 16) = Fin.ofNat 256 n := by
    apply Fin.ext; simp only [Fin.ofNat]; omega
  cases readHex none r with
  | none => rfl
  | some x => simp only [Option.map_some, h1, h2, twoBytes, List.cons_append, List.nil_append]

theorem readHex_hex4s (l : List Nat) (r : List Byte) : readHex none (l.flatMap hex4 ++ 62 :: r) =
    some (l.flatMap twoBytes, r) := by
  induction l with
  | nil => rfl
  | cons n l ih =>
    simp only [List.flatMap_cons, List.append_assoc]
    rw [readHex_hex4, ih]; rfl

theorem cmapToken_hex {bs : List Byte} (h : ∀ b, bs.head? = some b → b ≠ 60) :
    cmapToken (60 :: bs) = (readHex none bs).map fun x => (.str x.1, x.2) := by
  unfold cmapToken nextToken
  rw [dropWhile_nonwhite (by decide)]
  cases bs with
  | nil => rfl
  | cons b bs =>
    have hb := h b rfl
    split
    · next e => cases e
    · next e => cases e
    · next e => cases e
    · next e => cases e; exact absurd rfl hb
    · next e => cases e; rfl
    · next e => cases e
    · next e => cases e
    · next e => cases e
    · next h5 _ _ _ e => cases e; exact (h5 rfl).elim

theorem decodeCodes_twoBytes {n : Nat} (h : n < 65536) (l : List Byte) :
    decodeCodes (twoBytes n ++ l) = (decodeCodes l).map fun r => n :: r := by
  simp only [twoBytes, List.cons_append, List.nil_append, decodeCodes, Fin.ofNat]
  have : n / 256 % 256 * 256 + n % 256 = n := by omega
  rw [this]

theorem decodeCodes_flatMap {l : List Nat} (h : ∀ n ∈ l, n < 65536) : decodeCodes (l.flatMap twoBytes) = some l := by
  induction l with
  | nil => rfl
  | cons n l ih =>
    rw [List.flatMap_cons, decodeCodes_twoBytes (h n (by simp)), ih (fun m hm => h m (by simp [hm]))]; rfl

/-- A Unicode scalar value, Rust `char`. -/
def IsChar (c : Nat) : Prop := c < 0xD800 ∨ (0xE000 ≤ c ∧ c < 0x110000)

theorem encodeUtf16_lt {c : Nat} (h : IsChar c) : ∀ u ∈ encodeUtf16 c, u < 65536 := by
  intro u hu
  unfold encodeUtf16 at hu
  unfold IsChar at h
  split at hu
  · simp only [List.mem_singleton] at hu; omega
  · simp only [List.mem_cons, List.not_mem_nil, or_false] at hu; omega

theorem decode_encodeUtf16 {c : Nat} (h : IsChar c) : decodeUtf16Char (encodeUtf16 c) = some c := by
  unfold encodeUtf16
  unfold IsChar at h
  split
  · simp only [decodeUtf16Char]; rw [if_neg (by omega)]
  · simp only [decodeUtf16Char]; rw [if_pos (by omega)]; exact congrArg some (by omega)

/-! ### Blocks -/

/-- The tokens of one line. -/
def lineTokens (e : Nat × Nat) : List (Token Empty) := [.str (twoBytes e.2), .str ((encodeUtf16 e.1).flatMap twoBytes)]

theorem encodeUtf16_ne (c : Nat) : ∃ u l, encodeUtf16 c = u :: l := by
  unfold encodeUtf16; split
  · exact ⟨_, _, rfl⟩
  · exact ⟨_, _, rfl⟩

theorem hex4_head (n : Nat) (r : List Byte) : ∀ b, (hex4 n ++ r).head? = some b → b ≠ 60 := by
  intro b hb
  have e : (hex4 n ++ r).head? = some (hexLower (n / 4096)) := rfl
  rw [e] at hb
  cases hb
  exact (hexLower_spec _).2.2.2

theorem TokensRead.line {rest : List Byte} {l : List (Token Empty)} (e : Nat × Nat) (h : TokensRead rest l) :
    TokensRead (bfcharLine e ++ rest) (lineTokens e ++ l) := by
  obtain ⟨u, us, hu⟩ := encodeUtf16_ne e.1
  have e1 : bfcharLine e ++ rest = 60 :: (hex4 e.2 ++ 62 :: (32 :: 60 :: ((encodeUtf16 e.1).flatMap hex4 ++
      62 :: (10 :: rest)))) := by
    have k1 : ascii "<" = [60] := rfl
    have k2 : ascii "> <" = [62, 32, 60] := rfl
    have k3 : ascii ">\n" = [62, 10] := rfl
    simp only [bfcharLine, List.append_assoc, k1, k2, k3, List.cons_append, List.nil_append]
  rw [e1]
  refine .cons (t := .str (twoBytes e.2)) (r := 32 :: 60 :: ((encodeUtf16 e.1).flatMap hex4 ++ 62 :: (10 :: rest))) ?_
    (.white (by decide) (.cons (t := .str ((encodeUtf16 e.1).flatMap twoBytes)) (r := 10 :: rest) ?_
      (.white (by decide) h)))
  · rw [cmapToken_hex (hex4_head _ _), readHex_hex4]
    rfl
  · rw [cmapToken_hex, readHex_hex4s]
    · rfl
    · rw [hu, List.flatMap_cons, List.append_assoc]; exact hex4_head _ _

theorem TokensRead.lines {rest : List Byte} {l : List (Token Empty)} (es : List (Nat × Nat)) (h : TokensRead rest l) :
    TokensRead (es.flatMap bfcharLine ++ rest) (es.flatMap lineTokens ++ l) := by
  induction es with
  | nil => exact h
  | cons e es ih =>
    simp only [List.flatMap_cons, List.append_assoc]
    exact ih.line e

theorem TokensRead.block {rest : List Byte} {l : List (Token Empty)} (es : List (Nat × Nat)) (h : TokensRead rest l) :
    TokensRead (bfcharBlock es ++ rest) (.int es.length :: .keyword (ascii "beginbfchar") ::
      (es.flatMap lineTokens ++ (.keyword (ascii "endbfchar") :: l))) := by
  unfold bfcharBlock
  simp only [List.append_assoc]
  refine .cons (nextToken_decimal es.length (head_cons (a := 32) (by decide))) ?_
  refine .cons (t := .keyword (ascii "beginbfchar")) (r := ascii "\n" ++ (es.flatMap bfcharLine ++
    (ascii "endbfchar\n" ++ rest))) rfl (.newline (.lines es ?_))
  exact .cons (t := .keyword (ascii "endbfchar")) (r := ascii "\n" ++ rest) rfl (.newline h)

theorem bfcharEntries_lines {es : List (Nat × Nat)} (h : ∀ e ∈ es, IsChar e.1 ∧ e.2 < 65536) (l : List (Token Empty)) :
    bfcharEntries es.length (es.flatMap lineTokens ++ (.keyword (ascii "endbfchar") :: l)) = some (es, l) := by
  induction es with
  | nil => rfl
  | cons e es ih =>
    obtain ⟨hc, hg⟩ := h e (by simp)
    have ih := ih (fun e he => h e (by simp [he]))
    have h1 : decodeCodes (twoBytes e.2) = some [e.2] := by
      have := decodeCodes_flatMap (l := [e.2]) (by simpa using hg)
      simpa using this
    have h2 : decodeCodes ((encodeUtf16 e.1).flatMap twoBytes) = some (encodeUtf16 e.1) :=
      decodeCodes_flatMap (encodeUtf16_lt hc)
    simp only [List.length_cons, List.flatMap_cons, lineTokens, List.cons_append, List.nil_append, bfcharEntries, h1, h2,
      Option.bind_some, decode_encodeUtf16 hc, ih]

theorem CharsRead.block {es r : List (Nat × Nat)} {l : List (Token Empty)} (h : ∀ e ∈ es, IsChar e.1 ∧ e.2 < 65536)
    (hl : es.length ≤ 100) (hr : CharsRead l r) : CharsRead (.int es.length :: .keyword (ascii "beginbfchar") ::
      (es.flatMap lineTokens ++ (.keyword (ascii "endbfchar") :: l))) (es ++ r) :=
  hr.step fun f hf => by
    rw [bfcharPairs, if_pos rfl, if_pos (by omega), Int.toNat_natCast, bfcharEntries_lines h]
    simp only [hf, Option.map_some]

theorem blocks_tokens {rest : List Byte} {l : List (Token Empty)} {r : List (Nat × Nat)} (ht : TokensRead rest l)
    (hc : CharsRead l r) (es : List (Nat × Nat)) : ∀ buf : List (Nat × Nat), buf.length ≤ 100 →
    (∀ e ∈ buf, IsChar e.1 ∧ e.2 < 65536) → (∀ e ∈ es, IsChar e.1 ∧ e.2 < 65536) →
    ∃ ts, TokensRead (bfcharBlocks buf es ++ rest) ts ∧ CharsRead ts (buf ++ es ++ r) := by
  induction es with
  | nil =>
    intro buf hl hb _
    rw [bfcharBlocks]
    split
    · refine ⟨_, ht.block buf, ?_⟩
      rw [List.append_nil]
      exact hc.block hb hl
    · have : buf = [] := List.length_eq_zero_iff.1 (by omega)
      subst this
      exact ⟨l, ht, hc⟩
  | cons e es ih =>
    intro buf hl hb he
    rw [bfcharBlocks]
    split
    · obtain ⟨ts, h1, h2⟩ := ih [e] (by simp) (by intro x hx; exact he x (by simp at hx; simp [hx]))
        (fun x hx => he x (by simp [hx]))
      rw [List.append_assoc]
      refine ⟨_, h1.block buf, ?_⟩
      have := h2.block hb hl
      simpa using this
    · obtain ⟨ts, h1, h2⟩ := ih (buf ++ [e]) (by simp; omega) (by
        intro x hx
        rcases List.mem_append.1 hx with hx | hx
        · exact hb x hx
        · exact he x (by simp at hx; simp [hx])) (fun x hx => he x (by simp [hx]))
      refine ⟨ts, h1, ?_⟩
      simpa using h2

/-- C19: the ToUnicode CMap written for any list of (character, glyph) pairs, with any number of them, reads back as
exactly these pairs in the same order. The reader checks that each block has at most 100 entries and exactly as many as
announced. -/
theorem C19_to_unicode (l : List (Nat × Nat)) (h : ∀ e ∈ l, IsChar e.1 ∧ e.2 < 65536) :
    ∃ n, ∀ fuel, n ≤ fuel → readToUnicode fuel (toUnicodeCMap l) = some l := by
  obtain ⟨tf, f1, f2⟩ := footer_tokens
  obtain ⟨tb, b1, b2⟩ := blocks_tokens f1 f2 l [] (by simp) (by simp) h
  obtain ⟨th, h1, h2⟩ := header_tokens b1 b2
  obtain ⟨n1, h1⟩ := h1
  obtain ⟨n2, h2⟩ := h2
  refine ⟨max n1 n2, ?_⟩
  intro fuel hf
  unfold readToUnicode toUnicodeCMap
  rw [List.append_assoc, h1 fuel (by omega), Option.bind_some, h2 fuel (by omega)]
  simp

/-- The hypothesis holds of 250 characters, one outside the Basic Multilingual Plane. -/
theorem C19_example : ∀ e ∈ (0x1F600, 65535) :: (List.range 249).map (fun i => (i + 32, i)), IsChar e.1 ∧ e.2 < 65536 := by
  intro e he
  rcases List.mem_cons.1 he with rfl | he
  · constructor
    · unfold IsChar; omega
    · decide
  · simp only [List.mem_map, List.mem_range] at he
    obtain ⟨i, hi, rfl⟩ := he
    unfold IsChar
    simp only
    omega

theorem C19_example_block : readToUnicode 200 (toUnicodeCMap [(0x1F600, 65535), (65, 3)]) = some [(0x1F600, 65535), (65, 3)] := by
  decide +kernel

theorem glyphCodes_eq (l : List Nat) : glyphCodes l = l.flatMap twoBytes := by
  induction l with
  | nil => rfl
  | cons n l ih => simp only [glyphCodes, ih, List.flatMap_cons, twoBytes, List.cons_append, List.nil_append]

/-- C18: the string shown for a run of glyphs decodes, two bytes per glyph, to exactly these glyphs. -/
theorem C18_glyph_codes (glyphs : List Nat) (h : ∀ g ∈ glyphs, g < 65536) : decodeCodes (glyphCodes glyphs) = some glyphs := by
  rw [glyphCodes_eq]; exact decodeCodes_flatMap h

example : decodeCodes (glyphCodes [0, 255, 256, 65535]) = some [0, 255, 256, 65535] := by decide

end Verif.Pdf
