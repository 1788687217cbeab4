/- C27, C52, C53: plain text layout. -/
import Verif.Text.PlainLemmas
import Verif.Text.ShapedTheorems
namespace Verif.Text
variable {Err : Type}

theorem trimNewlines_spec (t : List Nat) : ∃ n, t = trimNewlines t ++ List.replicate n 10 ∧ (trimNewlines t).getLast? ≠ some 10 := by
  have key : ∀ l : List Nat, ∃ n, l = List.replicate n 10 ++ l.dropWhile (· == 10) ∧ (l.dropWhile (· == 10)).head? ≠ some 10 := by
    intro l
    induction l with
    | nil => exact ⟨0, rfl, by simp⟩
    | cons a l ih =>
      by_cases ha : a = 10
      · subst ha
        obtain ⟨n, h1, h2⟩ := ih
        refine ⟨n + 1, ?_, by simpa using h2⟩
        simp only [List.replicate_succ, List.cons_append, List.dropWhile_cons, beq_self_eq_true, if_true]
        rw [← h1]
      · refine ⟨0, ?_, ?_⟩
        · simp [ha]
        · simp [ha]
  obtain ⟨n, h1, h2⟩ := key t.reverse
  refine ⟨n, ?_, ?_⟩
  · have := congrArg List.reverse h1
    simpa [trimNewlines] using this
  · simpa [trimNewlines] using h2

theorem cuts_exists : ∀ (breaks : List (Nat × Bool)) (text : List Nat) (previous : Nat),
    (breaks.map (·.1)).Pairwise (· ≤ ·) → (∀ b ∈ breaks, previous ≤ b.1) →
    ((breaks.getLast?.map (·.1)).getD previous = text.length) → previous ≤ text.length →
    ∃ parts, Cuts (text.drop previous) previous breaks parts ∧
      ∀ (F : FontApi Rat Err), itemsFrom F text previous breaks = parts.map fun p =>
        match ShapedSegment.naiveShape F p.1 with
        | .error e => .error e
        | .ok segment => .ok (segment, p.2) := by
  intro breaks
  induction breaks with
  | nil =>
    intro text previous _ _ h3 _
    simp at h3
    refine ⟨[], ?_, fun F => rfl⟩
    rw [h3, List.drop_length]
    exact .nil
  | cons b breaks ih =>
    intro text previous h1 h2 h3 h4
    obtain ⟨position, hard⟩ := b
    simp only [List.map_cons, List.pairwise_cons] at h1
    have hpos : position ≤ text.length := by
      cases hl : breaks.getLast? with
      | none =>
        rw [List.getLast?_cons, hl] at h3
        simp at h3; omega
      | some q =>
        rw [List.getLast?_cons, hl] at h3
        simp at h3
        have := h1.1 q.1 (List.mem_map_of_mem (List.mem_of_getLast? hl))
        omega
    have hprev : previous ≤ position := h2 (position, hard) (by simp)
    obtain ⟨parts, g1, g2⟩ := ih text position h1.2
      (fun q hq => h1.1 q.1 (List.mem_map_of_mem hq))
      (by
        rw [List.getLast?_cons] at h3
        cases hl : breaks.getLast? with
        | none => rw [hl] at h3; simpa using h3
        | some q => rw [hl] at h3; simpa using h3) hpos
    obtain ⟨n, t1, t2⟩ := trimNewlines_spec ((text.take position).drop previous)
    have hlen := congrArg List.length t1
    simp only [List.length_drop, List.length_take, List.length_append, List.length_replicate] at hlen
    have hp : previous + (trimNewlines ((text.take position).drop previous)).length + n = position := by omega
    refine ⟨(trimNewlines ((text.take position).drop previous), hard) :: parts, ?_, ?_⟩
    · have hsplit : text.drop previous = trimNewlines ((text.take position).drop previous) ++ List.replicate n 10 ++
          text.drop position := by
        rw [← t1]
        conv => lhs; rw [← List.take_append_drop position text]
        rw [List.drop_append_of_le_length (by simp; omega)]
      have hcut : Cuts (text.drop previous) previous
          ((previous + (trimNewlines ((text.take position).drop previous)).length + n, hard) :: breaks)
          ((trimNewlines ((text.take position).drop previous), hard) :: parts) := by
        rw [hsplit]
        exact .cons t2 (by rw [hp]; exact g1)
      rwa [hp] at hcut
    · intro F
      simp only [itemsFrom, List.map_cons, g2 F]
      cases ShapedSegment.naiveShape F (trimNewlines ((text.take position).drop previous)) <;> rfl

theorem cuts_last {text : List Nat} {position : Nat} {breaks : List (Nat × Bool)} {parts : List (List Nat × Bool)}
    (h : Cuts text position breaks parts) : parts.map (·.2) = breaks.map (·.2) := by
  induction h with
  | nil => rfl
  | cons _ _ ih => simp [ih]

theorem items_shaped (F : FontApi Rat Err) : ∀ (parts : List (List Nat × Bool)),
    ((∀ p ∈ parts, ∀ ch ∈ p.1, Shapable F ch) ∧
      ∃ pieces : List Piece, List.Forall₂ (fun part piece => IsShaped F part.1 piece.1.glyphs piece.1.advanceWidth ∧
        piece.2 = part.2) parts pieces ∧
      (parts.map fun p => (match ShapedSegment.naiveShape F p.1 with
        | .error e => .error e
        | .ok segment => .ok (segment, p.2) : Item Err)) = itemsOf pieces []) ∨
    (¬ (∀ p ∈ parts, ∀ ch ∈ p.1, Shapable F ch) ∧ ∃ (pieces : List Piece) (e : Err) (more : List (Item Err)),
      pieces.length ≤ parts.length ∧ (parts.map fun p => (match ShapedSegment.naiveShape F p.1 with
        | .error e => .error e
        | .ok segment => .ok (segment, p.2) : Item Err)) = itemsOf pieces (.error e :: more)) := by
  intro parts
  induction parts with
  | nil => exact Or.inl ⟨by simp, [], .nil, rfl⟩
  | cons p parts ih =>
    obtain ⟨k1, k2⟩ := C26_naive_shape F p.1
    cases hs : ShapedSegment.naiveShape F p.1 with
    | error e =>
      refine Or.inr ⟨?_, [], e, _, by simp, by simp only [List.map_cons, hs]; rfl⟩
      intro hall
      obtain ⟨s, hs'⟩ := k1.1 (hall p (by simp))
      rw [hs] at hs'; cases hs'
    | ok s =>
      have hsh : ∀ ch ∈ p.1, Shapable F ch := k1.2 ⟨s, hs⟩
      rcases ih with ⟨h1, pieces, h2, h3⟩ | ⟨h1, pieces, e, more, h2, h3⟩
      · refine Or.inl ⟨?_, (s, p.2) :: pieces, .cons ⟨k2 s hs, rfl⟩ h2, ?_⟩
        · intro q hq
          rcases List.mem_cons.1 hq with rfl | hq
          · exact hsh
          · exact h1 q hq
        · simp only [List.map_cons, hs, h3, itemsOf, List.cons_append]
      · refine Or.inr ⟨fun hall => h1 (fun q hq => hall q (List.mem_cons_of_mem _ hq)), (s, p.2) :: pieces, e, more,
          by simpa using h2, ?_⟩
        simp only [List.map_cons, hs, h3, itemsOf, List.cons_append]

theorem lines_flatten {style : Style} {pending pieces : List Piece} {lines : List (List Piece)}
    (h : Lines style pending pieces lines) : pieces = lines.flatten ++ pending := by
  induction h with
  | nil => rfl
  | cons _ _ ih => rw [List.flatten_cons, List.append_assoc, ← ih]

/-- C27: for any text and any breaks of it, laying the text out gives a document whose pages show each part of the text
between two breaks once and in order, cut greedily into lines, which are placed on the pages in order from the top; or a
font error, if and only if some character that is not a trimmed newline cannot be shaped. -/
theorem C27_layout (F : FontApi Rat Err) (style : Style) (text : List Nat) (breaks : List (Nat × Bool))
    (hb : IsBreaks text breaks) : ∃ parts, Cuts text 0 breaks parts ∧
    ((∀ p ∈ parts, ∀ ch ∈ p.1, Shapable F ch) → ∃ pages pieces,
      List.Forall₂ (fun part piece => IsShaped F part.1 piece.1.glyphs piece.1.advanceWidth ∧ piece.2 = part.2) parts pieces ∧
      Lines style [] pieces pages.flatten ∧ GoodPages style pages ∧
      layout F style text breaks = .ok (pages.map (placedPage style))) ∧
    (¬ (∀ p ∈ parts, ∀ ch ∈ p.1, Shapable F ch) → ∃ e, layout F style text breaks = .error (.font e)) := by
  obtain ⟨parts, h1, h2⟩ := cuts_exists (Err := Err) breaks text 0 hb.sorted (fun _ _ => Nat.zero_le _)
    (by rw [hb.last]; rfl) (Nat.zero_le _)
  rw [List.drop_zero] at h1
  refine ⟨parts, h1, ?_, ?_⟩
  · intro hall
    rcases items_shaped F parts with ⟨_, pieces, g2, g3⟩ | ⟨g1, _⟩
    · have hlen : pieces.length < breaks.length + 1 := by
        have e1 := g2.length_eq
        have e2 := congrArg List.length (cuts_last h1)
        simp only [List.length_map] at e2
        omega
      rcases placePages_spec style ([] : List (Item Err)) (Or.inl rfl) (breaks.length + 1)
        (Rewind.new (itemsFrom F text 0 breaks)) pieces (by simp only [Rewind.toList, Rewind.new]; rw [h2 F, g3]; rfl) hlen
        with ⟨pages, pending, f1, f2, f3, f4, f5⟩ | ⟨e, more, f1, _⟩
      · have hpend : pending = [] := by
          cases hl : pending.getLast? with
          | none => simpa using hl
          | some q =>
            exfalso
            have hq := f3 q (List.mem_of_getLast? hl)
            have hlast : pieces.getLast? = some q := by
              rw [lines_flatten f2, List.getLast?_append, hl]; rfl
            have e1 : pieces.map (·.2) = parts.map (·.2) := by
              have : ∀ {ps : List (List Nat × Bool)} {qs : List Piece},
                  List.Forall₂ (fun part piece => IsShaped F part.1 piece.1.glyphs piece.1.advanceWidth ∧ piece.2 = part.2) ps qs →
                  qs.map (·.2) = ps.map (·.2) := by
                intro ps qs hh
                induction hh with
                | nil => rfl
                | cons a _ ih => simp [ih, a.2]
              exact this g2
            have e2 := congrArg List.getLast? (e1.trans (cuts_last h1))
            rw [List.getLast?_map, List.getLast?_map, hlast, hb.last] at e2
            simp [hq] at e2
        subst hpend
        exact ⟨pages, pieces, g2, f2, f4, f5⟩
      · cases f1
    · exact absurd hall g1
  · intro hn
    rcases items_shaped F parts with ⟨g1, _⟩ | ⟨_, pieces, e, more, g2, g3⟩
    · exact absurd g1 hn
    · have hlen : pieces.length < breaks.length + 1 := by
        have e2 := congrArg List.length (cuts_last h1)
        simp only [List.length_map] at e2
        omega
      rcases placePages_spec style (.error e :: more : List (Item Err)) (Or.inr ⟨e, more, rfl⟩) (breaks.length + 1)
        (Rewind.new (itemsFrom F text 0 breaks)) pieces (by simp only [Rewind.toList, Rewind.new]; rw [h2 F, g3]; rfl) hlen
        with ⟨pages, pending, f1, _⟩ | ⟨e', more', f1, f2⟩
      · cases f1
      · exact ⟨e', f2⟩

/-- C27: the measures that the layout is described with. The margins are on all sides of the page; there are 96 px in an
inch, which is 25.4 mm; the height of a line is a multiple of the font size; and the part of it that exceeds the font size
is the same above the ascender as below the rest of the em square. -/
theorem C27_measures (style : Style) :
    style.minX = style.pageMarginMm * 96 / 25.4 ∧ style.minY = style.pageMarginMm * 96 / 25.4 ∧
    style.minX + style.availableWidth = (style.pageWidthMm - style.pageMarginMm) * 96 / 25.4 ∧
    style.maxY = (style.pageHeightMm - style.pageMarginMm) * 96 / 25.4 ∧
    style.lineHeight = style.lineHeightEm * style.fontSize ∧
    style.baselineY - style.ascenderEm * style.fontSize =
      style.lineHeight - (style.baselineY + (1 - style.ascenderEm) * style.fontSize) ∧
    ∀ segment, style.width segment = segment.advanceWidth * style.fontSize := by
  unfold Style.maxY Style.availableWidth Style.minX Style.minY Style.lineHeight Style.baselineY Style.width pxPerMm
  refine ⟨?_, ?_, ?_, ?_, rfl, ?_, fun _ => rfl⟩ <;> (norm_num <;> ring)

example : (⟨210, 297, 25.4, 16, 1.2, 0.8, false⟩ : Style).minX = 96 ∧
    (⟨210, 297, 25.4, 16, 1.2, 0.8, false⟩ : Style).baselineY = 14.4 := by
  constructor <;> norm_num [Style.minX, Style.baselineY, pxPerMm]

/-- C27: the runs of a document, in order, are the pieces of the text, in order. -/
theorem C27_order (style : Style) (pages : List (List (List Piece))) (pieces : List Piece)
    (h : Lines style [] pieces pages.flatten) :
    ((pages.map (placedPage style)).flatten.flatten).map (·.segment) = pieces.map (·.1) := by
  have h1 := lines_flatten h
  rw [List.append_nil] at h1
  subst h1
  have hline : ∀ (j : Nat) (line : List Piece), (placedLine style j line).map (·.segment) = line.map (·.1) := by
    intro j line
    apply List.ext_getElem
    · simp [placedLine]
    · intro i h1 h2
      simp [placedLine]
  have hpage : ∀ (page : List (List Piece)), (placedPage style page).flatten.map (·.segment) = page.flatten.map (·.1) := by
    intro page
    rw [List.map_flatten, List.map_flatten]
    congr 1
    apply List.ext_getElem
    · simp [placedPage]
    · intro i h1 h2
      simp [placedPage, hline]
  induction pages with
  | nil => rfl
  | cons page pages ih =>
    simp only [List.map_cons, List.flatten_cons, List.flatten_append, List.map_append, hpage]
    rw [ih]
    · cases hp : pages.flatten with
      | nil => exact .nil
      | cons line lines =>
        have : ∀ (p : List (List Piece)) (q : List (List Piece)) (ps : List Piece),
            Lines style [] ps (p ++ q) → ∃ qs, Lines style [] qs q := by
          intro p
          induction p with
          | nil => intro q ps h; exact ⟨ps, h⟩
          | cons a p ih =>
            intro q ps h
            cases h with
            | cons _ h => exact ih q _ h
        rw [List.flatten_cons] at h
        obtain ⟨qs, hq⟩ := this page pages.flatten _ h
        have := lines_flatten hq
        rw [List.append_nil] at this
        rw [← hp, ← this]
        exact hq

/-- C27: when no segment has a negative width, a line is wider than the space between the margins only if all but its last
segment are empty: a segment that is too wide by itself. -/
theorem C27_overflow (style : Style) (line rest : List Piece) (h : GoodLine style line rest)
    (hw : ∀ p ∈ line, 0 ≤ style.width p.1) (hover : style.availableWidth < pieceWidth style line) :
    ∃ a p, line = a ++ [p] ∧ ∀ q ∈ a, style.width q.1 = 0 := by
  rcases List.eq_nil_or_concat line with rfl | ⟨a, p, rfl⟩
  · exact absurd rfl h.nonempty
  · simp only [List.concat_eq_append] at *
    refine ⟨a, p, rfl, ?_⟩
    have hle : ¬ 0 < pieceWidth style a := fun hpos => absurd (h.fits a p [] rfl hpos) (not_le.2 hover)
    have key : ∀ l : List Piece, (∀ q ∈ l, 0 ≤ style.width q.1) → 0 ≤ pieceWidth style l ∧
        (¬ 0 < pieceWidth style l → ∀ q ∈ l, style.width q.1 = 0) := by
      intro l
      induction l with
      | nil => intro _; simp [pieceWidth_nil]
      | cons b l ih =>
        intro hl
        obtain ⟨i1, i2⟩ := ih (fun q hq => hl q (List.mem_cons_of_mem _ hq))
        have hb := hl b (by simp)
        rw [pieceWidth_cons]
        refine ⟨by linarith, ?_⟩
        intro hn q hq
        rcases List.mem_cons.1 hq with rfl | hq
        · linarith
        · exact i2 (by intro hpos; exact hn (by linarith)) q hq
    exact (key a (fun q hq => hw q (by simp [hq]))).2 hle

/-- C52: in justified text, a line with two segments or more that was ended because the next segment does not fit starts at
the left margin and ends exactly at the right margin; the spaces between its segments are equal and not negative. -/
theorem C52_justified (style : Style) (j : Nat) (line : List Piece) (hj : style.justify = true)
    (hlast : ∀ p ∈ line.getLast?, p.2 = false) (hw : pieceWidth style line ≤ style.availableWidth) (hn : 2 ≤ line.length) :
    ∃ gap, 0 ≤ gap ∧ (∀ r, (placedLine style j line).head? = some r → r.x = style.minX) ∧
    (∀ r, (placedLine style j line).getLast? = some r → r.x + style.width r.segment = style.minX + style.availableWidth) ∧
    ∀ i r r', (placedLine style j line)[i]? = some r → (placedLine style j line)[i + 1]? = some r' →
      r'.x = r.x + style.width r.segment + gap := by
  have hpos : (0 : Rat) < ((line.length - 1 : Nat) : Rat) := by
    exact_mod_cast (by omega : 0 < line.length - 1)
  have hget : ∀ i (h : i < line.length), (placedLine style j line)[i]? = some ⟨line[i].1,
      style.minX + pieceWidth style (line.take i) + i * spacing style line,
      style.minY + j * style.lineHeight + style.baselineY⟩ := by
    intro i h
    simp [placedLine, List.getElem?_mapIdx, List.getElem?_eq_getElem h]
  have hsp : spacing style line = (style.availableWidth - pieceWidth style line) / ((line.length - 1 : Nat) : Rat) := by
    unfold spacing
    by_cases hlt : pieceWidth style line < style.availableWidth
    · rw [if_pos ⟨hj, hlast, hlt⟩]
    · rw [if_neg (fun h => hlt h.2.2), le_antisymm hw (not_lt.1 hlt)]
      simp
  have htake : ∀ i (h : i < line.length), pieceWidth style (line.take (i + 1)) =
      pieceWidth style (line.take i) + style.width line[i].1 := by
    intro i h
    rw [List.take_succ_eq_append_getElem h, pieceWidth_append, pieceWidth_single]
  refine ⟨spacing style line, ?_, ?_, ?_, ?_⟩
  · rw [hsp]
    exact div_nonneg (by linarith) (le_of_lt hpos)
  · intro r hr
    rw [List.head?_eq_getElem?, hget 0 (by omega)] at hr
    cases hr
    simp [pieceWidth_nil]
  · intro r hr
    have hlen : (placedLine style j line).length = line.length := by simp [placedLine]
    rw [List.getLast?_eq_getElem?, hlen, hget (line.length - 1) (by omega)] at hr
    cases hr
    dsimp only
    have h1 := htake (line.length - 1) (by omega)
    rw [show line.length - 1 + 1 = line.length by omega, List.take_length] at h1
    rw [hsp, mul_div_cancel₀ _ (ne_of_gt hpos)]
    linarith
  · intro i r r' h h'
    have hi : i + 1 < line.length := by
      by_contra hc
      rw [List.getElem?_eq_none (by simp [placedLine]; omega)] at h'
      cases h'
    rw [hget i (by omega)] at h
    rw [hget (i + 1) hi] at h'
    cases h; cases h'
    dsimp only
    rw [htake i (by omega)]
    push_cast
    ring

/-- C52: text that is not justified, and a line ended by a required break, has no space added. -/
theorem C52_not_justified (style : Style) (j : Nat) (line : List Piece)
    (h : style.justify = false ∨ ∃ p, line.getLast? = some p ∧ p.2 = true) :
    ∀ i r, (placedLine style j line)[i]? = some r → r.x = style.minX + pieceWidth style (line.take i) := by
  have hsp : spacing style line = 0 := by
    unfold spacing
    rw [if_neg]
    rintro ⟨h1, h2, _⟩
    rcases h with h | ⟨p, hp, hp'⟩
    · rw [h] at h1; cases h1
    · rw [h2 p hp] at hp'; cases hp'
  intro i r hr
  by_cases hi : i < line.length
  · simp only [placedLine, List.getElem?_mapIdx, List.getElem?_eq_getElem hi, Option.map_some, Option.some.injEq] at hr
    rw [← hr, hsp]
    simp
  · rw [List.getElem?_eq_none (by simp [placedLine]; omega)] at hr
    cases hr

/-- C53, the part that holds: only the last page of a document can be without text. Missing: the last page. -/
theorem C53_blank_pages_partial (style : Style) (pages : List (List (List Piece))) (pieces : List Piece)
    (hp : GoodPages style pages) (h : Lines style [] pieces pages.flatten) :
    ∀ page ∈ (pages.map (placedPage style)).dropLast, page ≠ [] ∧ ∀ line ∈ page, line ≠ [] := by
  intro page hmem
  rw [← List.map_dropLast] at hmem
  obtain ⟨cut, hcut, rfl⟩ := List.mem_map.1 hmem
  have hne := (hp.full cut hcut).1
  refine ⟨by simp [placedPage, hne], ?_⟩
  intro line hline
  obtain ⟨i, hi, rfl⟩ := List.getElem_of_mem hline
  have hi' : i < cut.length := by simpa [placedPage] using hi
  have hmem' : cut[i] ∈ pages.flatten :=
    List.mem_flatten.2 ⟨cut, List.dropLast_subset _ hcut, List.getElem_mem hi'⟩
  have key : ∀ {ps : List Piece} {ls : List (List Piece)}, Lines style [] ps ls → ∀ l ∈ ls, l ≠ [] := by
    intro ps ls hl
    induction hl with
    | nil => simp
    | cons g _ ih =>
      intro l hl
      rcases List.mem_cons.1 hl with rfl | hl
      · exact g.nonempty
      · exact ih l hl
  have := key h _ hmem'
  simpa [placedPage, placedLine] using this

/-! A text of four words in two lines, on an A6 page that is one line high. -/

/-- Every character has the glyph with its own number, half an em wide, but newline has none. -/
def plainFont : FontApi Rat Unit where
  glyphId ch := if ch = 10 then .error () else .ok ch
  glyphWidth _ := .ok (1 / 2)
  zero := 0
  add := (· + ·)

/-- One line of 10 px in 127/48 mm, exactly 10 px, on a page that is `n` lines high. -/
def plainStyle (n : Nat) : Style where
  pageWidthMm := 254 / 10 / 96 * 60
  pageHeightMm := 254 / 10 / 96 * (20 + 10 * n)
  pageMarginMm := 254 / 10 / 96 * 10
  fontSize := 10
  lineHeightEm := 1
  ascenderEm := 3 / 4
  justify := true

/-- "ab cd efgh", newline. -/
def plainText : List Nat := [97, 98, 32, 99, 100, 32, 101, 102, 103, 104, 10]
/-- Its breaks. -/
def plainBreaks : List (Nat × Bool) := [(3, false), (6, false), (11, true)]

example : IsBreaks plainText plainBreaks ∧
    (layout plainFont (plainStyle 1) plainText plainBreaks).toOption.map (·.map (·.map (·.map fun r => (r.segment.glyphs, r.x, r.y)))) =
      some [[[([97, 98, 32], 10, 17 + 1/2), ([99, 100, 32], 35, 17 + 1/2)], [([101, 102, 103, 104], 10, 27 + 1/2)]], []] := by
  refine ⟨⟨by decide, by decide⟩, by decide +kernel⟩

/-- C53 fails: a text whose last line takes the last place of a page is followed by a page without text. -/
theorem C53_last_page_violated : ∃ pages, layout plainFont (plainStyle 1) plainText plainBreaks = .ok pages ∧
    pages.getLast? = some [] ∧ pages.length = 2 := by
  have h : (layout plainFont (plainStyle 1) plainText plainBreaks).toOption.map (fun p => (p.length, p.getLast?.map (·.length))) =
    some (2, some 0) := by decide +kernel
  cases hl : layout plainFont (plainStyle 1) plainText plainBreaks with
  | error e => rw [hl] at h; cases h
  | ok pages =>
    rw [hl] at h
    simp only [Except.toOption, Option.map_some, Option.some.injEq, Prod.mk.injEq, Option.map_eq_some_iff] at h
    obtain ⟨h1, l, h2, h3⟩ := h
    refine ⟨pages, rfl, ?_, h1⟩
    rw [h2, List.length_eq_zero_iff.1 h3]

/-- C54, the part that holds: a line other than the first of its page starts above the bottom margin. Missing: that it ends
above it. -/
theorem C54_bottom_partial (style : Style) (pages : List (List (List Piece))) (hp : GoodPages style pages) :
    ∀ page ∈ pages.map (placedPage style), ∀ j (line : List Run), page[j]? = some line → 0 < j → ∀ r ∈ line,
      r.y ≤ style.maxY + style.baselineY := by
  intro page hmem j line hline hj r hr
  obtain ⟨cut, hcut, rfl⟩ := List.mem_map.1 hmem
  by_cases hi : j < cut.length
  · simp only [placedPage, List.getElem?_mapIdx, List.getElem?_eq_getElem hi, Option.map_some, Option.some.injEq] at hline
    subst hline
    obtain ⟨i, hi', rfl⟩ := List.getElem_of_mem hr
    simp only [placedLine, List.getElem_mapIdx]
    have := hp.tops cut hcut j hj hi
    linarith
  · rw [List.getElem?_eq_none (by simp [placedPage]; omega)] at hline
    cases hline

/-- C54 fails: a page of the height of one line is given two lines, the second one below the bottom margin. -/
theorem C54_bottom_violated : (plainStyle 1).maxY = 20 ∧ (plainStyle 1).lineHeight = 10 ∧
    ((layout plainFont (plainStyle 1) plainText plainBreaks).toOption.bind (·.head?)).map (·.map (·.map (·.y))) =
      some [[17 + 1 / 2, 17 + 1 / 2], [27 + 1 / 2]] := by
  refine ⟨by decide +kernel, by decide +kernel, by decide +kernel⟩

/-- The assumption that the last break is required matters: without it the last words are lost. -/
theorem C27_last_break_needed :
    (layout plainFont (plainStyle 9) plainText [(3, false), (6, false), (11, false)]).toOption.map
      (fun pages => pages.flatten.flatten.map (·.segment.glyphs)) = some [[97, 98, 32], [99, 100, 32]] := by
  decide +kernel

end Verif.Text
