/- C114: plain text is laid out completely whatever the numbers of the machine are. -/
import Verif.Text.MachineLemmas
import Verif.Pdf.DocExample
namespace Verif.Text.Machine
open Verif.Pdf
variable {R Err : Type} (A : Arith R)

theorem items_cut : ∀ (breaks : List (Nat × Bool)) (text : List Nat) (previous : Nat) (parts : List (List Nat × Bool)),
    previous ≤ text.length → Cuts (text.drop previous) previous breaks parts → ∀ (api : FontApi R Err),
      itemsFrom api text previous breaks = parts.map fun p =>
        match ShapedSegment.naiveShape api p.1 with
        | .error e => .error e
        | .ok segment => .ok (segment, p.2) := by
  intro breaks
  induction breaks with
  | nil =>
    intro text previous parts _ h api
    generalize text.drop previous = t at h
    cases h
    rfl
  | cons b breaks ih =>
    intro text previous parts hle h api
    generalize ht : text.drop previous = t at h
    cases h with
    | @cons part newlines rest _ hard _ parts hp hrest =>
      have hpos : text.drop (previous + part.length + newlines) = rest := by
        rw [Nat.add_assoc, ← List.drop_drop, ht]
        rw [List.drop_left' (by simp)]
      have hlen := congrArg List.length ht
      simp only [List.length_drop, List.length_append, List.length_replicate] at hlen
      have hpart : trimNewlines ((text.take (previous + part.length + newlines)).drop previous) = part := by
        rw [List.drop_take, ht, Nat.add_assoc, Nat.add_sub_cancel_left]
        rw [List.take_left' (by simp)]
        have hrev : part.reverse.dropWhile (· == 10) = part.reverse := by
          cases h : part.reverse with
          | nil => rfl
          | cons a l =>
            have ha : part.getLast? = some a := by rw [← List.head?_reverse, h]; rfl
            rw [ha] at hp
            simp only [List.dropWhile_cons]
            rw [if_neg]
            simpa using hp
        simp only [trimNewlines, List.reverse_append, List.reverse_replicate]
        rw [List.dropWhile_append_of_pos (by simp), hrev, List.reverse_reverse]
      have hr := ih text (previous + part.length + newlines) parts (by omega) (by rw [hpos]; exact hrest) api
      simp only [itemsFrom, List.map_cons, hpart, hr]
      cases ShapedSegment.naiveShape api part <;> rfl

theorem items_shaped (api : FontApi R Err) : ∀ (parts : List (List Nat × Bool)),
    ((∀ p ∈ parts, ∀ ch ∈ p.1, Shapable api ch) ∧
      ∃ pieces : List (Piece R), List.Forall₂ (fun part piece => IsShaped api part.1 piece.1.glyphs piece.1.advanceWidth ∧
        piece.2 = part.2) parts pieces ∧
      (parts.map fun p => (match ShapedSegment.naiveShape api p.1 with
        | .error e => .error e
        | .ok segment => .ok (segment, p.2) : Item R Err)) = itemsOf pieces []) ∨
    (¬ (∀ p ∈ parts, ∀ ch ∈ p.1, Shapable api ch) ∧ ∃ (pieces : List (Piece R)) (e : Err) (more : List (Item R Err)),
      pieces.length ≤ parts.length ∧ (parts.map fun p => (match ShapedSegment.naiveShape api p.1 with
        | .error e => .error e
        | .ok segment => .ok (segment, p.2) : Item R Err)) = itemsOf pieces (.error e :: more)) := by
  intro parts
  induction parts with
  | nil => exact Or.inl ⟨by simp, [], .nil, rfl⟩
  | cons p parts ih =>
    obtain ⟨k1, k2⟩ := C26_naive_shape api p.1
    cases hs : ShapedSegment.naiveShape api p.1 with
    | error e =>
      refine Or.inr ⟨?_, [], e, _, by simp, by simp only [List.map_cons, hs]; rfl⟩
      intro hall
      obtain ⟨s, hs'⟩ := k1.1 (hall p (by simp))
      rw [hs] at hs'; cases hs'
    | ok s =>
      have hsh : ∀ ch ∈ p.1, Shapable api ch := k1.2 ⟨s, hs⟩
      rcases ih with ⟨h1, pieces, h2, h3⟩ | ⟨h1, pieces, e, more, h2, h3⟩
      · refine Or.inl ⟨?_, (s, p.2) :: pieces, .cons ⟨k2 s hs, rfl⟩ h2, ?_⟩
        · intro q hq
          rcases List.mem_cons.1 hq with rfl | hq
          · exact hsh
          · exact h1 q hq
        · simp only [List.map_cons, hs, h3, itemsOf, List.cons_append]
      · refine Or.inr ⟨fun hall => h1 (fun q hq => hall q (List.mem_cons_of_mem _ hq)), (s, p.2) :: pieces, e, more,
          by simpa using h2, ?_⟩
        simp only [List.map_cons, hs, h3, itemsOf, List.cons_append]

theorem lines_flatten {style : Style R} {pending pieces : List (Piece R)} {lines : List (List (Piece R))}
    (h : Lines A style pending pieces lines) : pieces = lines.flatten ++ pending := by
  induction h with
  | nil => rfl
  | cons _ _ ih => rw [List.flatten_cons, List.append_assoc, ← ih]

theorem forall2_hard {api : FontApi R Err} {ps : List (List Nat × Bool)} {qs : List (Piece R)}
    (h : List.Forall₂ (fun part piece => IsShaped api part.1 piece.1.glyphs piece.1.advanceWidth ∧ piece.2 = part.2) ps qs) :
    qs.map (·.2) = ps.map (·.2) := by
  induction h with
  | nil => rfl
  | cons a _ ih => simp [ih, a.2]

/-- With a font that cannot be embedded, the first line is an error. -/
theorem showPages_error (F : Floats R) (address : Nat) (font : FontView Err) (hz : A.gt A.zero A.zero = false) (hf : ¬ font.Ok)
    (style : Style R) (tail : List (Item R Err)) (htail : TailOk tail) (fuel : Nat) (r : Rewind (Item R Err)) (pieces : List (Piece R))
    (hr : r.toList = itemsOf pieces tail) (hfuel : pieces.length < fuel) (hhard : tail = [] → ∃ p ∈ pieces, p.2 = true) :
    ∃ e, showPages A F address font style fuel r Doc.new = .error (.font e) := by
  cases fuel with
  | zero => omega
  | succ fuel =>
    have hp0 : Partial A style [] := ⟨by simp, by simp⟩
    rcases fillLine_spec A hz style tail htail (fuel + 1) r [] pieces hr hfuel hp0
      with ⟨taken, rest, r', h1, h2, h3, h4⟩ | ⟨h1, h2, h3⟩ | ⟨e, more, h1, h2⟩
    · simp only [List.nil_append, List.map_nil, lineWidth_nil] at h2 h4
      have hs := wordSpacing_eq A style taken h2.nonempty
      cases taken with
      | nil => exact absurd rfl h2.nonempty
      | cons p taken =>
        obtain ⟨d', e, he⟩ := showText_error F address font hf Doc.new rfl (Page.new F (width A style) (height A style)) p.1.glyphs
          style.fontSize (minX A style) (A.add (minY A style) (baselineY A style))
        refine ⟨e, ?_⟩
        simp only [showPages, showLines, h4, hs]
        simp only [List.map_cons, showLine, he]
    · obtain ⟨p, hp, hp'⟩ := hhard h1
      rw [h2 p hp] at hp'
      cases hp'
    · simp only [List.map_nil, lineWidth_nil] at h2
      exact ⟨e, by simp only [showPages, showLines, h2]⟩

/-- C114: for any text and any breaks of it, any style and any arithmetic (of which it is only assumed that zero is not more than zero),
laying the text out gives a document that is made of pages of the given size, which show each part of the text between two breaks once
and in order, cut greedily into lines, which are placed on the pages in order from the top; or a font error, if and only if some
character that is not a trimmed newline cannot be shaped or the font cannot be embedded. -/
theorem C114_layout (F : Floats R) (address : Nat) (font : FontView Err) (api : FontApi R Err) (style : Style R) (text : List Nat)
    (breaks : List (Nat × Bool)) (hz : A.gt A.zero A.zero = false) (hb : IsBreaks text breaks) : ∃ parts, Cuts text 0 breaks parts ∧
    ((∀ p ∈ parts, ∀ ch ∈ p.1, Shapable api ch) ∧ font.Ok → ∃ pages pieces,
      List.Forall₂ (fun part piece => IsShaped api part.1 piece.1.glyphs piece.1.advanceWidth ∧ piece.2 = part.2) parts pieces ∧
      Lines A style [] pieces pages.flatten ∧ GoodPages A style pages ∧
      layout A F address font api style text breaks = .ok (runDoc F (fun _ => font) (pages.map (pageCalls A address style)))) ∧
    (¬ ((∀ p ∈ parts, ∀ ch ∈ p.1, Shapable api ch) ∧ font.Ok) → ∃ e, layout A F address font api style text breaks = .error (.font e)) := by
  obtain ⟨parts, h1, _⟩ := cuts_exists (Err := Err) breaks text 0 hb.sorted (fun _ _ => Nat.zero_le _)
    (by rw [hb.last]; rfl) (Nat.zero_le _)
  have h2 := items_cut (R := R) (Err := Err) breaks text 0 parts (Nat.zero_le _) h1 api
  rw [List.drop_zero] at h1
  have hplen := congrArg List.length (cuts_last h1)
  simp only [List.length_map] at hplen
  refine ⟨parts, h1, ?_, ?_⟩
  · rintro ⟨hall, hf⟩
    rcases items_shaped api parts with ⟨_, pieces, g2, g3⟩ | ⟨g1, _⟩
    · have hlen : pieces.length < breaks.length + 1 := by
        have e1 := g2.length_eq
        omega
      rcases showPages_spec A F address font hz hf style ([] : List (Item R Err)) (Or.inl rfl) (breaks.length + 1)
        (Rewind.new (itemsFrom api text 0 breaks)) pieces Doc.new (by simp only [Rewind.toList, Rewind.new]; rw [h2, g3]; rfl) hlen
        with ⟨pages, pending, f1, f2, f3, f4, f5⟩ | ⟨e, more, f1, _⟩
      · have hpend : pending = [] := by
          cases hl : pending.getLast? with
          | none => simpa using hl
          | some q =>
            exfalso
            have hq := f3 q (List.mem_of_getLast? hl)
            have hlast : pieces.getLast? = some q := by
              rw [lines_flatten A f2, List.getLast?_append, hl]; rfl
            have e2 := congrArg List.getLast? ((forall2_hard g2).trans (cuts_last h1))
            rw [List.getLast?_map, List.getLast?_map, hlast, hb.last] at e2
            simp [hq] at e2
        subst hpend
        exact ⟨pages, pieces, g2, f2, f4, f5⟩
      · cases f1
    · exact absurd hall g1
  · intro hn
    rcases items_shaped api parts with ⟨g1, pieces, g2, g3⟩ | ⟨_, pieces, e, more, g2, g3⟩
    · have hf : ¬ font.Ok := fun h => hn ⟨g1, h⟩
      have hlen : pieces.length < breaks.length + 1 := by
        have e1 := g2.length_eq
        omega
      refine showPages_error A F address font hz hf style [] (Or.inl rfl) _ _ pieces
        (by simp only [Rewind.toList, Rewind.new]; rw [h2, g3]; rfl) hlen fun _ => ?_
      have e2 := congrArg List.getLast? ((forall2_hard g2).trans (cuts_last h1))
      rw [List.getLast?_map, List.getLast?_map, hb.last] at e2
      rcases hl : pieces.getLast? with _ | q
      · rw [hl] at e2; cases e2
      · rw [hl] at e2
        exact ⟨q, List.mem_of_getLast? hl, by simpa using e2⟩
    · have hlen : pieces.length < breaks.length + 1 := by omega
      by_cases hf : font.Ok
      · rcases showPages_spec A F address font hz hf style (.error e :: more : List (Item R Err)) (Or.inr ⟨e, more, rfl⟩) (breaks.length + 1)
          (Rewind.new (itemsFrom api text 0 breaks)) pieces Doc.new (by simp only [Rewind.toList, Rewind.new]; rw [h2, g3]; rfl) hlen
          with ⟨pages, pending, f1, _⟩ | ⟨e', more', f1, f2⟩
        · cases f1
        · exact ⟨e', f2⟩
      · exact showPages_error A F address font hz hf style _ (Or.inr ⟨e, more, rfl⟩) _ _ pieces
          (by simp only [Rewind.toList, Rewind.new]; rw [h2, g3]; rfl) hlen (by simp)

/-! The text is complete and in order in the calls. -/

theorem shownGlyphs_append (a b : List (PageOp R)) : shownGlyphs (a ++ b) = shownGlyphs a ++ shownGlyphs b := by
  induction a with
  | nil => rfl
  | cons op a ih => cases op <;> simp [shownGlyphs, ih]

theorem shownGlyphs_line (address : Nat) (style : Style R) (baseline gap : R) : ∀ (line : List (Piece R)) (x : R),
    shownGlyphs (lineCalls A address style baseline gap x line) = line.map (·.1.glyphs)
  | [], _ => rfl
  | p :: line, x => by simp only [lineCalls, shownGlyphs, List.map_cons, shownGlyphs_line address style baseline gap line]

theorem shownGlyphs_calls (address : Nat) (style : Style R) : ∀ (lines : List (List (Piece R))) (k : Nat),
    shownGlyphs (callsFrom A address style k lines) = lines.flatten.map (·.1.glyphs)
  | [], _ => rfl
  | line :: lines, k => by
    rw [callsFrom_cons, shownGlyphs_append, shownGlyphs_line, shownGlyphs_calls address style lines, List.flatten_cons, List.map_append]

/-- C114: the texts shown on the pages are the parts of the text, in order. -/
theorem C114_order (address : Nat) (style : Style R) (pages : List (List (List (Piece R)))) (pieces : List (Piece R))
    (h : Lines A style [] pieces pages.flatten) :
    (pages.map (pageCalls A address style)).flatMap (fun c => shownGlyphs c.ops) = pieces.map (·.1.glyphs) := by
  rw [lines_flatten A h, List.append_nil]
  clear h
  induction pages with
  | nil => rfl
  | cons page pages ih =>
    rw [List.map_cons, List.flatMap_cons, ih, pageCalls_ops, shownGlyphs_calls, List.flatten_cons, List.flatten_append, List.map_append]

/-! Reading the file. -/

theorem ops_of_lineCalls (address : Nat) (style : Style R) (baseline gap : R) : ∀ (line : List (Piece R)) (x : R),
    ∀ op ∈ lineCalls A address style baseline gap x line, ∃ p ∈ line, ∃ x, op = .text address p.1.glyphs style.fontSize x baseline
  | [], _ => by simp [lineCalls]
  | p :: line, x => by
    intro op hop
    rcases List.mem_cons.1 hop with rfl | hop
    · exact ⟨p, by simp, x, rfl⟩
    · obtain ⟨q, hq, h⟩ := ops_of_lineCalls address style baseline gap line _ op hop
      exact ⟨q, List.mem_cons_of_mem _ hq, h⟩

theorem shaped_glyphs {api : FontApi R Err} {t g : List Nat} {w : R} (h : IsShaped api t g w) :
    ∀ id ∈ g, ∃ ch ∈ t, api.glyphId ch = .ok id := by
  induction h with
  | nil => simp
  | @snoc text glyphs width ch id w h1 h2 h3 ih =>
    intro id' hid
    rcases List.mem_append.1 hid with hid | hid
    · obtain ⟨c, hc, h⟩ := ih id' hid
      exact ⟨c, by simp [hc], h⟩
    · simp only [List.mem_singleton] at hid
      subst hid
      exact ⟨ch, by simp, h2⟩

theorem forall2_right {S T : Type} {P : S → T → Prop} {l : List S} {m : List T} (h : List.Forall₂ P l m) :
    ∀ b ∈ m, ∃ a ∈ l, P a b := by
  induction h with
  | nil => simp
  | cons h _ ih =>
    intro b hb
    rcases List.mem_cons.1 hb with rfl | hb
    · exact ⟨_, by simp, h⟩
    · obtain ⟨a, ha, h'⟩ := ih b hb
      exact ⟨a, List.mem_cons_of_mem _ ha, h'⟩

/-- C114: whatever document comes out of a layout, the bytes that are written for it are a PDF file (of at most 4 GB) whose pages, read
by a PDF reader, paint the calls of the pages: the parts of the text, each with its glyphs in order, at its place, in the font of the
style and in opaque black, and nothing else. -/
theorem C114_file (F : Floats R) (readReal : List Byte → Option R) (hd : RealText F.dtoa readReal) (hl : FloatLaws F) (address : Nat)
    (font : FontView Err) (api : FontApi R Err) (hfont : font.Valid) (hglyphs : ∀ ch id, api.glyphId ch = .ok id → id < 65536)
    (style : Style R) (text : List Nat) (breaks : List (Nat × Bool)) (hz : A.gt A.zero A.zero = false) (hb : IsBreaks text breaks)
    (d : Doc R) (hlay : layout A F address font api style text breaks = .ok d) (hs : (d.write F).length ≤ 2 ^ 32) :
    ∃ parts pages pieces, Cuts text 0 breaks parts ∧
      List.Forall₂ (fun part piece => IsShaped api part.1 piece.1.glyphs piece.1.advanceWidth ∧ piece.2 = part.2) parts pieces ∧
      Lines A style [] pieces pages.flatten ∧ GoodPages A style pages ∧
      ∃ m doc, (∀ fuel, m ≤ fuel → readDocument readReal fuel (d.write F) = some doc) ∧
        AllMatch (fun p page => ∃ painted, (∃ m, ∀ fuel, m ≤ fuel →
            paintContents readReal F.zero F.one (gsAlpha doc.extGState) fuel p.contents = some painted) ∧
          AllMatch (Matches F fun _ name => ∃ id, dictGet doc.fonts name = some (.ref id 0) ∧
            IsFont readReal (d.write F) font id) painted (expected (fun _ => font) none (pageCalls A address style page).ops))
          doc.pages pages := by
  obtain ⟨parts, h1, h2, h3⟩ := C114_layout A F address font api style text breaks hz hb
  by_cases hok : (∀ p ∈ parts, ∀ ch ∈ p.1, Shapable api ch) ∧ font.Ok
  · obtain ⟨pages, pieces, g1, g2, g3, g4⟩ := h2 hok
    rw [hlay] at g4
    cases g4
    refine ⟨parts, pages, pieces, h1, g1, g2, g3, ?_⟩
    have hv : Valid (fun _ : Nat => font) (pages.map (pageCalls A address style)) := by
      refine ⟨fun _ => hfont, ?_⟩
      intro c hc op hop
      obtain ⟨page, hpage, rfl⟩ := List.mem_map.1 hc
      simp only [pageCalls, List.mem_flatten] at hop
      obtain ⟨ops, hops, hop⟩ := hop
      obtain ⟨j, hj, rfl⟩ := List.mem_mapIdx.1 hops
      obtain ⟨p, hp, x, rfl⟩ := ops_of_lineCalls A address style _ _ _ _ op hop
      have hmem : p ∈ pieces := by
        rw [lines_flatten A g2, List.append_nil]
        exact List.mem_flatten.2 ⟨_, List.mem_flatten.2 ⟨page, hpage, List.getElem_mem hj⟩, hp⟩
      obtain ⟨part, _, hpart, _⟩ := forall2_right g1 p hmem
      intro g hg
      obtain ⟨ch, _, hch⟩ := shaped_glyphs hpart g hg
      exact hglyphs ch g hch
    obtain ⟨m, doc, k1, k2⟩ := C15_C18_contents hd hl (fun _ : Nat => font) (pages.map (pageCalls A address style)) hv hs
    refine ⟨m, doc, k1, ?_⟩
    have key : ∀ {S T U : Type} (P : S → U → Prop) (f : T → U) (l : List S) (l' : List T),
        AllMatch P l (l'.map f) → AllMatch (fun a b => P a (f b)) l l' := by
      intro S T U P f l
      induction l with
      | nil => intro l' h; cases l' with
        | nil => trivial
        | cons b l' => exact h
      | cons a l ih => intro l' h; cases l' with
        | nil => exact h
        | cons b l' => exact ⟨h.1, ih l' h.2⟩
    exact key _ _ _ _ k2
  · obtain ⟨e, he⟩ := h3 hok
    rw [hlay] at he
    cases he

/-! With exact numbers this is the layout of Verif/Text/Plain.lean. -/

section
variable (style : Verif.Text.Style)

theorem width_exact (s : ShapedSegment Rat) : segmentWidth exact (ofExact style) s = style.width s := by
  simp [segmentWidth, pxPerEm, exact, ofExact, Verif.Text.Style.width]

theorem pxPerMm_exact : pxPerMm exact = Verif.Text.pxPerMm := by
  simp only [pxPerMm, exact, Verif.Text.pxPerMm]
  norm_num

theorem available_exact : availableWidth exact (ofExact style) = style.availableWidth := by
  simp only [availableWidth, width, margin, pxPerMm_exact, Verif.Text.Style.availableWidth]
  rfl

theorem minX_exact : minX exact (ofExact style) = style.minX := by
  simp only [minX, margin, pxPerMm_exact, Verif.Text.Style.minX]
  exact zero_add _

theorem minY_exact : minY exact (ofExact style) = style.minY := by
  simp only [minY, margin, pxPerMm_exact, Verif.Text.Style.minY]
  exact zero_add _

theorem maxY_exact : maxY exact (ofExact style) = style.maxY := by
  simp only [maxY, minY_exact, height, margin, pxPerMm_exact, Verif.Text.Style.maxY]
  rfl

theorem lineHeight_exact : lineHeight exact (ofExact style) = style.lineHeight := by
  simp [lineHeight, pxPerEm, exact, ofExact, Verif.Text.Style.lineHeight]

theorem baseline_exact : baselineY exact (ofExact style) = style.baselineY := by
  simp [baselineY, pxPerEm, exact, ofExact, Verif.Text.Style.baselineY]

/-- The ends of the inner loop. -/
def filledOf : Verif.Text.Filled Err → Filled Rat Err
  | .endOfDocument => .endOfDocument
  | .line segments total justify rest => .line segments total justify rest

theorem fillLine_exact : ∀ (fuel : Nat) (r : Rewind (Item Rat Err)) (acc : List (ShapedSegment Rat)) (total : Rat),
    fillLine exact (ofExact style) fuel r acc total = (Verif.Text.fillLine style fuel r acc total).map filledOf
  | 0, _, _, _ => rfl
  | fuel + 1, r, acc, total => by
    have ih := fun r acc total => fillLine_exact fuel r acc total
    simp only [fillLine, Verif.Text.fillLine, width_exact, available_exact]
    rcases r.next with ⟨_ | (e | ⟨segment, hard⟩), r'⟩
    · rfl
    · rfl
    · have hc : (exact.gt (exact.add total (style.width segment)) style.availableWidth && exact.gt total exact.zero) =
          decide (total + style.width segment > style.availableWidth ∧ total > 0) := by
        simp [exact]
      dsimp only
      rw [hc]
      by_cases hfit : total + style.width segment > style.availableWidth ∧ total > 0
      · simp only [hfit, and_self, decide_true, if_true]
        rcases r'.rewind (.ok (segment, hard)) with _ | r''
        · rfl
        · rfl
      · simp only [hfit, decide_false, Bool.false_eq_true, if_false]
        cases hard
        · exact ih r' (acc ++ [segment]) (total + style.width segment)
        · rfl

theorem fillLine_nonempty : ∀ (fuel : Nat) (r : Rewind (Item Rat Err)) (acc : List (ShapedSegment Rat)) (total : Rat),
    (acc = [] → total = 0) → ∀ segments total' justify rest,
    Verif.Text.fillLine style fuel r acc total = .ok (.line segments total' justify rest) → segments ≠ []
  | 0, _, _, _, _ => by intro _ _ _ _ h; cases h
  | fuel + 1, r, acc, total, h0 => by
    intro segments total' justify rest h
    simp only [Verif.Text.fillLine] at h
    rcases hn : r.next with ⟨_ | (e | ⟨segment, hard⟩), r'⟩ <;> simp only [hn] at h
    · cases h
    · cases h
    · split at h
      · next hc =>
        rcases hr : r'.rewind (.ok (segment, hard)) with _ | r'' <;> simp only [hr] at h
        · cases h
        · cases h
          intro ha
          rw [h0 ha] at hc
          exact absurd hc.2 (by norm_num)
      · split at h
        · cases h
          simp
        · exact fillLine_nonempty fuel r' _ _ (by simp) _ _ _ _ h

theorem wordSpacing_exact (n : Nat) (total : Rat) (justify : Bool) :
    wordSpacing exact (ofExact style) (n + 1) total justify = some (Verif.Text.wordSpacing style (n + 1) total justify) := by
  unfold wordSpacing Verif.Text.wordSpacing
  rw [available_exact]
  by_cases h : justify = true ∧ style.availableWidth - total > 0
  · rw [if_pos h, if_pos (by simp only [exact]; simpa using h)]
    simp [exact]
  · rw [if_neg h, if_neg (by simp only [exact]; simpa using h)]
    rfl

variable (F : Floats Rat) (address : Nat) (font : FontView Err)

/-- The calls for a run of text. -/
def runCall (r : Run) : PageOp Rat := .text address r.segment.glyphs style.fontSize r.x r.y

theorem showLine_exact (hf : font.Ok) (baseline gap : Rat) : ∀ (segments : List (ShapedSegment Rat)) (x : Rat) (s : Doc Rat × Page Rat),
    showLine exact F address font (ofExact style) baseline gap x segments s =
      .ok (((placeRuns style baseline gap x segments).map (runCall style address)).foldl (runOp F fun _ => font) s)
  | [], _, _ => rfl
  | p :: segments, x, s => by
    obtain ⟨d', p', h⟩ := showText_ok F address font hf s.1 s.2 p.glyphs style.fontSize x baseline
    have h' : showText F s.1 s.2 address font p.glyphs (ofExact style).fontSize x baseline = (d', p', .ok ()) := h
    simp only [showLine, h', placeRuns, List.map_cons, List.foldl_cons, runOp, runCall, h, width_exact]
    exact showLine_exact hf baseline gap segments _ _

theorem showLines_exact (hf : font.Ok) : ∀ (fuel : Nat) (r : Rewind (Item Rat Err)) (y : Rat) (s : Doc Rat × Page Rat),
    showLines exact F address font (ofExact style) fuel r y s = (placeLines style fuel r y).map fun a =>
      ((a.1.flatten.map (runCall style address)).foldl (runOp F fun _ => font) s, a.2)
  | 0, _, _, _ => rfl
  | fuel + 1, r, y, s => by
    have ih := fun r y s => showLines_exact hf fuel r y s
    simp only [showLines, placeLines]
    have e0 : exact.zero = 0 := rfl
    rw [e0, fillLine_exact]
    rcases hfl : Verif.Text.fillLine style (fuel + 1) r [] 0 with e | (_ | ⟨segments, total, justify, rest⟩)
    · rfl
    · rfl
    · obtain ⟨p, segments, rfl⟩ : ∃ p l, segments = p :: l := by
        cases segments with
        | nil => exact absurd rfl (fillLine_nonempty style (fuel + 1) r [] 0 (fun _ => rfl) _ _ _ _ hfl)
        | cons p l => exact ⟨p, l, rfl⟩
      simp only [Except.map, filledOf, List.length_cons, wordSpacing_exact, showLine_exact style F address font hf, minX_exact,
        baseline_exact, lineHeight_exact, maxY_exact]
      have hadd : ∀ a b, exact.add a b = a + b := fun _ _ => rfl
      have hgt : ∀ a b, exact.gt a b = decide (a > b) := fun _ _ => rfl
      simp only [hadd, hgt, decide_eq_true_eq]
      by_cases hend : y + style.lineHeight > style.maxY
      · simp only [hend, if_true, List.flatten_cons, List.flatten_nil, List.append_nil]
      · simp only [hend, if_false, ih]
        rcases placeLines style fuel rest (y + style.lineHeight) with e | ⟨lines, rest'⟩
        · rfl
        · simp only [Except.map, List.flatten_cons, List.map_append, List.foldl_append]

/-- The calls for a page of runs. -/
def pageOf (lines : List (List Run)) : PageCalls Rat :=
  ⟨style.pageWidthMm * Verif.Text.pxPerMm, style.pageHeightMm * Verif.Text.pxPerMm, lines.flatten.map (runCall style address)⟩

theorem showPages_exact (hf : font.Ok) : ∀ (fuel : Nat) (r : Rewind (Item Rat Err)) (d : Doc Rat),
    showPages exact F address font (ofExact style) fuel r d = (placePages style fuel r).map fun pages =>
      (pages.map (pageOf style address)).foldl (runPage F fun _ => font) d
  | 0, _, _ => rfl
  | fuel + 1, r, d => by
    have ih := fun r d => showPages_exact hf fuel r d
    simp only [showPages, placePages, minY_exact, showLines_exact style F address font hf]
    rcases placeLines style (fuel + 1) r style.minY with e | ⟨lines, _ | rest⟩
    · rfl
    · simp only [Except.map, List.map_cons, List.map_nil, List.foldl_cons, List.foldl_nil, runPage, pageOf]
      simp only [width, height, pxPerMm_exact]
      rfl
    · simp only [Except.map, ih]
      rcases placePages style fuel rest with e | pages
      · rfl
      · simp only [List.map_cons, List.foldl_cons, runPage, pageOf]
        simp only [width, height, pxPerMm_exact]
        rfl

theorem items_exact (api : FontApi Rat Err) (text : List Nat) : ∀ (breaks : List (Nat × Bool)) (previous : Nat),
    itemsFrom api text previous breaks = Verif.Text.itemsFrom api text previous breaks
  | [], _ => rfl
  | (position, hard) :: breaks, previous => by
    simp only [itemsFrom, Verif.Text.itemsFrom, items_exact api text breaks]
    cases ShapedSegment.naiveShape api (trimNewlines ((text.take position).drop previous)) <;> rfl

end

/-- C114: with exact numbers, and a font that can be embedded, the document is that of the runs of `C27_layout`. -/
theorem C114_exact (F : Floats Rat) (address : Nat) (font : FontView Err) (hf : font.Ok) (api : FontApi Rat Err)
    (style : Verif.Text.Style) (text : List Nat) (breaks : List (Nat × Bool)) :
    layout exact F address font api (ofExact style) text breaks = (Verif.Text.layout api style text breaks).map fun pages =>
      runDoc F (fun _ => font) (pages.map fun lines => ⟨style.pageWidthMm * Verif.Text.pxPerMm, style.pageHeightMm * Verif.Text.pxPerMm,
        lines.flatten.map fun r => .text address r.segment.glyphs style.fontSize r.x r.y⟩) := by
  unfold layout Verif.Text.layout
  rw [items_exact, showPages_exact style F address font hf]
  rfl

/-! ### Examples -/

/-- Integers, with division that rounds. -/
def whole : Arith Int where
  zero := 0
  one := 1
  two := 2
  mmPerIn := 1
  pxPerIn := 1
  ofNat n := n
  add := (· + ·)
  sub := (· - ·)
  mul := (· * ·)
  div := (· / ·)
  gt a b := decide (a > b)

/-- Every character but newline has the glyph with its own number, one em wide. -/
def wholeApi : FontApi Int String where
  glyphId ch := if ch = 10 ∨ 65536 ≤ ch then .error "no glyph" else .ok ch
  glyphWidth _ := .ok 1
  zero := 0
  add := (· + ·)

/-- Pages 61 px wide, of one line of 15 px. -/
def wholeStyle : Style Int := ⟨61, 34, 10, 5, 3, 1, true⟩

/-- Two lines on two pages; of the 11 px that are left on the first line the space between its two segments takes all. -/
theorem C114_example : whole.gt whole.zero whole.zero = false ∧ IsBreaks plainText plainBreaks ∧ (Verif.Pdf.sampleFont 0).Ok ∧ (Verif.Pdf.sampleFont 0).Valid ∧
    (∀ ch id, wholeApi.glyphId ch = .ok id → id < 65536) ∧
    (layout whole wholeFloats 0 (Verif.Pdf.sampleFont 0) wholeApi wholeStyle plainText plainBreaks).toOption.map (fun d => d.write wholeFloats) =
      some ((runDoc wholeFloats Verif.Pdf.sampleFont [
        ⟨61, 34, [.text 0 [97, 98, 32] 5 10 20, .text 0 [99, 100, 32] 5 36 20]⟩,
        ⟨61, 34, [.text 0 [101, 102, 103, 104] 5 10 20]⟩, ⟨61, 34, []⟩]).write wholeFloats) ∧
    ((layout whole wholeFloats 0 (Verif.Pdf.sampleFont 0) wholeApi wholeStyle plainText plainBreaks).toOption.map
      fun d => decide ((d.write wholeFloats).length ≤ 2 ^ 32)) = some true := by
  refine ⟨rfl, ⟨by decide, by decide⟩, C13_to_C18_example.2.2.2.2.1, sample_valid.fonts 0, ?_, by decide +kernel, by decide +kernel⟩
  intro ch id h
  simp only [wholeApi] at h
  split at h
  · cases h
  · cases h; omega

/-- Arithmetic modulo 16 with a number that is not a number (`none`), to which nothing compares, and that comes of a division by zero. -/
def small : Arith (Option (Fin 16)) where
  zero := some 0
  one := some 1
  two := some 2
  mmPerIn := some 1
  pxPerIn := some 1
  ofNat n := some (Fin.ofNat 16 n)
  add a b := do return (← a) + (← b)
  sub a b := do return (← a) - (← b)
  mul a b := do return (← a) * (← b)
  div a b := do
    let a ← a
    let b ← b
    if b = 0 then none else return a / b
  gt a b := match a, b with
    | some a, some b => decide (a > b)
    | _, _ => false

/-- As `wholeApi`. -/
def smallApi : FontApi (Option (Fin 16)) String where
  glyphId ch := if ch = 10 then .error "no glyph" else .ok ch
  glyphWidth _ := .ok (some 1)
  zero := some 0
  add := small.add

/-- The floats of documents. -/
def smallFloats : Floats (Option (Fin 16)) where
  zero := some 0
  one := some 1
  scaleX := some 3
  scaleY := some 13
  mul := small.mul
  neg := small.sub (some 0)
  ne a b := match a, b with
    | some a, some b => a != b
    | _, _ => true
  clampUnit a := a
  key a := a.elim 16 (·.val)
  dtoa a := match a with
    | some a => dtoaWhole a.val
    | none => ascii "NaN"

/-- The hypothesis of `C114_layout` holds of arithmetic that overflows and where there are incomparable numbers; with a font size that is
not a number all of the text is on one page, in two calls of which the second shows at no place. A font that cannot be embedded is an
error. -/
theorem C114_example_nan : small.gt small.zero small.zero = false ∧
    (layout small smallFloats 0 (Verif.Pdf.sampleFont 0) smallApi ⟨some 12, some 12, some 2, none, some 1, some 1, true⟩ [97, 32, 98] [(2, false), (3, true)]).toOption.map
        (fun d => d.write smallFloats) =
      some ((runDoc smallFloats Verif.Pdf.sampleFont [
        ⟨some 12, some 12, [.text 0 [97, 32] none (some 2) none, .text 0 [98] none none none]⟩]).write smallFloats) ∧
    layout small smallFloats 0 (Verif.Pdf.sampleFont 2) smallApi ⟨some 12, some 12, some 2, none, some 1, some 1, true⟩ [97, 32, 98] [(2, false), (3, true)] =
      .error (.font "beyond the end") := by
  refine ⟨rfl, by decide +kernel, by rfl⟩

/-- A style and a text for `C114_exact`. -/
theorem C114_example_exact : (Verif.Text.layout plainFont (plainStyle 1) plainText plainBreaks).toOption.map (·.length) = some 2 := by
  decide +kernel

end Verif.Text.Machine
