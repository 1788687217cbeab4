/- Lemmas for C27. -/
import Verif.Text.PlainSpec
import Mathlib.Tactic.Linarith
import Mathlib.Tactic.Ring
namespace Verif.Text
variable {Err : Type}

/-- What an iterator will still give. -/
def Rewind.toList {α : Type} (r : Rewind α) : List α := r.buffer.toList ++ r.inner

theorem next_nil {α : Type} (r : Rewind α) (h : r.toList = []) : ∃ r', r.next = (none, r') := by
  obtain ⟨inner, buffer⟩ := r
  cases buffer with
  | some a => simp [Rewind.toList] at h
  | none =>
    simp [Rewind.toList] at h
    subst h
    exact ⟨⟨[], none⟩, rfl⟩

theorem next_cons {α : Type} (r : Rewind α) {a : α} {l : List α} (h : r.toList = a :: l) : r.next = (some a, ⟨l, none⟩) := by
  obtain ⟨inner, buffer⟩ := r
  cases buffer with
  | some b =>
    simp [Rewind.toList] at h
    obtain ⟨rfl, rfl⟩ := h
    rfl
  | none =>
    simp [Rewind.toList] at h
    subst h
    rfl

theorem pieceWidth_append (style : Style) (a b : List Piece) :
    pieceWidth style (a ++ b) = pieceWidth style a + pieceWidth style b := by
  simp [pieceWidth]

theorem pieceWidth_single (style : Style) (p : Piece) : pieceWidth style [p] = style.width p.1 := by
  simp [pieceWidth]

theorem pieceWidth_cons (style : Style) (p : Piece) (l : List Piece) :
    pieceWidth style (p :: l) = style.width p.1 + pieceWidth style l := by
  simp [pieceWidth]

theorem pieceWidth_nil (style : Style) : pieceWidth style [] = 0 := rfl

/-- The items: segments without errors, then nothing or an error. -/
def itemsOf (pieces : List Piece) (tail : List (Item Err)) : List (Item Err) := pieces.map .ok ++ tail

/-- What can come after the segments. -/
def TailOk (tail : List (Item Err)) : Prop := tail = [] ∨ ∃ e more, tail = .error e :: more

/-- The part of a line so far. -/
structure Partial (style : Style) (acc : List Piece) : Prop where
  hard : ∀ p ∈ acc, p.2 = false
  fits : ∀ a p b, acc = a ++ p :: b → 0 < pieceWidth style a → pieceWidth style (a ++ [p]) ≤ style.availableWidth

theorem append_fits (style : Style) {acc : List Piece} {p : Piece} (h : Partial style acc)
    (hf : ¬ (pieceWidth style acc + style.width p.1 > style.availableWidth ∧ pieceWidth style acc > 0)) :
    ∀ a q b, acc ++ [p] = a ++ q :: b → 0 < pieceWidth style a → pieceWidth style (a ++ [q]) ≤ style.availableWidth := by
  intro a q b he ha
  rcases List.eq_nil_or_concat b with rfl | ⟨b', x, rfl⟩
  · obtain ⟨rfl, h2⟩ := List.append_inj' he rfl
    cases h2
    rw [pieceWidth_append, pieceWidth_single]
    by_contra hc
    exact hf ⟨not_le.1 hc, ha⟩
  · simp only [List.concat_eq_append] at he
    have he' : acc ++ [p] = (a ++ q :: b') ++ [x] := by simpa using he
    obtain ⟨h1, _⟩ := List.append_inj' he' rfl
    exact h.fits a q b' h1 ha

theorem fillLine_spec (style : Style) (tail : List (Item Err)) (htail : TailOk tail) :
    ∀ (fuel : Nat) (r : Rewind (Item Err)) (acc pieces : List Piece),
    r.toList = itemsOf pieces tail → pieces.length < fuel → Partial style acc →
    (∃ taken rest r', pieces = taken ++ rest ∧ GoodLine style (acc ++ taken) rest ∧
      r'.toList = itemsOf rest tail ∧
      fillLine style fuel r (acc.map (·.1)) (pieceWidth style acc) =
        .ok (.line ((acc ++ taken).map (·.1)) (pieceWidth style (acc ++ taken))
          (style.justify && ((acc ++ taken).getLast?.all (fun p => !p.2))) r')) ∨
    (tail = [] ∧ (∀ p ∈ pieces, p.2 = false) ∧
      fillLine style fuel r (acc.map (·.1)) (pieceWidth style acc) = .ok .endOfDocument) ∨
    (∃ e more, tail = .error e :: more ∧
      fillLine style fuel r (acc.map (·.1)) (pieceWidth style acc) = .error (.font e)) := by
  intro fuel
  induction fuel with
  | zero => intro r acc pieces _ h; omega
  | succ fuel ih =>
    intro r acc pieces hr hf hacc
    cases pieces with
    | nil =>
      rcases htail with rfl | ⟨e, more, rfl⟩
      · obtain ⟨r', hn⟩ := next_nil r (by simpa [itemsOf] using hr)
        refine Or.inr (Or.inl ⟨rfl, by simp, ?_⟩)
        simp only [fillLine, hn]
      · have hn := next_cons r (by simpa [itemsOf] using hr)
        refine Or.inr (Or.inr ⟨e, more, rfl, ?_⟩)
        simp only [fillLine, hn]
    | cons p pieces =>
      obtain ⟨segment, hard⟩ := p
      have hn : r.next = (some (.ok (segment, hard)), ⟨itemsOf pieces tail, none⟩) :=
        next_cons r (by simpa [itemsOf] using hr)
      by_cases hfit : pieceWidth style acc + style.width segment > style.availableWidth ∧ pieceWidth style acc > 0
      · refine Or.inl ⟨[], (segment, hard) :: pieces, ⟨itemsOf pieces tail, some (.ok (segment, hard))⟩, rfl, ?_, rfl, ?_⟩
        · rw [List.append_nil]
          have hne : acc ≠ [] := by
            rintro rfl
            exact absurd hfit.2 (by simp [pieceWidth_nil])
          refine ⟨hne, fun q hq => hacc.hard q (List.dropLast_subset _ hq), hacc.fits, ?_⟩
          refine Or.inr ⟨(segment, hard), pieces, rfl, hfit.2, ?_⟩
          rw [pieceWidth_append, pieceWidth_single]
          exact hfit.1
        · simp only [fillLine, hn, if_pos hfit, Rewind.rewind, List.append_nil]
          have : acc.getLast?.all (fun p => !p.2) = true := by
            rw [Option.all_eq_true]
            intro q hq
            simp [hacc.hard q (List.mem_of_getLast? hq)]
          rw [this, Bool.and_true]
      · have hw : pieceWidth style (acc ++ [(segment, hard)]) = pieceWidth style acc + style.width segment := by
          rw [pieceWidth_append, pieceWidth_single]
        have hfits := append_fits style (p := (segment, hard)) hacc hfit
        cases hard with
        | true =>
          refine Or.inl ⟨[(segment, true)], pieces, ⟨itemsOf pieces tail, none⟩, rfl, ?_, by simp [Rewind.toList], ?_⟩
          · refine ⟨by simp, ?_, hfits, Or.inl ⟨(segment, true), by simp, rfl⟩⟩
            intro q hq
            rw [List.dropLast_concat] at hq
            exact hacc.hard q hq
          · simp only [fillLine, hn, if_neg hfit, if_true]
            rw [hw]
            simp
        | false =>
          have hacc' : Partial style (acc ++ [(segment, false)]) := by
            refine ⟨?_, hfits⟩
            intro q hq
            rcases List.mem_append.1 hq with hq | hq
            · exact hacc.hard q hq
            · simp at hq; rw [hq]
          have hstep : fillLine style (fuel + 1) r (acc.map (·.1)) (pieceWidth style acc) =
              fillLine style fuel ⟨itemsOf pieces tail, none⟩ ((acc ++ [(segment, false)]).map (·.1))
                (pieceWidth style (acc ++ [(segment, false)])) := by
            simp only [fillLine, hn, if_neg hfit, hw, List.map_append, List.map_cons, List.map_nil]
            simp
          simp only [List.length_cons] at hf
          rcases ih ⟨itemsOf pieces tail, none⟩ (acc ++ [(segment, false)]) pieces (by simp [Rewind.toList]) (by omega) hacc'
            with ⟨taken, rest, r', h1, h2, h3, h4⟩ | ⟨h1, h2, h3⟩ | ⟨e, more, h1, h2⟩
          · refine Or.inl ⟨(segment, false) :: taken, rest, r', by simp [h1], ?_, h3, ?_⟩
            · simpa using h2
            · rw [hstep, h4]
              simp
          · refine Or.inr (Or.inl ⟨h1, ?_, by rw [hstep, h3]⟩)
            intro q hq
            rcases List.mem_cons.1 hq with rfl | hq
            · rfl
            · exact h2 q hq
          · exact Or.inr (Or.inr ⟨e, more, h1, by rw [hstep, h2]⟩)

theorem placeRuns_eq (style : Style) (b sp : Rat) : ∀ (pieces : List Piece) (x : Rat),
    placeRuns style b sp x (pieces.map (·.1)) =
      pieces.mapIdx fun i p => ⟨p.1, x + pieceWidth style (pieces.take i) + i * sp, b⟩ := by
  intro pieces
  induction pieces with
  | nil => intro x; rfl
  | cons p pieces ih =>
    intro x
    simp only [List.map_cons, placeRuns, List.mapIdx_cons, ih]
    congr 1
    · simp [pieceWidth_nil]
    · congr 1
      funext i q
      congr 1
      simp only [List.take_succ_cons, pieceWidth_cons]
      push_cast
      ring

theorem wordSpacing_eq (style : Style) (line : List Piece) :
    wordSpacing style (line.map (·.1)).length (pieceWidth style line)
      (style.justify && (line.getLast?.all (fun p => !p.2))) = spacing style line := by
  unfold wordSpacing spacing
  rw [List.length_map]
  have : ((style.justify && (line.getLast?.all (fun p => !p.2))) = true ∧
      style.availableWidth - pieceWidth style line > 0) ↔
      (style.justify = true ∧ (∀ p ∈ line.getLast?, p.2 = false) ∧ pieceWidth style line < style.availableWidth) := by
    rw [Bool.and_eq_true, Option.all_eq_true, and_assoc]
    simp only [Bool.not_eq_true', Option.mem_def, gt_iff_lt, sub_pos]
  by_cases h : (style.justify = true ∧ (∀ p ∈ line.getLast?, p.2 = false) ∧ pieceWidth style line < style.availableWidth)
  · rw [if_pos h, if_pos (this.2 h)]
  · rw [if_neg h, if_neg (fun h' => h (this.1 h'))]

theorem placed_eq (style : Style) (k : Nat) (line : List Piece) :
    placeRuns style (style.minY + k * style.lineHeight + style.baselineY)
      (wordSpacing style (line.map (·.1)).length (pieceWidth style line)
        (style.justify && (line.getLast?.all (fun p => !p.2)))) style.minX (line.map (·.1)) = placedLine style k line := by
  rw [placeRuns_eq, wordSpacing_eq]
  rfl

theorem placeLines_spec (style : Style) (tail : List (Item Err)) (htail : TailOk tail) :
    ∀ (fuel : Nat) (r : Rewind (Item Err)) (pieces : List Piece) (k : Nat),
    r.toList = itemsOf pieces tail → pieces.length < fuel →
    (∃ cut pending, tail = [] ∧ Lines style pending pieces cut ∧ (∀ p ∈ pending, p.2 = false) ∧
      (∀ j, 0 < j → j < cut.length → style.minY + ((k + j : Nat) : Rat) * style.lineHeight ≤ style.maxY) ∧
      (cut ≠ [] → style.minY + ((k + cut.length : Nat) : Rat) * style.lineHeight ≤ style.maxY) ∧
      placeLines style fuel r (style.minY + k * style.lineHeight) =
        .ok (cut.mapIdx (fun j => placedLine style (k + j)), none)) ∨
    (∃ cut rest r', (∀ pending lines, Lines style pending rest lines → Lines style pending pieces (cut ++ lines)) ∧
      r'.toList = itemsOf rest tail ∧ rest.length < pieces.length ∧ cut ≠ [] ∧
      (∀ j, 0 < j → j < cut.length → style.minY + ((k + j : Nat) : Rat) * style.lineHeight ≤ style.maxY) ∧
      style.maxY < style.minY + ((k + cut.length : Nat) : Rat) * style.lineHeight ∧
      placeLines style fuel r (style.minY + k * style.lineHeight) =
        .ok (cut.mapIdx (fun j => placedLine style (k + j)), some r')) ∨
    (∃ e more, tail = .error e :: more ∧
      placeLines style fuel r (style.minY + k * style.lineHeight) = .error (.font e)) := by
  intro fuel
  induction fuel with
  | zero => intro r pieces k _ h; omega
  | succ fuel ih =>
    intro r pieces k hr hf
    have hp0 : Partial style [] := ⟨by simp, by simp⟩
    rcases fillLine_spec style tail htail (fuel + 1) r [] pieces hr hf hp0
      with ⟨taken, rest, r', h1, h2, h3, h4⟩ | ⟨h1, h2, h3⟩ | ⟨e, more, h1, h2⟩
    · simp only [List.nil_append, List.map_nil, pieceWidth_nil] at h2 h4
      have hy : style.minY + k * style.lineHeight + style.lineHeight = style.minY + ((k + 1 : Nat) : Rat) * style.lineHeight := by
        push_cast; ring
      have hlen : rest.length < pieces.length := by
        have := List.length_pos_iff.2 h2.nonempty
        rw [h1, List.length_append]; omega
      by_cases hend : style.minY + k * style.lineHeight + style.lineHeight > style.maxY
      · refine Or.inr (Or.inl ⟨[taken], rest, r', ?_, h3, hlen, by simp, ?_, ?_, ?_⟩)
        · intro pending lines hl
          rw [h1]
          exact .cons h2 hl
        · intro j h0 hj; simp at hj; omega
        · rw [hy] at hend; simpa using hend
        · simp only [placeLines, h4, if_pos hend, placed_eq]
          simp
      · have hyle : style.minY + ((k + 1 : Nat) : Rat) * style.lineHeight ≤ style.maxY := by
          rw [← hy]; exact not_lt.1 hend
        have htops : ∀ (cut : List (List Piece)),
            (∀ j, 0 < j → j < cut.length → style.minY + ((k + 1 + j : Nat) : Rat) * style.lineHeight ≤ style.maxY) →
            ∀ j, 0 < j → j < (taken :: cut).length → style.minY + ((k + j : Nat) : Rat) * style.lineHeight ≤ style.maxY := by
          intro cut hc j h0 hj
          simp only [List.length_cons] at hj
          rcases Nat.eq_or_lt_of_le (Nat.succ_le_of_lt h0) with h | h
          · rw [← h]; exact hyle
          · have := hc (j - 1) (by omega) (by omega)
            rwa [show k + 1 + (j - 1) = k + j by omega] at this
        have hmap : ∀ (cut : List (List Piece)), (taken :: cut).mapIdx (fun j => placedLine style (k + j)) =
            placedLine style k taken :: cut.mapIdx (fun j => placedLine style (k + 1 + j)) := by
          intro cut
          rw [List.mapIdx_cons]
          congr 2
          funext i
          rw [show k + (i + 1) = k + 1 + i by omega]
        rcases ih r' rest (k + 1) h3 (by omega) with
          ⟨cut, pending, g1, g2, g3, g4, g5, g6⟩ | ⟨cut, rest', r'', g1, g2, g3, g4, g5, g6, g7⟩ | ⟨e, more, g1, g2⟩
        · refine Or.inl ⟨taken :: cut, pending, g1, ?_, g3, htops cut g4, ?_, ?_⟩
          · rw [h1]; exact .cons h2 g2
          · intro _
            cases cut with
            | nil => simpa using hyle
            | cons c cut =>
              have := g5 (by simp)
              simp only [List.length_cons] at this ⊢
              rwa [show k + (cut.length + 1 + 1) = k + 1 + (cut.length + 1) by omega]
          · simp only [placeLines, h4]
            rw [if_neg hend, hy, g6]
            simp only [placed_eq, hmap]
        · refine Or.inr (Or.inl ⟨taken :: cut, rest', r'', ?_, g2, by omega, by simp, htops cut g5, ?_, ?_⟩)
          · intro pending lines hl
            rw [h1]
            exact .cons h2 (g1 _ _ hl)
          · simp only [List.length_cons]
            rwa [show k + (cut.length + 1) = k + 1 + cut.length by omega]
          · simp only [placeLines, h4]
            rw [if_neg hend, hy, g7]
            simp only [placed_eq, hmap]
        · refine Or.inr (Or.inr ⟨e, more, g1, ?_⟩)
          simp only [placeLines, h4]
          rw [if_neg hend, hy, g2]
    · refine Or.inl ⟨[], pieces, h1, .nil, h2, by simp, by simp, ?_⟩
      simp only [List.map_nil, pieceWidth_nil] at h3
      simp only [placeLines, h3, List.mapIdx_nil]
    · refine Or.inr (Or.inr ⟨e, more, h1, ?_⟩)
      simp only [List.map_nil, pieceWidth_nil] at h2
      simp only [placeLines, h2]

theorem placePages_spec (style : Style) (tail : List (Item Err)) (htail : TailOk tail) :
    ∀ (fuel : Nat) (r : Rewind (Item Err)) (pieces : List Piece),
    r.toList = itemsOf pieces tail → pieces.length < fuel →
    (∃ pages pending, tail = [] ∧ Lines style pending pieces pages.flatten ∧ (∀ p ∈ pending, p.2 = false) ∧
      GoodPages style pages ∧ placePages style fuel r = .ok (pages.map (placedPage style))) ∨
    (∃ e more, tail = .error e :: more ∧ placePages style fuel r = .error (.font e)) := by
  intro fuel
  induction fuel with
  | zero => intro r pieces _ h; omega
  | succ fuel ih =>
    intro r pieces hr hf
    have h0 : style.minY + ((0 : Nat) : Rat) * style.lineHeight = style.minY := by simp
    have hmap : ∀ cut : List (List Piece), cut.mapIdx (fun j => placedLine style (0 + j)) = placedPage style cut := by
      intro cut; simp [placedPage]
    rcases placeLines_spec style tail htail (fuel + 1) r pieces 0 hr hf with
      ⟨cut, pending, g1, g2, g3, g4, g5, g6⟩ | ⟨cut, rest, r', g1, g2, g3, g4, g5, g6, g7⟩ | ⟨e, more, g1, g2⟩
    · rw [h0, hmap] at g6
      refine Or.inl ⟨[cut], pending, g1, by simpa using g2, g3, ⟨by simp, ?_, by simp, ?_⟩, ?_⟩
      · intro page hp j hj hj'
        simp at hp; subst hp
        simpa using g4 j hj hj'
      · intro page hp hne
        simp at hp; subst hp
        simpa using g5 hne
      · simp only [placePages, g6, List.map_cons, List.map_nil]
    · rw [h0, hmap] at g7
      rcases ih r' rest g2 (by omega) with ⟨pages, pending, f1, f2, f3, f4, f5⟩ | ⟨e, more, f1, f2⟩
      · refine Or.inl ⟨cut :: pages, pending, f1, ?_, f3, ⟨by simp, ?_, ?_, ?_⟩, ?_⟩
        · rw [List.flatten_cons]
          exact g1 _ _ f2
        · intro page hp j hj hj'
          rcases List.mem_cons.1 hp with rfl | hp
          · simpa using g5 j hj hj'
          · exact f4.tops page hp j hj hj'
        · intro page hp
          rw [List.dropLast_cons_of_ne_nil f4.nonempty] at hp
          rcases List.mem_cons.1 hp with rfl | hp
          · exact ⟨g4, by simpa using g6⟩
          · exact f4.full page hp
        · intro page hp
          rw [List.getLast?_cons_of_ne_nil f4.nonempty] at hp
          exact f4.last page hp
        · simp only [placePages, g7, f5, List.map_cons]
      · refine Or.inr ⟨e, more, f1, ?_⟩
        simp only [placePages, g7, f2]
    · rw [h0] at g2
      exact Or.inr ⟨e, more, g1, by simp only [placePages, g2]⟩

end Verif.Text
