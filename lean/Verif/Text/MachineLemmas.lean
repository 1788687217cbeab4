/- Lemmas for C114. -/
import Verif.Text.MachineSpec
import Verif.Text.PlainTheorems
import Verif.Pdf.DocExpect
namespace Verif.Text.Machine
open Verif.Pdf
variable {R Err : Type} (A : Arith R)

theorem lineWidth_nil (style : Style R) : lineWidth A style [] = A.zero := rfl

theorem lineWidth_snoc (style : Style R) (l : List (Piece R)) (p : Piece R) :
    lineWidth A style (l ++ [p]) = A.add (lineWidth A style l) (segmentWidth A style p.1) := by
  simp [lineWidth]

/-- The items: segments without errors, then nothing or an error. -/
def itemsOf (pieces : List (Piece R)) (tail : List (Item R Err)) : List (Item R Err) := pieces.map .ok ++ tail

/-- What can come after the segments. -/
def TailOk (tail : List (Item R Err)) : Prop := tail = [] ∨ ∃ e more, tail = .error e :: more

/-- The part of a line so far. -/
structure Partial (style : Style R) (acc : List (Piece R)) : Prop where
  hard : ∀ p ∈ acc, p.2 = false
  fits : ∀ a p b, acc = a ++ p :: b → A.gt (lineWidth A style a) A.zero = true →
    A.gt (lineWidth A style (a ++ [p])) (availableWidth A style) = false

theorem append_fits (style : Style R) {acc : List (Piece R)} {p : Piece R} (h : Partial A style acc)
    (hf : (A.gt (A.add (lineWidth A style acc) (segmentWidth A style p.1)) (availableWidth A style) &&
      A.gt (lineWidth A style acc) A.zero) = false) :
    ∀ a q b, acc ++ [p] = a ++ q :: b → A.gt (lineWidth A style a) A.zero = true →
      A.gt (lineWidth A style (a ++ [q])) (availableWidth A style) = false := by
  intro a q b he ha
  rcases List.eq_nil_or_concat b with rfl | ⟨b', x, rfl⟩
  · obtain ⟨rfl, h2⟩ := List.append_inj' he rfl
    cases h2
    rw [lineWidth_snoc]
    rw [ha, Bool.and_true] at hf
    exact hf
  · simp only [List.concat_eq_append] at he
    have he' : acc ++ [p] = (a ++ q :: b') ++ [x] := by simpa using he
    obtain ⟨h1, _⟩ := List.append_inj' he' rfl
    exact h.fits a q b' h1 ha

theorem fillLine_spec (hz : A.gt A.zero A.zero = false) (style : Style R) (tail : List (Item R Err)) (htail : TailOk tail) :
    ∀ (fuel : Nat) (r : Rewind (Item R Err)) (acc pieces : List (Piece R)),
    r.toList = itemsOf pieces tail → pieces.length < fuel → Partial A style acc →
    (∃ taken rest r', pieces = taken ++ rest ∧ GoodLine A style (acc ++ taken) rest ∧
      r'.toList = itemsOf rest tail ∧
      fillLine A style fuel r (acc.map (·.1)) (lineWidth A style acc) =
        .ok (.line ((acc ++ taken).map (·.1)) (lineWidth A style (acc ++ taken))
          (style.justify && ((acc ++ taken).getLast?.all (fun p => !p.2))) r')) ∨
    (tail = [] ∧ (∀ p ∈ pieces, p.2 = false) ∧
      fillLine A style fuel r (acc.map (·.1)) (lineWidth A style acc) = .ok .endOfDocument) ∨
    (∃ e more, tail = .error e :: more ∧
      fillLine A style fuel r (acc.map (·.1)) (lineWidth A style acc) = .error (.font e)) := by
  intro fuel
  induction fuel with
  | zero => intro r acc pieces _ h; omega
  | succ fuel ih =>
    intro r acc pieces hr hf hacc
    cases pieces with
    | nil =>
      rcases htail with rfl | ⟨e, more, rfl⟩
      · obtain ⟨r', hn⟩ := next_nil r (by simpa [itemsOf] using hr)
        refine Or.inr (Or.inl ⟨rfl, by simp, ?_⟩)
        simp only [fillLine, hn]
      · have hn := next_cons r (by simpa [itemsOf] using hr)
        refine Or.inr (Or.inr ⟨e, more, rfl, ?_⟩)
        simp only [fillLine, hn]
    | cons p pieces =>
      obtain ⟨segment, hard⟩ := p
      have hn : r.next = (some (.ok (segment, hard)), ⟨itemsOf pieces tail, none⟩) :=
        next_cons r (by simpa [itemsOf] using hr)
      cases hfit : (A.gt (A.add (lineWidth A style acc) (segmentWidth A style segment)) (availableWidth A style) &&
          A.gt (lineWidth A style acc) A.zero) with
      | true =>
        have hfit' := hfit
        rw [Bool.and_eq_true] at hfit'
        refine Or.inl ⟨[], (segment, hard) :: pieces, ⟨itemsOf pieces tail, some (.ok (segment, hard))⟩, rfl, ?_, rfl, ?_⟩
        · rw [List.append_nil]
          have hne : acc ≠ [] := by
            rintro rfl
            rw [lineWidth_nil, hz] at hfit'
            exact absurd hfit'.2 (by simp)
          refine ⟨hne, fun q hq => hacc.hard q (List.dropLast_subset _ hq), hacc.fits, ?_⟩
          refine Or.inr ⟨(segment, hard), pieces, rfl, hfit'.2, ?_⟩
          rw [lineWidth_snoc]
          exact hfit'.1
        · simp only [fillLine, hn, hfit, if_true, Rewind.rewind, List.append_nil]
          have : acc.getLast?.all (fun p => !p.2) = true := by
            rw [Option.all_eq_true]
            intro q hq
            simp [hacc.hard q (List.mem_of_getLast? hq)]
          rw [this, Bool.and_true]
      | false =>
        have hw : lineWidth A style (acc ++ [(segment, hard)]) = A.add (lineWidth A style acc) (segmentWidth A style segment) :=
          lineWidth_snoc ..
        have hfits := append_fits A style (p := (segment, hard)) hacc hfit
        cases hard with
        | true =>
          refine Or.inl ⟨[(segment, true)], pieces, ⟨itemsOf pieces tail, none⟩, rfl, ?_, by simp [Rewind.toList], ?_⟩
          · refine ⟨by simp, ?_, hfits, Or.inl ⟨(segment, true), by simp, rfl⟩⟩
            intro q hq
            rw [List.dropLast_concat] at hq
            exact hacc.hard q hq
          · simp only [fillLine, hn, hfit, Bool.false_eq_true, if_false, if_true]
            rw [hw]
            simp
        | false =>
          have hacc' : Partial A style (acc ++ [(segment, false)]) := by
            refine ⟨?_, hfits⟩
            intro q hq
            rcases List.mem_append.1 hq with hq | hq
            · exact hacc.hard q hq
            · simp at hq; rw [hq]
          have hstep : fillLine A style (fuel + 1) r (acc.map (·.1)) (lineWidth A style acc) =
              fillLine A style fuel ⟨itemsOf pieces tail, none⟩ ((acc ++ [(segment, false)]).map (·.1))
                (lineWidth A style (acc ++ [(segment, false)])) := by
            simp only [fillLine, hn, hfit, hw, List.map_append, List.map_cons, List.map_nil]
            simp
          simp only [List.length_cons] at hf
          rcases ih ⟨itemsOf pieces tail, none⟩ (acc ++ [(segment, false)]) pieces (by simp [Rewind.toList]) (by omega) hacc'
            with ⟨taken, rest, r', h1, h2, h3, h4⟩ | ⟨h1, h2, h3⟩ | ⟨e, more, h1, h2⟩
          · refine Or.inl ⟨(segment, false) :: taken, rest, r', by simp [h1], ?_, h3, ?_⟩
            · simpa using h2
            · rw [hstep, h4]
              simp
          · refine Or.inr (Or.inl ⟨h1, ?_, by rw [hstep, h3]⟩)
            intro q hq
            rcases List.mem_cons.1 hq with rfl | hq
            · rfl
            · exact h2 q hq
          · exact Or.inr (Or.inr ⟨e, more, h1, by rw [hstep, h2]⟩)

theorem wordSpacing_eq (style : Style R) (line : List (Piece R)) (hne : line ≠ []) :
    wordSpacing A style (line.map (·.1)).length (lineWidth A style line)
      (style.justify && (line.getLast?.all (fun p => !p.2))) = some (spacing A style line) := by
  unfold wordSpacing spacing
  rw [List.length_map]
  split
  · next h =>
    obtain ⟨n, hn⟩ : ∃ n, line.length = n + 1 := ⟨line.length - 1, by have := List.length_pos_iff.2 hne; omega⟩
    simp only [hn, Nat.add_sub_cancel]
  · rfl

section
variable (F : Floats R) (address : Nat) (font : FontView Err)

theorem glyphWidths_ok {E : Type} (w : Nat → Except E Int) : ∀ (n i : Nat), (∀ j, i ≤ j → j < i + n → ∃ x, w j = .ok x) →
    ∃ ws, glyphWidths (R := R) w i n = .ok ws
  | 0, _, _ => ⟨[], rfl⟩
  | n + 1, i, h => by
    obtain ⟨x, hx⟩ := h i (by omega) (by omega)
    obtain ⟨ws, hws⟩ := glyphWidths_ok w n (i + 1) fun j h1 h2 => h j (by omega) (by omega)
    exact ⟨.i32 x :: ws, by simp only [glyphWidths, hx, hws]⟩

theorem glyphWidths_of_ok {E : Type} (w : Nat → Except E Int) : ∀ (n i : Nat) (ws : List (Object R)), glyphWidths (R := R) w i n = .ok ws →
    ∀ j, i ≤ j → j < i + n → ∃ x, w j = .ok x
  | 0, _, _, _ => fun j h1 h2 => by omega
  | n + 1, i, ws, h => by
    intro j h1 h2
    simp only [glyphWidths] at h
    rcases hx : w i with e | x
    · rw [hx] at h; cases h
    · rw [hx] at h
      dsimp only at h
      rcases hr : glyphWidths (R := R) w (i + 1) n with e | ws'
      · rw [hr] at h; cases h
      · rcases Nat.eq_or_lt_of_le h1 with rfl | h3
        · exact ⟨x, hx⟩
        · exact glyphWidths_of_ok w n (i + 1) ws' hr j (by omega) (by omega)

theorem showText_ok (hf : font.Ok) (d : Doc R) (p : Page R) (glyphs : List Nat) (size x y : R) :
    ∃ d' p', showText F d p address font glyphs size x y = (d', p', .ok ()) := by
  unfold showText addFont
  obtain ⟨ws, hws⟩ := glyphWidths_ok (R := R) font.glyphWidth font.glyphCount 0 fun j _ h => hf.2 j (by omega)
  rcases h : assocGet d.fonts address with _ | key
  · simp only [hf.1, hws]
    exact ⟨_, _, rfl⟩
  · exact ⟨_, _, rfl⟩

theorem showText_error (hf : ¬ font.Ok) (d : Doc R) (hd : d.fonts = []) (p : Page R) (glyphs : List Nat) (size x y : R) :
    ∃ d' e, showText F d p address font glyphs size x y = (d', p, .error e) := by
  unfold showText addFont
  rw [hd]
  rcases h1 : font.codePointsError with _ | e
  · rcases h2 : glyphWidths (R := R) font.glyphWidth 0 font.glyphCount with e | ws
    · exact ⟨_, e, by simp only [assocGet]; rfl⟩
    · exfalso
      exact hf ⟨h1, fun i hi => glyphWidths_of_ok _ _ _ ws h2 i (by omega) (by omega)⟩
  · exact ⟨_, e, by simp only [assocGet]; rfl⟩

theorem showLine_ok (hf : font.Ok) (style : Style R) (baseline gap : R) : ∀ (line : List (Piece R)) (x : R) (s : Doc R × Page R),
    showLine A F address font style baseline gap x (line.map (·.1)) s =
      .ok ((lineCalls A address style baseline gap x line).foldl (runOp F fun _ => font) s)
  | [], _, _ => rfl
  | p :: line, x, s => by
    obtain ⟨d', p', h⟩ := showText_ok F address font hf s.1 s.2 p.1.glyphs style.fontSize x baseline
    simp only [List.map_cons, showLine, h, lineCalls, List.foldl_cons, runOp]
    exact showLine_ok hf style baseline gap line _ _

/-- The calls for the lines of a page from the `k`-th on. -/
def callsFrom (style : Style R) (k : Nat) (lines : List (List (Piece R))) : List (PageOp R) :=
  (lines.mapIdx fun j line =>
    lineCalls A address style (A.add (top A style (k + j)) (baselineY A style)) (spacing A style line) (minX A style) line).flatten

theorem callsFrom_cons (style : Style R) (k : Nat) (line : List (Piece R)) (lines : List (List (Piece R))) :
    callsFrom A address style k (line :: lines) =
      lineCalls A address style (A.add (top A style k) (baselineY A style)) (spacing A style line) (minX A style) line ++
        callsFrom A address style (k + 1) lines := by
  simp only [callsFrom, List.mapIdx_cons, List.flatten_cons, Nat.add_zero]
  congr 3
  funext j
  rw [show k + (j + 1) = k + 1 + j by omega]

theorem showLines_spec (hz : A.gt A.zero A.zero = false) (hf : font.Ok) (style : Style R) (tail : List (Item R Err)) (htail : TailOk tail) :
    ∀ (fuel : Nat) (r : Rewind (Item R Err)) (pieces : List (Piece R)) (k : Nat) (s : Doc R × Page R),
    r.toList = itemsOf pieces tail → pieces.length < fuel →
    (∃ cut pending, tail = [] ∧ Lines A style pending pieces cut ∧ (∀ p ∈ pending, p.2 = false) ∧
      (∀ j, 0 < j → j < cut.length → A.gt (top A style (k + j)) (maxY A style) = false) ∧
      (cut ≠ [] → A.gt (top A style (k + cut.length)) (maxY A style) = false) ∧
      showLines A F address font style fuel r (top A style k) s =
        .ok ((callsFrom A address style k cut).foldl (runOp F fun _ => font) s, none)) ∨
    (∃ cut rest r', (∀ pending lines, Lines A style pending rest lines → Lines A style pending pieces (cut ++ lines)) ∧
      r'.toList = itemsOf rest tail ∧ rest.length < pieces.length ∧ cut ≠ [] ∧
      (∀ j, 0 < j → j < cut.length → A.gt (top A style (k + j)) (maxY A style) = false) ∧
      A.gt (top A style (k + cut.length)) (maxY A style) = true ∧
      showLines A F address font style fuel r (top A style k) s =
        .ok ((callsFrom A address style k cut).foldl (runOp F fun _ => font) s, some r')) ∨
    (∃ e more, tail = .error e :: more ∧
      showLines A F address font style fuel r (top A style k) s = .error (.font e)) := by
  intro fuel
  induction fuel with
  | zero => intro r pieces k s _ h; omega
  | succ fuel ih =>
    intro r pieces k s hr hfuel
    have hp0 : Partial A style [] := ⟨by simp, by simp⟩
    rcases fillLine_spec A hz style tail htail (fuel + 1) r [] pieces hr hfuel hp0
      with ⟨taken, rest, r', h1, h2, h3, h4⟩ | ⟨h1, h2, h3⟩ | ⟨e, more, h1, h2⟩
    · simp only [List.nil_append, List.map_nil, lineWidth_nil] at h2 h4
      have hlen : rest.length < pieces.length := by
        have := List.length_pos_iff.2 h2.nonempty
        rw [h1, List.length_append]; omega
      have hs := wordSpacing_eq A style taken h2.nonempty
      have hstep : ∀ s', showLine A F address font style (A.add (top A style k) (baselineY A style)) (spacing A style taken) (minX A style)
          (taken.map (·.1)) s = .ok s' → s' = (lineCalls A address style (A.add (top A style k) (baselineY A style)) (spacing A style taken)
            (minX A style) taken).foldl (runOp F fun _ => font) s := by
        intro s' h
        rw [showLine_ok A F address font hf] at h
        exact (Except.ok.inj h).symm
      have hline := showLine_ok A F address font hf style (A.add (top A style k) (baselineY A style)) (spacing A style taken) taken
        (minX A style) s
      have htop : A.add (top A style k) (lineHeight A style) = top A style (k + 1) := rfl
      cases hend : A.gt (top A style (k + 1)) (maxY A style) with
      | true =>
        refine Or.inr (Or.inl ⟨[taken], rest, r', ?_, h3, hlen, by simp, ?_, hend, ?_⟩)
        · intro pending lines hl
          rw [h1]
          exact .cons h2 hl
        · intro j h0 hj; simp at hj; omega
        · rw [callsFrom_cons]
          simp only [showLines, h4, hs, hline, htop, hend, if_true, List.foldl_append]
          rfl
      | false =>
        have htops : ∀ (cut : List (List (Piece R))),
            (∀ j, 0 < j → j < cut.length → A.gt (top A style (k + 1 + j)) (maxY A style) = false) →
            ∀ j, 0 < j → j < (taken :: cut).length → A.gt (top A style (k + j)) (maxY A style) = false := by
          intro cut hc j h0 hj
          simp only [List.length_cons] at hj
          rcases Nat.eq_or_lt_of_le (Nat.succ_le_of_lt h0) with h | h
          · rw [← h]; exact hend
          · have := hc (j - 1) (by omega) (by omega)
            rwa [show k + 1 + (j - 1) = k + j by omega] at this
        rcases ih r' rest (k + 1) ((lineCalls A address style (A.add (top A style k) (baselineY A style)) (spacing A style taken)
            (minX A style) taken).foldl (runOp F fun _ => font) s) h3 (by omega) with
          ⟨cut, pending, g1, g2, g3, g4, g5, g6⟩ | ⟨cut, rest', r'', g1, g2, g3, g4, g5, g6, g7⟩ | ⟨e, more, g1, g2⟩
        · refine Or.inl ⟨taken :: cut, pending, g1, ?_, g3, htops cut g4, ?_, ?_⟩
          · rw [h1]; exact .cons h2 g2
          · intro _
            cases cut with
            | nil => exact hend
            | cons c cut =>
              have := g5 (by simp)
              simp only [List.length_cons] at this ⊢
              rwa [show k + (cut.length + 1 + 1) = k + 1 + (cut.length + 1) by omega]
          · rw [callsFrom_cons, List.foldl_append]
            simp only [showLines, h4, hs, hline, htop, hend, Bool.false_eq_true, if_false]
            exact g6
        · refine Or.inr (Or.inl ⟨taken :: cut, rest', r'', ?_, g2, by omega, by simp, htops cut g5, ?_, ?_⟩)
          · intro pending lines hl
            rw [h1]
            exact .cons h2 (g1 _ _ hl)
          · simp only [List.length_cons]
            rwa [show k + (cut.length + 1) = k + 1 + cut.length by omega]
          · rw [callsFrom_cons, List.foldl_append]
            simp only [showLines, h4, hs, hline, htop, hend, Bool.false_eq_true, if_false]
            exact g7
        · refine Or.inr (Or.inr ⟨e, more, g1, ?_⟩)
          simp only [showLines, h4, hs, hline, htop, hend, Bool.false_eq_true, if_false]
          exact g2
    · refine Or.inl ⟨[], pieces, h1, .nil, h2, by simp, by simp, ?_⟩
      simp only [List.map_nil, lineWidth_nil] at h3
      simp only [showLines, h3, callsFrom, List.mapIdx_nil, List.flatten_nil, List.foldl_nil]
    · refine Or.inr (Or.inr ⟨e, more, h1, ?_⟩)
      simp only [List.map_nil, lineWidth_nil] at h2
      simp only [showLines, h2]

theorem pageCalls_ops (style : Style R) (cut : List (List (Piece R))) :
    (pageCalls A address style cut).ops = callsFrom A address style 0 cut := by
  simp only [pageCalls, callsFrom, Nat.zero_add]

theorem showPages_spec (hz : A.gt A.zero A.zero = false) (hf : font.Ok) (style : Style R) (tail : List (Item R Err)) (htail : TailOk tail) :
    ∀ (fuel : Nat) (r : Rewind (Item R Err)) (pieces : List (Piece R)) (d : Doc R),
    r.toList = itemsOf pieces tail → pieces.length < fuel →
    (∃ pages pending, tail = [] ∧ Lines A style pending pieces pages.flatten ∧ (∀ p ∈ pending, p.2 = false) ∧
      GoodPages A style pages ∧
      showPages A F address font style fuel r d = .ok ((pages.map (pageCalls A address style)).foldl (runPage F fun _ => font) d)) ∨
    (∃ e more, tail = .error e :: more ∧ showPages A F address font style fuel r d = .error (.font e)) := by
  intro fuel
  induction fuel with
  | zero => intro r pieces d _ h; omega
  | succ fuel ih =>
    intro r pieces d hr hfuel
    have hrun : ∀ cut, runPage F (fun _ => font) d (pageCalls A address style cut) =
        dropPage F ((callsFrom A address style 0 cut).foldl (runOp F fun _ => font) (d, Page.new F (width A style) (height A style))).1
          ((callsFrom A address style 0 cut).foldl (runOp F fun _ => font) (d, Page.new F (width A style) (height A style))).2 := by
      intro cut
      rw [← pageCalls_ops]
      rfl
    rcases showLines_spec A F address font hz hf style tail htail (fuel + 1) r pieces 0
        (d, Page.new F (width A style) (height A style)) hr hfuel with
      ⟨cut, pending, g1, g2, g3, g4, g5, g6⟩ | ⟨cut, rest, r', g1, g2, g3, g4, g5, g6, g7⟩ | ⟨e, more, g1, g2⟩
    · have g6 : showLines A F address font style (fuel + 1) r (minY A style) (d, Page.new F (width A style) (height A style)) = _ := g6
      refine Or.inl ⟨[cut], pending, g1, by simpa using g2, g3, ⟨by simp, ?_, by simp, ?_⟩, ?_⟩
      · intro page hp j hj hj'
        simp at hp; subst hp
        simpa using g4 j hj hj'
      · intro page hp hne
        simp at hp; subst hp
        simpa using g5 hne
      · simp only [showPages, g6, List.map_cons, List.map_nil, List.foldl_cons, List.foldl_nil, hrun]
    · have g7 : showLines A F address font style (fuel + 1) r (minY A style) (d, Page.new F (width A style) (height A style)) = _ := g7
      rcases ih r' rest (runPage F (fun _ => font) d (pageCalls A address style cut)) g2 (by omega) with
        ⟨pages, pending, f1, f2, f3, f4, f5⟩ | ⟨e, more, f1, f2⟩
      · refine Or.inl ⟨cut :: pages, pending, f1, ?_, f3, ⟨by simp, ?_, ?_, ?_⟩, ?_⟩
        · rw [List.flatten_cons]
          exact g1 _ _ f2
        · intro page hp j hj hj'
          rcases List.mem_cons.1 hp with rfl | hp
          · simpa using g5 j hj hj'
          · exact f4.tops page hp j hj hj'
        · intro page hp
          rw [List.dropLast_cons_of_ne_nil f4.nonempty] at hp
          rcases List.mem_cons.1 hp with rfl | hp
          · exact ⟨g4, by simpa using g6⟩
          · exact f4.full page hp
        · intro page hp
          rw [List.getLast?_cons_of_ne_nil f4.nonempty] at hp
          exact f4.last page hp
        · rw [hrun] at f5
          simp only [showPages, g7, f5, List.map_cons, List.foldl_cons, hrun]
      · refine Or.inr ⟨e, more, f1, ?_⟩
        rw [hrun] at f2
        simp only [showPages, g7, f2]
    · have g2 : showLines A F address font style (fuel + 1) r (minY A style) (d, Page.new F (width A style) (height A style)) = _ := g2
      exact Or.inr ⟨e, more, g1, by simp only [showPages, g2]⟩

end

end Verif.Text.Machine
