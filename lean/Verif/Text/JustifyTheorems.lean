/- **C121**: with single precision numbers, justified lines of plain text end at the right margin, but for some roundings. -/
import Verif.Text.SingleJustify
import Verif.Text.JustifySpec
namespace Verif.Text.Machine
open Verif.Pdf Verif.Float

theorem not_gt_iff {a b : Single} (ha : a ≠ .nan) (hb : b ≠ .nan) (h : Single.gt a b = false) : a.value ≤ b.value := by
  refine Single.value_le ha hb (not_lt.1 fun hk => ?_)
  rw [Single.gt_iff.2 ⟨ha, hb, hk⟩] at h
  cases h

/-- The width that is left, divided between `m` gaps. -/
theorem gap_bound {A T : Single} {m : Nat} (hA : A.Finite) (hA1 : 1 / 2 ^ 100 ≤ A.value) (hA2 : A.value ≤ 2 ^ 101) (hT : T.Finite) (hT0 : 0 ≤ T.value)
    (hTA : T.value ≤ A.value) (hm : 0 < m) (hm2 : m < 2 ^ 24) :
    let gap := if Single.gt (Single.sub A T) .zero then Single.div (Single.sub A T) (Single.ofNat m) else .zero
    gap.Finite ∧ 0 ≤ gap.value ∧ gap.value ≤ 3 * A.value ∧ |m * gap.value - (A.value - T.value)| ≤ 3 * A.value / 2 ^ 24 := by
  intro gap
  have hAp : (0 : Rat) < A.value := lt_of_lt_of_le (by positivity) hA1
  obtain ⟨d1, d2⟩ := Single.sub_bound (B := A.value) hA hT (by rw [abs_of_nonneg (by linarith)]; linarith)
    (le_trans (by norm_num) hA1) (le_trans hA2 (by norm_num))
  have d3 := abs_le.1 d2
  by_cases hgt : Single.gt (Single.sub A T) .zero = true
  · have e : gap = Single.div (Single.sub A T) (Single.ofNat m) := if_pos hgt
    rw [e]
    have dpos : 0 ≤ (Single.sub A T).value := by
      have := Single.value_le Single.zero_finite.1 d1.1 (Single.gt_iff.1 hgt).2.2.le
      rwa [Single.zero_value] at this
    obtain ⟨b, hb, eb, fb, vb⟩ := Single.ofNat_exact hm2
    have hfin : (Single.ofNat m).Finite := (Single.ofNat_pos hm (lt_of_lt_of_le hm2 (by norm_num))).2
    have hval : (Single.ofNat m).value = m := by
      rw [eb]
      simp only [Single.value, Bool.false_eq_true, if_false, one_mul]
      exact vb
    have hmp : (0 : Rat) < m := by exact_mod_cast hm
    have hm1 : (1 : Rat) ≤ m := by exact_mod_cast hm
    have hmb : (m : Rat) ≤ 2 ^ 24 := by exact_mod_cast hm2.le
    have hq0 : 0 ≤ (Single.sub A T).value / m := div_nonneg dpos hmp.le
    have hq : (Single.sub A T).value / m ≤ 2 * A.value / m := div_le_div_of_nonneg_right (by linarith [d3.2]) hmp.le
    have hB1 : 1 / 2 ^ 126 ≤ 2 * A.value / m := by
      rw [le_div_iff₀ hmp]
      calc 1 / 2 ^ 126 * (m : Rat) ≤ 1 / 2 ^ 126 * 2 ^ 24 := mul_le_mul_of_nonneg_left hmb (by positivity)
        _ ≤ 2 * A.value := by linarith [show (1 : Rat) / 2 ^ 126 * 2 ^ 24 ≤ 1 / 2 ^ 100 by norm_num]
    have hB2 : 2 * A.value / m ≤ 2 * A.value := div_le_self (by linarith) hm1
    obtain ⟨g1, g2⟩ := Single.div_bound (B := 2 * A.value / m) d1 hfin (by rw [hval]; exact hmp.ne') (by rw [hval, abs_of_nonneg hq0]; exact hq) hB1
      (by linarith [show (2 : Rat) * 2 ^ 101 ≤ 2 ^ 127 by norm_num])
    rw [hval] at g2
    have g0 : 0 ≤ (Single.div (Single.sub A T) (Single.ofNat m)).value := by
      have h0 : Single.ge (Single.sub A T) .zero = true := Single.ge_of_gt hgt
      have := Single.div_nonneg' h0 hfin (Single.ofNat_pos hm (lt_of_lt_of_le hm2 (by norm_num))).1
      have := Single.value_le Single.zero_finite.1 g1.1 (Single.ge_iff.1 this).2.2
      rwa [Single.zero_value] at this
    have g3 := abs_le.1 g2
    refine ⟨g1, g0, by linarith [g3.2], ?_⟩
    have k : |(m : Rat) * (Single.div (Single.sub A T) (Single.ofNat m)).value - (Single.sub A T).value| ≤ 2 * A.value / 2 ^ 24 := by
      have e2 : (m : Rat) * (Single.div (Single.sub A T) (Single.ofNat m)).value - (Single.sub A T).value =
          m * ((Single.div (Single.sub A T) (Single.ofNat m)).value - (Single.sub A T).value / m) := by
        rw [mul_sub, mul_div_cancel₀ _ hmp.ne']
      rw [e2, abs_mul, abs_of_pos hmp]
      calc (m : Rat) * |_| ≤ m * (2 * A.value / m / 2 ^ 24) := mul_le_mul_of_nonneg_left g2 hmp.le
        _ = 2 * A.value / 2 ^ 24 := by rw [← mul_div_assoc, mul_div_cancel₀ _ hmp.ne']
    have k' := abs_le.1 k
    exact abs_le.2 ⟨by linarith [k'.1, d3.1], by linarith [k'.2, d3.2]⟩
  · have e : gap = .zero := if_neg hgt
    rw [e, Single.zero_value]
    have := not_gt_iff d1.1 Single.zero_finite.1 (by simpa using hgt)
    rw [Single.zero_value] at this
    exact ⟨Single.zero_finite, le_refl _, by linarith, abs_le.2 ⟨by linarith [d3.1, d3.2], by linarith [d3.1, d3.2]⟩⟩

/-- **C121**: with single precision numbers, a line of at most 2¹⁷ segments of justified text that does not end where a break is required, and is
not wider than the page without its margins, starts at the left margin and ends at the right margin, with equal gaps, but for some roundings. -/
theorem C121_line (address : Nat) (style : Style Single) (baseline : Single) (line : List (Piece Single)) (hj : style.justify = true)
    (hp : UsualPage style) (hlast : ∀ p ∈ line.getLast?, p.2 = false) (hn : 2 ≤ line.length) (hn2 : line.length ≤ 2 ^ 17)
    (hw : ∀ p ∈ line, Single.ge (segmentWidth single style p.1) .zero = true)
    (hfit : Single.gt (lineWidth single style line) (availableWidth single style) = false) :
    JustifiedLine address style baseline line (lineCalls single address style baseline (spacing single style line) (minX single style) line) := by
  obtain ⟨hW, hW2, hm, hm0, hmW, hA⟩ := hp
  unfold JustifiedLine
  set W := (width single style).value
  set m := (margin single style).value
  -- the page
  have hAW0 : 0 ≤ W := by linarith
  obtain ⟨x1, x2⟩ := Single.zero_add' hm
  have avail : (availableWidth single style).Finite ∧ |(availableWidth single style).value - (W - 2 * m)| ≤ 3 * W / 2 ^ 24 ∧ 1 / 2 ^ 101 ≤ W := by
    by_cases hWs : 1 / 2 ^ 110 ≤ W
    · obtain ⟨a1, a2⟩ := Single.add_bound (B := W) hm hm (by rw [abs_of_nonneg (by linarith)]; linarith) (le_trans (by norm_num) hWs)
        (le_trans hW2 (by norm_num))
      have a3 := abs_le.1 a2
      obtain ⟨b1, b2⟩ := Single.sub_bound (B := 2 * W) hW a1 (abs_le.2 ⟨by linarith [a3.2], by linarith [a3.1]⟩)
        (by linarith [show (1 : Rat) / 2 ^ 126 ≤ 1 / 2 ^ 110 by norm_num]) (by linarith [show (2 : Rat) * 2 ^ 100 ≤ 2 ^ 127 by norm_num])
      have b3 := abs_le.1 b2
      refine ⟨b1, abs_le.2 ⟨?_, ?_⟩, ?_⟩
      · change -(3 * W / 2 ^ 24) ≤ (Single.sub (width single style) (Single.add (margin single style) (margin single style))).value - _
        linarith [a3.2, b3.1]
      · change (Single.sub (width single style) (Single.add (margin single style) (margin single style))).value - _ ≤ 3 * W / 2 ^ 24
        linarith [a3.1, b3.2]
      · have : (availableWidth single style).value ≤ 2 * W := by
          change (Single.sub (width single style) (Single.add (margin single style) (margin single style))).value ≤ 2 * W
          linarith [a3.1, b3.2]
        linarith [show (1 : Rat) / 2 ^ 101 * 2 = 1 / 2 ^ 100 by norm_num]
    · exfalso
      have hWs' := not_le.1 hWs
      obtain ⟨a1, a2⟩ := Single.add_bound (B := 1 / 2 ^ 110) hm hm (by rw [abs_of_nonneg (by linarith)]; linarith) (by norm_num) (by norm_num)
      have a3 := abs_le.1 a2
      obtain ⟨b1, b2⟩ := Single.sub_bound (B := 2 * (1 / 2 ^ 110)) hW a1 (abs_le.2 ⟨by linarith [a3.2], by linarith [a3.1]⟩) (by norm_num) (by norm_num)
      have b3 := abs_le.1 b2
      have : (availableWidth single style).value ≤ 4 * (1 / 2 ^ 110) := by
        change (Single.sub (width single style) (Single.add (margin single style) (margin single style))).value ≤ _
        linarith [a3.1, b3.2]
      linarith [show (4 : Rat) * (1 / 2 ^ 110) < 1 / 2 ^ 100 by norm_num]
  obtain ⟨fA, dA, hW1⟩ := avail
  have hWp : 0 < W := lt_of_lt_of_le (by positivity) hW1
  have dA' := abs_le.1 dA
  have hA2 : (availableWidth single style).value ≤ 2 ^ 101 := by linarith [dA'.2, show (2 : Rat) * 2 ^ 100 = 2 ^ 101 by norm_num]
  set A := (availableWidth single style)
  have hAp : 0 < A.value := lt_of_lt_of_le (by positivity) hA
  -- the widths
  set ws := line.map (fun p => segmentWidth single style p.1) with hws
  have hlen : ws.length = line.length := by simp [hws]
  have hT : lineWidth single style line = ws.foldl Single.add .zero := by
    unfold lineWidth
    rw [hws, List.foldl_map]
    rfl
  rw [hT] at hfit
  have hw' : ∀ w ∈ ws, Single.ge w .zero = true := by
    intro w hmem
    obtain ⟨p, hp, rfl⟩ := List.mem_map.1 hmem
    exact hw p hp
  obtain ⟨t1, t2, -, -, -, t3, t4⟩ := Single.foldl_bound fA hA hA2 ws .zero (Single.ge_refl Single.zero_finite.1) hw' hfit
  rw [Single.zero_value, zero_add, hlen] at t4
  set T := ws.foldl Single.add .zero
  have hS0 := (widthsTo_le (fun w h => (t3 w h).2.1) 0)
  set S := (ws.map Single.value).sum
  have t4' := abs_le.1 t4
  have hnr : (line.length : Rat) ≤ 2 ^ 17 := by exact_mod_cast hn2
  have hnr2 : (2 : Rat) ≤ line.length := by exact_mod_cast hn
  have hnA : (line.length : Rat) * A.value / 2 ^ 23 ≤ A.value / 2 ^ 6 := by
    rw [div_le_iff₀ (by positivity)]
    calc (line.length : Rat) * A.value ≤ 2 ^ 17 * A.value := mul_le_mul_of_nonneg_right hnr hAp.le
      _ = A.value / 2 ^ 6 * 2 ^ 23 := by ring
  have hT0 : 0 ≤ T.value := by
    have : ∀ l : List Single, ∀ a : Single, Single.ge a .zero = true → (∀ w ∈ l, Single.ge w .zero = true) → Single.ge (l.foldl Single.add a) .zero = true := by
      intro l
      induction l with
      | nil => intro a h _; exact h
      | cons w l ih =>
        intro a h hl
        exact ih _ (Single.ge_trans (Single.add_ge (.of_nonneg h) (hl w List.mem_cons_self)) h) fun w' h' => hl w' (List.mem_cons_of_mem _ h')
    have := this ws .zero (Single.ge_refl Single.zero_finite.1) hw'
    have := Single.value_le Single.zero_finite.1 t1.1 (Single.ge_iff.1 this).2.2
    rwa [Single.zero_value] at this
  -- the gaps
  obtain ⟨g1, g2, g3, g4⟩ := gap_bound (m := line.length - 1) fA hA hA2 t1 hT0 t2 (by omega) (by omega)
  have hgap : spacing single style line = if Single.gt (Single.sub A T) .zero then Single.div (Single.sub A T) (Single.ofNat (line.length - 1)) else .zero := by
    unfold spacing
    have hl : line.getLast?.all (fun p => !p.2) = true := by
      rcases h : line.getLast? with _ | p
      · rfl
      · simp [hlast p (by rw [h]; rfl)]
    rw [hj, hl, Bool.true_and, Bool.true_and, hT]
    rfl
  rw [← hgap] at g1 g2 g3 g4
  set gap := spacing single style line
  have g4' := abs_le.1 g4
  have hx : (minX single style).Finite ∧ (minX single style).value = m := ⟨x1, x2⟩
  -- the places
  have hK : m + A.value ≤ 9 / 8 * W := by linarith [dA'.2]
  have places := fun i hi => place_bound (start := minX single style) (gap := gap) (ws := ws) (K := m + A.value) hx.1 g1 (by rw [hx.2]; exact hm0) g2
    (fun w h => ⟨(t3 w h).1, (t3 w h).2.1⟩) (fun w h => by linarith [(t3 w h).2.2]) (by linarith)
    (by linarith [show (2 : Rat) * 2 ^ 101 ≤ 2 ^ 110 by norm_num, show (2 : Rat) ^ 101 = 2 * 2 ^ 100 by norm_num]) (by omega)
    (by rw [hx.2, hlen]; linarith [t4'.1, g4'.2]) i hi
  have calls_get := lineCalls_get address style baseline gap (minX single style) ws line 0 (by simp [hws])
  simp only [Nat.zero_add] at calls_get
  have hget : ∀ (i : Nat) (p : Piece Single), line[i]? = some p → i < line.length ∧ ws.getD i .zero = segmentWidth single style p.1 := by
    intro i p hp
    refine ⟨(List.getElem?_eq_some_iff.1 hp).1, ?_⟩
    rw [List.getD_eq_getElem?_getD, hws, List.getElem?_map, hp]
    rfl
  refine ⟨gap, placeOf (minX single style) gap ws, g1, g2, calls_get.1, ?_, hx.2, ?_, ?_⟩
  · intro i p hp
    obtain ⟨h1, h2⟩ := hget i p hp
    refine ⟨calls_get.2 i p hp, (places i (by omega)).1, ?_⟩
    refine (t3 _ ?_).1
    exact List.mem_map.2 ⟨p, List.mem_of_getElem? hp, rfl⟩
  · intro i p hp hi
    obtain ⟨h1, h2⟩ := hget i p hp
    have := (places (i + 1) (by omega)).2.2 i rfl
    rw [h2] at this
    refine le_trans this ?_
    apply div_le_div_of_nonneg_right _ (by positivity)
    linarith
  · intro p hp
    rw [List.getLast?_eq_getElem?] at hp
    obtain ⟨h1, h2⟩ := hget _ p hp
    have hpl := (places (line.length - 1) (by omega)).2.1
    have hall : widthsTo ws (line.length - 1 + 1) = S := by
      unfold widthsTo
      rw [List.take_of_length_le (by omega)]
    rw [widthsTo_succ (by omega), h2] at hall
    rw [hx.2] at hpl
    have hpl' := abs_le.1 hpl
    have hn1 : ((line.length - 1 : Nat) : Rat) = line.length - 1 := by
      rw [Nat.cast_sub (by omega)]; simp
    have hb : ((line.length - 1 : Nat) : Rat) * (8 * (m + A.value) / 2 ^ 24) ≤ (line.length - 1) * (9 * W / 2 ^ 24) := by
      rw [hn1]
      apply mul_le_mul_of_nonneg_left _ (by linarith)
      apply div_le_div_of_nonneg_right _ (by positivity)
      linarith
    have hAW : A.value ≤ 33 / 32 * W := by linarith [dA'.2]
    have hc : (line.length : Rat) * A.value / 2 ^ 23 ≤ line.length * (33 / 32 * W) / 2 ^ 23 := by
      apply div_le_div_of_nonneg_right _ (by positivity)
      exact mul_le_mul_of_nonneg_left hAW (by positivity)
    have hd : (line.length : Rat) * (12 * W / 2 ^ 24) = (line.length - 1) * (9 * W / 2 ^ 24) + line.length * (33 / 32 * W) / 2 ^ 23 +
        (9 + 15 / 16 * line.length) * W / 2 ^ 24 := by ring
    have he : 3 * A.value / 2 ^ 24 + 3 * W / 2 ^ 24 ≤ (9 + 15 / 16 * line.length) * W / 2 ^ 24 := by
      rw [← add_div]
      apply div_le_div_of_nonneg_right _ (by positivity)
      have : 2 * W ≤ line.length * W := mul_le_mul_of_nonneg_right hnr2 hAW0
      linarith
    rw [hd]
    exact abs_le.2 ⟨by linarith [hpl'.1, t4'.1, t4'.2, g4'.1, dA'.1], by linarith [hpl'.2, t4'.1, t4'.2, g4'.2, dA'.2]⟩

theorem add_ge_right {a b : Single} (ha : Single.ge a .zero = true) (hb : Single.ge b .zero = true) : Single.ge (Single.add a b) b = true := by
  have la := Single.Low.of_nonneg ha
  have lb := Single.Low.of_nonneg hb
  rcases la.cases with rfl | fa
  · rw [Single.add_infinity_left lb]
    exact Single.infinity_ge lb.1
  rcases lb.cases with rfl | fb
  · rw [Single.add_infinity_right la]
    exact Single.infinity_ge lb.1
  obtain ⟨z, e⟩ := Single.add_finite fa fb
  have a0 := Single.value_le Single.zero_finite.1 la.1 (Single.ge_iff.1 ha).2.2
  rw [Single.zero_value] at a0
  refine Single.ge_iff.2 ⟨by rw [e]; exact Single.round_ne_nan _ _, lb.1, ?_⟩
  rw [e, Single.key_round, ← Single.nearestKey_value lb.1]
  exact Single.nearestKey_mono (by linarith)

theorem foldl_ge (ws : List Single) : ∀ a : Single, Single.ge a .zero = true → (∀ w ∈ ws, Single.ge w .zero = true) →
    Single.ge (ws.foldl Single.add a) a = true ∧ ∀ w ∈ ws, Single.ge (ws.foldl Single.add a) w = true := by
  induction ws with
  | nil => intro a h _; exact ⟨Single.ge_refl (Single.ge_iff.1 h).1, by simp⟩
  | cons w ws ih =>
    intro a h hw
    have hw0 := hw w List.mem_cons_self
    have h1 := Single.add_ge (.of_nonneg h) hw0
    obtain ⟨i1, i2⟩ := ih (Single.add a w) (Single.ge_trans h1 h) fun x hx => hw x (List.mem_cons_of_mem _ hx)
    refine ⟨Single.ge_trans i1 h1, ?_⟩
    intro x hx
    rcases List.mem_cons.1 hx with rfl | hx
    · exact Single.ge_trans i1 (add_ge_right h hw0)
    · exact i2 x hx

theorem lines_goodLine {style : Style Single} {pending pieces : List (Piece Single)} {lines : List (List (Piece Single))}
    (h : Lines single style pending pieces lines) : ∀ line ∈ lines, ∃ rest, GoodLine single style line rest := by
  induction h with
  | nil => simp
  | cons hg _ ih =>
    intro l hl
    rcases List.mem_cons.1 hl with rfl | hl
    · exact ⟨_, hg⟩
    · exact ih l hl

/-- A line to which the last segment was added only because it fits. -/
theorem goodLine_fits {style : Style Single} {line rest : List (Piece Single)} (h : GoodLine single style line rest)
    (hw : ∀ p ∈ line, Single.ge (segmentWidth single style p.1) .zero = true)
    (hpos : ∃ p ∈ line.dropLast, Single.gt (segmentWidth single style p.1) .zero = true) :
    Single.gt (lineWidth single style line) (availableWidth single style) = false := by
  obtain ⟨p, hp, hgt⟩ := hpos
  have hline := List.dropLast_append_getLast h.nonempty
  have hsub : ∀ q ∈ line.dropLast, q ∈ line := fun q hq => List.mem_of_mem_dropLast hq
  have hfits := h.fits line.dropLast (line.getLast h.nonempty) [] hline.symm
  rw [hline] at hfits
  refine hfits ?_
  have e : lineWidth single style line.dropLast = (line.dropLast.map fun p => segmentWidth single style p.1).foldl Single.add .zero := by
    unfold lineWidth
    rw [List.foldl_map]
    rfl
  rw [e]
  have := (foldl_ge (line.dropLast.map fun p => segmentWidth single style p.1) .zero (Single.ge_refl Single.zero_finite.1) (by
    intro w hmem
    obtain ⟨q, hq, rfl⟩ := List.mem_map.1 hmem
    exact hw q (hsub q hq))).2 _ (List.mem_map.2 ⟨p, hp, rfl⟩)
  have h1 := Single.ge_iff.1 this
  have h2 := Single.gt_iff.1 hgt
  exact Single.gt_iff.2 ⟨h1.1, h2.2.1, lt_of_lt_of_le h2.2.2 h1.2.2⟩

theorem usual_width {Err : Type} {api : FontApi Single Err} {style : Style Single} (hf : UsualFont api) (h : Usual style) {t : List Nat} {s : ShapedSegment Single}
    (hs : IsShaped api t s.glyphs s.advanceWidth) : Single.ge (segmentWidth single style s) .zero = true := by
  unfold segmentWidth
  rw [single_pxPerEm]
  exact Single.mul_nonneg' (shaped_width hf hs).2 h.finite h.fontSize_pos

/-- **C121**: with single precision numbers, for any text, breaks, font, usual style and page, the document that comes of a layout has pages
with lines of segments, which are the parts of the text in order, and every line of two segments or more, and at most 2¹⁷, that does
not end at a required break starts at the left margin and ends at the right one with equal gaps, but for some roundings. The text is
justified, and in each such line some segment before the last has some width. -/
theorem C121_text {Err : Type} {api : FontApi Single Err} {style : Style Single} (F : Floats Single) (address : Nat) (font : FontView Err)
    (hf : UsualFont api) (h : Usual style) (hp : UsualPage style) (hj : style.justify = true) (text : List Nat)
    (breaks : List (Nat × Bool)) (hb : IsBreaks text breaks) (d : Doc Single) (hd : layout single F address font api style text breaks = .ok d) :
    ∃ parts, Cuts text 0 breaks parts ∧ ∃ (pages : List (List (List (Piece Single)))) (calls : List (List (List (PageOp Single)))),
      List.Forall₂ (fun part piece => IsShaped api part.1 piece.1.glyphs piece.1.advanceWidth ∧ piece.2 = part.2) parts pages.flatten.flatten ∧
      d = runDoc F (fun _ => font) (calls.map fun page => ⟨width single style, height single style, page.flatten⟩) ∧
      List.Forall₂ (List.Forall₂ fun line lineCalls =>
        2 ≤ line.length → line.length ≤ 2 ^ 17 → (∀ p ∈ line.getLast?, p.2 = false) →
        (∃ p ∈ line.dropLast, Single.gt (segmentWidth single style p.1) .zero = true) →
        ∃ baseline, JustifiedLine address style baseline line lineCalls) pages calls := by
  obtain ⟨parts, h1, h2, h3⟩ := C114_layout single F address font api style text breaks (by decide +kernel) hb
  refine ⟨parts, h1, ?_⟩
  by_cases hok : (∀ p ∈ parts, ∀ ch ∈ p.1, Shapable api ch) ∧ font.Ok
  · obtain ⟨pages, pieces, g1, g2, g3, g4⟩ := h2 hok
    rw [hd] at g4
    cases g4
    have hpieces := lines_flatten single g2
    rw [List.append_nil] at hpieces
    refine ⟨pages, pages.map fun page => page.mapIdx fun j line => lineCalls single address style
      (single.add (top single style j) (baselineY single style)) (spacing single style line) (minX single style) line, ?_, ?_, ?_⟩
    · rw [← hpieces]; exact g1
    · rw [List.map_map]; rfl
    · refine List.forall₂_map_right_iff.2 (List.forall₂_same.2 fun page hpage => ?_)
      refine List.forall₂_iff_get.2 ⟨by simp, ?_⟩
      intro j hj1 hj2
      simp only [List.get_eq_getElem, List.getElem_mapIdx]
      intro hn hn2 hlast hpos
      have hmem : page[j] ∈ pages.flatten := List.mem_flatten.2 ⟨page, hpage, List.getElem_mem hj1⟩
      obtain ⟨rest, hgood⟩ := lines_goodLine g2 _ hmem
      have hw : ∀ p ∈ page[j], Single.ge (segmentWidth single style p.1) .zero = true := by
        intro p hpm
        obtain ⟨part, _, hpart, _⟩ := forall2_right g1 p (by rw [hpieces]; exact List.mem_flatten.2 ⟨_, hmem, hpm⟩)
        exact usual_width hf h hpart
      exact ⟨_, C121_line address style _ _ hj hp hlast hn hn2 hw (goodLine_fits hgood hw hpos)⟩
  · obtain ⟨e, he⟩ := h3 hok
    rw [hd] at he
    cases he

/-- The hypotheses of `C121_text` are met by the text of `C116_example`: its first line has two segments and does not end at a required break.
The second one, at the place with these bits, ends at the right margin. -/
theorem C121_example : UsualFont singleApi ∧ Usual singleStyle ∧ UsualPage singleStyle ∧ singleStyle.justify = true ∧ IsBreaks plainText plainBreaks ∧
    (ofBits 1111236673).value + (Single.mul (Single.add (Single.add (Single.add .zero (.round (1 / 10))) (.round (1 / 10))) (.round (1 / 10))) (.round 70)).value =
      (width single singleStyle).value - (margin single singleStyle).value := by
  refine ⟨C116_example.1, C116_example.2.1, ?_, rfl, C116_example.2.2.1, by decide +kernel⟩
  exact ⟨⟨by decide +kernel, by decide +kernel, by decide +kernel⟩, by decide +kernel, ⟨by decide +kernel, by decide +kernel, by decide +kernel⟩,
    by decide +kernel, by decide +kernel, by decide +kernel⟩

/-- A page 28 mm wide. -/
def widerStyle : Style Single := { singleStyle with pageWidth := .round 28 }

/-- Four segments. -/
def fourPieces : List (Piece Single) :=
  [(⟨[1], .round (3 / 10)⟩, false), (⟨[2], .round (2 / 10)⟩, false), (⟨[3], .round (1 / 10)⟩, false), (⟨[4], .round (1 / 10)⟩, false)]

/-- In general the roundings of `C121_line` do occur: the last of these four segments ends right of the margin, by less than 48 parts in 2²⁴. -/
theorem C121_example_rounded : UsualPage widerStyle ∧ (∀ p ∈ fourPieces, Single.ge (segmentWidth single widerStyle p.1) .zero = true) ∧
    Single.gt (lineWidth single widerStyle fourPieces) (availableWidth single widerStyle) = false ∧
    (match lineCalls single 0 widerStyle .zero (spacing single widerStyle fourPieces) (minX single widerStyle) fourPieces with
      | [_, _, _, .text _ _ _ x _] =>
        let ends := x.value + (segmentWidth single widerStyle ⟨[4], .round (1 / 10)⟩).value
        let right := (width single widerStyle).value - (margin single widerStyle).value
        decide (right < ends ∧ ends - right ≤ 4 * (12 * (width single widerStyle).value / 2 ^ 24))
      | _ => false) = true := by
  refine ⟨⟨⟨by decide +kernel, by decide +kernel, by decide +kernel⟩, by decide +kernel, ⟨by decide +kernel, by decide +kernel, by decide +kernel⟩,
    by decide +kernel, by decide +kernel, by decide +kernel⟩, by decide +kernel, by decide +kernel, by decide +kernel⟩

end Verif.Text.Machine
