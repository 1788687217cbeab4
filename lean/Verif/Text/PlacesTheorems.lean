/- **C122**: with single precision numbers, the lines of a plain text are at equal distances, but for some roundings. -/
import Verif.Text.PlacesSpec
import Verif.Text.JustifyTheorems
namespace Verif.Text.Machine
open Verif.Pdf Verif.Float

section
variable {style : Style Single}

theorem lineHeight_bound (h : UsualHeight style) : (lineHeight single style).Finite ∧
    |(lineHeight single style).value - style.lineHeight.value * style.fontSize.value| ≤ emsOf style * style.fontSize.value / 2 ^ 24 ∧
    0 ≤ (lineHeight single style).value ∧ Single.ge (lineHeight single style) .zero = true := by
  have e : lineHeight single style = Single.mul style.lineHeight style.fontSize := by
    unfold lineHeight
    rw [single_pxPerEm, show single.mul single.one style.lineHeight = style.lineHeight from Single.one_mul' _]
    rfl
  have hS : (0 : Rat) < style.fontSize.value := lt_of_lt_of_le (by positivity) h.size_ge
  have hL := h.line_nonneg
  have ha := h.ascender_nonneg
  have hQ : (1 : Rat) ≤ emsOf style := by unfold emsOf; linarith
  have hLS : 0 ≤ style.lineHeight.value * style.fontSize.value := mul_nonneg hL hS.le
  obtain ⟨m1, m2⟩ := Single.mul_bound (B := emsOf style * style.fontSize.value) h.line_finite h.size_finite (by
    rw [abs_of_nonneg hLS]
    apply mul_le_mul_of_nonneg_right _ hS.le
    unfold emsOf; linarith) (by
    have : style.fontSize.value ≤ emsOf style * style.fontSize.value := by nlinarith
    exact le_trans (le_trans (by norm_num) h.size_ge) this) (le_trans h.ems_size_le (by norm_num))
  have hge : Single.ge (Single.mul style.lineHeight style.fontSize) .zero = true := by
    obtain ⟨z, er⟩ := (Single.C116_operations h.line_finite h.size_finite).2.2.1
    refine Single.ge_iff.2 ⟨m1.1, Single.zero_finite.1, ?_⟩
    rw [er, Single.key_round, ← Single.nearestKey_value Single.zero_finite.1, Single.zero_value]
    exact Single.nearestKey_mono hLS
  rw [e]
  refine ⟨m1, m2, ?_, hge⟩
  have := Single.value_le Single.zero_finite.1 m1.1 (Single.ge_iff.1 hge).2.2
  rwa [Single.zero_value] at this

theorem two_value : (Single.round 2).Finite ∧ (Single.round 2).value = 2 :=
  ⟨⟨by decide +kernel, by decide +kernel, by decide +kernel⟩, by decide +kernel⟩

theorem one_value' : Single.one.Finite ∧ Single.one.value = 1 :=
  ⟨⟨by decide +kernel, by decide +kernel, by decide +kernel⟩, by decide +kernel⟩

theorem baselineY_bound (h : UsualHeight style) : (baselineY single style).Finite ∧
    |(baselineY single style).value - ((style.lineHeight.value - 1) / 2 + style.ascender.value) * style.fontSize.value| ≤
      6 * (emsOf style * style.fontSize.value) / 2 ^ 24 := by
  have e : baselineY single style = Single.mul (Single.add (Single.div (Single.sub style.lineHeight .one) (.round 2)) style.ascender) style.fontSize := by
    unfold baselineY
    rw [single_pxPerEm, show single.mul single.one style.lineHeight = style.lineHeight from Single.one_mul' _]
    rfl
  rw [e]
  have hS : (0 : Rat) < style.fontSize.value := lt_of_lt_of_le (by positivity) h.size_ge
  have hL := h.line_nonneg
  have ha := h.ascender_nonneg
  have hQe : emsOf style = style.lineHeight.value + 1 + style.ascender.value := rfl
  have hQ2 := h.ems_le
  have hQS := h.ems_size_le
  set Q := emsOf style
  set L := style.lineHeight.value
  set α := style.ascender.value
  set S := style.fontSize.value
  have hQ : (1 : Rat) ≤ Q := by linarith
  have hn : (1 : Rat) / 2 ^ 126 ≤ Q := le_trans (by norm_num) hQ
  have hQ3 : 2 * Q ≤ 2 ^ 127 := by linarith [show (2 : Rat) * 2 ^ 100 ≤ 2 ^ 127 by norm_num]
  obtain ⟨a1, a2⟩ := Single.sub_bound (B := Q) h.line_finite one_value'.1 (by
    rw [one_value'.2]
    exact abs_le.2 ⟨by linarith, by linarith⟩) hn (by linarith)
  rw [one_value'.2] at a2
  change |_ - (L - 1)| ≤ Q / 2 ^ 24 at a2
  have a3 := abs_le.1 a2
  obtain ⟨b1, b2⟩ := Single.div_bound (B := Q) a1 two_value.1 (by rw [two_value.2]; norm_num) (by
    rw [two_value.2]
    exact abs_le.2 ⟨by linarith [a3.1], by linarith [a3.2]⟩) hn (by linarith)
  rw [two_value.2] at b2
  have b3 := abs_le.1 b2
  obtain ⟨c1, c2⟩ := Single.add_bound (B := 2 * Q) b1 h.ascender_finite (by
    change |_ + α| ≤ 2 * Q
    exact abs_le.2 ⟨by linarith [a3.1, b3.1], by linarith [a3.2, b3.2]⟩) (by linarith) hQ3
  change |_ - (_ + α)| ≤ 2 * Q / 2 ^ 24 at c2
  have c3 := abs_le.1 c2
  set a := (Single.add (Single.div (Single.sub style.lineHeight .one) (.round 2)) style.ascender).value
  have d : |a - ((L - 1) / 2 + α)| ≤ 4 * Q / 2 ^ 24 := abs_le.2 ⟨by linarith [a3.1, b3.1, c3.1], by linarith [a3.2, b3.2, c3.2]⟩
  have d3 := abs_le.1 d
  have haQ : |a| ≤ 2 * Q := abs_le.2 ⟨by linarith [d3.1], by linarith [d3.2]⟩
  obtain ⟨m1, m2⟩ := Single.mul_bound (B := 2 * (Q * S)) c1 h.size_finite (by
    change |a * S| ≤ 2 * (Q * S)
    rw [abs_mul, abs_of_pos hS, ← mul_assoc]
    exact mul_le_mul_of_nonneg_right haQ hS.le) (by
    have : S ≤ Q * S := by nlinarith
    have := h.size_ge
    linarith [show (1 : Rat) / 2 ^ 126 ≤ 1 / 2 ^ 100 by norm_num]) (by linarith [show (2 : Rat) * 2 ^ 100 ≤ 2 ^ 127 by norm_num])
  refine ⟨m1, ?_⟩
  change |_ - a * S| ≤ 2 * (Q * S) / 2 ^ 24 at m2
  have m3 := abs_le.1 m2
  have k : |a * S - ((L - 1) / 2 + α) * S| ≤ 4 * (Q * S) / 2 ^ 24 := by
    rw [← sub_mul, abs_mul, abs_of_pos hS]
    calc _ ≤ 4 * Q / 2 ^ 24 * S := mul_le_mul_of_nonneg_right d hS.le
      _ = 4 * (Q * S) / 2 ^ 24 := by ring
  have k3 := abs_le.1 k
  exact abs_le.2 ⟨by linarith [m3.1, k3.1], by linarith [m3.2, k3.2]⟩

theorem maxY_bound (h : UsualHeight style) : (maxY single style).Finite ∧ (maxY single style).value ≤ 17 / 16 * (height single style).value := by
  obtain ⟨x1, x2⟩ := Single.zero_add' h.margin_finite
  have h1 := h.height_ge
  have h2 := h.height_le
  have hm0 := h.margin_nonneg
  have hm := h.margin_le
  set H := (height single style).value
  set m := (margin single style).value
  have hH : 0 < H := lt_of_lt_of_le (by positivity) h1
  have hn : (1 : Rat) / 2 ^ 126 ≤ H := le_trans (by norm_num) h1
  have hH2 : 2 * H ≤ 2 ^ 127 := by linarith [show (2 : Rat) * 2 ^ 100 ≤ 2 ^ 127 by norm_num]
  obtain ⟨a1, a2⟩ := Single.add_bound (B := H) h.margin_finite h.margin_finite (by
    change |m + m| ≤ H
    rw [abs_of_nonneg (by linarith)]; linarith) hn (by linarith)
  change |_ - (m + m)| ≤ _ at a2
  have a3 := abs_le.1 a2
  obtain ⟨b1, b2⟩ := Single.sub_bound (B := 2 * H) h.height_finite a1 (by
    change |H - _| ≤ _
    exact abs_le.2 ⟨by linarith [a3.2], by linarith [a3.1]⟩) (by linarith) hH2
  change |_ - (H - _)| ≤ _ at b2
  have b3 := abs_le.1 b2
  obtain ⟨c1, c2⟩ := Single.add_bound (B := 2 * H) x1 b1 (by
    rw [x2]
    exact abs_le.2 ⟨by linarith [a3.2, b3.1], by linarith [a3.1, b3.2]⟩) (by linarith) hH2
  rw [x2] at c2
  have c3 := abs_le.1 c2
  refine ⟨c1, ?_⟩
  change (Single.add (Single.add .zero (margin single style)) (Single.sub (height single style) (Single.add (margin single style) (margin single style)))).value ≤ _
  linarith [a3.1, b3.2, c3.2]

/-- The top of a line of a page that is not below the margin. -/
theorem top_place (h : UsualHeight style) (j : Nat) (htops : ∀ i, 0 < i → i ≤ j → Single.gt (top single style i) (maxY single style) = false) :
    (top single style j).Finite ∧ 0 ≤ (top single style j).value ∧ (top single style j).value ≤ 17 / 16 * (height single style).value ∧
    Single.ge (top single style j) .zero = true ∧
    |(top single style j).value - ((margin single style).value + j * (lineHeight single style).value)| ≤ j * (3 * (height single style).value / 2 ^ 24) := by
  obtain ⟨l1, -, l3, l4⟩ := lineHeight_bound h
  obtain ⟨y1, y2⟩ := maxY_bound h
  have hH : 0 < (height single style).value := lt_of_lt_of_le (by positivity) h.height_ge
  induction j with
  | zero =>
    obtain ⟨x1, x2⟩ := Single.zero_add' h.margin_finite
    have hm0 := h.margin_nonneg
    have hm := h.margin_le
    have e : top single style 0 = Single.add .zero (margin single style) := rfl
    rw [e, x2]
    refine ⟨x1, hm0, by linarith, ?_, by simp⟩
    refine Single.ge_iff.2 ⟨x1.1, Single.zero_finite.1, ?_⟩
    rw [← Single.nearestKey_value x1.1, ← Single.nearestKey_value Single.zero_finite.1, x2, Single.zero_value]
    exact Single.nearestKey_mono hm0
  | succ j ih =>
    obtain ⟨i1, i2, i3, i4, i5⟩ := ih fun i hi hij => htops i hi (by omega)
    have e : top single style (j + 1) = Single.add (top single style j) (lineHeight single style) := rfl
    have ht := htops (j + 1) (by omega) (le_refl _)
    have hge : Single.ge (top single style (j + 1)) .zero = true := by
      rw [e]
      exact Single.ge_trans (Single.add_ge (.of_nonneg i4) l4) i4
    have hle : (top single style (j + 1)).key ≤ (maxY single style).key := by
      by_contra hc
      rw [Single.gt_iff.2 ⟨(Single.ge_iff.1 hge).1, y1.1, not_le.1 hc⟩] at ht
      cases ht
    have hf : (top single style (j + 1)).Finite := by
      have low := Single.Low.of_nonneg hge
      exact ⟨low.1, low.2, lt_of_le_of_lt hle y1.2.2⟩
    have hv := Single.value_le hf.1 y1.1 hle
    have h0 := Single.value_le Single.zero_finite.1 hf.1 (Single.ge_iff.1 hge).2.2
    rw [Single.zero_value] at h0
    obtain ⟨-, -, v3, v4, -, -⟩ := Single.value_le_add i4 l4 (by rw [← e]; exact hf)
    rw [← e] at v3 v4
    obtain ⟨-, b2⟩ := Single.add_bound (B := 3 * (height single style).value) i1 l1 (by rw [abs_of_nonneg (by linarith)]; linarith)
      (by linarith [h.height_ge, show (1 : Rat) / 2 ^ 126 ≤ 1 / 2 ^ 100 by norm_num]) (by linarith [h.height_le, show (3 : Rat) * 2 ^ 100 ≤ 2 ^ 127 by norm_num])
    rw [← e] at b2
    have b3 := abs_le.1 b2
    have i6 := abs_le.1 i5
    refine ⟨hf, h0, by linarith, hge, ?_⟩
    push_cast
    exact abs_le.2 ⟨by linarith [b3.1, i6.1], by linarith [b3.2, i6.2]⟩

theorem baseline_place (h : UsualHeight style) (j : Nat) (htops : ∀ i, 0 < i → i ≤ j → Single.gt (top single style i) (maxY single style) = false) :
    (Single.add (top single style j) (baselineY single style)).Finite ∧
    |(Single.add (top single style j) (baselineY single style)).value - exactBaseline style j| ≤
      (3 * j + 9) * ((height single style).value + emsOf style * style.fontSize.value) / 2 ^ 24 := by
  obtain ⟨t1, t2, t3, -, t5⟩ := top_place h j htops
  obtain ⟨l1, l2, l3, -⟩ := lineHeight_bound h
  obtain ⟨b1, b2⟩ := baselineY_bound h
  have hH : 0 < (height single style).value := lt_of_lt_of_le (by positivity) h.height_ge
  have hS : (0 : Rat) < style.fontSize.value := lt_of_lt_of_le (by positivity) h.size_ge
  have hL := h.line_nonneg
  have ha := h.ascender_nonneg
  have hQ : (1 : Rat) ≤ emsOf style := by unfold emsOf; linarith
  have hq : |((style.lineHeight.value - 1) / 2 + style.ascender.value) * style.fontSize.value| ≤ emsOf style * style.fontSize.value := by
    rw [abs_mul, abs_of_pos hS]
    apply mul_le_mul_of_nonneg_right _ hS.le
    unfold emsOf
    exact abs_le.2 ⟨by linarith, by linarith⟩
  have hQS := h.ems_size_le
  have hQS0 : 0 < emsOf style * style.fontSize.value := by positivity
  have h2 := h.height_le
  have h1 := h.height_ge
  unfold exactBaseline
  set bl := ((style.lineHeight.value - 1) / 2 + style.ascender.value) * style.fontSize.value
  set H := (height single style).value
  set P := emsOf style * style.fontSize.value
  set LS := style.lineHeight.value * style.fontSize.value
  have b3 := abs_le.1 b2
  have q3 := abs_le.1 hq
  obtain ⟨c1, c2⟩ := Single.add_bound (B := 3 * (H + P)) t1 b1 (abs_le.2 ⟨by linarith [b3.1, q3.1], by linarith [b3.2, q3.2]⟩)
    (by linarith [show (1 : Rat) / 2 ^ 126 ≤ 1 / 2 ^ 100 by norm_num]) (by linarith [show (6 : Rat) * 2 ^ 100 ≤ 2 ^ 127 by norm_num])
  refine ⟨c1, ?_⟩
  have c3 := abs_le.1 c2
  have t6 := abs_le.1 t5
  have hj : (0 : Rat) ≤ j := by positivity
  have l4 : |(j : Rat) * (lineHeight single style).value - j * LS| ≤ j * (P / 2 ^ 24) := by
    rw [← mul_sub, abs_mul, abs_of_nonneg hj]
    exact mul_le_mul_of_nonneg_left l2 hj
  have l5 := abs_le.1 l4
  have hsum : (j : Rat) * (3 * H / 2 ^ 24) + j * (P / 2 ^ 24) + 6 * P / 2 ^ 24 + 3 * (H + P) / 2 ^ 24 ≤ (3 * j + 9) * (H + P) / 2 ^ 24 := by
    have e : (3 * (j : Rat) + 9) * (H + P) / 2 ^ 24 = j * (3 * H / 2 ^ 24) + j * (P / 2 ^ 24) + 6 * P / 2 ^ 24 + 3 * (H + P) / 2 ^ 24 +
        (2 * (j * P) + 6 * H) / 2 ^ 24 := by ring
    rw [e]
    have : 0 ≤ (2 * (j * P) + 6 * H) / 2 ^ 24 := by positivity
    linarith
  exact abs_le.2 ⟨by linarith [c3.1, t6.1, l5.1, b3.1], by linarith [c3.2, t6.2, l5.2, b3.2]⟩

theorem lineCalls_baseline (address : Nat) (baseline gap : Single) (line : List (Piece Single)) :
    ∀ x, ∀ call ∈ lineCalls single address style baseline gap x line, ∃ glyphs x', call = .text address glyphs style.fontSize x' baseline := by
  induction line with
  | nil => intro x call hc; simp [lineCalls] at hc
  | cons p line ih =>
    intro x call hc
    simp only [lineCalls, List.mem_cons] at hc
    rcases hc with rfl | hc
    · exact ⟨_, _, rfl⟩
    · exact ih _ call hc

end

/-- **C122**: with single precision numbers, for any text, breaks, font and usual height, the document that comes of a layout has pages with
lines of segments, which are the parts of the text in order, and the baseline of the `j`th line of a page is where it should be: `j` line
heights below the first one, which is at the top margin. The error is at most `3 j + 9` parts in 2²⁴ of the height of the page and a line. -/
theorem C122_baselines {Err : Type} {api : FontApi Single Err} {style : Style Single} (F : Floats Single) (address : Nat) (font : FontView Err)
    (h : UsualHeight style) (text : List Nat) (breaks : List (Nat × Bool)) (hb : IsBreaks text breaks) (d : Doc Single)
    (hd : layout single F address font api style text breaks = .ok d) :
    ∃ parts, Cuts text 0 breaks parts ∧ ∃ (pages : List (List (List (Piece Single)))) (calls : List (List (List (PageOp Single)))),
      List.Forall₂ (fun part piece => IsShaped api part.1 piece.1.glyphs piece.1.advanceWidth ∧ piece.2 = part.2) parts pages.flatten.flatten ∧
      d = runDoc F (fun _ => font) (calls.map fun page => ⟨width single style, height single style, page.flatten⟩) ∧
      List.Forall₂ (List.Forall₂ fun line lineCalls => lineCalls.length = line.length) pages calls ∧
      ∀ page ∈ calls, ∀ (j : Nat) lineCalls, page[j]? = some lineCalls → ∀ call ∈ lineCalls, AtBaseline style j call := by
  obtain ⟨parts, h1, h2, h3⟩ := C114_layout single F address font api style text breaks (by decide +kernel) hb
  refine ⟨parts, h1, ?_⟩
  by_cases hok : (∀ p ∈ parts, ∀ ch ∈ p.1, Shapable api ch) ∧ font.Ok
  · obtain ⟨pages, pieces, g1, g2, g3, g4⟩ := h2 hok
    rw [hd] at g4
    cases g4
    have hpieces := lines_flatten single g2
    rw [List.append_nil] at hpieces
    refine ⟨pages, pages.map fun page => page.mapIdx fun j line => lineCalls single address style
      (single.add (top single style j) (baselineY single style)) (spacing single style line) (minX single style) line, ?_, ?_, ?_, ?_⟩
    · rw [← hpieces]; exact g1
    · rw [List.map_map]; rfl
    · refine List.forall₂_map_right_iff.2 (List.forall₂_same.2 fun page hpage => ?_)
      refine List.forall₂_iff_get.2 ⟨by simp, ?_⟩
      intro j hj1 hj2
      simp only [List.get_eq_getElem, List.getElem_mapIdx]
      exact (lineCalls_get address style _ _ (minX single style) (page[j].map fun p => segmentWidth single style p.1) page[j] 0 (by simp)).1
    · intro pc hpc j lc hlc call hcall
      obtain ⟨page, hpage, rfl⟩ := List.mem_map.1 hpc
      rw [List.getElem?_mapIdx] at hlc
      rcases hl : page[j]? with _ | line
      · rw [hl] at hlc; cases hlc
      rw [hl] at hlc
      simp only [Option.map_some, Option.some.injEq] at hlc
      subst hlc
      obtain ⟨glyphs, x, rfl⟩ := lineCalls_baseline address _ _ line _ call hcall
      have hjl := (List.getElem?_eq_some_iff.1 hl).1
      obtain ⟨b1, b2⟩ := baseline_place h j fun i hi hij => g3.tops page hpage i hi (by omega)
      exact ⟨address, glyphs, x, _, rfl, b1, b2⟩
  · obtain ⟨e, he⟩ := h3 hok
    rw [hd] at he
    cases he

/-- The style of `C116_example` with a font a tenth as large. -/
def smallStyle : Style Single := { singleStyle with fontSize := .round 7 }

/-- The hypotheses of `C122_baselines` are met, and the roundings do occur: the third line of a text with three required breaks is not exactly where
it would be with exact numbers, but for less than 15 parts in 2²⁴ of the height of the page. -/
theorem C122_example : UsualHeight smallStyle ∧ IsBreaks [97, 10, 98, 10, 99, 10] [(2, true), (4, true), (6, true)] ∧
    (layout single bitsFloats 0 (Verif.Pdf.sampleFont 0) singleApi smallStyle [97, 10, 98, 10, 99, 10] [(2, true), (4, true), (6, true)]).isOk = true ∧
    (let y := Single.add (top single smallStyle 2) (baselineY single smallStyle)
     y.value ≠ exactBaseline smallStyle 2 ∧ y.value - exactBaseline smallStyle 2 ≤ 15 * (height single smallStyle).value / 2 ^ 24 ∧
      exactBaseline smallStyle 2 - y.value ≤ 15 * (height single smallStyle).value / 2 ^ 24) := by
  refine ⟨⟨⟨by decide +kernel, by decide +kernel, by decide +kernel⟩, by decide +kernel, by decide +kernel,
    ⟨by decide +kernel, by decide +kernel, by decide +kernel⟩, by decide +kernel, by decide +kernel,
    ⟨by decide +kernel, by decide +kernel, by decide +kernel⟩, by decide +kernel,
    ⟨by decide +kernel, by decide +kernel, by decide +kernel⟩, by decide +kernel,
    ⟨by decide +kernel, by decide +kernel, by decide +kernel⟩, by decide +kernel, by decide +kernel, by decide +kernel⟩,
    ⟨by decide, by decide⟩, by decide +kernel, by decide +kernel⟩

end Verif.Text.Machine
