/- C116: with single precision numbers, plain text is shown in reading order. -/
import Verif.Text.SingleSpec
import Verif.Text.MachineTheorems
import Verif.Pdf.SingleFloats
namespace Verif.Text.Machine
open Verif.Pdf Verif.Float

section
variable {Err : Type} {api : FontApi Single Err} {style : Style Single}

theorem Usual.finite (h : Usual style) : Single.Finite style.fontSize := by
  have h1 := Single.gt_iff.1 h.fontSize_pos
  have h2 := Single.gt_iff.1 h.fontSize_finite
  refine ⟨h1.1, ?_, by simpa [Single.infinity, Single.key] using h2.2.2⟩
  have := h1.2.2
  rw [Single.key_zero] at this
  simp only [infinityBits]
  omega

theorem single_pxPerEm : pxPerEm single style = style.fontSize := Single.div_one'

theorem shaped_width (hf : UsualFont api) {t g : List Nat} {w : Single} (h : IsShaped api t g w) :
    GlyphsWidth api g w ∧ Single.ge w .zero = true := by
  induction h with
  | nil => exact ⟨⟨[], .nil, hf.zero⟩, by rw [hf.zero]; exact Single.ge_refl Single.zero_finite.1⟩
  | @snoc text glyphs width ch id w h1 h2 h3 ih =>
    obtain ⟨⟨ws, g1, g2⟩, g3⟩ := ih
    refine ⟨⟨ws ++ [w], List.rel_append g1 (.cons h3 .nil), ?_⟩, ?_⟩
    · rw [hf.add, List.foldl_append, ← g2]
      rfl
    · rw [hf.add]
      exact Single.ge_trans (Single.add_ge (.of_nonneg g3) (hf.width _ _ h3)) g3

theorem single_margin (h : Usual style) : Single.ge (margin single style) .zero = true := by
  refine Single.mul_nonneg' h.margin ?_ ?_
  · exact ⟨by decide +kernel, by decide +kernel, by decide +kernel⟩
  · decide +kernel

theorem single_min (h : Usual style) : Single.ge (minX single style) .zero = true :=
  Single.ge_trans (Single.add_ge (.of_nonneg (Single.ge_refl Single.zero_finite.1)) (single_margin h)) (Single.ge_refl Single.zero_finite.1)

theorem single_lineHeight (h : Usual style) : Single.ge (lineHeight single style) .zero = true := by
  unfold lineHeight
  rw [single_pxPerEm]
  have e : single.mul single.one style.lineHeight = style.lineHeight := Single.one_mul' _
  rw [e]
  exact Single.mul_nonneg' h.lineHeight h.finite h.fontSize_pos

theorem single_baseline (h : Usual style) : Single.Low (baselineY single style) := by
  unfold baselineY
  rw [single_pxPerEm]
  have low1 : Single.Low (Single.neg .one) := ⟨by decide +kernel, by decide +kernel⟩
  have h1 : Single.ge (Single.sub (.mul .one style.lineHeight) .one) (.neg .one) = true := by
    rw [Single.one_mul']
    have := Single.add_mono (.of_nonneg (Single.ge_refl Single.zero_finite.1)) low1 h.lineHeight (Single.ge_refl low1.1)
    exact Single.ge_trans this (by decide +kernel)
  have two : Single.Finite (Single.round 2) := ⟨by decide +kernel, by decide +kernel, by decide +kernel⟩
  have h2 := Single.ge_trans (Single.div_mono low1 h1 two (by decide +kernel)) (c := .neg .one) (by decide +kernel)
  have h3 := Single.ge_trans (Single.add_ge (.of_ge h2 low1) h.ascender) h2
  have h4 := Single.mul_mono low1 h3 h.finite h.fontSize_pos
  refine .of_ge h4 ?_
  have hs := h.finite
  rcases e : style.fontSize with _ | ⟨n, b, hb⟩
  · exact absurd e hs.1
  · rw [e] at hs
    have e1 : Single.mul (.neg .one) (.num n b hb) = .num (!n) b hb := by
      have := Single.one_mul' (.num n b hb)
      have hb' : b ≠ infinityBits := by
        rintro rfl
        have := hs.2
        cases n <;> simp [Single.key] at this
      have h1 : (0x3f800000 : Nat) ≠ infinityBits := by decide
      simp only [Single.neg, Single.mul, Single.one, h1, hb', or_self, if_false, Single.signed, Single.num.injEq] at this ⊢
      exact ⟨by cases n <;> rfl, this.2⟩
    rw [e1]
    refine ⟨by simp, ?_⟩
    have := hs.2
    cases n <;> simp only [Single.key, Bool.not_true, Bool.not_false, Bool.false_eq_true, if_true, if_false] at this ⊢ <;> omega

/-- The places of a line. -/
theorem line_follows (hf : UsualFont api) (h : Usual style) (address : Nat) (baseline gap : Single) : ∀ (line : List (Piece Single)) (x : Single),
    (∀ p ∈ line, ∃ t, IsShaped api t p.1.glyphs p.1.advanceWidth) → (2 ≤ line.length → Single.ge gap .zero = true) →
    Single.ge x (minX single style) = true →
    (lineCalls single address style baseline gap x line).IsChain (Follows api style) ∧
    ∀ op ∈ lineCalls single address style baseline gap x line, ∃ g x', op = .text address g style.fontSize x' baseline ∧
      Single.ge x' (minX single style) = true
  | [], x, _, _, _ => by simp [lineCalls]
  | [p], x, _, _, hx => by
    simp only [lineCalls, List.isChain_singleton, List.mem_singleton, forall_eq, true_and]
    exact ⟨_, _, rfl, hx⟩
  | p :: q :: line, x, hs, hg, hx => by
    obtain ⟨t, ht⟩ := hs p (by simp)
    obtain ⟨w1, w2⟩ := shaped_width hf ht
    have hgap := hg (by simp)
    have hseg : Single.ge (segmentWidth single style p.1) .zero = true := by
      unfold segmentWidth
      rw [single_pxPerEm]
      exact Single.mul_nonneg' w2 h.finite h.fontSize_pos
    have hxl : Single.Low x := .of_nonneg (Single.ge_trans hx (single_min h))
    have hsum := Single.add_ge (.of_nonneg hseg) hgap
    have hnext := Single.add_ge hxl (Single.ge_trans hsum hseg)
    obtain ⟨i1, i2⟩ := line_follows hf h address baseline gap (q :: line)
      (single.add x (single.add (segmentWidth single style p.1) gap)) (fun p' hp' => hs p' (List.mem_cons_of_mem _ hp')) (fun _ => hgap)
      (Single.ge_trans hnext hx)
    constructor
    · rw [lineCalls]
      rw [lineCalls] at i1 ⊢
      refine List.isChain_cons_cons.2 ⟨.inl ⟨rfl, p.1.advanceWidth, w1, ?_⟩, i1⟩
      have := Single.add_mono hxl (.of_nonneg hseg) (Single.ge_refl hxl.1) hsum
      unfold segmentWidth at this
      rw [single_pxPerEm] at this
      unfold segmentWidth
      rw [single_pxPerEm]
      exact this
    · intro op hop
      rw [lineCalls] at hop
      rcases List.mem_cons.1 hop with rfl | hop
      · exact ⟨_, _, rfl, hx⟩
      · exact i2 op hop

theorem single_spacing (line : List (Piece Single)) (h2 : 2 ≤ line.length) (hl : line.length ≤ 2 ^ 64) :
    Single.ge (spacing single style line) .zero = true := by
  unfold spacing
  split
  · rename_i h
    simp only [Bool.and_eq_true] at h
    obtain ⟨p, f⟩ := Single.ofNat_pos (n := line.length - 1) (by omega) (by omega)
    exact Single.div_nonneg' (Single.ge_of_gt h.2) f p
  · exact Single.ge_refl Single.zero_finite.1

theorem single_top (h : Usual style) : ∀ j, Single.Low (top single style j) ∧ Single.ge (top single style (j + 1)) (top single style j) = true
  | 0 => by
    have l : Single.Low (top single style 0) := .of_nonneg (single_min h)
    exact ⟨l, Single.add_ge l (single_lineHeight h)⟩
  | j + 1 => by
    have l := Single.Low.of_ge (single_top h j).2 (single_top h j).1
    exact ⟨l, Single.add_ge l (single_lineHeight h)⟩

theorem page_follows (hf : UsualFont api) (h : Usual style) (address : Nat) : ∀ (lines : List (List (Piece Single))) (k : Nat),
    (∀ line ∈ lines, line ≠ [] ∧ line.length ≤ 2 ^ 64 ∧ ∀ p ∈ line, ∃ t, IsShaped api t p.1.glyphs p.1.advanceWidth) →
    (callsFrom single address style k lines).IsChain (Follows api style) ∧
    (∀ op ∈ callsFrom single address style k lines, ∃ g x y, op = .text address g style.fontSize x y ∧
      Single.ge x (minX single style) = true ∧ Single.ge y (.add (top single style k) (baselineY single style)) = true) ∧
    ∀ op ∈ (callsFrom single address style k lines).head?, ∃ g, op = .text address g style.fontSize (minX single style)
      (.add (top single style k) (baselineY single style))
  | [], _, _ => by simp [callsFrom]
  | line :: lines, k, hl => by
    obtain ⟨l1, l2, l3⟩ := hl line (by simp)
    obtain ⟨c1, c2⟩ := line_follows hf h address (.add (top single style k) (baselineY single style)) (spacing single style line) line
      (minX single style) l3 (fun h2 => single_spacing line h2 l2) (Single.ge_refl (Single.Low.of_nonneg (single_min h)).1)
    obtain ⟨i1, i2, i3⟩ := page_follows hf h address lines (k + 1) (fun l hl' => hl l (List.mem_cons_of_mem _ hl'))
    have hb := single_baseline h
    obtain ⟨t1, t2⟩ := single_top h k
    have down : Single.ge (.add (top single style (k + 1)) (baselineY single style)) (.add (top single style k) (baselineY single style)) = true :=
      Single.add_mono t1 hb t2 (Single.ge_refl hb.1)
    have self := Single.ge_refl (Single.ge_iff.1 down).2.1
    rw [callsFrom_cons]
    refine ⟨List.isChain_append.2 ⟨c1, i1, ?_⟩, ?_, ?_⟩
    · intro a ha b hb
      obtain ⟨g, x, rfl, _⟩ := c2 a (List.mem_of_getLast? ha)
      obtain ⟨g', rfl⟩ := i3 b hb
      exact .inr ⟨rfl, down⟩
    · intro op hop
      rcases List.mem_append.1 hop with hop | hop
      · obtain ⟨g, x, rfl, hx⟩ := c2 op hop
        exact ⟨_, _, _, rfl, hx, self⟩
      · obtain ⟨g, x, y, rfl, hx, hy⟩ := i2 op hop
        exact ⟨_, _, _, rfl, hx, Single.ge_trans hy down⟩
    · cases line with
      | nil => exact absurd rfl l1
      | cons p line =>
        intro op hop
        simp only [lineCalls, List.cons_append, List.head?_cons, Option.mem_def, Option.some.injEq] at hop
        exact ⟨_, hop.symm⟩

theorem lines_good {style : Style Single} {pending pieces : List (Piece Single)} {lines : List (List (Piece Single))}
    (h : Lines single style pending pieces lines) : ∀ line ∈ lines, line ≠ [] := by
  induction h with
  | nil => simp
  | cons hg _ ih =>
    intro l hl
    rcases List.mem_cons.1 hl with rfl | hl
    · exact hg.nonempty
    · exact ih l hl

/-- C116: with `f32`, for any text, breaks, font and usual style, the document that comes of a layout has pages where the parts of the text
are shown in reading order: on each line each part starts not before the end of the part before it, each other line is at the left margin,
not above the line before it; and no place on a page is NaN, left of the margin or above the first line. -/
theorem C116_order (F : Floats Single) (address : Nat) (font : FontView Err) (hf : UsualFont api) (h : Usual style) (text : List Nat)
    (breaks : List (Nat × Bool)) (hb : IsBreaks text breaks) (hlen : breaks.length ≤ 2 ^ 64) (d : Doc Single)
    (hd : layout single F address font api style text breaks = .ok d) :
    ∃ pages parts, Cuts text 0 breaks parts ∧ d = runDoc F (fun _ => font) pages ∧
      List.Forall₂ (fun part glyphs => ∃ w, IsShaped api part.1 glyphs w) parts (pages.flatMap fun page => shownGlyphs page.ops) ∧
      ∀ page ∈ pages, page.ops.IsChain (Follows api style) ∧ ∀ op ∈ page.ops, InPage style op := by
  obtain ⟨parts, h1, h2, h3⟩ := C114_layout single F address font api style text breaks (by decide +kernel) hb
  by_cases hok : (∀ p ∈ parts, ∀ ch ∈ p.1, Shapable api ch) ∧ font.Ok
  · obtain ⟨pages, pieces, g1, g2, g3, g4⟩ := h2 hok
    rw [hd] at g4
    cases g4
    refine ⟨_, parts, h1, rfl, ?_, ?_⟩
    · rw [C114_order single address style pages pieces g2]
      exact List.forall₂_map_right_iff.2 (g1.imp fun _ _ h => ⟨_, h.1⟩)
    · intro c hc
      obtain ⟨page, hpage, rfl⟩ := List.mem_map.1 hc
      have hlen' : pieces.length ≤ 2 ^ 64 := by
        have e1 := g1.length_eq
        have e2 := congrArg List.length (cuts_last h1)
        simp only [List.length_map] at e2
        omega
      have hall : ∀ line ∈ page, line ≠ [] ∧ line.length ≤ 2 ^ 64 ∧ ∀ p ∈ line, ∃ t, IsShaped api t p.1.glyphs p.1.advanceWidth := by
        intro line hline
        have hm : line ∈ pages.flatten := List.mem_flatten.2 ⟨page, hpage, hline⟩
        have hp := lines_flatten single g2
        rw [List.append_nil] at hp
        have hsub : line.Sublist pieces := by
          rw [hp]
          exact List.sublist_flatten_of_mem hm
        refine ⟨lines_good g2 line hm, le_trans hsub.length_le hlen', ?_⟩
        intro p hp'
        obtain ⟨part, _, hpart, _⟩ := forall2_right g1 p (hsub.subset hp')
        exact ⟨_, hpart⟩
      obtain ⟨i1, i2, _⟩ := page_follows hf h address page 0 hall
      rw [pageCalls_ops]
      refine ⟨i1, ?_⟩
      intro op hop
      obtain ⟨g, x, y, rfl, hx, hy⟩ := i2 op hop
      exact ⟨hx, hy⟩
  · obtain ⟨e, he⟩ := h3 hok
    rw [hd] at he
    cases he

end

/-- A font where each glyph is a tenth of an em wide. -/
def singleApi : FontApi Single String where
  glyphId ch := if ch = 10 ∨ 65536 ≤ ch then .error "no glyph" else .ok ch
  glyphWidth _ := .ok (.round (1 / 10))
  zero := .zero
  add := .add

/-- Pages 20 mm wide, with margins of 2 mm. -/
def singleStyle : Style Single := ⟨.round 20, .round 20, .round 2, .round 70, .round (12 / 10), .round (8 / 10), true⟩

/-- The positive number with these bits. -/
def ofBits (bits : Nat) (h : bits ≤ infinityBits := by decide) : Single := .num false bits h

/-- The hypotheses of `C116_order` are met, with numbers that are rounded: the text is laid out on two pages, and a third one at its end; the
second part is shown, after the space between words, at the place with these bits (47.03...). -/
theorem C116_example : UsualFont singleApi ∧ Usual singleStyle ∧ IsBreaks plainText plainBreaks ∧ plainBreaks.length ≤ 2 ^ 64 ∧
    (layout single bitsFloats 0 (Verif.Pdf.sampleFont 0) singleApi singleStyle plainText plainBreaks).toOption.map (fun d => d.write bitsFloats) =
      some ((runDoc bitsFloats Verif.Pdf.sampleFont [
        ⟨ofBits 1117204061, ofBits 1117204061, [
          .text 0 [97, 98, 32] (.round 70) (ofBits 1089594312) (ofBits 1116544573),
          .text 0 [99, 100, 32] (.round 70) (ofBits 1111236673) (ofBits 1116544573)]⟩,
        ⟨ofBits 1117204061, ofBits 1117204061, [.text 0 [101, 102, 103, 104] (.round 70) (ofBits 1089594312) (ofBits 1116544573)]⟩,
        ⟨ofBits 1117204061, ofBits 1117204061, []⟩]).write bitsFloats) := by
  refine ⟨⟨rfl, rfl, ?_⟩, ⟨by decide +kernel, by decide +kernel, by decide +kernel, by decide +kernel, by decide +kernel⟩,
    ⟨by decide, by decide⟩, by decide, by decide +kernel⟩
  intro id w h
  cases h
  decide +kernel

end Verif.Text.Machine
