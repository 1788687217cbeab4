/- **C120**: the lines of a paragraph with single precision numbers are those of exact arithmetic, but for one rounding. -/
import Verif.Layout.SingleLines
import Verif.Layout.BuiltInTheorems
import Verif.Layout.InlineTheorems
namespace Verif.Layout.Machine
open Verif.Style Verif.Text Verif.Float Verif.Font

theorem BrokenBy.imp {ok ok' : List Nat → Prop} {needed needed' : List Nat → List Nat → Prop} {text : List Nat} {lines : List (List Nat)}
    (h : BrokenBy ok needed text lines) : (∀ line, line <:+: text → ok line → ok' line) →
    (∀ line rest, line ++ 32 :: rest <:+: text → ok line → needed line rest → needed' line rest) → BrokenBy ok' needed' text lines := by
  induction h with
  | whole h => intro h1 _; exact .whole (h1 _ (List.infix_refl _) h)
  | dropped h hn => intro h1 h2; exact .dropped (h1 _ (List.prefix_append _ _).isInfix h) (h2 _ _ (List.infix_refl _) h hn)
  | @broken line rest lines h hn hne hb ih =>
    intro h1 h2
    have hi : rest <:+: line ++ 32 :: rest := ⟨line ++ [32], [], by simp⟩
    exact .broken (h1 _ (List.prefix_append _ _).isInfix h) (h2 _ _ (List.infix_refl _) h hn) hne
      (ih (fun l hl => h1 l (hl.trans hi)) fun l r hl => h2 l r (hl.trans hi))

theorem BrokenBy.lines_ok {ok : List Nat → Prop} {needed : List Nat → List Nat → Prop} {text : List Nat} {lines : List (List Nat)}
    (h : BrokenBy ok needed text lines) : ∀ line ∈ lines, line <:+: text ∧ ok line := by
  induction h with
  | whole h => intro l hl; cases List.mem_singleton.1 hl; exact ⟨List.infix_refl _, h⟩
  | dropped h hn => intro l hl; cases List.mem_singleton.1 hl; exact ⟨(List.prefix_append _ _).isInfix, h⟩
  | @broken line rest lines h hn hne hb ih =>
    intro l hl
    rcases List.mem_cons.1 hl with rfl | hl
    · exact ⟨(List.prefix_append _ _).isInfix, h⟩
    · exact ⟨(ih l hl).1.trans ⟨line ++ [32], [], by simp⟩, (ih l hl).2⟩

theorem BrokenBy.isBroken {Err : Type} {F : FontApi Rat Err} {size room : Rat} {text : List Nat} {lines : List (List Nat)}
    (h : BrokenBy (LineOk F size room) (BreakNeeded F size room) text lines) : IsBroken F size room text lines := by
  induction h with
  | whole h => exact .whole h
  | dropped h hn => exact .dropped h hn
  | broken h hn hne _ ih => exact .broken h hn hne ih

theorem sub_zero' {a : Single} (h : a.Finite) : (Single.sub a .zero).Finite ∧ (Single.sub a .zero).value = a.value := by
  obtain ⟨z, e⟩ := (Single.C116_operations h Single.zero_finite).2.1
  rw [Single.zero_value, sub_zero] at e
  have hk : (Single.sub a .zero).key = a.key := by rw [e, Single.key_round, Single.nearestKey_value h.1]
  have hn : Single.sub a .zero ≠ .nan := by rw [e]; exact Single.round_ne_nan _ _
  exact ⟨⟨hn, by rw [hk]; exact h.2.1, by rw [hk]; exact h.2.2⟩,
    le_antisymm (Single.value_le hn h.1 (by omega)) (Single.value_le h.1 hn (by omega))⟩

section
attribute [local instance] singleNumbers
variable {Err : Type} {api : FontApi Single Err} {advance : Nat → Nat} {k : Nat}

/-- **C120**: with single precision numbers, a text is measured without any rounding, if the number of units per em of the font is a power of
two, and the text is less than 2²⁴ units wide. -/
theorem C120_measured (hf : EmFont api (2 ^ k) advance) (hk : k < 16) {text glyphs : List Nat} {w : Single} (h : IsShaped api text glyphs w)
    (hu : textUnits api advance text < 2 ^ 24) :
    w.Finite ∧ IsShaped (exactFont api (2 ^ k) advance) text glyphs w.value := by
  obtain ⟨h1, h2⟩ := shaped_exact hf hk h hu
  refine ⟨h1, ?_⟩
  rw [h2]
  exact exactFont_shaped h

/-- **C120**: with single precision numbers and a font as in `C120_measured`, a paragraph is broken into lines as with exact numbers, but for
one rounding: a line is broken only if it is wider than the containing block together with the next word, and a line that could be broken is
not wider than the containing block by more than one part in 2²³. Its lines are one below the other. The containing block is at least 2⁻¹²⁶
pixels and at most 2²³ units wide, and no word is wider than 2²² units: that is 4096 and 2048 em with the built-in font. -/
theorem C120_lines (hf : EmFont api (2 ^ k) advance) (hk : k < 16) (style : ComputedValues) (text : List Nat) (cb : ContainingBlock Single)
    (rank : Nat) (fc : FlowChildren Single) (as : List (AbsolutelyPositionedFragment Single))
    (hs : (Single.round (fontSizeOf style)).Finite) (hs0 : 0 < (Single.round (fontSizeOf style)).value)
    (hc : cb.inlineSize.Finite) (hc1 : 1 / 2 ^ 126 ≤ cb.inlineSize.value)
    (hroom : cb.inlineSize.value * (2 ^ k : Nat) ≤ 2 ^ 23 * (Single.round (fontSizeOf style)).value)
    (hwords : ∀ word, word <:+: text → 32 ∉ word → textUnits api advance word ≤ 2 ^ 22)
    (h : layoutInline api [.textRun style text] cb rank [] = some (fc, as)) :
    let size := (Single.round (fontSizeOf style)).value
    let room := cb.inlineSize.value
    let font := exactFont api (2 ^ k) advance
    ∃ lines segments, BrokenBy (LineOk font size (room + room / 2 ^ 23)) (BreakNeeded font size room) text lines ∧
      List.Forall₂ (fun line (s : ShapedSegment Single) => IsShaped font line s.glyphs s.advanceWidth.value) lines segments ∧
      fc.fragments = lineBoxesOf cb style (max 0 (Numbers.lineHeight (Numbers.lengths style).fontSize)) 0 segments ∧ as = [] := by
  intro size room font
  obtain ⟨lines, segments, h1, h2, h3, h4⟩ := layoutInline_lines (F := api) style text cb rank fc as h
  obtain ⟨a1, a2⟩ := sub_zero' hc
  have e1 : (Numbers.lengths style : StyleLengths Single).fontSize = Single.round (fontSizeOf style) := rfl
  have e2 : cb.inlineSize - (0 : Single) = Single.sub cb.inlineSize .zero := rfl
  rw [e1, e2] at h1
  have bound : ∀ line, line <:+: text → LineOkBy api (Single.round (fontSizeOf style)) (Single.sub cb.inlineSize .zero) line →
      textUnits api advance line ≤ 2 ^ 23 + 1 := by
    intro line hl hok
    rcases hok with ⟨g, w, hsh, hfit⟩ | hno
    · exact fits_bound hf hk hs hs0 a1 (by rw [a2]; linarith) (by rw [a2]; exact hroom) hsh hfit
    · have := hwords line hl hno
      omega
  have fits : ∀ line, line <:+: text → LineOkBy api (Single.round (fontSizeOf style)) (Single.sub cb.inlineSize .zero) line →
      LineOk font size (room + room / 2 ^ 23) line := by
    intro line hl hok
    have hb := bound line hl hok
    rcases hok with ⟨g, w, hsh, hfit⟩ | hno
    · refine .inl ⟨g, _, exactFont_shaped hsh, ?_⟩
      have := fits_short hf hk hs a1 (by rw [a2]; linarith) hsh (by omega) hfit
      rwa [a2] at this
    · exact .inr hno
  refine ⟨lines, segments, h1.imp fits ?_, ?_, h3, h4⟩
  · intro line rest hl hok hneed
    have hb := bound line (List.IsInfix.trans (List.prefix_append _ _).isInfix hl) hok
    rcases hneed with ⟨g, w, hsh, hwide⟩ | ⟨g, w, hsh, hwide⟩
    · refine .inl ⟨g, _, exactFont_shaped hsh, ?_⟩
      have := wide_exact hf hk hs a1 hsh (by omega) hwide
      rwa [a2] at this
    · refine .inr ⟨g, _, exactFont_shaped hsh, ?_⟩
      have hword : textUnits api advance (firstWord rest) ≤ 2 ^ 22 := by
        refine hwords _ (List.IsInfix.trans ?_ hl) ?_
        · exact List.IsInfix.trans (List.takeWhile_prefix _).isInfix ⟨line ++ [32], [], by simp⟩
        · intro hm
          simpa using List.all_eq_true.1 List.all_takeWhile _ hm
      have hspace : textUnits api advance [32] < 65536 := by
        obtain ⟨g', w', p1, -⟩ := shaped_prefix hf hk (text := line ++ [32]) (more := firstWord rest) (by simpa using hsh)
        generalize ht : line ++ [32] = t at p1
        cases p1 with
        | nil => simp at ht
        | @snoc text' glyphs' width' ch id w'' h0 hid hw =>
          obtain ⟨-, e⟩ := List.append_inj' ht rfl
          cases e
          simp only [textUnits, hid]
          exact (hf.width id w'' hw).2
      have hu : textUnits api advance (line ++ 32 :: firstWord rest) < 2 ^ 24 := by
        rw [show line ++ 32 :: firstWord rest = line ++ ([32] ++ firstWord rest) by simp, textUnits_append, textUnits_append]
        omega
      have := wide_exact hf hk hs a1 hsh hu hwide
      rwa [a2] at this
  · have hok := h1.lines_ok
    clear h1 h3
    induction h2 with
    | nil => exact .nil
    | @cons line s lines segments hsh _ ih =>
      refine .cons ?_ (ih fun l hl => hok l (List.mem_cons_of_mem _ hl))
      obtain ⟨i1, i2⟩ := hok line List.mem_cons_self
      exact (C120_measured hf hk hsh (by have := bound line i1 i2; omega)).2

/-- **C120**: if in addition the font size and the width of the containing block are whole numbers of pixels, the latter less than 2²³ units,
which is 4096 pixels with the built-in font, then the lines are those of exact arithmetic: they are the only ones that C44 allows. -/
theorem C120_same_lines (hf : EmFont api (2 ^ k) advance) (hk : k < 16) (style : ComputedValues) (text : List Nat) (cb : ContainingBlock Single)
    (rank : Nat) (fc : FlowChildren Single) (as : List (AbsolutelyPositionedFragment Single)) (n w : Nat) (hn : fontSizeOf style = n)
    (hn0 : 0 < n) (hn1 : n < 2 ^ 24) (hw : cb.inlineSize = Single.round w) (hw0 : 0 < w) (hw1 : w * 2 ^ k < 2 ^ 23)
    (hwords : ∀ word, word <:+: text → 32 ∉ word → textUnits api advance word ≤ 2 ^ 22)
    (h : layoutInline api [.textRun style text] cb rank [] = some (fc, as)) :
    ∃ lines segments, IsBroken (exactFont api (2 ^ k) advance) n w text lines ∧
      (∀ lines', IsBroken (exactFont api (2 ^ k) advance) n w text lines' → lines' = lines) ∧
      List.Forall₂ (fun line (s : ShapedSegment Single) =>
        IsShaped (exactFont api (2 ^ k) advance) line s.glyphs s.advanceWidth.value) lines segments ∧
      fc.fragments = lineBoxesOf cb style (max 0 (Numbers.lineHeight (Numbers.lengths style).fontSize)) 0 segments ∧ as = [] := by
  have hp : 0 < 2 ^ k := by positivity
  have hw2 : w < 2 ^ 23 := lt_of_le_of_lt (Nat.le_mul_of_pos_right w hp) hw1
  obtain ⟨s1, s2⟩ := round_exact (m := n) (j := 149) (q := n) false hn1 (by decide) (by push_cast; ring)
  obtain ⟨c1, c2⟩ := round_exact (m := w) (j := 149) (q := w) false (by omega) (by decide) (by push_cast; ring)
  obtain ⟨lines, segments, h1, h2, h3, h4⟩ := C120_lines hf hk style text cb rank fc as (by rw [hn]; exact s1)
    (by rw [hn, s2]; exact_mod_cast hn0) (by rw [hw]; exact c1) (by
      rw [hw, c2]
      have : (1 : Rat) ≤ w := by exact_mod_cast hw0
      exact le_trans (by norm_num) this) (by
      rw [hn, hw, s2, c2]
      have : w * 2 ^ k ≤ 2 ^ 23 * n := by nlinarith
      exact_mod_cast this) hwords h
  rw [hn, hw, s2, c2] at h1
  have hb : IsBroken (exactFont api (2 ^ k) advance) n w text lines := by
    refine BrokenBy.isBroken (h1.imp ?_ fun _ _ _ _ h => h)
    intro line _ hok
    rcases hok with ⟨g, width, hsh, hfit⟩ | hno
    · refine .inl ⟨g, width, hsh, ?_⟩
      have hunits : ∀ {text glyphs : List Nat} {width : Rat}, IsShaped (exactFont api (2 ^ k) advance) text glyphs width →
          ∃ u : Nat, width = (u : Rat) / (2 ^ k : Nat) := by
        intro text glyphs width hsh
        induction hsh with
        | nil => exact ⟨0, by simp [exactFont]⟩
        | @snoc _ _ _ _ id w' _ _ hw' ih =>
          obtain ⟨u, rfl⟩ := ih
          simp only [exactFont] at hw'
          rcases hg : api.glyphWidth id with e | x
          · rw [hg] at hw'; cases hw'
          · rw [hg] at hw'
            simp only [Except.map, Except.ok.injEq] at hw'
            refine ⟨u + advance id, ?_⟩
            rw [← hw']
            simp only [exactFont]
            push_cast
            ring
      obtain ⟨u, rfl⟩ := hunits hsh
      have hpr : (0 : Rat) < (2 ^ k : Nat) := by exact_mod_cast hp
      rw [mul_div_assoc', div_le_iff₀ hpr] at hfit ⊢
      have h5 : ((w : Rat) + w / 2 ^ 23) * (2 ^ k : Nat) < w * (2 ^ k : Nat) + 1 := by
        have : (w : Rat) * (2 ^ k : Nat) < 2 ^ 23 := by exact_mod_cast hw1
        have e : ((w : Rat) + w / 2 ^ 23) * (2 ^ k : Nat) = w * (2 ^ k : Nat) + w * (2 ^ k : Nat) / 2 ^ 23 := by ring
        rw [e]
        have : (w : Rat) * (2 ^ k : Nat) / 2 ^ 23 < 1 := by rw [div_lt_one (by positivity)]; exact this
        linarith
      have h6 : (n : Rat) * u < w * (2 ^ k : Nat) + 1 := lt_of_le_of_lt hfit h5
      have h7 : n * u < w * 2 ^ k + 1 := by exact_mod_cast h6
      have h8 : n * u ≤ w * 2 ^ k := by omega
      exact_mod_cast h8
    · exact .inr hno
  refine ⟨lines, segments, hb, fun lines' h' => ?_, h2, h3, h4⟩
  refine C44_unique (exactFont api (2 ^ k) advance) (by exact_mod_cast hn0.le) (fun _ _ => rfl) ?_ h' hb
  intro id width hwid
  simp only [exactFont] at hwid
  rcases hg : api.glyphWidth id with e | x
  · rw [hg] at hwid; cases hwid
  · rw [hg] at hwid
    simp only [Except.map, Except.ok.injEq] at hwid
    rw [← hwid]
    positivity

end

/-! ### Fonts -/

theorem glyphWidth_units {R : Type} {ems : Int → Nat → R} {font : Font} {glyph : Nat} {w : R} (h : font.glyphWidth ems glyph = .ok w) :
    ∃ n : Nat, n < 65536 ∧ w = ems n font.unitsPerEm ∧ font.glyphWidth (fun units _ => units) glyph = .ok (n : Int) := by
  unfold Font.glyphWidth at h ⊢
  rcases h1 : Res.ofOption FontError.noHorizontalGlyphMetrics (checkedSub font.horizontalMetrics.count 1) with i | e | _ | _ <;>
    rw [h1] at h <;> try cases h
  rcases h2 : font.horizontalMetrics.getUnchecked sizeLongHorizontalMetricsRecord (min glyph i) with r | e | _ | _ <;>
    simp only [bind, Res.bind, h2] at h <;> try cases h
  rcases h3 : fieldU16 font.bytes r 0 with n | e | _ | _ <;> simp only [h3] at h <;> try cases h
  refine ⟨n, ?_, ?_, ?_⟩
  · unfold fieldU16 at h3
    rcases h4 : offsetBytes r 0 with p | e | _ | _ <;> simp only [bind, Res.bind, h4] at h3 <;> try cases h3
    exact u16At_lt (readU16_ok h3)
  · rfl
  · simp only [bind, Res.bind, h2, h3]
    rfl

/-- **C120**: fonts that are read from a file have such widths. -/
theorem C120_font (font : Font) : EmFont (singleFont font) font.unitsPerEm (advanceOf font) := by
  refine ⟨rfl, rfl, ?_⟩
  intro id w h
  simp only [singleFont] at h
  rcases hg : font.glyphWidth toEms id with x | e | _ | _ <;> rw [hg] at h <;> simp only [failable] at h <;> try cases h
  obtain ⟨n, h1, h2, h3⟩ := glyphWidth_units hg
  have : advanceOf font id = n := by simp [advanceOf, h3]
  rw [this]
  exact ⟨by rw [← h2], h1⟩

/-- **C120**, the built-in font has a power of two of units per em. -/
theorem C120_built_in {font : Font} (h : Font.parse vera = .ok font) : EmFont (singleFont font) (2 ^ 11) (advanceOf font) := by
  have : font.unitsPerEm = 2 ^ 11 := by rw [builtIn_eq h]; rfl
  rw [← this]
  exact C120_font font

/-! ### Examples -/

/-- A font of which all glyphs are half an em wide. -/
def halfFont : FontApi Single Unit := ⟨fun c => .ok c, fun _ => .ok (toEms 1024 2048), .zero, .add⟩

theorem halfFont_em : EmFont halfFont (2 ^ 11) fun _ => 1024 := by
  refine ⟨rfl, rfl, fun id w h => ?_⟩
  simp only [halfFont, Except.ok.injEq] at h
  exact ⟨h.symm, by decide⟩

theorem halfFont_units (text : List Nat) : textUnits halfFont (fun _ => 1024) text = 1024 * text.length := by
  induction text with
  | nil => rfl
  | cons c text ih => simp only [textUnits, halfFont, List.length_cons] at ih ⊢; omega

section
attribute [local instance] singleNumbers

/-- The lines of a paragraph: the glyphs of each, and the width of its text. -/
def shownLines (r : Option (FlowChildren Single × List (AbsolutelyPositionedFragment Single))) : Option (List (List (List Nat × Rat))) :=
  r.map fun r => r.1.fragments.map fun
    | .anonymous _ children _ => children.filterMap fun
      | .text _ rect segment => some (segment.glyphs, rect.size.inline.value)
      | _ => none
    | _ => []

/-- The hypotheses of `C120_lines` and `C120_same_lines` are met: `aa bb cc` in 16 pixels is broken in a block 40 pixels wide. -/
theorem C120_example : EmFont halfFont (2 ^ 11) (fun _ => 1024) ∧ fontSizeOf plainStyle = (16 : Nat) ∧
    (∀ word, word <:+: codes "aa bb cc" → 32 ∉ word → textUnits halfFont (fun _ => 1024) word ≤ 2 ^ 22) ∧ 40 * 2 ^ 11 < 2 ^ 23 ∧
    shownLines (layoutInline halfFont [.textRun plainStyle (codes "aa bb cc")] ⟨.round (40 : Nat), .auto, (.horizontalTb, .ltr)⟩ 0 []) =
      some [[(codes "aa bb", 40)], [(codes "cc", 16)]] := by
  refine ⟨halfFont_em, by decide +kernel, ?_, by decide, by decide +kernel⟩
  intro word hw _
  rw [halfFont_units]
  have h1 := hw.length_le
  have h2 : (codes "aa bb cc").length = 8 := by decide +kernel
  omega

/-- In `C120_lines` one rounding is indeed needed: the line `aaa bbb` of a font size of one tenth of a pixel, 7 times half an em, is wider than the
block, by less than a part in 2²³, and it is not broken. -/
theorem C120_example_rounded :
    let style := postCascadeFixups (initialValues.set .fontSize (1 / 10 : Rat))
    let size := Single.round (fontSizeOf style)
    let room := Single.mul size (.round (7 / 2))
    fontSizeOf style = 1 / 10 ∧ room.value * 2 ^ 11 ≤ 2 ^ 23 * size.value ∧
    shownLines (layoutInline halfFont [.textRun style (codes "aaa bbb")] ⟨room, .auto, (.horizontalTb, .ltr)⟩ 0 []) =
      some [[(codes "aaa bbb", room.value)]] ∧ room.value < size.value * (7 / 2) := by
  decide +kernel

end

end Verif.Layout.Machine
