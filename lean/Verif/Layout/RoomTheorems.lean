/- C98: a paragraph does not get longer if there is more room for it. -/
import Verif.Layout.RoomSpec
import Verif.Layout.InlineTheorems
import Verif.Layout.TwinText
namespace Verif.Layout
open Verif.Style Verif.Text

variable {Err : Type} {F : FontApi Rat Err}

/-! ### Widths of parts of a text -/

theorem isShaped_part (hadd : ∀ a b, F.add a b = a + b) (hzero : F.zero = 0) (hwidth : ∀ id w, F.glyphWidth id = .ok w → 0 ≤ w)
    {a b : List Nat} {glyphs : List Nat} {width : Rat} (h : IsShaped F (a ++ b) glyphs width) :
    ∃ g w, IsShaped F b g w ∧ w ≤ width := by
  induction b using List.reverseRecOn generalizing glyphs width with
  | nil =>
    refine ⟨_, _, .nil, ?_⟩
    rw [List.append_nil] at h
    induction h with
    | nil => exact le_refl _
    | snoc _ _ hw ih =>
      rw [hadd]
      have := hwidth _ _ hw
      linarith
  | append_singleton b ch ih =>
    rw [← List.append_assoc] at h
    generalize ht : a ++ b ++ [ch] = t at h
    cases h with
    | nil => simp at ht
    | snoc h0 hid hw =>
      obtain ⟨h1, h2⟩ := List.append_inj' ht rfl
      subst h1
      cases h2
      obtain ⟨g, w, h3, h4⟩ := ih h0
      refine ⟨_, _, .snoc h3 hid hw, ?_⟩
      rw [hadd, hadd]
      linarith

variable {size size' room room' : Rat}

/-- A part of a text that fits is not too wide where there is more room. -/
theorem part_fits (hs : 0 ≤ size') (hs' : size' ≤ size) (hr : room ≤ room') (hadd : ∀ a b, F.add a b = a + b) (hzero : F.zero = 0)
    (hwidth : ∀ id w, F.glyphWidth id = .ok w → 0 ≤ w) {a b : List Nat} (h : Fits F size room (a ++ b)) : Fits F size' room' b := by
  obtain ⟨g, w, h1, h2⟩ := h
  obtain ⟨g', w', h3, h4⟩ := isShaped_part hadd hzero hwidth h1
  refine ⟨g', w', h3, ?_⟩
  obtain ⟨_, w0, h5, h6⟩ := isShaped_part (a := b) (b := []) hadd hzero hwidth (by simpa using h3)
  have e : w0 = 0 := by
    generalize ht : ([] : List Nat) = t at h5
    cases h5 with
    | nil => exact hzero
    | snoc => simp at ht
  have : 0 ≤ w' := e ▸ h6
  nlinarith

theorem part_lineOk (hs : 0 ≤ size') (hs' : size' ≤ size) (hr : room ≤ room') (hadd : ∀ a b, F.add a b = a + b) (hzero : F.zero = 0)
    (hwidth : ∀ id w, F.glyphWidth id = .ok w → 0 ≤ w) {a b : List Nat} (h : LineOk F size room (a ++ b)) : LineOk F size' room' b :=
  h.imp (part_fits hs hs' hr hadd hzero hwidth) fun h hb => h (by simp [hb])

theorem firstWord_le {rest more tail post : List Nat} (h : rest ++ post = more ++ tail) (ht : tail = [] ∨ ∃ t, tail = 32 :: t) :
    firstWord rest <+: more := by
  rcases List.append_eq_append_iff.mp h with ⟨m, h1, -⟩ | ⟨m, h1, h2⟩
  · rw [h1]
    exact (List.takeWhile_prefix _).trans (List.prefix_append _ _)
  · rw [h1]
    refine firstWord_prefix rfl ?_
    rcases ht with rfl | ⟨t, rfl⟩
    · left
      simp only [List.nil_eq, List.append_eq_nil_iff] at h2
      exact h2.1
    · cases m with
      | nil => exact .inl rfl
      | cons c m =>
        rw [List.cons_append] at h2
        injection h2 with h2 _
        exact .inr ⟨m, by rw [h2]⟩

/-! ### Lines -/

/-- There are not more lines where there is more room, the font is smaller or the text is a part of the other one. -/
theorem IsBroken.no_more (hs : 0 ≤ size') (hs' : size' ≤ size) (hr : room ≤ room') (hadd : ∀ a b, F.add a b = a + b) (hzero : F.zero = 0)
    (hwidth : ∀ id w, F.glyphWidth id = .ok w → 0 ≤ w) {text text' : List Nat} {lines lines' : List (List Nat)}
    (h : IsBroken F size room text lines) (h' : IsBroken F size' room' text' lines') (hp : WordPart text' text) :
    lines'.length ≤ lines.length := by
  induction h generalizing text' lines' with
  | @whole line hok =>
    obtain ⟨a, b, e, -⟩ := hp
    cases h' with
    | whole => simp
    | dropped => simp
    | @broken line' rest' lines' hok' hneed' hne' hb' =>
      exfalso
      rw [e] at hok
      have hok := part_lineOk hs hs' hr hadd hzero hwidth hok
      rw [List.append_assoc] at hok
      refine break_absurd hs hadd hwidth hneed' (more := rest' ++ b) ?_ hok
      exact (List.takeWhile_prefix _).trans (List.prefix_append _ _)
  | @dropped line hok hneed =>
    obtain ⟨a, b, e, -⟩ := hp
    cases h' with
    | whole => simp
    | dropped => simp
    | @broken line' rest' lines' hok' hneed' hne' hb' =>
      exfalso
      have key : ∃ r, line = a ++ (line' ++ 32 :: r) ∧ firstWord rest' <+: r := by
        rcases List.eq_nil_or_concat (rest' ++ b) with h0 | ⟨r, c, h0⟩
        · simp only [List.append_eq_nil_iff] at h0
          exact absurd h0.1 hne'
        · have e' : line ++ [32] = (a ++ (line' ++ 32 :: r)) ++ [c] := by
            rw [e]
            simp only [List.append_assoc, List.cons_append, h0, List.concat_eq_append]
          obtain ⟨e1, e2⟩ := List.append_inj' e' rfl
          cases e2
          refine ⟨r, e1, firstWord_le (post := b) (tail := [32]) ?_ (.inr ⟨[], rfl⟩)⟩
          rw [h0, List.concat_eq_append]
      obtain ⟨r, rfl, hpre⟩ := key
      exact break_absurd hs hadd hwidth hneed' hpre (part_lineOk hs hs' hr hadd hzero hwidth hok)
  | @broken line rest lines hok hneed hne hb ih =>
    obtain ⟨a, b, e, ha⟩ := hp
    rcases List.append_eq_append_iff.mp e with ⟨m, h1, h2⟩ | ⟨m, h1, h2⟩
    · cases m with
      | cons c m =>
        rw [List.cons_append] at h2
        injection h2 with h2 h3
        subst h2
        refine Nat.le_trans (ih h' ⟨m, b, h3, ?_⟩) (by simp)
        rcases List.eq_nil_or_concat m with rfl | ⟨m', c, rfl⟩
        · exact .inl rfl
        · right
          rcases ha with rfl | ⟨a', rfl⟩
          · simp at h1
          · rw [List.concat_eq_append, ← List.cons_append, ← List.append_assoc] at h1
            obtain ⟨-, h4⟩ := List.append_inj' h1 rfl
            cases h4
            exact ⟨m', by simp⟩
      | nil =>
        rw [List.append_nil] at h1
        rw [List.nil_append] at h2
        cases h' with
        | whole => simp
        | dropped => simp
        | @broken line' rest' lines' hok' hneed' hne' hb' =>
          simp only [List.length_cons, Nat.add_le_add_iff_right]
          refine ih hb' ?_
          cases line' with
          | nil =>
            simp only [List.nil_append, List.cons_append, List.cons.injEq, true_and] at h2
            exact ⟨[], b, h2, .inl rfl⟩
          | cons c line' =>
            simp only [List.cons_append, List.cons.injEq] at h2
            exact ⟨line' ++ [32], b, by rw [h2.2]; simp, .inr ⟨line', rfl⟩⟩
    · -- the part begins within the line
      cases h' with
      | whole => simp
      | dropped => simp
      | @broken line' rest' lines' hok' hneed' hne' hb' =>
        simp only [List.length_cons, Nat.add_le_add_iff_right]
        refine ih hb' ?_
        rw [h1] at hok
        have hok := part_lineOk hs hs' hr hadd hzero hwidth hok
        rw [List.append_assoc] at h2
        rcases List.append_eq_append_iff.mp h2.symm with ⟨l, k1, k2⟩ | ⟨l, k1, k2⟩
        · rw [List.cons_append] at k2
          cases l with
          | nil =>
            simp only [List.nil_append, List.cons.injEq, true_and] at k2
            exact ⟨[], b, k2, .inl rfl⟩
          | cons c l =>
            simp only [List.cons_append, List.cons.injEq] at k2
            exact ⟨l ++ [32], b, by rw [k2.2]; simp, .inr ⟨l, rfl⟩⟩
        · rw [List.cons_append] at k2
          cases l with
          | nil =>
            simp only [List.nil_append, List.cons.injEq, true_and] at k2
            exact ⟨[], b, k2.symm, .inl rfl⟩
          | cons c l =>
            simp only [List.cons_append, List.cons.injEq] at k2
            obtain ⟨rfl, k2⟩ := k2
            rw [k1] at hok
            exact absurd hok fun hok => break_absurd hs hadd hwidth hneed' (firstWord_le k2 (.inr ⟨_, rfl⟩)) hok

/-- The lines of a paragraph. -/
theorem textLines_lines (cb : ContainingBlock) (s : ComputedValues) (available : Rat) : ∀ (fuel : Nat) (chars : List Nat) (ifc τ : InlineState),
    ifc.stack = [] → ifc.current.maxBlockSize = 0 → textLines F cb s available fuel chars ifc = some τ →
    τ.stack = [] ∧ τ.current.remainingBoxes = ifc.current.remainingBoxes ∧ τ.current.maxBlockSize = max 0 (fontSizeOf s * (12 / 10)) ∧
    ∃ n : Nat, τ.lineBoxes.boxes.length = ifc.lineBoxes.boxes.length + n ∧
      τ.lineBoxes.nextLineBlockPosition = ifc.lineBoxes.nextLineBlockPosition + n * max 0 (fontSizeOf s * (12 / 10)) := by
  intro fuel
  induction fuel with
  | zero => intro chars ifc τ _ _ h; cases h
  | succ fuel ih =>
    intro chars ifc τ hs hm h
    rw [textLines_succ] at h
    split at h
    · cases h
    · rename_i shaped rest he
      split at h
      · cases h
        exact ⟨hs, rfl, by simp [pushText, hm], 0, by simp [pushText], by simp [pushText]⟩
      · have hs' : (nextLine cb (pushText s shaped ifc)).stack = [] := by simp [nextLine, pushText, hs, breakLine]
        obtain ⟨h1, h2, h3, n, h4, h5⟩ := ih _ _ _ hs' (by simp [nextLine, pushText, hs, breakLine, finishLine]) h
        refine ⟨h1, by rw [h2]; simp [nextLine, pushText, hs, breakLine, finishLine], h3, n + 1, ?_, ?_⟩
        · rw [h4]
          simp [nextLine, pushText, hs, breakLine, finishLine]
          omega
        · rw [h5]
          simp [nextLine, pushText, hs, breakLine, finishLine, hm]
          ring

/-- The height of a paragraph is that of its lines. -/
theorem paragraph_height {style : ComputedValues} {text : List Nat} {cb : ContainingBlock} {rank : Nat} {fc : FlowChildren}
    {as : List AbsolutelyPositionedFragment} (h : layoutInline F [.textRun style text] cb rank [] = some (fc, as)) :
    fc.blockSize = fc.fragments.length * max 0 (fontSizeOf style * (12 / 10)) := by
  simp only [layoutInline, costs, InlineLevelBox.cost, inlineLoop, inlineStep, initialInlineState, layoutTextRun] at h
  split at h
  · cases h
  · rename_i r he
    split at he
    · rename_i τ ht
      cases he
      obtain ⟨h1, h2, h3, n, h4, h5⟩ := textLines_lines _ _ _ _ _ _ _ rfl rfl ht
      simp only [h1, h2, finishLine] at h
      cases h
      simp only [List.length_append, List.length_singleton, h4, h5, h3, List.length_nil]
      push_cast
      ring
    · cases he
  · rename_i r he
    split at he <;> cases he

variable (F)

/-- **C98**: a paragraph, that is a text in one style, has no more lines and is not taller if the containing block is wider, if the font
is smaller, or if words are removed at the start of it or anything at the end, or all of that at once. The fonts have no negative widths. -/
theorem C98_room_partial (hadd : ∀ a b, F.add a b = a + b) (hzero : F.zero = 0) (hwidth : ∀ id w, F.glyphWidth id = .ok w → 0 ≤ w)
    (style style' : ComputedValues) (text text' : List Nat) (cb cb' : ContainingBlock) (rank rank' : Nat) (fc fc' : FlowChildren)
    (as as' : List AbsolutelyPositionedFragment) (hsize : 0 ≤ fontSizeOf style') (hsmall : fontSizeOf style' ≤ fontSizeOf style)
    (hroom : cb.inlineSize ≤ cb'.inlineSize) (hpart : WordPart text' text)
    (h : layoutInline F [.textRun style text] cb rank [] = some (fc, as))
    (h' : layoutInline F [.textRun style' text'] cb' rank' [] = some (fc', as')) :
    fc'.fragments.length ≤ fc.fragments.length ∧ fc'.blockSize ≤ fc.blockSize := by
  obtain ⟨lines, b1, f1⟩ := C44_lines F _ _ _ _ _ _ h
  obtain ⟨lines', b2, f2⟩ := C44_lines F _ _ _ _ _ _ h'
  have hl := b1.no_more hsize hsmall hroom hadd hzero hwidth b2 hpart
  rw [f1.length_eq, f2.length_eq] at hl
  refine ⟨hl, ?_⟩
  rw [paragraph_height h, paragraph_height h']
  have hl' : (fc'.fragments.length : Rat) ≤ fc.fragments.length := by exact_mod_cast hl
  have hm : max 0 (fontSizeOf style' * (12 / 10)) ≤ max 0 (fontSizeOf style * (12 / 10)) :=
    max_le_max (le_refl _) (by linarith)
  exact mul_le_mul hl' hm (le_max_left _ _) (by positivity)

/-- **C98**: the lines are all as tall as the style says, so that the height is in proportion to their number. -/
theorem C98_height (style : ComputedValues) (text : List Nat) (cb : ContainingBlock) (rank : Nat) (fc : FlowChildren)
    (as : List AbsolutelyPositionedFragment) (hsize : 0 ≤ fontSizeOf style)
    (h : layoutInline F [.textRun style text] cb rank [] = some (fc, as)) :
    fc.blockSize = fc.fragments.length * (fontSizeOf style * (12 / 10)) := by
  rw [paragraph_height h, max_eq_right (by linarith)]

/-! ### Examples -/

/-- The hypotheses of C98 are met, by `aa bb cc` in 80 pixels and `bb cc` in 90 pixels: two lines and one. -/
example : (∀ a b, exampleFont.add a b = a + b) ∧ exampleFont.zero = 0 ∧ (∀ id w, exampleFont.glyphWidth id = .ok w → 0 ≤ w) ∧
    0 ≤ fontSizeOf plainStyle ∧ WordPart (codes "bb cc") (codes "aa bb cc") ∧
    lineSummary (layoutInline exampleFont [.textRun plainStyle (codes "aa bb cc")] ⟨80, .auto, (.horizontalTb, .ltr)⟩ 0 []) =
      [[(codes "aa bb", 0, 80)], [(codes "cc", 0, 32)]] ∧
    lineSummary (layoutInline exampleFont [.textRun plainStyle (codes "bb cc")] ⟨90, .auto, (.horizontalTb, .ltr)⟩ 0 []) =
      [[(codes "bb cc", 0, 80)]] := by
  refine ⟨fun _ _ => rfl, rfl, ?_, by decide +kernel, ⟨codes "aa ", [], by decide +kernel, .inr ⟨codes "aa", by decide +kernel⟩⟩,
    by decide +kernel, by decide +kernel⟩
  intro id w h
  cases h
  decide

/-- **C98** does not hold for paragraphs with several runs of text, such as `aaaa a<span> b b b b</span>`: in 96 pixels the first run takes
all of the first line, and as all the lines of the second run are made as short as the rest of the first one, it takes five lines. In 80
pixels the first run ends on the second line, and the whole takes three lines. -/
theorem C98_room_violated : ∃ first second : List Nat,
    lineSummary (layoutInline exampleFont [.textRun plainStyle first, .inlineBox plainStyle true true [.textRun plainStyle second]]
      ⟨80, .auto, (.horizontalTb, .ltr)⟩ 0 []) =
      [[(codes "aaaa", 0, 64)], [(codes "a", 0, 16), (codes " b b", 16, 64)], [(codes "b b", 0, 48)]] ∧
    lineSummary (layoutInline exampleFont [.textRun plainStyle first, .inlineBox plainStyle true true [.textRun plainStyle second]]
      ⟨96, .auto, (.horizontalTb, .ltr)⟩ 0 []) =
      [[(codes "aaaa a", 0, 96), ([], 96, 0)], [(codes "b", 0, 16)], [(codes "b", 0, 16)], [(codes "b", 0, 16)], [(codes "b", 0, 16)]] :=
  ⟨codes "aaaa a", codes " b b b b", by decide +kernel, by decide +kernel⟩

end Verif.Layout
