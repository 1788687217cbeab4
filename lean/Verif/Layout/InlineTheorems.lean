/- C44, C60, C61: line breaking and the flow of inline content. -/
import Verif.Layout.InlineLemmas
import Verif.Layout.TotalTheorems
import Mathlib.Data.List.Induction
namespace Verif.Layout
open Verif.Style Verif.Text
variable {Err : Type} (F : FontApi Rat Err)

/-! ### C60: the flow of inline content -/

/-- C60, without relatively positioned inline boxes. The lines of an inline formatting context are those of the specification
`Laid`: texts are placed from the start of each line, one after the other, with the edges of the inline boxes that begin and end
between them; the lines are as wide as the containing block and stacked from the top, and their heights add up. If no inline box
has vertical edges whose sum is negative, each line is as high as every text in it. Absolutely positioned boxes have their static
positions where they would have been. -/
theorem C60_flow_partial (boxes : List InlineLevelBox) (cb : ContainingBlock) (rank : Nat) (fc : FlowChildren)
    (as : List AbsolutelyPositionedFragment) (hrel : inlineAll (fun s => positionOf s ≠ .relative) boxes)
    (h : layoutInline F boxes cb rank [] = some (fc, as)) :
    ∃ (s : FlatState) (height : Rat),
      Laid F (inlineAll (fun s => 0 ≤ Css.verticalEdges cb s) boxes) cb boxes .empty s ∧
      s.HighEnough (inlineAll (fun s => 0 ≤ Css.verticalEdges cb s) boxes) height ∧
      List.Forall₂ (IsLine cb) (s.newLine height).lines fc.fragments ∧
      fc.blockSize = (s.newLine height).top ∧
      as = s.absolutes.map fun a => a.1.layout a.2 rank := by
  obtain ⟨s, height, h1, h2⟩ := inlineLoop_spec (cb := cb)
    (tall := inlineAll (fun s => 0 ≤ Css.verticalEdges cb s) boxes) (rank := rank) _ (initialInlineState boxes) [] fc as .empty
    ⟨.nil, rfl, rfl, rfl, by intro _ t ht; simp [initialInlineState, textsOf] at ht, rfl, rfl⟩
    ⟨hrel, by simp [initialInlineState, stackInfo]⟩ (fun ht => ⟨ht, by simp [initialInlineState, stackInfo]⟩) h
  exact ⟨s, height, h1, h2⟩

/-! ### C44: line breaking of a text -/

/-- The lines, with one space between them. -/
def joinLines : List (List Nat) → List Nat
  | [] => []
  | [line] => line
  | line :: lines => line ++ 32 :: joinLines lines

theorem joinLines_cons {line : List Nat} {lines : List (List Nat)} (h : lines ≠ []) :
    joinLines (line :: lines) = line ++ 32 :: joinLines lines := by
  cases lines with
  | nil => exact absurd rfl h
  | cons l ls => rfl

variable {F}

theorem IsBroken.ne_nil {fontSize available : Rat} {text : List Nat} {lines : List (List Nat)}
    (h : IsBroken F fontSize available text lines) : lines ≠ [] := by
  cases h <;> simp

/-- The lines are the text with a single space dropped at each line break, and at most one at the end of the text. -/
theorem IsBroken.join {fontSize available : Rat} {text : List Nat} {lines : List (List Nat)}
    (h : IsBroken F fontSize available text lines) : text = joinLines lines ∨ text = joinLines lines ++ [32] := by
  induction h with
  | whole _ => exact .inl rfl
  | dropped _ _ => exact .inr rfl
  | broken _ _ _ hb ih =>
    rw [joinLines_cons hb.ne_nil]
    rcases ih with ih | ih
    · exact .inl (by rw [← ih])
    · exact .inr (by rw [List.append_assoc, List.cons_append, ← ih])

/-- Every line fits, or cannot be broken. -/
theorem IsBroken.lineOk {fontSize available : Rat} {text : List Nat} {lines : List (List Nat)}
    (h : IsBroken F fontSize available text lines) : ∀ line ∈ lines, LineOk F fontSize available line := by
  induction h with
  | whole h | dropped h _ => simpa using h
  | broken h _ _ _ ih => simpa using ⟨h, ih⟩

theorem isShaped_ge {fontSize : Rat} (hsize : 0 ≤ fontSize) (hadd : ∀ a b, F.add a b = a + b)
    (hwidth : ∀ id w, F.glyphWidth id = .ok w → 0 ≤ w) {text : List Nat} :
    ∀ {more glyphs width}, IsShaped F (text ++ more) glyphs width → ∀ {g w}, IsShaped F text g w → fontSize * w ≤ fontSize * width := by
  intro more
  induction more using List.reverseRecOn with
  | nil =>
    intro glyphs width h g w h'
    rw [List.append_nil] at h
    rw [(isShaped_unique F h h').2]
  | append_singleton more ch ih =>
    intro glyphs width h g w h'
    rw [← List.append_assoc] at h
    generalize ht : text ++ more ++ [ch] = t at h
    cases h with
    | nil => simp at ht
    | snoc h0 _ hw =>
      obtain ⟨h1, -⟩ := List.append_inj' ht rfl
      subst h1
      rw [hadd, mul_add]
      have h2 := ih h0 h'
      have h3 := mul_nonneg hsize (hwidth _ _ hw)
      linarith

/-- Two lines of the same text that begin at the same place, the first one shorter. -/
theorem break_absurd {fontSize available : Rat} (hsize : 0 ≤ fontSize) (hadd : ∀ a b, F.add a b = a + b)
    (hwidth : ∀ id w, F.glyphWidth id = .ok w → 0 ≤ w) {line rest more : List Nat}
    (hneed : BreakNeeded F fontSize available line rest) (hprefix : firstWord rest <+: more)
    (hok : LineOk F fontSize available (line ++ 32 :: more)) : False := by
  rcases hok with ⟨g, w, hs, hfit⟩ | hno
  · obtain ⟨tail, rfl⟩ := hprefix
    rcases hneed with ⟨g', w', hs', hover⟩ | ⟨g', w', hs', hover⟩
    · have := isShaped_ge hsize hadd hwidth hs hs'
      linarith
    · have : IsShaped F ((line ++ 32 :: firstWord rest) ++ tail) g w := by simpa using hs
      have := isShaped_ge hsize hadd hwidth this hs'
      linarith
  · simp at hno

theorem firstWord_prefix {rest more tail : List Nat} (h : rest = more ++ tail) (ht : tail = [] ∨ ∃ t, tail = 32 :: t) :
    firstWord rest <+: more := by
  subst h
  induction more with
  | nil =>
    rcases ht with rfl | ⟨t, rfl⟩ <;> simp [firstWord]
  | cons c more ih =>
    simp only [firstWord, List.cons_append, List.takeWhile_cons] at ih ⊢
    split
    · exact List.prefix_cons_inj _ |>.mpr ih
    · exact List.nil_prefix

/-- The first line is determined. -/
theorem first_line_unique {fontSize available : Rat} (hsize : 0 ≤ fontSize) (hadd : ∀ a b, F.add a b = a + b)
    (hwidth : ∀ id w, F.glyphWidth id = .ok w → 0 ≤ w) {line rest line' tail' : List Nat}
    (hok : LineOk F fontSize available line) (hneed : BreakNeeded F fontSize available line rest)
    (hok' : LineOk F fontSize available line')
    (htail : tail' = [] ∨ ∃ rest', tail' = 32 :: rest' ∧ BreakNeeded F fontSize available line' rest')
    (heq : line ++ 32 :: rest = line' ++ tail') : line = line' := by
  rcases List.append_eq_append_iff.mp heq with ⟨m, h1, h2⟩ | ⟨m, h1, h2⟩
  · -- the other line is longer
    cases m with
    | nil => simpa using h1.symm
    | cons c m =>
      rw [List.cons_append] at h2
      injection h2 with h2 h3
      subst h2
      exfalso
      rw [h1] at hok'
      exact break_absurd hsize hadd hwidth hneed
        (firstWord_prefix h3 (htail.imp id fun ⟨r, hr, _⟩ => ⟨r, hr⟩)) hok'
  · cases m with
    | nil => simpa using h1
    | cons c m =>
      rcases htail with rfl | ⟨rest', rfl, hneed'⟩
      · simp at h2
      · rw [List.cons_append] at h2
        injection h2 with h2 h3
        subst h2
        exfalso
        rw [h1] at hok
        exact break_absurd hsize hadd hwidth hneed' (firstWord_prefix h3 (.inr ⟨_, rfl⟩)) hok

/-- The specification of line breaking determines the lines, if no width is negative. -/
theorem IsBroken.unique {fontSize available : Rat} (hsize : 0 ≤ fontSize) (hadd : ∀ a b, F.add a b = a + b)
    (hwidth : ∀ id w, F.glyphWidth id = .ok w → 0 ≤ w) {text : List Nat} {lines lines' : List (List Nat)}
    (h : IsBroken F fontSize available text lines) (h' : IsBroken F fontSize available text lines') : lines = lines' := by
  induction h generalizing lines' with
  | @whole line hok =>
    cases h' with
    | whole _ => rfl
    | dropped hok' hneed' =>
      have := first_line_unique hsize hadd hwidth hok' hneed' hok (tail' := []) (.inl rfl) (by simp)
      simp at this
    | broken hok' hneed' _ _ =>
      have := first_line_unique hsize hadd hwidth hok' hneed' hok (tail' := []) (.inl rfl) (by simp)
      simp at this
  | @dropped line hok hneed =>
    generalize ht : line ++ [32] = t at h'
    cases h' with
    | whole hok' =>
      subst ht
      have := first_line_unique hsize hadd hwidth hok hneed hok' (tail' := []) (.inl rfl) (by simp)
      simp at this
    | dropped hok' hneed' =>
      rw [(List.append_inj' ht rfl).1]
    | broken hok' hneed' hne _ =>
      have := first_line_unique hsize hadd hwidth hok hneed hok' (.inr ⟨_, rfl, hneed'⟩) ht
      subst this
      simp at ht
      exact absurd ht hne
  | @broken line rest lines hok hneed hne hb ih =>
    generalize ht : line ++ 32 :: rest = t at h'
    cases h' with
    | whole hok' =>
      subst ht
      have := first_line_unique hsize hadd hwidth hok hneed hok' (tail' := []) (.inl rfl) (by simp)
      simp at this
    | dropped hok' hneed' =>
      have := first_line_unique hsize hadd hwidth hok hneed hok' (.inr ⟨_, rfl, hneed'⟩) ht
      subst this
      simp at ht
      exact absurd ht hne
    | broken hok' hneed' hne' hb' =>
      have := first_line_unique hsize hadd hwidth hok hneed hok' (.inr ⟨_, rfl, hneed'⟩) ht
      subst this
      simp at ht
      subst ht
      rw [ih hb']

/-- A line with one text, at its start. -/
def IsTextLine (F : FontApi Rat Err) (style : ComputedValues) (text : List Nat) (line : Line) : Prop :=
  ∃ glyphs width, IsShaped F text glyphs width ∧
    line.texts = [⟨style, glyphs, 0, fontSizeOf style * width, fontSizeOf style * (12 / 10)⟩]

theorem TextLaid.lines {tall : Prop} {style : ComputedValues} {lines : List (List Nat)} {s s' : FlatState}
    (h : TextLaid F tall style lines s s') (hc : s.current = []) (hp : s.position = 0) (height : Rat) :
    ∃ ls, (s'.newLine height).lines = s.lines ++ ls ∧ List.Forall₂ (IsTextLine F style) lines ls := by
  induction h with
  | @last line glyphs width s hs =>
    refine ⟨[⟨s.top, height, [⟨style, glyphs, 0, fontSizeOf style * width, fontSizeOf style * (12 / 10)⟩]⟩], ?_,
      .cons ⟨_, _, hs, rfl⟩ .nil⟩
    simp [FlatState.newLine, FlatState.push, hc, hp]
  | @line line glyphs width lines s height s' hs _ _ _ ih =>
    obtain ⟨ls, h1, h2⟩ := ih rfl rfl
    refine ⟨⟨s.top, height, [⟨style, glyphs, 0, fontSizeOf style * width, fontSizeOf style * (12 / 10)⟩]⟩ :: ls, ?_,
      .cons ⟨_, _, hs, rfl⟩ h2⟩
    rw [h1]
    simp [FlatState.newLine, FlatState.push, hc, hp]

variable (F)

/-- C44 for a text of its own. The lines are those of the specification: the text is broken at spaces, where the next word does
not fit any more. Each line's fragment has the glyphs and the width of exactly the characters of that line. -/
theorem C44_lines (style : ComputedValues) (text : List Nat) (cb : ContainingBlock) (rank : Nat) (fc : FlowChildren)
    (as : List AbsolutelyPositionedFragment) (h : layoutInline F [.textRun style text] cb rank [] = some (fc, as)) :
    ∃ lines : List (List Nat), IsBroken F (fontSizeOf style) cb.inlineSize text lines ∧
      List.Forall₂ (fun text f => ∃ line, IsTextLine F style text line ∧ IsLine cb line f) lines fc.fragments := by
  obtain ⟨s, height, h1, -, h3, -, -⟩ := C60_flow_partial F _ cb rank fc as (by simp [inlineAll, InlineLevelBox.All]) h
  cases h1 with
  | text hb hl hr =>
    cases hr
    obtain ⟨ls, e1, e2⟩ := hl.lines rfl rfl height
    simp only [FlatState.empty, sub_zero] at hb
    refine ⟨_, hb, ?_⟩
    rw [e1] at h3
    simp only [FlatState.empty, List.nil_append] at h3
    clear hb hl e1
    generalize fc.fragments = fs at h3
    induction e2 generalizing fs with
    | nil => cases h3; exact .nil
    | cons h _ ih =>
      cases h3 with
      | cons hf hfs => exact .cons ⟨_, h, hf⟩ (ih _ hfs)

/-- No character is lost or duplicated but for the spaces at line breaks and at most one at the end of the text. -/
theorem C44_text {fontSize available : Rat} {text : List Nat} {lines : List (List Nat)}
    (h : IsBroken F fontSize available text lines) :
    (text = joinLines lines ∨ text = joinLines lines ++ [32]) ∧ text.filter (· ≠ 32) = lines.flatten.filter (· ≠ 32) := by
  refine ⟨h.join, ?_⟩
  have hj : ∀ ls : List (List Nat), (joinLines ls).filter (· ≠ 32) = ls.flatten.filter (· ≠ 32) := by
    intro ls
    induction ls with
    | nil => rfl
    | cons l ls ih =>
      by_cases hl : ls = []
      · subst hl; simp [joinLines]
      · rw [joinLines_cons hl]
        simp only [List.flatten_cons, List.filter_append, ← ih]
        simp
  rcases h.join with e | e
  · rw [← hj, ← e]
  · rw [← hj]
    conv_lhs => rw [e]
    simp

/-- The full claim, for texts that do not end with a space: exactly the spaces at line breaks are dropped. -/
theorem C44_text_partial {fontSize available : Rat} {text : List Nat} {lines : List (List Nat)}
    (h : IsBroken F fontSize available text lines) (hend : text.getLast? ≠ some 32) : text = joinLines lines := by
  rcases h.join with e | e
  · exact e
  · rw [e] at hend
    simp at hend

/-- A line that is too wide has no break opportunity, and a line is broken only if the next word does not fit. -/
theorem C44_fits {fontSize available : Rat} {text : List Nat} {lines : List (List Nat)}
    (h : IsBroken F fontSize available text lines) :
    ∀ line ∈ lines, Fits F fontSize available line ∨ 32 ∉ line :=
  h.lineOk

/-- With a font without negative widths there is only one way to break a text into such lines. -/
theorem C44_unique {fontSize available : Rat} (hsize : 0 ≤ fontSize) (hadd : ∀ a b, F.add a b = a + b)
    (hwidth : ∀ id w, F.glyphWidth id = .ok w → 0 ≤ w) {text : List Nat} {lines lines' : List (List Nat)}
    (h : IsBroken F fontSize available text lines) (h' : IsBroken F fontSize available text lines') : lines = lines' :=
  h.unique hsize hadd hwidth h'

/-- Line breaking terminates, whatever the width, if the font has glyphs for the text. -/
theorem C44_terminates (style : ComputedValues) (text : List Nat) (cb : ContainingBlock) (rank : Nat)
    (hfont : ∀ ch ∈ text, ∃ id w, F.glyphId ch = .ok id ∧ F.glyphWidth id = .ok w) :
    ∃ fc as, layoutInline F [.textRun style text] cb rank [] = some (fc, as) := by
  obtain ⟨fc, as, h, -⟩ := layoutInline_some (F := F) [.textRun style text] cb rank (by
    simp only [inlinesWf, InlineLevelBox.Wf, and_true]
    exact hfont)
  exact ⟨fc, as, h⟩

/-! ### Examples -/

/-- The text fragments of each line: glyphs, inline position, width. -/
def lineSummary (r : Option (FlowChildren × List AbsolutelyPositionedFragment)) : List (List (List Nat × Rat × Rat)) :=
  match r with
  | some (fc, _) => fc.fragments.map fun f => (f.texts 0).map fun t => (t.glyphs, t.x, t.width)
  | none => []

/-- The style of an inline box with a left padding, a right border, and a position. -/
def inlineStyle (paddingLeft borderRight : Rat) (position : Position) (left : LengthOrPercentageOrAuto) : ComputedValues :=
  postCascadeFixups (((((initialValues.set .paddingLeft (LengthOrPercentage.length paddingLeft)).set .borderRightWidth
    (LengthOrPercentage.length borderRight)).set .borderRightStyle LineStyle.solid).set .position position).set .left left)

/-- All the characters of the example font are 16 pixels wide. -/
def plainStyle : ComputedValues := postCascadeFixups initialValues

/-- Codes of characters. -/
def codes (s : String) : List Nat := s.toList.map Char.toNat

theorem exampleShaped (text : List Nat) : IsShaped exampleFont text text text.length := by
  induction text using List.reverseRecOn with
  | nil => exact .nil
  | append_singleton text ch ih =>
    have h := IsShaped.snoc (ch := ch) (id := ch) (w := 1) ih rfl rfl
    simpa [exampleFont] using h

/-- `aa <span>bb cc</span> dd`, in 100 pixels: the span begins at 48 + 5 pixels on the first line, and ends on the second one. -/
example : lineSummary (layoutInline exampleFont
      [.textRun plainStyle (codes "aa "), .inlineBox (inlineStyle 5 7 .static .auto) true true [.textRun plainStyle (codes "bb cc")],
        .textRun plainStyle (codes " dd")] ⟨100, .auto, (.horizontalTb, .ltr)⟩ 0 []) =
    [[(codes "aa ", 0, 48), (codes "bb", 53, 32)], [(codes "cc", 0, 32), (codes " dd", 39, 48)]] := by
  decide +kernel

/-- C44 does not hold: of `ab ` and `c` in 40 pixels the space is dropped, since it does not fit, but the `c` follows the `b` on the
same line. -/
theorem C44_text_violated :
    ∃ (first second : List Nat) (cb : ContainingBlock), first.getLast? = some 32 ∧
      lineSummary (layoutInline exampleFont [.textRun plainStyle first, .textRun plainStyle second] cb 0 []) =
        [[(first.dropLast, 0, 32), (second, 32, 16)]] :=
  ⟨codes "ab ", codes "c", ⟨40, .auto, (.horizontalTb, .ltr)⟩, by decide +kernel⟩

/-- C61: the lines of a text that begins at the start of a line are as long as possible: a line is broken only if it is wider than
the containing block together with the first word of the next one. -/
theorem C61_full_lines_partial (style : ComputedValues) (text : List Nat) (cb : ContainingBlock) (rank : Nat)
    (rest : List InlineLevelBox) (hrel : inlineAll (fun s => positionOf s ≠ .relative) rest) (fc : FlowChildren)
    (as : List AbsolutelyPositionedFragment) (h : layoutInline F (.textRun style text :: rest) cb rank [] = some (fc, as)) :
    ∃ (lines : List (List Nat)) (s s' : FlatState) (height : Rat), IsBroken F (fontSizeOf style) cb.inlineSize text lines ∧
      TextLaid F (inlineAll (fun s => 0 ≤ Css.verticalEdges cb s) rest) style lines .empty s ∧
      Laid F (inlineAll (fun s => 0 ≤ Css.verticalEdges cb s) rest) cb rest s s' ∧
      List.Forall₂ (IsLine cb) (s'.newLine height).lines fc.fragments := by
  obtain ⟨s', height, h1, -, h3, -, -⟩ := C60_flow_partial F _ cb rank fc as
    (by simpa [inlineAll, InlineLevelBox.All] using hrel) h
  simp only [inlineAll, InlineLevelBox.All, true_and] at h1
  cases h1 with
  | text hb hl hr =>
    simp only [FlatState.empty, sub_zero] at hb
    exact ⟨_, _, _, _, hb, hl, hr, h3⟩

/-- C61 does not hold for a text that begins in the middle of a line: in 128 pixels, `d e` and `f` are on lines of their own, since
only three characters fit after `aaaa ` on the first line. -/
theorem C61_full_lines_violated :
    ∃ (first second : List Nat) (cb : ContainingBlock),
      lineSummary (layoutInline exampleFont [.textRun plainStyle first, .textRun plainStyle second] cb 0 []) =
        [[(first, 0, 80), (codes "b c", 80, 48)], [(codes "d e", 0, 48)], [(codes "f", 0, 16)]] ∧
      Fits exampleFont (fontSizeOf plainStyle) cb.inlineSize (codes "d e f") :=
  ⟨codes "aaaa ", codes "b c d e f", ⟨128, .auto, (.horizontalTb, .ltr)⟩, by decide +kernel,
    _, _, exampleShaped _, by decide +kernel⟩

/-- C60 does not hold for relatively positioned inline boxes: the texts of a box with `left: 10px` are 10 pixels to the right on the
first line only. -/
theorem C60_flow_violated :
    ∃ (s : ComputedValues) (text : List Nat) (cb : ContainingBlock), Css.displacement cb s = ⟨10, 0⟩ ∧
      lineSummary (layoutInline exampleFont [.inlineBox s true true [.textRun plainStyle text]] cb 0 []) =
        [[(codes "b", 10, 16)], [(codes "c", 0, 16)]] :=
  ⟨inlineStyle 0 0 .relative (.length 10), codes "b c", ⟨32, .auto, (.horizontalTb, .ltr)⟩, by decide +kernel, by decide +kernel⟩

/-- The hypotheses of C44 are met: the text `aa bb` is broken, in 64 pixels, into `aa` and `bb`. -/
example : IsBroken exampleFont 16 64 (codes "aa bb") [codes "aa", codes "bb"] := by
  refine .broken (line := codes "aa") (rest := codes "bb") (.inl ⟨_, _, exampleShaped _, by decide +kernel⟩)
    (.inr ⟨_, _, exampleShaped _, by decide +kernel⟩) (by decide +kernel) (.whole ?_)
  exact .inl ⟨_, _, exampleShaped _, by decide +kernel⟩

end Verif.Layout
