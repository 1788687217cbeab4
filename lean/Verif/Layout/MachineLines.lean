/- The lines of a paragraph with any arithmetic: lemmas for C120. -/
import Verif.Layout.LinesSpec
import Verif.Layout.MachineTotal
import Verif.Layout.InlineLemmas
set_option linter.unusedSectionVars false
namespace Verif.Layout.Machine
open Verif.Style Verif.Text
variable {R : Type} [Numbers R] {Err : Type} {F : FontApi R Err}

/-- A line that can be broken is not too wide. -/
abbrev LineOkBy (F : FontApi R Err) (fontSize available : R) (line : List Nat) : Prop := Wide F fontSize available line false ∨ 32 ∉ line

/-- The next word does not fit on the line, or the line is already too wide. -/
abbrev NeededBy (F : FontApi R Err) (fontSize available : R) (line rest : List Nat) : Prop :=
  Wide F fontSize available line true ∨ Wide F fontSize available (line ++ 32 :: firstWord rest) true

/-- What is known of the last break opportunity: the text before it fits, and what follows it has no space. -/
def LastFit (F : FontApi R Err) (fontSize available : R) (done chars : List Nat) (shaped : ShapedSegment R) :
    Option (ShapedSegmentState R × List Nat) → Prop
  | none => 32 ∉ done
  | some (state, iter) => ∃ t w, done = t ++ 32 :: w ∧ 32 ∉ w ∧ iter = w ++ chars ∧
      IsShaped F t (shaped.glyphs.take state.glyphs) state.advanceWidth ∧ state.glyphs ≤ shaped.glyphs.length ∧
      Numbers.gt (fontSize * state.advanceWidth) available = false

theorem firstWord_space {w tail : List Nat} (hw : 32 ∉ w) (ht : tail = [] ∨ ∃ t, tail = 32 :: t) : firstWord (w ++ tail) = w := by
  rw [firstWord, List.takeWhile_append_of_pos]
  · rcases ht with rfl | ⟨t, rfl⟩ <;> simp
  · intro x hx
    simp only [ne_eq, decide_eq_true_eq]
    rintro rfl
    exact hw hx

theorem shapeLine_fits (fontSize available : R) :
    ∀ (chars done : List Nat) (shaped : ShapedSegment R) (last : Option (ShapedSegmentState R × List Nat))
      (shaped' : ShapedSegment R) (rest : List Nat),
      IsShaped F done shaped.glyphs shaped.advanceWidth → LastFit F fontSize available done chars shaped last →
      shapeLine F fontSize available chars shaped last = some (shaped', rest) →
      ∃ line, IsShaped F line shaped'.glyphs shaped'.advanceWidth ∧ LineOkBy F fontSize available line ∧
        ((done ++ chars = line ∧ rest = []) ∨
         (done ++ chars = line ++ 32 :: rest ∧ NeededBy F fontSize available line rest)) := by
  intro chars
  induction chars with
  | nil =>
    intro done shaped last shaped' rest hs hl h
    simp only [shapeLine] at h
    split at h
    · rename_i hover
      rcases last with _ | ⟨state, iter⟩
      · simp only [Option.some.injEq, Prod.mk.injEq] at h
        obtain ⟨rfl, rfl⟩ := h
        exact ⟨done, hs, Or.inr hl, Or.inl ⟨by simp, rfl⟩⟩
      · simp only [Option.some.injEq, Prod.mk.injEq] at h
        obtain ⟨rfl, rfl⟩ := h
        obtain ⟨t, w, rfl, hw, rfl, hshape, hle, hfit⟩ := hl
        refine ⟨t, hshape, Or.inl ⟨_, _, hshape, hfit⟩, Or.inr ⟨by simp, Or.inr ?_⟩⟩
        rw [firstWord_space hw (.inl rfl)]
        exact ⟨_, _, hs, hover⟩
    · rename_i hfit
      simp only [Option.some.injEq, Prod.mk.injEq] at h
      obtain ⟨rfl, rfl⟩ := h
      exact ⟨done, hs, Or.inl ⟨_, _, hs, by simpa using hfit⟩, Or.inl ⟨by simp, rfl⟩⟩
  | cons ch chars ih =>
    intro done shaped last shaped' rest hs hl h
    simp only [shapeLine] at h
    split at h
    · rename_i hover
      obtain ⟨rfl, hover⟩ := hover
      rcases last with _ | ⟨state, iter⟩
      · simp only [Option.some.injEq, Prod.mk.injEq] at h
        obtain ⟨rfl, rfl⟩ := h
        exact ⟨done, hs, Or.inr hl, Or.inr ⟨rfl, Or.inl ⟨_, _, hs, hover⟩⟩⟩
      · simp only [Option.some.injEq, Prod.mk.injEq] at h
        obtain ⟨rfl, rfl⟩ := h
        obtain ⟨t, w, rfl, hw, rfl, hshape, hle, hfit⟩ := hl
        refine ⟨t, hshape, Or.inl ⟨_, _, hshape, hfit⟩, Or.inr ⟨by simp, Or.inr ?_⟩⟩
        rw [firstWord_space hw (.inr ⟨_, rfl⟩)]
        exact ⟨_, _, hs, hover⟩
    · rename_i hnot
      rcases appendChar_eq F shaped ch with ⟨id, w, hid, hw, he⟩ | ⟨-, e, he⟩
      · simp only [he] at h
        have hs' : IsShaped F (done ++ [ch]) (shaped.glyphs ++ [id]) (F.add shaped.advanceWidth w) := .snoc hs hid hw
        have key := ih (done ++ [ch]) _ _ shaped' rest hs' ?_ h
        · simpa using key
        · split
          · rename_i hch
            subst hch
            have hfit : Numbers.gt (fontSize * shaped.advanceWidth) available = false := by
              rcases hc : Numbers.gt (fontSize * shaped.advanceWidth) available with _ | _
              · rfl
              · exact absurd ⟨rfl, hc⟩ hnot
            refine ⟨done, [], rfl, by simp, rfl, ?_, ?_, hfit⟩
            · simpa [ShapedSegment.save] using hs
            · simp [ShapedSegment.save]
          · rename_i hch
            rcases last with _ | ⟨state, iter⟩
            · simp only [LastFit] at hl ⊢
              simp only [List.mem_append, List.mem_singleton, not_or]
              exact ⟨hl, fun h => hch h.symm⟩
            · obtain ⟨t, w', rfl, hw', rfl, hshape, hle, hfit⟩ := hl
              refine ⟨t, w' ++ [ch], by simp, ?_, by simp, ?_, ?_, hfit⟩
              · simp only [List.mem_append, List.mem_singleton, not_or]
                exact ⟨hw', fun h => hch h.symm⟩
              · rw [List.take_append_of_le_length hle]; exact hshape
              · simp only [List.length_append]; omega
      · simp [he] at h

/-- Where the current line of a paragraph begins: nothing is on it yet. -/
def Fresh (ifc : InlineState R) : Prop :=
  ifc.inlinePosition = 0 ∧ ifc.stack = [] ∧ ifc.current.fragmentsSoFar = [] ∧ ifc.current.inlineStart = 0 ∧ ifc.current.maxBlockSize = 0

/-- The lines of a text, from the start of a line on. -/
theorem textLines_lines {cb : ContainingBlock R} (style : ComputedValues) (available : R) :
    ∀ (fuel : Nat) (chars : List Nat) (ifc ifc' : InlineState R), Fresh ifc →
      textLines F cb style available fuel chars ifc = some ifc' →
      ∃ lines segments, BrokenBy (LineOkBy F (Numbers.lengths style).fontSize available)
          (NeededBy F (Numbers.lengths style).fontSize available) chars lines ∧
        List.Forall₂ (fun line (s : ShapedSegment R) => IsShaped F line s.glyphs s.advanceWidth) lines segments ∧
        (finishLine ifc'.lineBoxes ifc'.current cb).1.boxes = ifc.lineBoxes.boxes ++
          lineBoxesOf cb style (max 0 (Numbers.lineHeight (Numbers.lengths style).fontSize)) ifc.lineBoxes.nextLineBlockPosition segments ∧
        ifc'.stack = [] ∧ ifc'.current.remainingBoxes = ifc.current.remainingBoxes := by
  intro fuel
  induction fuel with
  | zero => intro chars ifc ifc' _ h; simp [textLines] at h
  | succ fuel ih =>
    intro chars ifc ifc' hfresh h
    obtain ⟨f1, f2, f3, f4, f5⟩ := hfresh
    simp only [textLines] at h
    rcases hs : shapeLine F (Numbers.lengths style).fontSize available chars (ShapedSegment.new F) none with _ | ⟨shaped, rest⟩
    · simp [hs] at h
    simp only [hs] at h
    obtain ⟨line, hl1, hl2, hl3⟩ : ∃ line, IsShaped F line shaped.glyphs shaped.advanceWidth ∧
        LineOkBy F (Numbers.lengths style).fontSize available line ∧ ((chars = line ∧ rest = []) ∨
         (chars = line ++ 32 :: rest ∧ NeededBy F (Numbers.lengths style).fontSize available line rest)) := by
      have := shapeLine_fits _ _ chars [] (ShapedSegment.new F) none shaped rest .nil (by simp [LastFit]) hs
      simpa using this
    by_cases hrest : rest = []
    · rw [if_pos hrest] at h
      injection h with h
      subst h
      refine ⟨[line], [shaped], ?_, .cons hl1 .nil, ?_, ?_, rfl⟩
      · rcases hl3 with ⟨rfl, -⟩ | ⟨rfl, hb⟩
        · exact .whole hl2
        · rw [hrest] at hb ⊢
          exact .dropped hl2 hb
      · simp only [finishLine, pushText, lineBoxesOf, f1, f3, f4, f5, List.nil_append]
      · simp only [pushText, f2]
    · rw [if_neg hrest] at h
      simp only [pushText, f1, f2, f3, f4, f5, breakLine, finishLine, List.nil_append] at h
      obtain ⟨lines, segments, j1, j2, j3, j4, j5⟩ := ih rest _ ifc' ⟨rfl, rfl, rfl, rfl, rfl⟩ h
      rcases hl3 with ⟨-, hn⟩ | ⟨rfl, hb⟩
      · exact absurd hn hrest
      · refine ⟨line :: lines, shaped :: segments, .broken hl2 hb hrest j1, .cons hl1 j2, ?_, j4, j5⟩
        rw [j3]
        simp only [lineBoxesOf, List.append_assoc, List.cons_append, List.nil_append]

/-- The lines of a paragraph, whatever the arithmetic. -/
theorem layoutInline_lines (style : ComputedValues) (text : List Nat) (cb : ContainingBlock R) (rank : Nat) (fc : FlowChildren R)
    (as : List (AbsolutelyPositionedFragment R)) (h : layoutInline F [.textRun style text] cb rank [] = some (fc, as)) :
    ∃ lines segments, BrokenBy (LineOkBy F (Numbers.lengths style).fontSize (cb.inlineSize - 0))
        (NeededBy F (Numbers.lengths style).fontSize (cb.inlineSize - 0)) text lines ∧
      List.Forall₂ (fun line (s : ShapedSegment R) => IsShaped F line s.glyphs s.advanceWidth) lines segments ∧
      fc.fragments = lineBoxesOf cb style (max 0 (Numbers.lineHeight (Numbers.lengths style).fontSize)) 0 segments ∧ as = [] := by
  unfold layoutInline at h
  generalize hc : costs [InlineLevelBox.textRun style text] = c at h
  simp only [inlineLoop, inlineStep, initialInlineState] at h
  rcases ht : layoutTextRun F cb style text
    { lineBoxes := ⟨[], 0⟩, inlinePosition := 0, stack := [], current := ⟨[], [], 0, 0⟩ } with _ | ifc
  · simp [ht] at h
  simp only [ht] at h
  obtain ⟨lines, segments, j1, j2, j3, j4, j5⟩ := textLines_lines style _ _ text _ ifc ⟨rfl, rfl, rfl, rfl, rfl⟩ ht
  rcases c with _ | c
  · simp [inlineLoop] at h
  simp only [inlineLoop, inlineStep, j5, j4] at h
  simp only [Option.some.injEq, Prod.mk.injEq] at h
  obtain ⟨rfl, rfl⟩ := h
  exact ⟨lines, segments, j1, j2, by simpa using j3, rfl⟩

end Verif.Layout.Machine
