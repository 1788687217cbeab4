/- **C125**: rounding changes no line of a document and moves nothing to the left or to the right. -/
import Verif.Layout.RowsFlow
import Verif.Layout.LinesTheorems
namespace Verif.Layout.Machine
open Verif.Style Verif.Text Verif.Float Verif.Font

attribute [local instance] singleNumbers exactNumbers

section
variable {P Q : Single → Rat → Prop} (hi : ∀ a a', P a a' → Q a a')
include hi

mutual
theorem RowsAgree.imp : ∀ (f : Fragment Single) (f' : Fragment Rat), RowsAgree P f f' → RowsAgree Q f f'
  | .box _ c, _, h => by
    cases h with
    | box h1 h2 h3 h4 h5 h6 hc =>
      exact .box h1 (hi _ _ h2) (hi _ _ h3) ⟨hi _ _ h4.1, hi _ _ h4.2⟩ ⟨hi _ _ h5.1, hi _ _ h5.2⟩ ⟨hi _ _ h6.1, hi _ _ h6.2⟩
        (RowsAgree.impAll c _ hc)
  | .anonymous _ c m, _, h => by
    cases h with
    | anonymous h1 h2 hc => exact .anonymous (hi _ _ h1) (hi _ _ h2) (RowsAgree.impAll c _ hc)
  | .text _ _ _, _, h => by
    cases h with
    | text h1 h2 h3 h4 => exact .text (hi _ _ h1) (hi _ _ h2) h3 h4
theorem RowsAgree.impAll : ∀ (fs : List (Fragment Single)) (fs' : List (Fragment Rat)), List.Forall₂ (RowsAgree P) fs fs' →
    List.Forall₂ (RowsAgree Q) fs fs'
  | [], _, h => by cases h; exact .nil
  | f :: fs, _, h => by
    cases h with
    | cons h1 h2 => exact .cons (RowsAgree.imp f _ h1) (RowsAgree.impAll fs _ h2)
end
end

section
variable {Err : Type} {api : FontApi Single Err} {advance : Nat → Nat} {e : Nat}

theorem shapable_exactFont {ch : Nat} (h : Shapable api ch) : Shapable (exactFont api (2 ^ e) advance) ch := by
  obtain ⟨id, w, h1, h2⟩ := h
  exact ⟨id, (advance id : Rat) / (2 ^ e : Nat), h1, by simp only [exactFont, h2, Except.map]⟩

mutual
theorem containerWf_exactFont : ∀ {c : BlockContainer}, c.Wf api → c.Wf (exactFont api (2 ^ e) advance)
  | .blockLevelBoxes _, h => by rw [BlockContainer.Wf] at h ⊢; exact blocksWf_exactFont h
  | .inlineFormattingContext _, h => by rw [BlockContainer.Wf] at h ⊢; exact inlinesWf_exactFont h
theorem boxWf_exactFont : ∀ {b : BlockLevelBox}, b.Wf api → b.Wf (exactFont api (2 ^ e) advance)
  | .sameFormattingContextBlock _ _, h => by rw [BlockLevelBox.Wf] at h ⊢; exact containerWf_exactFont h
  | .outOfFlowAbsolutelyPositioned _ _ _, h => by rw [BlockLevelBox.Wf] at h ⊢; exact containerWf_exactFont h
  | .outOfFlowFloat _ _ _, h => by rw [BlockLevelBox.Wf] at h ⊢; exact containerWf_exactFont h
  | .independent _ _ _, h => by rw [BlockLevelBox.Wf] at h ⊢; exact containerWf_exactFont h
theorem blocksWf_exactFont : ∀ {bs : List BlockLevelBox}, blocksWf api bs → blocksWf (exactFont api (2 ^ e) advance) bs
  | [], _ => by rw [blocksWf]; trivial
  | _ :: _, h => by rw [blocksWf] at h ⊢; exact ⟨boxWf_exactFont h.1, blocksWf_exactFont h.2⟩
theorem inlineWf_exactFont : ∀ {b : InlineLevelBox}, b.Wf api → b.Wf (exactFont api (2 ^ e) advance)
  | .inlineBox _ _ _ _, h => by rw [InlineLevelBox.Wf] at h ⊢; exact inlinesWf_exactFont h
  | .textRun _ _, h => by rw [InlineLevelBox.Wf] at h ⊢; exact fun ch hc => shapable_exactFont (h ch hc)
  | .outOfFlowAbsolutelyPositioned _ _ _, h => by rw [InlineLevelBox.Wf] at h ⊢; exact ⟨h.1, containerWf_exactFont h.2⟩
  | .outOfFlowFloat _ _ _, h => by rw [InlineLevelBox.Wf] at h ⊢; exact containerWf_exactFont h
theorem inlinesWf_exactFont : ∀ {bs : List InlineLevelBox}, inlinesWf api bs → inlinesWf (exactFont api (2 ^ e) advance) bs
  | [], _ => by rw [inlinesWf]; trivial
  | _ :: _, h => by rw [inlinesWf] at h ⊢; exact ⟨inlineWf_exactFont h.1, inlinesWf_exactFont h.2⟩
end

/-- **C125**: with `f32`, a document whose lengths, sizes of fonts and units of the font are whole numbers of pixels, or of the fraction
`1 / 2 ^ k` of them, has the same boxes as with the numbers of mathematics, the same lines with the same glyphs in them, and everything is
exactly at the same horizontal position and has exactly the same width. -/
theorem C125_rows (hf : EmFont api (2 ^ e) advance) (he : e < 16) (k : Nat) (hk : k ≤ 100) (root : BlockFormattingContext)
    (width height : Rat) (hr : root.contents.Ruled k e) (hw : Whole k width)
    (hs : |width| + root.contents.reach (textUnits api advance) e < 2 ^ 23 / 2 ^ k) (fuel : Nat) (schedule : Oracle)
    (fs : List (Fragment Single)) (gs : List (Fragment Rat))
    (h : layoutRoot api fuel schedule root ⟨Single.round width, Single.round height⟩ = some fs)
    (h' : layoutRoot (exactFont api (2 ^ e) advance) fuel schedule root ⟨width, height⟩ = some gs) :
    List.Forall₂ (RowsAgree Exactly) fs gs := by
  have S := whole_simulation hk hs
  have n0 := containerReach_nonneg (textUnits api advance) e root.contents
  have hI : WholeIs k false |width| (Single.round width) width := by
    refine ⟨whole_round (by omega) false hw (lt_of_le_of_lt (show |width| ≤ |width| + root.contents.reach (textUnits api advance) e by linarith)
      (lt_trans hs ?_)), hw, le_refl _⟩
    exact div_lt_div_of_pos_right (by norm_num) (by positivity)
  have := layoutRoot_rows S (fun style h1 h2 => extent_style hk hs h1 h2) hk hs hf he fuel schedule root
    ⟨Single.round width, Single.round height⟩ ⟨width, height⟩ |width| hr hI (le_refl _) fs h gs h'
  exact RowsAgree.impAll (fun a a' h => h.1) fs gs this

/-- **C125**: and there are such layouts, if the font has all characters. -/
theorem C125_exists (hf : EmFont api (2 ^ e) advance) (he : e < 16) (k : Nat) (hk : k ≤ 100) (root : BlockFormattingContext)
    (width height : Rat) (hr : root.contents.Ruled k e) (hw : Whole k width)
    (hs : |width| + root.contents.reach (textUnits api advance) e < 2 ^ 23 / 2 ^ k) (hwf : root.contents.Wf api) (fuel : Nat)
    (hfuel : root.contents.depth ≤ fuel) (schedule : Oracle) :
    ∃ fs gs, layoutRoot api fuel schedule root ⟨Single.round width, Single.round height⟩ = some fs ∧
      layoutRoot (exactFont api (2 ^ e) advance) fuel schedule root ⟨width, height⟩ = some gs ∧ List.Forall₂ (RowsAgree Exactly) fs gs := by
  have hz : ZeroLaws Single := single_zeroLaws
  have hz' : ZeroLaws Rat := ⟨by decide +kernel, by decide +kernel⟩
  obtain ⟨fs, hfs⟩ := C115_total api root hwf fuel hfuel schedule ⟨Single.round width, Single.round height⟩
  obtain ⟨gs, hgs⟩ := C115_total (exactFont api (2 ^ e) advance) root (containerWf_exactFont hwf) fuel hfuel schedule ⟨width, height⟩
  exact ⟨fs, gs, hfs, hgs, C125_rows hf he k hk root width height hr hw hs fuel schedule fs gs hfs hgs⟩
end

/-- **C125** of a document, on the page of 600 by 800 pixels that the code makes, with the font that is part of the program. It has 2048 units per
em, so that `k = 7` is enough if the sizes of fonts are multiples of 16 pixels, and `k = 11` if they are whole numbers of pixels. -/
theorem C125_document {σ : Type} (engine : Engine σ) {font : Font} (hv : Font.parse vera = .ok font) (d : Verif.Dom.Document) (k : Nat)
    (hk : k ≤ 100) (root : BlockFormattingContext) (fuel : Nat) (schedule : Oracle) (hd : constructDocument engine d fuel = some root)
    (hr : root.contents.Ruled k 11)
    (hs : 600 + root.contents.reach (textUnits (singleFont font) (advanceOf font)) 11 < 2 ^ 23 / 2 ^ k)
    (fs : List (Fragment Single)) (gs : List (Fragment Rat))
    (h : layoutDocument engine (singleFont font) d fuel schedule ⟨Single.round 600, Single.round 800⟩ = some fs)
    (h' : layoutDocument engine (exactFont (singleFont font) (2 ^ 11) (advanceOf font)) d fuel schedule ⟨600, 800⟩ = some gs) :
    List.Forall₂ (RowsAgree Exactly) fs gs := by
  simp only [layoutDocument, hd] at h h'
  refine C125_rows (C120_built_in hv) (by norm_num) k hk root 600 800 hr ⟨600 * 2 ^ k, ?_⟩ ?_ fuel schedule fs gs h h'
  · push_cast
    rw [mul_div_assoc, div_self (by positivity), mul_one]
  · rw [abs_of_pos (by norm_num)]
    exact hs

/-! ### An example -/

/-- `p { margin-left: 5px; width: 44px } span { padding-left: 3px; margin-right: 2px }` -/
def rowEngine : Engine String :=
  { exampleEngine with
    ua := ⟨[("html", displayBlock (.generatingBox .block .flow)),
            ("p", { declarations := [.value .display (.generatingBox .block .flow), .value .marginLeft (.length (.absolute 5)),
                      .value .width (.length (.absolute 44))],
                    important := [false, false, false], anyNormal := ⟨false, true⟩ }),
            ("span", { declarations := [.value .paddingLeft (.length (.absolute 3)), .value .marginRight (.length (.absolute 2))],
                       important := [false, false], anyNormal := ⟨false, true⟩ })]⟩ }

/-- `<html><p>aa<span>b cc dd</span>e</p></html>` -/
def rowDocument : Verif.Dom.Document :=
  { Verif.Dom.Document.new with nodes :=
    [ Verif.Dom.Node.new .document,
      ⟨none, none, none, some 2, some 2, .document⟩,
      exampleElement "html" (some 1) none none (some 3) (some 3),
      exampleElement "p" (some 2) none none (some 4) (some 7),
      ⟨some 3, some 5, none, none, none, .text "aa"⟩,
      exampleElement "span" (some 3) (some 7) (some 4) (some 6) (some 6),
      ⟨some 5, none, none, none, none, .text "b cc dd"⟩,
      ⟨some 3, none, some 5, none, none, .text "e"⟩ ] }

mutual
/-- A test for `BlockContainer.Ruled`. -/
def ruledTest (k e : Nat) : BlockContainer → Bool
  | .blockLevelBoxes boxes => ruledBlocksTest k e boxes
  | .inlineFormattingContext boxes => ruledLineTest k e boxes
/-- See `ruledTest`. -/
def ruledBoxTest (k e : Nat) : BlockLevelBox → Bool
  | .sameFormattingContextBlock style contents => wholeStyleTest k style && ruledTest k e contents
  | .outOfFlowAbsolutelyPositioned _ _ _ => false
  | .outOfFlowFloat _ _ _ => true
  | .independent style _ contents => wholeStyleTest k style && ruledTest k e contents
/-- See `ruledTest`. -/
def ruledBlocksTest (k e : Nat) : List BlockLevelBox → Bool
  | [] => true
  | b :: bs => ruledBoxTest k e b && ruledBlocksTest k e bs
/-- See `ruledTest`. -/
def ruledInlineTest (k e : Nat) : InlineLevelBox → Bool
  | .inlineBox style _ _ children => wholeStyleTest k style && ruledLineTest k e children
  | .textRun style _ => decide (0 < fontSizeOf style) && (wholeTest k (fontSizeOf style) && wholeTest k (fontSizeOf style / 2 ^ e))
  | .outOfFlowAbsolutelyPositioned _ _ _ => false
  | .outOfFlowFloat _ _ _ => true
/-- See `ruledTest`. -/
def ruledLineTest (k e : Nat) : List InlineLevelBox → Bool
  | [] => true
  | b :: bs => ruledInlineTest k e b && ruledLineTest k e bs
end

mutual
theorem ruledTest_sound {k e : Nat} : ∀ {c : BlockContainer}, ruledTest k e c = true → c.Ruled k e
  | .blockLevelBoxes _, h => by rw [ruledTest] at h; rw [BlockContainer.Ruled]; exact ruledBlocksTest_sound h
  | .inlineFormattingContext _, h => by rw [ruledTest] at h; rw [BlockContainer.Ruled]; exact ruledLineTest_sound h
theorem ruledBoxTest_sound {k e : Nat} : ∀ {b : BlockLevelBox}, ruledBoxTest k e b = true → b.Ruled k e
  | .sameFormattingContextBlock _ _, h => by
    rw [ruledBoxTest, Bool.and_eq_true] at h; rw [BlockLevelBox.Ruled]; exact ⟨wholeStyleTest_sound h.1, ruledTest_sound h.2⟩
  | .outOfFlowAbsolutelyPositioned _ _ _, h => by rw [ruledBoxTest] at h; cases h
  | .outOfFlowFloat _ _ _, _ => by rw [BlockLevelBox.Ruled]; trivial
  | .independent _ _ _, h => by
    rw [ruledBoxTest, Bool.and_eq_true] at h; rw [BlockLevelBox.Ruled]; exact ⟨wholeStyleTest_sound h.1, ruledTest_sound h.2⟩
theorem ruledBlocksTest_sound {k e : Nat} : ∀ {bs : List BlockLevelBox}, ruledBlocksTest k e bs = true → ruledBlocks k e bs
  | [], _ => by rw [ruledBlocks]; trivial
  | _ :: _, h => by
    rw [ruledBlocksTest, Bool.and_eq_true] at h; rw [ruledBlocks]; exact ⟨ruledBoxTest_sound h.1, ruledBlocksTest_sound h.2⟩
theorem ruledInlineTest_sound {k e : Nat} : ∀ {b : InlineLevelBox}, ruledInlineTest k e b = true → b.Ruled k e
  | .inlineBox _ _ _ _, h => by
    rw [ruledInlineTest, Bool.and_eq_true] at h; rw [InlineLevelBox.Ruled]; exact ⟨wholeStyleTest_sound h.1, ruledLineTest_sound h.2⟩
  | .textRun _ _, h => by
    rw [ruledInlineTest, Bool.and_eq_true, Bool.and_eq_true] at h
    rw [InlineLevelBox.Ruled]
    exact ⟨of_decide_eq_true h.1, wholeTest_sound h.2.1, wholeTest_sound h.2.2⟩
  | .outOfFlowAbsolutelyPositioned _ _ _, h => by rw [ruledInlineTest] at h; cases h
  | .outOfFlowFloat _ _ _, _ => by rw [InlineLevelBox.Ruled]; trivial
theorem ruledLineTest_sound {k e : Nat} : ∀ {bs : List InlineLevelBox}, ruledLineTest k e bs = true → ruledLine k e bs
  | [], _ => by rw [ruledLine]; trivial
  | _ :: _, h => by
    rw [ruledLineTest, Bool.and_eq_true] at h; rw [ruledLine]; exact ⟨ruledInlineTest_sound h.1, ruledLineTest_sound h.2⟩
end

/-- The texts: the position of each in the box around it, its width and its glyphs. -/
def shownTexts : Nat → List (Fragment Single) → List (Rat × Rat × List Nat)
  | 0, _ => []
  | n + 1, fs => fs.flatMap fun
    | .box _ c => shownTexts n c
    | .anonymous _ c _ => shownTexts n c
    | .text _ rect segment => [(rect.startCorner.inline.value, rect.size.inline.value, segment.glyphs)]

theorem rowEngine_sheets {d : Verif.Dom.Document} (h : d.styleElements = []) : parseStylesheets rowEngine d = some ⟨[]⟩ := by
  simp [parseStylesheets, h, Verif.Dom.Document.stylesheetTexts, addStylesheets, StyleSet.finish]

/-- The hypotheses of `C125_rows` are met by `rowDocument`, with `k = 7`, in a font of which all glyphs are half an em wide. The paragraph is broken
after `b` and after `cc`, in the `span`; the `e` is after the margin of the `span`. -/
theorem C125_example :
    (constructDocument rowEngine rowDocument 9).map (fun root => (ruledTest 7 11 root.contents,
      decide (root.contents.reach (textUnits halfFont fun _ => 1024) 11 = 1456))) = some (true, true) ∧
    (600 + 1456 : Rat) < 2 ^ 23 / 2 ^ 7 ∧
    (layoutDocument rowEngine halfFont rowDocument 9 inOrder ⟨Single.round 600, Single.round 800⟩).map (shownTexts 9) =
      some [(0, 16, codes "aa"), (0, 8, codes "b"), (0, 16, codes "cc"), (0, 16, codes "dd"), (18, 8, codes "e")] := by
  have hp : parseStylesheets rowEngine rowDocument = some ⟨[]⟩ := rowEngine_sheets rfl
  refine ⟨?_, by norm_num, ?_⟩
  · simp only [constructDocument, hp]
    decide +kernel
  · simp only [layoutDocument, constructDocument, hp]
    decide +kernel

end Verif.Layout.Machine
