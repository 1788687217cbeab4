/- **C127**: rounding moves nothing far up or down. -/
import Verif.Layout.ColumnsFlow
import Verif.Layout.RowsTheorems
namespace Verif.Layout.Machine
open Verif.Style Verif.Text Verif.Float Verif.Font

attribute [local instance] singleNumbers exactNumbers

section
variable {Err : Type} {api : FontApi Single Err} {advance : Nat → Nat} {e : Nat}

/-- **C127**: for a document as in `C125_rows`, all vertical positions and heights are finite numbers, and differ from those of layout with the
numbers of mathematics by at most `n * m / 2 ^ 23` pixels, in which `n` is about the number of fragments below each other, added up over the
boxes inside each other, and `m` the sum of the lengths of the document and of the heights of its lines. The heights of lines are 1.2 times the size of
the font, which most often is no `f32`, so that there are errors to add up. After the end of a line in an inline element the code keeps the height
of the element's part of it for the next line (inline.rs 301-345), so that `Low` is about whole paragraphs. -/
theorem C127_columns (hf : EmFont api (2 ^ e) advance) (he : e < 16) (k : Nat) (hk : k ≤ 100) (root : BlockFormattingContext)
    (width height : Rat) (hr : root.contents.Ruled k e) (hw : Whole k width)
    (hs : |width| + root.contents.reach (textUnits api advance) e < 2 ^ 23 / 2 ^ k) (D : Nat) (K : Rat) (hK : 0 ≤ K)
    (hlow : root.contents.Low D K) (fuel : Nat) (schedule : Oracle) (fs : List (Fragment Single)) (gs : List (Fragment Rat))
    (h : layoutRoot api fuel schedule root ⟨Single.round width, Single.round height⟩ = some fs)
    (h' : layoutRoot (exactFont api (2 ^ e) advance) fuel schedule root ⟨width, height⟩ = some gs)
    (hn : gs.length + mostSteps D gs + 3 ≤ 2 ^ 23) (hm : massAll K gs ≤ 2 ^ 100) :
    List.Forall₂ (ColumnsAgree (Within ((gs.length + mostSteps D gs + 3 : Nat) * massAll K gs / 2 ^ 23))) fs gs := by
  have S := whole_simulation hk hs
  have n0 := containerReach_nonneg (textUnits api advance) e root.contents
  have hI : WholeIs k false |width| (Single.round width) width := by
    refine ⟨whole_round (by omega) false hw (lt_of_le_of_lt (show |width| ≤ |width| + root.contents.reach (textUnits api advance) e by linarith)
      (lt_trans hs ?_)), hw, le_refl _⟩
    exact div_lt_div_of_pos_right (by norm_num) (by positivity)
  have := layoutRoot_near S (fun style h1 h2 => extent_style hk hs h1 h2) hk hs hf he hK fuel schedule root
    ⟨Single.round width, Single.round height⟩ ⟨width, height⟩ |width| hr hlow hI (le_refl _) fs h gs h'
  exact ColumnsAgree.impAll (fun a a' h => h.2 hn hm) fs gs this
end

/-- **C127** of a document, on the page of 600 by 800 pixels that the code makes, with the font that is part of the program. -/
theorem C127_document {σ : Type} (engine : Engine σ) {font : Font} (hv : Font.parse vera = .ok font) (d : Verif.Dom.Document) (k : Nat)
    (hk : k ≤ 100) (root : BlockFormattingContext) (fuel : Nat) (schedule : Oracle) (hd : constructDocument engine d fuel = some root)
    (hr : root.contents.Ruled k 11)
    (hs : 600 + root.contents.reach (textUnits (singleFont font) (advanceOf font)) 11 < 2 ^ 23 / 2 ^ k) (D : Nat) (K : Rat) (hK : 0 ≤ K)
    (hlow : root.contents.Low D K) (fs : List (Fragment Single)) (gs : List (Fragment Rat))
    (h : layoutDocument engine (singleFont font) d fuel schedule ⟨Single.round 600, Single.round 800⟩ = some fs)
    (h' : layoutDocument engine (exactFont (singleFont font) (2 ^ 11) (advanceOf font)) d fuel schedule ⟨600, 800⟩ = some gs)
    (hn : gs.length + mostSteps D gs + 3 ≤ 2 ^ 23) (hm : massAll K gs ≤ 2 ^ 100) :
    List.Forall₂ (ColumnsAgree (Within ((gs.length + mostSteps D gs + 3 : Nat) * massAll K gs / 2 ^ 23))) fs gs := by
  simp only [layoutDocument, hd] at h h'
  refine C127_columns (C120_built_in hv) (by norm_num) k hk root 600 800 hr ⟨600 * 2 ^ k, ?_⟩ ?_ D K hK hlow fuel schedule fs gs h h' hn hm
  · push_cast
    rw [mul_div_assoc, div_self (by positivity), mul_one]
  · rw [abs_of_pos (by norm_num)]
    exact hs

/-! ### An example -/

mutual
/-- A test for `BlockContainer.Low`. -/
def lowTest (D : Nat) (K : Rat) : BlockContainer → Bool
  | .blockLevelBoxes boxes => lowBlocksTest D K boxes
  | .inlineFormattingContext boxes => decide (lineNesting boxes ≤ D) && decide (lineRise boxes ≤ K)
/-- See `lowTest`. -/
def lowBoxTest (D : Nat) (K : Rat) : BlockLevelBox → Bool
  | .sameFormattingContextBlock _ contents => lowTest D K contents
  | .outOfFlowAbsolutelyPositioned _ _ _ => true
  | .outOfFlowFloat _ _ _ => true
  | .independent _ _ contents => lowTest D K contents
/-- See `lowTest`. -/
def lowBlocksTest (D : Nat) (K : Rat) : List BlockLevelBox → Bool
  | [] => true
  | b :: bs => lowBoxTest D K b && lowBlocksTest D K bs
end

mutual
theorem lowTest_sound {D : Nat} {K : Rat} : ∀ {c : BlockContainer}, lowTest D K c = true → c.Low D K
  | .blockLevelBoxes _, h => by rw [lowTest] at h; rw [BlockContainer.Low]; exact lowBlocksTest_sound h
  | .inlineFormattingContext _, h => by
    rw [lowTest, Bool.and_eq_true] at h; rw [BlockContainer.Low]; exact ⟨of_decide_eq_true h.1, of_decide_eq_true h.2⟩
theorem lowBoxTest_sound {D : Nat} {K : Rat} : ∀ {b : BlockLevelBox}, lowBoxTest D K b = true → b.Low D K
  | .sameFormattingContextBlock _ _, h => by rw [lowBoxTest] at h; rw [BlockLevelBox.Low]; exact lowTest_sound h
  | .outOfFlowAbsolutelyPositioned _ _ _, _ => by rw [BlockLevelBox.Low]; trivial
  | .outOfFlowFloat _ _ _, _ => by rw [BlockLevelBox.Low]; trivial
  | .independent _ _ _, h => by rw [lowBoxTest] at h; rw [BlockLevelBox.Low]; exact lowTest_sound h
theorem lowBlocksTest_sound {D : Nat} {K : Rat} : ∀ {bs : List BlockLevelBox}, lowBlocksTest D K bs = true → lowBlocks D K bs
  | [], _ => by rw [lowBlocks]; trivial
  | _ :: _, h => by rw [lowBlocksTest, Bool.and_eq_true] at h; rw [lowBlocks]; exact ⟨lowBoxTest_sound h.1, lowBlocksTest_sound h.2⟩
end

/-- The lines: how far down each is in its paragraph, and how high it is, in units of `1 / 2 ^ 19` pixels. -/
def shownLineHeights : Nat → List (Fragment Single) → List (Rat × Rat)
  | 0, _ => []
  | n + 1, fs => fs.flatMap fun
    | .box _ c => shownLineHeights n c
    | .anonymous rect c _ => (rect.startCorner.block.value * 2 ^ 19, rect.size.block.value * 2 ^ 19) :: shownLineHeights n c
    | .text _ _ _ => []

/-- The hypotheses of `C127_columns` are met by `rowDocument` with `D = 6` and `K = 60`; for those that it has in common with `C125_rows`, see
`C125_example`. Nothing is moved by more than 0.0035 pixels. There are three lines; that they are 10066330 of these units high and not 10066329.6,
which is 19.2 pixels, shows that there is rounding. -/
theorem C127_example :
    (constructDocument rowEngine rowDocument 9).map (fun root => lowTest 6 60 root.contents) = some true ∧
    (layoutDocument rowEngine (exactFont halfFont (2 ^ 11) fun _ => 1024) rowDocument 9 inOrder ⟨600, 800⟩).map
      (fun gs => (gs.length + mostSteps 6 gs + 3, decide (massAll 60 gs = 964))) = some (30, true) ∧
    (30 * 964 / 2 ^ 23 : Rat) < 35 / 10000 ∧
    (layoutDocument rowEngine halfFont rowDocument 9 inOrder ⟨Single.round 600, Single.round 800⟩).map (shownLineHeights 9) =
      some [(0, 10066330), (10066330, 10066330), (20132660, 10066330)] := by
  have hp : parseStylesheets rowEngine rowDocument = some ⟨[]⟩ := rowEngine_sheets rfl
  refine ⟨?_, ?_, by norm_num, ?_⟩
  · simp only [constructDocument, hp]
    decide +kernel
  · simp only [layoutDocument, constructDocument, hp]
    decide +kernel
  · simp only [layoutDocument, constructDocument, hp]
    decide +kernel

end Verif.Layout.Machine
