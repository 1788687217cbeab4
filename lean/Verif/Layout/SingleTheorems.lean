/- C115: single precision numbers are an arithmetic of which C114 and C115 hold. -/
import Verif.Layout.MachineTheorems
import Verif.Text.SingleTheorems
import Verif.Float.SingleRound
namespace Verif.Layout.Machine
open Verif.Style Verif.Style.Spec Verif.Text Verif.Pdf Verif.Dom Verif.Float

/-- The arithmetic of layout in `f32`; the lengths of styles are rounded. -/
@[reducible] def singleNumbers : Numbers Single where
  add := .add
  sub := .sub
  mul := .mul
  neg := .neg
  max := .max
  min := .min
  zero := .zero
  half a := .div a (.round 2)
  lineHeight a := .mul a (.round (12 / 10))
  gt := Single.gt
  nonNeg a := Single.ge a .zero
  isZero a := Single.eq a .zero
  lengths := roundedLengths Single.round

theorem single_zeroLaws : @ZeroLaws Single singleNumbers := @ZeroLaws.mk Single singleNumbers (by decide +kernel) (by decide +kernel)

section
attribute [local instance] singleNumbers single_zeroLaws
variable {σ E Err : Type} (engine : Engine σ) (font : FontApi Single Err) (d : Verif.Dom.Document)

/-- C115: with `f32`, one and the same PDF file is made of a document under every division of the work between threads, under the
conditions of `C64_layout_partial`, if the font can be embedded. -/
theorem C115_single_partial (dtoa : Single → List Byte) (address : Nat) (view : FontView E) (ascender : Single) (hsp : Shapable font 32)
    (F : Forest) (rootStyle : ComputedValues) (tree : List StyledNode) (hidden : List Nat) (h : Denotes engine d F rootStyle tree hidden)
    (hh : ∀ x ∈ hidden, HasNext d x) (hs : allSupported false tree) (htext : ∀ c ∈ visibleTexts tree, Shapable font c) (hfont : view.Ok) :
    ∃ N bytes, ∀ fuel ≥ N, ∀ schedule : Oracle,
      toPdfBytes ⟨singleFloats dtoa, Single.round, address, view, ascender⟩ engine font d fuel schedule = some bytes :=
  C115_returns_partial ⟨singleFloats dtoa, Single.round, address, view, ascender⟩ engine font d hsp F rootStyle tree hidden h hh hs htext hfont

/-- The hypotheses of `C115_single_partial` are met by `exampleDocument2`, and both its characters are in the
layout. -/
theorem C115_example_single : Shapable (plainFont (Single.round 1)) 32 ∧
    (∀ c ∈ visibleTexts exampleTree2, Shapable (plainFont (Single.round 1)) c) ∧ (Verif.Pdf.sampleFont 0).Ok ∧
    (∃ F rootStyle hidden, Denotes exampleEngine exampleDocument2 F rootStyle exampleTree2 hidden ∧ ∀ x ∈ hidden, HasNext exampleDocument2 x) ∧
    allSupported false exampleTree2 ∧
    (layoutDocument exampleEngine (plainFont (Single.round 1)) exampleDocument2 9 inOrder ⟨.round 600, .round 800⟩).map
      (fun fs => (fragmentsGlyphs fs).map Prod.snd) = some (codes "ab") := by
  have hp : parseStylesheets exampleEngine exampleDocument2 = some ⟨[]⟩ := exampleEngine_sheets rfl
  refine ⟨plainFont_shapable _ _ (by decide), ?_, C13_to_C18_example.2.2.2.2.1,
    ⟨_, _, _, exampleDocument2_denotes, ?_⟩, exampleDocument2_supported, ?_⟩
  · rw [show visibleTexts exampleTree2 = [97, 98] by decide +kernel]
    intro c hc
    exact plainFont_shapable _ _ (by simp at hc; omega)
  · intro x hx
    cases List.mem_singleton.1 hx
    exact ⟨_, 4, rfl, rfl⟩
  · simp only [layoutDocument, constructDocument, hp]
    decide +kernel

end

end Verif.Layout.Machine
