/- C119: the numbers in the PDF file of a document. -/
import Verif.Layout.PrintedTheorems
import Verif.Pdf.DtoaTheorems
namespace Verif.Layout.Machine
open Verif.Style Verif.Style.Spec Verif.Text Verif.Pdf Verif.Dom Verif.Float

section
attribute [local instance] singleNumbers single_zeroLaws
variable {σ E Err : Type} (engine : Engine σ) (font : FontApi Single Err) (d : Verif.Dom.Document)

/-- C119: the PDF file that is made with `f32` of a document in which no element floats shows the text of the document, as in C115, if all numbers
in it are zero or between a millionth and 10 to the power of 21. -/
theorem C119_text_partial {digits : Nat → Nat × Int} (hd : FindsDigits digits) (address : Nat) (view : FontView E) (ascender : Single)
    (hv : view.Valid) (ho : view.Ok) (hg : ∀ c g, font.glyphId c = .ok g → g < 65536) (F : Forest) (rootStyle : ComputedValues)
    (tree : List StyledNode) (hidden : List Nat) (h : Denotes engine d F rootStyle tree hidden)
    (hfloat : floatOf rootStyle = .none ∧ nodesAll (fun s _ => floatOf s = .none) tree)
    {fuel : Nat} {schedule : Oracle} {bytes : List Byte} :
    let P : Painter Single E := ⟨singleFloats (dtoaText digits), Single.round, address, view, ascender⟩
    toPdfBytes P engine font d fuel schedule = some bytes →
    (∀ ops, documentCalls P engine font d fuel schedule = some ops →
      ∀ r ∈ PageCalls.numbers P.floats ⟨P.round 600, P.round 800, ops⟩, Plain r) → bytes.length ≤ 2 ^ 32 →
    ∃ m file page painted text glyphs, (∀ fuel, m ≤ fuel → readDocument readSingle fuel bytes = some file) ∧ file.pages = [page] ∧
      (∃ m, ∀ fuel, m ≤ fuel → paintContents readSingle .zero .one (gsAlpha file.extGState) fuel page.contents = some painted) ∧
      AllMatch (fun (m : Mark Single) (g : ComputedValues × Nat) => m.Styled P.floats P.round g.1 g.2) (painted.flatMap marks) glyphs ∧
      Shown font text glyphs ∧ (inked (text.map Prod.snd)).Perm (inked (visibleTexts tree)) ∧
      (positionOf rootStyle ≠ .absolute ∧ nodesAll (fun s _ => positionOf s ≠ .absolute) tree →
        inked (text.map Prod.snd) = inked (visibleTexts tree)) := by
  intro P hb hp hs
  obtain ⟨m, file, page, painted, text, glyphs, k1, k2, -, k4, k5, k6, k7, k8⟩ :=
    C115_text_printed_partial P engine font d (realTextOn_single (C119_plain hd)) (C116_floats _) hv ho hg F rootStyle tree hidden h hfloat hb
      (C115_numbers P engine font d ho fuel schedule hp) hs
  exact ⟨m, file, page, painted, text, glyphs, k1, k2, k4, k5, k6, k7, k8⟩

/-- `p { padding-left: 0.0000001px }` -/
def tinySheet1 : List (SourceRule String) := [some (["p"], [.declaration "padding-left" [.dimension (1 / 10 ^ 7) "px"]])]

/-- `lookEngine` with this style sheet. -/
def tinyEngine : Engine String := { lookEngine with rulesOf := fun s => if s = "1" then tinySheet1 else groundSheet2 }

/-- Its rules: those that are more specific come last. -/
def tinySet : StyleSet String :=
  match addStylesheets twoColors ⟨[]⟩ [groundSheet2, tinySheet1] with
  | .ok set => set
  | _ => ⟨[]⟩

theorem tinySet_parsed : parseStylesheets tinyEngine lookDocument = some tinySet := by
  have h1 : lookDocument.stylesheetTexts lookDocument.nodes.length lookDocument.styleElements = some ["1", "2"] := by decide +kernel
  have h2 : ∃ a b, addStylesheets twoColors ⟨[]⟩ [tinySheet1, groundSheet2] = .ok ⟨[("p", a), ("*", b)]⟩ ∧
      addStylesheets twoColors ⟨[]⟩ [groundSheet2, tinySheet1] = .ok ⟨[("*", b), ("p", a)]⟩ := ⟨_, _, rfl, rfl⟩
  obtain ⟨a, b, h2, h3⟩ := h2
  have h4 : addStylesheets tinyEngine.colors ⟨[]⟩ (["1", "2"].map tinyEngine.rulesOf) = .ok ⟨[("p", a), ("*", b)]⟩ := h2
  simp only [parseStylesheets, h1, h4, tinySet, h3]
  simp [StyleSet.finish, List.mergeSort, List.MergeSort.Internal.splitInTwo, tinyEngine, lookEngine, lookSpecificity]

/-- C119 does not hold of all documents: with `p { padding-left: 0.0000001px }`, a file is made of a document that has text, but nothing can be
painted of its page. -/
theorem C119_document_violated : ∃ bytes, toPdfBytes ⟨singleFloats (dtoaText shortestDigits), Single.round, 0, Verif.Pdf.sampleFont 0, .round (9 / 10)⟩
      tinyEngine (plainFont (Single.round 1)) lookDocument 9 inOrder = some bytes ∧
    ∃ doc page, doc.pages = [page] ∧ (∀ fuel, 100 ≤ fuel → readDocument readSingle fuel bytes = some doc) ∧
      ∀ zero one gs fuel, paintContents readSingle zero one gs fuel page.contents = none := by
  have h : ((toPdfBytes ⟨singleFloats (dtoaText shortestDigits), Single.round, 0, Verif.Pdf.sampleFont 0, .round (9 / 10)⟩
      tinyEngine (plainFont (Single.round 1)) lookDocument 9 inOrder).map fun file => (readDocument readSingle 100 file).map fun d =>
        d.pages.map fun p => (readOps readSingle 100 [] p.contents).map fun ops => ops.map (·.2)) =
      some (some [some (["cm", "rg", "re", "f", "re", "f", "rg", "BT", "Tf", "1e-7", "Tm", "Tj", "ET", "rg", "re", "f", "rg", "BT", "Tf", "Tm", "Tj", "ET"].map ascii)]) := by
    simp only [toPdfBytes, layoutDocument, constructDocument, tinySet_parsed]
    decide +kernel
  rcases hb : toPdfBytes ⟨singleFloats (dtoaText shortestDigits), Single.round, 0, Verif.Pdf.sampleFont 0, .round (9 / 10)⟩
      tinyEngine (plainFont (Single.round 1)) lookDocument 9 inOrder with _ | bytes
  · rw [hb] at h; cases h
  · rw [hb, Option.map_some] at h
    exact ⟨bytes, rfl, file_unknown (Option.some.inj h) (by decide +kernel)⟩

/-- The hypotheses that `C119_text_partial` has of numbers are met by `lookDocument` with the style sheets of `groundEngine` (for which
`C118_example_backgrounds` has the others). -/
theorem C119_example_document : FindsDigits shortestDigits ∧
    ∃ ops, documentCalls ⟨singleFloats (dtoaText shortestDigits), Single.round, 0, Verif.Pdf.sampleFont 0, .round (9 / 10)⟩ groundEngine
      (plainFont (Single.round 1)) lookDocument 9 inOrder = some ops ∧
      (∀ r ∈ PageCalls.numbers (singleFloats (dtoaText shortestDigits)) ⟨.round 600, .round 800, ops⟩, Plain r) ∧ 6 ≤ ops.length := by
  refine ⟨shortestDigits_finds, ?_⟩
  have h : ((documentCalls ⟨singleFloats (dtoaText shortestDigits), Single.round, 0, Verif.Pdf.sampleFont 0, .round (9 / 10)⟩ groundEngine
      (plainFont (Single.round 1)) lookDocument 9 inOrder).map fun ops =>
        decide ((∀ r ∈ PageCalls.numbers (singleFloats (dtoaText shortestDigits)) ⟨.round 600, .round 800, ops⟩,
          r ≠ .nan ∧ (r.value = 0 ∨ ((Single.round (1 / 10 ^ 6)).value < |r.value| ∧ |r.value| < (Single.round (10 ^ 21)).value))) ∧
          6 ≤ ops.length)) = some true := by
    simp only [documentCalls, layoutDocument, constructDocument, groundSet_parsed]
    decide +kernel
  rcases hb : documentCalls ⟨singleFloats (dtoaText shortestDigits), Single.round, 0, Verif.Pdf.sampleFont 0, .round (9 / 10)⟩ groundEngine
      (plainFont (Single.round 1)) lookDocument 9 inOrder with _ | ops
  · rw [hb] at h
    cases h
  · rw [hb, Option.map_some, Option.some.injEq, decide_eq_true_eq] at h
    exact ⟨ops, rfl, h.1, h.2⟩

end
end Verif.Layout.Machine
