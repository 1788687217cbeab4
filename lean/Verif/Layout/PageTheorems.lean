/- C90: what is on the page. -/
import Verif.Layout.BoundTheorems
namespace Verif.Layout
open Verif.Style Verif.Style.Spec Verif.Text Verif.Pdf Verif.Dom

mutual
theorem PageItem.texts_extents {t : PageText} : ∀ i : PageItem, t ∈ i.texts → (⟨t.left, t.top, t.width, t.height⟩ : Extent) ∈ i.extents
  | .text u, h => by
    simp only [PageItem.texts, List.mem_singleton] at h
    subst h
    simp [PageItem.extents]
  | .box _ _ _ items, h => by
    rw [PageItem.texts] at h
    rw [PageItem.extents]
    exact List.mem_cons_of_mem _ (itemTexts_extents items h)
  | .line items, h => by
    rw [PageItem.texts] at h
    rw [PageItem.extents]
    exact itemTexts_extents items h
theorem itemTexts_extents {t : PageText} : ∀ is : List PageItem, t ∈ itemTexts is → (⟨t.left, t.top, t.width, t.height⟩ : Extent) ∈ itemExtents is
  | [], h => by simp [itemTexts] at h
  | i :: is, h => by
    rw [itemTexts, List.mem_append] at h
    rw [itemExtents, List.mem_append]
    exact h.imp (PageItem.texts_extents i) (itemTexts_extents is)
end

/-- The texts among what is painted. -/
def markText : PageText ⊕ Extent × RGBA → List PageText
  | .inl t => [t]
  | .inr _ => []

mutual
theorem PageItem.texts_marks : ∀ i : PageItem, i.marks.flatMap markText = i.texts
  | .text _ => rfl
  | .box style _ _ items => by
    rw [PageItem.marks, List.flatMap_append, itemTexts_marks items, PageItem.texts]
    split <;> rfl
  | .line items => by rw [PageItem.marks, itemTexts_marks items, PageItem.texts]
theorem itemTexts_marks : ∀ is : List PageItem, (itemMarks is).flatMap markText = itemTexts is
  | [] => rfl
  | i :: is => by rw [itemMarks, List.flatMap_append, PageItem.texts_marks i, itemTexts_marks is, itemTexts]
end

theorem marks_texts {R Er : Type} (P : Painter R Er) : ∀ (painted : List (Painted R)) (marks : List (PageText ⊕ Extent × RGBA)),
    AllMatch (MarkSeen P) painted marks → AllMatch (fun p (t : PageText) => t.SeenAs P p) (painted.filter isText) (marks.flatMap markText)
  | [], [], _ => trivial
  | [], _ :: _, h => h.elim
  | _ :: _, [], h => h.elim
  | p :: painted, .inl t :: marks, h => by
    cases p with
    | fill cm path rgb alpha => exact h.1.elim
    | «show» cm font size matrix s rgb alpha => exact ⟨h.1, marks_texts P painted marks h.2⟩
  | p :: painted, .inr (e, color) :: marks, h => by
    cases p with
    | fill cm path rgb alpha => exact marks_texts P painted marks h.2
    | «show» cm font size matrix s rgb alpha => exact h.1.elim

/-- The rectangle is on a page of 600 by 800 pixels, from top to bottom, and not at the left of it. -/
def OnPage (t : PageText) : Prop := 0 ≤ t.left ∧ (t.height = 0 ∨ (0 ≤ t.top ∧ t.top + t.height ≤ 800))

section
variable {R Err Er σ : Type} (P : Painter R Er) (E : Engine σ) (font : FontApi Rat Err) (d : Document)

/-- **C90**: for documents of the kind that C89 is about, all of the text is on the page, from top to bottom and at the left, if the
root element is not taller than the page. Missing: documents that are taller than 800 pixels (`C90_tall_violated`), and what is at the
right of the page. -/
theorem C90_on_page_partial {readReal : List Byte → Option R} (hd : RealText P.floats.dtoa readReal) (hl : FloatLaws P.floats)
    (hv : P.fontView.Valid) (hg : ∀ c g, font.glyphId c = .ok g → g < 65536) (hF : Forward font) (F : Forest) (hr : Represents d F)
    (ha : F.Acyclic) (hn : DocumentNodeIsRoot d) (hi : d.styleElements = d.idsWith NodeData.isStyle)
    (ua author : List (σ × List (Declaration × Bool))) (rootStyle : ComputedValues) (displayed : List (ComputedValues × Nat))
    (h : DocumentLooks E d F ua author (fun _ s => InPlainFlow s) rootStyle displayed)
    (hroot : floatOf rootStyle = .none ∧ Upright rootStyle ∧ PlainLeft rootStyle)
    {fuel : Nat} {schedule : Oracle} {bytes : List Byte} (hb : toPdfBytes P E font d fuel schedule = some bytes)
    (hs : bytes.length ≤ 2 ^ 32) :
    ∃ m file page painted fragment rootBox content items text, (∀ fuel, m ≤ fuel → readDocument readReal fuel bytes = some file) ∧ file.pages = [page] ∧
      page.mediaBox = [.int 0, .int 0, .real (P.floats.mul (P.round 600) P.floats.scaleX), .real (P.floats.mul (P.round 800) P.floats.scaleY)] ∧
      (∃ m, ∀ fuel, m ≤ fuel →
        paintContents readReal P.floats.zero P.floats.one (gsAlpha file.extGState) fuel page.contents = some painted) ∧
      AllMatch (fun p (t : PageText) => t.SeenAs P p) (painted.filter isText) (itemTexts items) ∧
      layoutDocument E font d fuel schedule ⟨600, 800⟩ = some [fragment] ∧
      fragment.item ⟨0, 0⟩ = .box rootStyle rootBox content items ∧
      (rootBox.top + rootBox.height ≤ 800 → ∀ t ∈ itemTexts items, OnPage t) ∧
      Shown font text ((itemTexts items).flatMap fun t => t.glyphs.map fun g => (t.style, g)) ∧
      inked (text.map Prod.snd) = inked (displayed.map Prod.snd) := by
  obtain ⟨m, file, page, painted, fragment, border, content, inner, text, k1, k2, h1, h2, h3, h4, h5, h6, h7, h8, h9⟩ :=
    layoutDocument_inside P E font d hd hl hv hg hF F hr ha hn hi ua author rootStyle displayed h hroot hb hs
  refine ⟨m, file, page, painted, fragment, border, content, inner, text, h1, h2, h3, h4, ?_, k1, k2, ?_, h8, h9⟩
  · have := marks_texts P painted _ h5
    rwa [PageItem.texts_marks, PageItem.texts] at this
  · intro hle t ht
    rw [PageItem.Holds] at h6
    obtain ⟨⟨-, -, -, g⟩, k, -, -⟩ := h6
    have hin := itemTexts_extents inner ht
    have k1 := h7 _ (by rw [PageItem.extents]; exact List.mem_cons_of_mem _ hin)
    refine ⟨k1.1, ?_⟩
    rcases k1.2 with e | e
    · exact .inl e
    · refine (k _ hin).2.imp id fun hu => ⟨e, ?_⟩
      have := hu.2
      simp only at this
      linarith

end

/-- Paragraphs, each with a line of text. -/
def tallRoot (n : Nat) : BlockFormattingContext :=
  ⟨.blockLevelBoxes (List.replicate n (.sameFormattingContextBlock blockStyle (.inlineFormattingContext [.textRun plainStyle (codes "a")]))), false⟩

/-- **C90 is violated** by documents that are taller than the page: the last of 45 paragraphs, with one line of text each, begins below
the bottom of the page, which is the only one. -/
theorem C90_tall_violated :
    Upright blockStyle ∧ floatOf blockStyle = .none ∧
    ((layoutRoot exampleFont 10 inOrder (tallRoot 45) ⟨600, 800⟩).bind fun fs => (pageTextsOf ⟨0, 0⟩ fs).getLast?.map
      fun t => (t.glyphs, t.left, t.top)) = some ([97], 0, 44 * (16 * (12 / 10))) ∧ (44 : Rat) * (16 * (12 / 10)) > 800 := by
  refine ⟨upright_of (by decide +kernel), by decide +kernel, by decide +kernel, by norm_num⟩

/-- The other hypotheses of C90 are those of C89, which `lookDocument` meets (`lookDocument_inside`); three such paragraphs are not too tall. -/
theorem shortRoot_fits :
    ((layoutRoot exampleFont 10 inOrder (tallRoot 3) ⟨600, 800⟩).map fun fs => (pageTextsOf ⟨0, 0⟩ fs).map fun t => (t.glyphs, t.left, t.top)) =
      some [([97], 0, 0), ([97], 0, 192 / 10), ([97], 0, 384 / 10)] := by decide +kernel

end Verif.Layout
