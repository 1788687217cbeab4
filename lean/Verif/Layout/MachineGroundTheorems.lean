/- C115 and C118 for the backgrounds of elements: with any arithmetic they are those that CSS gives, and with `f32` their bytes are kept. -/
import Verif.Layout.ColorTheorems
namespace Verif.Layout.Machine
open Verif.Style Verif.Style.Spec Verif.Text Verif.Pdf Verif.Dom Verif.Float

section
variable {R E σ Err : Type} [Numbers R] (P : Painter R E) (engine : Engine σ) (font : FontApi R Err) (d : Verif.Dom.Document)

/-- **C115**: whatever the arithmetic, `C85_backgrounds_partial` holds: whenever a PDF file is made of a document in which no element that has
a box floats, a reader finds one page in it, and on it one filled rectangle, in the colour that CSS gives, for each element that has a box and
a background that is not transparent. The only other rectangles are further pieces of such elements that are in lines. If no element is
absolutely positioned and none of those in lines has a background, the rectangles are painted in document order. Missing: the same as for
`C85_backgrounds_partial`, and infinities and NaN, which are not written as numbers. -/
theorem C115_backgrounds_partial {readReal : List Byte → Option R} (hd : RealText P.floats.dtoa readReal) (hl : FloatLaws P.floats)
    (hv : P.fontView.Valid) (ho : P.fontView.Ok) (hg : ∀ c g, font.glyphId c = .ok g → g < 65536) (F : Forest) (hr : Represents d F)
    (ha : F.Acyclic) (hn : DocumentNodeIsRoot d) (hi : d.styleElements = d.idsWith NodeData.isStyle)
    (ua author : List (σ × List (Declaration × Bool))) (rootStyle : ComputedValues) (elements : List ComputedValues)
    (h : DocumentBoxed engine d F ua author rootStyle elements) (hfloat : ∀ s ∈ rootStyle :: elements, floatOf s = .none)
    {fuel : Nat} {schedule : Oracle} {bytes : List Byte} (hb : toPdfBytes P engine font d fuel schedule = some bytes)
    (hs : bytes.length ≤ 2 ^ 32) :
    ∃ m file page painted styles pieces, (∀ fuel, m ≤ fuel → readDocument readReal fuel bytes = some file) ∧ file.pages = [page] ∧
      (∃ m, ∀ fuel, m ≤ fuel →
        paintContents readReal P.floats.zero P.floats.one (gsAlpha file.extGState) fuel page.contents = some painted) ∧
      AllMatch (fun s style => s.Filled P.floats P.round (backgroundOf style)) (painted.flatMap seenRects) styles ∧
      styles.Perm ((rootStyle :: elements).filter hasBackground ++ pieces) ∧
      (∀ s ∈ pieces, s ∈ elements ∧ isInline s ∧ hasBackground s) ∧
      ((∀ s ∈ rootStyle :: elements, positionOf s ≠ .absolute) → (∀ s ∈ elements, isInline s → ¬ hasBackground s) →
        styles = (rootStyle :: elements).filter hasBackground) := by
  classical
  unfold toPdfBytes at hb
  rcases hlay : layoutDocument engine font d fuel schedule ⟨P.round 600, P.round 800⟩ with _ | fragments
  · simp [hlay] at hb
  simp only [hlay] at hb
  rcases hdoc : paintDocument P fragments with _ | doc
  · simp [hdoc] at hb
  simp only [hdoc, Option.some.injEq] at hb
  subst hb
  unfold layoutDocument at hlay
  rcases hc : constructDocument engine d fuel with _ | root
  · simp [hc] at hlay
  simp only [hc] at hlay
  obtain ⟨hm, -⟩ := layoutRoot_shown hlay
  obtain ⟨pieces, cov⟩ := layoutRoot_collect ground hlay
  obtain ⟨tree, hidden, hden, rfl⟩ := h.denotes hr ha hn hi hc
  obtain ⟨hroot', -⟩ := constructDocument_sound hden hc
  have hdisp : displayOf rootStyle ≠ .none := by
    obtain ⟨_, _, _, _, _, _, _, _, h, _⟩ := h.root
    exact h
  have hall := constructRoot_collect (f := ofAll ground) (fun s => ground_anonymous s) hdisp (hfloat _ List.mem_cons_self)
    (fun s hs => hfloat s (List.mem_cons_of_mem _ hs)) hroot'
  have hinl := constructRoot_collect (f := ofInline ground) (fun s => rfl) hdisp (hfloat _ List.mem_cons_self)
    (fun s hs => hfloat s (List.mem_cons_of_mem _ hs)) hroot'
  have hall : root.contents.collect (ofAll ground) = (rootStyle :: nodesElements tree).filter hasBackground := by
    rw [hall, ofElements_ground]
    simp only [ofAll, ground, List.filter_cons]
    split <;> rfl
  have hinl : root.contents.collect (ofInline ground) = ofElements (ofInline ground) (nodesElements tree) := by
    rw [hinl]
    rfl
  obtain ⟨m, file, page, painted, h1, h2, -, h3, -, h4⟩ := paintDocument_marks P hd hl hv ho hg hm hdoc hs
  refine ⟨m, file, page, painted, fragmentsCollect ground fragments, pieces, h1, h2, h3, h4, ?_, ?_, ?_⟩
  · rw [← hall]
    refine List.perm_iff_count.2 fun s => ?_
    have := cov.count (· == s)
    simpa [List.count, pendingCollect, List.countP_append] using this
  · intro s hs
    have := cov.extra s hs
    rw [hinl] at this
    exact ofElements_inline _ this
  · intro habs hno
    have habs : root.contents.Only NoAbsolutes := by
      refine constructRoot_only ⟨fun h => absurd h (habs _ List.mem_cons_self), fun _ => by simp⟩ ?_ hroot'
      exact nodesAll_of_elements (Q := StyleOnly NoAbsolutes) tree
        (fun s hs => ⟨fun h => absurd h (habs s (List.mem_cons_of_mem _ hs)), fun _ => by simp⟩)
    rw [← hall]
    refine (cov.order habs).2 ?_
    rw [hinl]
    apply List.eq_nil_iff_forall_not_mem.2
    intro s hs
    obtain ⟨h1, h2, h3⟩ := ofElements_inline _ hs
    exact hno s h1 h2 h3

end

section
attribute [local instance] singleNumbers single_zeroLaws
variable {σ E Err : Type} (engine : Engine σ) (font : FontApi Single Err) (d : Verif.Dom.Document)

/-- C118: whenever a PDF file is made with `f32` of a document in which no element that has a box floats, each rectangle on its page has the
bytes of the background colour of its element, and the byte of its opacity. -/
theorem C118_backgrounds_partial (dtoa : Single → List Byte) (address : Nat) (view : FontView E) (ascender : Single)
    {readReal : List Byte → Option Single} (hd : RealText dtoa readReal)
    (hv : view.Valid) (ho : view.Ok) (hg : ∀ c g, font.glyphId c = .ok g → g < 65536) (F : Forest) (hr : Represents d F)
    (ha : F.Acyclic) (hn : DocumentNodeIsRoot d) (hi : d.styleElements = d.idsWith NodeData.isStyle)
    (ua author : List (σ × List (Declaration × Bool))) (rootStyle : ComputedValues) (elements : List ComputedValues)
    (h : DocumentBoxed engine d F ua author rootStyle elements) (hfloat : ∀ s ∈ rootStyle :: elements, floatOf s = .none)
    {fuel : Nat} {schedule : Oracle} {bytes : List Byte}
    (hb : toPdfBytes ⟨singleFloats dtoa, Single.round, address, view, ascender⟩ engine font d fuel schedule = some bytes)
    (hs : bytes.length ≤ 2 ^ 32) :
    ∃ m file page painted styles pieces, (∀ fuel, m ≤ fuel → readDocument readReal fuel bytes = some file) ∧ file.pages = [page] ∧
      (∃ m, ∀ fuel, m ≤ fuel → paintContents readReal .zero .one (gsAlpha file.extGState) fuel page.contents = some painted) ∧
      AllMatch (fun (s : SeenRect Single) style =>
        let color := backgroundOf style
        (IsBytes color → level s.rgb.1 = color.red ∧ level s.rgb.2.1 = color.green ∧ level s.rgb.2.2 = color.blue ∧ level s.alpha = color.alpha))
        (painted.flatMap seenRects) styles ∧
      styles.Perm ((rootStyle :: elements).filter hasBackground ++ pieces) ∧
      (∀ s ∈ pieces, s ∈ elements ∧ isInline s ∧ hasBackground s) := by
  obtain ⟨m, file, page, painted, styles, pieces, h1, h2, h3, h4, h5, h6, -⟩ :=
    C115_backgrounds_partial ⟨singleFloats dtoa, Single.round, address, view, ascender⟩ engine font d hd (C116_floats dtoa) hv ho hg F hr ha hn hi
      ua author rootStyle elements h hfloat hb hs
  refine ⟨m, file, page, painted, styles, pieces, h1, h2, h3, h4.mono ?_, h5, h6⟩
  rintro s style ⟨-, e⟩ color hc
  exact C118_color dtoa _ _ _ _ _ _ hc.1 hc.2.1 hc.2.2.1 hc.2.2.2 e

/-- The hypotheses of `C118_backgrounds_partial` (and so of `C115_backgrounds_partial`) are met by `lookDocument`, of which a file is made:
the backgrounds of two of its elements are blue and that of one is red (`groundDocument_boxed` has the rest of the hypotheses). -/
theorem C118_example_backgrounds :
    (∃ bytes, toPdfBytes ⟨singleFloats dtoaCode, Single.round, 0, Verif.Pdf.sampleFont 0, .round (9 / 10)⟩ groundEngine
      (plainFont (Single.round 1)) lookDocument 9 inOrder = some bytes ∧ bytes.length ≤ 2 ^ 32) ∧
    Represents lookDocument (forestOf lookChildren) ∧ (forestOf lookChildren).Acyclic ∧ DocumentNodeIsRoot lookDocument ∧
    lookDocument.styleElements = lookDocument.idsWith NodeData.isStyle ∧
    (∃ ua author elements, DocumentBoxed groundEngine lookDocument (forestOf lookChildren) ua author (groundStyle 2 none) elements ∧
      (∀ s ∈ groundStyle 2 none :: elements, floatOf s = .none) ∧
      ((groundStyle 2 none :: elements).filter hasBackground).map backgroundOf = [⟨0, 0, 255, 255⟩, ⟨255, 0, 0, 255⟩, ⟨0, 0, 255, 255⟩]) ∧
    IsBytes ⟨0, 0, 255, 255⟩ ∧ IsBytes ⟨255, 0, 0, 255⟩ := by
  refine ⟨?_, groundDocument_denotes.represents, groundDocument_denotes.acyclic, ⟨_, rfl, rfl, rfl⟩, by decide +kernel, ?_, ?_, ?_⟩
  · have h : ((toPdfBytes ⟨singleFloats dtoaCode, Single.round, 0, Verif.Pdf.sampleFont 0, .round (9 / 10)⟩ groundEngine
        (plainFont (Single.round 1)) lookDocument 9 inOrder).map fun bytes => decide (bytes.length ≤ 2 ^ 32)) = some true := by
      simp only [toPdfBytes, layoutDocument, constructDocument, groundSet_parsed]
      decide +kernel
    rcases hb : toPdfBytes ⟨singleFloats dtoaCode, Single.round, 0, Verif.Pdf.sampleFont 0, .round (9 / 10)⟩ groundEngine
        (plainFont (Single.round 1)) lookDocument 9 inOrder with _ | bytes
    · rw [hb] at h
      cases h
    · rw [hb] at h
      exact ⟨bytes, rfl, by simpa using h⟩
  · obtain ⟨ua, author, elements, h1, h2, h3⟩ := groundDocument_boxed
    refine ⟨ua, author, elements, h1, fun s hs => (h2 s hs).1, ?_⟩
    have := congrArg (List.map Prod.fst) h3
    rw [List.map_map] at this
    exact this
  · unfold IsBytes; decide
  · unfold IsBytes; decide

end

end Verif.Layout.Machine
