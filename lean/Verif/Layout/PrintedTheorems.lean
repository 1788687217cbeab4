/- C115 and C118 for documents of which only some numbers are printed as PDF numbers (Verif/Pdf/PrintedSpec.lean). -/
import Verif.Layout.MachineGroundTheorems
set_option linter.unusedSectionVars false
namespace Verif.Layout.Machine
open Verif.Style Verif.Style.Spec Verif.Text Verif.Pdf Verif.Dom Verif.Float

section
variable {R E : Type} [Numbers R] (P : Painter R E)

/-- Another way to print numbers. -/
def Painter.printing (dtoa : R → List Byte) : Painter R E := { P with floats := P.floats.printing dtoa }

/-- The call that sets a colour. -/
def colorCall (c : RGBA) : PageOp R :=
  .color (P.round (c.red / 255)) (P.round (c.green / 255)) (P.round (c.blue / 255)) (P.round (c.alpha / 255))

/-- The calls that paint the background of a box; `none` in a writing mode that is not supported. -/
def backgroundCalls (info : BoxInfo R) (containingBlock : PRect R) : Option (List (PageOp R)) :=
  let color := toRgba info.style (info.style.values .backgroundColor)
  if color.alpha > 0 then
    match info.borderRect.toPhysical (writingMode info.style) with
    | none => none
    | some rect =>
      let rect := rect.moved containingBlock.topLeft
      some [colorCall P color, .rect rect.topLeft.x rect.topLeft.y rect.size.x rect.size.y]
  else some []

mutual
/-- The calls that paint a fragment. -/
def fragmentCalls (containingBlock : PRect R) : Fragment R → Option (List (PageOp R))
  | .box info children =>
    match backgroundCalls P info containingBlock, info.contentRect.toPhysical (writingMode info.style) with
    | some a, some rect => (fragmentsCalls (rect.moved containingBlock.topLeft) children).map fun b => a ++ b
    | _, _ => none
  | .anonymous rect children mode =>
    match rect.toPhysical mode with
    | none => none
    | some rect => fragmentsCalls (rect.moved containingBlock.topLeft) children
  | .text parentStyle contentRect text =>
    match contentRect.toPhysical (writingMode parentStyle) with
    | none => none
    | some rect =>
      let origin := (rect.moved containingBlock.topLeft).topLeft
      let fontSize := (Numbers.lengths (R := R) parentStyle).fontSize
      some [colorCall P (parentStyle.values .color), .text P.fontAddress text.glyphs fontSize origin.x (origin.y + fontSize * P.ascender)]
/-- The calls that paint fragments, in order. -/
def fragmentsCalls (containingBlock : PRect R) : List (Fragment R) → Option (List (PageOp R))
  | [] => some []
  | f :: fs =>
    match fragmentCalls containingBlock f, fragmentsCalls containingBlock fs with
    | some a, some b => some (a ++ b)
    | _, _ => none
end

private theorem addFont_ok (ho : P.fontView.Ok) (d : Doc R) : ∃ d' key, addFont P.floats d P.fontAddress P.fontView = (d', .ok key) := by
  obtain ⟨he, ws, hw⟩ := (FontView.ok_iff (R := R) P.fontView).1 ho
  unfold addFont
  dsimp only
  rcases h : assocGet d.fonts P.fontAddress with _ | key
  · dsimp only
    rw [he]
    dsimp only
    rw [hw]
    exact ⟨_, _, rfl⟩
  · exact ⟨_, key, rfl⟩

private def made (s : Painting R) (ops : List (PageOp R)) : Painting R := ops.foldl (runOp P.floats fun _ => P.fontView) s

private theorem background_calls (s : Painting R) (info : BoxInfo R) (cb : PRect R) :
    paintBackground P s info cb = (backgroundCalls P info cb).map (made P s) := by
  unfold paintBackground backgroundCalls
  dsimp only
  split
  · rcases info.borderRect.toPhysical (writingMode info.style) with _ | rect
    · rfl
    · rfl
  · rfl

mutual
private theorem fragment_calls (ho : P.fontView.Ok) (cb : PRect R) (s : Painting R) : (f : Fragment R) →
    paintFragment P cb s f = (fragmentCalls P cb f).map (made P s)
  | .box info children => by
    simp only [paintFragment, fragmentCalls, background_calls]
    rcases backgroundCalls P info cb with _ | a
    · rfl
    dsimp only [Option.map_some]
    rcases info.contentRect.toPhysical (writingMode info.style) with _ | rect
    · rfl
    dsimp only
    rw [fragments_calls ho _ _ children]
    rcases fragmentsCalls P (rect.moved cb.topLeft) children with _ | b
    · rfl
    · simp [made]
  | .anonymous rect children mode => by
    simp only [paintFragment, fragmentCalls]
    rcases rect.toPhysical mode with _ | rect
    · rfl
    dsimp only
    exact fragments_calls ho _ _ children
  | .text style rect text => by
    simp only [paintFragment, fragmentCalls]
    rcases rect.toPhysical (writingMode style) with _ | rect
    · rfl
    simp only [Option.map_some, paintText, made, List.foldl_cons, List.foldl_nil]
    have hc : paintColor P s (style.values .color) = runOp P.floats (fun _ => P.fontView) s (colorCall P (style.values .color)) := rfl
    rw [← hc]
    generalize paintColor P s (style.values .color) = q
    obtain ⟨d', key, he⟩ := addFont_ok P ho q.1
    simp only [runOp, showText, he]
private theorem fragments_calls (ho : P.fontView.Ok) (cb : PRect R) (s : Painting R) : (fs : List (Fragment R)) →
    paintFragments P cb s fs = (fragmentsCalls P cb fs).map (made P s)
  | [] => rfl
  | f :: fs => by
    simp only [paintFragments, fragmentsCalls, fragment_calls ho cb s f]
    rcases fragmentCalls P cb f with _ | a
    · rfl
    simp only [Option.map_some, fragments_calls ho cb (made P s a) fs]
    rcases fragmentsCalls P cb fs with _ | b
    · rfl
    · simp [made]
end

variable {σ Err : Type} (engine : Engine σ) (font : FontApi R Err) (d : Verif.Dom.Document)

/-- The calls that paint a document on its page. -/
def documentCalls (fuel : Nat) (schedule : Oracle) : Option (List (PageOp R)) :=
  match layoutDocument engine font d fuel schedule ⟨P.round 600, P.round 800⟩ with
  | none => none
  | some fragments => fragmentsCalls P ⟨⟨0, 0⟩, ⟨P.round 600, P.round 800⟩⟩ fragments

/-- The file of a document is that of one page on which the calls of `documentCalls` are made. -/
theorem toPdfBytes_calls (ho : P.fontView.Ok) (fuel : Nat) (schedule : Oracle) :
    toPdfBytes P engine font d fuel schedule = (documentCalls P engine font d fuel schedule).map fun ops =>
      (runDoc P.floats (fun _ => P.fontView) [⟨P.round 600, P.round 800, ops⟩]).write P.floats := by
  unfold toPdfBytes documentCalls
  rcases layoutDocument engine font d fuel schedule ⟨P.round 600, P.round 800⟩ with _ | fragments
  · rfl
  simp only [paintDocument, fragments_calls P ho]
  rcases fragmentsCalls P ⟨⟨0, 0⟩, ⟨P.round 600, P.round 800⟩⟩ fragments with _ | ops
  · rfl
  · rfl

mutual
private theorem fragmentCalls_printing (dtoa : R → List Byte) (cb : PRect R) : (f : Fragment R) →
    fragmentCalls (P.printing dtoa) cb f = fragmentCalls P cb f
  | .box info children => by
    simp only [fragmentCalls]
    have : backgroundCalls (P.printing dtoa) info cb = backgroundCalls P info cb := rfl
    rw [this]
    split
    · rw [fragmentsCalls_printing dtoa _ children]
    · rfl
  | .anonymous rect children mode => by
    simp only [fragmentCalls]
    split
    · rfl
    · exact fragmentsCalls_printing dtoa _ children
  | .text style rect text => by
    simp only [fragmentCalls]
    rfl
private theorem fragmentsCalls_printing (dtoa : R → List Byte) (cb : PRect R) : (fs : List (Fragment R)) →
    fragmentsCalls (P.printing dtoa) cb fs = fragmentsCalls P cb fs
  | [] => rfl
  | f :: fs => by
    simp only [fragmentsCalls, fragmentCalls_printing dtoa cb f, fragmentsCalls_printing dtoa cb fs]
end

/-- **C115**: if all numbers of the calls that paint a document are good, only good numbers are printed in its file. -/
theorem C115_numbers (ho : P.fontView.Ok) (fuel : Nat) (schedule : Oracle) {good : R → Prop}
    (h : ∀ ops, documentCalls P engine font d fuel schedule = some ops →
      ∀ r ∈ PageCalls.numbers P.floats ⟨P.round 600, P.round 800, ops⟩, good r) :
    OnlyPrints good P.floats.dtoa fun dtoa => toPdfBytes (P.printing dtoa) engine font d fuel schedule := by
  intro dtoa hdtoa
  show toPdfBytes (P.printing dtoa) engine font d fuel schedule = toPdfBytes P engine font d fuel schedule
  have hc : documentCalls (P.printing dtoa) engine font d fuel schedule = documentCalls P engine font d fuel schedule := by
    unfold documentCalls
    show (match layoutDocument engine font d fuel schedule ⟨P.round 600, P.round 800⟩ with
      | none => none
      | some fragments => fragmentsCalls (P.printing dtoa) ⟨⟨0, 0⟩, ⟨P.round 600, P.round 800⟩⟩ fragments) = _
    simp only [fragmentsCalls_printing]
  rw [toPdfBytes_calls P engine font d ho, toPdfBytes_calls (P.printing dtoa) engine font d ho, hc]
  rcases ho' : documentCalls P engine font d fuel schedule with _ | ops
  · rw [Option.map_none, Option.map_none]
  · have hn : ∀ c ∈ [(⟨P.round 600, P.round 800, ops⟩ : PageCalls R)], ∀ r ∈ c.numbers P.floats, good r := by
      intro c hc
      cases List.mem_singleton.1 hc
      exact h ops ho'
    have key := C15_numbers (F := P.floats) (fun _ : Nat => P.fontView) [⟨P.round 600, P.round 800, ops⟩] hn dtoa hdtoa
    dsimp only at key
    have e : P.floats.printing P.floats.dtoa = P.floats := rfl
    rw [e] at key
    rw [Option.map_some, Option.map_some]
    exact congrArg some key

variable [Countable R]

/-- **C115**: `C115_text_partial` if only good numbers are printed: nothing is assumed of how other numbers are printed. -/
theorem C115_text_printed_partial {good : R → Prop} {readReal : List Byte → Option R} (hd : RealTextOn good P.floats.dtoa readReal)
    (hl : FloatLaws P.floats)
    (hv : P.fontView.Valid) (ho : P.fontView.Ok) (hg : ∀ c g, font.glyphId c = .ok g → g < 65536) (F : Forest) (rootStyle : ComputedValues)
    (tree : List StyledNode) (hidden : List Nat) (h : Denotes engine d F rootStyle tree hidden)
    (hfloat : floatOf rootStyle = .none ∧ nodesAll (fun s _ => floatOf s = .none) tree)
    {fuel : Nat} {schedule : Oracle} {bytes : List Byte} (hb : toPdfBytes P engine font d fuel schedule = some bytes)
    (hp : OnlyPrints good P.floats.dtoa fun dtoa => toPdfBytes (P.printing dtoa) engine font d fuel schedule)
    (hs : bytes.length ≤ 2 ^ 32) :
    ∃ m file page painted text glyphs, (∀ fuel, m ≤ fuel → readDocument readReal fuel bytes = some file) ∧ file.pages = [page] ∧
      page.mediaBox = [.int 0, .int 0, .real (P.floats.mul (P.round 600) P.floats.scaleX), .real (P.floats.mul (P.round 800) P.floats.scaleY)] ∧
      (∃ m, ∀ fuel, m ≤ fuel →
        paintContents readReal P.floats.zero P.floats.one (gsAlpha file.extGState) fuel page.contents = some painted) ∧
      AllMatch (fun (m : Mark R) (g : ComputedValues × Nat) => m.Styled P.floats P.round g.1 g.2) (painted.flatMap marks) glyphs ∧
      Shown font text glyphs ∧ (inked (text.map Prod.snd)).Perm (inked (visibleTexts tree)) ∧
      (positionOf rootStyle ≠ .absolute ∧ nodesAll (fun s _ => positionOf s ≠ .absolute) tree →
        inked (text.map Prod.snd) = inked (visibleTexts tree)) := by
  obtain ⟨dtoa, read, h1, h2, h3⟩ := hd.total bytes.length
  have hb' : toPdfBytes (P.printing dtoa) engine font d fuel schedule = some bytes := (hp dtoa h2).trans hb
  obtain ⟨m, file, page, painted, text, glyphs, k1, k2, k3, ⟨n, k4⟩, k5, k6, k7, k8⟩ :=
    C115_text_partial (P.printing dtoa) engine font d (readReal := read) h1 (hl.printing dtoa) hv ho hg F rootStyle tree hidden h hfloat hb' hs
  simp only [readDocument_agree h3 (Nat.le_refl _)] at k1
  have hlen := readDocument_length (k1 m (Nat.le_refl _)) page (by simp [k2])
  refine ⟨m, file, page, painted, text, glyphs, k1, k2, k3, ⟨n, fun fuel hf => ?_⟩, k5.mono ?_, k6, k7, k8⟩
  · rw [← k4 fuel hf]
    exact (paintContents_agree h3 _ _ _ _ hlen).symm
  · rintro a b ⟨e1, e2, e3⟩
    exact ⟨e1, e2, e3⟩

/-- **C115**: `C115_backgrounds_partial` if only good numbers are printed: nothing is assumed of how other numbers are printed. -/
theorem C115_backgrounds_printed_partial {good : R → Prop} {readReal : List Byte → Option R} (hd : RealTextOn good P.floats.dtoa readReal)
    (hl : FloatLaws P.floats)
    (hv : P.fontView.Valid) (ho : P.fontView.Ok) (hg : ∀ c g, font.glyphId c = .ok g → g < 65536) (F : Forest) (hr : Represents d F)
    (ha : F.Acyclic) (hn : DocumentNodeIsRoot d) (hi : d.styleElements = d.idsWith NodeData.isStyle)
    (ua author : List (σ × List (Declaration × Bool))) (rootStyle : ComputedValues) (elements : List ComputedValues)
    (h : DocumentBoxed engine d F ua author rootStyle elements) (hfloat : ∀ s ∈ rootStyle :: elements, floatOf s = .none)
    {fuel : Nat} {schedule : Oracle} {bytes : List Byte} (hb : toPdfBytes P engine font d fuel schedule = some bytes)
    (hp : OnlyPrints good P.floats.dtoa fun dtoa => toPdfBytes (P.printing dtoa) engine font d fuel schedule)
    (hs : bytes.length ≤ 2 ^ 32) :
    ∃ m file page painted styles pieces, (∀ fuel, m ≤ fuel → readDocument readReal fuel bytes = some file) ∧ file.pages = [page] ∧
      (∃ m, ∀ fuel, m ≤ fuel →
        paintContents readReal P.floats.zero P.floats.one (gsAlpha file.extGState) fuel page.contents = some painted) ∧
      AllMatch (fun s style => s.Filled P.floats P.round (backgroundOf style)) (painted.flatMap seenRects) styles ∧
      styles.Perm ((rootStyle :: elements).filter hasBackground ++ pieces) ∧
      (∀ s ∈ pieces, s ∈ elements ∧ isInline s ∧ hasBackground s) ∧
      ((∀ s ∈ rootStyle :: elements, positionOf s ≠ .absolute) → (∀ s ∈ elements, isInline s → ¬ hasBackground s) →
        styles = (rootStyle :: elements).filter hasBackground) := by
  obtain ⟨dtoa, read, h1, h2, h3⟩ := hd.total bytes.length
  have hb' : toPdfBytes (P.printing dtoa) engine font d fuel schedule = some bytes := (hp dtoa h2).trans hb
  obtain ⟨m, file, page, painted, styles, pieces, k1, k2, ⟨n, k4⟩, k5, k6, k7, k8⟩ :=
    C115_backgrounds_partial (P.printing dtoa) engine font d (readReal := read) h1 (hl.printing dtoa) hv ho hg F hr ha hn hi ua author rootStyle
      elements h hfloat hb' hs
  simp only [readDocument_agree h3 (Nat.le_refl _)] at k1
  have hlen := readDocument_length (k1 m (Nat.le_refl _)) page (by simp [k2])
  refine ⟨m, file, page, painted, styles, pieces, k1, k2, ⟨n, fun fuel hf => ?_⟩, k5.mono ?_, k6, k7, k8⟩
  · rw [← k4 fuel hf]
    exact (paintContents_agree h3 _ _ _ _ hlen).symm
  · rintro a b ⟨e1, e2⟩
    exact ⟨e1, e2⟩

end

section
attribute [local instance] singleNumbers single_zeroLaws
variable {σ E Err : Type} (engine : Engine σ) (font : FontApi Single Err) (d : Verif.Dom.Document)

/-- C118: `C118_text_partial` with real numbers as PDF has them, which are read as the nearest `f32`. That `dtoa` prints a number so that it is
read back is assumed only of the numbers of the calls that paint the document. -/
theorem C118_text_printed_partial (dtoa : Single → List Byte) (good : Single → Prop) (hd : ∀ r, good r → readSingle (dtoa r) = some r)
    (address : Nat) (view : FontView E) (ascender : Single)
    (hv : view.Valid) (ho : view.Ok) (hg : ∀ c g, font.glyphId c = .ok g → g < 65536) (F : Forest) (rootStyle : ComputedValues)
    (tree : List StyledNode) (hidden : List Nat) (h : Denotes engine d F rootStyle tree hidden)
    (hfloat : floatOf rootStyle = .none ∧ nodesAll (fun s _ => floatOf s = .none) tree)
    {fuel : Nat} {schedule : Oracle} {bytes : List Byte}
    (hb : toPdfBytes ⟨singleFloats dtoa, Single.round, address, view, ascender⟩ engine font d fuel schedule = some bytes)
    (hp : ∀ ops, documentCalls ⟨singleFloats dtoa, Single.round, address, view, ascender⟩ engine font d fuel schedule = some ops →
      ∀ r ∈ PageCalls.numbers (singleFloats dtoa) ⟨.round 600, .round 800, ops⟩, good r)
    (hs : bytes.length ≤ 2 ^ 32) :
    ∃ m file page painted text glyphs, (∀ fuel, m ≤ fuel → readDocument readSingle fuel bytes = some file) ∧ file.pages = [page] ∧
      (∃ m, ∀ fuel, m ≤ fuel → paintContents readSingle .zero .one (gsAlpha file.extGState) fuel page.contents = some painted) ∧
      AllMatch (fun (m : Mark Single) (g : ComputedValues × Nat) => m.glyph = g.2 ∧
        let color : RGBA := g.1.values .color
        (IsBytes color → level m.rgb.1 = color.red ∧ level m.rgb.2.1 = color.green ∧ level m.rgb.2.2 = color.blue ∧ level m.alpha = color.alpha))
        (painted.flatMap marks) glyphs ∧
      Shown font text glyphs ∧ (inked (text.map Prod.snd)).Perm (inked (visibleTexts tree)) := by
  obtain ⟨m, file, page, painted, text, glyphs, h1, h2, -, h3, h4, h5, h6, -⟩ :=
    C115_text_printed_partial ⟨singleFloats dtoa, Single.round, address, view, ascender⟩ engine font d (realTextOn_single hd) (C116_floats dtoa) hv ho
      hg F rootStyle tree hidden h hfloat hb (C115_numbers _ engine font d ho fuel schedule hp) hs
  refine ⟨m, file, page, painted, text, glyphs, h1, h2, h3, h4.mono ?_, h5, h6⟩
  rintro mark g ⟨e1, -, e2⟩
  exact ⟨e1, fun hc => C118_color dtoa _ _ _ _ _ _ hc.1 hc.2.1 hc.2.2.1 hc.2.2.2 e2⟩

/-- C118: `C118_backgrounds_partial` with real numbers as PDF has them, as in `C118_text_printed_partial`. -/
theorem C118_backgrounds_printed_partial (dtoa : Single → List Byte) (good : Single → Prop) (hd : ∀ r, good r → readSingle (dtoa r) = some r)
    (address : Nat) (view : FontView E) (ascender : Single)
    (hv : view.Valid) (ho : view.Ok) (hg : ∀ c g, font.glyphId c = .ok g → g < 65536) (F : Forest) (hr : Represents d F)
    (ha : F.Acyclic) (hn : DocumentNodeIsRoot d) (hi : d.styleElements = d.idsWith NodeData.isStyle)
    (ua author : List (σ × List (Declaration × Bool))) (rootStyle : ComputedValues) (elements : List ComputedValues)
    (h : DocumentBoxed engine d F ua author rootStyle elements) (hfloat : ∀ s ∈ rootStyle :: elements, floatOf s = .none)
    {fuel : Nat} {schedule : Oracle} {bytes : List Byte}
    (hb : toPdfBytes ⟨singleFloats dtoa, Single.round, address, view, ascender⟩ engine font d fuel schedule = some bytes)
    (hp : ∀ ops, documentCalls ⟨singleFloats dtoa, Single.round, address, view, ascender⟩ engine font d fuel schedule = some ops →
      ∀ r ∈ PageCalls.numbers (singleFloats dtoa) ⟨.round 600, .round 800, ops⟩, good r)
    (hs : bytes.length ≤ 2 ^ 32) :
    ∃ m file page painted styles pieces, (∀ fuel, m ≤ fuel → readDocument readSingle fuel bytes = some file) ∧ file.pages = [page] ∧
      (∃ m, ∀ fuel, m ≤ fuel → paintContents readSingle .zero .one (gsAlpha file.extGState) fuel page.contents = some painted) ∧
      AllMatch (fun (s : SeenRect Single) style =>
        let color := backgroundOf style
        (IsBytes color → level s.rgb.1 = color.red ∧ level s.rgb.2.1 = color.green ∧ level s.rgb.2.2 = color.blue ∧ level s.alpha = color.alpha))
        (painted.flatMap seenRects) styles ∧
      styles.Perm ((rootStyle :: elements).filter hasBackground ++ pieces) ∧
      (∀ s ∈ pieces, s ∈ elements ∧ isInline s ∧ hasBackground s) := by
  obtain ⟨m, file, page, painted, styles, pieces, h1, h2, h3, h4, h5, h6, -⟩ :=
    C115_backgrounds_printed_partial ⟨singleFloats dtoa, Single.round, address, view, ascender⟩ engine font d (realTextOn_single hd)
      (C116_floats dtoa) hv ho hg F hr ha hn hi ua author rootStyle elements h hfloat hb (C115_numbers _ engine font d ho fuel schedule hp) hs
  refine ⟨m, file, page, painted, styles, pieces, h1, h2, h3, h4.mono ?_, h5, h6⟩
  rintro s style ⟨-, e⟩ color hc
  exact C118_color dtoa _ _ _ _ _ _ hc.1 hc.2.1 hc.2.2.1 hc.2.2.2 e

/-- Of `lookDocument` (for which `C118_example_backgrounds` has the other hypotheses) a file is made, and all numbers in it are finite: the
hypotheses that `C118_text_printed_partial` and `C118_backgrounds_printed_partial` have of numbers are met. -/
theorem C118_example_document :
    (∃ ops, documentCalls ⟨singleFloats exactText, Single.round, 0, Verif.Pdf.sampleFont 0, .round (9 / 10)⟩ groundEngine
      (plainFont (Single.round 1)) lookDocument 9 inOrder = some ops ∧
      (∀ r ∈ PageCalls.numbers (singleFloats exactText) ⟨.round 600, .round 800, ops⟩, r.Finite) ∧ 6 ≤ ops.length) ∧
    (∃ bytes, toPdfBytes ⟨singleFloats exactText, Single.round, 0, Verif.Pdf.sampleFont 0, .round (9 / 10)⟩ groundEngine
      (plainFont (Single.round 1)) lookDocument 9 inOrder = some bytes ∧ bytes.length ≤ 2 ^ 32) ∧
    ∀ r : Single, r.Finite → readSingle (exactText r) = some r := by
  refine ⟨?_, ?_, exactText_reads⟩
  · have h : ((documentCalls ⟨singleFloats exactText, Single.round, 0, Verif.Pdf.sampleFont 0, .round (9 / 10)⟩ groundEngine
        (plainFont (Single.round 1)) lookDocument 9 inOrder).map fun ops =>
          decide ((∀ r ∈ PageCalls.numbers (singleFloats exactText) ⟨.round 600, .round 800, ops⟩, r.Finite) ∧ 6 ≤ ops.length)) = some true := by
      simp only [documentCalls, layoutDocument, constructDocument, groundSet_parsed]
      decide +kernel
    rcases hb : documentCalls ⟨singleFloats exactText, Single.round, 0, Verif.Pdf.sampleFont 0, .round (9 / 10)⟩ groundEngine
        (plainFont (Single.round 1)) lookDocument 9 inOrder with _ | ops
    · rw [hb] at h
      cases h
    · rw [hb] at h
      exact ⟨ops, rfl, by simpa using h⟩
  · have h : ((toPdfBytes ⟨singleFloats exactText, Single.round, 0, Verif.Pdf.sampleFont 0, .round (9 / 10)⟩ groundEngine
        (plainFont (Single.round 1)) lookDocument 9 inOrder).map fun bytes => decide (bytes.length ≤ 2 ^ 32)) = some true := by
      simp only [toPdfBytes, layoutDocument, constructDocument, groundSet_parsed]
      decide +kernel
    rcases hb : toPdfBytes ⟨singleFloats exactText, Single.round, 0, Verif.Pdf.sampleFont 0, .round (9 / 10)⟩ groundEngine
        (plainFont (Single.round 1)) lookDocument 9 inOrder with _ | bytes
    · rw [hb] at h
      cases h
    · rw [hb] at h
      exact ⟨bytes, rfl, by simpa using h⟩

end

end Verif.Layout.Machine
