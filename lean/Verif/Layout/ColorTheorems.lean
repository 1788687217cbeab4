/- C118: colours of eight bits in the PDF files of documents. -/
import Verif.Pdf.ColorTheorems
import Verif.Pdf.DecimalReal
import Verif.Layout.SingleTheorems
namespace Verif.Pdf
open Verif.Float

/-- The bytes of the colour, and of the opacity, that something is painted in. -/
def Painted.levels : Painted Single → Nat × Nat × Nat × Nat
  | .fill _ _ rgb alpha => (level rgb.1, level rgb.2.1, level rgb.2.2, level alpha)
  | .show _ _ _ _ _ rgb alpha => (level rgb.1, level rgb.2.1, level rgb.2.2, level alpha)

/-- The colour requested last. -/
def Expected.color {R : Type} : Expected R → Requested R
  | .rect _ _ _ _ color => color
  | .text _ _ _ _ _ color => color

/-- What is painted has the bytes of the colour that was requested. -/
private theorem levels_of_matches {dtoa : Single → List Byte} {name : Nat → List Byte → Prop} {q : Painted Single} {e : Expected Single}
    (hm : Matches (singleFloats dtoa) name q e) : (e.color = none → q.levels = (0, 0, 0, 255)) ∧
      ∀ r g b a, r ≤ 255 → g ≤ 255 → b ≤ 255 → a ≤ 255 → e.color = some (component r, component g, component b, component a) →
        q.levels = (r, g, b, a) := by
  have key : ∀ rgb alpha, ColorOk (singleFloats dtoa) rgb alpha e.color →
      (e.color = none → (level rgb.1, level rgb.2.1, level rgb.2.2, level alpha) = (0, 0, 0, 255)) ∧
      ∀ r g b a, r ≤ 255 → g ≤ 255 → b ≤ 255 → a ≤ 255 → e.color = some (component r, component g, component b, component a) →
        (level rgb.1, level rgb.2.1, level rgb.2.2, level alpha) = (r, g, b, a) := by
    intro rgb alpha hc
    constructor
    · intro he
      rw [he] at hc
      obtain ⟨rfl, rfl⟩ := hc
      show (level .zero, level .zero, level .zero, level .one) = (0, 0, 0, 255)
      decide +kernel
    · intro r g b a hr hg hb ha he
      rw [he, (component_round r hr).1, (component_round g hg).1, (component_round b hb).1, (component_round a ha).1] at hc
      obtain ⟨e1, e2, e3, e4⟩ := C118_color dtoa rgb alpha r g b a hr hg hb ha hc
      rw [e1, e2, e3, e4]
  cases q with
  | fill cm path rgb alpha =>
    cases e with
    | rect x y w h color => exact key rgb alpha hm.2.2
    | text f ids size x y color => exact hm.elim
  | «show» cm font size matrix s rgb alpha =>
    cases e with
    | rect x y w h color => exact hm.elim
    | text f ids size x y color => exact key rgb alpha hm.2.2.2.2.2

/-- C118: everything on a page that the caller asked for in a colour of eight bits is painted in a colour with the same bytes, and an opacity
with the same byte; what is painted before the first colour is opaque black. -/
theorem C118_pages {E : Type} (dtoa : Single → List Byte) {readReal : List Byte → Option Single} (hd : RealText dtoa readReal)
    (font : Nat → FontView E) (pages : List (PageCalls Single)) (hv : Valid font pages)
    (hs : ((runDoc (singleFloats dtoa) font pages).write (singleFloats dtoa)).length ≤ 2 ^ 32) :
    ∃ m doc, (∀ fuel, m ≤ fuel → readDocument readReal fuel ((runDoc (singleFloats dtoa) font pages).write (singleFloats dtoa)) = some doc) ∧
      AllMatch (fun p c => ∃ painted, (∃ m, ∀ fuel, m ≤ fuel →
          paintContents readReal .zero .one (gsAlpha doc.extGState) fuel p.contents = some painted) ∧
        AllMatch (fun (q : Painted Single) (e : Expected Single) =>
          (e.color = none → q.levels = (0, 0, 0, 255)) ∧
          ∀ r g b a, r ≤ 255 → g ≤ 255 → b ≤ 255 → a ≤ 255 → e.color = some (component r, component g, component b, component a) →
            q.levels = (r, g, b, a)) painted (expected font none c.ops)) doc.pages pages := by
  obtain ⟨m, doc, h1, h2⟩ := C15_C18_contents (F := singleFloats dtoa) hd (C116_floats dtoa) font pages hv hs
  refine ⟨m, doc, h1, h2.mono fun p c => ?_⟩
  rintro ⟨painted, h3, h4⟩
  exact ⟨painted, h3, h4.mono fun q e hm => levels_of_matches hm⟩

/-- C118: `C118_pages` with real numbers as PDF has them: they are read as the nearest `f32`. That `dtoa` prints a number so that it is read back
is assumed only of the numbers that are printed: those of the calls, and those made of them (`PageCalls.numbers`). -/
theorem C118_pages_printed {E : Type} (dtoa : Single → List Byte) (good : Single → Prop) (hd : ∀ r, good r → readSingle (dtoa r) = some r)
    (font : Nat → FontView E) (pages : List (PageCalls Single)) (hv : Valid font pages)
    (hp : ∀ c ∈ pages, ∀ r ∈ c.numbers (singleFloats dtoa), good r)
    (hs : ((runDoc (singleFloats dtoa) font pages).write (singleFloats dtoa)).length ≤ 2 ^ 32) :
    ∃ m doc, (∀ fuel, m ≤ fuel → readDocument readSingle fuel ((runDoc (singleFloats dtoa) font pages).write (singleFloats dtoa)) = some doc) ∧
      AllMatch (fun p c => ∃ painted, (∃ m, ∀ fuel, m ≤ fuel →
          paintContents readSingle .zero .one (gsAlpha doc.extGState) fuel p.contents = some painted) ∧
        AllMatch (fun (q : Painted Single) (e : Expected Single) =>
          (e.color = none → q.levels = (0, 0, 0, 255)) ∧
          ∀ r g b a, r ≤ 255 → g ≤ 255 → b ≤ 255 → a ≤ 255 → e.color = some (component r, component g, component b, component a) →
            q.levels = (r, g, b, a)) painted (expected font none c.ops)) doc.pages pages := by
  obtain ⟨m, doc, h1, h2⟩ := C15_C18_contents_printed (F := singleFloats dtoa) (realTextOn_single hd) (C116_floats dtoa) font pages hv
    (C15_numbers font pages hp) hs
  refine ⟨m, doc, h1, h2.mono fun p c => ?_⟩
  rintro ⟨painted, h3, h4⟩
  exact ⟨painted, h3, h4.mono fun q e hm => levels_of_matches hm⟩

/-- A number for each `f32`, for examples. -/
def codeOf : Single → Int
  | .nan => 0
  | .num neg bits _ => 1 + 2 * bits + (if neg then 1 else 0)

/-- The `f32` with this number. -/
def ofCode (n : Int) : Option Single :=
  if n = 0 then some .nan
  else if h : ((n - 1) / 2).toNat ≤ infinityBits then some (.num (decide ((n - 1) % 2 = 1)) ((n - 1) / 2).toNat h) else none

theorem ofCode_codeOf (a : Single) : ofCode (codeOf a) = some a := by
  rcases a with _ | ⟨neg, b, hb⟩
  · rfl
  · have h0 : codeOf (.num neg b hb) ≠ 0 := by
      simp only [codeOf]
      split <;> omega
    have h1 : ((codeOf (.num neg b hb) - 1) / 2).toNat = b := by
      simp only [codeOf]
      split <;> omega
    have h2 : decide ((codeOf (.num neg b hb) - 1) % 2 = 1) = neg := by
      cases neg <;> simp [codeOf]
    simp only [ofCode, h0, if_false, h1, hb, dif_pos, h2]

/-- A way to write `f32` that a reader can read, for examples. -/
def dtoaCode (a : Single) : List Byte := dtoaWhole (codeOf a)

/-- The reader for `dtoaCode`. -/
def readCode (t : List Byte) : Option Single := (readWhole t).bind ofCode

theorem realText_code : RealText dtoaCode readCode where
  reads_back r := by simp [readCode, dtoaCode, realText_whole.reads_back, ofCode_codeOf]
  regular r := realText_whole.regular _
  not_int r := realText_whole.not_int _
  not_empty r := realText_whole.not_empty _
  letter b t h := by simp [readCode, realText_whole.letter b t h]

/-- A page with two rectangles, the second of which is half transparent and red. -/
def colorPages : List (PageCalls Single) := [⟨.round 600, .round 800, [
  .rect .zero .zero .one .one, .color (component 255) (component 0) (component 1) (component 128), .rect .zero .zero .one .one]⟩]

theorem C118_example : RealText dtoaCode readCode ∧ Valid sampleFont colorPages ∧
    ((runDoc (singleFloats dtoaCode) sampleFont colorPages).write (singleFloats dtoaCode)).length ≤ 2 ^ 32 ∧
    (expected sampleFont none (colorPages.flatMap (·.ops))).map (·.color) =
      [none, some (component 255, component 0, component 1, component 128)] ∧
    component 128 ≠ .round (1 / 2) := by
  refine ⟨realText_code, ⟨sample_valid.fonts, ?_⟩, by decide +kernel, rfl, by decide +kernel⟩
  intro c hc op hop
  cases List.mem_singleton.1 hc
  rcases List.mem_cons.1 hop with rfl | hop
  · trivial
  rcases List.mem_cons.1 hop with rfl | hop
  · trivial
  cases List.mem_singleton.1 hop
  trivial

instance (a : Single) : Decidable a.Finite := by unfold Single.Finite; infer_instance

/-- The hypotheses of `C118_pages_printed` (and so of the theorems of PrintedTheorems.lean) are met if all digits of finite numbers are printed. -/
theorem C118_example_printed : (∀ r : Single, r.Finite → readSingle (exactText r) = some r) ∧
    (∀ c ∈ colorPages, ∀ r ∈ c.numbers (singleFloats exactText), r.Finite) ∧
    ((runDoc (singleFloats exactText) sampleFont colorPages).write (singleFloats exactText)).length ≤ 2 ^ 32 ∧
    readSingle (ascii "-0.75") = some (.round (-75 / 100)) ∧ readSingle (ascii "1e21") = none ∧ readSingle (ascii "inf") = none := by
  refine ⟨exactText_reads, by decide +kernel, by decide +kernel, by decide +kernel, by decide +kernel, by decide +kernel⟩

end Verif.Pdf

namespace Verif.Layout.Machine
open Verif.Style Verif.Style.Spec Verif.Text Verif.Pdf Verif.Dom Verif.Float

section
attribute [local instance] singleNumbers single_zeroLaws
variable {σ E Err : Type} (engine : Engine σ) (font : FontApi Single Err) (d : Verif.Dom.Document)

/-- The bytes of a colour (cssparser's `RGBA`, of which all components are `u8`). -/
def IsBytes (c : RGBA) : Prop := c.red ≤ 255 ∧ c.green ≤ 255 ∧ c.blue ≤ 255 ∧ c.alpha ≤ 255

/-- C118: whenever a PDF file is made with `f32` of a document in which no element floats, each glyph on its page has the bytes of the colour
of its own element, and the byte of its opacity. -/
theorem C118_text_partial (dtoa : Single → List Byte) (address : Nat) (view : FontView E) (ascender : Single)
    {readReal : List Byte → Option Single} (hd : RealText dtoa readReal)
    (hv : view.Valid) (ho : view.Ok) (hg : ∀ c g, font.glyphId c = .ok g → g < 65536) (F : Forest) (rootStyle : ComputedValues)
    (tree : List StyledNode) (hidden : List Nat) (h : Denotes engine d F rootStyle tree hidden)
    (hfloat : floatOf rootStyle = .none ∧ nodesAll (fun s _ => floatOf s = .none) tree)
    {fuel : Nat} {schedule : Oracle} {bytes : List Byte}
    (hb : toPdfBytes ⟨singleFloats dtoa, Single.round, address, view, ascender⟩ engine font d fuel schedule = some bytes)
    (hs : bytes.length ≤ 2 ^ 32) :
    ∃ m file page painted text glyphs, (∀ fuel, m ≤ fuel → readDocument readReal fuel bytes = some file) ∧ file.pages = [page] ∧
      (∃ m, ∀ fuel, m ≤ fuel → paintContents readReal .zero .one (gsAlpha file.extGState) fuel page.contents = some painted) ∧
      AllMatch (fun (m : Mark Single) (g : ComputedValues × Nat) => m.glyph = g.2 ∧
        let color : RGBA := g.1.values .color
        (IsBytes color → level m.rgb.1 = color.red ∧ level m.rgb.2.1 = color.green ∧ level m.rgb.2.2 = color.blue ∧ level m.alpha = color.alpha))
        (painted.flatMap marks) glyphs ∧
      Shown font text glyphs ∧ (inked (text.map Prod.snd)).Perm (inked (visibleTexts tree)) := by
  obtain ⟨m, file, page, painted, text, glyphs, h1, h2, -, h3, h4, h5, h6, -⟩ :=
    C115_text_partial ⟨singleFloats dtoa, Single.round, address, view, ascender⟩ engine font d hd (C116_floats dtoa) hv ho hg F rootStyle tree hidden h
      hfloat hb hs
  refine ⟨m, file, page, painted, text, glyphs, h1, h2, h3, h4.mono ?_, h5, h6⟩
  rintro mark g ⟨e1, -, e2⟩
  exact ⟨e1, fun hc => C118_color dtoa _ _ _ _ _ _ hc.1 hc.2.1 hc.2.2.1 hc.2.2.2 e2⟩

/-- The hypotheses of `C118_text_partial` are met by `exampleDocument2`, of which a file is made. -/
theorem C118_example_text :
    (∃ bytes, toPdfBytes ⟨singleFloats dtoaCode, Single.round, 0, Verif.Pdf.sampleFont 0, .round (9 / 10)⟩ exampleEngine
      (plainFont (Single.round 1)) exampleDocument2 9 inOrder = some bytes ∧ bytes.length ≤ 2 ^ 32) ∧
    (∀ c g, (plainFont (Single.round 1)).glyphId c = .ok g → g < 65536) ∧
    (∃ F rootStyle hidden, Denotes exampleEngine exampleDocument2 F rootStyle exampleTree2 hidden ∧ floatOf rootStyle = .none) ∧
    nodesAll (fun s _ => floatOf s = .none ∧ IsBytes (s.values .color)) exampleTree2 := by
  refine ⟨?_, ?_, ⟨_, _, _, exampleDocument2_denotes, by decide +kernel⟩, ?_⟩
  · have hp : parseStylesheets exampleEngine exampleDocument2 = some ⟨[]⟩ := exampleEngine_sheets rfl
    have h : ((toPdfBytes ⟨singleFloats dtoaCode, Single.round, 0, Verif.Pdf.sampleFont 0, .round (9 / 10)⟩ exampleEngine
        (plainFont (Single.round 1)) exampleDocument2 9 inOrder).map fun bytes => decide (bytes.length ≤ 2 ^ 32)) = some true := by
      simp only [toPdfBytes, layoutDocument, constructDocument, hp]
      decide +kernel
    rcases hb : toPdfBytes ⟨singleFloats dtoaCode, Single.round, 0, Verif.Pdf.sampleFont 0, .round (9 / 10)⟩ exampleEngine
        (plainFont (Single.round 1)) exampleDocument2 9 inOrder with _ | bytes
    · rw [hb] at h
      cases h
    · rw [hb] at h
      exact ⟨bytes, rfl, by simpa using h⟩
  · intro c g h
    simp only [plainFont] at h
    split at h <;> cases h
    assumption
  · unfold IsBytes
    refine ⟨.inl (by decide +kernel), .inr ⟨by decide +kernel, .inr ⟨by decide +kernel, trivial, trivial⟩, trivial, trivial⟩, trivial⟩

end

end Verif.Layout.Machine
