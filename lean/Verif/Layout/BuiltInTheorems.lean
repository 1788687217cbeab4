/- C78: documents with the built-in font. -/
import Verif.Layout.CopyTheorems
import Verif.Font.VeraTheorems
namespace Verif.Layout
open Verif.Style Verif.Text Verif.Pdf Verif.Dom
open Verif.Font (Font isChar NameText FontError vera veraFont veraGlyphs)

theorem veraFont_wellFormed : WellFormed veraFont where
  size := Verif.Font.vera_size
  map := .inl ⟨45702, Verif.Font.veraSegs, Verif.Font.veraFont_uses, Verif.Font.vera_format4, Verif.Font.vera_format4Ok⟩
  metrics := ⟨by decide, by
    show 46276 + 4 * 268 ≤ vera.length
    rw [Verif.Font.vera_length]
    decide⟩

theorem builtIn_eq {font : Font} (h : Font.parse vera = .ok font) : font = veraFont := by
  rw [Verif.Font.vera_parse] at h
  exact (Verif.Font.Res.ok.inj h).symm

/-- `String::from_utf8_lossy` changes nothing in ASCII text. -/
def AsciiNames (utf8 : NameText → List Byte) : Prop := ∀ bytes, (∀ b ∈ bytes, b.val < 128) → utf8 (.utf8Lossy bytes) = bytes

section
variable {R σ : Type} (P : Painter R (Option FontError)) (engine : Engine σ) (d : Document) (font : Font) (ems : Int → Nat → Rat)
  (units : Int → Nat → Int) (utf8 : NameText → List Byte)

/-- **C78**: with the built-in font, a PDF file is made of every document whose styles are supported, whatever characters are in it: the
font of inline.rs 275 never is the reason for an error. -/
theorem C78_returns_partial (hfont : Font.parse vera = .ok font) (hview : P.fontView = fontView units utf8 font) (F : Forest)
    (rootStyle : ComputedValues) (tree : List StyledNode) (hidden : List Nat) (h : Denotes engine d F rootStyle tree hidden)
    (hh : ∀ x ∈ hidden, HasNext d x) (hs : allSupported false tree) :
    ∃ N, ∀ fuel ≥ N, ∀ schedule : Oracle, ∃ bytes, toPdfBytes P engine (fontApi ems font) d fuel schedule = some bytes := by
  obtain rfl := builtIn_eq hfont
  exact C77_returns_partial P engine d veraFont ems units utf8 veraFont_wellFormed hview F rootStyle tree hidden h hh hs

/-- **C78**: whenever a PDF file is made with the built-in font of a document in which no element floats, and in which all characters that
are displayed, but for white space, are among the 256 characters of the font, then there is exactly one text that a reader may copy of its
page: but for white space, the characters of the elements that are displayed, in document order if no element is absolutely
positioned. -/
theorem C78_copy_partial (hfont : Font.parse vera = .ok font) (hname : AsciiNames utf8) (hview : P.fontView = fontView units utf8 font)
    {readReal : List Byte → Option R} (hd : RealText P.floats.dtoa readReal) (hl : FloatLaws P.floats) (F : Forest)
    (rootStyle : ComputedValues) (tree : List StyledNode) (hidden : List Nat) (h : Denotes engine d F rootStyle tree hidden)
    (hfloat : floatOf rootStyle = .none ∧ nodesAll (fun s _ => floatOf s = .none) tree)
    (hchars : ∀ c ∈ inked (visibleTexts tree), ∃ g, (c, g) ∈ veraGlyphs)
    {fuel : Nat} {schedule : Oracle} {bytes : List Byte}
    (hb : toPdfBytes P engine (fontApi ems font) d fuel schedule = some bytes) (hs : bytes.length ≤ 2 ^ 32) :
    ∃ m file page painted text, (∀ fuel, m ≤ fuel → readDocument readReal fuel bytes = some file) ∧ file.pages = [page] ∧
      (∃ m, ∀ fuel, m ≤ fuel →
        paintContents readReal P.floats.zero P.floats.one (gsAlpha file.extGState) fuel page.contents = some painted) ∧
      (∀ other, Copied readReal bytes file.fonts painted other ↔ other = text) ∧
      (inked text).Perm (inked (visibleTexts tree)) ∧
      (positionOf rootStyle ≠ .absolute ∧ nodesAll (fun s _ => positionOf s ≠ .absolute) tree →
        inked text = inked (visibleTexts tree)) := by
  obtain ⟨hglyph, -, hinj, -⟩ := Verif.Font.C78_characters font hfont
  obtain rfl := builtIn_eq hfont
  have hall : ∀ p ∈ veraGlyphs, p.2 ≠ 0 ∧ isChar p.1 = true := by decide +kernel
  refine C77_unique_partial P engine d veraFont ems units utf8 veraFont_wellFormed ?_ hview hd hl F rootStyle tree hidden h hfloat ?_ ?_ ?_
    hb hs
  · have hascii : (∀ b ∈ Verif.Font.veraName, b.val < 128) ∧ (35 : Byte) ∉ Verif.Font.veraName := by decide +kernel
    show 35 ∉ utf8 (.utf8Lossy Verif.Font.veraName)
    rw [hname _ hascii.1]
    exact hascii.2
  · intro c hc
    by_cases hw : isAsciiWhitespace c = true
    · simp only [isAsciiWhitespace, Bool.or_eq_true, beq_iff_eq] at hw
      rcases hw with (((rfl | rfl) | rfl) | rfl) | rfl <;> decide
    · obtain ⟨g, hg⟩ := hchars c (List.mem_filter.2 ⟨hc, by simpa using hw⟩)
      exact (hall _ hg).2
  · intro c hc
    obtain ⟨g, hg⟩ := hchars c hc
    exact ⟨g, (hall _ hg).1, (hglyph c g).2 (.inl hg)⟩
  · rintro c c' - ⟨-, -, g, h0, h1, h2⟩
    exact hinj c' c g h0 h2 h1

end

/-- `examplePainter` with the built-in font. -/
def builtInPainter : Painter Int (Option FontError) := ⟨wholeFloats, Rat.floor, 0, fontView wholeUnits rawName veraFont, 7 / 10⟩

/-- The hypotheses of the theorems above are met by `exampleDocument2`, whose text is `ab`; a PDF file is made of it. (That it has no more
than 2 ^ 32 bytes is not shown.) -/
example : Font.parse vera = .ok veraFont ∧ AsciiNames rawName ∧ builtInPainter.fontView = fontView wholeUnits rawName veraFont ∧
    RealText builtInPainter.floats.dtoa readWhole ∧ FloatLaws builtInPainter.floats ∧
    (∀ c ∈ inked (visibleTexts exampleTree2), ∃ g, (c, g) ∈ veraGlyphs) ∧
    ∃ F rootStyle hidden, Denotes exampleEngine exampleDocument2 F rootStyle exampleTree2 hidden ∧
      floatOf rootStyle = .none ∧ nodesAll (fun s _ => floatOf s = .none) exampleTree2 ∧
      ∃ N, ∀ fuel ≥ N, ∀ schedule : Oracle, ∃ bytes,
        toPdfBytes builtInPainter exampleEngine (fontApi (fun a u => a / u) veraFont) exampleDocument2 fuel schedule = some bytes := by
  refine ⟨Verif.Font.vera_parse, fun _ _ => rfl, rfl, realText_whole, wholeFloats_laws, ?_, _, _, _, exampleDocument2_denotes,
    by decide +kernel, ?_, ?_⟩
  · rw [show inked (visibleTexts exampleTree2) = [97, 98] by decide +kernel]
    intro c hc
    rcases List.mem_cons.1 hc with rfl | hc
    · exact ⟨68, by decide +kernel⟩
    · cases List.mem_singleton.1 hc
      exact ⟨69, by decide +kernel⟩
  · exact ⟨.inl (by decide +kernel), .inr ⟨by decide +kernel, .inr ⟨by decide +kernel, trivial, trivial⟩, trivial, trivial⟩, trivial⟩
  · refine C78_returns_partial builtInPainter exampleEngine exampleDocument2 veraFont _ wholeUnits rawName Verif.Font.vera_parse rfl _ _ _ _
      exampleDocument2_denotes ?_ ?_
    · intro x hx
      cases List.mem_singleton.1 hx
      exact ⟨_, 4, rfl, rfl⟩
    · have hN : (constructDocument exampleEngine exampleDocument2 9).isSome = true := by
        have hp : parseStylesheets exampleEngine exampleDocument2 = some ⟨[]⟩ := exampleEngine_sheets rfl
        simp only [constructDocument, hp]
        decide +kernel
      obtain ⟨root, hr⟩ := Option.isSome_iff_exists.1 hN
      exact ((C64_returns_partial _ _ _ _ _ _ exampleDocument2_denotes).1 ⟨9, root, hr⟩).2

end Verif.Layout
