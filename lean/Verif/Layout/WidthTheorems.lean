/- C117: the widths of the glyphs of the built-in font in PDF files. -/
import Verif.Font.ThousandthsTheorems
import Verif.Layout.BuiltInTheorems
import Verif.Pdf.DocTheorems
namespace Verif.Layout
open Verif.Font hiding Byte
open Verif.Pdf

/-- The widths of the glyphs of the built-in font, in units of 1/2048 em. -/
def veraWidths : List Nat := (List.range 268).map fun i => veraU16 (46276 + 4 * i)

theorem allMatch_mem {A B : Type} {r : A → B → Prop} : ∀ {l : List A} {l' : List B}, AllMatch r l l' → ∀ a ∈ l, ∃ b, r a b
  | [], _, _, a, h => absurd h (by simp)
  | x :: l, [], h, _, _ => h.elim
  | x :: l, y :: l', h, a, ha => by
    rcases List.mem_cons.1 ha with rfl | ha
    · exact ⟨y, h.1⟩
    · exact allMatch_mem h.2 a ha

/-- C117: in every document that is made with the built-in font, the fonts have the widths of the built-in font, in thousandths of an em
rounded down. -/
theorem C117_built_in {R : Type} {F : Floats R} {readReal : List Byte → Option R} (hd : RealText F.dtoa readReal) (hl : FloatLaws F)
    {font : Font} (hfont : Font.parse vera = .ok font) {utf8 : NameText → List Byte} (hname : AsciiNames utf8) (pages : List (PageCalls R))
    (hops : ∀ c ∈ pages, ∀ op ∈ c.ops, op.Valid) :
    let bytes := (runDoc F (fun _ => fontView thousandths utf8 font) pages).write F
    bytes.length ≤ 2 ^ 32 →
    ∃ m doc, (∀ fuel, m ≤ fuel → readDocument readReal fuel bytes = some doc) ∧
      ∀ e ∈ doc.fonts, ∃ id m read, e.2 = .ref id 0 ∧ (∀ fuel, m ≤ fuel → readFont readReal fuel bytes id = some read) ∧
        read.widths = veraWidths.map fun w => ((1000 * w / 2048 : Nat) : Int) := by
  intro bytes hs
  obtain rfl := builtIn_eq hfont
  have hn : 35 ∉ utf8 veraFont.postscriptName := by
    show 35 ∉ utf8 (.utf8Lossy veraName)
    rw [hname _ (by decide +kernel)]
    decide +kernel
  obtain ⟨m, doc, h1, -, -, h2⟩ := C17_fonts hd hl (fun _ => fontView thousandths utf8 veraFont) pages
    ⟨fun _ => veraFont_wellFormed.valid _ _ hn, hops⟩ hs
  refine ⟨m, doc, h1, fun e he => ?_⟩
  obtain ⟨-, id, h3, h4⟩ := allMatch_mem h2 e he
  obtain ⟨m', read, h5, h6, h7⟩ := C117_file_partial readReal bytes utf8 veraFont vera_size 11 (by decide) rfl (by decide) id h4
  refine ⟨id, m', read, h3, h5, ?_⟩
  have h6 : read.widths.length = 268 := h6
  refine List.ext_getElem? fun i => ?_
  by_cases hi : i < 268
  · have hw : read.widths[i]? = some (read.widths[i]'(by omega)) := List.getElem?_eq_getElem _
    have := h7 i _ hw (veraU16 (46276 + 4 * i)) (by
      rw [show veraFont.horizontalMetrics.count = 268 from rfl, Nat.min_eq_left (by omega)]
      exact vera_u16 (by show 46276 + 4 * i + 2 ≤ 65932; omega) rfl)
    rw [hw, this]
    simp [veraWidths, hi, show veraFont.unitsPerEm = 2048 from rfl]
  · rw [List.getElem?_eq_none (by omega), List.getElem?_eq_none (by simp [veraWidths]; omega)]

/-- The letter A, which is glyph 36, is 1401 / 2048 em wide; the hypotheses about floats are met. -/
theorem C117_example_built_in : veraWidths[36]? = some 1401 ∧ (1000 * 1401 / 2048 = 684) ∧
    RealText builtInPainter.floats.dtoa readWhole ∧ FloatLaws builtInPainter.floats ∧ AsciiNames rawName := by
  exact ⟨by decide +kernel, rfl, realText_whole, wholeFloats_laws, fun _ _ => rfl⟩

end Verif.Layout
