/- C116: the PDF file of a plain text with `f32`, as a reader of PDF files sees it. -/
import Verif.Text.SingleTheorems
import Verif.Pdf.DecimalReal
namespace Verif.Text.Machine
open Verif.Pdf Verif.Text Verif.Float
variable {Err : Type}

private theorem mem_shownGlyphs {f : Nat} {glyphs : List Nat} {size x y : Single} : ∀ {ops : List (PageOp Single)},
    .text f glyphs size x y ∈ ops → glyphs ∈ shownGlyphs ops
  | [], h => by cases h
  | .text _ _ _ _ _ :: ops, h => by
    rcases List.mem_cons.1 h with e | h
    · cases e; exact List.mem_cons_self
    · exact List.mem_cons_of_mem _ (mem_shownGlyphs h)
  | .color _ _ _ _ :: ops, h => by
    rcases List.mem_cons.1 h with e | h
    · cases e
    · exact mem_shownGlyphs (ops := ops) h
  | .rect _ _ _ _ :: ops, h => by
    rcases List.mem_cons.1 h with e | h
    · cases e
    · exact mem_shownGlyphs (ops := ops) h

/-- C116: the bytes written for a text that is laid out with `f32` are a PDF file (of at most 4 GB) whose pages, read by a PDF reader that rounds
real numbers to the nearest `f32`, paint the parts of the text, in reading order as in `C116_order`, each with its glyphs, at its place, in the font
and size of the style and in opaque black, and nothing else. That `dtoa` prints a number so that it is read back is assumed only of the numbers
that are printed. -/
theorem C116_file (dtoa : Single → List Byte) (good : Single → Prop) (hd : ∀ r, good r → readSingle (dtoa r) = some r) (address : Nat)
    (font : FontView Err) (hfont : font.Valid) {api : FontApi Single Err} (hf : UsualFont api) (hglyphs : ∀ ch id, api.glyphId ch = .ok id → id < 65536)
    {style : Style Single} (h : Usual style) (text : List Nat) (breaks : List (Nat × Bool)) (hb : IsBreaks text breaks) (hlen : breaks.length ≤ 2 ^ 64)
    (d : Doc Single) (hlay : layout single (singleFloats dtoa) address font api style text breaks = .ok d) :
    ∃ pages parts, Cuts text 0 breaks parts ∧ d = runDoc (singleFloats dtoa) (fun _ => font) pages ∧
      List.Forall₂ (fun part glyphs => ∃ w, IsShaped api part.1 glyphs w) parts (pages.flatMap fun page => shownGlyphs page.ops) ∧
      (∀ page ∈ pages, page.ops.IsChain (Follows api style) ∧ ∀ op ∈ page.ops, InPage style op) ∧
      ((∀ page ∈ pages, ∀ r ∈ page.numbers (singleFloats dtoa), good r) → (d.write (singleFloats dtoa)).length ≤ 2 ^ 32 →
        ∃ m file, (∀ fuel, m ≤ fuel → readDocument readSingle fuel (d.write (singleFloats dtoa)) = some file) ∧
          AllMatch (fun p page => ∃ painted, (∃ m, ∀ fuel, m ≤ fuel →
              paintContents readSingle .zero .one (gsAlpha file.extGState) fuel p.contents = some painted) ∧
            AllMatch (Matches (singleFloats dtoa) fun _ name => ∃ id, dictGet file.fonts name = some (.ref id 0) ∧
              IsFont readSingle (d.write (singleFloats dtoa)) font id) painted (expected (fun _ => font) none page.ops)) file.pages pages) := by
  obtain ⟨pages, parts, h1, rfl, h3, h4⟩ := C116_order (singleFloats dtoa) address font hf h text breaks hb hlen d hlay
  refine ⟨pages, parts, h1, rfl, h3, h4, fun hp hs => ?_⟩
  have hv : Valid (fun _ : Nat => font) pages := by
    refine ⟨fun _ => hfont, ?_⟩
    intro c hc op hop
    cases op with
    | color _ _ _ _ => trivial
    | rect _ _ _ _ => trivial
    | text f glyphs size x y =>
      obtain ⟨part, _, w, hw⟩ := forall2_right h3 glyphs (List.mem_flatMap.2 ⟨c, hc, mem_shownGlyphs hop⟩)
      intro g hg
      obtain ⟨ch, _, hch⟩ := shaped_glyphs hw g hg
      exact hglyphs ch g hch
  exact C15_C18_contents_printed (F := singleFloats dtoa) (realTextOn_single hd) (C116_floats dtoa) (fun _ => font) pages hv
    (C15_numbers (fun _ => font) pages hp) hs

/-- The hypotheses of `C116_file` are met by the text of `C116_example`: it is laid out, and all numbers of its first page are finite, as all that
are printed with all their digits and read back. -/
theorem C116_example_file : (∀ r : Single, r.Finite → readSingle (exactText r) = some r) ∧
    (Verif.Pdf.sampleFont 0).Valid ∧ (∀ ch id, singleApi.glyphId ch = .ok id → id < 65536) ∧
    (layout single (singleFloats exactText) 0 (Verif.Pdf.sampleFont 0) singleApi singleStyle plainText plainBreaks).toOption.isSome = true ∧
    ∀ r ∈ PageCalls.numbers (singleFloats exactText) ⟨ofBits 1117204061, ofBits 1117204061, [
        .text 0 [97, 98, 32] (.round 70) (ofBits 1089594312) (ofBits 1116544573),
        .text 0 [99, 100, 32] (.round 70) (ofBits 1111236673) (ofBits 1116544573)]⟩, r.Finite := by
  refine ⟨exactText_reads, sample_valid.1 0, ?_, by decide +kernel, ?_⟩
  · intro ch id h
    simp only [singleApi] at h
    split at h
    · cases h
    · rename_i h'
      cases h
      omega
  · unfold Single.Finite
    decide +kernel

end Verif.Text.Machine
