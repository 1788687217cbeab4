/- C65: the text of a document is on the page of the PDF file. -/
import Verif.Layout.ShownLemmas
import Verif.Layout.ShownBoxes
import Verif.Layout.PaintTheorems
import Verif.Layout.DocumentTheorems
import Verif.Layout.FlowTheorems
namespace Verif.Layout
open Verif.Style Verif.Text Verif.Pdf Verif.Dom

/-- The glyphs in a shape. -/
def Shape.ids : Shape → List Nat
  | .rect _ _ _ => []
  | .glyphs ids _ _ _ => ids

theorem shapesOf_ids (ascender : Rat) {origin : Vec2 Rat} {fs : List Fragment} {placed : List (Fragment × Vec2 Rat)} (h : Placed origin fs placed) :
    (shapesOf ascender placed).flatMap Shape.ids = (fragmentsGlyphs fs).map Prod.snd := by
  induction h with
  | nil => rfl
  | @cons origin f fs below rest _ _ ih1 ih2 =>
    simp only [shapesOf, List.flatMap_append, List.flatMap_cons, fragmentsGlyphs, List.map_append] at ih1 ih2 ⊢
    rw [ih1, ih2]
    congr 1
    cases f with
    | box info children =>
      simp only [Fragment.shape, Fragment.glyphs, Fragment.children]
      split <;> simp [Shape.ids]
    | anonymous rect children mode => simp [Fragment.shape, Fragment.glyphs, Fragment.children]
    | text style rect segment => simp [Fragment.shape, Fragment.glyphs, Fragment.children, Shape.ids, fragmentsGlyphs, Function.comp_def]

theorem painted_glyphs {R E : Type} (P : Painter R E) {name : Nat → List Byte → Prop} : ∀ (painted : List (Painted R)) (shapes : List Shape),
    AllMatch (fun p s => Verif.Pdf.Matches P.floats name p (s.expected P)) painted shapes →
    painted.flatMap shownGlyphs = shapes.flatMap Shape.ids
  | [], [], _ => rfl
  | [], _ :: _, h => h.elim
  | _ :: _, [], h => h.elim
  | p :: ps, s :: ss, h => by
    obtain ⟨h1, h2⟩ := h
    rw [List.flatMap_cons, List.flatMap_cons, painted_glyphs P ps ss h2]
    congr 1
    cases p <;> cases s <;> simp only [Shape.expected, Verif.Pdf.Matches] at h1
    · rfl
    · simp only [shownGlyphs, Shape.ids, h1.2.2.2.2.1, Option.getD_some]

mutual
theorem StyledNode.All.mono {Q Q' : ComputedValues → List StyledNode → Prop} (h : ∀ s ch, Q s ch → Q' s ch) : ∀ n : StyledNode, n.All Q → n.All Q'
  | .ignored, _ => trivial
  | .text _, _ => trivial
  | .element s ch, hn => hn.imp id fun hn => ⟨h s ch hn.1, nodesAll_mono h ch hn.2⟩
theorem nodesAll_mono {Q Q' : ComputedValues → List StyledNode → Prop} (h : ∀ s ch, Q s ch → Q' s ch) :
    ∀ ns : List StyledNode, nodesAll Q ns → nodesAll Q' ns
  | [], _ => trivial
  | n :: ns, hn => ⟨StyledNode.All.mono h n hn.1, nodesAll_mono h ns hn.2⟩
end

theorem made_glyphs {Err : Type} {F : FontApi Rat Err} {origin : Vec2 Rat} {fs : List Fragment} {placed : List (Fragment × Vec2 Rat)}
    (h : Placed origin fs placed) : allMade F fs → ∀ e ∈ placed, ∀ style rect segment, e.1 = .text style rect segment →
    ∀ g ∈ segment.glyphs, ∃ c, F.glyphId c = .ok g := by
  induction h with
  | nil => simp
  | @cons origin f fs below rest _ _ ih1 ih2 =>
    intro hm e he style rect segment hs
    have hbelow : allMade F f.children := by
      cases f with
      | box info children => exact hm.1
      | anonymous rect children mode => exact hm.1.2
      | text style rect segment => trivial
    rcases List.mem_append.1 he with he | he
    · rcases List.mem_cons.1 he with rfl | he
      · cases hs
        exact hm.1
      · exact ih1 hbelow e he style rect segment hs
    · exact ih2 hm.2 e he style rect segment hs

section
variable {R Err E σ : Type} (P : Painter R E) (engine : Engine σ) (font : FontApi Rat Err) (d : Document)

/-- **C65**, boxes: the glyphs in the fragments that layout makes are those of the texts in the boxes that do not float, each character
becoming one glyph in its own style, but for spaces at the ends of lines; texts in absolutely positioned boxes may come later. -/
theorem C65_boxes {fuel : Nat} {schedule : Oracle} {root : BlockFormattingContext} {viewport : Vec2 Rat} {fragments : List Fragment}
    (h : layoutRoot font fuel schedule root viewport = some fragments) :
    ∃ runs : List (List (ComputedValues × Nat)), Shown font runs.flatten (fragmentsGlyphs fragments) ∧ runs.Perm root.contents.runs ∧
      (root.contents.Only (· ≠ .absolute) → runs = root.contents.runs) :=
  (layoutRoot_shown h).2

/-- **C65**, **C64**: making a PDF file of a document returns, under the conditions of `C64_layout_partial`, if the font can be embedded. -/
theorem C65_returns_partial (hsp : Shapable font 32) (F : Forest) (rootStyle : ComputedValues) (tree : List StyledNode) (hidden : List Nat)
    (h : Denotes engine d F rootStyle tree hidden) (hh : ∀ x ∈ hidden, HasNext d x) (hs : allSupported false tree)
    (htext : ∀ c ∈ visibleTexts tree, Shapable font c) (hfont : P.fontView.Ok) :
    ∃ N, ∀ fuel ≥ N, ∀ schedule : Oracle, ∃ bytes, toPdfBytes P engine font d fuel schedule = some bytes := by
  obtain ⟨N, hN⟩ := C64_layout_partial font hsp engine d F rootStyle tree hidden h hh hs htext
  refine ⟨N, fun fuel hf schedule => ?_⟩
  obtain ⟨fragments, hfr⟩ := hN fuel hf schedule ⟨600, 800⟩
  have hm : allMade font fragments := by
    unfold layoutDocument at hfr
    split at hfr
    · cases hfr
    · exact (layoutRoot_shown hfr).1
  have hp := (C46_returns P fragments).2 ⟨allMade_horizontal fragments hm, fun _ _ _ => hfont⟩
  obtain ⟨doc, hdoc⟩ := Option.isSome_iff_exists.1 hp
  exact ⟨doc.write P.floats, by simp only [toPdfBytes, hfr, hdoc]⟩

/-- **C38**, for the file: it does not depend on how the work is divided between threads. -/
theorem C65_schedules (fuel : Nat) (s s' : Oracle) : toPdfBytes P engine font d fuel s = toPdfBytes P engine font d fuel s' := by
  have : layoutDocument engine font d fuel s ⟨600, 800⟩ = layoutDocument engine font d fuel s' ⟨600, 800⟩ := by
    unfold layoutDocument
    split
    · rfl
    · exact C38_schedules font fuel s s' _ _
  simp only [toPdfBytes, this]

/-- **C65**: whenever a PDF file is made of a document in which no element floats, a reader finds one page in it, on which are shown the
glyphs of all the characters of the elements that are displayed, each once, but for white space: in document order if no element is
absolutely positioned. Each glyph is that of its character in the font. -/
theorem C65_text_partial {readReal : List Byte → Option R} (hd : RealText P.floats.dtoa readReal) (hl : FloatLaws P.floats)
    (hv : P.fontView.Valid) (hg : ∀ c g, font.glyphId c = .ok g → g < 65536) (F : Forest) (rootStyle : ComputedValues)
    (tree : List StyledNode) (hidden : List Nat) (h : Denotes engine d F rootStyle tree hidden)
    (hfloat : floatOf rootStyle = .none ∧ nodesAll (fun s _ => floatOf s = .none) tree)
    {fuel : Nat} {schedule : Oracle} {bytes : List Byte} (hb : toPdfBytes P engine font d fuel schedule = some bytes)
    (hs : bytes.length ≤ 2 ^ 32) :
    ∃ m file page painted text glyphs, (∀ fuel, m ≤ fuel → readDocument readReal fuel bytes = some file) ∧ file.pages = [page] ∧
      (∃ m, ∀ fuel, m ≤ fuel →
        paintContents readReal P.floats.zero P.floats.one (gsAlpha file.extGState) fuel page.contents = some painted) ∧
      painted.flatMap shownGlyphs = glyphs.map Prod.snd ∧ Shown font text glyphs ∧
      (inked (text.map Prod.snd)).Perm (inked (visibleTexts tree)) ∧
      (positionOf rootStyle ≠ .absolute ∧ nodesAll (fun s _ => positionOf s ≠ .absolute) tree →
        inked (text.map Prod.snd) = inked (visibleTexts tree)) := by
  unfold toPdfBytes at hb
  rcases hlay : layoutDocument engine font d fuel schedule ⟨600, 800⟩ with _ | fragments
  · simp [hlay] at hb
  simp only [hlay] at hb
  rcases hdoc : paintDocument P fragments with _ | doc
  · simp [hdoc] at hb
  simp only [hdoc, Option.some.injEq] at hb
  subst hb
  unfold layoutDocument at hlay
  rcases hc : constructDocument engine d fuel with _ | root
  · simp [hc] at hlay
  simp only [hc] at hlay
  obtain ⟨hm, runs, hshown, hperm, hord⟩ := layoutRoot_shown hlay
  obtain ⟨hroot, -⟩ := constructDocument_sound h hc
  have hkeep := C42_document_order engine d F rootStyle tree hidden h fuel root hc
  have hnofloat : root.contents.Only NoFloats := by
    refine constructRoot_only ⟨fun _ => by simp, fun hf => absurd hfloat.1 hf⟩ ?_ hroot
    exact nodesAll_mono (fun s _ hs => .inr ⟨fun _ => by simp, fun hf => absurd hs hf⟩) tree hfloat.2
  have hflat := BlockContainer.runs_flatten root.contents hnofloat
  obtain ⟨placed, hp⟩ := Placed.exists fragments ⟨0, 0⟩
  obtain ⟨m, file, page, painted, h1, h2, -, h3, h4⟩ := C46_page P hd hl hv hp
    (fun e he style rect segment hs g hgm => by
      obtain ⟨c, hcg⟩ := made_glyphs hp hm e he style rect segment hs g hgm
      exact hg c g hcg) hdoc hs
  refine ⟨m, file, page, painted, runs.flatten, fragmentsGlyphs fragments, h1, h2, h3, ?_, hshown, ?_, ?_⟩
  · rw [painted_glyphs P _ _ h4, shapesOf_ids _ hp]
  · have := ((hperm.flatten.map Prod.snd).filter fun ch => !isAsciiWhitespace ch)
    rw [hflat, hkeep] at this
    exact this
  · rintro ⟨ha, hn⟩
    have habs : root.contents.Only NoAbsolutes := by
      refine constructRoot_only ⟨fun h => absurd h ha, fun _ => by simp⟩ ?_ hroot
      exact nodesAll_mono (fun s _ hs => .inr ⟨fun h => absurd h hs, fun _ => by simp⟩) tree hn
    rw [hord habs, hflat]
    exact hkeep

end

/-! ### Examples -/

/-- A font with glyphs for the first characters, all as wide as 1 em. -/
def basicFont : FontApi Rat Unit := ⟨fun c => if c < 65536 then .ok c else .error (), fun _ => .ok 1, 0, (· + ·)⟩

/-- A file is made of `exampleDocument2`. -/
theorem exampleDocument2_pdf : ∃ bytes, toPdfBytes examplePainter exampleEngine basicFont exampleDocument2 9 inOrder = some bytes ∧
    bytes.length ≤ 2 ^ 32 := by
  have hp : parseStylesheets exampleEngine exampleDocument2 = some ⟨[]⟩ := exampleEngine_sheets rfl
  have h : ((toPdfBytes examplePainter exampleEngine basicFont exampleDocument2 9 inOrder).map fun bytes => decide (bytes.length ≤ 2 ^ 32)) =
      some true := by
    simp only [toPdfBytes, layoutDocument, constructDocument, hp]
    decide +kernel
  rcases hb : toPdfBytes examplePainter exampleEngine basicFont exampleDocument2 9 inOrder with _ | bytes
  · rw [hb] at h; cases h
  · rw [hb] at h
    exact ⟨bytes, rfl, of_decide_eq_true (Option.some.inj h)⟩

/-- The hypotheses of the theorems above are met by `exampleDocument2`, whose text is `ab`. -/
example : RealText examplePainter.floats.dtoa readWhole ∧ FloatLaws examplePainter.floats ∧ examplePainter.fontView.Valid ∧
    (∀ c g, basicFont.glyphId c = .ok g → g < 65536) ∧ examplePainter.fontView.Ok ∧
    (∃ F rootStyle hidden, Denotes exampleEngine exampleDocument2 F rootStyle exampleTree2 hidden ∧ floatOf rootStyle = .none ∧
      positionOf rootStyle ≠ .absolute) ∧
    nodesAll (fun s _ => floatOf s = .none) exampleTree2 ∧ nodesAll (fun s _ => positionOf s ≠ .absolute) exampleTree2 ∧
    inked (visibleTexts exampleTree2) = codes "ab" := by
  refine ⟨realText_whole, wholeFloats_laws, sample_valid.fonts 0, ?_, C13_to_C18_example.2.2.2.2.1,
    ⟨_, _, _, exampleDocument2_denotes, by decide +kernel, by decide +kernel⟩, ?_, ?_, by decide +kernel⟩
  · intro c g h
    simp only [basicFont] at h
    split at h <;> cases h
    assumption
  · refine ⟨.inl (by decide +kernel), .inr ⟨by decide +kernel, .inr ⟨by decide +kernel, trivial, trivial⟩, trivial, trivial⟩, trivial⟩
  · refine ⟨.inl (by decide +kernel), .inr ⟨by decide +kernel, .inr ⟨by decide +kernel, trivial, trivial⟩, trivial, trivial⟩, trivial⟩

/-- What a user agent with this style does: `p` floats. -/
def floatEngine : Engine String :=
  { exampleEngine with
    ua := ⟨[("html", displayBlock (.generatingBox .block .flow)), ("div", displayBlock (.generatingBox .block .flow)),
      ("p", { declarations := [.value .float Style.Float.left], important := [false], anyNormal := ⟨false, true⟩ }), ("head", displayBlock .none)]⟩ }

/-- **C65** does not hold for floats: of `<html><head></head><div><p>a</p>b</div></html>` where `p` floats, only `b` is shown, because
flow/mod.rs 284-287 and flow/inline.rs 122-125 make nothing of floating boxes. -/
theorem C65_floats_violated :
    (constructDocument floatEngine exampleDocument2 9).map (fun root => root.contents.styledText.map Prod.snd) = some (codes "ab") ∧
    (layoutDocument floatEngine basicFont exampleDocument2 9 inOrder ⟨600, 800⟩).map (fun fs => (fragmentsGlyphs fs).map Prod.snd) =
      some (codes "b") := by
  have hp : parseStylesheets floatEngine exampleDocument2 = some ⟨[]⟩ := by
    have h : exampleDocument2.styleElements = [] := rfl
    simp [parseStylesheets, h, Document.stylesheetTexts, addStylesheets, StyleSet.finish]
  simp only [layoutDocument, constructDocument, hp]
  constructor <;> decide +kernel

end Verif.Layout
