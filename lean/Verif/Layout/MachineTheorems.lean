import Verif.Layout.MachinePage
import Verif.Layout.MachineExact
import Verif.Layout.MachineTotal
/- **C115**: what holds of layout and of the file whatever the arithmetic: rounding, overflow, infinities and NaN. -/
namespace Verif.Layout.Machine
open Verif.Style Verif.Style.Spec Verif.Text Verif.Pdf Verif.Dom

section
variable {R Err E σ : Type} [Numbers R] (P : Painter R E) (engine : Engine σ) (font : FontApi R Err) (d : Document)

/-- **C115**: whatever the arithmetic, fragments do not depend on how the work is divided between threads. -/
theorem C115_schedules (fuel : Nat) (s s' : Oracle) (root : BlockFormattingContext) (viewport : Vec2 R) :
    layoutRoot font fuel s root viewport = layoutRoot font fuel s' root viewport := by
  have h := layout_prepend font fuel
  simp only [layoutRoot, layoutContext, h.2.2]
  rw [h.1 (s.sub 0), h.1 (s'.sub 0)]

/-- **C115**: whatever the arithmetic, provided that zero and the sum of zeros are equal to zero, layout ends, and without panic, when
the font has a glyph and a width for the characters. -/
theorem C115_total [ZeroLaws R] (root : BlockFormattingContext) (hwf : root.contents.Wf font) (fuel : Nat)
    (hfuel : root.contents.depth ≤ fuel) (s : Oracle) (viewport : Vec2 R) :
    ∃ fragments, layoutRoot font fuel s root viewport = some fragments := by
  obtain ⟨fc, as, h1, h2⟩ := (layout_total (F := font) fuel).1 root.contents
    ⟨viewport.inline, .length viewport.block, (.horizontalTb, .ltr)⟩ 0 false hwf hfuel rfl
  have hp := layout_prepend font fuel
  simp only [layoutRoot, layoutContext]
  rw [hp.1, h1]
  simp only [prepend_some, mapFst, List.nil_append]
  obtain ⟨fs, hfs⟩ := layoutAll_some
    (la := fun k a => layoutAbsolute font fuel (s.sub (k + 1)) ⟨viewport, (.horizontalTb, .ltr)⟩ a) as 0 (by
      intro k a ha
      simp only [hp.2.2]
      exact (layout_total (F := font) fuel).2.2 _ _ 0 a rfl (h2 a ha) (by omega))
  rw [hfs]
  exact ⟨_, rfl⟩

/-- **C115**: the bound on the depth of recursion does not affect the result. -/
theorem C115_fuel (root : BlockFormattingContext) (fuel extra : Nat) (s s' : Oracle) (viewport : Vec2 R) (fragments : List (Fragment R))
    (h : layoutRoot font fuel s root viewport = some fragments) : layoutRoot font (fuel + extra) s' root viewport = some fragments := by
  rw [C115_schedules font (fuel + extra) s' s]
  induction extra with
  | zero => exact h
  | succ extra ih =>
    generalize hn : fuel + extra = n at ih
    have : fuel + (extra + 1) = n + 1 := by omega
    rw [this]
    have hr := layout_refines (F := font) n
    have hp := layout_prepend font n
    have hq := layout_prepend font (n + 1)
    simp only [layoutRoot, layoutContext] at ih ⊢
    rw [hp.1] at ih
    rw [hq.1]
    rcases h1 : layoutContainer font n inOrder root.contents ⟨viewport.inline, .length viewport.block, (.horizontalTb, .ltr)⟩ 0 []
      false false with _ | ⟨fc, as⟩
    · simp [h1, mapFst] at ih
    · rw [hr.1 _ _ _ _ _ h1]
      simp only [h1, prepend_some, mapFst, List.nil_append] at ih ⊢
      split at ih
      · cases ih
      · rename_i hl
        rw [layoutAll_refines (fun k a => by rw [hp.2.2, hq.2.2]; exact hr.2.2 _ _) _ _ _ hl]
        exact ih

/-- **C115**, boxes: whatever the arithmetic, the glyphs in the fragments that layout makes are those of the texts in the boxes that do not
float, each character becoming one glyph in its own style, but for spaces at the ends of lines; texts in absolutely positioned boxes may
come later. -/
theorem C115_boxes {fuel : Nat} {schedule : Oracle} {root : BlockFormattingContext} {viewport : Vec2 R} {fragments : List (Fragment R)}
    (h : layoutRoot font fuel schedule root viewport = some fragments) :
    ∃ runs : List (List (ComputedValues × Nat)), Shown font runs.flatten (fragmentsGlyphs fragments) ∧ runs.Perm root.contents.runs ∧
      (root.contents.Only (· ≠ .absolute) → runs = root.contents.runs) :=
  (layoutRoot_shown h).2

/-- **C115**: whatever the arithmetic, one and the same PDF file is made of a document under every division of the work between threads,
under the conditions of `C64_layout_partial`, if the font can be embedded. -/
theorem C115_returns_partial [ZeroLaws R] (hsp : Shapable font 32) (F : Forest) (rootStyle : ComputedValues) (tree : List StyledNode)
    (hidden : List Nat) (h : Denotes engine d F rootStyle tree hidden) (hh : ∀ x ∈ hidden, HasNext d x) (hs : allSupported false tree)
    (htext : ∀ c ∈ visibleTexts tree, Shapable font c) (hfont : P.fontView.Ok) :
    ∃ N bytes, ∀ fuel ≥ N, ∀ schedule : Oracle, toPdfBytes P engine font d fuel schedule = some bytes := by
  obtain ⟨N, hN⟩ := constructDocument_complete h hh
  obtain ⟨author, r, h1, h2, h3, h4, h5⟩ := h.styled
  obtain ⟨root, hr, hl⟩ := constructRoot_accepted hsp rootStyle tree (h5.computed fun n p s hs => nodeStyle_computed hs) htext hs
  obtain ⟨fragments, hf⟩ := C115_total font root hl root.contents.depth (Nat.le_refl _) inOrder ⟨P.round 600, P.round 800⟩
  obtain ⟨doc, hd⟩ := paintDocument_some P hfont (layoutRoot_shown hf).1
  refine ⟨max N root.contents.depth, doc.write P.floats, fun fuel hfuel schedule => ?_⟩
  have hfr := C115_fuel font root root.contents.depth (fuel - root.contents.depth) inOrder schedule _ fragments hf
  rw [show root.contents.depth + (fuel - root.contents.depth) = fuel by omega] at hfr
  simp only [toPdfBytes, layoutDocument, hN fuel (by omega), hr, hfr, hd]

/-- **C115**: whatever the arithmetic, whenever a PDF file is made of a document in which no element floats, a reader finds one page in it, on
which are shown the glyphs of all the characters of the elements that are displayed, each once, but for white space, upright, in the font
size and the colour of its own element: in document order if no element is absolutely positioned. It is assumed that all numbers are written
as numbers, which does not hold of infinities and NaN in the code: see `C115_text_printed_partial`, which is about the numbers in the file only. -/
theorem C115_text_partial {readReal : List Byte → Option R} (hd : RealText P.floats.dtoa readReal) (hl : FloatLaws P.floats)
    (hv : P.fontView.Valid) (ho : P.fontView.Ok) (hg : ∀ c g, font.glyphId c = .ok g → g < 65536) (F : Forest) (rootStyle : ComputedValues)
    (tree : List StyledNode) (hidden : List Nat) (h : Denotes engine d F rootStyle tree hidden)
    (hfloat : floatOf rootStyle = .none ∧ nodesAll (fun s _ => floatOf s = .none) tree)
    {fuel : Nat} {schedule : Oracle} {bytes : List Byte} (hb : toPdfBytes P engine font d fuel schedule = some bytes)
    (hs : bytes.length ≤ 2 ^ 32) :
    ∃ m file page painted text glyphs, (∀ fuel, m ≤ fuel → readDocument readReal fuel bytes = some file) ∧ file.pages = [page] ∧
      page.mediaBox = [.int 0, .int 0, .real (P.floats.mul (P.round 600) P.floats.scaleX), .real (P.floats.mul (P.round 800) P.floats.scaleY)] ∧
      (∃ m, ∀ fuel, m ≤ fuel →
        paintContents readReal P.floats.zero P.floats.one (gsAlpha file.extGState) fuel page.contents = some painted) ∧
      AllMatch (fun (m : Mark R) (g : ComputedValues × Nat) => m.Styled P.floats P.round g.1 g.2) (painted.flatMap marks) glyphs ∧
      Shown font text glyphs ∧ (inked (text.map Prod.snd)).Perm (inked (visibleTexts tree)) ∧
      (positionOf rootStyle ≠ .absolute ∧ nodesAll (fun s _ => positionOf s ≠ .absolute) tree →
        inked (text.map Prod.snd) = inked (visibleTexts tree)) := by
  unfold toPdfBytes at hb
  rcases hlay : layoutDocument engine font d fuel schedule ⟨P.round 600, P.round 800⟩ with _ | fragments
  · simp [hlay] at hb
  simp only [hlay] at hb
  rcases hdoc : paintDocument P fragments with _ | doc
  · simp [hdoc] at hb
  simp only [hdoc, Option.some.injEq] at hb
  subst hb
  unfold layoutDocument at hlay
  rcases hc : constructDocument engine d fuel with _ | root
  · simp [hc] at hlay
  simp only [hc] at hlay
  obtain ⟨hm, runs, hshown, hperm, hord⟩ := layoutRoot_shown hlay
  obtain ⟨hroot, -⟩ := constructDocument_sound h hc
  have hkeep := C42_document_order engine d F rootStyle tree hidden h fuel root hc
  have hnofloat : root.contents.Only NoFloats := by
    refine constructRoot_only ⟨fun _ => by simp, fun hf => absurd hfloat.1 hf⟩ ?_ hroot
    exact nodesAll_mono (fun s _ hs => .inr ⟨fun _ => by simp, fun hf => absurd hs hf⟩) tree hfloat.2
  have hflat := BlockContainer.runs_flatten root.contents hnofloat
  obtain ⟨m, file, page, painted, h1, h2, h3, h4, h5, -⟩ := paintDocument_marks P hd hl hv ho hg hm hdoc hs
  refine ⟨m, file, page, painted, runs.flatten, fragmentsGlyphs fragments, h1, h2, h3, h4, h5, hshown, ?_, ?_⟩
  · have := ((hperm.flatten.map Prod.snd).filter fun ch => !isAsciiWhitespace ch)
    rw [hflat, hkeep] at this
    exact this
  · rintro ⟨ha, hn⟩
    have habs : root.contents.Only NoAbsolutes := by
      refine constructRoot_only ⟨fun h => absurd h ha, fun _ => by simp⟩ ?_ hroot
      exact nodesAll_mono (fun s _ hs => .inr ⟨fun h => absurd h hs, fun _ => by simp⟩) tree hn
    rw [hord habs, hflat]
    exact hkeep

end

/-! ### Examples -/

/-- Numbers up to 100, and NaN, which stands for all larger ones too. -/
inductive Small where
  | nan
  | num (n : Int)
deriving DecidableEq

/-- The number, if it is small. -/
def Small.of (n : Int) : Small := if -100 ≤ n ∧ n ≤ 100 then .num n else .nan

/-- An operation, which gives NaN for NaN. -/
def Small.lift (f : Int → Int → Int) : Small → Small → Small
  | .num a, .num b => .of (f a b)
  | _, _ => .nan

/-- The greater one, or the smaller one, and the number if one is NaN: that is what `f32` does. -/
def Small.choose (f : Int → Int → Int) : Small → Small → Small
  | .num a, .num b => .num (f a b)
  | .nan, b => b
  | a, .nan => a

instance : Numbers Small where
  add := Small.lift (· + ·)
  sub := Small.lift (· - ·)
  mul := Small.lift (· * ·)
  neg := Small.lift (fun a _ => -a) (.num 0)
  max := Small.choose max
  min := Small.choose min
  zero := .num 0
  half := fun | .num a => .num (a / 2) | .nan => .nan
  lineHeight := Small.lift (fun a b => a * b / 5) (.num 6)
  gt := fun | .num a, .num b => a > b | _, _ => false
  nonNeg := fun | .num a => a ≥ 0 | .nan => false
  isZero := fun | .num a => a = 0 | .nan => false
  lengths := roundedLengths fun x => .of x.floor

instance : ZeroLaws Small := ⟨by decide, by decide⟩

/-- Whole numbers from -300 to 300: what is greater becomes 300. -/
def saturated (n : Int) : Int := max (-300) (min n 300)

local instance wholeNumbers : Numbers Int where
  add a b := saturated (a + b)
  sub a b := saturated (a - b)
  mul a b := saturated (a * b)
  neg a := -a
  max := max
  min := min
  zero := 0
  half a := a / 2
  lineHeight a := saturated (6 * a / 5)
  gt a b := a > b
  nonNeg a := a ≥ 0
  isZero a := a = 0
  lengths := roundedLengths Rat.floor

local instance : ZeroLaws Int := ⟨by decide, by decide⟩

/-- A font with glyphs for the first characters, all as wide as 1 em. -/
def plainFont {R : Type} [Numbers R] (em : R) : FontApi R Unit :=
  ⟨fun c => if c < 65536 then .ok c else .error (), fun _ => .ok em, 0, (· + ·)⟩

/-- Floats for numbers that may be NaN, which is written like in the code as `NaN`. -/
def smallFloats : Floats Small where
  zero := .num 0
  one := .num 1
  scaleX := .num 3
  scaleY := .num (-3)
  mul := Small.lift (· * ·)
  neg := Small.lift (fun a _ => -a) (.num 0)
  ne := fun | .num a, .num b => a ≠ b | _, _ => true
  clampUnit := fun | .num a => .num (max 0 (min a 1)) | .nan => .nan
  key := fun | .num a => if a ≤ 0 then 0 else 65535 | .nan => 0
  dtoa := fun | .num a => wholeFloats.dtoa a | .nan => ascii "NaN"

/-- In this arithmetic the page is as large as NaN. -/
def smallPainter : Painter Small String := ⟨smallFloats, fun x => .of x.floor, 0, Verif.Pdf.sampleFont 0, .num 1⟩

/-- Whole numbers up to 300 in place of floats. -/
def wholePainter : Painter Int String := ⟨wholeFloats, fun x => saturated x.floor, 0, Verif.Pdf.sampleFont 0, 1⟩

theorem plainFont_shapable {R : Type} [Numbers R] (em : R) (c : Nat) (h : c < 65536) : Shapable (plainFont em) c :=
  ⟨c, em, by simp [plainFont, h], rfl⟩

theorem exampleDocument2_supported : allSupported false exampleTree2 := by
  have hp : parseStylesheets exampleEngine exampleDocument2 = some ⟨[]⟩ := exampleEngine_sheets rfl
  have h : (constructDocument exampleEngine exampleDocument2 9).isSome = true := by
    simp only [constructDocument, hp]
    decide +kernel
  obtain ⟨root, hr⟩ := Option.isSome_iff_exists.1 h
  exact ((C64_returns_partial _ _ _ _ _ _ exampleDocument2_denotes).1 ⟨9, root, hr⟩).2

/-- The hypotheses of `C115_returns_partial` are met with numbers that overflow to NaN at once: the file of `exampleDocument2` is made,
and both its characters are in it although each place is NaN. -/
theorem C115_example_nan : (smallPainter.round 600 = .nan ∧ (Small.num 90 + Small.num 90) = .nan ∧ max (Small.num 1) .nan = .num 1) ∧
    Shapable (plainFont (Small.num 1)) 32 ∧ (∀ c ∈ visibleTexts exampleTree2, Shapable (plainFont (Small.num 1)) c) ∧
    smallPainter.fontView.Ok ∧
    (∃ F rootStyle hidden, Denotes exampleEngine exampleDocument2 F rootStyle exampleTree2 hidden ∧ ∀ x ∈ hidden, HasNext exampleDocument2 x) ∧
    allSupported false exampleTree2 ∧
    (layoutDocument exampleEngine (plainFont (Small.num 1)) exampleDocument2 9 inOrder ⟨.nan, .nan⟩).map
      (fun fs => (fragmentsGlyphs fs).map Prod.snd) = some (codes "ab") := by
  have hp : parseStylesheets exampleEngine exampleDocument2 = some ⟨[]⟩ := exampleEngine_sheets rfl
  refine ⟨by decide +kernel, plainFont_shapable _ _ (by decide), ?_, C13_to_C18_example.2.2.2.2.1,
    ⟨_, _, _, exampleDocument2_denotes, ?_⟩, exampleDocument2_supported, ?_⟩
  · rw [show visibleTexts exampleTree2 = [97, 98] by decide +kernel]
    intro c hc
    exact plainFont_shapable _ _ (by simp at hc; omega)
  · intro x hx
    cases List.mem_singleton.1 hx
    exact ⟨_, 4, rfl, rfl⟩
  · simp only [layoutDocument, constructDocument, hp]
    decide +kernel

/-- The hypotheses of `C115_text_partial` are met with whole numbers that are rounded and do not exceed 300, by `exampleDocument2`, whose text
is `ab`. -/
theorem C115_example_saturated : ((200 : Int) + 200 ≠ @HAdd.hAdd Int Int Int (@instHAdd Int wholeNumbers.toAdd) 200 200) ∧
    (∃ bytes, toPdfBytes wholePainter exampleEngine (plainFont (1 : Int)) exampleDocument2 9 inOrder = some bytes ∧ bytes.length ≤ 2 ^ 32) ∧
    RealText wholePainter.floats.dtoa readWhole ∧ FloatLaws wholePainter.floats ∧ wholePainter.fontView.Valid ∧ wholePainter.fontView.Ok ∧
    (∀ c g, (plainFont (1 : Int)).glyphId c = .ok g → g < 65536) ∧
    (∃ F rootStyle hidden, Denotes exampleEngine exampleDocument2 F rootStyle exampleTree2 hidden ∧ floatOf rootStyle = .none ∧
      positionOf rootStyle ≠ .absolute) ∧
    nodesAll (fun s _ => floatOf s = .none) exampleTree2 ∧ nodesAll (fun s _ => positionOf s ≠ .absolute) exampleTree2 := by
  refine ⟨by decide +kernel, ?_, realText_whole, wholeFloats_laws, sample_valid.fonts 0, C13_to_C18_example.2.2.2.2.1, ?_,
    ⟨_, _, _, exampleDocument2_denotes, by decide +kernel, by decide +kernel⟩, ?_, ?_⟩
  · have hp : parseStylesheets exampleEngine exampleDocument2 = some ⟨[]⟩ := exampleEngine_sheets rfl
    have h : ((toPdfBytes wholePainter exampleEngine (plainFont (1 : Int)) exampleDocument2 9 inOrder).map
        fun bytes => decide (bytes.length ≤ 2 ^ 32)) = some true := by
      simp only [toPdfBytes, layoutDocument, constructDocument, hp]
      decide +kernel
    rcases hb : toPdfBytes wholePainter exampleEngine (plainFont (1 : Int)) exampleDocument2 9 inOrder with _ | bytes
    · rw [hb] at h; cases h
    · rw [hb] at h
      exact ⟨bytes, rfl, of_decide_eq_true (Option.some.inj h)⟩
  · intro c g h
    simp only [plainFont] at h
    split at h <;> cases h
    assumption
  · refine ⟨.inl (by decide +kernel), .inr ⟨by decide +kernel, .inr ⟨by decide +kernel, trivial, trivial⟩, trivial, trivial⟩, trivial⟩
  · refine ⟨.inl (by decide +kernel), .inr ⟨by decide +kernel, .inr ⟨by decide +kernel, trivial, trivial⟩, trivial, trivial⟩, trivial⟩

section
attribute [local instance 10] exactNumbers

/-- C115: with exact numbers this program is the one of the other properties: it makes the same file, or panics with the same document. So the
two models differ in rounding only. -/
theorem C115_exact {σ E Err : Type} (floats : Verif.Pdf.Floats Rat) (fontAddress : Nat) (fontView : Verif.Pdf.FontView E) (ascender : Rat)
    (engine : Engine σ) (font : FontApi Rat Err) (d : Verif.Dom.Document) (fuel : Nat) (schedule : Oracle) :
    toPdfBytes ⟨floats, id, fontAddress, fontView, ascender⟩ engine font d fuel schedule =
      Layout.toPdfBytes ⟨floats, id, fontAddress, fontView, ascender⟩ engine font d fuel schedule :=
  of_toPdfBytes _ rfl engine font d fuel schedule

/-- Fractions as floats, for an example. -/
def fractionFloats : Verif.Pdf.Floats Rat :=
  ⟨0, 1, 3 / 4, -3 / 4, (· * ·), (- ·), fun a b => a ≠ b, fun a => max 0 (min a 1), fun a => (a * 65535).floor.toNat,
    fun a => wholeFloats.dtoa a.floor⟩

/-- The files of `C115_exact` are made: that of `exampleDocument2` is. -/
theorem C115_example_exact : (toPdfBytes ⟨fractionFloats, id, 0, Verif.Pdf.sampleFont 0, 1⟩ exampleEngine (plainFont (1 : Rat)) exampleDocument2 9
    inOrder).isSome = true := by
  have hp : parseStylesheets exampleEngine exampleDocument2 = some ⟨[]⟩ := exampleEngine_sheets rfl
  simp only [toPdfBytes, layoutDocument, constructDocument, hp]
  decide +kernel

end

end Verif.Layout.Machine
