/- **C128**: the backgrounds and the texts of a document are on the page of the PDF file where the rules of CSS put them: exactly from left to right, and
nearly from top to bottom. -/
import Verif.Layout.ColumnsPage
import Verif.Layout.BoundTheorems
namespace Verif.Layout.Machine
open Verif.Style Verif.Text Verif.Float Verif.Pdf

attribute [local instance] singleNumbers exactNumbers

theorem ColumnCalls.seen {E : Type} (P : Painter Single E) {digits : Nat → Nat × Int} (hP : P.floats = singleFloats (dtoaText digits))
    (ho : P.fontView.Ok) {δ : Rat} {name : Nat → List Byte → Prop} {ops : List (PageOp Single)} {shapes : List Shape}
    (h : ColumnCalls P (Within δ) ops shapes) {color : Requested Single} {painted : List (Painted Single)}
    (hm : AllMatch (Verif.Pdf.Matches P.floats name) painted (expected (fun _ => P.fontView) color ops)) : AllMatch (InColumn δ) painted shapes := by
  have hpx : InPixels [pageMatrix P.floats] := by
    refine ⟨.round (75 / 100), .round (-75 / 100), ?_, ⟨by decide +kernel, by decide +kernel⟩, ⟨by decide +kernel, by decide +kernel⟩⟩
    rw [hP]; rfl
  induction h generalizing color painted with
  | nil =>
    cases painted with
    | nil => trivial
    | cons => exact hm.elim
  | @rect x y w h ops corner size c shapes h1 h2 _ ih =>
    simp only [colorCall, expected] at hm
    cases painted with
    | nil => exact hm.elim
    | cons p ps =>
      obtain ⟨m1, m2⟩ := hm
      cases p with
      | «show» => exact m1.elim
      | fill cm path rgb alpha =>
        obtain ⟨rfl, rfl, hc⟩ := m1
        exact ⟨⟨hpx, x, y, w, h, rfl, h1, h2⟩, ih m2⟩
  | @glyphs ids x y ops fontSize baseline c shapes h2 _ ih =>
    simp only [colorCall, expected, if_pos ho] at hm
    cases painted with
    | nil => exact hm.elim
    | cons p ps =>
      obtain ⟨m1, m2⟩ := hm
      cases p with
      | fill => exact m1.elim
      | «show» cm font unit matrix s rgb alpha =>
        obtain ⟨rfl, -, rfl, rfl, hs, hc⟩ := m1
        refine ⟨⟨hpx, rfl, x, y, ?_, h2⟩, ih m2⟩
        rw [hP]; rfl

/-- How far something on the page can be from its place, in pixels. -/
def pageError (D : Nat) (K J : Rat) (fragments : List Layout.Fragment) : Rat :=
  (fragments.length + mostSteps D (ofFragments fragments) + fragmentLayers fragments + 7 : Nat) *
    ((fragmentLayers fragments + 5) * massAll K (ofFragments fragments) + J) / 2 ^ 23

/-- **C128**: of the calls that are made to paint the page, without any condition on how numbers are printed: colours, rectangles and texts are those
of the document laid out with the numbers of mathematics, in the same order; `x` and `width` are exact, and `y` and `height` differ by at most
`pageError`. The ascender is that which the font has in `f32`. -/
theorem C128_calls {σ E Err : Type} (engine : Engine σ) (api : FontApi Single Err) (e : Nat) (advance : Nat → Nat)
    (hf : EmFont api (2 ^ e) advance) (he : e < 16) (d : Verif.Dom.Document) (P : Painter Single E) (hP : P.round = Single.round)
    (hasc : P.ascender.Finite)
    (k : Nat) (hk : k ≤ 100) (root : BlockFormattingContext) (fuel : Nat) (schedule : Oracle) (hc : constructDocument engine d fuel = some root)
    (hr : root.contents.Ruled k e) (D : Nat) (K : Rat) (hK : 0 ≤ K) (hlow : root.contents.Low D K) (fragments : List Layout.Fragment)
    (hx : Layout.layoutDocument engine (exactFont api (2 ^ e) advance) d fuel schedule ⟨600, 800⟩ = some fragments)
    (hs : (fragmentLayers fragments + 5) * (600 + root.contents.reach (textUnits api advance) e) < 2 ^ 23 / 2 ^ k)
    (placed : List (Layout.Fragment × Vec2 Rat)) (hp : Placed ⟨0, 0⟩ fragments placed) (J : Rat) (hJ : 0 ≤ J)
    (ht : TextsTo J P.ascender.value (placed.flatMap fun p => p.1.shape P.ascender.value p.2))
    (hn : fragments.length + mostSteps D (ofFragments fragments) + fragmentLayers fragments + 7 ≤ 2 ^ 23)
    (hm : (fragmentLayers fragments + 5) * massAll K (ofFragments fragments) + J ≤ 2 ^ 100)
    {ops : List (PageOp Single)} (h : documentCalls P engine api d fuel schedule = some ops) :
    RowCalls P api ops (placed.flatMap fun p => p.1.shape P.ascender.value p.2) ∧
    ColumnCalls P (Within (pageError D K J fragments)) ops (placed.flatMap fun p => p.1.shape P.ascender.value p.2) := by
  constructor
  · obtain ⟨placed', hp', hrow⟩ := rowCalls_at engine api e advance hf he d P hP k hk root fuel schedule hc hr fragments hx hs P.ascender.value h
    rw [hp.unique hp']
    exact hrow
  have n0 := containerReach_nonneg (textUnits api advance) e root.contents
  have nn : (0 : Rat) ≤ fragmentLayers fragments := Nat.cast_nonneg _
  have nM := massAll_nonneg hK (ofFragments fragments)
  have hT : |(600 : Rat)| + root.contents.reach (textUnits api advance) e < 2 ^ 23 / 2 ^ k := by
    rw [abs_of_pos (by norm_num)]
    nlinarith
  have S := whole_simulation (by omega : k ≤ 100) hT
  have hw : Whole k 600 := ⟨600 * 2 ^ k, by push_cast; rw [mul_div_assoc, div_self (by positivity), mul_one]⟩
  have hI : WholeIs k false |600| (Single.round 600) 600 := by
    refine ⟨whole_round (by omega) false hw (lt_of_le_of_lt (show |(600 : Rat)| ≤ |600| + root.contents.reach (textUnits api advance) e by linarith)
      (lt_trans hT ?_)), hw, le_refl _⟩
    exact div_lt_div_of_pos_right (by norm_num) (by positivity)
  simp only [documentCalls, layoutDocument, hc, hP] at h
  rcases el : layoutRoot api fuel schedule root ⟨Single.round 600, Single.round 800⟩ with _ | fs
  · rw [el] at h; cases h
  rw [el] at h
  simp only at h
  simp only [Layout.layoutDocument, hc] at hx
  have hx' : layoutRoot (exactFont api (2 ^ e) advance) fuel schedule root ⟨600, 800⟩ = some (ofFragments fragments) := by
    rw [of_layoutRoot, hx, Option.map_some, ofFragments_eq]
  have hrows := C125_rows hf he k hk root 600 800 hr hw hT fuel schedule fs _ el hx'
  have hcols := layoutRoot_near S (fun style h1 h2 => extent_style hk hT h1 h2) hk hT hf he hK fuel schedule root
    ⟨Single.round 600, Single.round 800⟩ ⟨600, 800⟩ |600| hr hlow hI (le_refl _) fs el _ hx'
  have hmade := (layoutRoot_shown el).1
  have hl : (ofFragments fragments).length = fragments.length := by rw [ofFragments_eq, List.length_map]
  have main := fragments_column (L := fragmentLayers fragments) P api nM hJ hasc fragments fs (fragmentLayers fragments) _ _ ⟨0, 0⟩ 0 ops placed
    hcols hrows hmade (le_refl _) Follows.zero (le_refl _) (le_refl _) (by nlinarith) h hp ht
  refine main.imp fun a a' hf => ?_
  have := hf.2 (by rw [hl]; omega) hm
  rw [hl] at this
  refine ⟨this.1, this.2.trans (le_of_eq ?_)⟩
  rw [pageError]
  push_cast
  ring

/-- **C128**: for documents as in `C126_page_partial`, the page of the PDF file that is made with `f32` has the backgrounds and the texts that the
document has if it is laid out with the numbers of mathematics, in the same order and with the same glyphs and colours; each is exactly at the same
horizontal position, and at most `pageError` pixels above or below its place. (The numbers must be such that they are printed without an exponent: see
C119.) -/
theorem C128_page_partial {σ E Err : Type} (engine : Engine σ) (api : FontApi Single Err) (e : Nat) (advance : Nat → Nat)
    (hf : EmFont api (2 ^ e) advance) (he : e < 16) (hg : ∀ c g, api.glyphId c = .ok g → g < 65536) (d : Verif.Dom.Document)
    {digits : Nat → Nat × Int} (hd : FindsDigits digits) (address : Nat) (view : FontView E) (ascender : Single) (hasc : ascender.Finite)
    (hv : view.Valid) (ho : view.Ok)
    (k : Nat) (hk : k ≤ 100) (root : BlockFormattingContext) (fuel : Nat) (schedule : Oracle) (hc : constructDocument engine d fuel = some root)
    (hr : root.contents.Ruled k e) (D : Nat) (K : Rat) (hK : 0 ≤ K) (hlow : root.contents.Low D K) (fragments : List Layout.Fragment)
    (hx : Layout.layoutDocument engine (exactFont api (2 ^ e) advance) d fuel schedule ⟨600, 800⟩ = some fragments)
    (hs : (fragmentLayers fragments + 5) * (600 + root.contents.reach (textUnits api advance) e) < 2 ^ 23 / 2 ^ k)
    (placed : List (Layout.Fragment × Vec2 Rat)) (hp : Placed ⟨0, 0⟩ fragments placed) (J : Rat) (hJ : 0 ≤ J)
    (ht : TextsTo J ascender.value (placed.flatMap fun p => p.1.shape ascender.value p.2))
    (hn : fragments.length + mostSteps D (ofFragments fragments) + fragmentLayers fragments + 7 ≤ 2 ^ 23)
    (hm : (fragmentLayers fragments + 5) * massAll K (ofFragments fragments) + J ≤ 2 ^ 100) {bytes : List Byte} :
    let P : Painter Single E := ⟨singleFloats (dtoaText digits), Single.round, address, view, ascender⟩
    toPdfBytes P engine api d fuel schedule = some bytes →
    (∀ ops, documentCalls P engine api d fuel schedule = some ops →
      ∀ r ∈ PageCalls.numbers P.floats ⟨P.round 600, P.round 800, ops⟩, Plain r) → bytes.length ≤ 2 ^ 32 →
    ∃ m file page painted, (∀ fuel, m ≤ fuel → readDocument readSingle fuel bytes = some file) ∧ file.pages = [page] ∧
      (∃ m, ∀ fuel, m ≤ fuel → paintContents readSingle .zero .one (gsAlpha file.extGState) fuel page.contents = some painted) ∧
      AllMatch InRow painted (placed.flatMap fun p => p.1.shape ascender.value p.2) ∧
      AllMatch (InColumn (pageError D K J fragments)) painted (placed.flatMap fun p => p.1.shape ascender.value p.2) := by
  intro P h hplain hl
  have hPf : P.floats = singleFloats (dtoaText digits) := rfl
  have hPr : P.round = Single.round := rfl
  have hPv : P.fontView = view := rfl
  have hPa : P.ascender = ascender := rfl
  clear_value P
  subst hPa
  rw [toPdfBytes_calls P engine api d (hPv ▸ ho)] at h
  rcases ec : documentCalls P engine api d fuel schedule with _ | ops
  · rw [ec] at h; cases h
  have hnum := hplain ops ec
  rw [ec, Option.map_some, Option.some.injEq] at h
  obtain ⟨hrows, hcols⟩ := C128_calls engine api e advance hf he d P hPr hasc k hk root fuel schedule hc hr D K hK hlow fragments hx hs placed hp
    J hJ ht hn hm ec
  have hvalid : Valid (fun _ : Nat => P.fontView) [(⟨P.round 600, P.round 800, ops⟩ : PageCalls Single)] := by
    refine ⟨fun _ => hPv ▸ hv, ?_⟩
    intro c hc op hop
    cases List.mem_singleton.1 hc
    exact hrows.valid P api hg op hop
  obtain ⟨m, file, r1, r2⟩ := C15_C18_contents_printed (F := P.floats) (good := Plain) (readReal := readSingle)
    (by rw [hPf]; exact realTextOn_single (C119_plain hd)) (by rw [hPf]; exact C116_floats _)
    (fun _ => P.fontView) [⟨P.round 600, P.round 800, ops⟩] hvalid
    (C15_numbers _ _ fun c hc r hr => by cases List.mem_singleton.1 hc; exact hnum r hr) (by rw [h]; exact hl)
  rw [h] at r1
  rcases ep : file.pages with _ | ⟨page, ps⟩
  · rw [ep] at r2; exact r2.elim
  cases ps with
  | cons => rw [ep] at r2; exact r2.2.elim
  | nil =>
    rw [ep] at r2
    obtain ⟨⟨painted, q1, q2⟩, -⟩ := r2
    have s1 := hrows.seen P api hPf hPr (hPv ▸ ho) q2
    have s2 := hcols.seen P hPf (hPv ▸ ho) q2
    rw [hPf] at q1
    exact ⟨m, file, page, painted, r1, ep, q1, s1, s2⟩

/-! ### An example -/

/-- A test for `TextsTo`. -/
def textsTest (J ascender : Rat) (shapes : List Shape) : Bool :=
  shapes.all fun
    | .glyphs _ fontSize _ _ => decide (1 / 2 ^ 100 ≤ fontSize) && decide (fontSize * (1 + |ascender|) ≤ J)
    | .rect _ _ _ => true

theorem textsTest_sound {J ascender : Rat} {shapes : List Shape} (h : textsTest J ascender shapes = true) : TextsTo J ascender shapes := by
  intro ids fontSize baseline color hm
  have := List.all_eq_true.1 h _ hm
  simp only [Bool.and_eq_true] at this
  exact ⟨of_decide_eq_true this.1, of_decide_eq_true this.2⟩

/-- The hypotheses of `C128_page_partial` are met by the document of `C126_example`, with `D = 6`, `K = 60` and `J = 31`; for those which the two
have in common, see there. Nothing is moved by more than a twentieth of a pixel. -/
theorem C128_example : rowPainter.ascender.Finite ∧
    (constructDocument rowGroundEngine rowDocument 9).map (fun root => lowTest 6 60 root.contents) = some true ∧
    ∃ fragments placed,
      Layout.layoutDocument rowGroundEngine (exactFont rowFont (2 ^ 11) fun _ => 1024) rowDocument 9 inOrder ⟨600, 800⟩ = some fragments ∧
      Placed ⟨0, 0⟩ fragments placed ∧
      TextsTo 31 rowPainter.ascender.value (placed.flatMap fun p => p.1.shape rowPainter.ascender.value p.2) ∧
      fragments.length + mostSteps 6 (ofFragments fragments) + fragmentLayers fragments + 7 ≤ 2 ^ 23 ∧
      (fragmentLayers fragments + 5) * massAll 60 (ofFragments fragments) + 31 ≤ 2 ^ 100 ∧
      pageError 6 60 31 fragments < 1 / 20 := by
  have hp : parseStylesheets rowGroundEngine rowDocument = some ⟨[]⟩ := rowGroundEngine_sheets rfl
  refine ⟨by decide +kernel, ?_, ?_⟩
  · simp only [constructDocument, hp]
    decide +kernel
  · have h : (Layout.layoutDocument rowGroundEngine (exactFont rowFont (2 ^ 11) fun _ => 1024) rowDocument 9 inOrder ⟨600, 800⟩).map (fun fragments =>
        (textsTest 31 rowPainter.ascender.value ((itemMarks (itemsAt ⟨0, 0⟩ fragments)).map (markShape rowPainter.ascender.value)),
          decide (fragments.length + mostSteps 6 (ofFragments fragments) + fragmentLayers fragments + 7 ≤ 2 ^ 23),
          decide ((fragmentLayers fragments + 5 : Rat) * massAll 60 (ofFragments fragments) + 31 ≤ 2 ^ 100),
          decide (pageError 6 60 31 fragments < 1 / 20))) = some (true, true, true, true) := by
      simp only [Layout.layoutDocument, constructDocument, hp]
      decide +kernel
    rcases hb : Layout.layoutDocument rowGroundEngine (exactFont rowFont (2 ^ 11) fun _ => 1024) rowDocument 9 inOrder ⟨600, 800⟩ with _ | fragments
    · rw [hb] at h
      cases h
    · rw [hb, Option.map_some, Option.some.injEq] at h
      simp only [Prod.mk.injEq, decide_eq_true_eq] at h
      obtain ⟨h1, h2, h3, h4⟩ := h
      obtain ⟨placed, hpl⟩ := Placed.exists fragments ⟨0, 0⟩
      rw [← hpl.marks] at h1
      exact ⟨fragments, placed, rfl, hpl, textsTest_sound h1, h2, h3, h4⟩

end Verif.Layout.Machine
