/- **C126**: the backgrounds and the texts of a document are on the page of the PDF file exactly where the rules of CSS put them from left to
right. -/
import Verif.Layout.RowsPage
import Verif.Layout.WholePageTheorems
namespace Verif.Layout.Machine
open Verif.Style Verif.Text Verif.Float Verif.Pdf

attribute [local instance] singleNumbers exactNumbers

section
variable {E Err : Type} (P : Painter Single E) (F : FontApi Single Err) {digits : Nat → Nat × Int}

theorem RowCalls.seen (hP : P.floats = singleFloats (dtoaText digits)) (hR : P.round = Single.round) (ho : P.fontView.Ok)
    {name : Nat → List Byte → Prop} {ops : List (PageOp Single)} {shapes : List Shape} (h : RowCalls P F ops shapes)
    {color : Requested Single} {painted : List (Painted Single)}
    (hm : AllMatch (Verif.Pdf.Matches P.floats name) painted (expected (fun _ => P.fontView) color ops)) : AllMatch InRow painted shapes := by
  have hpx : InPixels [pageMatrix P.floats] := by
    refine ⟨.round (75 / 100), .round (-75 / 100), ?_, ⟨by decide +kernel, by decide +kernel⟩, ⟨by decide +kernel, by decide +kernel⟩⟩
    rw [hP]; rfl
  have hcol : ∀ (rgb : Single × Single × Single) (alpha : Single) (c : RGBA), ColorOk P.floats rgb alpha
      (some (P.round (c.red / 255), P.round (c.green / 255), P.round (c.blue / 255), P.round (c.alpha / 255))) → ColoredAs rgb alpha c := by
    intro rgb alpha c hc hb
    rw [hP, hR] at hc
    exact C118_color _ rgb alpha c.red c.green c.blue c.alpha hb.1 hb.2.1 hb.2.2.1 hb.2.2.2 hc
  induction h generalizing color painted with
  | nil =>
    cases painted with
    | nil => trivial
    | cons => exact hm.elim
  | @rect x y w h ops corner size c shapes h1 h2 _ ih =>
    simp only [colorCall, expected] at hm
    cases painted with
    | nil => exact hm.elim
    | cons p ps =>
      obtain ⟨m1, m2⟩ := hm
      cases p with
      | «show» => exact m1.elim
      | fill cm path rgb alpha =>
        obtain ⟨rfl, rfl, hc⟩ := m1
        exact ⟨⟨hpx, ⟨x, y, w, h, rfl, h1, h2⟩, hcol _ _ _ hc⟩, ih m2⟩
  | @glyphs ids x y ops fontSize baseline c shapes h1 h2 _ ih =>
    simp only [colorCall, expected, if_pos ho] at hm
    cases painted with
    | nil => exact hm.elim
    | cons p ps =>
      obtain ⟨m1, m2⟩ := hm
      cases p with
      | fill => exact m1.elim
      | «show» cm font unit matrix s rgb alpha =>
        obtain ⟨rfl, -, rfl, rfl, hs, hc⟩ := m1
        refine ⟨⟨hpx, rfl, ⟨x, y, ?_, h2⟩, hs, hcol _ _ _ hc⟩, ih m2⟩
        rw [hP]; rfl

theorem RowCalls.valid (hg : ∀ c g, F.glyphId c = .ok g → g < 65536) {ops : List (PageOp Single)} {shapes : List Shape} (h : RowCalls P F ops shapes) :
    ∀ op ∈ ops, op.Valid := by
  induction h with
  | nil => intro op hop; cases hop
  | rect _ _ _ ih =>
    intro op hop
    simp only [List.mem_cons] at hop
    rcases hop with rfl | rfl | hop
    · trivial
    · trivial
    · exact ih op hop
  | glyphs h1 _ _ ih =>
    intro op hop
    simp only [List.mem_cons] at hop
    rcases hop with rfl | rfl | hop
    · trivial
    · intro g hgm
      obtain ⟨c, hc⟩ := h1 g hgm
      exact hg c g hc
    · exact ih op hop
end

/-- `C126_calls` with any height of the baselines. -/
theorem rowCalls_at {σ E Err : Type} (engine : Engine σ) (api : FontApi Single Err) (e : Nat) (advance : Nat → Nat)
    (hf : EmFont api (2 ^ e) advance) (he : e < 16) (d : Verif.Dom.Document) (P : Painter Single E) (hP : P.round = Single.round)
    (k : Nat) (hk : k ≤ 100) (root : BlockFormattingContext) (fuel : Nat) (schedule : Oracle) (hc : constructDocument engine d fuel = some root)
    (hr : root.contents.Ruled k e) (fragments : List Layout.Fragment)
    (hx : Layout.layoutDocument engine (exactFont api (2 ^ e) advance) d fuel schedule ⟨600, 800⟩ = some fragments)
    (hs : (fragmentLayers fragments + 5) * (600 + root.contents.reach (textUnits api advance) e) < 2 ^ 23 / 2 ^ k)
    (ascender : Rat) {ops : List (PageOp Single)} (h : documentCalls P engine api d fuel schedule = some ops) :
    ∃ placed, Placed ⟨0, 0⟩ fragments placed ∧ RowCalls P api ops (placed.flatMap fun p => p.1.shape ascender p.2) := by
  have n0 := containerReach_nonneg (textUnits api advance) e root.contents
  have nn : (0 : Rat) ≤ fragmentLayers fragments := Nat.cast_nonneg _
  obtain ⟨T, hTe⟩ : ∃ T : Rat, T = 600 + root.contents.reach (textUnits api advance) e := ⟨_, rfl⟩
  have hT0 : 0 ≤ T := by rw [hTe]; linarith
  rw [← hTe] at hs
  have hT1 : 5 * T ≤ (fragmentLayers fragments + 5) * T := mul_le_mul_of_nonneg_right (by linarith) hT0
  have hT : T < 2 ^ 23 / 2 ^ k := by linarith
  have S' := whole_simulation (by omega : k ≤ 100) hs
  have S := whole_simulation (by omega : k ≤ 100) hT
  simp only [documentCalls, layoutDocument, hc, hP] at h
  have hI : WholeIs k false 600 (Single.round 600) 600 := by
    have hw : Whole k 600 := ⟨600 * 2 ^ k, by push_cast; rw [mul_div_assoc, div_self (by positivity), mul_one]⟩
    refine ⟨whole_round (by omega) false hw ?_, hw, by rw [abs_of_pos (by norm_num)]⟩
    rw [abs_of_pos (by norm_num)]
    refine lt_of_le_of_lt (show (600 : Rat) ≤ T by rw [hTe]; linarith) (lt_trans hT ?_)
    exact div_lt_div_of_pos_right (by norm_num) (by positivity)
  rcases el : layoutRoot api fuel schedule root ⟨Single.round 600, Single.round 800⟩ with _ | fs
  · rw [el] at h; cases h
  rw [el] at h
  simp only at h
  simp only [Layout.layoutDocument, hc] at hx
  have hx' : layoutRoot (exactFont api (2 ^ e) advance) fuel schedule root ⟨600, 800⟩ = some (ofFragments fragments) := by
    rw [of_layoutRoot, hx, Option.map_some, ofFragments_eq]
  have ha := layoutRoot_rows S (fun style h1 h2 => extent_style hk hT h1 h2) hk hT hf he fuel schedule root
    ⟨Single.round 600, Single.round 800⟩ ⟨600, 800⟩ 600 hr hI (by rw [hTe]) fs el _ hx'
  have hmade := (layoutRoot_shown el).1
  have z := S.zero (g := true)
  exact fragments_row P api S' ascender hT0 hT1 fragments fs (fragmentLayers fragments) _ ⟨0, 0⟩ 0 ops ha hmade (le_refl _) z
    (by nlinarith) h

/-- **C126**: of the calls that are made to paint the page, without any condition on how numbers are printed: colours, rectangles and texts are those
of the document laid out with the numbers of mathematics, in the same order, and `x` and `width` are exact. -/
theorem C126_calls {σ E Err : Type} (engine : Engine σ) (api : FontApi Single Err) (e : Nat) (advance : Nat → Nat)
    (hf : EmFont api (2 ^ e) advance) (he : e < 16) (d : Verif.Dom.Document) (P : Painter Single E) (hP : P.round = Single.round)
    (k : Nat) (hk : k ≤ 100) (root : BlockFormattingContext) (fuel : Nat) (schedule : Oracle) (hc : constructDocument engine d fuel = some root)
    (hr : root.contents.Ruled k e) (fragments : List Layout.Fragment)
    (hx : Layout.layoutDocument engine (exactFont api (2 ^ e) advance) d fuel schedule ⟨600, 800⟩ = some fragments)
    (hs : (fragmentLayers fragments + 5) * (600 + root.contents.reach (textUnits api advance) e) < 2 ^ 23 / 2 ^ k)
    {ops : List (PageOp Single)} (h : documentCalls P engine api d fuel schedule = some ops) :
    ∃ placed, Placed ⟨0, 0⟩ fragments placed ∧ RowCalls P api ops (placed.flatMap fun p => p.1.shape 0 p.2) :=
  rowCalls_at engine api e advance hf he d P hP k hk root fuel schedule hc hr fragments hx hs 0 h

/-- **C126**: if the lengths, the sizes of fonts and the units of the font of a document are whole numbers of pixels, or of the fraction `1 / 2 ^ k`
of them, the page of the PDF file that is made with `f32` has the backgrounds and the texts that the document has if it is laid out with the numbers
of mathematics, in the same order and with the same glyphs; and each is exactly at the same horizontal position, to the last bit. (The numbers must be
such that they are printed without an exponent: see C119.) -/
theorem C126_page_partial {σ E Err : Type} (engine : Engine σ) (api : FontApi Single Err) (e : Nat) (advance : Nat → Nat)
    (hf : EmFont api (2 ^ e) advance) (he : e < 16) (hg : ∀ c g, api.glyphId c = .ok g → g < 65536) (d : Verif.Dom.Document)
    {digits : Nat → Nat × Int} (hd : FindsDigits digits) (address : Nat) (view : FontView E) (ascender : Single) (hv : view.Valid) (ho : view.Ok)
    (k : Nat) (hk : k ≤ 100) (root : BlockFormattingContext) (fuel : Nat) (schedule : Oracle) (hc : constructDocument engine d fuel = some root)
    (hr : root.contents.Ruled k e) (fragments : List Layout.Fragment)
    (hx : Layout.layoutDocument engine (exactFont api (2 ^ e) advance) d fuel schedule ⟨600, 800⟩ = some fragments)
    (hs : (fragmentLayers fragments + 5) * (600 + root.contents.reach (textUnits api advance) e) < 2 ^ 23 / 2 ^ k) {bytes : List Byte} :
    let P : Painter Single E := ⟨singleFloats (dtoaText digits), Single.round, address, view, ascender⟩
    toPdfBytes P engine api d fuel schedule = some bytes →
    (∀ ops, documentCalls P engine api d fuel schedule = some ops →
      ∀ r ∈ PageCalls.numbers P.floats ⟨P.round 600, P.round 800, ops⟩, Plain r) → bytes.length ≤ 2 ^ 32 →
    ∃ placed m file page painted, Placed ⟨0, 0⟩ fragments placed ∧
      (∀ fuel, m ≤ fuel → readDocument readSingle fuel bytes = some file) ∧ file.pages = [page] ∧
      (∃ m, ∀ fuel, m ≤ fuel → paintContents readSingle .zero .one (gsAlpha file.extGState) fuel page.contents = some painted) ∧
      AllMatch InRow painted (placed.flatMap fun p => p.1.shape 0 p.2) := by
  intro P h hplain hl
  have hPf : P.floats = singleFloats (dtoaText digits) := rfl
  have hPr : P.round = Single.round := rfl
  have hPv : P.fontView = view := rfl
  clear_value P
  rw [toPdfBytes_calls P engine api d (hPv ▸ ho)] at h
  rcases ec : documentCalls P engine api d fuel schedule with _ | ops
  · rw [ec] at h; cases h
  have hnum := hplain ops ec
  rw [ec, Option.map_some, Option.some.injEq] at h
  obtain ⟨placed, hp, hcalls⟩ := C126_calls engine api e advance hf he d P hPr k hk root fuel schedule hc hr fragments hx hs ec
  have hvalid : Valid (fun _ : Nat => P.fontView) [(⟨P.round 600, P.round 800, ops⟩ : PageCalls Single)] := by
    refine ⟨fun _ => hPv ▸ hv, ?_⟩
    intro c hc op hop
    cases List.mem_singleton.1 hc
    exact hcalls.valid P api hg op hop
  obtain ⟨m, file, r1, r2⟩ := C15_C18_contents_printed (F := P.floats) (good := Plain) (readReal := readSingle)
    (by rw [hPf]; exact realTextOn_single (C119_plain hd)) (by rw [hPf]; exact C116_floats _)
    (fun _ => P.fontView) [⟨P.round 600, P.round 800, ops⟩] hvalid
    (C15_numbers _ _ fun c hc r hr => by cases List.mem_singleton.1 hc; exact hnum r hr) (by rw [h]; exact hl)
  rw [h] at r1
  rcases ep : file.pages with _ | ⟨page, ps⟩
  · rw [ep] at r2; exact r2.elim
  cases ps with
  | cons => rw [ep] at r2; exact r2.2.elim
  | nil =>
    rw [ep] at r2
    obtain ⟨⟨painted, q1, q2⟩, -⟩ := r2
    have s1 := hcalls.seen P api hPf hPr (hPv ▸ ho) q2
    rw [hPf] at q1
    exact ⟨placed, m, file, page, painted, hp, r1, ep, q1, s1⟩

/-! ### An example -/

/-- `p { margin-left: 5px; width: 44px; background: rgb(200, 30, 7) } span { padding-left: 3px; margin-right: 2px; background: rgba(1, 2, 3, 0.5) }` -/
def rowGroundEngine : Engine String :=
  { exampleEngine with
    ua := ⟨[("html", displayBlock (.generatingBox .block .flow)),
            ("p", { declarations := [.value .display (.generatingBox .block .flow), .value .marginLeft (.length (.absolute 5)),
                      .value .width (.length (.absolute 44)), .value .backgroundColor (.rgba ⟨200, 30, 7, 255⟩)],
                    important := [false, false, false, false], anyNormal := ⟨false, true⟩ }),
            ("span", { declarations := [.value .paddingLeft (.length (.absolute 3)), .value .marginRight (.length (.absolute 2)),
                         .value .backgroundColor (.rgba ⟨1, 2, 3, 128⟩)],
                       important := [false, false, false], anyNormal := ⟨false, true⟩ })]⟩ }

/-- A font of which all glyphs are half an em wide. -/
def rowFont : FontApi Single Unit := ⟨fun c => .ok (if c < 65536 then c else 0), fun _ => .ok (Verif.Font.toEms 1024 2048), .zero, .add⟩

theorem rowFont_em : EmFont rowFont (2 ^ 11) fun _ => 1024 := by
  refine ⟨rfl, rfl, fun id w h => ?_⟩
  simp only [rowFont, Except.ok.injEq] at h
  exact ⟨h.symm, by norm_num⟩

theorem rowGroundEngine_sheets {d : Verif.Dom.Document} (h : d.styleElements = []) : parseStylesheets rowGroundEngine d = some ⟨[]⟩ := by
  simp [parseStylesheets, h, Verif.Dom.Document.stylesheetTexts, addStylesheets, StyleSet.finish]

/-- The painter of the example. -/
def rowPainter : Painter Single String := ⟨singleFloats (dtoaText shortestDigits), Single.round, 0, Verif.Pdf.sampleFont 0, .round (9 / 10)⟩

/-- The hypotheses of `C126_page_partial` are met by `rowDocument` in the styles of `rowGroundEngine`, with `k = 7`. The page has the background of
the `p`, three of the `span`, which is broken twice, and five texts. -/
theorem C126_example : FindsDigits shortestDigits ∧ EmFont rowFont (2 ^ 11) (fun _ => 1024) ∧ (∀ c g, rowFont.glyphId c = .ok g → g < 65536) ∧
    (constructDocument rowGroundEngine rowDocument 9).map (fun root => (ruledTest 7 11 root.contents,
      decide (root.contents.reach (textUnits rowFont fun _ => 1024) 11 = 1456))) = some (true, true) ∧
    (Layout.layoutDocument rowGroundEngine (exactFont rowFont (2 ^ 11) fun _ => 1024) rowDocument 9 inOrder ⟨600, 800⟩).map fragmentLayers = some 5 ∧
    (5 + 5) * (600 + 1456 : Rat) < 2 ^ 23 / 2 ^ 7 ∧
    (∃ bytes, toPdfBytes rowPainter rowGroundEngine rowFont rowDocument 9 inOrder = some bytes ∧ bytes.length ≤ 2 ^ 32) ∧
    ∃ ops, documentCalls rowPainter rowGroundEngine rowFont rowDocument 9 inOrder = some ops ∧
      (∀ r ∈ PageCalls.numbers rowPainter.floats ⟨.round 600, .round 800, ops⟩, Plain r) ∧
      (ops.filterMap fun
        | .rect x _ w _ => some (x.value, w.value, [])
        | .text _ ids size x _ => some (x.value, size.value, ids)
        | _ => none) = [(5, 44, []), (5, 16, codes "aa"), (21, 11, []), (24, 16, codes "b"), (5, 16, []), (5, 16, codes "cc"), (5, 16, []),
          (5, 16, codes "dd"), (23, 16, codes "e")] := by
  have hp : parseStylesheets rowGroundEngine rowDocument = some ⟨[]⟩ := rowGroundEngine_sheets rfl
  refine ⟨shortestDigits_finds, rowFont_em, ?_, ?_, ?_, by norm_num, ?_, ?_⟩
  · intro c g h
    simp only [rowFont, Except.ok.injEq] at h
    split at h <;> omega
  · simp only [constructDocument, hp]
    decide +kernel
  · simp only [Layout.layoutDocument, constructDocument, hp]
    decide +kernel
  · have h : ((toPdfBytes rowPainter rowGroundEngine rowFont rowDocument 9 inOrder).map fun bytes => decide (bytes.length ≤ 2 ^ 32)) = some true := by
      simp only [toPdfBytes, layoutDocument, constructDocument, hp]
      decide +kernel
    rcases hb : toPdfBytes rowPainter rowGroundEngine rowFont rowDocument 9 inOrder with _ | bytes
    · rw [hb] at h
      cases h
    · rw [hb] at h
      exact ⟨bytes, rfl, by simpa using h⟩
  · have h : ((documentCalls rowPainter rowGroundEngine rowFont rowDocument 9 inOrder).map fun ops =>
        decide ((∀ r ∈ PageCalls.numbers rowPainter.floats ⟨.round 600, .round 800, ops⟩,
          r ≠ .nan ∧ (r.value = 0 ∨ ((Single.round (1 / 10 ^ 6)).value < |r.value| ∧ |r.value| < (Single.round (10 ^ 21)).value))) ∧
          (ops.filterMap fun
            | .rect x _ w _ => some (x.value, w.value, [])
            | .text _ ids size x _ => some (x.value, size.value, ids)
            | _ => none) = [(5, 44, []), (5, 16, codes "aa"), (21, 11, []), (24, 16, codes "b"), (5, 16, []), (5, 16, codes "cc"), (5, 16, []),
              (5, 16, codes "dd"), (23, 16, codes "e")])) = some true := by
      simp only [documentCalls, layoutDocument, constructDocument, hp]
      decide +kernel
    rcases hb : documentCalls rowPainter rowGroundEngine rowFont rowDocument 9 inOrder with _ | ops
    · rw [hb] at h
      cases h
    · rw [hb, Option.map_some, Option.some.injEq, decide_eq_true_eq] at h
      exact ⟨ops, rfl, h.1, h.2⟩

end Verif.Layout.Machine
