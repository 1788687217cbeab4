/- **C124**: the backgrounds of blocks of whole pixels are on the page of the PDF file where the rules of CSS put them, to the last bit. -/
import Verif.Layout.WholePage
import Verif.Layout.WholePageSpec
namespace Verif.Layout.Machine
open Verif.Style Verif.Text Verif.Float Verif.Pdf

attribute [local instance] singleNumbers exactNumbers

theorem component_plain : ∀ c, c ≤ 255 → Plain (Single.round ((c : Nat) / 255)) ∧
    Plain ((Single.max (Single.round ((c : Nat) / 255)) .zero).min .one) := by
  have h : ∀ c, c < 256 → (Single.round ((c : Nat) / 255) ≠ .nan ∧ ((Single.round ((c : Nat) / 255)).value = 0 ∨
      ((Single.round (1 / 10 ^ 6)).value < |(Single.round ((c : Nat) / 255)).value| ∧
        |(Single.round ((c : Nat) / 255)).value| < (Single.round (10 ^ 21)).value))) ∧
      (Single.max (Single.round ((c : Nat) / 255)) .zero).min .one = Single.round ((c : Nat) / 255) := by decide +kernel
  intro c hc
  obtain ⟨h1, h2⟩ := h c (by omega)
  rw [h2]
  exact ⟨h1, h1⟩

/-- Numbers on the grid are printed without an exponent. -/
theorem whole_plain {k : Nat} (hk : k ≤ 18) {T : Rat} (hT : T < 2 ^ 23 / 2 ^ k) {a : Single} {q : Rat} (h : WholeIs k true T a q) : Plain a := by
  obtain ⟨⟨fa, rfl⟩, ⟨n, hn⟩, hb⟩ := h
  refine ⟨fa.1, ?_⟩
  have c1 : (Single.round (1 / 10 ^ 6)).value < 1 / 2 ^ 19 := by decide +kernel
  have c2 : (2 ^ 23 : Rat) < (Single.round (10 ^ 21)).value := by decide +kernel
  by_cases h0 : a.value = 0
  · exact .inl h0
  · refine .inr ⟨lt_of_lt_of_le c1 ?_, lt_of_le_of_lt hb (lt_trans hT (lt_of_le_of_lt ?_ c2))⟩
    · have hn0 : n ≠ 0 := by
        rintro rfl
        simp at hn
        exact h0 hn
      simp only [if_true] at hn
      have hp : (0 : Rat) < 2 ^ (k + 1) := by positivity
      rw [hn, abs_div, abs_of_pos hp, div_le_div_iff₀ (by positivity) hp, one_mul]
      have h1 : (1 : Rat) ≤ |(n : Rat)| := by
        have := Int.one_le_abs hn0
        exact_mod_cast this
      have h2 : (2 : Rat) ^ (k + 1) ≤ 2 ^ 19 := pow_le_pow_right₀ (by norm_num) (by omega)
      nlinarith
    · exact div_le_self (by norm_num) (one_le_pow₀ (by norm_num))

section
variable {E : Type} (P : Painter Single E) {k : Nat} {T : Rat} {digits : Nat → Nat × Int}

theorem CallsFor.plain (hP : P.floats = singleFloats (dtoaText digits)) (hR : P.round = Single.round) (hk : k ≤ 18) (hT : T < 2 ^ 23 / 2 ^ k)
    {ops : List (PageOp Single)} {shapes : List Shape} (h : CallsFor P k T ops shapes) :
    ∀ r ∈ ops.flatMap (PageOp.numbers P.floats), Plain r := by
  induction h with
  | nil => intro r hr; cases hr
  | cons h1 h2 h3 h4 h5 _ ih =>
    intro r hr
    simp only [List.flatMap_cons, List.mem_append, colorCall, PageOp.numbers, List.mem_cons, List.not_mem_nil, or_false, hP, hR, singleFloats] at hr
    rcases hr with (rfl | rfl | rfl | rfl) | (rfl | rfl | rfl | rfl) | hr
    · exact (component_plain _ h5.1).1
    · exact (component_plain _ h5.2.1).1
    · exact (component_plain _ h5.2.2.1).1
    · exact (component_plain _ h5.2.2.2).2
    · exact whole_plain hk hT h1
    · exact whole_plain hk hT h2
    · exact whole_plain hk hT h3
    · exact whole_plain hk hT h4
    · refine ih r ?_
      rw [hP]
      exact hr

theorem CallsFor.seen (hP : P.floats = singleFloats (dtoaText digits)) (hR : P.round = Single.round) {view : Nat → FontView E}
    {name : Nat → List Byte → Prop} {ops : List (PageOp Single)} {shapes : List Shape} (h : CallsFor P k T ops shapes)
    {color : Requested Single} {painted : List (Painted Single)}
    (hm : AllMatch (Verif.Pdf.Matches P.floats name) painted (expected view color ops)) :
    AllMatch SeenAs (painted.flatMap seenRects) shapes ∧ painted.flatMap marks = [] := by
  induction h generalizing color painted with
  | nil =>
    cases painted with
    | nil => exact ⟨trivial, rfl⟩
    | cons => exact hm.elim
  | @cons x y w h ops corner size c shapes h1 h2 h3 h4 h5 _ ih =>
    simp only [colorCall, expected] at hm
    cases painted with
    | nil => exact hm.elim
    | cons p ps =>
      obtain ⟨m1, m2⟩ := hm
      cases p with
      | «show» => exact m1.elim
      | fill cm path rgb alpha =>
        obtain ⟨rfl, rfl, hc⟩ := m1
        obtain ⟨i1, i2⟩ := ih m2
        rw [hP, hR] at hc
        have hl := C118_color _ rgb alpha c.red c.green c.blue c.alpha h5.1 h5.2.1 h5.2.2.1 h5.2.2.2 hc
        refine ⟨?_, ?_⟩
        · simp only [List.flatMap_cons, seenRects, List.map_cons, List.map_nil, List.cons_append, List.nil_append]
          refine ⟨⟨h1.1, h2.1, h3.1, h4.1, ⟨.round (75 / 100), .round (-75 / 100), ?_, ?_, ?_⟩, hl⟩, i1⟩
          · rw [hP]; rfl
          · exact ⟨by decide +kernel, by decide +kernel⟩
          · exact ⟨by decide +kernel, by decide +kernel⟩
        · simpa [marks] using i2

theorem CallsFor.valid {ops : List (PageOp Single)} {shapes : List Shape} (h : CallsFor P k T ops shapes) : ∀ op ∈ ops, op.Valid := by
  induction h with
  | nil => intro op hop; cases hop
  | cons _ _ _ _ _ _ ih =>
    intro op hop
    simp only [List.mem_cons] at hop
    rcases hop with rfl | rfl | hop
    · trivial
    · trivial
    · exact ih op hop
end

/-- **C124**: if the blocks of a document have lengths that are whole numbers of pixels, or of the fraction `1 / 2 ^ k` of them, and are not too
large, the page of the PDF file that is made with `f32` has the rectangles of their backgrounds and nothing else; each has the corner and the size
that it has if the document is laid out with the numbers of mathematics, to the last bit, and the bytes of the colour of its element. -/
theorem C124_page {σ E Err Err' : Type} (engine : Engine σ) (font : FontApi Single Err) (font' : FontApi Rat Err') (d : Verif.Dom.Document)
    {digits : Nat → Nat × Int} (hd : FindsDigits digits) (address : Nat) (view : FontView E) (ascender : Single) (hv : view.Valid) (ho : view.Ok)
    (k : Nat) (hk : k ≤ 18) (root : BlockFormattingContext) (fuel : Nat) (schedule : Oracle) (hc : constructDocument engine d fuel = some root)
    (hb : root.contents.OnlyBlocks k) (hs : (root.contents.nesting + 5) * (600 + 16 * root.contents.lengthsSum) < 2 ^ 23 / 2 ^ k)
    (hq : root.contents.Each fun style => IsBytes (backgroundOf style)) {bytes : List Byte}
    (h : toPdfBytes ⟨singleFloats (dtoaText digits), Single.round, address, view, ascender⟩ engine font d fuel schedule = some bytes)
    (hl : bytes.length ≤ 2 ^ 32) :
    ∃ fragments placed m file page painted,
      Layout.layoutDocument engine font' d fuel schedule ⟨600, 800⟩ = some fragments ∧ Placed ⟨0, 0⟩ fragments placed ∧
      (∀ fuel, m ≤ fuel → readDocument readSingle fuel bytes = some file) ∧ file.pages = [page] ∧
      (∃ m, ∀ fuel, m ≤ fuel → paintContents readSingle .zero .one (gsAlpha file.extGState) fuel page.contents = some painted) ∧
      AllMatch SeenAs (painted.flatMap seenRects) (placed.flatMap fun p => p.1.shape 0 p.2) ∧ painted.flatMap marks = [] := by
  obtain ⟨P, hP⟩ : ∃ P : Painter Single E, P = ⟨singleFloats (dtoaText digits), Single.round, address, view, ascender⟩ := ⟨_, rfl⟩
  have hPf : P.floats = singleFloats (dtoaText digits) := by rw [hP]
  have hPr : P.round = Single.round := by rw [hP]
  have hPv : P.fontView = view := by rw [hP]
  rw [← hP] at h
  have n0 := containerSum_nonneg root.contents
  have nn : (0 : Rat) ≤ root.contents.nesting := Nat.cast_nonneg _
  obtain ⟨T, hTe⟩ : ∃ T : Rat, T = 600 + 16 * root.contents.lengthsSum := ⟨_, rfl⟩
  have hT0 : 0 ≤ T := by rw [hTe]; linarith
  rw [← hTe] at hs
  have hT1 : 5 * T ≤ (root.contents.nesting + 5) * T := mul_le_mul_of_nonneg_right (by linarith) hT0
  have hT : T < 2 ^ 23 / 2 ^ k := by linarith
  have S' := whole_simulation (by omega : k ≤ 100) hs
  have S := whole_simulation (by omega : k ≤ 100) hT
  rw [toPdfBytes_calls P engine font d (hPv ▸ ho)] at h
  rcases ec : documentCalls P engine font d fuel schedule with _ | ops
  · rw [ec] at h; cases h
  rw [ec, Option.map_some, Option.some.injEq] at h
  simp only [documentCalls, layoutDocument, hc, hPr] at ec
  have hI : WholeIs k false 600 (Single.round 600) 600 := by
    have hw : Whole k 600 := ⟨600 * 2 ^ k, by push_cast; rw [mul_div_assoc, div_self (by positivity), mul_one]⟩
    refine ⟨whole_round (by omega) false hw ?_, hw, by rw [abs_of_pos (by norm_num)]⟩
    rw [abs_of_pos (by norm_num)]
    refine lt_of_le_of_lt (show (600 : Rat) ≤ T by rw [hTe]; linarith) (lt_trans hT ?_)
    exact div_lt_div_of_pos_right (by norm_num) (by positivity)
  have ha := layoutRoot_agree S font font' (k := k) (fun style h1 h2 => extent_style (by omega) hT h1 h2) fuel schedule root
    ⟨Single.round 600, Single.round 800⟩ ⟨600, 800⟩ 600 hb hI (by rw [hTe])
  rcases el : layoutRoot font fuel schedule root ⟨Single.round 600, Single.round 800⟩ with _ | fs
  · rw [el] at ec; cases ec
  rw [el] at ec ha
  simp only at ec
  rw [of_layoutRoot] at ha
  rcases eg : Layout.layoutRoot font' fuel schedule root ⟨600, 800⟩ with _ | gs
  · rw [eg] at ha; exact ha.elim
  rw [eg, Option.map_some, ← ofFragments_eq] at ha
  have hlow := layoutRoot_low font k fuel schedule root _ hb hq fs el
  have z := S.zero (g := true)
  obtain ⟨placed, hp, hcalls⟩ := fragments_exact P S' 0 hT0 hT1 gs fs root.contents.nesting _ ⟨0, 0⟩ 0 ops ha hlow z z (by nlinarith) ec
  have hnum : ∀ c ∈ [(⟨P.round 600, P.round 800, ops⟩ : PageCalls Single)], ∀ r ∈ c.numbers P.floats, Plain r := by
    intro c hc r hr
    cases List.mem_singleton.1 hc
    simp only [PageCalls.numbers, List.mem_append] at hr
    rcases hr with hr | hr
    · rw [hPf, hPr] at hr
      have : ∀ r ∈ [Single.round (75 / 100), Single.round (-75 / 100), Single.mul (.round 600) (.round (75 / 100)),
          Single.mul (.round 800) (.round (-75 / 100))], r ≠ .nan ∧ (r.value = 0 ∨ ((Single.round (1 / 10 ^ 6)).value < |r.value| ∧
            |r.value| < (Single.round (10 ^ 21)).value)) := by decide +kernel
      exact this r hr
    · exact hcalls.plain P hPf hPr hk hs r hr
  have hvalid : Valid (fun _ : Nat => P.fontView) [(⟨P.round 600, P.round 800, ops⟩ : PageCalls Single)] := by
    refine ⟨fun _ => hPv ▸ hv, ?_⟩
    intro c hc op hop
    cases List.mem_singleton.1 hc
    exact hcalls.valid P op hop
  obtain ⟨m, file, r1, r2⟩ := C15_C18_contents_printed (F := P.floats) (good := Plain) (readReal := readSingle)
    (by rw [hPf]; exact realTextOn_single (C119_plain hd)) (by rw [hPf]; exact C116_floats _)
    (fun _ => P.fontView) [⟨P.round 600, P.round 800, ops⟩] hvalid (C15_numbers _ _ hnum) (by rw [h]; exact hl)
  rw [h] at r1
  rcases ep : file.pages with _ | ⟨page, ps⟩
  · rw [ep] at r2; exact r2.elim
  cases ps with
  | cons => rw [ep] at r2; exact r2.2.elim
  | nil =>
    rw [ep] at r2
    obtain ⟨⟨painted, q1, q2⟩, -⟩ := r2
    obtain ⟨s1, s2⟩ := hcalls.seen P hPf hPr q2
    rw [hPf] at q1
    exact ⟨gs, placed, m, file, page, painted, by simp only [Layout.layoutDocument, hc]; exact eg, hp, r1, ep, q1, s1, s2⟩

/-! ### An example -/

/-- `boxEngine` with colours and a padding: `div { background: rgb(200, 30, 7); … } nav { background: rgba(1, 2, 3, 0.5); padding-left: 2px; … }` -/
def groundBoxEngine : Engine String :=
  { exampleEngine with
    ua := ⟨[("html", displayBlock (.generatingBox .block .flow)),
            ("div", { declarations := [.value .display (.generatingBox .block .flow), .value .marginTop (.length (.absolute 20)),
                        .value .marginBottom (.length (.absolute (-5))), .value .marginLeft .auto, .value .marginRight .auto,
                        .value .paddingTop (.length (.absolute 7)), .value .width (.length (.absolute 301)),
                        .value .backgroundColor (.rgba ⟨200, 30, 7, 255⟩)],
                      important := [false, false, false, false, false, false, false, false], anyNormal := ⟨false, true⟩ }),
            ("p", { declarations := [.value .display (.generatingBox .block .flow), .value .marginTop (.length (.absolute 10)),
                      .value .marginBottom (.length (.absolute 15)), .value .marginLeft (.length (.absolute 3)),
                      .value .marginRight (.length (.absolute 3)), .value .height (.length (.absolute 33))],
                    important := [false, false, false, false, false, false], anyNormal := ⟨false, true⟩ }),
            ("nav", { declarations := [.value .display (.generatingBox .block .flow), .value .marginTop (.length (.absolute (-8))),
                        .value .marginBottom (.length (.absolute 6)), .value .position .relative, .value .top (.length (.absolute 4)),
                        .value .height (.length (.absolute 21)), .value .paddingLeft (.length (.absolute 2)),
                        .value .backgroundColor (.rgba ⟨1, 2, 3, 128⟩)],
                      important := [false, false, false, false, false, false, false, false], anyNormal := ⟨false, true⟩ })]⟩ }

theorem groundBoxEngine_sheets {d : Verif.Dom.Document} (h : d.styleElements = []) : parseStylesheets groundBoxEngine d = some ⟨[]⟩ := by
  simp [parseStylesheets, h, Verif.Dom.Document.stylesheetTexts, addStylesheets, StyleSet.finish]

mutual
/-- A test for `BlockContainer.Each` with colours of bytes. -/
def bytesTest : BlockContainer → Bool
  | .blockLevelBoxes boxes => bytesTests boxes
  | .inlineFormattingContext _ => true
/-- See `bytesTest`. -/
def bytesTestBox : BlockLevelBox → Bool
  | .sameFormattingContextBlock style contents => bytesTestStyle style && bytesTest contents
  | .outOfFlowAbsolutelyPositioned style _ contents => bytesTestStyle style && bytesTest contents
  | .outOfFlowFloat style _ contents => bytesTestStyle style && bytesTest contents
  | .independent style _ contents => bytesTestStyle style && bytesTest contents
/-- See `bytesTest`. -/
def bytesTests : List BlockLevelBox → Bool
  | [] => true
  | b :: bs => bytesTestBox b && bytesTests bs
/-- See `bytesTest`. -/
def bytesTestStyle (style : ComputedValues) : Bool :=
  let c := backgroundOf style
  decide (c.red ≤ 255 ∧ c.green ≤ 255 ∧ c.blue ≤ 255 ∧ c.alpha ≤ 255)
end

mutual
theorem bytesTest_sound : ∀ {c : BlockContainer}, bytesTest c = true → c.Each fun style => IsBytes (backgroundOf style)
  | .blockLevelBoxes boxes, h => by rw [bytesTest] at h; rw [BlockContainer.Each]; exact bytesTests_sound h
  | .inlineFormattingContext _, _ => by rw [BlockContainer.Each]; trivial
theorem bytesTestBox_sound : ∀ {b : BlockLevelBox}, bytesTestBox b = true → b.Each fun style => IsBytes (backgroundOf style)
  | .sameFormattingContextBlock style contents, h
  | .outOfFlowAbsolutelyPositioned style _ contents, h
  | .outOfFlowFloat style _ contents, h
  | .independent style _ contents, h => by
    rw [bytesTestBox, Bool.and_eq_true] at h
    rw [BlockLevelBox.Each]
    exact ⟨by simpa [bytesTestStyle, IsBytes] using h.1, bytesTest_sound h.2⟩
theorem bytesTests_sound : ∀ {bs : List BlockLevelBox}, bytesTests bs = true → eachBlock (fun style => IsBytes (backgroundOf style)) bs
  | [], _ => by rw [eachBlock]; trivial
  | b :: bs, h => by
    rw [bytesTests, Bool.and_eq_true] at h
    rw [eachBlock]
    exact ⟨bytesTestBox_sound h.1, bytesTests_sound h.2⟩
end

/-- The hypotheses of `C124_page` are met by `boxDocument` in the styles of `groundBoxEngine`, with whole pixels. A file is made of it; its page
has two rectangles. -/
theorem C124_example : FindsDigits shortestDigits ∧
    (constructDocument groundBoxEngine boxDocument 9).map (fun root => (containerTest 0 root.contents, bytesTest root.contents,
      root.contents.nesting, decide (root.contents.lengthsSum = 438))) = some (true, true, 3, true) ∧
    ((3 : Nat) + 5) * (600 + 16 * 438 : Rat) < 2 ^ 23 / 2 ^ 0 ∧
    (∃ bytes, toPdfBytes ⟨singleFloats (dtoaText shortestDigits), Single.round, 0, Verif.Pdf.sampleFont 0, .round (9 / 10)⟩ groundBoxEngine
      (plainFont (Single.round 1)) boxDocument 9 inOrder = some bytes ∧ bytes.length ≤ 2 ^ 32) ∧
    (documentCalls ⟨singleFloats (dtoaText shortestDigits), Single.round, 0, Verif.Pdf.sampleFont 0, .round (9 / 10)⟩ groundBoxEngine
      (plainFont (Single.round 1)) boxDocument 9 inOrder).map (fun ops => ops.filterMap fun
        | .rect x y w h => some (x.value, y.value, w.value, h.value)
        | _ => none) = some [(299 / 2, 20, 301, 78), (299 / 2, 81, 301, 21)] := by
  have hp : parseStylesheets groundBoxEngine boxDocument = some ⟨[]⟩ := groundBoxEngine_sheets rfl
  refine ⟨shortestDigits_finds, ?_, by norm_num, ?_, ?_⟩
  · simp only [constructDocument, hp]
    decide +kernel
  · have h : ((toPdfBytes ⟨singleFloats (dtoaText shortestDigits), Single.round, 0, Verif.Pdf.sampleFont 0, .round (9 / 10)⟩ groundBoxEngine
        (plainFont (Single.round 1)) boxDocument 9 inOrder).map fun bytes => decide (bytes.length ≤ 2 ^ 32)) = some true := by
      simp only [toPdfBytes, layoutDocument, constructDocument, hp]
      decide +kernel
    rcases hb : toPdfBytes ⟨singleFloats (dtoaText shortestDigits), Single.round, 0, Verif.Pdf.sampleFont 0, .round (9 / 10)⟩ groundBoxEngine
        (plainFont (Single.round 1)) boxDocument 9 inOrder with _ | bytes
    · rw [hb] at h
      cases h
    · rw [hb] at h
      exact ⟨bytes, rfl, by simpa using h⟩
  · simp only [documentCalls, layoutDocument, constructDocument, hp]
    decide +kernel

end Verif.Layout.Machine
