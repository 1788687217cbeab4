/- C95: what victor paints at a place on a page is at this place in the image that lester makes of the page. -/
import Verif.Lester.ImageSpec
import Verif.Lester.SurfaceTheorems
import Verif.Pdf.DocExample
import Verif.Layout.ShownTheorems
namespace Verif.Lester
open Verif.Pdf

section
variable {R : Type} {value : R → Rat}

theorem scaleAt_render (white forPrinting : Bool) (sx sy : Rat) :
    scaleAt (1, 1) ((if white then [.setSourceRgb 1 1 1, .paint] else []) ++ [.scale (.fin sx) (.fin sy), .page forPrinting]) = some (sx, sy) := by
  cases white <;> simp [scaleAt]

theorem imagePoint_page {F : Floats R} (hF : TrueScale value F) {box : Box} (hl : box.left = 0) (ht : box.top = 0) {steps : List RenderStep} {dx dy : Rat}
    (hs : scaleAt (1, 1) steps = some (dx * 96 / 72, dy * 96 / 72)) (p : Rat × Rat) :
    imagePoint value box steps [pageMatrix F] p = some (dx * p.1, dy * p.2) := by
  simp only [imagePoint, hs, applyAll, pageMatrix, matrixOf, number, hF.scaleX, hF.scaleY, Option.bind_eq_bind, Option.bind_some,
    Option.pure_def, Matrix.apply, Box.drawn, hl, ht, Option.some.injEq, Prod.mk.injEq]
  constructor <;> grind

/-- What a reader paints covers what was asked for, scaled. -/
theorem covers_asked {F : Floats R} (hF : TrueScale value F) {box : Box} (hl : box.left = 0) (ht : box.top = 0) {steps : List RenderStep} {dx dy : Rat}
    (hs : scaleAt (1, 1) steps = some (dx * 96 / 72, dy * 96 / 72)) {fontName : Nat → List Byte → Prop} {p : Painted R} {e : Expected R}
    (h : Matches F fontName p e) (outline : Rat × Rat → Prop) (q : Rat × Rat) :
    Covers value box steps outline q p ↔ ∃ q', Asked value outline q' e ∧ q = (dx * q'.1, dy * q'.2) := by
  cases p with
  | fill cm path rgb alpha =>
    cases e with
    | rect x y w h' color =>
      obtain ⟨rfl, rfl, -⟩ := h
      simp only [Covers, Asked, List.mem_singleton, exists_eq_left, imagePoint_page hF hl ht hs, Option.some.injEq]
      constructor
      · rintro ⟨u, v, h1, h2, h3, h4, rfl⟩
        exact ⟨_, ⟨u, v, h1, h2, h3, h4, rfl⟩, rfl⟩
      · rintro ⟨_, ⟨u, v, h1, h2, h3, h4, rfl⟩, rfl⟩
        exact ⟨u, v, h1, h2, h3, h4, rfl⟩
    | text => exact h.elim
  | «show» cm font size matrix s rgb alpha =>
    cases e with
    | rect => exact h.elim
    | text f glyphs fontSize x y color =>
      obtain ⟨rfl, -, rfl, rfl, -⟩ := h
      have hm : matrixOf value [.real fontSize, .int 0, .int 0, .real (F.neg fontSize), .real x, .real y] =
          some ⟨value fontSize, 0, 0, -value fontSize, value x, value y⟩ := by
        simp [matrixOf, number, hF.neg]
      simp only [Covers, Asked, number, hm, imagePoint_page hF hl ht hs, Option.some.injEq]
      constructor
      · rintro ⟨u, v, s, m, ho, rfl, rfl, rfl⟩
        refine ⟨_, ⟨u, v, ho, rfl⟩, ?_⟩
        simp only [Matrix.apply, Prod.mk.injEq]
        constructor <;> grind
      · rintro ⟨_, ⟨u, v, ho, rfl⟩, rfl⟩
        refine ⟨u, v, _, _, ho, rfl, rfl, ?_⟩
        simp only [Matrix.apply, Prod.mk.injEq]
        constructor <;> grind

/-- The image of a page of this size, rendered with these options, and what is to be seen in it. -/
theorem image_page {F : Floats R} (hF : TrueScale value F) {w h : R} (hw : 0 ≤ value w) (hh : 0 ≤ value h)
    (hmw : value (F.mul w F.scaleX) = value w * (3 / 4)) (hmh : value (F.mul h F.scaleY) = -(value h * (3 / 4)))
    (ar : F64Arith) (har : Exact ar) (create : Nat → Int → Int → Surface)
    (hc : ∀ f w h, (create f w h).format = f ∧ (create f w h).width = w ∧ (create f w h).height = h) :
    ∃ box, boxOf value [.int 0, .int 0, .real (F.mul w F.scaleX), .real (F.mul h F.scaleY)] = some box ∧
      ∀ (after : Nat × Nat) (dx dy : Rat) (white forPrinting : Bool) (s : Surface) (steps : List RenderStep),
        renderWithOptions ar create after (.fin box.size.1, .fin box.size.2) ⟨.fin dx, .fin dy, white, forPrinting⟩ = .ok (s, steps) →
        s.width = (value w * dx).ceil ∧ s.height = (value h * dy).ceil ∧
        ∀ fontName p e, Matches F fontName p e → ∀ outline q,
          Covers value box steps outline q p ↔ ∃ q', Asked value outline q' e ∧ q = (dx * q'.1, dy * q'.2) := by
  refine ⟨⟨min 0 (value w * (3 / 4)), min 0 (-(value h * (3 / 4))), max 0 (value w * (3 / 4)), max 0 (-(value h * (3 / 4)))⟩, ?_, ?_⟩
  · simp [boxOf, number, hmw, hmh]
  have h1 : min 0 (value w * (3 / 4)) = 0 := by grind
  have h2 : max 0 (value w * (3 / 4)) = value w * (3 / 4) := by grind
  have h3 : min 0 (-(value h * (3 / 4))) = -(value h * (3 / 4)) := by grind
  have h4 : max 0 (-(value h * (3 / 4))) = 0 := by grind
  intro after dx dy white forPrinting s steps hr
  simp only [h1, h2, h3, h4, Box.size] at hr ⊢
  have hsize := C49_render ar create (fun f w h => (hc f w h).2) after _ _ _ _ (by rw [har.pxPerPt, har.mul, har.mul])
    (by rw [har.pxPerPt, har.mul, har.mul]) s steps hr
  obtain ⟨sx, sy, before, rfl, rfl, -, rfl, rfl, -⟩ := C66_render ar har create hc after _ _ dx dy white forPrinting s steps hr
  refine ⟨?_, ?_, fun fontName p e hm outline q => ?_⟩
  · rw [hsize.1]
    congr 1
    grind
  · rw [hsize.2]
    congr 1
    grind
  · exact covers_asked hF rfl rfl (scaleAt_render _ _ _ _) hm outline q

/-- **C95**: the pages of a document that is written with victor and read, each rendered with lester at `dx` by `dy` pixels per CSS `px`. The
image of a page of `w` by `h` px is `w * dx` by `h * dy` pixels large, rounded up. For each rectangle and each text run that was painted, in
order, a point of the image is covered just if the point of the page in its place is, in CSS px from the top left corner: the image is
neither turned, mirrored, moved nor stretched, and text stands upright. -/
theorem C95_image {E : Type} {F : Floats R} {readReal : List Byte → Option R} (hd : RealText F.dtoa readReal) (hl : FloatLaws F) (hF : TrueScale value F)
    (font : Nat → FontView E) (pages : List (PageCalls R)) (hv : Valid font pages) (hs : ((runDoc F font pages).write F).length ≤ 2 ^ 32)
    (hsize : ∀ c ∈ pages, 0 ≤ value c.width ∧ 0 ≤ value c.height ∧ value (F.mul c.width F.scaleX) = value c.width * (3 / 4) ∧
      value (F.mul c.height F.scaleY) = -(value c.height * (3 / 4)))
    (ar : F64Arith) (har : Exact ar) (create : Nat → Int → Int → Surface)
    (hc : ∀ f w h, (create f w h).format = f ∧ (create f w h).width = w ∧ (create f w h).height = h) :
    ∃ m doc, (∀ fuel, m ≤ fuel → readDocument readReal fuel ((runDoc F font pages).write F) = some doc) ∧
      AllMatch (fun page c => ∃ box painted, boxOf value page.mediaBox = some box ∧ (∃ m, ∀ fuel, m ≤ fuel →
          paintContents readReal F.zero F.one (gsAlpha doc.extGState) fuel page.contents = some painted) ∧
        ∀ (after : Nat × Nat) (dx dy : Rat) (white forPrinting : Bool) (s : Surface) (steps : List RenderStep),
          renderWithOptions ar create after (.fin box.size.1, .fin box.size.2) ⟨.fin dx, .fin dy, white, forPrinting⟩ = .ok (s, steps) →
          s.width = (value c.width * dx).ceil ∧ s.height = (value c.height * dy).ceil ∧
          AllMatch (fun p e => ∀ outline q, Covers value box steps outline q p ↔ ∃ q', Asked value outline q' e ∧ q = (dx * q'.1, dy * q'.2))
            painted (expected font none c.ops)) doc.pages pages := by
  obtain ⟨m1, doc, h1, h2⟩ := C14_pages hd hl font pages hv hs
  obtain ⟨m2, doc', h1', h3⟩ := C15_C18_contents hd hl font pages hv hs
  have he := (h1 _ (Nat.le_max_left m1 m2)).symm.trans (h1' _ (Nat.le_max_right m1 m2))
  cases he
  refine ⟨m1, doc, h1, ?_⟩
  clear h1 h1' hs hv
  have key : ∀ (ps : List (PageRead R)) (cs : List (PageCalls R)), (∀ c ∈ cs, 0 ≤ value c.width ∧ 0 ≤ value c.height ∧
        value (F.mul c.width F.scaleX) = value c.width * (3 / 4) ∧ value (F.mul c.height F.scaleY) = -(value c.height * (3 / 4))) →
      ps.map (·.mediaBox) = (cs.map fun c => [.int 0, .int 0, .real (F.mul c.width F.scaleX), .real (F.mul c.height F.scaleY)]) →
      AllMatch (fun p c => ∃ painted, (∃ m, ∀ fuel, m ≤ fuel →
          paintContents readReal F.zero F.one (gsAlpha doc.extGState) fuel p.contents = some painted) ∧
        AllMatch (Matches F fun f name => ∃ id, dictGet doc.fonts name = some (.ref id 0) ∧
          IsFont readReal ((runDoc F font pages).write F) (font f) id) painted (expected font none c.ops)) ps cs →
      AllMatch (fun page c => ∃ box painted, boxOf value page.mediaBox = some box ∧ (∃ m, ∀ fuel, m ≤ fuel →
          paintContents readReal F.zero F.one (gsAlpha doc.extGState) fuel page.contents = some painted) ∧
        ∀ (after : Nat × Nat) (dx dy : Rat) (white forPrinting : Bool) (s : Surface) (steps : List RenderStep),
          renderWithOptions ar create after (.fin box.size.1, .fin box.size.2) ⟨.fin dx, .fin dy, white, forPrinting⟩ = .ok (s, steps) →
          s.width = (value c.width * dx).ceil ∧ s.height = (value c.height * dy).ceil ∧
          AllMatch (fun p e => ∀ outline q, Covers value box steps outline q p ↔ ∃ q', Asked value outline q' e ∧ q = (dx * q'.1, dy * q'.2))
            painted (expected font none c.ops)) ps cs := by
    intro ps
    induction ps with
    | nil =>
      intro cs _ _ h
      cases cs with
      | nil => trivial
      | cons => exact h.elim
    | cons p ps ih =>
      intro cs hsize hbox h
      cases cs with
      | nil => exact h.elim
      | cons c cs =>
        simp only [List.map_cons, List.cons.injEq] at hbox
        obtain ⟨⟨painted, hp, hm⟩, h⟩ := h
        obtain ⟨z1, z2, z3, z4⟩ := hsize c (by simp)
        obtain ⟨box, hb, himg⟩ := image_page hF z1 z2 z3 z4 ar har create hc
        refine ⟨⟨box, painted, by rw [hbox.1]; exact hb, hp, ?_⟩, ih cs (fun c hc => hsize c (by simp [hc])) hbox.2 h⟩
        intro after dx dy white forPrinting s steps hr
        obtain ⟨a1, a2, a3⟩ := himg after dx dy white forPrinting s steps hr
        exact ⟨a1, a2, hm.mono fun p e hpe => a3 _ p e hpe⟩
  exact key _ _ hsize h2 h3

open Verif.Layout in
/-- **C95** for documents: the PDF file of a document has one page, of 600 by 800 px. Its image has 600 by 800 pixels, times `dx` and `dy`, and
the boxes and the text of the document are in the image where layout put them. -/
theorem C95_document {σ Er Err : Type} (P : Painter R Er) (E : Engine σ) (fontApi : Verif.Text.FontApi Rat Err) (d : Verif.Dom.Document)
    {readReal : List Byte → Option R} (hd : RealText P.floats.dtoa readReal) (hfl : FloatLaws P.floats) (hF : TrueScale value P.floats)
    (hv : P.fontView.Valid) (hg : ∀ c g, fontApi.glyphId c = .ok g → g < 65536)
    (h600 : value (P.round 600) = 600) (h800 : value (P.round 800) = 800)
    (hmw : value (P.floats.mul (P.round 600) P.floats.scaleX) = 450) (hmh : value (P.floats.mul (P.round 800) P.floats.scaleY) = -600)
    {fuel : Nat} {schedule : Oracle} {bytes : List Byte} (hb : toPdfBytes P E fontApi d fuel schedule = some bytes) (hs : bytes.length ≤ 2 ^ 32)
    (ar : F64Arith) (har : Exact ar) (create : Nat → Int → Int → Surface)
    (hc : ∀ f w h, (create f w h).format = f ∧ (create f w h).width = w ∧ (create f w h).height = h) :
    ∃ fragments placed m file page box painted, layoutDocument E fontApi d fuel schedule ⟨600, 800⟩ = some fragments ∧
      Placed ⟨0, 0⟩ fragments placed ∧ (∀ fuel, m ≤ fuel → readDocument readReal fuel bytes = some file) ∧ file.pages = [page] ∧
      boxOf value page.mediaBox = some box ∧ (∃ m, ∀ fuel, m ≤ fuel →
        paintContents readReal P.floats.zero P.floats.one (gsAlpha file.extGState) fuel page.contents = some painted) ∧
      ∀ (after : Nat × Nat) (dx dy : Rat) (white forPrinting : Bool) (s : Surface) (steps : List RenderStep),
        renderWithOptions ar create after (.fin box.size.1, .fin box.size.2) ⟨.fin dx, .fin dy, white, forPrinting⟩ = .ok (s, steps) →
        s.width = (600 * dx).ceil ∧ s.height = (800 * dy).ceil ∧
        AllMatch (fun p shape => ∀ outline q, Covers value box steps outline q p ↔
          ∃ q', Asked value outline q' (shape.expected P) ∧ q = (dx * q'.1, dy * q'.2)) painted (shapesOf P.ascender placed) := by
  unfold toPdfBytes at hb
  rcases hlay : layoutDocument E fontApi d fuel schedule ⟨600, 800⟩ with _ | fragments
  · simp [hlay] at hb
  simp only [hlay] at hb
  rcases hdoc : paintDocument P fragments with _ | doc
  · simp [hdoc] at hb
  simp only [hdoc, Option.some.injEq] at hb
  subst hb
  obtain ⟨placed, hpl⟩ := Placed.exists fragments ⟨0, 0⟩
  have glyphs : ∀ e ∈ placed, ∀ style rect segment, e.1 = .text style rect segment → ∀ g ∈ segment.glyphs, g < 65536 := by
    intro e he style rect segment hs g hgm
    unfold layoutDocument at hlay
    split at hlay
    · cases hlay
    · obtain ⟨hm, -⟩ := layoutRoot_shown hlay
      obtain ⟨c, hcg⟩ := made_glyphs hpl hm e he style rect segment hs g hgm
      exact hg c g hcg
  obtain ⟨m, file, page, painted, h1, h2, h3, h4, h5⟩ := C46_page P hd hfl hv hpl glyphs hdoc hs
  obtain ⟨box, hbox, himg⟩ := image_page (value := value) hF (w := P.round 600) (h := P.round 800) (by rw [h600]; decide) (by rw [h800]; decide)
    (by rw [hmw, h600]; decide +kernel) (by rw [hmh, h800]; decide +kernel) ar har create hc
  refine ⟨fragments, placed, m, file, page, box, painted, rfl, hpl, h1, h2, by rw [h3]; exact hbox, h4, ?_⟩
  intro after dx dy white forPrinting s steps hr
  obtain ⟨a1, a2, a3⟩ := himg after dx dy white forPrinting s steps hr
  rw [h600] at a1
  rw [h800] at a2
  exact ⟨a1, a2, h5.mono fun p shape hps => a3 _ p _ hps⟩

end

/-! ### Examples -/

/-- Quarters in place of floats: the integer `n` stands for `n / 4`. -/
def quarterFloats : Floats Int where
  zero := 0
  one := 4
  scaleX := 3
  scaleY := -3
  mul a b := a * b / 4
  neg := (- ·)
  ne a b := a ≠ b
  clampUnit a := max 0 (min a 4)
  key a := if a ≤ 0 then 0 else if 4 ≤ a then 65535 else a.toNat * 16383
  dtoa := dtoaWhole

/-- See `quarterFloats`. -/
def quarterValue (n : Int) : Rat := n / 4

theorem quarterFloats_laws : FloatLaws quarterFloats where
  key_congr a b h := by
    have : a = b := by simpa [quarterFloats] using h
    rw [this]
  key_lt a := by
    simp only [quarterFloats]
    split
    · omega
    · split <;> omega

theorem quarterFloats_scale : TrueScale quarterValue quarterFloats where
  scaleX := by decide +kernel
  scaleY := by decide +kernel
  neg r := by
    simp only [quarterFloats, quarterValue, Rat.intCast_neg]
    grind

/-- The second page of tests/pdf.rs: 4 by 4 px, with a blue rectangle of 4 by 3 px below the top row and a red one of 1 by 2 px, half
transparent, at the top left; and a page with text. -/
def imagePages : List (PageCalls Int) :=
  [⟨16, 16, [.color 0 0 4 4, .rect 0 4 16 12, .color 4 0 0 2, .rect 0 0 4 8]⟩, ⟨560, 200, [.text 0 [1, 2] 60 40 80]⟩]

/-- The hypotheses of C95 are met by these pages, and the first one is rendered, at 2 by 3 pixels per px, to 8 by 12 pixels. -/
theorem imagePages_image : RealText quarterFloats.dtoa readWhole ∧ Valid sampleFont imagePages ∧
    ((runDoc quarterFloats sampleFont imagePages).write quarterFloats).length ≤ 2 ^ 32 ∧
    (∀ c ∈ imagePages, 0 ≤ quarterValue c.width ∧ 0 ≤ quarterValue c.height ∧
      quarterValue (quarterFloats.mul c.width quarterFloats.scaleX) = quarterValue c.width * (3 / 4) ∧
      quarterValue (quarterFloats.mul c.height quarterFloats.scaleY) = -(quarterValue c.height * (3 / 4))) ∧
    Exact exampleArith ∧
    (boxOf quarterValue [.int 0, .int 0, .real (quarterFloats.mul 16 quarterFloats.scaleX), .real (quarterFloats.mul 16 quarterFloats.scaleY)]).map Box.size =
      some (3, 3) ∧
    (match renderWithOptions exampleArith (fun f w h => ⟨f, w, h, 4 * w, 0, 0⟩) (0, 0) (.fin 3, .fin 3) ⟨.fin 2, .fin 3, true, false⟩ with
    | .ok (s, _) => some (s.width, s.height)
    | _ => none) = some (8, 12) := by
  refine ⟨realText_whole, ⟨sample_valid.fonts, ?_⟩, by decide +kernel, ?_, ⟨fun _ _ => rfl, rfl⟩, by decide +kernel, by decide +kernel⟩
  · intro c hc op ho
    simp only [imagePages, List.mem_cons, List.not_mem_nil, or_false] at hc
    rcases hc with rfl | rfl
    · simp only [List.mem_cons, List.not_mem_nil, or_false] at ho
      rcases ho with rfl | rfl | rfl | rfl <;> simp [PageOp.Valid]
    · simp only [List.mem_cons, List.not_mem_nil, or_false] at ho
      rcases ho with rfl
      simp [PageOp.Valid]
  · intro c hc
    simp only [imagePages, List.mem_cons, List.not_mem_nil, or_false] at hc
    rcases hc with rfl | rfl <;> decide +kernel

/-- In the image of the first page, the blue rectangle covers the point (1, 4), which is in its first row, and not the point (1, 2), which is
in the row above. -/
theorem imagePages_point : ∀ {steps : List RenderStep}, scaleAt (1, 1) steps = some (2 * 96 / 72, 3 * 96 / 72) →
    ∀ rgb alpha outline, Covers quarterValue ⟨0, -3, 3, 0⟩ steps outline (1, 4) (.fill [pageMatrix quarterFloats] [(0, 4, 16, 12)] rgb alpha) ∧
      ¬Covers quarterValue ⟨0, -3, 3, 0⟩ steps outline (1, 2) (.fill [pageMatrix quarterFloats] [(0, 4, 16, 12)] rgb alpha) := by
  intro steps hs rgb alpha outline
  simp only [Covers, List.mem_singleton, exists_eq_left, imagePoint_page quarterFloats_scale (box := ⟨0, -3, 3, 0⟩) rfl rfl hs]
  constructor
  · exact ⟨1 / 8, 1 / 9, by decide +kernel, by decide +kernel, by decide +kernel, by decide +kernel, by decide +kernel⟩
  · rintro ⟨u, v, -, -, h, -, he⟩
    simp only [Option.some.injEq, Prod.mk.injEq, quarterValue] at he
    have h2 : (((4 : Int) : Rat)) = 4 := by decide +kernel
    have h3 : (((12 : Int) : Rat)) = 12 := by decide +kernel
    rw [h2, h3] at he
    grind

end Verif.Lester
