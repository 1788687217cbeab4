/- Painting with any arithmetic: lemmas for C115. -/
import Verif.Layout.MachinePaint
import Verif.Layout.MachineGround
import Verif.Layout.GroundTheorems
import Verif.Layout.ShownTheorems
set_option linter.unusedSectionVars false
namespace Verif.Layout.Machine
open Verif.Style Verif.Text Verif.Pdf
variable {R E : Type} [Numbers R] (P : Painter R E)

private def run (ops : List (PageOp R)) (s : Painting R) : Painting R := ops.foldl (runOp P.floats fun _ => P.fontView) s

private theorem run_append (a b : List (PageOp R)) (s : Painting R) : run P (a ++ b) s = run P b (run P a s) := by
  simp [run]

private theorem addFont_ok (ho : P.fontView.Ok) (d : Doc R) : ∃ d' key, addFont P.floats d P.fontAddress P.fontView = (d', .ok key) := by
  obtain ⟨he, ws, hw⟩ := (FontView.ok_iff (R := R) P.fontView).1 ho
  unfold addFont
  dsimp only
  rcases h : assocGet d.fonts P.fontAddress with _ | key
  · dsimp only
    rw [he]
    dsimp only
    rw [hw]
    exact ⟨_, _, rfl⟩
  · exact ⟨_, key, rfl⟩

/-- The number for a colour. -/
private def asked (c : RGBA) : Requested R :=
  some (P.round (c.red / 255), P.round (c.green / 255), P.round (c.blue / 255), P.round (c.alpha / 255))

/-- The number for the colour of text in a style. -/
private def requested (style : ComputedValues) : Requested R := asked P (style.values .color)

/-- The glyphs that are expected, each with its size and its colour. -/
private def wanted : Expected R → List (Nat × R × Requested R)
  | .rect _ _ _ _ _ => []
  | .text _ glyphs size _ _ color => glyphs.map fun g => (g, size, color)

/-- The colours of the rectangles that are expected. -/
private def wantedRects : Expected R → List (Requested R)
  | .rect _ _ _ _ color => [color]
  | .text _ _ _ _ _ _ => []

private def styled (g : ComputedValues × Nat) : Nat × R × Requested R :=
  (g.2, (Numbers.lengths (R := R) g.1).fontSize, requested P g.1)

/-- Calls that show these glyphs, in the sizes and colours of their styles, and fill rectangles in the background colours of these styles, in
whatever colour they start. -/
private def Paints (ops : List (PageOp R)) (glyphs : List (ComputedValues × Nat)) (grounds : List ComputedValues) : Prop :=
  (∀ color, (expected (fun _ => P.fontView) color ops).flatMap wanted = glyphs.map (styled P) ∧
    (expected (fun _ => P.fontView) color ops).flatMap wantedRects = grounds.map fun s => asked P (backgroundOf s)) ∧
    ((∀ g ∈ glyphs, g.2 < 65536) → ∀ op ∈ ops, op.Valid)

private theorem expected_append (color : Requested R) (a b : List (PageOp R)) : ∃ color',
    expected (fun _ => P.fontView) color (a ++ b) =
      expected (fun _ => P.fontView) color a ++ expected (fun _ => P.fontView) color' b := by
  induction a generalizing color with
  | nil => exact ⟨color, rfl⟩
  | cons op a ih =>
    cases op with
    | color r g b a => exact ih _
    | rect x y w h =>
      obtain ⟨c, hc⟩ := ih color
      exact ⟨c, by simp only [List.cons_append, expected, hc]⟩
    | text f glyphs size x y =>
      obtain ⟨c, hc⟩ := ih color
      refine ⟨c, ?_⟩
      simp only [List.cons_append, expected, hc]
      split <;> rfl

private theorem Paints.append {a b : List (PageOp R)} {g h : List (ComputedValues × Nat)} {k l : List ComputedValues}
    (ha : Paints P a g k) (hb : Paints P b h l) : Paints P (a ++ b) (g ++ h) (k ++ l) := by
  refine ⟨fun color => ?_, fun hg op hop => ?_⟩
  · obtain ⟨c, hc⟩ := expected_append P color a b
    rw [hc, List.flatMap_append, List.flatMap_append, (ha.1 _).1, (hb.1 _).1, (ha.1 _).2, (hb.1 _).2, List.map_append, List.map_append]
    exact ⟨rfl, rfl⟩
  · rcases List.mem_append.1 hop with h | h
    · exact ha.2 (fun g hgm => hg g (List.mem_append_left _ hgm)) op h
    · exact hb.2 (fun g hgm => hg g (List.mem_append_right _ hgm)) op h

private theorem paintBackground_paints (s : Painting R) (info : BoxInfo R) (cb : PRect R) :
    ∃ ops, paintBackground P s info cb = some (run P ops s) ∧ Paints P ops [] (ground info.style) := by
  unfold paintBackground
  dsimp only
  split
  · rename_i h
    have hb : hasBackground info.style = true := by
      simp only [hasBackground, bne_iff_ne, ne_eq]
      exact Nat.ne_of_gt h
    rw [ground, if_pos hb]
    exact ⟨[.color _ _ _ _, .rect _ _ _ _], rfl, fun _ => ⟨rfl, rfl⟩, fun _ op hop => by
      simp only [List.mem_cons, List.not_mem_nil, or_false] at hop
      rcases hop with rfl | rfl <;> trivial⟩
  · rename_i h
    have hb : ¬ hasBackground info.style = true := by
      simp only [hasBackground, bne_iff_ne, ne_eq, not_not]
      exact Nat.eq_zero_of_not_pos h
    rw [ground, if_neg hb]
    exact ⟨[], rfl, fun _ => ⟨rfl, rfl⟩, by simp⟩

mutual
private theorem paintFragment_paints {Err : Type} {F : FontApi R Err} (ho : P.fontView.Ok) (f : Fragment R) :
    ∀ (cb : PRect R) (s : Painting R), f.Made F → ∃ ops, paintFragment P cb s f = some (run P ops s) ∧ Paints P ops f.glyphs (f.collect ground) := by
  intro cb s hm
  cases f with
  | text style rect segment =>
    obtain ⟨d', key, h⟩ := addFont_ok P ho (paintColor P s (style.values .color)).1
    let c : RGBA := style.values .color
    refine ⟨[.color (P.round (c.red / 255)) (P.round (c.green / 255)) (P.round (c.blue / 255)) (P.round (c.alpha / 255)),
      .text P.fontAddress segment.glyphs (Numbers.lengths (R := R) style).fontSize (rect.startCorner.inline + cb.topLeft.x)
        (rect.startCorner.block + cb.topLeft.y + (Numbers.lengths (R := R) style).fontSize * P.ascender)], ?_, ?_, ?_⟩
    · simp only [paintFragment, writingMode, Rect.toPhysical, paintText, showText, h]
      simp only [run, List.foldl_cons, List.foldl_nil, runOp, showText]
      simp only [paintColor] at h
      rw [h]
      rfl
    · intro color
      simp only [expected, if_pos ho, List.flatMap_cons, List.flatMap_nil, List.append_nil, wanted, wantedRects, Fragment.glyphs, List.map_map, Fragment.collect,
        List.map_nil, and_true]
      rfl
    · intro hg op hop
      simp only [List.mem_cons, List.not_mem_nil, or_false] at hop
      rcases hop with rfl | rfl
      · trivial
      · intro g hgm
        exact hg (style, g) (List.mem_map.2 ⟨g, hgm, rfl⟩)
  | anonymous rect children mode =>
    obtain ⟨rfl, hm⟩ := hm
    obtain ⟨ops, h1, h2⟩ := paintFragments_paints ho children _ s hm
    exact ⟨ops, by simpa only [paintFragment, Rect.toPhysical] using h1, h2⟩
  | box info children =>
    obtain ⟨a, h1, h2⟩ := paintBackground_paints P s info cb
    obtain ⟨ops, h3, h4⟩ := paintFragments_paints ho children _ (run P a s) hm
    refine ⟨a ++ ops, ?_, Paints.append P h2 h4⟩
    simpa only [paintFragment, h1, writingMode, Rect.toPhysical, run_append] using h3
private theorem paintFragments_paints {Err : Type} {F : FontApi R Err} (ho : P.fontView.Ok) (fs : List (Fragment R)) :
    ∀ (cb : PRect R) (s : Painting R), allMade F fs →
      ∃ ops, paintFragments P cb s fs = some (run P ops s) ∧ Paints P ops (fragmentsGlyphs fs) (fragmentsCollect ground fs) := by
  intro cb s hm
  cases fs with
  | nil => exact ⟨[], rfl, fun _ => ⟨rfl, rfl⟩, by simp⟩
  | cons f fs =>
    obtain ⟨a, h1, h2⟩ := paintFragment_paints ho f cb s hm.1
    obtain ⟨b, h3, h4⟩ := paintFragments_paints ho fs cb (run P a s) hm.2
    exact ⟨a ++ b, by simp only [paintFragments, h1, h3, run_append], Paints.append P h2 h4⟩
end

theorem allMade_glyphs {Err : Type} {F : FontApi R Err} : (fs : List (Fragment R)) → allMade F fs →
    ∀ g ∈ fragmentsGlyphs fs, ∃ c, F.glyphId c = .ok g.2 := by
  intro fs
  have key : ∀ n, (∀ fs : List (Fragment R), sizeOf fs < n → allMade F fs → ∀ g ∈ fragmentsGlyphs fs, ∃ c, F.glyphId c = .ok g.2) := by
    intro n
    induction n with
    | zero => intro fs h; omega
    | succ n ih =>
      intro fs hn hm g hg
      cases fs with
      | nil => simp [fragmentsGlyphs] at hg
      | cons f fs =>
        rw [fragmentsGlyphs, List.mem_append] at hg
        simp only [List.cons.sizeOf_spec] at hn
        rcases hg with hg | hg
        · cases f with
          | box info children =>
            simp only [Fragment.box.sizeOf_spec] at hn
            exact ih children (by omega) hm.1 g hg
          | anonymous rect children mode =>
            simp only [Fragment.anonymous.sizeOf_spec] at hn
            exact ih children (by omega) hm.1.2 g hg
          | text style rect segment =>
            obtain ⟨x, hx, rfl⟩ := List.mem_map.1 hg
            exact hm.1 x hx
        · exact ih fs (by omega) hm.2 g hg
  exact key _ fs (Nat.lt_succ_self _)

private theorem marks_styled {name : Nat → List Byte → Prop} : ∀ (painted : List (Painted R)) (wants : List (Expected R))
    (glyphs : List (ComputedValues × Nat)), AllMatch (Verif.Pdf.Matches P.floats name) painted wants → wants.flatMap wanted = glyphs.map (styled P) →
    AllMatch (fun (m : Mark R) (g : ComputedValues × Nat) => m.Styled P.floats P.round g.1 g.2) (painted.flatMap marks) glyphs
  | [], [], glyphs, _, h => by
    cases glyphs with
    | nil => trivial
    | cons g gs => simp at h
  | [], _ :: _, _, h, _ => h.elim
  | _ :: _, [], _, h, _ => h.elim
  | p :: ps, w :: ws, glyphs, hm, h => by
    obtain ⟨h1, h2⟩ := hm
    cases p with
    | fill cm path rgb alpha =>
      cases w with
      | rect x y w h' color => exact marks_styled ps ws glyphs h2 h
      | text f ids size x y color => exact h1.elim
    | «show» cm font size matrix s rgb alpha =>
      cases w with
      | rect x y w h' color => exact h1.elim
      | text f ids size' x y color =>
        obtain ⟨-, -, -, hmx, hcodes, hcol⟩ := h1
        simp only [List.flatMap_cons, wanted, marks, hcodes, Option.getD_some] at h ⊢
        clear hcodes
        induction ids generalizing glyphs with
        | nil => exact marks_styled ps ws glyphs h2 (by simpa using h)
        | cons id ids ih =>
          cases glyphs with
          | nil => simp at h
          | cons g gs =>
            simp only [List.map_cons, List.cons_append, List.cons.injEq, styled, Prod.mk.injEq] at h
            obtain ⟨⟨e1, e2, e3⟩, h⟩ := h
            refine ⟨⟨e1, ⟨x, y, ?_⟩, ?_⟩, ih gs h⟩
            · rw [hmx, e2]
            · rw [e3] at hcol
              exact hcol

private theorem rects_filled {name : Nat → List Byte → Prop} : ∀ (painted : List (Painted R)) (wants : List (Expected R))
    (styles : List ComputedValues), AllMatch (Verif.Pdf.Matches P.floats name) painted wants →
    wants.flatMap wantedRects = (styles.map fun s => asked P (backgroundOf s)) →
    AllMatch (fun (s : SeenRect R) style => s.Filled P.floats P.round (backgroundOf style)) (painted.flatMap seenRects) styles
  | [], [], styles, _, h => by
    cases styles with
    | nil => trivial
    | cons g gs => simp at h
  | [], _ :: _, _, h, _ => h.elim
  | _ :: _, [], _, h, _ => h.elim
  | p :: ps, w :: ws, styles, hm, h => by
    obtain ⟨h1, h2⟩ := hm
    cases p with
    | fill cm path rgb alpha =>
      cases w with
      | rect x y w h' color =>
        obtain ⟨h3, rfl, h5⟩ := h1
        cases styles with
        | nil => simp [wantedRects] at h
        | cons s ss =>
          simp only [List.flatMap_cons, wantedRects, List.map_cons, List.cons_append, List.nil_append, List.cons.injEq] at h
          obtain ⟨rfl, h⟩ := h
          exact ⟨⟨h3, h5⟩, rects_filled ps ws ss h2 h⟩
      | text f ids size x y color => exact h1.elim
    | «show» cm font size matrix s rgb alpha =>
      cases w with
      | rect x y w h' color => exact h1.elim
      | text f ids size' x y color => exact rects_filled ps ws styles h2 h

/-- Painting what layout made returns. -/
theorem paintDocument_some {Err : Type} {F : FontApi R Err} (ho : P.fontView.Ok) {fragments : List (Fragment R)}
    (hm : allMade F fragments) : ∃ doc, paintDocument P fragments = some doc := by
  obtain ⟨ops, h, -⟩ := paintFragments_paints P ho fragments ⟨⟨0, 0⟩, ⟨P.round 600, P.round 800⟩⟩
    (Doc.new, Page.new P.floats (P.round 600) (P.round 800)) hm
  exact ⟨_, by rw [paintDocument, h]⟩

/-- The page that a reader finds when fragments made by layout were painted. -/
theorem paintDocument_marks {Err : Type} {F : FontApi R Err} {readReal : List Byte → Option R} (hd : RealText P.floats.dtoa readReal)
    (hl : FloatLaws P.floats) (hv : P.fontView.Valid) (ho : P.fontView.Ok) (hg : ∀ c g, F.glyphId c = .ok g → g < 65536)
    {fragments : List (Fragment R)} (hm : allMade F fragments) {doc : Doc R} (h : paintDocument P fragments = some doc)
    (hs : (doc.write P.floats).length ≤ 2 ^ 32) :
    ∃ m file page painted, (∀ fuel, m ≤ fuel → readDocument readReal fuel (doc.write P.floats) = some file) ∧ file.pages = [page] ∧
      page.mediaBox = [.int 0, .int 0, .real (P.floats.mul (P.round 600) P.floats.scaleX), .real (P.floats.mul (P.round 800) P.floats.scaleY)] ∧
      (∃ m, ∀ fuel, m ≤ fuel →
        paintContents readReal P.floats.zero P.floats.one (gsAlpha file.extGState) fuel page.contents = some painted) ∧
      AllMatch (fun (m : Mark R) (g : ComputedValues × Nat) => m.Styled P.floats P.round g.1 g.2) (painted.flatMap marks)
        (fragmentsGlyphs fragments) ∧
      AllMatch (fun (s : SeenRect R) style => s.Filled P.floats P.round (backgroundOf style)) (painted.flatMap seenRects)
        (fragmentsCollect ground fragments) := by
  obtain ⟨ops, h3, h4⟩ := paintFragments_paints P ho fragments ⟨⟨0, 0⟩, ⟨P.round 600, P.round 800⟩⟩
    (Doc.new, Page.new P.floats (P.round 600) (P.round 800)) hm
  rw [paintDocument, h3] at h
  let calls : PageCalls R := ⟨P.round 600, P.round 800, ops⟩
  have hdoc : doc = runDoc P.floats (fun _ => P.fontView) [calls] := by
    simp only [Option.some.injEq] at h
    rw [← h]
    rfl
  have hvalid : Verif.Pdf.Valid (fun _ : Nat => P.fontView) [calls] := by
    refine ⟨fun _ => hv, ?_⟩
    intro c hc
    cases List.mem_singleton.1 hc
    refine h4.2 fun g hgm => ?_
    obtain ⟨c, hc⟩ := allMade_glyphs fragments hm g hgm
    exact hg c _ hc
  subst hdoc
  obtain ⟨m1, file1, r1, hm⟩ := C14_pages hd hl _ _ hvalid hs
  obtain ⟨m2, file, r2, hc⟩ := C15_C18_contents hd hl _ _ hvalid hs
  have hf : file1 = file := by
    have a := r1 (max m1 m2) (by omega)
    have b := r2 (max m1 m2) (by omega)
    rw [a] at b
    exact Option.some.inj b
  subst hf
  rcases hpg : file1.pages with _ | ⟨page, _ | ⟨page', pages⟩⟩
  · rw [hpg] at hc; exact hc.elim
  · rw [hpg] at hc hm
    obtain ⟨⟨painted, hpaint, hmatch⟩, _⟩ := hc
    refine ⟨m1, file1, page, painted, r1, hpg, ?_, hpaint, ?_, ?_⟩
    · simpa [calls] using hm
    · exact marks_styled P painted _ _ hmatch (h4.1 none).1
    · exact rects_filled P painted _ _ hmatch (h4.1 none).2
  · rw [hpg] at hc; exact hc.2.elim

end Verif.Layout.Machine
