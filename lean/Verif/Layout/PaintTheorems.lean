/- C46: painting puts each fragment at the sum of the places of those around it, in tree order. -/
import Verif.Layout.Paint
import Verif.Layout.PaintSpec
import Verif.Pdf.DocExample
import Verif.Layout.ConstructTheorems
namespace Verif.Layout
open Verif.Style Verif.Text Verif.Pdf

section
variable {R E : Type} (P : Painter R E)

/-- The components of a colour as floats. -/
def Painter.color (c : RGBA) : R × R × R × R := (P.round (c.red / 255), P.round (c.green / 255), P.round (c.blue / 255), P.round (c.alpha / 255))

/-- The shape with its numbers as floats, in the colour given with it. -/
def Shape.expected : Shape → Expected R
  | .rect corner size color =>
    .rect (P.round corner.inline) (P.round corner.block) (P.round size.inline) (P.round size.block) (some (P.color color))
  | .glyphs ids fontSize baseline color =>
    .text P.fontAddress ids (P.round fontSize) (P.round baseline.inline) (P.round baseline.block) (some (P.color color))

/-- There is text among these fragments. -/
def HasText (placed : List (Fragment × Vec2 Rat)) : Prop := ∃ e ∈ placed, ∃ style rect segment, e.1 = .text style rect segment

/-- The shapes of all these fragments, in order. -/
def shapesOf (ascender : Rat) (placed : List (Fragment × Vec2 Rat)) : List Shape := placed.flatMap fun e => e.1.shape ascender e.2

theorem Placed.exists : ∀ (fs : List Fragment) (origin : Vec2 Rat), ∃ placed, Placed origin fs placed := by
  intro fs
  induction fs with
  | nil => exact fun _ => ⟨_, .nil⟩
  | cons f fs ih =>
    intro origin
    obtain ⟨rest, hr⟩ := ih origin
    suffices h : ∀ o, ∃ below, Placed o f.children below by
      obtain ⟨below, hb⟩ := h (origin.add f.offset)
      exact ⟨_, .cons hb hr⟩
    clear ih hr
    refine Fragment.rec (motive_1 := fun f => ∀ o, ∃ below, Placed o f.children below)
      (motive_2 := fun fs => ∀ o, ∃ below, Placed o fs below) ?_ ?_ ?_ ?_ ?_ f
    · exact fun _ _ h => h
    · exact fun _ _ _ h => h
    · exact fun _ _ _ o => ⟨_, .nil⟩
    · exact fun o => ⟨_, .nil⟩
    · intro f fs hf hfs o
      obtain ⟨below, hb⟩ := hf (o.add f.offset)
      obtain ⟨rest, hr⟩ := hfs o
      exact ⟨_, .cons hb hr⟩

theorem Placed.unique {origin : Vec2 Rat} {fs : List Fragment} {a b : List (Fragment × Vec2 Rat)} (ha : Placed origin fs a)
    (hb : Placed origin fs b) : a = b := by
  induction ha generalizing b with
  | nil => cases hb; rfl
  | cons _ _ ih1 ih2 => cases hb with | cons h1 h2 => rw [ih1 h1, ih2 h2]

/-- The calls on the page that paint a shape. -/
private def Shape.ops : Shape → List (PageOp R)
  | .rect corner size color =>
    [.color (P.round (color.red / 255)) (P.round (color.green / 255)) (P.round (color.blue / 255)) (P.round (color.alpha / 255)),
      .rect (P.round corner.inline) (P.round corner.block) (P.round size.inline) (P.round size.block)]
  | .glyphs ids fontSize baseline color =>
    [.color (P.round (color.red / 255)) (P.round (color.green / 255)) (P.round (color.blue / 255)) (P.round (color.alpha / 255)),
      .text P.fontAddress ids (P.round fontSize) (P.round baseline.inline) (P.round baseline.block)]

private def FontsOk (d : Doc R) : Prop := ∀ key, assocGet d.fonts P.fontAddress = some key → P.fontView.Ok

private def run (ops : List (PageOp R)) (s : Painting R) : Painting R := ops.foldl (runOp P.floats fun _ => P.fontView) s

private theorem setColor_fonts (F : Floats R) (d : Doc R) (p : Page R) (r g b a : R) : (setColor F d p r g b a).1.fonts = d.fonts := by
  unfold setColor setAlpha
  dsimp only
  repeat' split
  all_goals rfl

private theorem addFont_ok (d : Doc R) (hs : FontsOk P d) :
    (P.fontView.Ok ∧ ∃ d' key, addFont P.floats d P.fontAddress P.fontView = (d', .ok key)) ∨
      (¬ P.fontView.Ok ∧ ∃ d' e, addFont P.floats d P.fontAddress P.fontView = (d', .error e)) := by
  have hv := FontView.ok_iff (R := R) P.fontView
  unfold addFont
  dsimp only
  rcases h : assocGet d.fonts P.fontAddress with _ | key
  · dsimp only
    rcases he : P.fontView.codePointsError with _ | e
    · dsimp only
      rcases hw : (glyphWidths P.fontView.glyphWidth 0 P.fontView.glyphCount : Except E (List (Object R))) with e | ws
      · right
        refine ⟨fun ho => ?_, _, e, rfl⟩
        obtain ⟨_, ws, hws⟩ := hv.1 ho
        rw [hw] at hws; cases hws
      · exact .inl ⟨hv.2 ⟨he, ws, hw⟩, _, _, rfl⟩
    · right
      refine ⟨fun ho => ?_, _, e, rfl⟩
      rw [(hv.1 ho).1] at he; cases he
  · exact .inl ⟨hs key h, _, key, rfl⟩

/-- Painting succeeds with these calls, or fails. -/
private def Outcome (s : Painting R) (good : Prop) (shapes : List Shape) (r : Option (Painting R)) : Prop :=
  (good ∧ r = some (run P (shapes.flatMap (·.ops P)) s) ∧ FontsOk P (run P (shapes.flatMap (·.ops P)) s).1) ∨ (¬ good ∧ r = none)

private theorem run_append (a b : List (PageOp R)) (s : Painting R) : run P (a ++ b) s = run P b (run P a s) := by
  simp [run]

private theorem hasText_cons (e : Fragment × Vec2 Rat) (l : List (Fragment × Vec2 Rat)) :
    HasText (e :: l) ↔ HasText [e] ∨ HasText l := by simp [HasText]

private theorem hasText_append (a b : List (Fragment × Vec2 Rat)) : HasText (a ++ b) ↔ HasText a ∨ HasText b := by
  simp only [HasText, List.mem_append, or_and_right, exists_or]

private theorem paintText_outcome (s : Painting R) (hs : FontsOk P s.1) (segment : ShapedSegment Rat) (fontSize : Rat) (origin : PVec2 Rat)
    (color : RGBA) :
    Outcome P s P.fontView.Ok [.glyphs segment.glyphs fontSize ⟨origin.x, origin.y⟩ color]
      (paintText P (paintColor P s color) segment fontSize origin) := by
  have hs' : FontsOk P (paintColor P s color).1 := by
    intro key h
    unfold paintColor at h
    rw [setColor_fonts] at h
    exact hs key h
  unfold Outcome paintText
  rcases addFont_ok P _ hs' with ⟨ho, d', key, h⟩ | ⟨ho, d', e, h⟩
  · left
    refine ⟨ho, ?_, fun _ _ => ho⟩
    simp only [showText, h, run, Shape.ops, List.flatMap_cons, List.flatMap_nil, List.append_nil, List.foldl_cons, List.foldl_nil, runOp,
      paintColor] at h ⊢
  · right
    refine ⟨ho, ?_⟩
    simp only [showText, h]

private theorem paintBackground_outcome (s : Painting R) (hs : FontsOk P s.1) (info : BoxInfo) (cb : PRect Rat) (children : List Fragment) :
    Outcome P s True (Fragment.shape P.ascender (.box info children) ⟨cb.topLeft.x, cb.topLeft.y⟩) (paintBackground P s info cb) := by
  left
  refine ⟨trivial, ?_⟩
  unfold paintBackground
  dsimp only [Fragment.shape]
  have hc : toRgba info.style (info.style.values .backgroundColor) = backgroundOf info.style := by
    unfold toRgba backgroundOf; rfl
  rw [hc]
  generalize backgroundOf info.style = color
  by_cases h : color.alpha = 0
  · rw [if_neg (by omega), if_pos h]
    exact ⟨rfl, hs⟩
  · rw [if_pos (by omega), if_neg h]
    refine ⟨?_, ?_⟩
    · simp only [writingMode, Rect.toPhysical, run, Shape.ops, List.flatMap_cons, List.flatMap_nil, List.append_nil, List.foldl_cons,
        List.foldl_nil, runOp, paintColor, paintRect, PRect.translate, PVec2.add, BoxInfo.borderRect, Rect.inflate, Vec2.sizeToPhysical,
        Sides.inlineSum, Sides.blockSum, Option.some.injEq, Prod.mk.injEq, true_and]
      congr 2 <;> grind
    · intro key hk
      simp only [run, Shape.ops, List.flatMap_cons, List.flatMap_nil, List.append_nil, List.foldl_cons, List.foldl_nil, runOp,
        setColor_fonts] at hk
      exact hs key hk

mutual
private theorem paintFragment_outcome (f : Fragment) : ∀ (cb : PRect Rat) (s : Painting R) (below : List (Fragment × Vec2 Rat)),
    FontsOk P s.1 → Placed ((⟨cb.topLeft.x, cb.topLeft.y⟩ : Vec2 Rat).add f.offset) f.children below →
    Outcome P s (f.Horizontal ∧ (HasText ((f, ⟨cb.topLeft.x, cb.topLeft.y⟩) :: below) → P.fontView.Ok))
      (shapesOf P.ascender ((f, ⟨cb.topLeft.x, cb.topLeft.y⟩) :: below)) (paintFragment P cb s f) := by
  intro cb s below hs hp
  cases f with
  | text style rect segment =>
    cases hp
    have h := paintText_outcome P s hs segment (fontSizeOf style)
      ⟨rect.startCorner.inline + cb.topLeft.x, rect.startCorner.block + cb.topLeft.y + fontSizeOf style * P.ascender⟩ (style.values .color)
    have hg : (Fragment.Horizontal (.text style rect segment) ∧ (HasText [(.text style rect segment, ⟨cb.topLeft.x, cb.topLeft.y⟩)] →
        P.fontView.Ok)) = P.fontView.Ok := by
      simp only [Fragment.Horizontal, true_and, eq_iff_iff]
      exact ⟨fun h => h ⟨_, List.mem_singleton.2 rfl, _, _, _, rfl⟩, fun h _ => h⟩
    rw [hg]
    simp only [shapesOf, List.flatMap_cons, List.flatMap_nil, List.append_nil, Fragment.shape, paintFragment, writingMode, Rect.toPhysical,
      PRect.translate, PVec2.add]
    rw [show (⟨cb.topLeft.x + rect.startCorner.inline, cb.topLeft.y + rect.startCorner.block + P.ascender * fontSizeOf style⟩ : Vec2 Rat) =
      ⟨rect.startCorner.inline + cb.topLeft.x, rect.startCorner.block + cb.topLeft.y + fontSizeOf style * P.ascender⟩ from by
        congr 1 <;> grind]
    exact h
  | anonymous rect children mode =>
    simp only [Fragment.offset, Fragment.children] at hp
    by_cases hm : mode = (.horizontalTb, .ltr)
    · subst hm
      have h := paintFragments_outcome children ⟨⟨rect.startCorner.inline + cb.topLeft.x, rect.startCorner.block + cb.topLeft.y⟩,
        rect.size.sizeToPhysical (.horizontalTb, .ltr)⟩ s below hs
        (by simpa only [Vec2.add, add_comm] using hp)
      have ht : ∀ o, HasText ((.anonymous rect children (.horizontalTb, .ltr), o) :: below) ↔ HasText below := by
        intro o; rw [hasText_cons]; simp [HasText]
      simpa only [shapesOf, List.flatMap_cons, Fragment.shape, List.nil_append, Fragment.Horizontal, true_and, ht, paintFragment,
        Rect.toPhysical, PRect.translate, PVec2.add] using h
    · right
      refine ⟨fun h => hm h.1.1, ?_⟩
      simp only [paintFragment]
      have : rect.toPhysical mode = none := by
        unfold Rect.toPhysical
        split
        · exact absurd rfl hm
        · rfl
      rw [this]
  | box info children =>
    simp only [Fragment.offset, Fragment.children] at hp
    have ht : ∀ o, HasText ((.box info children, o) :: below) ↔ HasText below := by
      intro o; rw [hasText_cons]; simp [HasText]
    rcases paintBackground_outcome P s hs info cb children with ⟨_, h1, h2⟩ | ⟨h, _⟩
    swap
    · exact absurd trivial h
    have h := paintFragments_outcome children ⟨⟨info.contentRect.startCorner.inline + cb.topLeft.x,
      info.contentRect.startCorner.block + cb.topLeft.y⟩, info.contentRect.size.sizeToPhysical (.horizontalTb, .ltr)⟩ _ below h2
      (by simpa only [Vec2.add, add_comm] using hp)
    simp only [Outcome, shapesOf, List.flatMap_cons, List.flatMap_append, run_append, Fragment.Horizontal, ht, paintFragment, h1,
      writingMode, Rect.toPhysical, PRect.translate, PVec2.add] at h ⊢
    exact h
private theorem paintFragments_outcome (fs : List Fragment) : ∀ (cb : PRect Rat) (s : Painting R) (placed : List (Fragment × Vec2 Rat)),
    FontsOk P s.1 → Placed ⟨cb.topLeft.x, cb.topLeft.y⟩ fs placed →
    Outcome P s (allHorizontal fs ∧ (HasText placed → P.fontView.Ok)) (shapesOf P.ascender placed) (paintFragments P cb s fs) := by
  intro cb s placed hs hp
  cases fs with
  | nil =>
    cases hp
    left
    exact ⟨⟨trivial, fun ⟨_, h, _⟩ => absurd h (by simp)⟩, rfl, hs⟩
  | cons f fs =>
    cases hp with
    | cons h1 h2 =>
      rename_i below rest
      simp only [paintFragments]
      rcases paintFragment_outcome f cb s below hs h1 with ⟨⟨g1, g2⟩, e1, s1⟩ | ⟨g, e1⟩
      · rw [e1]
        dsimp only
        rcases paintFragments_outcome fs cb _ rest s1 h2 with ⟨⟨g3, g4⟩, e2, s2⟩ | ⟨g, e2⟩
        · left
          rw [e2]
          refine ⟨⟨⟨g1, g3⟩, fun h => ?_⟩, ?_⟩
          · rw [hasText_append] at h
            exact h.elim g2 g4
          · simp only [shapesOf, List.flatMap_append, run_append] at s2 ⊢
            exact ⟨trivial, s2⟩
        · right
          refine ⟨fun h => g ⟨h.1.2, fun ht => h.2 ?_⟩, e2⟩
          rw [hasText_append]
          exact .inr ht
      · right
        refine ⟨fun h => g ⟨h.1.1, fun ht => h.2 ?_⟩, ?_⟩
        · rw [hasText_append]
          exact .inl ht
        · rw [e1]
end

private theorem expected_shapes {shapes : List Shape} (hok : ∀ s ∈ shapes, ∀ ids fs b c, s = Shape.glyphs ids fs b c → P.fontView.Ok) (color : Requested R) :
    Verif.Pdf.expected (fun _ => P.fontView) color (shapes.flatMap (·.ops P)) = shapes.map (·.expected P) := by
  induction shapes generalizing color with
  | nil => rfl
  | cons s shapes ih =>
    have ih := ih fun s h => hok s (by simp [h])
    rw [List.flatMap_cons]
    cases s with
    | rect corner size c =>
      show _ :: Verif.Pdf.expected (fun _ => P.fontView) _ (shapes.flatMap (·.ops P)) = _
      rw [ih]; rfl
    | glyphs ids fs b c =>
      have := hok _ (by simp) ids fs b c rfl
      simp only [Shape.ops, List.cons_append, List.nil_append, Verif.Pdf.expected, if_pos this]
      show _ :: Verif.Pdf.expected (fun _ => P.fontView) _ (shapes.flatMap (·.ops P)) = _
      rw [ih]; rfl

private theorem allMatch_map {A B C : Type} {r : A → C → Prop} {f : B → C} : ∀ {as : List A} {bs : List B}, AllMatch r as (bs.map f) →
    AllMatch (fun a b => r a (f b)) as bs
  | [], [], _ => trivial
  | _ :: _, _ :: _, h => ⟨h.1, allMatch_map h.2⟩

private theorem glyphs_text {ascender : Rat} {placed : List (Fragment × Vec2 Rat)} {s : Shape} (h : s ∈ shapesOf ascender placed)
    {ids : List Nat} {fs : Rat} {b : Vec2 Rat} {c : RGBA} (he : s = .glyphs ids fs b c) :
    ∃ e ∈ placed, ∃ style rect segment, e.1 = .text style rect segment ∧ segment.glyphs = ids := by
  obtain ⟨e, he', hs⟩ := List.mem_flatMap.1 h
  obtain ⟨f, o⟩ := e
  subst he
  cases f with
  | box info children =>
    simp only [Fragment.shape] at hs
    split at hs
    · cases hs
    · cases hs with | tail _ hs => cases hs
  | anonymous rect children mode => cases hs
  | text style rect segment =>
    simp only [Fragment.shape, List.mem_singleton] at hs
    injection hs with hs
    exact ⟨_, he', style, rect, segment, rfl, hs.symm⟩

private theorem newFonts : FontsOk P (Doc.new : Doc R) := by
  intro key h; cases h

/-- Painting a list of fragments returns, instead of panicking, exactly when all of them are in the writing mode that is implemented and the
font can be embedded, if there is any text. -/
theorem C46_returns (fragments : List Fragment) : (paintDocument P fragments).isSome ↔
    allHorizontal fragments ∧ ∀ placed, Placed ⟨0, 0⟩ fragments placed → HasText placed → P.fontView.Ok := by
  obtain ⟨placed, hp⟩ := Placed.exists fragments ⟨0, 0⟩
  rw [paintDocument]
  rcases paintFragments_outcome P fragments ⟨⟨0, 0⟩, ⟨600, 800⟩⟩ (Doc.new, Page.new P.floats (P.round 600) (P.round 800)) placed (newFonts P) hp
    with ⟨⟨h1, h2⟩, h3, _⟩ | ⟨h1, h2⟩
  · rw [h3]
    simp only [Option.isSome_some, true_iff]
    exact ⟨h1, fun placed' hp' => hp'.unique hp ▸ h2⟩
  · rw [h2]
    simp only [Option.isSome_none, Bool.false_eq_true, false_iff]
    exact fun h => h1 ⟨h.1, h.2 placed hp⟩

/-- The file is determined by what is on the page. -/
theorem paintDocument_shapes {fragments : List Fragment} {placed : List (Fragment × Vec2 Rat)} (hp : Placed ⟨0, 0⟩ fragments placed)
    {doc : Doc R} (h : paintDocument P fragments = some doc) :
    doc = runDoc P.floats (fun _ => P.fontView) [⟨P.round 600, P.round 800, (shapesOf P.ascender placed).flatMap (·.ops P)⟩] := by
  rw [paintDocument] at h
  rcases paintFragments_outcome P fragments ⟨⟨0, 0⟩, ⟨600, 800⟩⟩ (Doc.new, Page.new P.floats (P.round 600) (P.round 800)) placed (newFonts P) hp
    with ⟨⟨h1, h2⟩, h3, _⟩ | ⟨h1, h2⟩
  swap
  · rw [h2] at h; cases h
  rw [h3] at h
  simp only [Option.some.injEq] at h
  rw [← h]
  rfl

/-- C46: whenever painting returns, a reader of the PDF file finds one page, 600 by 800 CSS pixels, on which there are in this order, for
each fragment in tree order, its background in its border box or its glyphs, at the sum of the places of the fragments around it. In
particular a background is below everything in the fragment. -/
theorem C46_page {readReal : List Byte → Option R} (hd : RealText P.floats.dtoa readReal) (hl : FloatLaws P.floats)
    (hv : P.fontView.Valid) {fragments : List Fragment} {placed : List (Fragment × Vec2 Rat)} (hp : Placed ⟨0, 0⟩ fragments placed)
    (hg : ∀ e ∈ placed, ∀ style rect segment, e.1 = .text style rect segment → ∀ g ∈ segment.glyphs, g < 65536)
    {doc : Doc R} (h : paintDocument P fragments = some doc) (hs : (doc.write P.floats).length ≤ 2 ^ 32) :
    ∃ m file page painted, (∀ fuel, m ≤ fuel → readDocument readReal fuel (doc.write P.floats) = some file) ∧ file.pages = [page] ∧
      page.mediaBox = [.int 0, .int 0, .real (P.floats.mul (P.round 600) P.floats.scaleX), .real (P.floats.mul (P.round 800) P.floats.scaleY)] ∧
      (∃ m, ∀ fuel, m ≤ fuel →
        paintContents readReal P.floats.zero P.floats.one (gsAlpha file.extGState) fuel page.contents = some painted) ∧
      AllMatch (fun p shape => Verif.Pdf.Matches P.floats (fun _ name => ∃ id, dictGet file.fonts name = some (.ref id 0) ∧
        IsFont readReal (doc.write P.floats) P.fontView id) p (shape.expected P)) painted (shapesOf P.ascender placed) := by
  rw [paintDocument] at h
  rcases paintFragments_outcome P fragments ⟨⟨0, 0⟩, ⟨600, 800⟩⟩ (Doc.new, Page.new P.floats (P.round 600) (P.round 800)) placed (newFonts P) hp
    with ⟨⟨h1, h2⟩, h3, _⟩ | ⟨h1, h2⟩
  swap
  · rw [h2] at h; cases h
  rw [h3] at h
  let ops := (shapesOf P.ascender placed).flatMap (·.ops P)
  let calls : PageCalls R := ⟨P.round 600, P.round 800, ops⟩
  have hdoc : doc = runDoc P.floats (fun _ => P.fontView) [calls] := by
    simp only [Option.some.injEq] at h
    rw [← h]
    rfl
  have hvalid : Verif.Pdf.Valid (fun _ : Nat => P.fontView) [calls] := by
    refine ⟨fun _ => hv, ?_⟩
    intro c hc op hop
    cases List.mem_singleton.1 hc
    obtain ⟨s, hs, hop⟩ := List.mem_flatMap.1 hop
    cases s with
    | rect corner size color =>
      simp only [Shape.ops, List.mem_cons, List.not_mem_nil, or_false] at hop
      rcases hop with rfl | rfl <;> trivial
    | glyphs ids fs b color =>
      simp only [Shape.ops, List.mem_cons, List.not_mem_nil, or_false] at hop
      rcases hop with rfl | rfl
      · trivial
      · obtain ⟨e, he, style, rect, segment, he', rfl⟩ := glyphs_text hs rfl
        exact hg e he style rect segment he'
  have hexp : Verif.Pdf.expected (fun _ => P.fontView) none ops = (shapesOf P.ascender placed).map (·.expected P) := by
    refine expected_shapes P (fun s hs ids fs b c he => h2 ?_) none
    obtain ⟨e, he, style, rect, segment, he', _⟩ := glyphs_text hs he
    exact ⟨e, he, style, rect, segment, he'⟩
  subst hdoc
  obtain ⟨m1, file1, r1, hm⟩ := C14_pages hd hl _ _ hvalid hs
  obtain ⟨m2, file, r2, hc⟩ := C15_C18_contents hd hl _ _ hvalid hs
  have hf : file1 = file := by
    have a := r1 (max m1 m2) (by omega)
    have b := r2 (max m1 m2) (by omega)
    rw [a] at b
    exact Option.some.inj b
  subst hf
  rcases hpg : file1.pages with _ | ⟨page, _ | ⟨page', pages⟩⟩
  · rw [hpg] at hc; exact hc.elim
  · rw [hpg] at hc hm
    obtain ⟨⟨painted, hpaint, hmatch⟩, _⟩ := hc
    refine ⟨m1, file1, page, painted, r1, hpg, ?_, hpaint, ?_⟩
    · simpa [calls] using hm
    · have hmatch : AllMatch _ painted (Verif.Pdf.expected (fun _ => P.fontView) none ops) := hmatch
      rw [hexp] at hmatch
      exact allMatch_map hmatch
  · rw [hpg] at hc; exact hc.2.elim

end

/-! ### Examples -/

/-- Whole numbers in place of floats. -/
def examplePainter : Painter Int String := ⟨wholeFloats, Rat.floor, 0, sampleFont 0, 7 / 10⟩

/-- A box with a red background, padding and a border, and in it a line with text, in which there is a blue box; then an empty box. -/
def exampleFragments : List Fragment :=
  let red := styleWith (.generatingBox .block .flow) (·.set .backgroundColor (Color.rgba ⟨255, 0, 0, 255⟩))
  let blue := styleWith (.generatingBox .inline .flow) (·.set .backgroundColor (Color.rgba ⟨0, 0, 255, 128⟩))
  [.box ⟨red, ⟨⟨10, 20⟩, ⟨100, 50⟩⟩, ⟨1, 2, 3, 4⟩, ⟨5, 6, 7, 8⟩, ⟨0, 0, 0, 0⟩, .zero⟩
    [.anonymous ⟨⟨30, 40⟩, ⟨100, 20⟩⟩
      [.text red ⟨⟨1, 2⟩, ⟨8, 20⟩⟩ ⟨[1, 2], 8⟩,
        .box ⟨blue, ⟨⟨9, 3⟩, ⟨50, 60⟩⟩, ⟨0, 0, 0, 0⟩, ⟨0, 0, 0, 0⟩, ⟨0, 0, 0, 0⟩, .zero⟩ [.text blue ⟨⟨1, 1⟩, ⟨8, 20⟩⟩ ⟨[2], 8⟩]]
      (.horizontalTb, .ltr)],
    .box ⟨blockStyle, ⟨⟨10, 100⟩, ⟨100, 50⟩⟩, ⟨0, 0, 0, 0⟩, ⟨0, 0, 0, 0⟩, ⟨0, 0, 0, 0⟩, .zero⟩ []]

/-- `exampleFragments` meet the hypotheses of the theorems above; the boxes and the glyphs are where they should be, and in front of what
they should be in front of. -/
example : ∃ placed doc, Placed ⟨0, 0⟩ exampleFragments placed ∧ HasText placed ∧ paintDocument examplePainter exampleFragments = some doc ∧
    (doc.write wholeFloats).length ≤ 2 ^ 32 ∧ examplePainter.fontView.Valid ∧
    (∀ e ∈ placed, ∀ style rect segment, e.1 = .text style rect segment → ∀ g ∈ segment.glyphs, g < 65536) ∧
    shapesOf (7 / 10) placed =
      [.rect ⟨4, 10⟩ ⟨114, 72⟩ ⟨255, 0, 0, 255⟩, .glyphs [1, 2] 16 ⟨41, 62 + 7 / 10 * 16⟩ ⟨0, 0, 0, 255⟩,
        .rect ⟨49, 63⟩ ⟨50, 60⟩ ⟨0, 0, 255, 128⟩, .glyphs [2] 16 ⟨50, 64 + 7 / 10 * 16⟩ ⟨0, 0, 0, 255⟩] := by
  have hd : ((paintDocument examplePainter exampleFragments).map fun doc => decide ((doc.write wholeFloats).length ≤ 2 ^ 32)) = some true := by
    decide +kernel
  rcases hdoc : paintDocument examplePainter exampleFragments with _ | doc
  · rw [hdoc] at hd; cases hd
  · rw [hdoc] at hd
    have hp : Placed ⟨0, 0⟩ exampleFragments _ :=
      .cons (.cons (.cons .nil (.cons (.cons .nil .nil) .nil)) .nil) (.cons .nil .nil)
    refine ⟨_, doc, hp, ⟨_, .tail _ (.tail _ (.head _)), _, _, _, rfl⟩, rfl, of_decide_eq_true (Option.some.inj hd), sample_valid.fonts 0, ?_, ?_⟩
    · intro e he style rect segment hs g hg
      simp only [List.cons_append, List.nil_append, List.append_nil, List.mem_cons, List.not_mem_nil, or_false] at he
      rcases he with rfl | rfl | rfl | rfl | rfl | rfl <;> cases hs <;> simp at hg <;> omega
    · decide +kernel

end Verif.Layout
