/- Lines of text from top to bottom: lemmas for C88. -/
import Verif.Layout.ReadSpec
import Verif.Layout.RowTheorems
import Verif.Layout.GroundLemmas
namespace Verif.Layout
open Verif.Style Verif.Text
variable {Err : Type} {F : FontApi Rat Err}

/-! ### The texts in fragments -/

mutual
/-- The texts in a fragment; `origin` is the point from which its place is counted. -/
def Fragment.pageTexts (origin : Vec2 Rat) : Fragment → List PageText
  | .box info children => pageTextsOf (origin.add info.contentRect.startCorner) children
  | .anonymous rect children _ => pageTextsOf (origin.add rect.startCorner) children
  | .text style rect segment =>
    [⟨style, segment.glyphs, origin.inline + rect.startCorner.inline, origin.block + rect.startCorner.block, rect.size.inline, rect.size.block⟩]
/-- See `Fragment.pageTexts`. -/
def pageTextsOf (origin : Vec2 Rat) : List Fragment → List PageText
  | [] => []
  | f :: fs => f.pageTexts origin ++ pageTextsOf origin fs
end

theorem Placed.pageTexts {origin : Vec2 Rat} {fs : List Fragment} {placed : List (Fragment × Vec2 Rat)} (h : Placed origin fs placed) :
    placed.flatMap placedText = pageTextsOf origin fs := by
  induction h with
  | nil => rfl
  | @cons origin f fs below rest h1 h2 ih1 ih2 =>
    rw [List.cons_append, List.flatMap_cons, List.flatMap_append, ih1, ih2, pageTextsOf, ← List.append_assoc]
    congr 1
    cases f with
    | box info children => rfl
    | anonymous rect children mode => rfl
    | text style rect segment => simp [placedText, Fragment.pageTexts, Fragment.children, pageTextsOf]

theorem pageTextsOf_append (origin : Vec2 Rat) (fs gs : List Fragment) :
    pageTextsOf origin (fs ++ gs) = pageTextsOf origin fs ++ pageTextsOf origin gs := by
  induction fs with
  | nil => rfl
  | cons f fs ih => simp [pageTextsOf, ih]

/-- The text at another place. -/
def PageText.move (v : Vec2 Rat) (t : PageText) : PageText := { t with left := v.inline + t.left, top := v.block + t.top }

theorem Vec2.add_assoc' (a b c : Vec2 Rat) : (a.add b).add c = a.add (b.add c) := by
  simp only [Vec2.add, Vec2.mk.injEq]
  constructor <;> ring

mutual
theorem Fragment.pageTexts_move (v origin : Vec2 Rat) : ∀ f : Fragment, f.pageTexts (v.add origin) = (f.pageTexts origin).map (PageText.move v)
  | .box info children => by
    rw [Fragment.pageTexts, Fragment.pageTexts, Vec2.add_assoc', pageTextsOf_move]
  | .anonymous rect children _ => by
    rw [Fragment.pageTexts, Fragment.pageTexts, Vec2.add_assoc', pageTextsOf_move]
  | .text style rect segment => by
    simp only [Fragment.pageTexts, List.map_cons, List.map_nil, PageText.move, Vec2.add, List.cons.injEq, and_true, PageText.mk.injEq, true_and]
    constructor <;> ring
theorem pageTextsOf_move (v origin : Vec2 Rat) : ∀ fs : List Fragment, pageTextsOf (v.add origin) fs = (pageTextsOf origin fs).map (PageText.move v)
  | [] => rfl
  | f :: fs => by rw [pageTextsOf, pageTextsOf, List.map_append, Fragment.pageTexts_move v origin f, pageTextsOf_move v origin fs]
end

theorem Vec2.add_zero' (v : Vec2 Rat) : v.add ⟨0, 0⟩ = v := by simp [Vec2.add]

theorem pageTextsOf_at (v : Vec2 Rat) (fs : List Fragment) : pageTextsOf v fs = (pageTextsOf ⟨0, 0⟩ fs).map (PageText.move v) := by
  rw [← pageTextsOf_move, Vec2.add_zero']

/-- The same without what is vertical. -/
def PageText.flat (t : PageText) : PlacedText := ⟨t.style, t.glyphs, t.left, t.width, t.height⟩

mutual
theorem Fragment.pageTexts_flat (origin : Vec2 Rat) : ∀ f : Fragment, (f.pageTexts origin).map PageText.flat = f.texts origin.inline
  | .box info children => by rw [Fragment.pageTexts, pageTextsOf_flat, Fragment.texts, Vec2.add]
  | .anonymous rect children _ => by rw [Fragment.pageTexts, pageTextsOf_flat, Fragment.texts, Vec2.add]
  | .text style rect segment => rfl
theorem pageTextsOf_flat (origin : Vec2 Rat) : ∀ fs : List Fragment, (pageTextsOf origin fs).map PageText.flat = textsOf origin.inline fs
  | [] => rfl
  | f :: fs => by rw [pageTextsOf, List.map_append, Fragment.pageTexts_flat origin f, pageTextsOf_flat origin fs, textsOf]
end

/-! ### Lines between two heights -/

/-- What is in the fragments reads in lines, between two heights. -/
def Lined (F : FontApi Rat Err) (origin : Vec2 Rat) (fs : List Fragment) (top bottom : Rat) : Prop :=
  ∃ lines, TopDown lines ∧ (∀ l ∈ lines, l.Reads F ∧ top ≤ l.top ∧ l.bottom ≤ bottom) ∧
    lines.flatMap PageLine.texts = pageTextsOf origin fs

theorem Lined.empty {origin : Vec2 Rat} {fs : List Fragment} {top bottom : Rat} (h : pageTextsOf origin fs = []) :
    Lined F origin fs top bottom := ⟨[], .nil, by simp, by simp [h]⟩

theorem Lined.append {origin : Vec2 Rat} {fs gs : List Fragment} {a b c d : Rat} (h : Lined F origin fs a b) (h' : Lined F origin gs c d)
    (hac : a ≤ c) (hbc : b ≤ c) (hbd : b ≤ d) : Lined F origin (fs ++ gs) a d := by
  obtain ⟨l, h1, h2, h3⟩ := h
  obtain ⟨l', h1', h2', h3'⟩ := h'
  refine ⟨l ++ l', List.pairwise_append.2 ⟨h1, h1', fun x hx y hy => ?_⟩, fun x hx => ?_, ?_⟩
  · exact ((h2 x hx).2.2.trans hbc).trans (h2' y hy).2.1
  · rcases List.mem_append.1 hx with hx | hx
    · exact ⟨(h2 x hx).1, (h2 x hx).2.1, (h2 x hx).2.2.trans hbd⟩
    · exact ⟨(h2' x hx).1, hac.trans (h2' x hx).2.1, (h2' x hx).2.2⟩
  · rw [List.flatMap_append, h3, h3', pageTextsOf_append]

theorem Lined.weaken {origin : Vec2 Rat} {fs : List Fragment} {a b c d : Rat} (h : Lined F origin fs a b) (h1 : c ≤ a) (h2 : b ≤ d) :
    Lined F origin fs c d := by
  obtain ⟨l, g1, g2, g3⟩ := h
  exact ⟨l, g1, fun x hx => ⟨(g2 x hx).1, h1.trans (g2 x hx).2.1, (g2 x hx).2.2.trans h2⟩, g3⟩

/-! ### Used values -/

theorem NotNegative.used {l : LengthOrPercentage} (h : NotNegative l) (w : Rat) : 0 ≤ Css.used w l := by
  cases l with
  | length l => exact h
  | percentage p => cases h; simp [Css.used]

theorem AutoOrNotNegative.used {l : LengthOrPercentageOrAuto} (h : AutoOrNotNegative l) (w : Rat) : 0 ≤ Css.usedOrZero w l := by
  cases l with
  | length l => exact h
  | percentage p => cases h; simp [Css.usedOrZero]
  | auto => simp [Css.usedOrZero]

theorem Upright.notRelative {s : ComputedValues} (h : Upright s) : positionOf s ≠ .relative := by rw [h.position]; simp

theorem IsShaped.nonneg (hF : Forward F) {text glyphs : List Nat} {width : Rat} (h : IsShaped F text glyphs width) : 0 ≤ width := by
  induction h with
  | nil => rw [hF.zero]
  | snoc _ _ hw ih => rw [hF.add]; linarith [hF.width _ _ hw]

/-! ### The heights of text on a line -/

/-- The texts in the fragments are between the top of the line or of the inline box and `height`. -/
def Between (height : Rat) (fs : List Fragment) : Prop := ∀ t ∈ pageTextsOf ⟨0, 0⟩ fs, 0 ≤ t.top ∧ t.top + t.height ≤ height

/-- All the styles of inline boxes are upright. -/
abbrev UprightInlines (boxes : List InlineLevelBox) : Prop := inlineAll Upright boxes

structure LevelBand (level : NestingLevel) : Prop where
  upright : UprightInlines level.remainingBoxes
  nonneg : 0 ≤ level.maxBlockSize
  between : Between level.maxBlockSize level.fragmentsSoFar

/-- The edges of an inline box. -/
structure EdgesOk (p : PartialInlineBox) : Prop where
  start : p.startCorner.block = p.padding.blockStart + p.border.blockStart + p.margin.blockStart
  above : 0 ≤ p.padding.blockStart + p.border.blockStart + p.margin.blockStart
  below : 0 ≤ p.padding.blockEnd + p.border.blockEnd + p.margin.blockEnd

def LevelsBand : List PartialInlineBox → NestingLevel → Prop
  | [], level => LevelBand level
  | p :: stack, level => LevelBand level ∧ EdgesOk p ∧ LevelsBand stack p.parentNestingLevel

/-- A line with all its texts on it. -/
def BandLine (line : Fragment) : Prop :=
  ∃ rect children mode, line = .anonymous rect children mode ∧ 0 ≤ rect.size.block ∧ Between rect.size.block children

theorem LevelsBand.current {stack : List PartialInlineBox} {level : NestingLevel} (h : LevelsBand stack level) : LevelBand level := by
  cases stack with
  | nil => exact h
  | cons p stack => exact h.1

theorem LevelsBand.modify {stack : List PartialInlineBox} {l l' : NestingLevel} (h : LevelsBand stack l) (hl : LevelBand l') :
    LevelsBand stack l' := by
  cases stack with
  | nil => exact hl
  | cons p stack => exact ⟨hl, h.2⟩

theorem Between.mono {a b : Rat} {fs : List Fragment} (h : Between a fs) (hab : a ≤ b) : Between b fs :=
  fun t ht => ⟨(h t ht).1, (h t ht).2.trans hab⟩

theorem Between.snoc {a : Rat} {fs : List Fragment} {f : Fragment} (h : Between a fs)
    (hf : ∀ t ∈ f.pageTexts ⟨0, 0⟩, 0 ≤ t.top ∧ t.top + t.height ≤ a) : Between a (fs ++ [f]) := by
  intro t ht
  rw [pageTextsOf_append, List.mem_append] at ht
  rcases ht with ht | ht
  · exact h t ht
  · exact hf t (by simpa [pageTextsOf] using ht)

theorem finish_band {p : PartialInlineBox} {level : NestingLevel} {position : Rat} {atLineBreak : Bool}
    (hl : 0 ≤ level.maxBlockSize ∧ Between level.maxBlockSize level.fragmentsSoFar) (he : EdgesOk p) (hp : LevelBand p.parentNestingLevel) :
    LevelBand (p.finish level position atLineBreak).1.parentNestingLevel := by
  have hmax : (p.finish level position atLineBreak).1.parentNestingLevel.maxBlockSize =
      max p.parentNestingLevel.maxBlockSize (level.maxBlockSize + p.padding.blockSum + p.border.blockSum + p.margin.blockSum) := by
    cases hlast : p.lastBoxTreeFragment <;> cases atLineBreak <;> simp [PartialInlineBox.finish, hlast, Sides.withoutInlineEnd, Sides.blockSum]
  refine ⟨hp.upright, ?_, ?_⟩
  · rw [hmax]; exact le_max_of_le_left hp.nonneg
  · rw [hmax]
    show Between _ (p.parentNestingLevel.fragmentsSoFar ++ [_])
    refine Between.snoc (hp.between.mono (le_max_left _ _)) ?_
    intro t ht
    rw [Fragment.pageTexts] at ht
    have e : (⟨0, 0⟩ : Vec2 Rat).add p.startCorner = p.startCorner := by simp [Vec2.add]
    rw [e, pageTextsOf_at, List.mem_map] at ht
    obtain ⟨u, hu, rfl⟩ := ht
    obtain ⟨h1, h2⟩ := hl.2 u hu
    have h3 := he.above
    have h4 := he.below
    simp only [PageText.move, he.start, Sides.blockSum]
    refine ⟨by linarith, le_max_of_le_right (by linarith)⟩

theorem finishLine_band {cb : ContainingBlock} {lines : LinesBoxes} {level : NestingLevel} (hl : ∀ f ∈ lines.boxes, BandLine f)
    (h : LevelBand level) : ∀ f ∈ (finishLine lines level cb).1.boxes, BandLine f := by
  intro f hf
  simp only [finishLine, List.mem_append, List.mem_singleton] at hf
  rcases hf with hf | rfl
  · exact hl f hf
  · exact ⟨_, _, _, rfl, h.nonneg, h.between⟩

theorem breakLine_band {cb : ContainingBlock} : ∀ (stack : List PartialInlineBox) (level : NestingLevel) (position : Rat) (lines : LinesBoxes),
    (∀ f ∈ lines.boxes, BandLine f) → LevelsBand stack level →
    (∀ f ∈ (breakLine cb stack level position lines).2.2.boxes, BandLine f) ∧
      LevelsBand (breakLine cb stack level position lines).1 (breakLine cb stack level position lines).2.1 := by
  intro stack
  induction stack with
  | nil =>
    intro level position lines hl h
    exact ⟨finishLine_band (level := { level with inlineStart := 0 }) hl ⟨h.upright, h.nonneg, h.between⟩, h.upright, le_refl _, by
      simp [breakLine, finishLine, Between, pageTextsOf]⟩
  | cons p stack ih =>
    intro level position lines hl h
    obtain ⟨h1, h2, h3⟩ := h
    have hfin := finish_band (p := p) (level := { level with inlineStart := 0 }) (position := position) (atLineBreak := true)
      ⟨h1.nonneg, h1.between⟩ h2 h3.current
    obtain ⟨i1, i2⟩ := ih _ (p.finish { level with inlineStart := 0 } position true).2.2 lines hl (h3.modify hfin)
    refine ⟨i1, ⟨h1.upright, h1.nonneg, ?_⟩, ⟨h2.start, h2.above, h2.below⟩, i2⟩
    simp [breakLine, PartialInlineBox.finish, Between, pageTextsOf]

def BandState (ifc : InlineState) : Prop := (∀ f ∈ ifc.lineBoxes.boxes, BandLine f) ∧ LevelsBand ifc.stack ifc.current

theorem band_invariant (cb : ContainingBlock) : Invariant cb BandState (fun lines => ∀ f ∈ lines, BandLine f) where
  start := by
    intro ifc style first last children remaining h hr
    have h0 := h.2.current
    have hs := h0.upright
    rw [hr] at hs
    simp only [UprightInlines, inlineAll, InlineLevelBox.All] at hs
    obtain ⟨⟨hstyle, hchildren⟩, hremaining⟩ := hs
    have hp := h.2.modify (l' := { ifc.current with remainingBoxes := remaining }) ⟨hremaining, h0.nonneg, h0.between⟩
    refine ⟨h.1, ⟨hchildren, le_refl _, by simp [startInlineBox, Between, pageTextsOf]⟩, ⟨?_, ?_, ?_⟩, hp⟩
    · simp only [relativeAdjustement_static hstyle.notRelative, Vec2.add, Vec2.zero, InlineState.rest]
      ring
    · have h1 := hstyle.paddingTop.used cb.inlineSize
      have h2 := hstyle.borderTop.used cb.inlineSize
      have h3 := hstyle.marginTop.used cb.inlineSize
      have e1 : ((padding style).percentagesRelativeTo cb.inlineSize).blockStart = Css.paddingTop cb style := by
        simp only [Sides.percentagesRelativeTo, Sides.map, percentageRelativeTo_eq]; rfl
      have e2 : ((borderWidth style).percentagesRelativeTo cb.inlineSize).blockStart = Css.borderTop cb style := by
        simp only [Sides.percentagesRelativeTo, Sides.map, percentageRelativeTo_eq]; rfl
      have e3 : (((margin style).autoPercentagesRelativeTo cb.inlineSize).autoIs 0).blockStart = Css.marginTop cb style := by
        simp only [Sides.autoIs, Sides.autoPercentagesRelativeTo, Sides.map, autoPercentage_autoIs]; rfl
      have : 0 ≤ Css.paddingTop cb style + Css.borderTop cb style + Css.marginTop cb style := add_nonneg (add_nonneg h1 h2) h3
      rw [← e1, ← e2, ← e3] at this
      cases first <;> simpa [Sides.withoutInlineStart] using this
    · have h1 := hstyle.paddingBottom.used cb.inlineSize
      have h2 := hstyle.borderBottom.used cb.inlineSize
      have h3 := hstyle.marginBottom.used cb.inlineSize
      have e1 : ((padding style).percentagesRelativeTo cb.inlineSize).blockEnd = Css.paddingBottom cb style := by
        simp only [Sides.percentagesRelativeTo, Sides.map, percentageRelativeTo_eq]; rfl
      have e2 : ((borderWidth style).percentagesRelativeTo cb.inlineSize).blockEnd = Css.borderBottom cb style := by
        simp only [Sides.percentagesRelativeTo, Sides.map, percentageRelativeTo_eq]; rfl
      have e3 : (((margin style).autoPercentagesRelativeTo cb.inlineSize).autoIs 0).blockEnd = Css.marginBottom cb style := by
        simp only [Sides.autoIs, Sides.autoPercentagesRelativeTo, Sides.map, autoPercentage_autoIs]; rfl
      have : 0 ≤ Css.paddingBottom cb style + Css.borderBottom cb style + Css.marginBottom cb style := add_nonneg (add_nonneg h1 h2) h3
      rw [← e1, ← e2, ← e3] at this
      cases first <;> simpa [Sides.withoutInlineStart] using this
  skip := by
    intro ifc b remaining h hr
    have h0 := h.2.current
    have hs := h0.upright
    rw [hr] at hs
    exact ⟨h.1, h.2.modify ⟨hs.2, h0.nonneg, h0.between⟩⟩
  text := by
    intro ifc style shaped h
    have h0 := h.2.current
    refine ⟨h.1, h.2.modify ⟨h0.upright, le_max_of_le_left h0.nonneg, ?_⟩⟩
    refine Between.snoc (h0.between.mono (le_max_left _ _)) ?_
    intro t ht
    simp only [Fragment.pageTexts, List.mem_singleton] at ht
    subst ht
    refine ⟨by simp, ?_⟩
    simp [pushText]
  line := by
    intro ifc h
    exact breakLine_band (cb := cb) ifc.stack ifc.current ifc.inlinePosition ifc.lineBoxes h.1 h.2
  close := by
    intro ifc p stack h hr hst
    have h2 := h.2
    rw [hst] at h2
    obtain ⟨h3, h4, h5⟩ := h2
    exact ⟨h.1, h5.modify (finish_band ⟨h3.nonneg, h3.between⟩ h4 h5.current)⟩
  «end» := by
    intro ifc h hr hst
    have h2 := h.2
    rw [hst] at h2
    exact finishLine_band h.1 h2

theorem initial_band {boxes : List InlineLevelBox} (h : UprightInlines boxes) : BandState (initialInlineState boxes) :=
  ⟨by simp [initialInlineState], h, le_refl _, by simp [initialInlineState, Between, pageTextsOf]⟩

/-! ### The row of texts on a line, and the stack of lines -/

/-- The lines are stacked. -/
def StackedLines : Rat → List Line → Rat → Prop
  | x, [], y => x = y
  | x, l :: ls, y => l.top = x ∧ StackedLines (x + l.height) ls y

theorem StackedLines.snoc {l : Line} : ∀ {ls : List Line} {x y : Rat}, StackedLines x ls y → l.top = y → StackedLines x (ls ++ [l]) (y + l.height) := by
  intro ls
  induction ls with
  | nil => intro x y h hl; cases h; exact ⟨hl, rfl⟩
  | cons l' ls ih => intro x y h hl; exact ⟨h.1, ih h.2 hl⟩

/-- See `PageText.SetIn`. -/
def PlacedText.SetIn (F : FontApi Rat Err) (t : PlacedText) : Prop :=
  ∃ text width, IsShaped F text t.glyphs width ∧ t.width = fontSizeOf t.style * width ∧ t.height = fontSizeOf t.style * (12 / 10)

/-- The texts follow each other. -/
abbrev InTurn (texts : List PlacedText) : Prop := texts.Pairwise fun a b => a.x + a.width ≤ b.x

structure Turned (F : FontApi Rat Err) (s : FlatState) : Prop where
  set : ∀ l ∈ s.lines, ∀ t ∈ l.texts, t.SetIn F
  setCurrent : ∀ t ∈ s.current, t.SetIn F
  lines : ∀ l ∈ s.lines, InTurn l.texts
  current : InTurn s.current
  before : ∀ t ∈ s.current, t.x + t.width ≤ s.position
  stacked : StackedLines 0 s.lines s.top

theorem Turned.push {s : FlatState} (h : Turned F s) {style : ComputedValues} {glyphs : List Nat} {width : Rat} (hF : Forward F) {text : List Nat}
    (hsh : IsShaped F text glyphs width) (hs : 0 ≤ fontSizeOf style) : Turned F (s.push style glyphs width) := by
  have hpos : 0 ≤ fontSizeOf style * width := mul_nonneg hs (IsShaped.nonneg hF hsh)
  refine ⟨h.set, ?_, h.lines, ?_, ?_, h.stacked⟩
  · intro t ht
    simp only [FlatState.push, List.mem_append, List.mem_singleton] at ht
    rcases ht with ht | rfl
    · exact h.setCurrent t ht
    · exact ⟨text, width, hsh, rfl, rfl⟩
  · refine List.pairwise_append.2 ⟨h.current, List.pairwise_singleton _ _, fun a ha b hb => ?_⟩
    rw [List.mem_singleton] at hb
    subst hb
    exact h.before a ha
  · intro t ht
    simp only [FlatState.push, List.mem_append, List.mem_singleton] at ht ⊢
    rcases ht with ht | rfl
    · linarith [h.before t ht]
    · exact le_refl _

theorem Turned.newLine {s : FlatState} (h : Turned F s) (height : Rat) : Turned F (s.newLine height) := by
  refine ⟨?_, by simp [FlatState.newLine], ?_, .nil, by simp [FlatState.newLine], h.stacked.snoc rfl⟩
  · intro l hl
    simp only [FlatState.newLine, List.mem_append, List.mem_singleton] at hl
    rcases hl with hl | rfl
    · exact h.set l hl
    · exact h.setCurrent
  intro l hl
  simp only [FlatState.newLine, List.mem_append, List.mem_singleton] at hl
  rcases hl with hl | rfl
  · exact h.lines l hl
  · exact h.current

theorem Turned.advance {s : FlatState} (h : Turned F s) {d : Rat} (hd : 0 ≤ d) : Turned F (s.advance d) :=
  ⟨h.set, h.setCurrent, h.lines, h.current, fun t ht => by have := h.before t ht; simp only [FlatState.advance]; linarith, h.stacked⟩

theorem TextLaid.turned (hF : Forward F) {tall : Prop} {style : ComputedValues} (hs : 0 ≤ fontSizeOf style) {lines : List (List Nat)}
    {s s' : FlatState} (h : TextLaid F tall style lines s s') : Turned F s → Turned F s' := by
  induction h with
  | last hsh => exact fun h => h.push hF hsh hs
  | line hsh _ _ _ ih => exact fun h => ih ((h.push hF hsh hs).newLine _)

mutual
/-- The styles of all boxes have the property `P`, and those of all texts `T`. -/
def BlockContainer.Every (P T : ComputedValues → Prop) : BlockContainer → Prop
  | .blockLevelBoxes boxes => blocksEvery P T boxes
  | .inlineFormattingContext boxes => inlinesEvery P T boxes
/-- See `BlockContainer.Every`. -/
def BlockLevelBox.Every (P T : ComputedValues → Prop) : BlockLevelBox → Prop
  | .sameFormattingContextBlock style contents => P style ∧ contents.Every P T
  | .outOfFlowAbsolutelyPositioned style _ contents => P style ∧ contents.Every P T
  | .outOfFlowFloat style _ contents => P style ∧ contents.Every P T
  | .independent style _ contents => P style ∧ contents.Every P T
/-- See `BlockContainer.Every`. -/
def blocksEvery (P T : ComputedValues → Prop) : List BlockLevelBox → Prop
  | [] => True
  | b :: bs => b.Every P T ∧ blocksEvery P T bs
/-- See `BlockContainer.Every`. -/
def InlineLevelBox.Every (P T : ComputedValues → Prop) : InlineLevelBox → Prop
  | .inlineBox style _ _ children => P style ∧ inlinesEvery P T children
  | .textRun style _ => T style
  | .outOfFlowAbsolutelyPositioned style _ contents => P style ∧ contents.Every P T
  | .outOfFlowFloat style _ contents => P style ∧ contents.Every P T
/-- See `BlockContainer.Every`. -/
def inlinesEvery (P T : ComputedValues → Prop) : List InlineLevelBox → Prop
  | [] => True
  | b :: bs => b.Every P T ∧ inlinesEvery P T bs
end

/-- The font size is not negative. -/
abbrev SizeOk (s : ComputedValues) : Prop := 0 ≤ fontSizeOf s

mutual
theorem InlineLevelBox.Every.all {P T : ComputedValues → Prop} : ∀ b : InlineLevelBox, b.Every P T → b.All P
  | .inlineBox _ _ _ children, h => ⟨h.1, inlinesEvery.all children h.2⟩
  | .textRun _ _, _ => trivial
  | .outOfFlowAbsolutelyPositioned _ _ _, _ => trivial
  | .outOfFlowFloat _ _ _, _ => trivial
theorem inlinesEvery.all {P T : ComputedValues → Prop} : ∀ bs : List InlineLevelBox, inlinesEvery P T bs → inlineAll P bs
  | [], _ => trivial
  | b :: bs, h => ⟨InlineLevelBox.Every.all b h.1, inlinesEvery.all bs h.2⟩
end

mutual
theorem InlineLevelBox.All.imp {P Q : ComputedValues → Prop} (hPQ : ∀ s, P s → Q s) : ∀ b : InlineLevelBox, b.All P → b.All Q
  | .inlineBox _ _ _ children, h => ⟨hPQ _ h.1, inlineAll.imp hPQ children h.2⟩
  | .textRun _ _, _ => trivial
  | .outOfFlowAbsolutelyPositioned _ _ _, _ => trivial
  | .outOfFlowFloat _ _ _, _ => trivial
theorem inlineAll.imp {P Q : ComputedValues → Prop} (hPQ : ∀ s, P s → Q s) : ∀ bs : List InlineLevelBox, inlineAll P bs → inlineAll Q bs
  | [], _ => trivial
  | b :: bs, h => ⟨InlineLevelBox.All.imp hPQ b h.1, inlineAll.imp hPQ bs h.2⟩
end

theorem Laid.turned (hF : Forward F) {tall : Prop} {cb : ContainingBlock} {boxes : List InlineLevelBox} {s s' : FlatState}
    (h : Laid F tall cb boxes s s') : inlinesEvery Upright SizeOk boxes → Turned F s → Turned F s' := by
  induction h with
  | nil => exact fun _ h => h
  | text _ ht _ ih => exact fun he h => ih he.2 (ht.turned hF he.1 h)
  | @box style first last children rest s s' s'' _ _ ih1 ih2 =>
    intro he h
    obtain ⟨⟨hu, hc⟩, hr⟩ := he
    have h1 : 0 ≤ Css.leftEdge cb style :=
      add_nonneg (add_nonneg (hu.paddingLeft.used _) (hu.borderLeft.used _)) (hu.marginLeft.used _)
    have h2 : 0 ≤ Css.rightEdge cb style :=
      add_nonneg (add_nonneg (hu.paddingRight.used _) (hu.borderRight.used _)) (hu.marginRight.used _)
    refine ih2 hr ?_
    have h3 := ih1 hc (by split; exacts [h.advance h1, h])
    split
    exacts [h3.advance h2, h3]
  | float _ ih => exact fun he h => ih he.2 h
  | absolute _ _ ih => exact fun he h => ih he.2 ⟨h.set, h.setCurrent, h.lines, h.current, h.before, h.stacked⟩

/-! ### An inline formatting context -/

theorem lined_lines {cb : ContainingBlock} {origin : Vec2 Rat} : ∀ {lines : List Line} {fs : List Fragment} {x y : Rat},
    List.Forall₂ (IsLine cb) lines fs → (∀ f ∈ fs, BandLine f) → (∀ l ∈ lines, ∀ t ∈ l.texts, t.SetIn F) → (∀ l ∈ lines, InTurn l.texts) → StackedLines x lines y →
    x ≤ y ∧ Lined F origin fs (origin.block + x) (origin.block + y) := by
  intro lines
  induction lines with
  | nil =>
    intro fs x y h _ _ _ hs
    cases h
    cases hs
    exact ⟨le_refl _, .empty rfl⟩
  | cons l ls ih =>
    intro fs x y h hb hset ht hs
    cases h with
    | @cons _ f _ fs hf hfs =>
      obtain ⟨rfl, hs⟩ := hs
      obtain ⟨h1, h2⟩ := ih hfs (fun f hf => hb f (by simp [hf])) (fun l hl => hset l (by simp [hl])) (fun l hl => ht l (by simp [hl])) hs
      obtain ⟨children, rfl, htexts⟩ := hf
      obtain ⟨rect, children', mode, he, h0, hbet⟩ := hb _ List.mem_cons_self
      cases he
      simp only at h0 hbet
      have h3 : Lined F origin [.anonymous ⟨⟨0, l.top⟩, ⟨cb.inlineSize, l.height⟩⟩ children cb.mode] (origin.block + l.top)
          (origin.block + l.top + l.height) := by
        refine ⟨[⟨origin.block + l.top, origin.block + l.top + l.height,
          pageTextsOf (origin.add ⟨0, l.top⟩) children⟩], List.pairwise_singleton _ _, ?_, by
            simp [pageTextsOf, Fragment.pageTexts]⟩
        intro m hm
        rw [List.mem_singleton] at hm
        subst hm
        refine ⟨⟨?_, by simpa using h0, ?_, ?_⟩, le_refl _, le_refl _⟩
        · intro t ht
          simp only at ht
          rw [pageTextsOf_at, List.mem_map] at ht
          obtain ⟨u, hu, rfl⟩ := ht
          have hu' : u.flat ∈ l.texts := by
            rw [← htexts, ← pageTextsOf_flat ⟨0, 0⟩ children]
            exact List.mem_map_of_mem hu
          obtain ⟨text, width, g1, g2, g3⟩ := hset l (by simp) _ hu'
          exact ⟨text, width, g1, g2, g3⟩
        · intro t ht
          simp only at ht ⊢
          rw [pageTextsOf_at, List.mem_map] at ht
          obtain ⟨u, hu, rfl⟩ := ht
          obtain ⟨g1, g2⟩ := hbet u hu
          simp only [PageText.move, Vec2.add]
          constructor <;> linarith
        · show (pageTextsOf (origin.add ⟨0, l.top⟩) children).Pairwise _
          rw [pageTextsOf_at, List.pairwise_map]
          have hturn := ht l (by simp)
          rw [← htexts, InTurn] at hturn
          have e : textsOf 0 children = (pageTextsOf ⟨0, 0⟩ children).map PageText.flat := (pageTextsOf_flat ⟨0, 0⟩ children).symm
          rw [e, List.pairwise_map] at hturn
          refine hturn.imp ?_
          intro a b hab
          simp only [PageText.move, PageText.flat] at hab ⊢
          linarith
      refine ⟨by linarith, ?_⟩
      exact (h3.append (h2.weaken (c := origin.block + l.top + l.height) (by linarith) (le_refl _)) (by linarith) (le_refl _) (by linarith))

theorem layoutInline_lined (hF : Forward F) {boxes : List InlineLevelBox} {cb : ContainingBlock} {rank : Nat} {fc : FlowChildren}
    {as : List AbsolutelyPositionedFragment} (he : inlinesEvery Upright SizeOk boxes) (h : layoutInline F boxes cb rank [] = some (fc, as))
    (origin : Vec2 Rat) : 0 ≤ fc.blockSize ∧ Lined F origin fc.fragments origin.block (origin.block + fc.blockSize) := by
  have hall := inlinesEvery.all boxes he
  obtain ⟨s, height, h1, -, h3, h4, -⟩ := C60_flow_partial F boxes cb rank fc as (inlineAll.imp (fun _ h => h.notRelative) boxes hall) h
  have hb := (band_invariant cb).layout (initial_band hall) h
  have ht : Turned F FlatState.empty := ⟨by simp [FlatState.empty], by simp [FlatState.empty], by simp [FlatState.empty], .nil, by simp [FlatState.empty], rfl⟩
  have ht := (h1.turned hF he ht).newLine height
  have := lined_lines (origin := origin) h3 hb ht.set ht.lines ht.stacked
  rw [add_zero] at this
  rw [h4]
  exact this

/-! ### Margins -/

/-- A margin that is not negative. -/
structure CollapsedMargin.NonNeg (m : CollapsedMargin) : Prop where
  pos : 0 ≤ m.maxPositive
  neg : m.minNegative = 0

theorem CollapsedMargin.NonNeg.zero : CollapsedMargin.zero.NonNeg := ⟨le_refl _, rfl⟩

theorem CollapsedMargin.NonNeg.new {m : Rat} (h : 0 ≤ m) : (CollapsedMargin.new m).NonNeg := ⟨le_max_right _ _, min_eq_right h⟩

theorem CollapsedMargin.NonNeg.adjoin {a b : CollapsedMargin} (ha : a.NonNeg) (hb : b.NonNeg) : (a.adjoin b).NonNeg :=
  ⟨le_max_of_le_left ha.pos, by simp [CollapsedMargin.adjoin, ha.neg, hb.neg]⟩

theorem CollapsedMargin.NonNeg.solve {a : CollapsedMargin} (h : a.NonNeg) : 0 ≤ a.solve := by
  rw [CollapsedMargin.solve, h.neg, add_zero]; exact h.pos

/-! ### Block-level boxes -/

/-- Fragments without texts. -/
abbrev Textless (fs : List Fragment) : Prop := pageTextsOf ⟨0, 0⟩ fs = []

theorem Textless.at {fs : List Fragment} (h : Textless fs) (origin : Vec2 Rat) : pageTextsOf origin fs = [] := by
  rw [pageTextsOf_at, h]; rfl

/-- What the layout of a box gives, before it is placed. -/
def Standing (F : FontApi Rat Err) : Fragment → Prop
  | .box info children =>
    info.contentRect.startCorner.block = info.padding.blockStart + info.border.blockStart ∧
    0 ≤ info.padding.blockStart + info.border.blockStart ∧ 0 ≤ info.padding.blockEnd + info.border.blockEnd ∧
    0 ≤ info.contentRect.size.block ∧
    info.blockMarginsCollapsedWithChildren.start.NonNeg ∧ info.blockMarginsCollapsedWithChildren.end.NonNeg ∧
    (info.blockMarginsCollapsedWithChildren.collapsedThrough = true → Textless children) ∧
    ∀ origin : Vec2 Rat, Lined F origin children origin.block (origin.block + info.contentRect.size.block)
  | .anonymous _ children _ => children = []
  | .text _ _ _ => False

/-- The state of the placement of boxes. -/
structure PlaceOk (s : PlacementState) : Prop where
  start : s.startMargin.NonNeg
  current : s.currentMargin.NonNeg

theorem placeFragment_lined {s s' : PlacementState} {f f' : Fragment} (hs : PlaceOk s) (hf : Standing F f)
    (h : placeFragment s f = some (f', s')) :
    PlaceOk s' ∧ s.currentBlockDirectionPosition ≤ s'.currentBlockDirectionPosition ∧
    (s'.nextInFlowMarginCollapsesWithParentStartMargin = true →
      s.nextInFlowMarginCollapsesWithParentStartMargin = true ∧ Textless [f']) ∧
    ∀ origin : Vec2 Rat, Lined F origin [f'] (origin.block + s.currentBlockDirectionPosition)
      (origin.block + s'.currentBlockDirectionPosition) := by
  have key (info : BoxInfo) (children : List Fragment) (d p : Rat) (hf : Standing F (.box info children)) (hd : 0 ≤ d) (origin : Vec2 Rat) :
      Lined F origin [.box (info.moveBlock (d + p)) children] (origin.block + p) (origin.block + (p + (d + info.borderBlockSize))) := by
    obtain ⟨h1, h2, h3, h4, -, -, -, h8⟩ := hf
    obtain ⟨ls, g1, g2, g3⟩ := h8 (origin.add (info.moveBlock (d + p)).contentRect.startCorner)
    refine ⟨ls, g1, fun l hl => ?_, ?_⟩
    · obtain ⟨r1, r2, r3⟩ := g2 l hl
      refine ⟨r1, ?_, ?_⟩
      · simp only [Vec2.add, BoxInfo.moveBlock, h1] at r2
        linarith
      · simp only [Vec2.add, BoxInfo.moveBlock, h1] at r3
        simp only [BoxInfo.borderBlockSize, Sides.blockSum]
        linarith
    · rw [g3]
      simp [pageTextsOf, Fragment.pageTexts]
  cases f with
  | text style rect segment => exact absurd hf id
  | anonymous rect children mode =>
    simp only [placeFragment] at h
    split at h
    · simp only [Option.some.injEq, Prod.mk.injEq] at h
      obtain ⟨rfl, rfl⟩ := h
      have : children = [] := hf
      subst this
      refine ⟨hs, le_refl _, fun h => ⟨h, by simp [Textless, pageTextsOf, Fragment.pageTexts]⟩, fun origin => .empty ?_⟩
      simp [pageTextsOf, Fragment.pageTexts]
    · cases h
  | box b children =>
    have hf0 := hf
    obtain ⟨h1, h2, h3, h4, h5, h6, h7, h8⟩ := hf
    have h9 : 0 ≤ b.borderBlockSize := by
      simp only [BoxInfo.borderBlockSize, Sides.blockSum]
      linarith
    simp only [placeFragment] at h
    split at h
    · rename_i hflag
      split at h
      · rename_i hzero
        split at h
        · rename_i hthrough
          simp only [Option.some.injEq, Prod.mk.injEq] at h
          obtain ⟨rfl, rfl⟩ := h
          have ht : ∀ origin, pageTextsOf origin [.box b children] = [] := by
            intro origin
            simp [pageTextsOf, Fragment.pageTexts, (h7 hthrough).at]
          exact ⟨⟨(hs.start.adjoin h5).adjoin h6, hs.current⟩, le_refl _, fun _ => ⟨hflag, ht _⟩, fun origin => .empty (ht _)⟩
        · simp only [Option.some.injEq, Prod.mk.injEq] at h
          obtain ⟨rfl, rfl⟩ := h
          refine ⟨⟨hs.start.adjoin h5, h6⟩, ?_, by simp, fun origin => ?_⟩
          · simp only [hzero]; linarith
          · exact key b children _ _ hf0 hs.current.solve origin
      · cases h
    · rename_i hflag
      split at h
      · rename_i hthrough
        simp only [Option.some.injEq, Prod.mk.injEq] at h
        obtain ⟨rfl, rfl⟩ := h
        refine ⟨⟨hs.start, (hs.current.adjoin h5).adjoin h6⟩, le_refl _, fun h => absurd h hflag, fun origin => .empty ?_⟩
        simp [pageTextsOf, Fragment.pageTexts, (h7 hthrough).at]
      · simp only [Option.some.injEq, Prod.mk.injEq] at h
        obtain ⟨rfl, rfl⟩ := h
        have h10 := (hs.current.adjoin h5).solve
        exact ⟨⟨hs.start, h6⟩, by simp only; linarith, fun h => absurd h hflag, key b children _ _ hf0 h10⟩

theorem placeAll_flag : ∀ {fs fs' : List Fragment} {s s' : PlacementState}, placeAll s fs = some (fs', s') →
    s'.nextInFlowMarginCollapsesWithParentStartMargin = true → s.nextInFlowMarginCollapsesWithParentStartMargin = true := by
  intro fs
  induction fs with
  | nil =>
    intro fs' s s' h
    simp only [placeAll, Option.some.injEq, Prod.mk.injEq] at h
    obtain ⟨rfl, rfl⟩ := h
    exact id
  | cons f fs ih =>
    intro fs' s s' h
    simp only [placeAll] at h
    rcases hp : placeFragment s f with _ | ⟨f1, s1⟩
    · simp [hp] at h
    · simp only [hp] at h
      rcases ha : placeAll s1 fs with _ | ⟨fs1, s2⟩
      · simp [ha] at h
      · simp only [ha, Option.some.injEq, Prod.mk.injEq] at h
        obtain ⟨rfl, rfl⟩ := h
        intro h2
        have := ih ha h2
        cases f with
        | text => simp [placeFragment] at hp
        | anonymous rect children mode =>
          simp only [placeFragment] at hp
          split at hp
          · cases hp; exact this
          · cases hp
        | box b children =>
          simp only [placeFragment] at hp
          repeat' split at hp
          all_goals first
            | cases hp; done
            | skip
          all_goals
            cases hp
            first
              | exact this
              | assumption

theorem placeAll_lined : ∀ {fs fs' : List Fragment} {s s' : PlacementState}, PlaceOk s → (∀ f ∈ fs, Standing F f) →
    placeAll s fs = some (fs', s') →
    PlaceOk s' ∧ s.currentBlockDirectionPosition ≤ s'.currentBlockDirectionPosition ∧
    (s'.nextInFlowMarginCollapsesWithParentStartMargin = true → Textless fs') ∧
    ∀ origin : Vec2 Rat, Lined F origin fs' (origin.block + s.currentBlockDirectionPosition)
      (origin.block + s'.currentBlockDirectionPosition) := by
  intro fs
  induction fs with
  | nil =>
    intro fs' s s' hs _ h
    simp only [placeAll, Option.some.injEq, Prod.mk.injEq] at h
    obtain ⟨rfl, rfl⟩ := h
    exact ⟨hs, le_refl _, fun _ => rfl, fun origin => .empty rfl⟩
  | cons f fs ih =>
    intro fs' s s' hs hf h
    simp only [placeAll] at h
    rcases hp : placeFragment s f with _ | ⟨f1, s1⟩
    · simp [hp] at h
    · simp only [hp] at h
      rcases ha : placeAll s1 fs with _ | ⟨fs1, s2⟩
      · simp [ha] at h
      · simp only [ha, Option.some.injEq, Prod.mk.injEq] at h
        obtain ⟨rfl, rfl⟩ := h
        obtain ⟨p1, p2, p3, p4⟩ := placeFragment_lined hs (hf f (by simp)) hp
        obtain ⟨q1, q2, q3, q4⟩ := ih p1 (fun f hf' => hf f (by simp [hf'])) ha
        have hflag : s2.nextInFlowMarginCollapsesWithParentStartMargin = true →
            s1.nextInFlowMarginCollapsesWithParentStartMargin = true := placeAll_flag ha
        refine ⟨q1, p2.trans q2, fun h => ?_, fun origin => ?_⟩
        · have h1 := (p3 (hflag h)).2
          simp only [Textless, pageTextsOf, List.append_nil] at h1 ⊢
          rw [h1, List.nil_append]
          exact q3 h
        · have := (p4 origin).append (q4 origin) (by linarith) (le_refl _) (by linarith)
          simpa using this
/-- What the layout of the contents of a box gives. -/
structure ContentsOk (F : FontApi Rat Err) (fc : FlowChildren) : Prop where
  size : 0 ≤ fc.blockSize
  start : fc.collapsibleMarginsInChildren.start.NonNeg
  «end» : fc.collapsibleMarginsInChildren.end.NonNeg
  through : fc.collapsibleMarginsInChildren.collapsedThrough = true → Textless fc.fragments
  lined : ∀ origin : Vec2 Rat, Lined F origin fc.fragments origin.block (origin.block + fc.blockSize)

theorem ContentsOk.finish {fc : FlowChildren} (h : ContentsOk F fc) : ContentsOk F fc.finishBlockFormattingContext := by
  have := h.end.solve
  refine ⟨add_nonneg h.size this, h.start, .zero, by simp [FlowChildren.finishBlockFormattingContext], fun origin => ?_⟩
  refine (h.lined origin).weaken (le_refl _) ?_
  simp only [FlowChildren.finishBlockFormattingContext]
  linarith

theorem layoutInFlow_standing {cb : ContainingBlock} {style : ComputedValues} {kind : BlockLevelKind}
    {lc : ContainingBlock → Absolutes → Bool → Option (FlowChildren × Absolutes)}
    {la : DefiniteContainingBlock → Nat → AbsolutelyPositionedFragment → Option Fragment} {f : Fragment} {as : Absolutes}
    (hu : Upright style) (hlc : ∀ cb coll fc as, lc cb [] coll = some (fc, as) → ContentsOk F fc)
    (h : layoutInFlow cb [] style kind lc la = some (f, as)) : Standing F f := by
  obtain ⟨fc, as', info, children, hl, rfl, -, hpad, hbor, -, hstart, hsize, hmargins, hch, -⟩ := layoutInFlow_some h
  have ok := hlc _ _ _ _ hl
  have hp : (positionOf style).isRelativelyPositioned = false := by rw [hu.position]; rfl
  rw [hp] at hch
  simp only [Bool.false_eq_true, if_false] at hch
  obtain ⟨-, rfl⟩ := hch
  have hh : Css.height cb style = .auto := by
    have := hu.height
    simp only [Css.heightProperty] at this
    simp [Css.height, this]
  have hrel : Css.relativeShift cb style = 0 := by simp [Css.relativeShift, hu.position]
  rw [hh] at hsize
  obtain ⟨hms, hme⟩ := inFlow_margin_block cb style
  have hmt : (CollapsedMargin.new (Css.marginTop cb style)).NonNeg := .new (hu.marginTop.used _)
  have hmb : (CollapsedMargin.new (Css.marginBottom cb style)).NonNeg := .new (hu.marginBottom.used _)
  have e1 : 0 ≤ Css.paddingTop cb style := hu.paddingTop.used _
  have e2 : 0 ≤ Css.borderTop cb style := hu.borderTop.used _
  have e3 : 0 ≤ Css.paddingBottom cb style := hu.paddingBottom.used _
  have e4 : 0 ≤ Css.borderBottom cb style := hu.borderBottom.used _
  have hle : fc.blockSize ≤ info.contentRect.size.block := by
    rw [hsize]
    simp only [LengthOrAuto.autoIs, collapseWithChildren]
    have h1 := ok.end.solve
    split
    · exact le_refl _
    · split
      · simp [CollapsedMargin.zero, CollapsedMargin.solve]
      · linarith
  refine ⟨?_, ?_, ?_, ok.size.trans hle, ?_, ?_, ?_, fun origin => ?_⟩
  · rw [hstart, hpad, hbor, inFlow_padding, inFlow_border, hrel]
    simp
  · rw [hpad, hbor, inFlow_padding, inFlow_border]
    exact add_nonneg e1 e2
  · rw [hpad, hbor, inFlow_padding, inFlow_border]
    exact add_nonneg e3 e4
  · rw [hmargins]
    simp only [collapseWithChildren, CollapsedBlockMargins.fromMargin, hms]
    have h1 := hmt.adjoin ok.start
    split <;> split <;> first
      | exact h1.adjoin ok.end
      | exact hmt.adjoin ok.end
      | exact h1
      | exact hmt
  · rw [hmargins]
    simp only [collapseWithChildren, CollapsedBlockMargins.fromMargin, hme]
    split
    · split
      · exact hmb.adjoin .zero
      · exact hmb.adjoin ok.end
    · exact hmb
  · rw [hmargins]
    simp only [collapseWithChildren, Bool.and_eq_true]
    exact fun h => ok.through h.2
  · exact (ok.lined origin).weaken (le_refl _) (by linarith)

/-- Layout of boxes that are upright. -/
theorem layout_lined (hF : Forward F) : ∀ (fuel : Nat),
    (∀ c cb rank collapsible fc as, c.Every Upright SizeOk → layoutContainer F fuel inOrder c cb rank [] false collapsible = some (fc, as) →
      ContentsOk F fc) ∧
    (∀ b cb rank f as, b.Every Upright SizeOk → layoutBox F fuel inOrder b cb rank [] false = some (f, as) → Standing F f) := by
  intro fuel
  induction fuel with
  | zero => exact ⟨by intros; simp_all [layoutContainer], by intros; simp_all [layoutBox]⟩
  | succ fuel ih =>
    obtain ⟨ihc, ihb⟩ := ih
    have hp := layout_prepend F fuel
    refine ⟨?_, ?_⟩
    · intro c cb rank collapsible fc as he h
      cases c with
      | blockLevelBoxes boxes =>
        simp only [layoutContainer] at h
        rw [layoutChildren_eq (g := fun rank b => layoutBox F fuel inOrder b cb rank [] false)
              (fun rank b absolute => hp.2.1 _ b cb rank absolute false), prepend_nil] at h
        obtain ⟨fs, as', s, hseq, hplace, hsize, hmargins, -⟩ := canonicalChildren_some h
        have hst := seqChildren_forall₂ (P := fun b f => b.Every Upright SizeOk → Standing F f) (fun rank b f as hb hu => ihb b cb rank f as hu hb)
          _ _ _ _ hseq
        have hall : ∀ f ∈ fs, Standing F f := by
          clear hplace hseq h
          simp only [BlockContainer.Every] at he
          induction hst with
          | nil => simp
          | cons h1 _ ih =>
            intro f hf
            rcases List.mem_cons.1 hf with rfl | hf
            · exact h1 he.1
            · exact ih he.2 f hf
        obtain ⟨q1, q2, q3, q4⟩ := placeAll_lined (s := .initial collapsible) ⟨.zero, .zero⟩ hall hplace
        have h0 : (PlacementState.initial collapsible).currentBlockDirectionPosition = 0 := rfl
        rw [h0] at q2 q4
        refine ⟨by rw [hsize]; exact q2, ?_, ?_, ?_, fun origin => ?_⟩
        · rw [hmargins]; exact q1.start
        · rw [hmargins]; exact q1.current
        · rw [hmargins]; exact q3
        · rw [hsize]
          simpa using q4 origin
      | inlineFormattingContext boxes =>
        simp only [layoutContainer] at h
        have hm := layoutInline_margins F cb rank _ _ _ _ _ h
        refine ⟨(layoutInline_lined hF he h ⟨0, 0⟩).1, ?_, ?_, ?_, fun origin => (layoutInline_lined hF he h origin).2⟩
        · rw [hm]; exact .zero
        · rw [hm]; exact .zero
        · rw [hm]; simp [CollapsedBlockMargins.zero]
    · intro b cb rank f as he h
      cases b with
      | sameFormattingContextBlock style contents =>
        simp only [layoutBox] at h
        exact layoutInFlow_standing he.1 (fun cb coll fc as hl => ihc contents cb rank coll fc as he.2
          (by rw [hp.1 (inOrder.sub 0), prepend_nil] at hl; exact hl)) h
      | independent style floats contents =>
        simp only [layoutBox] at h
        refine layoutInFlow_standing he.1 (fun cb coll fc as hl => ?_) h
        rw [hp.1 (inOrder.sub 0), prepend_nil] at hl
        rcases h1 : layoutContainer F fuel inOrder contents cb rank [] false false with _ | ⟨fc1, as1⟩
        · simp [h1, mapFst] at hl
        · rw [h1] at hl
          simp only [mapFst] at hl
          cases hl
          exact (ihc contents cb rank false fc1 _ he.2 h1).finish
      | outOfFlowAbsolutelyPositioned style floats contents =>
        simp only [layoutBox] at h
        cases h
        rfl
      | outOfFlowFloat style floats contents =>
        simp only [layoutBox] at h
        cases h
        rfl

/-- A whole page. -/
theorem layoutRoot_lined (hF : Forward F) {fuel : Nat} {s : Oracle} {root : BlockFormattingContext} {viewport : Vec2 Rat}
    {fragments : List Fragment} (he : root.contents.Every Upright SizeOk) (hno : root.contents.Only NoAbsolutes)
    (h : layoutRoot F fuel s root viewport = some fragments) (origin : Vec2 Rat) :
    ∃ bottom, Lined F origin fragments origin.block bottom := by
  simp only [layoutRoot, BlockFormattingContext.layout] at h
  rw [(layout_prepend F fuel).1 (s.sub 0), prepend_nil] at h
  rcases h1 : layoutContainer F fuel inOrder root.contents ⟨viewport.inline, .length viewport.block, (.horizontalTb, .ltr)⟩ 0 [] false
    false with _ | ⟨fc, as⟩
  · simp [h1, mapFst] at h
  · simp only [h1, mapFst] at h
    have ok := (layout_lined hF fuel).1 _ _ _ _ _ _ he h1
    obtain ⟨extra, c⟩ := (layout_collect (F := F) (fun _ => ([] : List Unit)) fuel).1 _ _ _ _ _ _ h1
    obtain ⟨rfl, -⟩ := c.order hno
    simp only [layoutAll, List.append_nil] at h
    cases h
    exact ⟨_, ok.lined origin⟩

end Verif.Layout
