/- What is in a box is inside of it: lemmas for C89. -/
import Verif.Layout.BoundSpec
import Verif.Layout.ReadLemmas
namespace Verif.Layout
open Verif.Style Verif.Text
variable {Err : Type} {F : FontApi Rat Err}

/-! ### The rectangles in fragments -/

/-- The border of a box. -/
def BoxInfo.borderAt (info : BoxInfo) (origin : Vec2 Rat) : Extent :=
  ⟨origin.inline + info.contentRect.startCorner.inline - info.padding.inlineStart - info.border.inlineStart,
   origin.block + info.contentRect.startCorner.block - info.padding.blockStart - info.border.blockStart,
   info.border.inlineStart + info.padding.inlineStart + info.contentRect.size.inline + info.padding.inlineEnd + info.border.inlineEnd,
   info.border.blockStart + info.padding.blockStart + info.contentRect.size.block + info.padding.blockEnd + info.border.blockEnd⟩

/-- The content area of a box. -/
def BoxInfo.contentAt (info : BoxInfo) (origin : Vec2 Rat) : Extent :=
  ⟨origin.inline + info.contentRect.startCorner.inline, origin.block + info.contentRect.startCorner.block,
   info.contentRect.size.inline, info.contentRect.size.block⟩

mutual
/-- The rectangles in a fragment; `origin` is the point from which its place is counted. -/
def Fragment.extents (origin : Vec2 Rat) : Fragment → List Extent
  | .box info children => info.borderAt origin :: extentsOf (origin.add info.contentRect.startCorner) children
  | .anonymous rect children _ => extentsOf (origin.add rect.startCorner) children
  | .text _ rect _ => [⟨origin.inline + rect.startCorner.inline, origin.block + rect.startCorner.block, rect.size.inline, rect.size.block⟩]
/-- See `Fragment.extents`. -/
def extentsOf (origin : Vec2 Rat) : List Fragment → List Extent
  | [] => []
  | f :: fs => f.extents origin ++ extentsOf origin fs
end

mutual
/-- The fragment as a part of the page. -/
def Fragment.item (origin : Vec2 Rat) : Fragment → PageItem
  | .box info children =>
    .box info.style (info.borderAt origin) (info.contentAt origin) (itemsAt (origin.add info.contentRect.startCorner) children)
  | .anonymous rect children _ => .line (itemsAt (origin.add rect.startCorner) children)
  | .text style rect segment =>
    .text ⟨style, segment.glyphs, origin.inline + rect.startCorner.inline, origin.block + rect.startCorner.block, rect.size.inline, rect.size.block⟩
/-- See `Fragment.item`. -/
def itemsAt (origin : Vec2 Rat) : List Fragment → List PageItem
  | [] => []
  | f :: fs => f.item origin :: itemsAt origin fs
end

mutual
theorem Fragment.item_extents (origin : Vec2 Rat) : ∀ f : Fragment, (f.item origin).extents = f.extents origin
  | .box info children => by rw [Fragment.item, PageItem.extents, itemsAt_extents, Fragment.extents]
  | .anonymous rect children _ => by rw [Fragment.item, PageItem.extents, itemsAt_extents, Fragment.extents]
  | .text _ _ _ => rfl
theorem itemsAt_extents (origin : Vec2 Rat) : ∀ fs : List Fragment, itemExtents (itemsAt origin fs) = extentsOf origin fs
  | [] => rfl
  | f :: fs => by rw [itemsAt, itemExtents, Fragment.item_extents, itemsAt_extents, extentsOf]
end

mutual
theorem Fragment.item_texts (origin : Vec2 Rat) : ∀ f : Fragment, (f.item origin).texts = f.pageTexts origin
  | .box info children => by rw [Fragment.item, PageItem.texts, itemsAt_texts, Fragment.pageTexts]
  | .anonymous rect children _ => by rw [Fragment.item, PageItem.texts, itemsAt_texts, Fragment.pageTexts]
  | .text _ _ _ => rfl
theorem itemsAt_texts (origin : Vec2 Rat) : ∀ fs : List Fragment, itemTexts (itemsAt origin fs) = pageTextsOf origin fs
  | [] => rfl
  | f :: fs => by rw [itemsAt, itemTexts, Fragment.item_texts, itemsAt_texts, pageTextsOf]
end

/-- The rectangle at another place. -/
def Extent.move (v : Vec2 Rat) (e : Extent) : Extent := { e with left := v.inline + e.left, top := v.block + e.top }

mutual
theorem Fragment.extents_move (v origin : Vec2 Rat) : ∀ f : Fragment, f.extents (v.add origin) = (f.extents origin).map (Extent.move v)
  | .box info children => by
    rw [Fragment.extents, Fragment.extents, Vec2.add_assoc', extentsOf_move, List.map_cons]
    congr 1
    simp only [BoxInfo.borderAt, Extent.move, Vec2.add, Extent.mk.injEq, and_true]
    constructor <;> ring
  | .anonymous rect children _ => by
    rw [Fragment.extents, Fragment.extents, Vec2.add_assoc', extentsOf_move]
  | .text style rect segment => by
    simp only [Fragment.extents, List.map_cons, List.map_nil, Extent.move, Vec2.add, List.cons.injEq, and_true, Extent.mk.injEq]
    constructor <;> ring
theorem extentsOf_move (v origin : Vec2 Rat) : ∀ fs : List Fragment, extentsOf (v.add origin) fs = (extentsOf origin fs).map (Extent.move v)
  | [] => rfl
  | f :: fs => by rw [extentsOf, extentsOf, List.map_append, Fragment.extents_move v origin f, extentsOf_move v origin fs]
end

theorem extentsOf_at (v : Vec2 Rat) (fs : List Fragment) : extentsOf v fs = (extentsOf ⟨0, 0⟩ fs).map (Extent.move v) := by
  rw [← extentsOf_move, Vec2.add_zero']

theorem extentsOf_append (origin : Vec2 Rat) (fs gs : List Fragment) :
    extentsOf origin (fs ++ gs) = extentsOf origin fs ++ extentsOf origin gs := by
  induction fs with
  | nil => rfl
  | cons f fs ih => simp [extentsOf, ih]

theorem Vec2.zero_add' (v : Vec2 Rat) : (⟨0, 0⟩ : Vec2 Rat).add v = v := by simp [Vec2.add]

/-! ### Fragments that hold what is in them -/

/-- No side is negative. -/
structure Sides.NonNeg (s : Sides Rat) : Prop where
  inlineStart : 0 ≤ s.inlineStart
  inlineEnd : 0 ≤ s.inlineEnd
  blockStart : 0 ≤ s.blockStart
  blockEnd : 0 ≤ s.blockEnd

mutual
/-- See `PageItem.Holds`. -/
def Fragment.Bound (onLine : Bool) : Fragment → Prop
  | .box info children =>
    (info.padding.NonNeg ∧ info.border.NonNeg) ∧
    (∀ e ∈ extentsOf ⟨0, 0⟩ children, e.Under ⟨0, 0, info.contentRect.size.inline, info.contentRect.size.block⟩) ∧
    (onLine = true → ∀ t ∈ pageTextsOf ⟨0, 0⟩ children, t.left + t.width ≤ info.contentRect.size.inline) ∧ boundAll onLine children
  | .anonymous _ children _ => boundAll true children
  | .text _ _ _ => True
/-- See `PageItem.Holds`. -/
def boundAll (onLine : Bool) : List Fragment → Prop
  | [] => True
  | f :: fs => f.Bound onLine ∧ boundAll onLine fs
end

theorem boundAll_iff (onLine : Bool) (fs : List Fragment) : boundAll onLine fs ↔ ∀ f ∈ fs, f.Bound onLine := by
  induction fs with
  | nil => simp [boundAll]
  | cons f fs ih => simp [boundAll, ih]

mutual
theorem Fragment.Bound.holds {onLine : Bool} (origin : Vec2 Rat) : ∀ f : Fragment, f.Bound onLine → (f.item origin).Holds onLine
  | .box info children, h => by
    rw [Fragment.Bound] at h
    obtain ⟨⟨h1, h2⟩, h3, h4, h5⟩ := h
    obtain ⟨a1, a2, a3, a4⟩ := h1
    obtain ⟨b1, b2, b3, b4⟩ := h2
    rw [Fragment.item, PageItem.Holds]
    refine ⟨?_, ?_, ?_, boundAll.hold _ children h5⟩
    · simp only [Extent.In, BoxInfo.borderAt, BoxInfo.contentAt]
      refine ⟨by linarith, by linarith, by linarith, by linarith⟩
    · rw [itemsAt_extents, extentsOf_at]
      intro e he
      obtain ⟨e', he', rfl⟩ := List.mem_map.1 he
      have := h3 e' he'
      simp only [Extent.Under, Extent.move, BoxInfo.contentAt, Vec2.add] at this ⊢
      refine ⟨by linarith, this.2.imp id fun h => ⟨by linarith, by linarith⟩⟩
    · intro ho
      rw [itemsAt_texts, pageTextsOf_at]
      intro t ht
      obtain ⟨t', ht', rfl⟩ := List.mem_map.1 ht
      have := h4 ho t' ht'
      simp only [PageText.move, BoxInfo.contentAt, Vec2.add]
      linarith
  | .anonymous rect children _, h => by
    rw [Fragment.item, PageItem.Holds]
    exact boundAll.hold _ children h
  | .text _ _ _, _ => trivial
theorem boundAll.hold {onLine : Bool} (origin : Vec2 Rat) : ∀ fs : List Fragment, boundAll onLine fs → itemsHold onLine (itemsAt origin fs)
  | [], _ => trivial
  | f :: fs, h => ⟨Fragment.Bound.holds origin f h.1, boundAll.hold origin fs h.2⟩
end

/-! ### The heights of boxes on a line -/

/-- The rectangles are between the top of the line or of the inline box and `height`. -/
def AllBetween (height : Rat) (fs : List Fragment) : Prop := ∀ e ∈ extentsOf ⟨0, 0⟩ fs, 0 ≤ e.top ∧ e.top + e.height ≤ height

mutual
/-- A fragment on a line. -/
def Fragment.Firm : Fragment → Prop
  | .box info children =>
    (info.padding.NonNeg ∧ info.border.NonNeg ∧ info.margin.NonNeg) ∧ AllBetween info.contentRect.size.block children ∧ firmAll children
  | .anonymous _ _ _ => False
  | .text _ _ _ => True
/-- Fragments on a line. -/
def firmAll : List Fragment → Prop
  | [] => True
  | f :: fs => f.Firm ∧ firmAll fs
end

theorem firmAll_snoc {f : Fragment} : ∀ {fs : List Fragment}, firmAll fs → f.Firm → firmAll (fs ++ [f])
  | [], _, hf => ⟨hf, trivial⟩
  | _ :: _, h, hf => ⟨h.1, firmAll_snoc h.2 hf⟩

structure LevelFirm (level : NestingLevel) : Prop where
  upright : UprightInlines level.remainingBoxes
  nonneg : 0 ≤ level.maxBlockSize
  between : AllBetween level.maxBlockSize level.fragmentsSoFar
  firm : firmAll level.fragmentsSoFar

/-- The edges of an inline box. -/
structure EdgesFirm (p : PartialInlineBox) : Prop where
  start : p.startCorner.block = p.padding.blockStart + p.border.blockStart + p.margin.blockStart
  padding : p.padding.NonNeg
  border : p.border.NonNeg
  margin : p.margin.NonNeg

def LevelsFirm : List PartialInlineBox → NestingLevel → Prop
  | [], level => LevelFirm level
  | p :: stack, level => LevelFirm level ∧ EdgesFirm p ∧ LevelsFirm stack p.parentNestingLevel

/-- A line with everything on it. -/
def FirmLine (line : Fragment) : Prop :=
  ∃ rect children mode, line = .anonymous rect children mode ∧ AllBetween rect.size.block children ∧ firmAll children

theorem LevelsFirm.current {stack : List PartialInlineBox} {level : NestingLevel} (h : LevelsFirm stack level) : LevelFirm level := by
  cases stack with
  | nil => exact h
  | cons p stack => exact h.1

theorem LevelsFirm.modify {stack : List PartialInlineBox} {l l' : NestingLevel} (h : LevelsFirm stack l) (hl : LevelFirm l') :
    LevelsFirm stack l' := by
  cases stack with
  | nil => exact hl
  | cons p stack => exact ⟨hl, h.2⟩

theorem AllBetween.mono {a b : Rat} {fs : List Fragment} (h : AllBetween a fs) (hab : a ≤ b) : AllBetween b fs :=
  fun t ht => ⟨(h t ht).1, (h t ht).2.trans hab⟩

theorem AllBetween.snoc {a : Rat} {fs : List Fragment} {f : Fragment} (h : AllBetween a fs)
    (hf : ∀ e ∈ f.extents ⟨0, 0⟩, 0 ≤ e.top ∧ e.top + e.height ≤ a) : AllBetween a (fs ++ [f]) := by
  intro t ht
  rw [extentsOf_append, List.mem_append] at ht
  rcases ht with ht | ht
  · exact h t ht
  · exact hf t (by simpa [extentsOf] using ht)

theorem Sides.NonNeg.withoutEnd {s : Sides Rat} (h : s.NonNeg) : s.withoutInlineEnd.NonNeg := ⟨h.1, le_refl _, h.3, h.4⟩
theorem Sides.NonNeg.withoutStart {s : Sides Rat} (h : s.NonNeg) : s.withoutInlineStart.NonNeg := ⟨le_refl _, h.2, h.3, h.4⟩
theorem Sides.NonNeg.ite {s s' : Sides Rat} {c : Bool} (h : s.NonNeg) (h' : s'.NonNeg) : (if c then s else s').NonNeg := by
  cases c <;> simpa

theorem finish_firm {p : PartialInlineBox} {level : NestingLevel} {position : Rat} {atLineBreak : Bool}
    (hl : AllBetween level.maxBlockSize level.fragmentsSoFar) (hf : firmAll level.fragmentsSoFar)
    (he : EdgesFirm p) (hp : LevelFirm p.parentNestingLevel) :
    LevelFirm (p.finish level position atLineBreak).1.parentNestingLevel := by
  have hmax : (p.finish level position atLineBreak).1.parentNestingLevel.maxBlockSize =
      max p.parentNestingLevel.maxBlockSize (level.maxBlockSize + p.padding.blockSum + p.border.blockSum + p.margin.blockSum) := by
    cases hlast : p.lastBoxTreeFragment <;> cases atLineBreak <;> simp [PartialInlineBox.finish, hlast, Sides.withoutInlineEnd, Sides.blockSum]
  have n1 := he.padding
  have n2 := he.border
  have n3 := he.margin
  have k1 := n1.blockStart
  have k2 := n2.blockStart
  have k3 := n3.blockStart
  have k4 := n1.blockEnd
  have k5 := n2.blockEnd
  have k6 := n3.blockEnd
  refine ⟨hp.upright, ?_, ?_, ?_⟩
  · rw [hmax]; exact le_max_of_le_left hp.nonneg
  · rw [hmax]
    show AllBetween _ (p.parentNestingLevel.fragmentsSoFar ++ [_])
    refine AllBetween.snoc (hp.between.mono (le_max_left _ _)) ?_
    intro t ht
    rw [Fragment.extents, List.mem_cons] at ht
    rcases ht with rfl | ht
    · have e1 : ∀ c : Bool, (if c then p.padding else p.padding.withoutInlineEnd).blockStart = p.padding.blockStart := by intro c; cases c <;> rfl
      have e2 : ∀ c : Bool, (if c then p.border else p.border.withoutInlineEnd).blockStart = p.border.blockStart := by intro c; cases c <;> rfl
      have e3 : ∀ c : Bool, (if c then p.padding else p.padding.withoutInlineEnd).blockEnd = p.padding.blockEnd := by intro c; cases c <;> rfl
      have e4 : ∀ c : Bool, (if c then p.border else p.border.withoutInlineEnd).blockEnd = p.border.blockEnd := by intro c; cases c <;> rfl
      simp only [BoxInfo.borderAt, he.start, e1, e2, e3, e4, Sides.blockSum]
      exact ⟨by linarith, le_max_of_le_right (by linarith)⟩
    · rw [Vec2.zero_add', extentsOf_at, List.mem_map] at ht
      obtain ⟨u, hu, rfl⟩ := ht
      obtain ⟨h1, h2⟩ := hl u hu
      simp only [Extent.move, he.start, Sides.blockSum]
      exact ⟨by linarith, le_max_of_le_right (by linarith)⟩
  · show firmAll (p.parentNestingLevel.fragmentsSoFar ++ [_])
    exact firmAll_snoc hp.firm ⟨⟨n1.ite n1.withoutEnd, n2.ite n2.withoutEnd, n3.ite n3.withoutEnd⟩, hl, hf⟩

theorem finishLine_firm {cb : ContainingBlock} {lines : LinesBoxes} {level : NestingLevel} (hl : ∀ f ∈ lines.boxes, FirmLine f)
    (h : LevelFirm level) : ∀ f ∈ (finishLine lines level cb).1.boxes, FirmLine f := by
  intro f hf
  simp only [finishLine, List.mem_append, List.mem_singleton] at hf
  rcases hf with hf | rfl
  · exact hl f hf
  · exact ⟨_, _, _, rfl, h.between, h.firm⟩

theorem breakLine_firm {cb : ContainingBlock} : ∀ (stack : List PartialInlineBox) (level : NestingLevel) (position : Rat) (lines : LinesBoxes),
    (∀ f ∈ lines.boxes, FirmLine f) → LevelsFirm stack level →
    (∀ f ∈ (breakLine cb stack level position lines).2.2.boxes, FirmLine f) ∧
      LevelsFirm (breakLine cb stack level position lines).1 (breakLine cb stack level position lines).2.1 := by
  intro stack
  induction stack with
  | nil =>
    intro level position lines hl h
    exact ⟨finishLine_firm (level := { level with inlineStart := 0 }) hl ⟨h.upright, h.nonneg, h.between, h.firm⟩, h.upright, le_refl _, by
      simp [breakLine, finishLine, AllBetween, extentsOf], trivial⟩
  | cons p stack ih =>
    intro level position lines hl h
    obtain ⟨h1, h2, h3⟩ := h
    have hfin := finish_firm (p := p) (level := { level with inlineStart := 0 }) (position := position) (atLineBreak := true)
      h1.between h1.firm h2 h3.current
    obtain ⟨i1, i2⟩ := ih _ (p.finish { level with inlineStart := 0 } position true).2.2 lines hl (h3.modify hfin)
    refine ⟨i1, ⟨h1.upright, h1.nonneg, ?_, trivial⟩, ⟨h2.start, h2.padding.withoutStart, h2.border.withoutStart, h2.margin.withoutStart⟩, i2⟩
    simp [breakLine, PartialInlineBox.finish, AllBetween, extentsOf]

def FirmState (ifc : InlineState) : Prop := (∀ f ∈ ifc.lineBoxes.boxes, FirmLine f) ∧ LevelsFirm ifc.stack ifc.current

theorem Upright.padding_nonneg {s : ComputedValues} (h : Upright s) (w : Rat) : ((padding s).percentagesRelativeTo w).NonNeg := by
  have k1 := h.paddingLeft.used w
  have k2 := h.paddingRight.used w
  have k3 := h.paddingTop.used w
  have k4 := h.paddingBottom.used w
  constructor <;> simp only [Sides.percentagesRelativeTo, Sides.map, percentageRelativeTo_eq] <;> assumption

theorem Upright.border_nonneg {s : ComputedValues} (h : Upright s) (w : Rat) : ((borderWidth s).percentagesRelativeTo w).NonNeg := by
  have k1 := h.borderLeft.used w
  have k2 := h.borderRight.used w
  have k3 := h.borderTop.used w
  have k4 := h.borderBottom.used w
  constructor <;> simp only [Sides.percentagesRelativeTo, Sides.map, percentageRelativeTo_eq] <;> assumption

theorem Upright.margin_nonneg {s : ComputedValues} (h : Upright s) (w : Rat) : (((margin s).autoPercentagesRelativeTo w).autoIs 0).NonNeg := by
  have k1 := h.marginLeft.used w
  have k2 := h.marginRight.used w
  have k3 := h.marginTop.used w
  have k4 := h.marginBottom.used w
  constructor <;> simp only [Sides.autoIs, Sides.autoPercentagesRelativeTo, Sides.map, autoPercentage_autoIs] <;> assumption

theorem firm_invariant (cb : ContainingBlock) : Invariant cb FirmState (fun lines => ∀ f ∈ lines, FirmLine f) where
  start := by
    intro ifc style first last children remaining h hr
    have h0 := h.2.current
    have hs := h0.upright
    rw [hr] at hs
    simp only [UprightInlines, inlineAll, InlineLevelBox.All] at hs
    obtain ⟨⟨hstyle, hchildren⟩, hremaining⟩ := hs
    have hp := h.2.modify (l' := { ifc.current with remainingBoxes := remaining }) ⟨hremaining, h0.nonneg, h0.between, h0.firm⟩
    refine ⟨h.1, ⟨hchildren, le_refl _, by simp [startInlineBox, AllBetween, extentsOf], trivial⟩, ⟨?_, ?_, ?_, ?_⟩, hp⟩
    · simp only [relativeAdjustement_static hstyle.notRelative, Vec2.add, Vec2.zero, InlineState.rest]
      ring
    · exact (hstyle.padding_nonneg _).ite (hstyle.padding_nonneg _).withoutStart
    · exact (hstyle.border_nonneg _).ite (hstyle.border_nonneg _).withoutStart
    · exact (hstyle.margin_nonneg _).ite (hstyle.margin_nonneg _).withoutStart
  skip := by
    intro ifc b remaining h hr
    have h0 := h.2.current
    have hs := h0.upright
    rw [hr] at hs
    exact ⟨h.1, h.2.modify ⟨hs.2, h0.nonneg, h0.between, h0.firm⟩⟩
  text := by
    intro ifc style shaped h
    have h0 := h.2.current
    refine ⟨h.1, h.2.modify ⟨h0.upright, le_max_of_le_left h0.nonneg, ?_, firmAll_snoc h0.firm trivial⟩⟩
    refine AllBetween.snoc (h0.between.mono (le_max_left _ _)) ?_
    intro t ht
    simp only [Fragment.extents, List.mem_singleton] at ht
    subst ht
    refine ⟨by simp, ?_⟩
    simp [pushText]
  line := by
    intro ifc h
    exact breakLine_firm (cb := cb) ifc.stack ifc.current ifc.inlinePosition ifc.lineBoxes h.1 h.2
  close := by
    intro ifc p stack h hr hst
    have h2 := h.2
    rw [hst] at h2
    obtain ⟨h3, h4, h5⟩ := h2
    exact ⟨h.1, h5.modify (finish_firm h3.between h3.firm h4 h5.current)⟩
  «end» := by
    intro ifc h hr hst
    have h2 := h.2
    rw [hst] at h2
    exact finishLine_firm h.1 h2

theorem initial_firm {boxes : List InlineLevelBox} (h : UprightInlines boxes) : FirmState (initialInlineState boxes) :=
  ⟨by simp [initialInlineState], h, le_refl _, by simp [initialInlineState, AllBetween, extentsOf], trivial⟩

/-! ### The left and the right of boxes on a line -/

mutual
theorem Fragment.Row.bound {o : Rat} (ho : 0 ≤ o) : ∀ (f : Fragment) {x y : Rat}, 0 ≤ x → f.Row o x y → f.Firm →
    (∀ t ∈ f.pageTexts ⟨0, 0⟩, 0 ≤ t.width) →
    x ≤ y ∧ (∀ e ∈ f.extents ⟨0, 0⟩, x ≤ e.left) ∧ (∀ t ∈ f.pageTexts ⟨0, 0⟩, t.left + t.width ≤ y) ∧ f.Bound true
  | .box info children, x, y, hx, h, hf, ht => by
    rw [Fragment.Row] at h
    rw [Fragment.Firm] at hf
    obtain ⟨h1, w, h2, h3, h4⟩ := h
    obtain ⟨⟨⟨a1, a2, a3, a4⟩, ⟨b1, b2, b3, b4⟩, ⟨c1, c2, c3, c4⟩⟩, f2, f3⟩ := hf
    simp only [Fragment.left] at h1
    rw [Fragment.pageTexts, Vec2.zero_add', pageTextsOf_at] at ht
    have hs : 0 ≤ o + info.contentRect.startCorner.inline := by linarith
    obtain ⟨g1, g2, g3, g4⟩ := rowOf.bound hs children (le_refl 0) h2 f3 (fun t h => ht (t.move _) (List.mem_map_of_mem h))
    refine ⟨by linarith, ?_, ?_, ?_⟩
    · intro e he
      rw [Fragment.extents, List.mem_cons, Vec2.zero_add', extentsOf_at, List.mem_map] at he
      rcases he with rfl | ⟨e, he, rfl⟩
      · simp only [BoxInfo.borderAt]; linarith
      · have := g2 e he
        simp only [Extent.move]; linarith
    · intro t ht
      rw [Fragment.pageTexts, Vec2.zero_add', pageTextsOf_at, List.mem_map] at ht
      obtain ⟨t, ht, rfl⟩ := ht
      have := g3 t ht
      simp only [PageText.move]; linarith
    · rw [Fragment.Bound]
      refine ⟨⟨⟨a1, a2, a3, a4⟩, ⟨b1, b2, b3, b4⟩⟩, fun e he => ⟨g2 e he, .inr ?_⟩, fun _ t ht => ?_, g4⟩
      · have := f2 e he
        simp only
        constructor <;> linarith
      · have := g3 t ht
        linarith
  | .anonymous _ _ _, _, _, _, _, hf, _ => absurd hf id
  | .text style rect segment, x, y, hx, h, _, ht => by
    rw [Fragment.Row] at h
    obtain ⟨rfl, rfl⟩ := h
    have h0 := ht _ (by rw [Fragment.pageTexts]; exact List.mem_singleton.2 rfl)
    simp only at h0
    refine ⟨by linarith, ?_, ?_, trivial⟩
    · intro e he
      simp only [Fragment.extents, List.mem_singleton] at he
      subst he
      simp
    · intro t ht
      simp only [Fragment.pageTexts, List.mem_singleton] at ht
      subst ht
      simp
theorem rowOf.bound {o : Rat} (ho : 0 ≤ o) : ∀ (fs : List Fragment) {x y : Rat}, 0 ≤ x → rowOf o fs x y → firmAll fs →
    (∀ t ∈ pageTextsOf ⟨0, 0⟩ fs, 0 ≤ t.width) →
    x ≤ y ∧ (∀ e ∈ extentsOf ⟨0, 0⟩ fs, x ≤ e.left) ∧ (∀ t ∈ pageTextsOf ⟨0, 0⟩ fs, t.left + t.width ≤ y) ∧ boundAll true fs
  | [], x, y, hx, h, _, _ => by
    cases h
    exact ⟨le_refl _, by simp [extentsOf], by simp [pageTextsOf], trivial⟩
  | f :: fs, x, y, hx, h, hf, ht => by
    obtain ⟨z, h1, h2⟩ := h
    rw [pageTextsOf] at ht
    obtain ⟨a1, a2, a3, a4⟩ := Fragment.Row.bound ho f hx h1 hf.1 fun t h => ht t (by simp [h])
    obtain ⟨b1, b2, b3, b4⟩ := rowOf.bound ho fs (hx.trans a1) h2 hf.2 fun t h => ht t (by simp [h])
    refine ⟨a1.trans b1, ?_, ?_, a4, b4⟩
    · intro e he
      rw [extentsOf, List.mem_append] at he
      exact he.elim (a2 e) fun h => a1.trans (b2 e h)
    · intro t ht
      rw [pageTextsOf, List.mem_append] at ht
      exact ht.elim (fun h => (a3 t h).trans b1) (b3 t)
end

/-! ### An inline formatting context -/

/-- The contents of a box are in it. -/
structure ContentsBound (fc : FlowChildren) : Prop where
  bound : boundAll false fc.fragments
  under : ∀ e ∈ extentsOf ⟨0, 0⟩ fc.fragments, e.Under ⟨0, 0, 0, fc.blockSize⟩
  through : fc.collapsibleMarginsInChildren.collapsedThrough = true → fc.blockSize = 0 ∧ ∀ e ∈ extentsOf ⟨0, 0⟩ fc.fragments, e.height = 0

/-- No text has a negative width. -/
structure Wide (s : FlatState) : Prop where
  lines : ∀ l ∈ s.lines, ∀ t ∈ l.texts, 0 ≤ t.width
  current : ∀ t ∈ s.current, 0 ≤ t.width

theorem Wide.newLine {s : FlatState} (h : Wide s) (height : Rat) : Wide (s.newLine height) := by
  refine ⟨fun l hl => ?_, by simp [FlatState.newLine]⟩
  simp only [FlatState.newLine, List.mem_append, List.mem_singleton] at hl
  rcases hl with hl | rfl
  · exact h.lines l hl
  · exact h.current

theorem Wide.push {s : FlatState} (h : Wide s) {style : ComputedValues} {glyphs : List Nat} {width : Rat} (hF : Forward F) {text : List Nat}
    (hsh : IsShaped F text glyphs width) (hs : 0 ≤ fontSizeOf style) : Wide (s.push style glyphs width) := by
  refine ⟨h.lines, fun t ht => ?_⟩
  simp only [FlatState.push, List.mem_append, List.mem_singleton] at ht
  rcases ht with ht | rfl
  · exact h.current t ht
  · exact mul_nonneg hs (IsShaped.nonneg hF hsh)

theorem TextLaid.wide (hF : Forward F) {tall : Prop} {style : ComputedValues} (hs : 0 ≤ fontSizeOf style) {lines : List (List Nat)}
    {s s' : FlatState} (h : TextLaid F tall style lines s s') : Wide s → Wide s' := by
  induction h with
  | last hsh => exact fun h => h.push hF hsh hs
  | line hsh _ _ _ ih => exact fun h => ih ((h.push hF hsh hs).newLine _)

theorem Laid.wide (hF : Forward F) {tall : Prop} {cb : ContainingBlock} {boxes : List InlineLevelBox} {s s' : FlatState}
    (h : Laid F tall cb boxes s s') : inlinesEvery Upright SizeOk boxes → Wide s → Wide s' := by
  induction h with
  | nil => exact fun _ h => h
  | text _ ht _ ih => exact fun he h => ih he.2 (ht.wide hF he.1 h)
  | @box style first last children rest s s' s'' _ _ ih1 ih2 =>
    intro he h
    obtain ⟨⟨hu, hc⟩, hr⟩ := he
    refine ih2 hr ?_
    have h3 := ih1 hc (by split <;> exact ⟨h.lines, h.current⟩)
    split <;> exact ⟨h3.lines, h3.current⟩
  | float _ ih => exact fun he h => ih he.2 h
  | absolute _ _ ih => exact fun he h => ih he.2 ⟨h.lines, h.current⟩

theorem bound_lines {cb : ContainingBlock} : ∀ {lines : List Line} {fs : List Fragment} {x y : Rat}, 0 ≤ x →
    List.Forall₂ (IsLine cb) lines fs → (∀ f ∈ fs, BandLine f) → (∀ f ∈ fs, FirmLine f) → (∀ f ∈ fs, RowLine f) →
    (∀ l ∈ lines, ∀ t ∈ l.texts, 0 ≤ t.width) → StackedLines x lines y →
    x ≤ y ∧ boundAll false fs ∧ ∀ e ∈ extentsOf ⟨0, 0⟩ fs, 0 ≤ e.left ∧ x ≤ e.top ∧ e.top + e.height ≤ y := by
  intro lines
  induction lines with
  | nil =>
    intro fs x y _ h _ _ _ _ hs
    cases h
    cases hs
    exact ⟨le_refl _, trivial, by simp [extentsOf]⟩
  | cons l ls ih =>
    intro fs x y hx h hb hfirm hrow hw hs
    cases h with
    | @cons _ f _ fs hf hfs =>
      obtain ⟨rfl, hs⟩ := hs
      obtain ⟨children, rfl, htexts⟩ := hf
      obtain ⟨rect, children', mode, he, h0, -⟩ := hb _ List.mem_cons_self
      cases he
      simp only at h0
      obtain ⟨h1, h2, h3⟩ := ih (add_nonneg hx h0) hfs (fun f hf => hb f (by simp [hf])) (fun f hf => hfirm f (by simp [hf]))
        (fun f hf => hrow f (by simp [hf])) (fun l hl => hw l (by simp [hl])) hs
      obtain ⟨rect, children', mode, he, hall, hfm⟩ := hfirm _ List.mem_cons_self
      cases he
      obtain ⟨rect, children', mode, z, he, hr, -⟩ := hrow _ List.mem_cons_self
      cases he
      obtain ⟨-, g2, -, g4⟩ := rowOf.bound (le_refl 0) children (le_refl 0) hr hfm (by
        intro t ht
        have hu' : t.flat ∈ l.texts := by
          rw [← htexts, ← pageTextsOf_flat ⟨0, 0⟩ children]
          exact List.mem_map_of_mem ht
        exact hw l (by simp) _ hu')
      refine ⟨by linarith, ⟨g4, h2⟩, ?_⟩
      intro e he
      rw [extentsOf, List.mem_append] at he
      rcases he with he | he
      · rw [Fragment.extents, Vec2.zero_add', extentsOf_at, List.mem_map] at he
        obtain ⟨e, he, rfl⟩ := he
        obtain ⟨k1, k2⟩ := hall e he
        have := g2 e he
        simp only at k1 k2
        simp only [Extent.move]
        refine ⟨by linarith, by linarith, by linarith⟩
      · obtain ⟨k1, k2, k3⟩ := h3 e he
        exact ⟨k1, by linarith, k3⟩

theorem layoutInline_bound (hF : Forward F) {boxes : List InlineLevelBox} {cb : ContainingBlock} {rank : Nat} {fc : FlowChildren}
    {as : List AbsolutelyPositionedFragment} (he : inlinesEvery Upright SizeOk boxes) (h : layoutInline F boxes cb rank [] = some (fc, as)) :
    ContentsBound fc := by
  have hall := inlinesEvery.all boxes he
  have hrel := inlineAll.imp (fun _ (h : Upright _) => h.notRelative) boxes hall
  obtain ⟨s, height, h1, -, h3, h4, -⟩ := C60_flow_partial F boxes cb rank fc as hrel h
  have hb := (band_invariant cb).layout (initial_band hall) h
  have hf := (firm_invariant cb).layout (initial_firm hall) h
  have hr := (rows_invariant cb).layout (initial_rows hrel) h
  have ht : Turned F FlatState.empty := ⟨by simp [FlatState.empty], by simp [FlatState.empty], by simp [FlatState.empty], .nil, by simp [FlatState.empty], rfl⟩
  have ht := (h1.turned hF he ht).newLine height
  have hw := (h1.wide hF he ⟨by simp [FlatState.empty], by simp [FlatState.empty]⟩).newLine height
  obtain ⟨-, k1, k2⟩ := bound_lines (le_refl 0) h3 hb hf hr hw.lines ht.stacked
  have hm := layoutInline_margins F cb rank _ _ _ _ _ h
  refine ⟨k1, fun e he => ?_, by rw [hm]; simp [CollapsedBlockMargins.zero]⟩
  obtain ⟨a, b, c⟩ := k2 e he
  rw [h4]
  exact ⟨a, .inr ⟨b, by simpa using c⟩⟩

/-! ### Block-level boxes -/

/-- What the layout of a box gives, before it is placed. -/
def Settled : Fragment → Prop
  | .box info children =>
    (Fragment.box info children).Bound false ∧
    0 ≤ info.contentRect.startCorner.inline - info.padding.inlineStart - info.border.inlineStart ∧
    (info.blockMarginsCollapsedWithChildren.collapsedThrough = true →
      info.borderBlockSize = 0 ∧ ∀ e ∈ extentsOf ⟨0, 0⟩ children, e.height = 0)
  | .anonymous _ children _ => children = []
  | .text _ _ _ => False

/-- A box that is placed. -/
theorem moved_extents {info : BoxInfo} {children : List Fragment} (h : Settled (.box info children)) (hst : Standing F (.box info children))
    (m : Rat) : (Fragment.box (info.moveBlock m) children).Bound false ∧
    ∀ e ∈ (Fragment.box (info.moveBlock m) children).extents ⟨0, 0⟩, 0 ≤ e.left ∧
      (e.height = 0 ∨ (m ≤ e.top ∧ e.top + e.height ≤ m + info.borderBlockSize)) ∧
      (info.blockMarginsCollapsedWithChildren.collapsedThrough = true → e.height = 0) := by
  obtain ⟨h1, h2, h3⟩ := h
  obtain ⟨s1, s2, s3, s4, -⟩ := hst
  have hb := h1
  rw [Fragment.Bound] at h1
  obtain ⟨⟨⟨a1, a2, a3, a4⟩, ⟨b1, b2, b3, b4⟩⟩, h4, -, -⟩ := h1
  refine ⟨hb, fun e he => ?_⟩
  rw [Fragment.extents, List.mem_cons, Vec2.zero_add', extentsOf_at, List.mem_map] at he
  rcases he with rfl | ⟨e, he, rfl⟩
  · simp only [BoxInfo.borderAt, BoxInfo.moveBlock, s1, BoxInfo.borderBlockSize, Sides.blockSum] at h3 ⊢
    refine ⟨by linarith, .inr ⟨by linarith, by linarith⟩, fun h => ?_⟩
    have := (h3 h).1
    linarith
  · obtain ⟨g1, g2⟩ := h4 e he
    simp only at g1 g2
    simp only [Extent.move, BoxInfo.moveBlock, s1, BoxInfo.borderBlockSize, Sides.blockSum]
    refine ⟨by linarith, g2.imp id fun h => ⟨by linarith, by linarith⟩, fun h => (h3 h).2 e he⟩

theorem placeFragment_bound {s s' : PlacementState} {f f' : Fragment} (hs : PlaceOk s) (hf : Standing F f) (hset : Settled f)
    (h : placeFragment s f = some (f', s')) :
    f'.Bound false ∧
    (∀ e ∈ f'.extents ⟨0, 0⟩, 0 ≤ e.left ∧
      (e.height = 0 ∨ (s.currentBlockDirectionPosition ≤ e.top ∧ e.top + e.height ≤ s'.currentBlockDirectionPosition))) ∧
    (s'.nextInFlowMarginCollapsesWithParentStartMargin = true →
      s.currentBlockDirectionPosition = s'.currentBlockDirectionPosition ∧ ∀ e ∈ f'.extents ⟨0, 0⟩, e.height = 0) := by
  cases f with
  | text style rect segment => exact absurd hf id
  | anonymous rect children mode =>
    simp only [placeFragment] at h
    split at h
    · simp only [Option.some.injEq, Prod.mk.injEq] at h
      obtain ⟨rfl, rfl⟩ := h
      have : children = [] := hf
      subst this
      exact ⟨trivial, by simp [Fragment.extents, extentsOf], fun _ => ⟨rfl, by simp [Fragment.extents, extentsOf]⟩⟩
    · cases h
  | box b children =>
    have hmoved := moved_extents hset hf
    obtain ⟨-, -, -, -, h5, -, -, -⟩ := hf
    simp only [placeFragment] at h
    split at h
    · rename_i hflag
      split at h
      · rename_i hzero
        split at h
        · rename_i hthrough
          simp only [Option.some.injEq, Prod.mk.injEq] at h
          obtain ⟨rfl, rfl⟩ := h
          obtain ⟨k1, k2⟩ := hmoved 0
          have e0 : b.moveBlock 0 = b := by simp [BoxInfo.moveBlock]
          rw [e0] at k1 k2
          exact ⟨k1, fun e he => ⟨(k2 e he).1, .inl ((k2 e he).2.2 hthrough)⟩, fun _ => ⟨rfl, fun e he => (k2 e he).2.2 hthrough⟩⟩
        · simp only [Option.some.injEq, Prod.mk.injEq] at h
          obtain ⟨rfl, rfl⟩ := h
          obtain ⟨k1, k2⟩ := hmoved (s.currentMargin.solve + s.currentBlockDirectionPosition)
          refine ⟨k1, fun e he => ⟨(k2 e he).1, (k2 e he).2.1.imp id fun h => ?_⟩, by simp⟩
          simp only
          exact ⟨by linarith [h.1, hs.current.solve], by linarith [h.2]⟩
      · cases h
    · rename_i hflag
      split at h
      · rename_i hthrough
        simp only [Option.some.injEq, Prod.mk.injEq] at h
        obtain ⟨rfl, rfl⟩ := h
        obtain ⟨k1, k2⟩ := hmoved ((s.currentMargin.adjoin b.blockMarginsCollapsedWithChildren.start).solve + s.currentBlockDirectionPosition)
        exact ⟨k1, fun e he => ⟨(k2 e he).1, .inl ((k2 e he).2.2 hthrough)⟩, fun h => absurd h hflag⟩
      · simp only [Option.some.injEq, Prod.mk.injEq] at h
        obtain ⟨rfl, rfl⟩ := h
        obtain ⟨k1, k2⟩ := hmoved ((s.currentMargin.adjoin b.blockMarginsCollapsedWithChildren.start).solve + s.currentBlockDirectionPosition)
        have h10 := (hs.current.adjoin h5).solve
        refine ⟨k1, fun e he => ⟨(k2 e he).1, (k2 e he).2.1.imp id fun h => ?_⟩, fun h => absurd h hflag⟩
        simp only
        exact ⟨by linarith [h.1], by linarith [h.2]⟩

theorem placeAll_bound : ∀ {fs fs' : List Fragment} {s s' : PlacementState}, PlaceOk s → (∀ f ∈ fs, Standing F f) → (∀ f ∈ fs, Settled f) →
    placeAll s fs = some (fs', s') →
    boundAll false fs' ∧
    (∀ e ∈ extentsOf ⟨0, 0⟩ fs', 0 ≤ e.left ∧
      (e.height = 0 ∨ (s.currentBlockDirectionPosition ≤ e.top ∧ e.top + e.height ≤ s'.currentBlockDirectionPosition))) ∧
    (s'.nextInFlowMarginCollapsesWithParentStartMargin = true →
      s.currentBlockDirectionPosition = s'.currentBlockDirectionPosition ∧ ∀ e ∈ extentsOf ⟨0, 0⟩ fs', e.height = 0) := by
  intro fs
  induction fs with
  | nil =>
    intro fs' s s' hs _ _ h
    simp only [placeAll, Option.some.injEq, Prod.mk.injEq] at h
    obtain ⟨rfl, rfl⟩ := h
    exact ⟨trivial, by simp [extentsOf], fun _ => ⟨rfl, by simp [extentsOf]⟩⟩
  | cons f fs ih =>
    intro fs' s s' hs hf hset h
    simp only [placeAll] at h
    rcases hp : placeFragment s f with _ | ⟨f1, s1⟩
    · simp [hp] at h
    · simp only [hp] at h
      rcases ha : placeAll s1 fs with _ | ⟨fs1, s2⟩
      · simp [ha] at h
      · simp only [ha, Option.some.injEq, Prod.mk.injEq] at h
        obtain ⟨rfl, rfl⟩ := h
        obtain ⟨p1, p2, -⟩ := placeFragment_lined hs (hf f (by simp)) hp
        obtain ⟨-, q2, -⟩ := placeAll_lined p1 (fun f hf' => hf f (by simp [hf'])) ha
        obtain ⟨a1, a2, a3⟩ := placeFragment_bound hs (hf f (by simp)) (hset f (by simp)) hp
        obtain ⟨b1, b2, b3⟩ := ih p1 (fun f hf' => hf f (by simp [hf'])) (fun f hf' => hset f (by simp [hf'])) ha
        refine ⟨⟨a1, b1⟩, fun e he => ?_, fun h => ?_⟩
        · rw [extentsOf, List.mem_append] at he
          rcases he with he | he
          · exact ⟨(a2 e he).1, (a2 e he).2.imp id fun h => ⟨h.1, by linarith [h.2]⟩⟩
          · exact ⟨(b2 e he).1, (b2 e he).2.imp id fun h => ⟨by linarith [h.1], h.2⟩⟩
        · obtain ⟨c1, c2⟩ := b3 h
          obtain ⟨d1, d2⟩ := a3 (placeAll_flag ha h)
          refine ⟨d1.trans c1, fun e he => ?_⟩
          rw [extentsOf, List.mem_append] at he
          exact he.elim (d2 e) (c2 e)

/-- Upright, and not centred. -/
def PlainUpright (s : ComputedValues) : Prop := Upright s ∧ PlainLeft s

theorem PlainUpright.left {s : ComputedValues} (h : PlainUpright s) (cb : ContainingBlock) : 0 ≤ (inFlowSizes cb s).margin.inlineStart := by
  have h1 := h.1.marginLeft.used cb.inlineSize
  have h2 := inFlow_margin_inline cb s
  have e : (s.values .marginLeft : LengthOrPercentageOrAuto) = Css.marginLeft s := rfl
  rw [e] at h1
  have h2 := congrArg Prod.fst h2
  simp only at h2
  rw [h2]
  have h3 := h.2
  unfold PlainLeft at h3
  cases hw : Css.widthProperty s <;> cases hl : Css.marginLeft s <;> simp only [hw, hl] at h1 h3 ⊢ <;>
    first
      | exact h1
      | (cases Css.marginRight s <;> first | exact h1 | simp at h3)

theorem ContentsBound.finish {fc : FlowChildren} (hok : ContentsOk F fc) (h : ContentsBound fc) : ContentsBound fc.finishBlockFormattingContext := by
  have := hok.end.solve
  refine ⟨h.bound, fun e he => ?_, by simp [FlowChildren.finishBlockFormattingContext]⟩
  obtain ⟨h1, h2⟩ := h.under e he
  refine ⟨h1, h2.imp id fun h => ⟨h.1, ?_⟩⟩
  have h3 := h.2
  simp only [FlowChildren.finishBlockFormattingContext] at h3 ⊢
  linarith

theorem layoutInFlow_settled {cb : ContainingBlock} {style : ComputedValues} {kind : BlockLevelKind}
    {lc : ContainingBlock → Absolutes → Bool → Option (FlowChildren × Absolutes)}
    {la : DefiniteContainingBlock → Nat → AbsolutelyPositionedFragment → Option Fragment} {f : Fragment} {as : Absolutes}
    (hu : PlainUpright style) (hlc : ∀ cb coll fc as, lc cb [] coll = some (fc, as) → ContentsOk F fc ∧ ContentsBound fc)
    (h : layoutInFlow cb [] style kind lc la = some (f, as)) : Settled f := by
  have hleft := hu.left cb
  obtain ⟨hu, -⟩ := hu
  obtain ⟨fc, as', info, children, hl, rfl, -, hpad, hbor, -, hstart, hsize, hmargins, hch, -⟩ := layoutInFlow_some h
  obtain ⟨ok, okb⟩ := hlc _ _ _ _ hl
  have hp : (positionOf style).isRelativelyPositioned = false := by rw [hu.position]; rfl
  rw [hp] at hch
  simp only [Bool.false_eq_true, if_false] at hch
  obtain ⟨-, rfl⟩ := hch
  have hh : Css.height cb style = .auto := by
    have := hu.height
    simp only [Css.heightProperty] at this
    simp [Css.height, this]
  have hrel : relativeAdjustement style (Css.width cb style) (Css.height cb style) = Vec2.zero := relativeAdjustement_static hu.notRelative _ _
  rw [hh] at hsize
  have hle : fc.blockSize ≤ info.contentRect.size.block := by
    rw [hsize]
    simp only [LengthOrAuto.autoIs, collapseWithChildren]
    have h1 := ok.end.solve
    split
    · exact le_refl _
    · split
      · simp [CollapsedMargin.zero, CollapsedMargin.solve]
      · linarith
  refine ⟨⟨⟨?_, ?_⟩, fun e he => ?_, by simp, okb.bound⟩, ?_, ?_⟩
  · rw [hpad]; exact hu.padding_nonneg _
  · rw [hbor]; exact hu.border_nonneg _
  · obtain ⟨k1, k2⟩ := okb.under e he
    refine ⟨k1, k2.imp id fun h => ⟨h.1, ?_⟩⟩
    have := h.2
    simp only at this ⊢
    linarith
  · rw [hstart, hpad, hbor, inFlow_padding, inFlow_border, hrel]
    simp only [Vec2.zero]
    linarith
  · rw [hmargins]
    intro ht
    simp only [collapseWithChildren, Bool.and_eq_true, decide_eq_true_eq] at ht
    obtain ⟨⟨⟨t1, t2⟩, t3, t4⟩, t5⟩ := ht
    obtain ⟨k1, k2⟩ := okb.through t5
    refine ⟨?_, k2⟩
    have e1 : Css.paddingTop cb style + Css.borderTop cb style = 0 := by simpa [Css.startCollapses] using t2
    have e2 : Css.paddingBottom cb style + Css.borderBottom cb style = 0 := by
      simp only [Css.endCollapses, Bool.and_eq_true, decide_eq_true_eq] at t4
      exact t4.1
    rw [BoxInfo.borderBlockSize, hsize, hpad, hbor, inFlow_padding, inFlow_border]
    simp only [LengthOrAuto.autoIs, collapseWithChildren, t1, t3, t4, Bool.and_self, decide_true, if_true, k1, Sides.blockSum]
    linarith

mutual
theorem BlockContainer.Every.imp {P Q T : ComputedValues → Prop} (hPQ : ∀ s, P s → Q s) : ∀ c : BlockContainer, c.Every P T → c.Every Q T
  | .blockLevelBoxes boxes, h => by
    rw [BlockContainer.Every] at h ⊢
    exact blocksEvery.imp hPQ boxes h
  | .inlineFormattingContext boxes, h => by
    rw [BlockContainer.Every] at h ⊢
    exact inlinesEvery.imp hPQ boxes h
theorem BlockLevelBox.Every.imp {P Q T : ComputedValues → Prop} (hPQ : ∀ s, P s → Q s) : ∀ b : BlockLevelBox, b.Every P T → b.Every Q T
  | .sameFormattingContextBlock _ contents, h => ⟨hPQ _ h.1, BlockContainer.Every.imp hPQ contents h.2⟩
  | .outOfFlowAbsolutelyPositioned _ _ contents, h => ⟨hPQ _ h.1, BlockContainer.Every.imp hPQ contents h.2⟩
  | .outOfFlowFloat _ _ contents, h => ⟨hPQ _ h.1, BlockContainer.Every.imp hPQ contents h.2⟩
  | .independent _ _ contents, h => ⟨hPQ _ h.1, BlockContainer.Every.imp hPQ contents h.2⟩
theorem blocksEvery.imp {P Q T : ComputedValues → Prop} (hPQ : ∀ s, P s → Q s) : ∀ bs : List BlockLevelBox, blocksEvery P T bs → blocksEvery Q T bs
  | [], _ => trivial
  | b :: bs, h => ⟨BlockLevelBox.Every.imp hPQ b h.1, blocksEvery.imp hPQ bs h.2⟩
theorem InlineLevelBox.Every.imp {P Q T : ComputedValues → Prop} (hPQ : ∀ s, P s → Q s) : ∀ b : InlineLevelBox, b.Every P T → b.Every Q T
  | .inlineBox _ _ _ children, h => ⟨hPQ _ h.1, inlinesEvery.imp hPQ children h.2⟩
  | .textRun _ _, h => h
  | .outOfFlowAbsolutelyPositioned _ _ contents, h => ⟨hPQ _ h.1, BlockContainer.Every.imp hPQ contents h.2⟩
  | .outOfFlowFloat _ _ contents, h => ⟨hPQ _ h.1, BlockContainer.Every.imp hPQ contents h.2⟩
theorem inlinesEvery.imp {P Q T : ComputedValues → Prop} (hPQ : ∀ s, P s → Q s) : ∀ bs : List InlineLevelBox, inlinesEvery P T bs → inlinesEvery Q T bs
  | [], _ => trivial
  | b :: bs, h => ⟨InlineLevelBox.Every.imp hPQ b h.1, inlinesEvery.imp hPQ bs h.2⟩
end

/-- Layout of boxes that are upright and not centred. -/
theorem layout_bound (hF : Forward F) : ∀ (fuel : Nat),
    (∀ c cb rank collapsible fc as, c.Every PlainUpright SizeOk → layoutContainer F fuel inOrder c cb rank [] false collapsible = some (fc, as) →
      ContentsBound fc) ∧
    (∀ b cb rank f as, b.Every PlainUpright SizeOk → layoutBox F fuel inOrder b cb rank [] false = some (f, as) → Settled f) := by
  intro fuel
  induction fuel with
  | zero => exact ⟨by intros; simp_all [layoutContainer], by intros; simp_all [layoutBox]⟩
  | succ fuel ih =>
    obtain ⟨ihc, ihb⟩ := ih
    obtain ⟨okc, okb⟩ := layout_lined hF (F := F) fuel
    have hup : ∀ s, PlainUpright s → Upright s := fun _ h => h.1
    have hp := layout_prepend F fuel
    refine ⟨?_, ?_⟩
    · intro c cb rank collapsible fc as he h
      cases c with
      | blockLevelBoxes boxes =>
        simp only [layoutContainer] at h
        rw [layoutChildren_eq (g := fun rank b => layoutBox F fuel inOrder b cb rank [] false)
              (fun rank b absolute => hp.2.1 _ b cb rank absolute false), prepend_nil] at h
        obtain ⟨fs, as', s, hseq, hplace, hsize, hmargins, -⟩ := canonicalChildren_some h
        have hst := seqChildren_forall₂ (P := fun b f => b.Every PlainUpright SizeOk → Standing F f ∧ Settled f)
          (fun rank b f as hb hu => ⟨okb b cb rank f as (BlockLevelBox.Every.imp hup b hu) hb, ihb b cb rank f as hu hb⟩)
          _ _ _ _ hseq
        have hall : ∀ f ∈ fs, Standing F f ∧ Settled f := by
          clear hplace hseq h
          simp only [BlockContainer.Every] at he
          induction hst with
          | nil => simp
          | cons h1 _ ih =>
            intro f hf
            rcases List.mem_cons.1 hf with rfl | hf
            · exact h1 he.1
            · exact ih he.2 f hf
        obtain ⟨q1, q2, q3⟩ := placeAll_bound (s := .initial collapsible) ⟨.zero, .zero⟩ (fun f hf => (hall f hf).1) (fun f hf => (hall f hf).2) hplace
        have h0 : (PlacementState.initial collapsible).currentBlockDirectionPosition = 0 := rfl
        rw [h0] at q2 q3
        refine ⟨q1, fun e he => ?_, ?_⟩
        · rw [hsize]
          obtain ⟨a, b⟩ := q2 e he
          exact ⟨a, b.imp id fun h => ⟨h.1, by simpa using h.2⟩⟩
        · rw [hmargins, hsize]
          exact fun h => ⟨(q3 h).1.symm, (q3 h).2⟩
      | inlineFormattingContext boxes =>
        simp only [layoutContainer] at h
        exact layoutInline_bound hF (inlinesEvery.imp hup boxes he) h
    · intro b cb rank f as he h
      cases b with
      | sameFormattingContextBlock style contents =>
        simp only [layoutBox] at h
        exact layoutInFlow_settled (F := F) he.1 (fun cb coll fc as hl => by
          rw [hp.1 (inOrder.sub 0), prepend_nil] at hl
          exact ⟨okc contents cb rank coll fc as (BlockContainer.Every.imp hup contents he.2) hl, ihc contents cb rank coll fc as he.2 hl⟩) h
      | independent style floats contents =>
        simp only [layoutBox] at h
        refine layoutInFlow_settled (F := F) he.1 (fun cb coll fc as hl => ?_) h
        rw [hp.1 (inOrder.sub 0), prepend_nil] at hl
        rcases h1 : layoutContainer F fuel inOrder contents cb rank [] false false with _ | ⟨fc1, as1⟩
        · simp [h1, mapFst] at hl
        · rw [h1] at hl
          simp only [mapFst] at hl
          cases hl
          have k := okc contents cb rank false fc1 _ (BlockContainer.Every.imp hup contents he.2) h1
          exact ⟨k.finish, (ihc contents cb rank false fc1 _ he.2 h1).finish k⟩
      | outOfFlowAbsolutelyPositioned style floats contents =>
        simp only [layoutBox] at h
        cases h
        rfl
      | outOfFlowFloat style floats contents =>
        simp only [layoutBox] at h
        cases h
        rfl

/-- A whole page. -/
theorem layoutRoot_bound (hF : Forward F) {fuel : Nat} {s : Oracle} {root : BlockFormattingContext} {viewport : Vec2 Rat}
    {fragments : List Fragment} (he : root.contents.Every PlainUpright SizeOk) (hno : root.contents.Only NoAbsolutes)
    (h : layoutRoot F fuel s root viewport = some fragments) :
    boundAll false fragments ∧ ∀ e ∈ extentsOf ⟨0, 0⟩ fragments, 0 ≤ e.left ∧ (e.height = 0 ∨ 0 ≤ e.top) := by
  simp only [layoutRoot, BlockFormattingContext.layout] at h
  rw [(layout_prepend F fuel).1 (s.sub 0), prepend_nil] at h
  rcases h1 : layoutContainer F fuel inOrder root.contents ⟨viewport.inline, .length viewport.block, (.horizontalTb, .ltr)⟩ 0 [] false
    false with _ | ⟨fc, as⟩
  · simp [h1, mapFst] at h
  · simp only [h1, mapFst] at h
    have ok := (layout_bound hF fuel).1 _ _ _ _ _ _ he h1
    obtain ⟨extra, c⟩ := (layout_collect (F := F) (fun _ => ([] : List Unit)) fuel).1 _ _ _ _ _ _ h1
    obtain ⟨rfl, -⟩ := c.order hno
    simp only [layoutAll, List.append_nil] at h
    cases h
    exact ⟨ok.bound, fun e he => ⟨(ok.under e he).1, (ok.under e he).2.imp id fun h => h.1⟩⟩

end Verif.Layout
