/- C109: moving a positioned element moves it with all that is in it, and nothing else. -/
import Verif.Layout.MoveSpec
import Verif.Layout.FitsBuild
import Verif.Layout.ApplyTheorems
import Verif.Layout.BoundTheorems
import Verif.Layout.CollapseTheorems
namespace Verif.Layout
open Verif.Style Verif.Style.Spec Verif.Text Verif.Pdf Verif.Dom

/-! ### Styles of elements that are not displaced -/

/-- How an element can be moved along an axis. -/
inductive Slide where
  | still
  | relative
  | absolute
deriving DecidableEq

/-- See `Slide`. -/
def slideOf (s : ComputedValues) (sized : Bool) : Slide :=
  if blockLevel s then
    match positionOf s with
    | .static => .still
    | .relative => .relative
    | .absolute => if sized then .absolute else .still
  else .still

/-- The offsets of an element that is not displaced. -/
def settleAxis (k : Slide) (start end_ : LengthOrPercentageOrAuto) : LengthOrPercentageOrAuto × LengthOrPercentageOrAuto :=
  match k with
  | .still => (start, end_)
  | .relative => if IsFixed start && IsFixed end_ then (.auto, .auto) else (start, end_)
  | .absolute =>
    match start, end_ with
    | .length _, .auto => (.length 0, .auto)
    | .auto, .length _ => (.auto, .length 0)
    | start, end_ => (start, end_)

/-- How far the element is moved if it is no longer displaced. -/
def moveAxis (k : Slide) (start end_ : LengthOrPercentageOrAuto) : Rat :=
  match k with
  | .still => 0
  | .relative => if IsFixed start && IsFixed end_ then -offsetShift start end_ else 0
  | .absolute =>
    match start, end_ with
    | .length l, .auto => -l
    | .auto, .length e => e
    | _, _ => 0

/-- The width is given. -/
def hasWidth (s : ComputedValues) : Bool :=
  match (s.values .width : LengthOrPercentageOrAuto) with
  | .auto => false
  | _ => true

theorem hasWidth_iff (s : ComputedValues) : hasWidth s = true ↔ s.values .width ≠ .auto := by
  unfold hasWidth
  generalize (s.values .width : LengthOrPercentageOrAuto) = w
  cases w
  · exact ⟨fun _ => (by rintro ⟨⟩), fun _ => rfl⟩
  · exact ⟨fun _ => (by rintro ⟨⟩), fun _ => rfl⟩
  · exact ⟨(by rintro ⟨⟩), fun h => absurd rfl h⟩

/-- The style of an element that is not displaced. -/
def settle (s : ComputedValues) : ComputedValues :=
  ⟨fun p => match p with
    | .left => (settleAxis (slideOf s (hasWidth s)) (s.values .left) (s.values .right)).1
    | .right => (settleAxis (slideOf s (hasWidth s)) (s.values .left) (s.values .right)).2
    | .top => (settleAxis (slideOf s true) (s.values .top) (s.values .bottom)).1
    | .bottom => (settleAxis (slideOf s true) (s.values .top) (s.values .bottom)).2
    | p => s.values p, s.specifiedDisplay⟩

/-- See `moveAxis`. -/
def settleMove (s : ComputedValues) : Vec2 Rat :=
  ⟨moveAxis (slideOf s (hasWidth s)) (s.values .left) (s.values .right), moveAxis (slideOf s true) (s.values .top) (s.values .bottom)⟩

/-- Layout moves elements that are displaced, and nothing else. -/
def moveDye : Dye where
  box := settle
  text := textLook
  move := settleMove
  padding _ := rfl
  border _ := rfl
  margin _ := rfl
  position _ := rfl
  specified _ := rfl
  fontSize _ := rfl
  anonymous s := by
    have e : ∀ a b : ComputedValues, a.values = b.values → a.specifiedDisplay = b.specifiedDisplay → a = b := by
      rintro ⟨v, d⟩ ⟨w, e⟩ rfl rfl
      rfl
    refine e _ _ (funext fun p => ?_) rfl
    cases p <;> rfl

/-! ### What layout does with these styles -/

theorem adjust_settle {k : Slide} (hk : k ≠ .absolute) (a b : LengthOrPercentageOrAuto) (x : Rat) :
    adjust (autoPercentageRelativeTo (settleAxis k a b).1 x) (autoPercentageRelativeTo (settleAxis k a b).2 x) =
      adjust (autoPercentageRelativeTo a x) (autoPercentageRelativeTo b x) + moveAxis k a b := by
  cases k with
  | still => simp [settleAxis, moveAxis]
  | absolute => exact absurd rfl hk
  | relative => cases a <;> cases b <;> simp [settleAxis, moveAxis, IsFixed, autoPercentageRelativeTo, adjust, offsetShift] <;> grind

theorem offsets_settle {k : Slide} (hk : k ≠ .relative) (a b : LengthOrPercentageOrAuto) (x : Rat) :
    absoluteBoxOffsets x (settleAxis k a b).1 (settleAxis k a b).2 = (absoluteBoxOffsets x a b).slide (moveAxis k a b) := by
  cases k with
  | still => simp [settleAxis, moveAxis, AbsoluteBoxOffsets.slide_zero]
  | relative => exact absurd rfl hk
  | absolute =>
    cases a <;> cases b <;> simp [settleAxis, moveAxis, absoluteBoxOffsets, nonAuto, AbsoluteBoxOffsets.slide] <;> grind

theorem slides_settle {k : Slide} (hk : k ≠ .relative) {sized : Prop} (hs : k = .absolute → sized) (a b : LengthOrPercentageOrAuto) (x : Rat) :
    (absoluteBoxOffsets x a b).Slides (moveAxis k a b) sized := by
  cases k with
  | still => exact .inl rfl
  | relative => exact absurd rfl hk
  | absolute =>
    cases a <;> cases b <;> first
      | exact .inl rfl
      | exact .inr ⟨hs rfl, .inl ⟨_, rfl⟩⟩
      | exact .inr ⟨hs rfl, .inr ⟨_, rfl⟩⟩

theorem slideOf_still {s : ComputedValues} {b : Bool} (h : positionOf s = .static ∨ blockLevel s = false) : slideOf s b = .still := by
  unfold slideOf
  rcases h with h | h
  · simp [h]
  · simp [h]

theorem slideOf_absolute {s : ComputedValues} {b : Bool} (h : slideOf s b = .absolute) : positionOf s = .absolute ∧ b = true := by
  unfold slideOf at h
  split at h
  · split at h
    · cases h
    · cases h
    · split at h
      · rename_i h1 h2
        exact ⟨h1, h2⟩
      · cases h
  · cases h

theorem slideOf_relative {s : ComputedValues} {b : Bool} (h : slideOf s b = .relative) : positionOf s = .relative := by
  unfold slideOf at h
  split at h
  · split at h
    · cases h
    · assumption
    · split at h <;> cases h
  · cases h

theorem settle_offsets (s : ComputedValues) : boxOffsets (settle s) =
    ⟨(settleAxis (slideOf s (hasWidth s)) (boxOffsets s).inlineStart (boxOffsets s).inlineEnd).1,
     (settleAxis (slideOf s (hasWidth s)) (boxOffsets s).inlineStart (boxOffsets s).inlineEnd).2,
     (settleAxis (slideOf s true) (boxOffsets s).blockStart (boxOffsets s).blockEnd).1,
     (settleAxis (slideOf s true) (boxOffsets s).blockStart (boxOffsets s).blockEnd).2⟩ := rfl

theorem settle_still {s : ComputedValues} (h : positionOf s = .static ∨ blockLevel s = false) :
    boxOffsets (settle s) = boxOffsets s ∧ settleMove s = Vec2.zero := by
  rw [settle_offsets]
  unfold settleMove
  rw [slideOf_still h, slideOf_still h]
  exact ⟨rfl, rfl⟩

theorem settle_flow {s : ComputedValues} (h : positionOf s ≠ .absolute) : moveDye.KeepsFlow s := by
  refine ⟨rfl, fun i b => ?_, fun hr => ?_⟩
  · have k1 : slideOf s (hasWidth s) ≠ .absolute := fun k => h (slideOf_absolute k).1
    have k2 : slideOf s true ≠ .absolute := fun k => h (slideOf_absolute k).1
    simp only [relativeAdjustement]
    rw [show positionOf (moveDye.box s) = positionOf s from rfl]
    split
    · rw [show moveDye.box s = settle s from rfl, settle_offsets]
      simp only [Sides.mapInlineAndBlockAxes, adjust_settle k1, adjust_settle k2]
      rfl
    · rename_i hr
      have : positionOf s = .static := by
        revert hr h
        cases positionOf s <;> simp [Position.isRelativelyPositioned]
      rw [show moveDye.move s = settleMove s from rfl, (settle_still (.inl this)).2, add_zero_vec]
  · have : positionOf s = .static := by
      revert hr h
      cases positionOf s <;> simp [Position.isRelativelyPositioned]
    exact (settle_still (.inl this)).2

theorem settle_place {s : ComputedValues} (h : positionOf s = .absolute) : moveDye.KeepsPlace s := by
  have k1 : slideOf s (hasWidth s) ≠ .relative := fun k => by rw [slideOf_relative k] at h; cases h
  have k2 : slideOf s true ≠ .relative := fun k => by rw [slideOf_relative k] at h; cases h
  refine ⟨rfl, fun x => ?_⟩
  rw [show moveDye.box s = settle s from rfl, settle_offsets]
  exact ⟨offsets_settle k1 _ _ x, offsets_settle k2 _ _ x,
    slides_settle k1 (fun k => (hasWidth_iff s).1 (slideOf_absolute k).2) _ _ x, slides_settle k2 (fun _ => trivial) _ _ x⟩

theorem moveDye_suits : moveDye.Suits where
  block _ _ _ h := settle_flow h
  absolute _ _ _ h := settle_place h
  inline s h := by
    have k := settle_still (s := s) (.inr (by simp [blockLevel, h]))
    refine ⟨fun i b => ?_, k.2⟩
    simp only [relativeAdjustement]
    rw [show positionOf (moveDye.box s) = positionOf s from rfl, show boxOffsets (moveDye.box s) = boxOffsets s from k.1]
  anonymous s := settle_flow (by
    rw [show positionOf (ComputedValues.anonymousInheritingFrom (some s)) = .static from rfl]
    simp)

theorem moveDye_root (s : ComputedValues) : if positionOf s = .absolute then moveDye.KeepsPlace s else moveDye.KeepsFlow s := by
  split
  · exact settle_place (by assumption)
  · exact settle_flow (by assumption)

/-! ### Styles that are the same but for the places -/

theorem settleAxis_eq {s : ComputedValues} {sized : Prop} {b : Bool} (hb : sized → b = true) {start end_ start' end_' : LengthOrPercentageOrAuto}
    (h : SameOrMoved s sized start end_ start' end_') : settleAxis (slideOf s b) start end_ = settleAxis (slideOf s b) start' end_' := by
  rcases h with ⟨rfl, rfl⟩ | ⟨h1, h2, h3, h4, h5, h6⟩ | ⟨h1, h2, h3, h4⟩
  · rfl
  · simp [slideOf, h1, h2, settleAxis, h3, h4, h5, h6]
  · rcases h4 with ⟨l, l', rfl, rfl, rfl, rfl⟩ | ⟨l, l', rfl, rfl, rfl, rfl⟩ <;> simp [slideOf, h1, h2, hb h3, settleAxis]

theorem settleAxis_same {k : Slide} {a b a' b' : LengthOrPercentageOrAuto} (h : settleAxis k a b = settleAxis k a' b') :
    ((a = a' ∧ b = b') ∨ (k = .relative ∧ IsFixed a = true ∧ IsFixed b = true ∧ IsFixed a' = true ∧ IsFixed b' = true) ∨
      (k = .absolute ∧ OneOffset a b a' b')) ∧
    moveAxis k a b + (offsetShift a b - offsetShift a' b') = moveAxis k a' b' := by
  cases k with
  | still =>
    simp only [settleAxis, Prod.mk.injEq] at h
    obtain ⟨rfl, rfl⟩ := h
    exact ⟨.inl ⟨rfl, rfl⟩, by simp only [moveAxis]; grind⟩
  | relative =>
    cases a <;> cases b <;> cases a' <;> cases b' <;> simp [settleAxis, IsFixed] at h <;>
      simp_all [IsFixed, moveAxis, offsetShift] <;> grind
  | absolute =>
    cases a <;> cases b <;> cases a' <;> cases b' <;> simp [settleAxis] at h <;>
      simp_all [OneOffset, moveAxis, offsetShift] <;> grind

theorem SameButPlace.slide {s s' : ComputedValues} (h : SameButPlace s s') (b : Bool) : slideOf s b = slideOf s' b ∧ hasWidth s = hasWidth s' := by
  have h1 : displayOf s = displayOf s' := h.values .display rfl
  have h2 : positionOf s = positionOf s' := h.values .position rfl
  have h3 : (s.values .width : LengthOrPercentageOrAuto) = s'.values .width := h.values .width rfl
  unfold slideOf blockLevel hasWidth
  rw [h1, h2, h3]
  exact ⟨rfl, rfl⟩

theorem SameButPlace.settle {s s' : ComputedValues} (h : SameButPlace s s') : settle s = settle s' := by
  have e1 := settleAxis_eq (b := hasWidth s) (hasWidth_iff s).2 h.horizontal
  have e2 := settleAxis_eq (b := true) (fun _ => rfl) h.vertical
  have k := h.slide
  unfold Layout.settle
  rw [h.specified, ← (k true).2, ← (k (hasWidth s)).1, ← (k true).1, ← e1, ← e2]
  congr 1
  funext p
  cases p <;> first | rfl | exact h.values _ rfl

theorem specified_of {s s' : ComputedValues} (h : Layout.settle s = Layout.settle s') : s.specifiedDisplay = s'.specifiedDisplay := by
  have e : (Layout.settle s).specifiedDisplay = (Layout.settle s').specifiedDisplay := by rw [h]
  exact e

/-- What is the same once nothing is displaced is the same but for the places. -/
theorem sameButPlace_of {s s' : ComputedValues} (h : Layout.settle s = Layout.settle s') : SameButPlace s s' ∧
    (settleMove s).inline + ((displaced s).inline - (displaced s').inline) = (settleMove s').inline ∧
    (settleMove s).block + ((displaced s).block - (displaced s').block) = (settleMove s').block := by
  have hv : ∀ p, (Layout.settle s).values p = (Layout.settle s').values p := fun p => by rw [h]
  have hp : ∀ p, OffsetProperty p = false → s.values p = s'.values p := by
    intro p hp
    have := hv p
    cases p <;> first | exact this | cases hp
  have h1 : displayOf s = displayOf s' := hp .display rfl
  have h2 : positionOf s = positionOf s' := hp .position rfl
  have h3 : (s.values .width : LengthOrPercentageOrAuto) = s'.values .width := hp .width rfl
  have k : ∀ b, slideOf s b = slideOf s' b := by
    intro b
    unfold slideOf blockLevel
    rw [h1, h2]
  have kw : hasWidth s = hasWidth s' := by
    unfold hasWidth
    rw [h3]
  have e1 : settleAxis (slideOf s (hasWidth s)) (s.values .left) (s.values .right) =
      settleAxis (slideOf s (hasWidth s)) (s'.values .left) (s'.values .right) := by
    refine Prod.ext (hv .left) (hv .right) |>.trans ?_
    rw [k, kw]
  have e2 : settleAxis (slideOf s true) (s.values .top) (s.values .bottom) =
      settleAxis (slideOf s true) (s'.values .top) (s'.values .bottom) := by
    refine Prod.ext (hv .top) (hv .bottom) |>.trans ?_
    rw [k]
  have moved : ∀ {b : Bool} {sized : Prop} {x y x' y' : LengthOrPercentageOrAuto}, (b = true → sized) →
      ((x = x' ∧ y = y') ∨ (slideOf s b = .relative ∧ IsFixed x = true ∧ IsFixed y = true ∧ IsFixed x' = true ∧ IsFixed y' = true) ∨
      (slideOf s b = .absolute ∧ OneOffset x y x' y')) → SameOrMoved s sized x y x' y' := by
    intro b sized x y x' y' hb hxy
    have hblock : slideOf s b ≠ .still → blockLevel s = true := by
      intro hk
      rcases hbl : blockLevel s with _ | _
      · exact absurd (slideOf_still (.inr hbl)) hk
      · rfl
    rcases hxy with hxy | ⟨hk, hxy⟩ | ⟨hk, hxy⟩
    · exact .inl hxy
    · exact .inr (.inl ⟨hblock (by simp [hk]), slideOf_relative hk, hxy⟩)
    · exact .inr (.inr ⟨hblock (by simp [hk]), (slideOf_absolute hk).1, hb (slideOf_absolute hk).2, hxy⟩)
  obtain ⟨a1, a2⟩ := settleAxis_same e1
  obtain ⟨b1, b2⟩ := settleAxis_same e2
  refine ⟨⟨hp, specified_of h, moved (hasWidth_iff s).1 a1, moved (fun _ => trivial) b1⟩, ?_, ?_⟩
  · simp only [settleMove, displaced, ← k, ← kw]
    exact a2
  · simp only [settleMove, displaced, ← k]
    exact b2

mutual
theorem StyledNode.SameButPlace.alike : ∀ (n n' : StyledNode) (p p' : ComputedValues) (ns ns' : List StyledNode), n.SameButPlace n' →
    AlikeBut moveDye p p' ns ns' → AlikeBut moveDye p p' (n :: ns) (n' :: ns')
  | .ignored, .ignored, _, _, _, _, _, hr => .ignored hr
  | .text _, .text _, _, _, _, _, h, hr => by
    rw [StyledNode.SameButPlace] at h
    subst h
    exact .text hr
  | .element s ch, .element s' ch', _, _, _, _, h, hr => by
    rw [StyledNode.SameButPlace] at h
    exact .element h.1.settle (textLook_eq (Prod.ext (h.1.values .fontSize rfl) (h.1.values .color rfl))) (h.1.values .display rfl)
      (h.1.values .position rfl) (h.1.values .float rfl) (nodesSameButPlace_alike ch ch' s s' h.2) hr
  | .ignored, .text _, _, _, _, _, h, _ | .ignored, .element _ _, _, _, _, _, h, _ | .text _, .ignored, _, _, _, _, h, _
  | .text _, .element _ _, _, _, _, _, h, _ | .element _ _, .ignored, _, _, _, _, h, _ | .element _ _, .text _, _, _, _, _, h, _ => by
    rw [StyledNode.SameButPlace] at h
    exact h.elim
    all_goals simp
theorem nodesSameButPlace_alike : ∀ (ns ns' : List StyledNode) (p p' : ComputedValues), nodesSameButPlace ns ns' → AlikeBut moveDye p p' ns ns'
  | [], [], _, _, _ => .nil
  | n :: ns, n' :: ns', p, p', h => by
    rw [nodesSameButPlace] at h
    exact StyledNode.SameButPlace.alike n n' p p' ns ns' h.1 (nodesSameButPlace_alike ns ns' p p' h.2)
  | [], _ :: _, _, _, h | _ :: _, [], _, _, h => by
    rw [nodesSameButPlace] at h
    exact h.elim
    all_goals simp
end

/-! ### What is on the page -/

theorem look_of {s s' : ComputedValues} (h : textLook s = textLook s') : look s = look s' := by
  have e : ∀ p, (textLook s).values p = (textLook s').values p := fun p => by rw [h]
  exact Prod.ext (e .fontSize) (e .color)

mutual
theorem Fragment.item_moved : ∀ (f f' : Fragment) (o d : Vec2 Rat), dyeFragment moveDye f = dyeFragment moveDye f' →
    (f.item o).Moved d (f'.item (o.add d))
  | .box i ch, .box i' ch', o, d, h => by
    rw [dyeFragment, dyeFragment, Fragment.box.injEq] at h
    obtain ⟨h1, h2⟩ := h
    simp only [dyeInfo, BoxInfo.mk.injEq, Rect.mk.injEq] at h1
    obtain ⟨e1, ⟨e2, e3⟩, e4, e5, -, -⟩ := h1
    obtain ⟨k1, k2, k3⟩ := sameButPlace_of (s := i.style) (s' := i'.style) e1
    have e6 : i.contentRect.startCorner.inline + (settleMove i.style).inline = i'.contentRect.startCorner.inline + (settleMove i'.style).inline :=
      congrArg Vec2.inline e2
    have e7 : i.contentRect.startCorner.block + (settleMove i.style).block = i'.contentRect.startCorner.block + (settleMove i'.style).block :=
      congrArg Vec2.block e2
    have e8 : (o.add d).add i'.contentRect.startCorner = (o.add i.contentRect.startCorner).add (d.shifted i.style i'.style) := by
      simp only [Vec2.add, Vec2.shifted, Vec2.mk.injEq]
      constructor <;> grind
    rw [Fragment.item, Fragment.item, PageItem.Moved]
    refine ⟨k1, ?_, ?_, ?_⟩
    · simp only [BoxInfo.borderAt, Extent.movedBy, Vec2.shifted, Vec2.add, e3, e4, e5, Extent.mk.injEq, and_true]
      constructor <;> grind
    · simp only [BoxInfo.contentAt, Extent.movedBy, Vec2.shifted, Vec2.add, e3, Extent.mk.injEq, and_true]
      constructor <;> grind
    · rw [e8]
      exact itemsAt_moved ch ch' _ _ h2
  | .anonymous r ch m, .anonymous r' ch' m', o, d, h => by
    rw [dyeFragment, dyeFragment, Fragment.anonymous.injEq] at h
    obtain ⟨rfl, h2, -⟩ := h
    rw [Fragment.item, Fragment.item, PageItem.Moved]
    have e : (o.add d).add r.startCorner = (o.add r.startCorner).add d := by
      simp only [Vec2.add, Vec2.mk.injEq]
      constructor <;> grind
    rw [e]
    exact itemsAt_moved ch ch' _ _ h2
  | .text s r t, .text s' r' t', o, d, h => by
    rw [dyeFragment, dyeFragment, Fragment.text.injEq] at h
    obtain ⟨h1, rfl, rfl⟩ := h
    rw [Fragment.item, Fragment.item, PageItem.Moved]
    refine ⟨look_of h1, rfl, ?_, ?_, rfl, rfl⟩
    · simp only [Vec2.add]; grind
    · simp only [Vec2.add]; grind
  | .box _ _, .anonymous _ _ _, _, _, h | .box _ _, .text _ _ _, _, _, h | .anonymous _ _ _, .box _ _, _, _, h
  | .anonymous _ _ _, .text _ _ _, _, _, h | .text _ _ _, .box _ _, _, _, h | .text _ _ _, .anonymous _ _ _, _, _, h => by
    simp [dyeFragment] at h
theorem itemsAt_moved : ∀ (fs fs' : List Fragment) (o d : Vec2 Rat), dyeFragments moveDye fs = dyeFragments moveDye fs' →
    itemsMoved d (itemsAt o fs) (itemsAt (o.add d) fs')
  | [], [], _, _, _ => by rw [itemsAt, itemsAt, itemsMoved]; trivial
  | f :: fs, f' :: fs', o, d, h => by
    rw [dyeFragments, dyeFragments, List.cons.injEq] at h
    rw [itemsAt, itemsAt, itemsMoved]
    exact ⟨Fragment.item_moved f f' o d h.1, itemsAt_moved fs fs' o d h.2⟩
  | [], _ :: _, _, _, h | _ :: _, [], _, _, h => by simp [dyeFragments] at h
end

/-- A reader finds one page in the file, with the texts and the backgrounds of these items in this order. -/
def PageHas {R Er : Type} (P : Painter R Er) (readReal : List Byte → Option R) (bytes : List Byte) (items : List PageItem) : Prop :=
  ∃ m file page painted, (∀ fuel, m ≤ fuel → readDocument readReal fuel bytes = some file) ∧ file.pages = [page] ∧
    page.mediaBox = [.int 0, .int 0, .real (P.floats.mul (P.round 600) P.floats.scaleX), .real (P.floats.mul (P.round 800) P.floats.scaleY)] ∧
    (∃ m, ∀ fuel, m ≤ fuel →
      paintContents readReal P.floats.zero P.floats.one (gsAlpha file.extGState) fuel page.contents = some painted) ∧
    AllMatch (MarkSeen P) painted (itemMarks items)

section
variable {σ σ' : Type} {E : Engine σ} {E' : Engine σ'} {Err : Type} (font : FontApi Rat Err) {d d' : Document} {F F' : Forest}

/-- What is laid out is in the file. -/
theorem toPdfBytes_items {R Er : Type} (P : Painter R Er) {readReal : List Byte → Option R} (hd : RealText P.floats.dtoa readReal)
    (hfl : FloatLaws P.floats) (hv : P.fontView.Valid) (hg : ∀ c g, font.glyphId c = .ok g → g < 65536) {fuel : Nat} {schedule : Oracle}
    {bytes : List Byte} (hb : toPdfBytes P E font d fuel schedule = some bytes) (hs : bytes.length ≤ 2 ^ 32) :
    ∃ fragments, layoutDocument E font d fuel schedule ⟨600, 800⟩ = some fragments ∧ PageHas P readReal bytes (itemsAt ⟨0, 0⟩ fragments) := by
  unfold toPdfBytes at hb
  rcases hlay : layoutDocument E font d fuel schedule ⟨600, 800⟩ with _ | fragments
  · simp [hlay] at hb
  simp only [hlay] at hb
  rcases hdoc : paintDocument P fragments with _ | doc
  · simp [hdoc] at hb
  simp only [hdoc, Option.some.injEq] at hb
  subst hb
  refine ⟨fragments, rfl, ?_⟩
  obtain ⟨placed, hpl⟩ := Placed.exists fragments ⟨0, 0⟩
  unfold layoutDocument at hlay
  rcases hc : constructDocument E d fuel with _ | root
  · simp [hc] at hlay
  simp only [hc] at hlay
  obtain ⟨hm, -⟩ := layoutRoot_shown hlay
  obtain ⟨m, file, page, painted, h1, h2, hmedia, h3, h4⟩ := C46_page P hd hfl hv hpl
    (fun e he style rect segment hs g hgm => by
      obtain ⟨c, hcg⟩ := made_glyphs hpl hm e he style rect segment hs g hgm
      exact hg c g hcg) hdoc hs
  refine ⟨m, file, page, painted, h1, h2, hmedia, h3, ?_⟩
  rw [hpl.marks] at h4
  exact allMatch_map (g := markShape P.ascender) (fun p c => markSeen P p c) _ _ h4

/-- **C109** for layout: two documents that are the same but for the places of positioned elements. What is on one page is on the other one,
in the same order and nested in the same way. A positioned element that is at another place is moved by as much as its offsets say, with all
that is in it; nothing else is moved, and nothing has another size. -/
theorem C109_moved_partial {rootStyle rootStyle' : ComputedValues} {tree tree' : List StyledNode}
    {hidden hidden' : List Nat} (h : Denotes E d F rootStyle tree hidden) (h' : Denotes E' d' F' rootStyle' tree' hidden')
    (hs : SameButPlace rootStyle rootStyle') (ht : nodesSameButPlace tree tree')
    {fuel fuel' : Nat} {schedule schedule' : Oracle} {viewport : Vec2 Rat} {fragments fragments' : List Fragment}
    (hl : layoutDocument E font d fuel schedule viewport = some fragments)
    (hl' : layoutDocument E' font d' fuel' schedule' viewport = some fragments') :
    itemsMoved ⟨0, 0⟩ (itemsAt ⟨0, 0⟩ fragments) (itemsAt ⟨0, 0⟩ fragments') := by
  unfold layoutDocument at hl hl'
  rcases hc : constructDocument E d fuel with _ | root
  · simp [hc] at hl
  rcases hc' : constructDocument E' d' fuel' with _ | root'
  · simp [hc'] at hl'
  simp only [hc, hc'] at hl hl'
  obtain ⟨h1, -⟩ := constructDocument_sound h hc
  obtain ⟨h1', -⟩ := constructDocument_sound h' hc'
  have a1 := C58_fuel root fuel fuel' schedule schedule _ _ hl
  have a2 := C58_fuel root' fuel' fuel schedule' schedule _ _ hl'
  rw [Nat.add_comm] at a2
  have e := alike_layout (D := moveDye) font hs.settle (textLook_eq (Prod.ext (hs.values .fontSize rfl) (hs.values .color rfl)))
    (hs.values .display rfl) (hs.values .position rfl) (hs.values .float rfl) (nodesSameButPlace_alike tree tree' rootStyle rootStyle' ht) h1 h1'
    (constructRoot_fits moveDye_suits (moveDye_root _) h1) (constructRoot_fits moveDye_suits (moveDye_root _) h1') (fuel + fuel') schedule viewport
  rw [a1, a2, Option.map_some, Option.map_some, Option.some.injEq] at e
  have k := itemsAt_moved fragments fragments' ⟨0, 0⟩ ⟨0, 0⟩ (by rw [dyeFragments_eq, dyeFragments_eq]; exact e)
  rwa [show (⟨0, 0⟩ : Vec2 Rat).add ⟨0, 0⟩ = ⟨0, 0⟩ from add_zero_vec _] at k

/-- **C109**: if layout does not return for one of these documents, it does not for the other one. -/
theorem C109_total_partial {s s' : ComputedValues} {tree tree' : List StyledNode} (hs : SameButPlace s s') (ht : nodesSameButPlace tree tree')
    (fuel : Nat) (schedule : Oracle) (viewport : Vec2 Rat) :
    ((constructRoot s tree).bind fun root => layoutRoot font fuel schedule root viewport).isSome =
      ((constructRoot s' tree').bind fun root => layoutRoot font fuel schedule root viewport).isSome := by
  have hn := nodesSameButPlace_alike tree tree' s s' ht
  have hx := textLook_eq (s := s) (s' := s') (Prod.ext (hs.values .fontSize rfl) (hs.values .color rfl))
  rcases map_cases (alike_constructRoot (D := moveDye) hs.settle hx (hs.values .display rfl) (hs.values .position rfl)
    (hs.values .float rfl) hn) with ⟨e1, e2⟩ | ⟨r, r', e1, e2, -⟩
  · rw [e1, e2]
  · have e := alike_layout (D := moveDye) font hs.settle hx (hs.values .display rfl) (hs.values .position rfl)
      (hs.values .float rfl) hn e1 e2 (constructRoot_fits moveDye_suits (moveDye_root _) e1) (constructRoot_fits moveDye_suits (moveDye_root _) e2)
      fuel schedule viewport
    rw [e1, e2, Option.bind_some, Option.bind_some]
    simpa using congrArg Option.isSome e

/-- **C109** for the files: a reader finds one page in each of them, with texts and backgrounds. Those in one file are those in the other one,
moved with the elements they are in. -/
theorem C109_pages_partial {R Er : Type} (P : Painter R Er) {readReal : List Byte → Option R} (hd : RealText P.floats.dtoa readReal)
    (hfl : FloatLaws P.floats) (hv : P.fontView.Valid) (hg : ∀ c g, font.glyphId c = .ok g → g < 65536)
    {rootStyle rootStyle' : ComputedValues} {tree tree' : List StyledNode} {hidden hidden' : List Nat}
    (h : Denotes E d F rootStyle tree hidden) (h' : Denotes E' d' F' rootStyle' tree' hidden') (hs : SameButPlace rootStyle rootStyle')
    (ht : nodesSameButPlace tree tree') {fuel fuel' : Nat} {schedule schedule' : Oracle} {bytes bytes' : List Byte}
    (hb : toPdfBytes P E font d fuel schedule = some bytes) (hb' : toPdfBytes P E' font d' fuel' schedule' = some bytes')
    (hlen : bytes.length ≤ 2 ^ 32) (hlen' : bytes'.length ≤ 2 ^ 32) :
    ∃ items items', PageHas P readReal bytes items ∧ PageHas P readReal bytes' items' ∧ itemsMoved ⟨0, 0⟩ items items' := by
  obtain ⟨fragments, h1, h2⟩ := toPdfBytes_items font P hd hfl hv hg hb hlen
  obtain ⟨fragments', h1', h2'⟩ := toPdfBytes_items font P hd hfl hv hg hb' hlen'
  exact ⟨_, _, h2, h2', C109_moved_partial font h h' hs ht h1 h1'⟩

end

/-! ### Examples -/

/-- `position: …; display: block; left: …; top: …; width: 50px`. -/
def placeDeclarations (position : Position) (left top : Rat) : List Declaration :=
  [.value .position position, .value .display (.generatingBox .block .flow), .value .left (.length (.absolute left)),
    .value .top (.length (.absolute top)), .value .width (.length (.absolute 50))]

theorem sameButPlace_check {s s' : ComputedValues} (h : ∀ p : Longhand, (OffsetProperty p || sameValue p.kind (s.values p) (s'.values p)) = true)
    (hd : s.specifiedDisplay = s'.specifiedDisplay)
    (horizontal : SameOrMoved s (s.values .width ≠ .auto) (s.values .left) (s.values .right) (s'.values .left) (s'.values .right))
    (vertical : SameOrMoved s True (s.values .top) (s.values .bottom) (s'.values .top) (s'.values .bottom)) : SameButPlace s s' := by
  refine ⟨fun p hp => ?_, hd, horizontal, vertical⟩
  have := h p
  rw [hp, Bool.false_or] at this
  exact sameValue_of _ _ _ this

theorem SameButPlace.refl (s : ComputedValues) : SameButPlace s s := ⟨fun _ _ => rfl, rfl, .inl ⟨rfl, rfl⟩, .inl ⟨rfl, rfl⟩⟩

/-- The document in which the element is at another place. -/
def MovePair (extra extra' : List Declaration) : Prop :=
  SameButPlace (applyStyle extra 2 none) (applyStyle extra' 2 none) ∧ nodesSameButPlace (applyTree extra) (applyTree extra') ∧
  Denotes (applyEngine extra) exampleDocument2 (forestOf exampleChildren2) (applyStyle extra 2 none) (applyTree extra) [3] ∧
  Denotes (applyEngine extra') exampleDocument2 (forestOf exampleChildren2) (applyStyle extra' 2 none) (applyTree extra') [3]

/-- `position: relative; left: …; background-color: #ff0000`. -/
def slidDeclarations (left : Rat) : List Declaration :=
  [.value .position .relative, .value .left (.length (.absolute left)), .value .backgroundColor (.rgba ⟨255, 0, 0, 255⟩)]

theorem placeDocument_denotes {extra : List Declaration} (h : extra = placeDeclarations .relative 5 6 ∨ extra = placeDeclarations .relative 7 2 ∨
      extra = placeDeclarations .absolute 5 6 ∨ extra = placeDeclarations .absolute 7 2 ∨ extra = slidDeclarations 0 ∨ extra = slidDeclarations 10) :
    Denotes (applyEngine extra) exampleDocument2 (forestOf exampleChildren2) (applyStyle extra 2 none) (applyTree extra) [3] := by
  refine ⟨represents_of_check exampleDocument2_check, acyclic_of_check exampleDocument2_check, ⟨[]⟩, 2, applyEngine_sheets extra, by decide,
    rfl, by rcases h with rfl | rfl | rfl | rfl | rfl | rfl <;> decide +kernel, ?_⟩
  rcases h with rfl | rfl | rfl | rfl | rfl | rfl
  all_goals
    exact .none (n := 3) (hidden := []) rfl rfl rfl (by decide +kernel)
      (.element (belowHidden := []) (hidden := []) (n := 4) rfl rfl rfl (by decide +kernel)
        (.element (belowHidden := []) (n := 5) rfl rfl rfl (by decide +kernel) (.text (n := 6) rfl rfl .nil)
          (.text (n := 7) rfl rfl .nil)) .nil)

/-- The hypotheses of C109 are met by documents in which a relatively positioned element is at another place. It is laid out, with the text
in it, 2 pixels to the right and 4 pixels up; the text after it is where it was. -/
theorem relativeMove_example : MovePair (placeDeclarations .relative 5 6) (placeDeclarations .relative 7 2) ∧
    (layoutDocument (applyEngine (placeDeclarations .relative 5 6)) exampleFont exampleDocument2 9 inOrder ⟨600, 800⟩).map (inkOf 1 ⟨0, 0⟩) =
      some [.glyphs [97] 16 ⟨5, 22⟩ ⟨0, 0, 0, 255⟩, .glyphs [98] 16 ⟨0, 176/5⟩ ⟨0, 0, 0, 255⟩] ∧
    (layoutDocument (applyEngine (placeDeclarations .relative 7 2)) exampleFont exampleDocument2 9 inOrder ⟨600, 800⟩).map (inkOf 1 ⟨0, 0⟩) =
      some [.glyphs [97] 16 ⟨7, 18⟩ ⟨0, 0, 0, 255⟩, .glyphs [98] 16 ⟨0, 176/5⟩ ⟨0, 0, 0, 255⟩] := by
  refine ⟨⟨?_, ?_, placeDocument_denotes (by simp), placeDocument_denotes (by simp)⟩, ?_, ?_⟩
  · exact sameButPlace_check (fun p => by cases p <;> decide +kernel) (by decide +kernel) (.inl ⟨rfl, rfl⟩) (.inl ⟨rfl, rfl⟩)
  · refine ⟨⟨?_, trivial⟩, ⟨?_, ⟨?_, rfl, trivial⟩, rfl, trivial⟩, trivial⟩
    · exact sameButPlace_check (fun p => by cases p <;> decide +kernel) (by decide +kernel) (.inl ⟨rfl, rfl⟩) (.inl ⟨rfl, rfl⟩)
    · exact sameButPlace_check (fun p => by cases p <;> decide +kernel) (by decide +kernel) (.inl ⟨rfl, rfl⟩) (.inl ⟨rfl, rfl⟩)
    · exact sameButPlace_check (fun p => by cases p <;> decide +kernel) (by decide +kernel)
        (.inr (.inl ⟨by decide +kernel, by decide +kernel, by decide +kernel, by decide +kernel, by decide +kernel, by decide +kernel⟩))
        (.inr (.inl ⟨by decide +kernel, by decide +kernel, by decide +kernel, by decide +kernel, by decide +kernel, by decide +kernel⟩))
  · simp only [layoutDocument, constructDocument, applyEngine_sheets]
    decide +kernel
  · simp only [layoutDocument, constructDocument, applyEngine_sheets]
    decide +kernel

/-- The hypotheses of C109 are met by documents in which an absolutely positioned element is at another place. -/
theorem absoluteMove_example : MovePair (placeDeclarations .absolute 5 6) (placeDeclarations .absolute 7 2) ∧
    (layoutDocument (applyEngine (placeDeclarations .absolute 5 6)) exampleFont exampleDocument2 9 inOrder ⟨600, 800⟩).map (inkOf 1 ⟨0, 0⟩) =
      some [.glyphs [98] 16 ⟨0, 16⟩ ⟨0, 0, 0, 255⟩, .glyphs [97] 16 ⟨5, 22⟩ ⟨0, 0, 0, 255⟩] ∧
    (layoutDocument (applyEngine (placeDeclarations .absolute 7 2)) exampleFont exampleDocument2 9 inOrder ⟨600, 800⟩).map (inkOf 1 ⟨0, 0⟩) =
      some [.glyphs [98] 16 ⟨0, 16⟩ ⟨0, 0, 0, 255⟩, .glyphs [97] 16 ⟨7, 18⟩ ⟨0, 0, 0, 255⟩] := by
  refine ⟨⟨?_, ?_, placeDocument_denotes (by simp), placeDocument_denotes (by simp)⟩, ?_, ?_⟩
  · exact sameButPlace_check (fun p => by cases p <;> decide +kernel) (by decide +kernel) (.inl ⟨rfl, rfl⟩) (.inl ⟨rfl, rfl⟩)
  · refine ⟨⟨?_, trivial⟩, ⟨?_, ⟨?_, rfl, trivial⟩, rfl, trivial⟩, trivial⟩
    · exact sameButPlace_check (fun p => by cases p <;> decide +kernel) (by decide +kernel) (.inl ⟨rfl, rfl⟩) (.inl ⟨rfl, rfl⟩)
    · exact sameButPlace_check (fun p => by cases p <;> decide +kernel) (by decide +kernel) (.inl ⟨rfl, rfl⟩) (.inl ⟨rfl, rfl⟩)
    · refine sameButPlace_check (fun p => by cases p <;> decide +kernel) (by decide +kernel)
        (.inr (.inr ⟨by decide +kernel, by decide +kernel, ?_, .inl ⟨5, 7, sameValue_of .lengthOrPercentageOrAuto _ _ (by decide +kernel), sameValue_of .lengthOrPercentageOrAuto _ _ (by decide +kernel), sameValue_of .lengthOrPercentageOrAuto _ _ (by decide +kernel), sameValue_of .lengthOrPercentageOrAuto _ _ (by decide +kernel)⟩⟩))
        (.inr (.inr ⟨by decide +kernel, by decide +kernel, trivial, .inl ⟨6, 2, sameValue_of .lengthOrPercentageOrAuto _ _ (by decide +kernel), sameValue_of .lengthOrPercentageOrAuto _ _ (by decide +kernel), sameValue_of .lengthOrPercentageOrAuto _ _ (by decide +kernel), sameValue_of .lengthOrPercentageOrAuto _ _ (by decide +kernel)⟩⟩))
      exact (hasWidth_iff _).1 (by decide +kernel)
  · simp only [layoutDocument, constructDocument, applyEngine_sheets]
    decide +kernel
  · simp only [layoutDocument, constructDocument, applyEngine_sheets]
    decide +kernel

/-- Inline elements are moved, but their backgrounds get smaller by as much: the position to which they are moved is taken for the one at which
they begin when the width is computed. -/
theorem C109_inline_violated :
    (∀ left ∈ [(0 : Rat), 10],
      Denotes (applyEngine (slidDeclarations left)) exampleDocument2 (forestOf exampleChildren2) (applyStyle (slidDeclarations left) 2 none)
        (applyTree (slidDeclarations left)) [3]) ∧
    (layoutDocument (applyEngine (slidDeclarations 0)) exampleFont exampleDocument2 9 inOrder ⟨600, 800⟩).map (inkOf 1 ⟨0, 0⟩) =
      some [.rect ⟨0, 0⟩ ⟨16, 96/5⟩ ⟨255, 0, 0, 255⟩, .glyphs [97] 16 ⟨0, 16⟩ ⟨0, 0, 0, 255⟩, .glyphs [98] 16 ⟨16, 16⟩ ⟨0, 0, 0, 255⟩] ∧
    (layoutDocument (applyEngine (slidDeclarations 10)) exampleFont exampleDocument2 9 inOrder ⟨600, 800⟩).map (inkOf 1 ⟨0, 0⟩) =
      some [.rect ⟨10, 0⟩ ⟨6, 96/5⟩ ⟨255, 0, 0, 255⟩, .glyphs [97] 16 ⟨10, 16⟩ ⟨0, 0, 0, 255⟩, .glyphs [98] 16 ⟨16, 16⟩ ⟨0, 0, 0, 255⟩] := by
  refine ⟨?_, ?_, ?_⟩
  · intro left hl
    simp only [List.mem_cons, List.not_mem_nil, or_false] at hl
    rcases hl with rfl | rfl <;> exact placeDocument_denotes (by simp)
  · simp only [layoutDocument, constructDocument, applyEngine_sheets]
    decide +kernel
  · simp only [layoutDocument, constructDocument, applyEngine_sheets]
    decide +kernel

end Verif.Layout
