/- Layout commutes with changes of styles that do not concern it, but that move positioned boxes. -/
import Verif.Layout.Flow
import Verif.Layout.Construct
import Verif.Layout.AsidePending
import Verif.Layout.StaticLemmas
namespace Verif.Layout
open Verif.Style Verif.Text

/-- Changes of the styles of boxes and of the styles of text that layout does not notice, and how far they move the boxes. -/
structure Dye where
  box : ComputedValues → ComputedValues
  text : ComputedValues → ComputedValues
  move : ComputedValues → Vec2 Rat
  padding : ∀ s, padding (box s) = padding s
  border : ∀ s, borderWidth (box s) = borderWidth s
  margin : ∀ s, margin (box s) = margin s
  position : ∀ s, positionOf (box s) = positionOf s
  specified : ∀ s, (box s).specifiedDisplay = s.specifiedDisplay
  fontSize : ∀ s, fontSizeOf (text s) = fontSizeOf s
  anonymous : ∀ s, ComputedValues.anonymousInheritingFrom (some (box s)) = box (ComputedValues.anonymousInheritingFrom (some s))

section
variable (D : Dye)

def dyeInfo (b : BoxInfo) : BoxInfo :=
  { b with style := D.box b.style, contentRect := ⟨b.contentRect.startCorner.add (D.move b.style), b.contentRect.size⟩ }
mutual
def dyeFragment : Fragment → Fragment
  | .box info children => .box (dyeInfo D info) (dyeFragments children)
  | .anonymous rect children mode => .anonymous rect (dyeFragments children) mode
  | .text style rect segment => .text (D.text style) rect segment
def dyeFragments : List Fragment → List Fragment
  | [] => []
  | f :: fs => dyeFragment f :: dyeFragments fs
end
theorem dyeFragments_eq (fs : List Fragment) : dyeFragments D fs = fs.map (dyeFragment D) := by
  induction fs with
  | nil => rfl
  | cons f fs ih => simp [dyeFragments, ih]
mutual
def dyeContainer : BlockContainer → BlockContainer
  | .blockLevelBoxes boxes => .blockLevelBoxes (dyeBoxes boxes)
  | .inlineFormattingContext boxes => .inlineFormattingContext (dyeInlines boxes)
def dyeBox : BlockLevelBox → BlockLevelBox
  | .sameFormattingContextBlock s c => .sameFormattingContextBlock (D.box s) (dyeContainer c)
  | .outOfFlowAbsolutelyPositioned s f c => .outOfFlowAbsolutelyPositioned (D.box s) f (dyeContainer c)
  | .outOfFlowFloat s f c => .outOfFlowFloat (D.box s) f (dyeContainer c)
  | .independent s f c => .independent (D.box s) f (dyeContainer c)
def dyeBoxes : List BlockLevelBox → List BlockLevelBox
  | [] => []
  | b :: bs => dyeBox b :: dyeBoxes bs
def dyeInline : InlineLevelBox → InlineLevelBox
  | .inlineBox s f l children => .inlineBox (D.box s) f l (dyeInlines children)
  | .textRun s t => .textRun (D.text s) t
  | .outOfFlowAbsolutelyPositioned s f c => .outOfFlowAbsolutelyPositioned (D.box s) f (dyeContainer c)
  | .outOfFlowFloat s f c => .outOfFlowFloat (D.box s) f (dyeContainer c)
def dyeInlines : List InlineLevelBox → List InlineLevelBox
  | [] => []
  | b :: bs => dyeInline b :: dyeInlines bs
end
theorem dyeBoxes_eq (bs : List BlockLevelBox) : dyeBoxes D bs = bs.map (dyeBox D) := by
  induction bs with
  | nil => rw [dyeBoxes]; rfl
  | cons b bs ih => rw [dyeBoxes, ih]; rfl
theorem dyeInlines_eq (bs : List InlineLevelBox) : dyeInlines D bs = bs.map (dyeInline D) := by
  induction bs with
  | nil => rw [dyeInlines]; rfl
  | cons b bs ih => rw [dyeInlines, ih]; rfl
/-- The offsets of a box that is moved. -/
def AbsoluteBoxOffsets.slide (o : AbsoluteBoxOffsets) (d : Rat) : AbsoluteBoxOffsets :=
  match o with
  | .start (.length l) => .start (.length (l + d))
  | .end (.length e) => .end (.length (e - d))
  | o => o
def dyeContext (c : BlockFormattingContext) : BlockFormattingContext := ⟨dyeContainer D c.contents, c.containsFloats⟩
def dyeAbsolute (a : AbsolutelyPositionedFragment) : AbsolutelyPositionedFragment :=
  { a with
    box := ⟨D.box a.box.style, dyeContext D a.box.contents⟩
    inlineStart := a.inlineStart.slide (D.move a.box.style).inline
    blockStart := a.blockStart.slide (D.move a.box.style).block }
def dyeAbsolutes (as : Absolutes) : Absolutes := as.map (dyeAbsolute D)
def dyeChildren (c : FlowChildren) : FlowChildren := { c with fragments := c.fragments.map (dyeFragment D) }

theorem dyeFragment_noOp (mode : Mode) : dyeFragment D (.noOp mode) = .noOp mode := by
  simp [Fragment.noOp, dyeFragment, dyeFragments]

/-- A box in flow is moved, if it is relatively positioned, and nothing else is changed. -/
def Dye.KeepsFlow (s : ComputedValues) : Prop :=
  boxSize (D.box s) = boxSize s ∧ (∀ i b, relativeAdjustement (D.box s) i b = (relativeAdjustement s i b).add (D.move s)) ∧
  ((positionOf s).isRelativelyPositioned = false → D.move s = Vec2.zero)
/-- An inline box is not changed. -/
def Dye.KeepsLine (s : ComputedValues) : Prop :=
  (∀ i b, relativeAdjustement (D.box s) i b = relativeAdjustement s i b) ∧ D.move s = Vec2.zero
/-- The box is moved by one of its offsets, or not at all. -/
def AbsoluteBoxOffsets.Slides (o : AbsoluteBoxOffsets) (d : Rat) (sized : Prop) : Prop :=
  d = 0 ∨ (sized ∧ ((∃ l, o = .start (.length l)) ∨ ∃ e, o = .end (.length e)))
/-- An absolutely positioned box is moved, and nothing else is changed. -/
def Dye.KeepsPlace (s : ComputedValues) : Prop :=
  boxSize (D.box s) = boxSize s ∧
  ∀ x, absoluteBoxOffsets x (boxOffsets (D.box s)).inlineStart (boxOffsets (D.box s)).inlineEnd =
      (absoluteBoxOffsets x (boxOffsets s).inlineStart (boxOffsets s).inlineEnd).slide (D.move s).inline ∧
    absoluteBoxOffsets x (boxOffsets (D.box s)).blockStart (boxOffsets (D.box s)).blockEnd =
      (absoluteBoxOffsets x (boxOffsets s).blockStart (boxOffsets s).blockEnd).slide (D.move s).block ∧
    (absoluteBoxOffsets x (boxOffsets s).inlineStart (boxOffsets s).inlineEnd).Slides (D.move s).inline ((boxSize s).inline ≠ .auto) ∧
    (absoluteBoxOffsets x (boxOffsets s).blockStart (boxOffsets s).blockEnd).Slides (D.move s).block True

mutual
/-- Boxes are changed only in such a way that they are moved, if they are positioned. -/
def BlockContainer.Fits : BlockContainer → Prop
  | .blockLevelBoxes boxes => blocksFit boxes
  | .inlineFormattingContext boxes => inlinesFit boxes
/-- See `BlockContainer.Fits`. -/
def BlockLevelBox.Fits : BlockLevelBox → Prop
  | .sameFormattingContextBlock s c => D.KeepsFlow s ∧ c.Fits
  | .independent s _ c => D.KeepsFlow s ∧ c.Fits
  | .outOfFlowAbsolutelyPositioned s _ c => D.KeepsPlace s ∧ c.Fits
  | .outOfFlowFloat _ _ _ => True
/-- See `BlockContainer.Fits`. -/
def blocksFit : List BlockLevelBox → Prop
  | [] => True
  | b :: bs => b.Fits ∧ blocksFit bs
/-- See `BlockContainer.Fits`. -/
def InlineLevelBox.Fits : InlineLevelBox → Prop
  | .inlineBox s _ _ children => D.KeepsLine s ∧ inlinesFit children
  | .textRun _ _ => True
  | .outOfFlowAbsolutelyPositioned s _ c => D.KeepsPlace s ∧ c.Fits
  | .outOfFlowFloat _ _ _ => True
/-- See `BlockContainer.Fits`. -/
def inlinesFit : List InlineLevelBox → Prop
  | [] => True
  | b :: bs => b.Fits ∧ inlinesFit bs
end

/-- See `BlockContainer.Fits`. -/
def AbsolutelyPositionedBox.Fits (box : AbsolutelyPositionedBox) : Prop := D.KeepsPlace box.style ∧ box.contents.contents.Fits D
/-- See `BlockContainer.Fits`. -/
def AbsolutelyPositionedFragment.Fits (a : AbsolutelyPositionedFragment) : Prop :=
  a.box.Fits D ∧ a.inlineStart.Slides (D.move a.box.style).inline (a.inlineSize ≠ .auto) ∧ a.blockStart.Slides (D.move a.box.style).block True

theorem Slides.moveStatic {o : AbsoluteBoxOffsets} {d : Rat} {sized : Prop} (h : o.Slides d sized) (e : Rat) : (o.moveStatic e).Slides d sized := by
  rcases h with h | ⟨h, ⟨l, rfl⟩ | ⟨l, rfl⟩⟩
  · exact .inl h
  · exact .inr ⟨h, .inl ⟨l, rfl⟩⟩
  · exact .inr ⟨h, .inr ⟨l, rfl⟩⟩

theorem fits_carried : Carried (AbsolutelyPositionedFragment.Fits D) := fun _ _ _ _ h => ⟨h.1, Slides.moveStatic h.2.1 _, Slides.moveStatic h.2.2 _⟩

theorem fits_made {box : AbsolutelyPositionedBox} (h : box.Fits D) : Makes (AbsolutelyPositionedFragment.Fits D) box :=
  fun corner _ => ⟨h, (h.1.2 corner.inline).2.2.1, (h.1.2 corner.block).2.2.2⟩

theorem slide_moveStatic (o : AbsoluteBoxOffsets) (d e : Rat) : (o.moveStatic e).slide d = (o.slide d).moveStatic e := by
  rcases o with _ | l | l | _
  · rfl
  · cases l <;> rfl
  · cases l <;> rfl
  · rfl

theorem add_zero_vec (v : Vec2 Rat) : v.add Vec2.zero = v := by
  obtain ⟨i, b⟩ := v
  simp [Vec2.add, Vec2.zero, Rat.add_zero]

mutual
theorem BlockContainer.Fits.asides : ∀ c : BlockContainer, c.Fits D → c.Asides (Makes (AbsolutelyPositionedFragment.Fits D))
  | .blockLevelBoxes boxes, h => by
    rw [BlockContainer.Fits] at h
    exact blocksFit_asides boxes h
  | .inlineFormattingContext boxes, h => by
    rw [BlockContainer.Fits] at h
    exact inlinesFit_asides boxes h
theorem BlockLevelBox.Fits.asides : ∀ b : BlockLevelBox, b.Fits D → b.Asides (Makes (AbsolutelyPositionedFragment.Fits D))
  | .sameFormattingContextBlock _ c, h => by
    rw [BlockLevelBox.Fits] at h
    exact BlockContainer.Fits.asides c h.2
  | .independent _ _ c, h => by
    rw [BlockLevelBox.Fits] at h
    exact BlockContainer.Fits.asides c h.2
  | .outOfFlowAbsolutelyPositioned _ _ _, h => by
    rw [BlockLevelBox.Fits] at h
    exact fits_made D h
  | .outOfFlowFloat _ _ _, _ => trivial
theorem blocksFit_asides : ∀ bs : List BlockLevelBox, blocksFit D bs → blocksAsides (Makes (AbsolutelyPositionedFragment.Fits D)) bs
  | [], _ => trivial
  | b :: bs, h => by
    rw [blocksFit] at h
    exact ⟨BlockLevelBox.Fits.asides b h.1, blocksFit_asides bs h.2⟩
theorem InlineLevelBox.Fits.asides : ∀ b : InlineLevelBox, b.Fits D → b.Asides (Makes (AbsolutelyPositionedFragment.Fits D))
  | .inlineBox _ _ _ children, h => by
    rw [InlineLevelBox.Fits] at h
    exact inlinesFit_asides children h.2
  | .textRun _ _, _ => trivial
  | .outOfFlowAbsolutelyPositioned _ _ _, h => by
    rw [InlineLevelBox.Fits] at h
    exact fits_made D h
  | .outOfFlowFloat _ _ _, _ => trivial
theorem inlinesFit_asides : ∀ bs : List InlineLevelBox, inlinesFit D bs → inlinesAsides (Makes (AbsolutelyPositionedFragment.Fits D)) bs
  | [], _ => trivial
  | b :: bs, h => by
    rw [inlinesFit] at h
    exact ⟨InlineLevelBox.Fits.asides b h.1, inlinesFit_asides bs h.2⟩
end

theorem blocksFit_mem {bs : List BlockLevelBox} (h : blocksFit D bs) : ∀ b ∈ bs, b.Fits D := by
  induction bs with
  | nil => simp
  | cons b bs ih =>
    rw [blocksFit] at h
    intro x hx
    rcases List.mem_cons.1 hx with rfl | hx
    · exact h.1
    · exact ih h.2 x hx

theorem dye_absoluteLayout (style : ComputedValues) (c : BlockContainer) (f : Bool) (corner : Vec2 Rat) (rank : Nat) (h : D.KeepsPlace style) :
    AbsolutelyPositionedBox.layout ⟨D.box style, ⟨dyeContainer D c, f⟩⟩ corner rank =
      dyeAbsolute D (AbsolutelyPositionedBox.layout ⟨style, ⟨c, f⟩⟩ corner rank) := by
  simp only [AbsolutelyPositionedBox.layout, dyeAbsolute, dyeContext, h.1, (h.2 _).1, (h.2 _).2.1]

mutual
theorem dye_cost : ∀ b : InlineLevelBox, (dyeInline D b).cost = b.cost
  | .inlineBox _ _ _ children => by rw [dyeInline, InlineLevelBox.cost, InlineLevelBox.cost, dye_costs children]
  | .textRun _ _ => by rw [dyeInline, InlineLevelBox.cost, InlineLevelBox.cost]
  | .outOfFlowAbsolutelyPositioned _ _ _ => by rw [dyeInline, InlineLevelBox.cost, InlineLevelBox.cost]
  | .outOfFlowFloat _ _ _ => by rw [dyeInline, InlineLevelBox.cost, InlineLevelBox.cost]
theorem dye_costs : ∀ bs : List InlineLevelBox, costs (dyeInlines D bs) = costs bs
  | [] => by rw [dyeInlines]
  | b :: bs => by rw [dyeInlines, costs, costs, dye_cost b, dye_costs bs]
end

/-! ### Lines -/

def dyeLevel (l : NestingLevel) : NestingLevel :=
  { l with remainingBoxes := dyeInlines D l.remainingBoxes, fragmentsSoFar := l.fragmentsSoFar.map (dyeFragment D) }
def dyePartial (p : PartialInlineBox) : PartialInlineBox :=
  { p with style := D.box p.style, parentNestingLevel := dyeLevel D p.parentNestingLevel }
def dyeLines (l : LinesBoxes) : LinesBoxes := { l with boxes := l.boxes.map (dyeFragment D) }
def dyeInlineState (s : InlineState) : InlineState :=
  ⟨dyeLines D s.lineBoxes, s.inlinePosition, s.stack.map (dyePartial D), dyeLevel D s.current⟩

theorem dye_finishLine (lines : LinesBoxes) (top : NestingLevel) (cb : ContainingBlock) :
    finishLine (dyeLines D lines) (dyeLevel D top) cb = (dyeLines D (finishLine lines top cb).1, dyeLevel D (finishLine lines top cb).2) := by
  simp [finishLine, dyeLines, dyeLevel, dyeFragment, dyeFragments_eq]

theorem dye_startInlineBox (cb : ContainingBlock) (style : ComputedValues) (first last : Bool) (children : List InlineLevelBox)
    (s : InlineState) (h : D.KeepsLine style) :
    startInlineBox cb (D.box style) first last (dyeInlines D children) (dyeInlineState D s) =
      dyeInlineState D (startInlineBox cb style first last children s) := by
  simp only [startInlineBox, D.padding, D.border, D.margin, h.1]
  rfl

theorem dye_finish (p : PartialInlineBox) (level : NestingLevel) (position : Rat) (atBreak : Bool) (h : D.KeepsLine p.style) :
    (dyePartial D p).finish (dyeLevel D level) position atBreak =
      (dyePartial D (p.finish level position atBreak).1, dyeLevel D (p.finish level position atBreak).2.1,
        (p.finish level position atBreak).2.2) := by
  simp only [PartialInlineBox.finish]
  rw [show (dyePartial D p).lastBoxTreeFragment = p.lastBoxTreeFragment from rfl]
  cases p.lastBoxTreeFragment && !atBreak
  all_goals
    simp only [Bool.false_eq_true, if_false, if_true, dyePartial, dyeLevel, List.map_append, List.map_cons, List.map_nil, dyeFragment,
      dyeFragments_eq, dyeInfo, h.2, add_zero_vec]

theorem dye_pushText (style : ComputedValues) (shaped : ShapedSegment Rat) (s : InlineState) :
    pushText (D.text style) shaped (dyeInlineState D s) = dyeInlineState D (pushText style shaped s) := by
  simp only [pushText, D.fontSize, dyeInlineState, dyeLevel, List.map_append, List.map_cons, List.map_nil, dyeFragment]

theorem dye_breakLine (cb : ContainingBlock) (stack : List PartialInlineBox) (level : NestingLevel) (position : Rat) (lines : LinesBoxes)
    (h : ∀ p ∈ stack, D.KeepsLine p.style) : breakLine cb (stack.map (dyePartial D)) (dyeLevel D level) position (dyeLines D lines) =
      ((breakLine cb stack level position lines).1.map (dyePartial D), dyeLevel D (breakLine cb stack level position lines).2.1,
        dyeLines D (breakLine cb stack level position lines).2.2) := by
  have h0 : ∀ l : NestingLevel, { dyeLevel D l with inlineStart := 0 } = dyeLevel D { l with inlineStart := 0 } := by
    intro l
    simp [dyeLevel]
  induction stack generalizing level position with
  | nil =>
    simp only [List.map_nil, breakLine, h0, dye_finishLine]
  | cons p rest ih =>
    simp only [List.map_cons, breakLine, h0, dye_finish D p _ _ _ (h p List.mem_cons_self)]
    have ih := fun level position => ih level position fun q hq => h q (List.mem_cons_of_mem _ hq)
    have h1 : ∀ q : PartialInlineBox, (dyePartial D q).parentNestingLevel = dyeLevel D q.parentNestingLevel := fun _ => rfl
    simp only [h1, ih, Prod.mk.injEq, and_true]
    simp [dyePartial]

theorem breakLine_styles (cb : ContainingBlock) (stack : List PartialInlineBox) (level : NestingLevel) (position : Rat) (lines : LinesBoxes) :
    (breakLine cb stack level position lines).1.map PartialInlineBox.style = stack.map PartialInlineBox.style := by
  induction stack generalizing level position with
  | nil => rfl
  | cons p rest ih => simp only [breakLine, List.map_cons, ih]; rfl

theorem textLines_styles {Err : Type} {F : FontApi Rat Err} {cb : ContainingBlock} {style : ComputedValues} {available : Rat} :
    ∀ (fuel : Nat) {chars : List Nat} {s s' : InlineState}, textLines F cb style available fuel chars s = some s' →
      s'.stack.map PartialInlineBox.style = s.stack.map PartialInlineBox.style
  | 0, _, _, _, h => by simp [textLines] at h
  | fuel + 1, chars, s, s', h => by
    simp only [textLines] at h
    split at h
    · cases h
    · split at h
      · cases h
        rfl
      · rw [textLines_styles fuel h]
        exact breakLine_styles _ _ _ _ _

theorem styles_still {stack stack' : List PartialInlineBox} (h : stack'.map PartialInlineBox.style = stack.map PartialInlineBox.style)
    (hs : ∀ p ∈ stack, D.KeepsLine p.style) : ∀ p ∈ stack', D.KeepsLine p.style := by
  intro p hp
  have : p.style ∈ stack.map PartialInlineBox.style := h ▸ List.mem_map_of_mem hp
  obtain ⟨q, hq, e⟩ := List.mem_map.1 this
  exact e ▸ hs q hq

theorem dye_textLines {Err : Type} (F : FontApi Rat Err) (cb : ContainingBlock) (style : ComputedValues) (available : Rat) (fuel : Nat)
    (chars : List Nat) (s : InlineState) (hs : ∀ p ∈ s.stack, D.KeepsLine p.style) :
    textLines F cb (D.text style) available fuel chars (dyeInlineState D s) =
      (textLines F cb style available fuel chars s).map (dyeInlineState D) := by
  induction fuel generalizing chars s with
  | zero => rfl
  | succ fuel ih =>
    simp only [textLines, D.fontSize, dye_pushText]
    rcases shapeLine F (fontSizeOf style) available chars (ShapedSegment.new F) none with _ | ⟨shaped, rest⟩
    · rfl
    · dsimp only
      split
      · rfl
      · have hs1 : ∀ p ∈ (pushText style shaped s).stack, D.KeepsLine p.style := hs
        generalize pushText style shaped s = s1 at hs1 ⊢
        have hb := dye_breakLine D cb s1.stack s1.current s1.inlinePosition s1.lineBoxes hs1
        simp only [dyeInlineState] at hb ⊢
        rw [hb]
        have := ih rest ⟨(breakLine cb s1.stack s1.current s1.inlinePosition s1.lineBoxes).2.2, 0,
          (breakLine cb s1.stack s1.current s1.inlinePosition s1.lineBoxes).1,
          (breakLine cb s1.stack s1.current s1.inlinePosition s1.lineBoxes).2.1⟩ (styles_still D (breakLine_styles _ _ _ _ _) hs1)
        simp only [dyeInlineState] at this
        exact this

theorem dye_layoutTextRun {Err : Type} (F : FontApi Rat Err) (cb : ContainingBlock) (style : ComputedValues) (text : List Nat) (s : InlineState)
    (hs : ∀ p ∈ s.stack, D.KeepsLine p.style) :
    layoutTextRun F cb (D.text style) text (dyeInlineState D s) = (layoutTextRun F cb style text s).map (dyeInlineState D) :=
  dye_textLines D F cb style (cb.inlineSize - s.inlinePosition) (text.length + 1) text s hs

def dyeResult (r : FlowChildren × Absolutes) : FlowChildren × Absolutes := (dyeChildren D r.1, dyeAbsolutes D r.2)

theorem dye_inlineLoop {Err : Type} (F : FontApi Rat Err) (cb : ContainingBlock) (rank fuel : Nat) (s : InlineState) (as : Absolutes)
    (hfit : ∀ bs ∈ s.allRemaining, inlinesFit D bs) (hst : ∀ p ∈ s.stack, D.KeepsLine p.style) :
    inlineLoop F cb rank fuel (dyeInlineState D s) (dyeAbsolutes D as) = (inlineLoop F cb rank fuel s as).map (dyeResult D) := by
  induction fuel generalizing s as with
  | zero => rfl
  | succ fuel ih =>
    obtain ⟨lines, position, stack, ⟨remaining, fragments, start, size⟩⟩ := s
    rcases remaining with _ | ⟨b, bs⟩
    · rcases stack with _ | ⟨p, stack⟩
      · have hz := dye_finishLine D lines ⟨[], fragments, start, size⟩ cb
        simp only [inlineLoop, inlineStep, dyeInlineState, dyeLevel, dyeInlines, List.map_nil] at hz ⊢
        rw [hz]
        simp [dyeResult, dyeChildren, dyeLines]
      · have hz := dye_finish D p ⟨[], fragments, start, size⟩ position false (hst p List.mem_cons_self)
        have hi := ih ⟨lines, (p.finish ⟨[], fragments, start, size⟩ position false).2.2, stack,
          (p.finish ⟨[], fragments, start, size⟩ position false).1.parentNestingLevel⟩ as
          (fun bs hbs => hfit bs (List.mem_cons_of_mem _ hbs)) (fun q hq => hst q (List.mem_cons_of_mem _ hq))
        simp only [inlineLoop, inlineStep, dyeInlineState, dyeLevel, dyeInlines, List.map_cons] at hz hi ⊢
        rw [hz]
        exact hi
    · have h1 := hfit (b :: bs) List.mem_cons_self
      rw [inlinesFit] at h1
      have h2 : ∀ cs ∈ bs :: stack.map PartialInlineBox.remaining, inlinesFit D cs := by
        intro cs hcs
        rcases List.mem_cons.1 hcs with rfl | hcs
        · exact h1.2
        · exact hfit cs (List.mem_cons_of_mem _ hcs)
      cases b with
      | inlineBox style first last children =>
        have h3 := h1.1
        rw [InlineLevelBox.Fits] at h3
        have hz := dye_startInlineBox D cb style first last children ⟨lines, position, stack, ⟨bs, fragments, start, size⟩⟩ h3.1
        have hi := ih (startInlineBox cb style first last children ⟨lines, position, stack, ⟨bs, fragments, start, size⟩⟩) as
          (fun cs hcs => by
            rcases List.mem_cons.1 hcs with rfl | hcs
            · exact h3.2
            · exact h2 cs hcs)
          (fun q hq => by
            rcases List.mem_cons.1 hq with rfl | hq
            · exact h3.1
            · exact hst q hq)
        rw [← hz] at hi
        simp only [inlineLoop, inlineStep, dyeInlineState, dyeLevel, dyeInlines, dyeInline] at hi ⊢
        exact hi
      | textRun style text =>
        have hz := dye_layoutTextRun D F cb style text ⟨lines, position, stack, ⟨bs, fragments, start, size⟩⟩ hst
        simp only [inlineLoop, inlineStep, dyeInlineState, dyeLevel, dyeInlines, dyeInline] at hz ⊢
        rw [hz]
        rcases ht : layoutTextRun F cb style text ⟨lines, position, stack, ⟨bs, fragments, start, size⟩⟩ with _ | s1
        · rfl
        · have r1 := textLines_remaining _ _ _ _ ht
          exact ih s1 as (by rw [r1]; exact h2) (styles_still D (textLines_styles _ ht) hst)
      | outOfFlowAbsolutelyPositioned style floats contents =>
        simp only [inlineLoop, inlineStep, dyeInlineState, dyeLevel, dyeInlines, dyeInline]
        have hs : staticInlineStart (D.box style) position = staticInlineStart style position := by
          simp only [staticInlineStart, D.specified]
        rw [hs]
        rcases staticInlineStart style position with _ | i
        · rfl
        · have hi := ih ⟨lines, position, stack, ⟨bs, fragments, start, size⟩⟩
            (as ++ [AbsolutelyPositionedBox.layout ⟨style, ⟨contents, floats⟩⟩ ⟨i, lines.nextLineBlockPosition⟩ rank]) h2 hst
          have h3 := h1.1
          rw [InlineLevelBox.Fits] at h3
          rw [dyeAbsolutes, List.map_append, List.map_cons, List.map_nil, ← dye_absoluteLayout D _ _ _ _ _ h3.1] at hi
          exact hi
      | outOfFlowFloat style floats contents =>
        have hi := ih ⟨lines, position, stack, ⟨bs, fragments, start, size⟩⟩ as h2 hst
        simp only [inlineLoop, inlineStep, dyeInlineState, dyeLevel, dyeInlines, dyeInline] at hi ⊢
        exact hi

theorem dye_layoutInline {Err : Type} (F : FontApi Rat Err) (boxes : List InlineLevelBox) (cb : ContainingBlock) (rank : Nat) (as : Absolutes)
    (hfit : inlinesFit D boxes) : layoutInline F (dyeInlines D boxes) cb rank (dyeAbsolutes D as) = (layoutInline F boxes cb rank as).map (dyeResult D) := by
  have h := dye_inlineLoop D F cb rank (costs boxes + 1) (initialInlineState boxes) as
    (fun bs hbs => by
      simp only [InlineState.allRemaining, initialInlineState, List.map_nil, List.mem_singleton] at hbs
      rw [hbs]
      exact hfit) (by simp [initialInlineState])
  have h0 : dyeInlineState D (initialInlineState boxes) = initialInlineState (dyeInlines D boxes) := by
    simp [dyeInlineState, initialInlineState, dyeLines, dyeLevel]
  rw [h0] at h
  simp only [layoutInline, dye_costs]
  exact h

/-! ### Blocks -/

theorem dye_placeFragment (s : PlacementState) (f : Fragment) :
    placeFragment s (dyeFragment D f) = (placeFragment s f).map fun r => (dyeFragment D r.1, r.2) := by
  have hm : ∀ (b : BoxInfo) d, (dyeInfo D b).moveBlock d = dyeInfo D (b.moveBlock d) := by
    intro b d
    simp only [dyeInfo, BoxInfo.moveBlock, Vec2.add, BoxInfo.mk.injEq, Rect.mk.injEq, Vec2.mk.injEq, and_true, true_and]
    rw [Rat.add_assoc, Rat.add_comm (D.move b.style).block, Rat.add_assoc]
  have hs : ∀ b : BoxInfo, (dyeInfo D b).borderBlockSize = b.borderBlockSize := fun _ => rfl
  obtain ⟨n, start, current, pos⟩ := s
  cases f with
  | text => rfl
  | anonymous rect children mode =>
    simp only [dyeFragment, placeFragment, dyeFragments_eq, List.isEmpty_map]
    split
    · simp [dyeFragment, dyeFragments_eq]
    · rfl
  | box b children =>
    simp only [dyeFragment, placeFragment]
    rw [show (dyeInfo D b).blockMarginsCollapsedWithChildren = b.blockMarginsCollapsedWithChildren from rfl]
    generalize b.blockMarginsCollapsedWithChildren = m
    obtain ⟨through, ms, me⟩ := m
    simp only [hm, hs]
    cases n <;> cases through <;> simp only [Bool.false_eq_true, if_false, if_true]
    · simp [dyeFragment]
    · simp [dyeFragment]
    · split
      · simp [dyeFragment]
      · rfl
    · split
      · simp [dyeFragment]
      · rfl

theorem dye_placeAll (s : PlacementState) (fs : List Fragment) :
    placeAll s (fs.map (dyeFragment D)) = (placeAll s fs).map fun r => (r.1.map (dyeFragment D), r.2) := by
  induction fs generalizing s with
  | nil => rfl
  | cons f fs ih =>
    simp only [List.map_cons, placeAll, dye_placeFragment]
    rcases placeFragment s f with _ | ⟨f1, s1⟩
    · rfl
    · simp only [Option.map_some, ih]
      rcases placeAll s1 fs with _ | ⟨fs1, s2⟩
      · rfl
      · rfl

/-- The layout of a child with dyed boxes. -/
def DyedChild (g g' : Nat → BlockLevelBox → Option (Fragment × Absolutes)) : Prop :=
  ∀ rank b, b.Fits D → g' rank (dyeBox D b) = (g rank b).map fun r => (dyeFragment D r.1, dyeAbsolutes D r.2)

/-- A fragment that stays where it is. -/
def Fragment.Still : Fragment → Prop
  | .box info _ => D.move info.style = Vec2.zero
  | _ => True

/-- What is left to be positioned in a child has its rank, and the child stays where it is. -/
def StillChild (g : Nat → BlockLevelBox → Option (Fragment × Absolutes)) : Prop :=
  ∀ rank b f as, b.Fits D → g rank b = some (f, as) → ∀ a ∈ as, a.treeRank = rank ∧ f.Still D

variable {D}

theorem dye_seqChildren {g g' : Nat → BlockLevelBox → Option (Fragment × Absolutes)} (h : DyedChild D g g') (rank : Nat)
    (bs : List BlockLevelBox) (hfit : ∀ b ∈ bs, b.Fits D) :
    seqChildren g' rank (dyeBoxes D bs) = (seqChildren g rank bs).map fun r => (r.1.map (dyeFragment D), dyeAbsolutes D r.2) := by
  induction bs generalizing rank with
  | nil => rw [dyeBoxes]; rfl
  | cons b bs ih =>
    simp only [dyeBoxes, seqChildren, h rank b (hfit b List.mem_cons_self), ih _ fun b hb => hfit b (List.mem_cons_of_mem _ hb)]
    rcases g rank b with _ | ⟨f1, as1⟩
    · rfl
    · rcases seqChildren g (rank + 1) bs with _ | ⟨fs, as2⟩
      · rfl
      · simp [dyeAbsolutes]

theorem still_seqChildren {g : Nat → BlockLevelBox → Option (Fragment × Absolutes)} (h : StillChild D g) :
    ∀ (bs : List BlockLevelBox) (rank : Nat) (fs : List Fragment) (as : Absolutes), (∀ b ∈ bs, b.Fits D) → seqChildren g rank bs = some (fs, as) →
      ∀ a ∈ as, rank ≤ a.treeRank ∧ ∀ f, fs[a.treeRank - rank]? = some f → f.Still D := by
  intro bs
  induction bs with
  | nil =>
    intro rank fs as _ hs
    simp only [seqChildren, Option.some.injEq, Prod.mk.injEq] at hs
    rw [← hs.2]
    simp
  | cons b bs ih =>
    intro rank fs as hfit hs
    simp only [seqChildren] at hs
    rcases h1 : g rank b with _ | ⟨f1, as1⟩
    · simp [h1] at hs
    rcases h2 : seqChildren g (rank + 1) bs with _ | ⟨fs2, as2⟩
    · simp [h1, h2] at hs
    simp only [h1, h2, Option.some.injEq, Prod.mk.injEq] at hs
    obtain ⟨rfl, rfl⟩ := hs
    intro a ha
    rcases List.mem_append.1 ha with ha | ha
    · obtain ⟨e1, e2⟩ := h rank b f1 as1 (hfit b List.mem_cons_self) h1 a ha
      refine ⟨by omega, fun f hf => ?_⟩
      simp only [e1, Nat.sub_self, List.getElem?_cons_zero, Option.some.injEq] at hf
      exact hf ▸ e2
    · obtain ⟨e1, e2⟩ := ih (rank + 1) fs2 as2 (fun b hb => hfit b (List.mem_cons_of_mem _ hb)) h2 a ha
      refine ⟨by omega, fun f hf => e2 f ?_⟩
      rw [show a.treeRank - rank = (a.treeRank - (rank + 1)) + 1 from by omega, List.getElem?_cons_succ] at hf
      exact hf

theorem still_placeFragment {s s' : PlacementState} {f f' : Fragment} (h : placeFragment s f = some (f', s')) (hf : f.Still D) : f'.Still D := by
  cases f with
  | text => simp [placeFragment] at h
  | anonymous rect children mode =>
    simp only [placeFragment] at h
    split at h
    · cases h
      trivial
    · cases h
  | box b children =>
    have hm : ∀ d, D.move (b.moveBlock d).style = Vec2.zero := fun _ => hf
    simp only [placeFragment] at h
    repeat' split at h
    all_goals first | (cases h; first | exact hf | exact hm _) | cases h

theorem still_placeAll : ∀ (fs : List Fragment) (s : PlacementState) (fs' : List Fragment) (s' : PlacementState), placeAll s fs = some (fs', s') →
    ∀ n : Nat, (∀ f, fs[n]? = some f → f.Still D) → ∀ f, fs'[n]? = some f → f.Still D
  | [], s, fs', s', h, n, _, f, hf => by
    simp only [placeAll, Option.some.injEq, Prod.mk.injEq] at h
    rw [← h.1] at hf
    simp at hf
  | f1 :: fs, s, fs', s', h, n, hn, f, hf => by
    simp only [placeAll] at h
    rcases h1 : placeFragment s f1 with _ | ⟨f2, s1⟩
    · simp [h1] at h
    · simp only [h1] at h
      rcases h2 : placeAll s1 fs with _ | ⟨fs2, s2⟩
      · simp [h2] at h
      · simp only [h2, Option.some.injEq, Prod.mk.injEq] at h
        obtain ⟨rfl, -⟩ := h
        cases n with
        | zero =>
          simp only [List.getElem?_cons_zero, Option.some.injEq] at hf
          exact hf ▸ still_placeFragment h1 (hn f1 rfl)
        | succ n =>
          rw [List.getElem?_cons_succ] at hf
          exact still_placeAll fs s1 fs2 s2 h2 n (fun f hf => hn f (by rw [List.getElem?_cons_succ]; exact hf)) f hf

variable (D)

theorem still_rect {f : Fragment} (h : f.Still D) : (dyeFragment D f).rect? = f.rect? := by
  cases f with
  | box b children =>
    simp only [Fragment.Still] at h
    simp [dyeFragment, Fragment.rect?, dyeInfo, h, add_zero_vec]
  | anonymous => rfl
  | text => rfl

theorem dye_adjustStatic (as : Absolutes) (fs : List Fragment) (rank : Nat) (h : ∀ a ∈ as, ∀ f, fs[a.treeRank]? = some f → f.Still D) :
    adjustStaticPositions (dyeAbsolutes D as) (fs.map (dyeFragment D)) rank = (adjustStaticPositions as fs rank).map (dyeAbsolutes D) := by
  induction as with
  | nil => rfl
  | cons a as ih =>
    have ih' : adjustStaticPositions (as.map (dyeAbsolute D)) (fs.map (dyeFragment D)) rank =
      (adjustStaticPositions as fs rank).map (dyeAbsolutes D) := ih fun a ha => h a (List.mem_cons_of_mem _ ha)
    simp only [dyeAbsolutes, List.map_cons, adjustStaticPositions, ih']
    rw [show (dyeAbsolute D a).treeRank = a.treeRank from rfl, List.getElem?_map]
    rcases hf : fs[a.treeRank]? with _ | f
    · rfl
    · simp only [Option.map_some, still_rect D (h a List.mem_cons_self f hf)]
      rcases f.rect? with _ | r
      · rfl
      · rcases adjustStaticPositions as fs rank with _ | as1
        · rfl
        · simp [dyeAbsolutes, dyeAbsolute, slide_moveStatic]

variable {D}

theorem dye_canonicalChildren {g g' : Nat → BlockLevelBox → Option (Fragment × Absolutes)} (h : DyedChild D g g') (h0 : StillChild D g)
    (bs : List BlockLevelBox) (rank : Nat) (collapsible : Bool) (hfit : ∀ b ∈ bs, b.Fits D) :
    canonicalChildren g' (dyeBoxes D bs) rank collapsible = (canonicalChildren g bs rank collapsible).map (dyeResult D) := by
  simp only [canonicalChildren, dye_seqChildren h _ _ hfit]
  rcases h1 : seqChildren g 0 bs with _ | ⟨fs, as⟩
  · rfl
  · simp only [Option.map_some, dye_placeAll]
    rcases h2 : placeAll (.initial collapsible) fs with _ | ⟨fs1, s⟩
    · rfl
    · have h3 := dye_adjustStatic D as fs1 rank fun a ha f hf =>
        still_placeAll _ _ _ _ h2 a.treeRank (fun f hf => (still_seqChildren h0 bs 0 fs as hfit h1 a ha).2 f hf) f hf
      simp only [Option.map_some, finishChildren, List.drop_zero, List.take_zero, h3]
      rcases adjustStaticPositions as fs1 rank with _ | as1
      · rfl
      · simp [dyeResult, dyeChildren]

variable (D)

theorem dye_inFlowSizes (cb : ContainingBlock) (style : ComputedValues) (h : D.KeepsFlow style) :
    inFlowSizes cb (D.box style) = inFlowSizes cb style := by
  simp only [inFlowSizes, D.padding, D.border, D.margin, h.1]

variable {D}

/-- The layout of an absolutely positioned fragment with dyed boxes. -/
def DyedAbsolute (D : Dye) (f f' : DefiniteContainingBlock → Nat → AbsolutelyPositionedFragment → Option Fragment) : Prop :=
  ∀ cb i a, a.Fits D → f' cb i (dyeAbsolute D a) = (f cb i a).map (dyeFragment D)

theorem dye_layoutAll {f f' : Nat → AbsolutelyPositionedFragment → Option Fragment}
    (h : ∀ i a, a.Fits D → f' i (dyeAbsolute D a) = (f i a).map (dyeFragment D)) (i : Nat) (as : Absolutes)
    (hfit : ∀ a ∈ as, a.Fits D) :
    layoutAll f' i (dyeAbsolutes D as) = (layoutAll f i as).map (·.map (dyeFragment D)) := by
  induction as generalizing i with
  | nil => rfl
  | cons a as ih =>
    have ih' := ih (i + 1) fun a ha => hfit a (List.mem_cons_of_mem _ ha)
    simp only [dyeAbsolutes, List.map_cons, layoutAll, h i a (hfit a List.mem_cons_self)] at ih' ⊢
    rw [ih']
    rcases f i a with _ | f1
    · rfl
    · rcases layoutAll f (i + 1) as with _ | fs
      · rfl
      · rfl

theorem dye_inPositioned {f f' : DefiniteContainingBlock → Nat → AbsolutelyPositionedFragment → Option Fragment} (h : DyedAbsolute D f f')
    (as : Absolutes) (fs : List Fragment) (size : Vec2 Rat) (p : Sides Rat) (mode : Mode)
    (hfit : ∀ a ∈ as, a.Fits D) :
    inPositionedContainingBlock f' (dyeAbsolutes D as) (fs.map (dyeFragment D)) size p mode =
      (inPositionedContainingBlock f as fs size p mode).map (·.map (dyeFragment D)) := by
  cases as with
  | nil => rfl
  | cons a as =>
    have hl := dye_layoutAll (h ⟨((⟨Vec2.zero, size⟩ : Rect Rat).inflate p).size, mode⟩) 0 (a :: as) hfit
    simp only [dyeAbsolutes, List.map_cons, inPositionedContainingBlock] at hl ⊢
    rw [hl]
    rcases layoutAll (f ⟨((⟨Vec2.zero, size⟩ : Rect Rat).inflate p).size, mode⟩) 0 (a :: as) with _ | gs
    · rfl
    · simp [dyeFragment, dyeFragments_eq]

theorem dye_layoutInFlow {g g' : ContainingBlock → Bool → Option (FlowChildren × Absolutes)}
    {f f' : DefiniteContainingBlock → Nat → AbsolutelyPositionedFragment → Option Fragment} (hf : DyedAbsolute D f f')
    (hg : ∀ cb c, g' cb c = (g cb c).map (dyeResult D))
    (hgfit : ∀ cb c r, g cb c = some r → ∀ a ∈ r.2, a.Fits D)
    (cb : ContainingBlock) (style : ComputedValues) (kind : BlockLevelKind) (hfit : D.KeepsFlow style) :
    layoutInFlow cb [] (D.box style) kind (fun cb _ c => g' cb c) f' =
      (layoutInFlow cb [] style kind (fun cb _ c => g cb c) f).map fun r => (dyeFragment D r.1, dyeAbsolutes D r.2) := by
  simp only [layoutInFlow, dye_inFlowSizes D cb style hfit, D.position]
  generalize inFlowSizes cb style = sizes
  rw [show writingMode (D.box style) = writingMode style from rfl]
  split
  · rfl
  · simp only [hg]
    generalize (sizes.padding.add sizes.border) = pb
    rcases hg1 : g ⟨sizes.inlineSize, sizes.blockSize, writingMode style⟩
      (decide (kind = .sameFormattingContextBlock) && decide (pb.blockStart = 0)) with _ | ⟨children, as1⟩
    · rfl
    · have e1 : ∀ m : Rat, pb.inlineStart + ((relativeAdjustement style sizes.inlineSize sizes.blockSize).inline + (D.move style).inline) + m =
          pb.inlineStart + (relativeAdjustement style sizes.inlineSize sizes.blockSize).inline + m + (D.move style).inline := by
        intro m
        grind
      have e2 : pb.blockStart + ((relativeAdjustement style sizes.inlineSize sizes.blockSize).block + (D.move style).block) =
          pb.blockStart + (relativeAdjustement style sizes.inlineSize sizes.blockSize).block + (D.move style).block := by grind
      simp only [Option.map_some, dyeResult, dyeChildren, hfit.2.1]
      split
      · rw [dye_inPositioned hf _ _ _ _ _ (hgfit _ _ _ hg1)]
        split
        · rename_i h1
          rw [Option.map_eq_none_iff] at h1
          rw [h1]
          rfl
        · rename_i h1
          obtain ⟨fs, h2, rfl⟩ := Option.map_eq_some_iff.1 h1
          rw [h2]
          simp [dyeFragment, dyeFragments_eq, dyeInfo, Vec2.add, e1, e2, dyeAbsolutes]
      · simp [dyeFragment, dyeFragments_eq, dyeInfo, Vec2.add, e1, e2]

/-- An edge that is moved. -/
def Anchor.slide (a : Anchor) (d : Rat) : Anchor :=
  match a with
  | .start s => .start (s + d)
  | .end e => .end (e - d)

theorem Anchor.slide_zero (a : Anchor) : a.slide 0 = a := by
  cases a <;> simp [Anchor.slide, Rat.add_zero, Rat.sub_eq_add_neg]

theorem AbsoluteBoxOffsets.slide_zero (o : AbsoluteBoxOffsets) : o.slide 0 = o := by
  rcases o with _ | l | l | _
  · rfl
  · cases l <;> simp [AbsoluteBoxOffsets.slide, Rat.add_zero]
  · cases l <;> simp [AbsoluteBoxOffsets.slide, Rat.sub_eq_add_neg, Rat.add_zero]
  · rfl

theorem slide_solveAxis {o : AbsoluteBoxOffsets} {d : Rat} {sized : Prop} (h : o.Slides d sized) (cs pb : Rat) (ms me : LengthOrAuto)
    (solve : Rat → Rat × Rat) (size : LengthOrPercentageOrAuto) :
    solveAxis cs pb ms me solve (o.slide d) size = ((solveAxis cs pb ms me solve o size).1.slide d, (solveAxis cs pb ms me solve o size).2) := by
  rcases h with rfl | ⟨-, ⟨l, rfl⟩ | ⟨e, rfl⟩⟩
  · rw [AbsoluteBoxOffsets.slide_zero, Anchor.slide_zero]
  · rfl
  · rfl

/-- The sizes of a box, with edges that are moved. -/
def AbsoluteSizes.slide (z : AbsoluteSizes) (v : Vec2 Rat) : AbsoluteSizes :=
  { z with inlineAnchor := z.inlineAnchor.slide v.inline, blockAnchor := z.blockAnchor.slide v.block }

theorem dye_absoluteSizes (cb : DefiniteContainingBlock) (a : AbsolutelyPositionedFragment) (h : a.Fits D) :
    absoluteSizes cb (dyeAbsolute D a) = (absoluteSizes cb a).slide (D.move a.box.style) := by
  simp only [absoluteSizes, dyeAbsolute, D.padding, D.border, D.margin, slide_solveAxis h.2.1, slide_solveAxis h.2.2, AbsoluteSizes.slide]
  congr 1
  rcases h.2.1 with h1 | ⟨h1, ⟨l, h2⟩ | ⟨e, h2⟩⟩
  · rw [h1, Anchor.slide_zero]
  all_goals
    rw [h2]
    simp only [solveAxis, Anchor.slide]
    rcases h3 : a.inlineSize with l | p | _
    · rfl
    · rfl
    · exact absurd h3 h1

theorem slide_contentRect (cb : DefiniteContainingBlock) (z : AbsoluteSizes) (v : Vec2 Rat) (size : Rat) :
    absoluteContentRect cb (z.slide v) size = ⟨(absoluteContentRect cb z size).startCorner.add v, (absoluteContentRect cb z size).size⟩ := by
  simp only [absoluteContentRect, AbsoluteSizes.slide, Vec2.add, Rect.mk.injEq, Vec2.mk.injEq, and_true]
  constructor
  · cases z.inlineAnchor <;> simp only [Anchor.slide] <;> grind
  · cases z.blockAnchor <;> simp only [Anchor.slide] <;> grind

theorem dye_mapFst (r : Option (FlowChildren × Absolutes)) :
    mapFst FlowChildren.finishBlockFormattingContext (r.map (dyeResult D)) =
      (mapFst FlowChildren.finishBlockFormattingContext r).map (dyeResult D) := by
  rcases r with _ | ⟨c, as⟩
  · rfl
  · rfl

variable (D)

theorem layout_fit {Err : Type} {F : FontApi Rat Err} {fuel : Nat} {c : BlockContainer} {cb : ContainingBlock} {rank : Nat}
    {collapsible : Bool} {r : FlowChildren × Absolutes} (h : layoutContainer F fuel inOrder c cb rank [] false collapsible = some r)
    (hfit : c.Fits D) : ∀ a ∈ r.2, a.Fits D :=
  (layout_made (fits_carried D) F fuel).1 c cb rank collapsible r.1 r.2 (BlockContainer.Fits.asides D c hfit) h

theorem mapFst_fit {Err : Type} {F : FontApi Rat Err} {fuel : Nat} {c : BlockContainer} {cb : ContainingBlock} {rank : Nat}
    {collapsible : Bool} {g : FlowChildren → FlowChildren} {r : FlowChildren × Absolutes}
    (h : mapFst g (layoutContainer F fuel inOrder c cb rank [] false collapsible) = some r)
    (hfit : c.Fits D) : ∀ a ∈ r.2, a.Fits D := by
  rcases h1 : layoutContainer F fuel inOrder c cb rank [] false collapsible with _ | r1
  · simp [h1, mapFst] at h
  · rw [h1] at h
    simp only [mapFst, Option.some.injEq] at h
    subst h
    exact fun a ha => layout_fit D h1 hfit a ha


theorem mem_forall₂ {α β : Type} {r : α → β → Prop} {l : List α} {l' : List β} (h : List.Forall₂ r l l') {b : β} (hb : b ∈ l') : ∃ a, r a b := by
  induction h with
  | nil => simp at hb
  | cons h1 _ ih =>
    rcases List.mem_cons.1 hb with rfl | hb
    · exact ⟨_, h1⟩
    · exact ih hb

theorem still_inFlow {cb : ContainingBlock} {style : ComputedValues} {kind : BlockLevelKind} {rank : Nat}
    {lc : ContainingBlock → Absolutes → Bool → Option (FlowChildren × Absolutes)}
    {la : DefiniteContainingBlock → Nat → AbsolutelyPositionedFragment → Option Fragment} {f : Fragment} {as : Absolutes}
    (hfit : D.KeepsFlow style) (hlc : ∀ cb coll fc as, lc cb [] coll = some (fc, as) → ∀ a ∈ as, a.treeRank = rank)
    (h : layoutInFlow cb [] style kind lc la = some (f, as)) : ∀ a ∈ as, a.treeRank = rank ∧ f.Still D := by
  simp only [layoutInFlow] at h
  split at h
  · cases h
  · split at h
    · cases h
    · rename_i fc as' hl
      rw [ite_self] at hl
      split at h
      · split at h
        · cases h
        · cases h
          simp
      · rename_i hrel
        simp only [Option.some.injEq, Prod.mk.injEq] at h
        obtain ⟨rfl, rfl⟩ := h
        exact fun a ha => ⟨hlc _ _ _ _ hl a ha, hfit.2.2 (by simpa using hrel)⟩

theorem still_layoutBox {Err : Type} (F : FontApi Rat Err) (fuel : Nat) (cb : ContainingBlock) :
    StillChild D fun rank b => layoutBox F fuel inOrder b cb rank [] false := by
  intro rank b f as hfit h
  cases fuel with
  | zero => simp [layoutBox] at h
  | succ fuel =>
    have hp := layout_prepend F fuel
    have hrank : ∀ c cb coll fc as, layoutContainer F fuel inOrder c cb rank [] false coll = some (fc, as) → ∀ a ∈ as, a.treeRank = rank := by
      intro c cb coll fc as h a ha
      have h1 := (layout_static F fuel).1 c cb rank coll fc as h
      obtain ⟨box, v, -, rfl⟩ := mem_forall₂ h1 ha
      rfl
    rw [BlockLevelBox.Fits.eq_def] at hfit
    cases b with
    | sameFormattingContextBlock style contents =>
      simp only [layoutBox] at h
      refine still_inFlow D hfit.1 (fun cb coll fc as hl => ?_) h
      rw [hp.1 (inOrder.sub 0), prepend_nil] at hl
      exact hrank _ _ _ _ _ hl
    | independent style containsFloats contents =>
      simp only [layoutBox] at h
      refine still_inFlow D hfit.1 (fun cb coll fc as hl => ?_) h
      rw [hp.1 (inOrder.sub 0), prepend_nil] at hl
      rcases h5 : layoutContainer F fuel inOrder contents cb rank [] false false with _ | ⟨fc1, as1⟩
      · simp [h5, mapFst] at hl
      · rw [h5] at hl
        simp only [mapFst, Option.some.injEq, Prod.mk.injEq] at hl
        obtain ⟨-, rfl⟩ := hl
        exact hrank _ _ _ _ _ h5
    | outOfFlowAbsolutelyPositioned style containsFloats contents =>
      simp only [layoutBox, Option.some.injEq, Prod.mk.injEq, List.nil_append] at h
      rw [← h.2, ← h.1]
      intro a ha
      simp only [List.mem_singleton] at ha
      subst ha
      exact ⟨rfl, trivial⟩
    | outOfFlowFloat style containsFloats contents =>
      simp only [layoutBox, Option.some.injEq, Prod.mk.injEq] at h
      rw [← h.2]
      simp

/-- Layout of dyed boxes. -/
theorem dye_layout {Err : Type} (F : FontApi Rat Err) (fuel : Nat) :
    (∀ c cb rank collapsible, c.Fits D → layoutContainer F fuel inOrder (dyeContainer D c) cb rank [] false collapsible =
      (layoutContainer F fuel inOrder c cb rank [] false collapsible).map (dyeResult D)) ∧
    (∀ cb, DyedChild D (fun rank b => layoutBox F fuel inOrder b cb rank [] false) fun rank b => layoutBox F fuel inOrder b cb rank [] false) ∧
    (∀ cb a, a.Fits D → layoutAbsolute F fuel inOrder cb (dyeAbsolute D a) = (layoutAbsolute F fuel inOrder cb a).map (dyeFragment D)) := by
  induction fuel with
  | zero =>
    refine ⟨?_, ?_, ?_⟩
    · intros; simp only [layoutContainer, Option.map_none]
    · intro cb rank b _; simp only [layoutBox, Option.map_none]
    · intros; simp only [layoutAbsolute, Option.map_none]
  | succ fuel ih =>
    obtain ⟨ih1, ih2, ih3⟩ := ih
    have hp := layout_prepend F fuel
    refine ⟨?_, ?_, ?_⟩
    · intro c cb rank collapsible hfit
      rw [BlockContainer.Fits.eq_def] at hfit
      cases c with
      | blockLevelBoxes boxes =>
        simp only [layoutContainer, dyeContainer]
        rw [layoutChildren_eq (g := fun rank b => layoutBox F fuel inOrder b cb rank [] false)
            (fun rank b absolute => hp.2.1 _ b cb rank absolute false), prepend_nil,
          layoutChildren_eq (g := fun rank b => layoutBox F fuel inOrder b cb rank [] false)
            (fun rank b absolute => hp.2.1 _ b cb rank absolute false), prepend_nil]
        exact dye_canonicalChildren (ih2 cb) (still_layoutBox D F fuel cb) boxes rank collapsible (blocksFit_mem D hfit)
      | inlineFormattingContext boxes =>
        simp only [layoutContainer, dyeContainer]
        exact dye_layoutInline D F boxes cb rank [] hfit
    · intro cb rank b hfit
      rw [BlockLevelBox.Fits.eq_def] at hfit
      have key : ∀ style kind (g : ContainingBlock → Absolutes → Bool → Option (FlowChildren × Absolutes)),
          layoutInFlow cb [] style kind g (fun cb k a => layoutAbsolute F fuel (inOrder.sub (k + 1)) cb a) =
          layoutInFlow cb [] style kind (fun cb _ c => g cb [] c) (fun cb k a => layoutAbsolute F fuel (inOrder.sub (k + 1)) cb a) := by
        intro style kind g
        simp only [layoutInFlow, ite_self]
      cases b with
      | sameFormattingContextBlock style contents =>
        simp only [layoutBox, dyeBox]
        rw [key (D.box style), key style]
        refine dye_layoutInFlow (fun cb i a ha => ih3 cb a ha) (fun cb c => ?_) (fun cb c r hr => ?_) cb style _ hfit.1
        · exact ih1 contents cb rank c hfit.2
        · exact layout_fit D hr hfit.2
      | independent style containsFloats contents =>
        simp only [layoutBox, dyeBox]
        rw [key (D.box style), key style]
        refine dye_layoutInFlow (fun cb i a ha => ih3 cb a ha) (fun cb c => ?_) (fun cb c r hr => ?_) cb style _ hfit.1
        · rw [hp.1 (inOrder.sub 0), prepend_nil, hp.1 (inOrder.sub 0), prepend_nil, ih1 _ _ _ _ hfit.2, dye_mapFst]
        · rw [hp.1 (inOrder.sub 0), prepend_nil] at hr
          exact mapFst_fit D hr hfit.2
      | outOfFlowAbsolutelyPositioned style containsFloats contents =>
        have h := dye_absoluteLayout D style contents containsFloats Vec2.zero rank hfit.1
        simp only [layoutBox, dyeBox, Option.map_some, dyeFragment_noOp, h]
        simp [dyeAbsolutes]
      | outOfFlowFloat style containsFloats contents =>
        simp [layoutBox, dyeBox, dyeFragment_noOp, dyeAbsolutes]
    · intro cb a hfit
      simp only [layoutAbsolute, dye_absoluteSizes cb a hfit]
      rw [show writingMode (dyeAbsolute D a).box.style = writingMode a.box.style from rfl,
        show (dyeAbsolute D a).box.contents.contents = dyeContainer D a.box.contents.contents from rfl,
        show (dyeAbsolute D a).box.contents.containsFloats = a.box.contents.containsFloats from rfl,
        show (dyeAbsolute D a).box.style = D.box a.box.style from rfl,
        show ((absoluteSizes cb a).slide (D.move a.box.style)).inlineSize = (absoluteSizes cb a).inlineSize from rfl,
        show ((absoluteSizes cb a).slide (D.move a.box.style)).blockSize = (absoluteSizes cb a).blockSize from rfl,
        show ((absoluteSizes cb a).slide (D.move a.box.style)).padding = (absoluteSizes cb a).padding from rfl,
        show ((absoluteSizes cb a).slide (D.move a.box.style)).border = (absoluteSizes cb a).border from rfl,
        show ((absoluteSizes cb a).slide (D.move a.box.style)).margin = (absoluteSizes cb a).margin from rfl]
      split
      · rfl
      · rw [hp.1 (inOrder.sub 0), prepend_nil, hp.1 (inOrder.sub 0), prepend_nil, ih1 _ _ _ _ hfit.1.2, dye_mapFst]
        rcases hm : mapFst FlowChildren.finishBlockFormattingContext (layoutContainer F fuel inOrder a.box.contents.contents
          ⟨(absoluteSizes cb a).inlineSize, (absoluteSizes cb a).blockSize, writingMode a.box.style⟩ 0 [] false false) with _ | ⟨c, as⟩
        · rfl
        · simp only [Option.map_some, dyeResult, slide_contentRect]
          rw [show (dyeChildren D c).blockSize = c.blockSize from rfl]
          have h3 := dye_inPositioned (D := D) (f := fun cb i a => layoutAbsolute F fuel (inOrder.sub (i + 1)) cb a)
            (f' := fun cb i a => layoutAbsolute F fuel (inOrder.sub (i + 1)) cb a) (fun cb i a ha => ih3 cb a ha) as c.fragments
            (absoluteContentRect cb (absoluteSizes cb a) c.blockSize).size (absoluteSizes cb a).padding (writingMode a.box.style)
            (mapFst_fit D hm hfit.1.2)
          rw [show (dyeChildren D c).fragments = c.fragments.map (dyeFragment D) from rfl, h3]
          rcases inPositionedContainingBlock (fun cb i a => layoutAbsolute F fuel (inOrder.sub (i + 1)) cb a) as c.fragments
            (absoluteContentRect cb (absoluteSizes cb a) c.blockSize).size (absoluteSizes cb a).padding (writingMode a.box.style) with _ | fs
          · rfl
          · simp [dyeFragment, dyeFragments_eq, dyeInfo]

theorem dye_layoutRoot {Err : Type} (F : FontApi Rat Err) (fuel : Nat) (s : Oracle) (root : BlockFormattingContext) (viewport : Vec2 Rat)
    (hfit : root.contents.Fits D) :
    layoutRoot F fuel s (dyeContext D root) viewport = (layoutRoot F fuel s root viewport).map (·.map (dyeFragment D)) := by
  obtain ⟨h1, -, h3⟩ := dye_layout D F fuel
  have hp := layout_prepend F fuel
  simp only [layoutRoot, BlockFormattingContext.layout, hp.2.2 (s.sub _)]
  rw [show (dyeContext D root).contents = dyeContainer D root.contents from rfl, hp.1 (s.sub 0), prepend_nil, hp.1 (s.sub 0), prepend_nil,
    h1 _ _ _ _ hfit, dye_mapFst]
  rcases hm : mapFst FlowChildren.finishBlockFormattingContext (layoutContainer F fuel inOrder root.contents
    ⟨viewport.inline, .length viewport.block, (.horizontalTb, .ltr)⟩ 0 [] false false) with _ | ⟨c, as⟩
  · rfl
  · have h5 := dye_layoutAll (D := D) (f := fun _ a => layoutAbsolute F fuel inOrder ⟨viewport, (.horizontalTb, .ltr)⟩ a)
      (f' := fun _ a => layoutAbsolute F fuel inOrder ⟨viewport, (.horizontalTb, .ltr)⟩ a)
      (fun i a ha => h3 ⟨viewport, (.horizontalTb, .ltr)⟩ a ha) 0 as (mapFst_fit D hm hfit)
    simp only [Option.map_some, dyeResult, h5]
    rcases layoutAll (fun _ a => layoutAbsolute F fuel inOrder ⟨viewport, (.horizontalTb, .ltr)⟩ a) 0 as with _ | fs
    · rfl
    · simp [dyeChildren]

/-- Nothing is moved, nor are the sizes of boxes changed. -/
def Dye.KeepsAll (s : ComputedValues) : Prop :=
  D.move s = Vec2.zero ∧ (∀ i b, relativeAdjustement (D.box s) i b = relativeAdjustement s i b) ∧ boxSize (D.box s) = boxSize s ∧
  boxOffsets (D.box s) = boxOffsets s

/-- All that is changed is how things look. -/
def Dye.Total : Prop := ∀ s, D.KeepsAll s

variable {D}

theorem Dye.KeepsAll.flow {s : ComputedValues} (h : D.KeepsAll s) : D.KeepsFlow s :=
  ⟨h.2.2.1, fun i b => by rw [h.1, add_zero_vec, h.2.1], fun _ => h.1⟩

theorem Dye.KeepsAll.line {s : ComputedValues} (h : D.KeepsAll s) : D.KeepsLine s := ⟨h.2.1, h.1⟩

theorem Dye.KeepsAll.place {s : ComputedValues} (h : D.KeepsAll s) : D.KeepsPlace s :=
  ⟨h.2.2.1, fun x => by
    rw [h.2.2.2, h.1]
    exact ⟨(AbsoluteBoxOffsets.slide_zero _).symm, (AbsoluteBoxOffsets.slide_zero _).symm, .inl rfl, .inl rfl⟩⟩

mutual
theorem Dye.Total.container (h : D.Total) : ∀ c : BlockContainer, c.Fits D
  | .blockLevelBoxes bs => by rw [BlockContainer.Fits]; exact h.blocks bs
  | .inlineFormattingContext bs => by rw [BlockContainer.Fits]; exact h.inlines bs
theorem Dye.Total.block (h : D.Total) : ∀ b : BlockLevelBox, b.Fits D
  | .sameFormattingContextBlock s c => by rw [BlockLevelBox.Fits]; exact ⟨(h s).flow, h.container c⟩
  | .independent s _ c => by rw [BlockLevelBox.Fits]; exact ⟨(h s).flow, h.container c⟩
  | .outOfFlowAbsolutelyPositioned s _ c => by rw [BlockLevelBox.Fits]; exact ⟨(h s).place, h.container c⟩
  | .outOfFlowFloat _ _ _ => by rw [BlockLevelBox.Fits]; trivial
theorem Dye.Total.blocks (h : D.Total) : ∀ bs : List BlockLevelBox, blocksFit D bs
  | [] => by rw [blocksFit]; trivial
  | b :: bs => by rw [blocksFit]; exact ⟨h.block b, h.blocks bs⟩
theorem Dye.Total.inline (h : D.Total) : ∀ b : InlineLevelBox, b.Fits D
  | .inlineBox s _ _ children => by rw [InlineLevelBox.Fits]; exact ⟨(h s).line, h.inlines children⟩
  | .textRun _ _ => by rw [InlineLevelBox.Fits]; trivial
  | .outOfFlowAbsolutelyPositioned s _ c => by rw [InlineLevelBox.Fits]; exact ⟨(h s).place, h.container c⟩
  | .outOfFlowFloat _ _ _ => by rw [InlineLevelBox.Fits]; trivial
theorem Dye.Total.inlines (h : D.Total) : ∀ bs : List InlineLevelBox, inlinesFit D bs
  | [] => by rw [inlinesFit]; trivial
  | b :: bs => by rw [inlinesFit]; exact ⟨h.inline b, h.inlines bs⟩
end

end

end Verif.Layout
