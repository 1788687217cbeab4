/- What is absolutely positioned changes nothing in the layout of what is in flow. -/
import Verif.Layout.AsidePending
namespace Verif.Layout
open Verif.Style Verif.Text

variable {Err : Type} {F : FontApi Rat Err}

/-! ### The boxes that are in flow -/

mutual
/-- The inline-level boxes in flow for a box. -/
def InlineLevelBox.flow : InlineLevelBox → List InlineLevelBox
  | .inlineBox style first last children => [.inlineBox style first last (inlinesFlow children)]
  | .textRun style text => [.textRun style text]
  | .outOfFlowAbsolutelyPositioned _ _ _ => []
  | .outOfFlowFloat style floats contents => [.outOfFlowFloat style floats contents]
/-- The inline-level boxes that are in flow. -/
def inlinesFlow : List InlineLevelBox → List InlineLevelBox
  | [] => []
  | x :: xs => x.flow ++ inlinesFlow xs
end

mutual
/-- The boxes of a container without those that are absolutely positioned. -/
def BlockContainer.flow : BlockContainer → BlockContainer
  | .blockLevelBoxes bs => .blockLevelBoxes (blocksFlow bs)
  | .inlineFormattingContext xs => .inlineFormattingContext (inlinesFlow xs)
/-- See `BlockContainer.flow`: the boxes for a box. -/
def BlockLevelBox.flow : BlockLevelBox → List BlockLevelBox
  | .sameFormattingContextBlock s c => [.sameFormattingContextBlock s c.flow]
  | .independent s floats c => [.independent s floats c.flow]
  | .outOfFlowFloat s floats c => [.outOfFlowFloat s floats c]
  | .outOfFlowAbsolutelyPositioned _ _ _ => []
/-- See `BlockContainer.flow`. -/
def blocksFlow : List BlockLevelBox → List BlockLevelBox
  | [] => []
  | b :: bs => b.flow ++ blocksFlow bs
end

theorem blocksFlow_append (as bs : List BlockLevelBox) : blocksFlow (as ++ bs) = blocksFlow as ++ blocksFlow bs := by
  induction as with
  | nil => rfl
  | cons a as ih => simp [blocksFlow, ih]

theorem inlinesFlow_append (xs ys : List InlineLevelBox) : inlinesFlow (xs ++ ys) = inlinesFlow xs ++ inlinesFlow ys := by
  induction xs with
  | nil => rfl
  | cons x xs ih => simp [inlinesFlow, ih]

/-! ### Lines -/

def NestingLevel.flow (l : NestingLevel) : NestingLevel := { l with remainingBoxes := inlinesFlow l.remainingBoxes }

def PartialInlineBox.flow (p : PartialInlineBox) : PartialInlineBox := { p with parentNestingLevel := p.parentNestingLevel.flow }

def InlineState.flow (ifc : InlineState) : InlineState := { ifc with stack := ifc.stack.map PartialInlineBox.flow, current := ifc.current.flow }

theorem breakLine_flow (cb : ContainingBlock) : ∀ (stack : List PartialInlineBox) (level : NestingLevel) (x : Rat) (lines : LinesBoxes),
    breakLine cb (stack.map PartialInlineBox.flow) level.flow x lines =
      ((breakLine cb stack level x lines).1.map PartialInlineBox.flow, (breakLine cb stack level x lines).2.1.flow,
        (breakLine cb stack level x lines).2.2) := by
  intro stack
  induction stack with
  | nil => intro level x lines; rfl
  | cons p rest ih =>
    intro level x lines
    have hf : p.flow.finish { level.flow with inlineStart := 0 } x true = ((p.finish { level with inlineStart := 0 } x true).1.flow,
      (p.finish { level with inlineStart := 0 } x true).2.1.flow, (p.finish { level with inlineStart := 0 } x true).2.2) := rfl
    simp only [breakLine, List.map_cons, hf]
    have := ih (p.finish { level with inlineStart := 0 } x true).1.parentNestingLevel (p.finish { level with inlineStart := 0 } x true).2.2 lines
    simp only [PartialInlineBox.flow] at this ⊢
    simp only [this]

theorem textLines_flow (cb : ContainingBlock) (style : ComputedValues) (available : Rat) : ∀ (fuel : Nat) (chars : List Nat) (ifc : InlineState),
    textLines F cb style available fuel chars ifc.flow = (textLines F cb style available fuel chars ifc).map InlineState.flow := by
  intro fuel
  induction fuel with
  | zero => intro chars ifc; rfl
  | succ fuel ih =>
    intro chars ifc
    simp only [textLines]
    rcases shapeLine F (fontSizeOf style) available chars (ShapedSegment.new F) none with _ | ⟨shaped, chars'⟩
    · rfl
    · have hpush : pushText style shaped ifc.flow = (pushText style shaped ifc).flow := rfl
      simp only [hpush]
      split
      · rfl
      · have hb := breakLine_flow cb (pushText style shaped ifc).stack (pushText style shaped ifc).current (pushText style shaped ifc).inlinePosition
          (pushText style shaped ifc).lineBoxes
        have e : ∀ i : InlineState, breakLine cb i.flow.stack i.flow.current i.flow.inlinePosition i.flow.lineBoxes =
          breakLine cb (i.stack.map PartialInlineBox.flow) i.current.flow i.inlinePosition i.lineBoxes := fun _ => rfl
        rw [e, hb]
        rcases breakLine cb (pushText style shaped ifc).stack (pushText style shaped ifc).current (pushText style shaped ifc).inlinePosition
          (pushText style shaped ifc).lineBoxes with ⟨stack, current, lines⟩
        exact ih chars' { lineBoxes := lines, inlinePosition := 0, stack := stack, current := current }

theorem inlineLoop_flow (cb : ContainingBlock) (rank : Nat) : ∀ (fuel : Nat) (ifc : InlineState) (as as' : Absolutes) (fc : FlowChildren),
    inlineLoop F cb rank fuel ifc as = some (fc, as') →
    inlineLoop F cb rank (remainingCost ifc.flow.allRemaining) ifc.flow [] = some (fc, []) := by
  intro fuel
  induction fuel with
  | zero => intro ifc as as' fc h; simp [inlineLoop] at h
  | succ fuel ih =>
    intro ifc as as' fc h
    simp only [inlineLoop, inlineStep] at h
    have hr' : ifc.flow.current.remainingBoxes = inlinesFlow ifc.current.remainingBoxes := rfl
    have hs' : ifc.flow.stack = ifc.stack.map PartialInlineBox.flow := rfl
    rcases hr : ifc.current.remainingBoxes with _ | ⟨child, remaining⟩
    · rw [hr, inlinesFlow] at hr'
      rcases hs : ifc.stack with _ | ⟨p, stack⟩
      · rw [hs, List.map_nil] at hs'
        simp only [hr, hs, Option.some.injEq, Prod.mk.injEq] at h
        have e : remainingCost ifc.flow.allRemaining = 0 + 1 := by
          simp [InlineState.allRemaining, remainingCost, hr', hs', costs]
        rw [e]
        simp only [inlineLoop, inlineStep, hr', hs']
        rw [← h.1]
        rfl
      · rw [hs, List.map_cons] at hs'
        simp only [hr, hs] at h
        have e : remainingCost ifc.flow.allRemaining = remainingCost ({ ifc with
            inlinePosition := (p.finish ifc.current ifc.inlinePosition false).2.2
            stack := stack
            current := (p.finish ifc.current ifc.inlinePosition false).1.parentNestingLevel } : InlineState).flow.allRemaining + 1 := by
          simp only [InlineState.allRemaining, remainingCost, hr', hs', costs, List.map_cons]
          have : (p.finish ifc.current ifc.inlinePosition false).1.parentNestingLevel.flow.remainingBoxes = p.flow.remaining := rfl
          simp only [InlineState.flow, this]
          omega
        rw [e]
        simp only [inlineLoop, inlineStep, hr', hs']
        exact ih _ _ _ _ h
    · simp only [hr] at h
      cases child with
      | inlineBox style first last children =>
        rw [hr, inlinesFlow, InlineLevelBox.flow, List.cons_append, List.nil_append] at hr'
        simp only at h
        have e : remainingCost ifc.flow.allRemaining = remainingCost (startInlineBox cb style first last children
            { ifc with current := { ifc.current with remainingBoxes := remaining } }).flow.allRemaining + 1 := by
          simp only [startInlineBox, InlineState.allRemaining, remainingCost, hr', hs', InlineState.flow, NestingLevel.flow, PartialInlineBox.flow,
            List.map_cons, costs, InlineLevelBox.cost, PartialInlineBox.remaining, hr, inlinesFlow, InlineLevelBox.flow, List.cons_append, List.nil_append]
          omega
        rw [e]
        simp only [inlineLoop, inlineStep, hr']
        exact ih _ _ _ _ h
      | textRun style text =>
        rw [hr, inlinesFlow, InlineLevelBox.flow, List.cons_append, List.nil_append] at hr'
        simp only [layoutTextRun] at h
        rcases ht : textLines F cb style (cb.inlineSize - ifc.inlinePosition) (text.length + 1) text
          { ifc with current := { ifc.current with remainingBoxes := remaining } } with _ | ifc'
        · simp [ht] at h
        · simp only [ht] at h
          have hrem := textLines_remaining _ _ _ _ ht
          have hf := textLines_flow (F := F) cb style (cb.inlineSize - ifc.inlinePosition) (text.length + 1) text
            { ifc with current := { ifc.current with remainingBoxes := remaining } }
          rw [ht] at hf
          have hrem' := textLines_remaining _ _ _ _ hf
          have e : remainingCost ifc.flow.allRemaining = remainingCost ifc'.flow.allRemaining + 1 := by
            rw [hrem']
            simp only [InlineState.allRemaining, remainingCost, hr', hs', InlineState.flow, NestingLevel.flow, costs, InlineLevelBox.cost, hr, inlinesFlow, InlineLevelBox.flow, List.cons_append, List.nil_append]
            omega
          rw [e]
          simp only [inlineLoop, inlineStep, hr', layoutTextRun]
          have e2 : ({ ifc.flow with current := { ifc.flow.current with remainingBoxes := inlinesFlow remaining } } : InlineState) =
            ({ ifc with current := { ifc.current with remainingBoxes := remaining } } : InlineState).flow := rfl
          have e3 : ifc.flow.inlinePosition = ifc.inlinePosition := rfl
          rw [e2, e3, hf]
          exact ih _ _ _ _ h
      | outOfFlowAbsolutelyPositioned style floats contents =>
        simp only at h
        rcases hi : staticInlineStart style ifc.inlinePosition with _ | i
        · simp [hi] at h
        · simp only [hi] at h
          have := ih _ _ _ _ h
          have e2 : ({ ifc with current := { ifc.current with remainingBoxes := remaining } } : InlineState).flow = ifc.flow := by
            simp only [InlineState.flow, NestingLevel.flow, hr, inlinesFlow, InlineLevelBox.flow, List.nil_append]
          rw [e2] at this
          exact this
      | outOfFlowFloat style floats contents =>
        rw [hr, inlinesFlow, InlineLevelBox.flow, List.cons_append, List.nil_append] at hr'
        simp only at h
        have e : remainingCost ifc.flow.allRemaining = remainingCost
            ({ ifc with current := { ifc.current with remainingBoxes := remaining } } : InlineState).flow.allRemaining + 1 := by
          simp only [InlineState.allRemaining, remainingCost, hr', hs', InlineState.flow, NestingLevel.flow, costs, InlineLevelBox.cost, hr, inlinesFlow, InlineLevelBox.flow, List.cons_append, List.nil_append]
          omega
        rw [e]
        simp only [inlineLoop, inlineStep, hr']
        exact ih _ _ _ _ h

/-- The lines are the same without what is absolutely positioned. -/
theorem layoutInline_flow {xs : List InlineLevelBox} {cb : ContainingBlock} {rank : Nat} {as as' : Absolutes} {fc : FlowChildren}
    (h : layoutInline F xs cb rank as = some (fc, as')) : layoutInline F (inlinesFlow xs) cb rank [] = some (fc, []) :=
  inlineLoop_flow cb rank _ _ _ _ _ h

/-! ### Blocks -/

/-- The second list is the first with more in it, or, if `e` holds, the first. -/
def Extends (e : Prop) (a b : List Shape) : Prop := a.Sublist b ∧ (e → a = b)

theorem Extends.refl (e : Prop) (a : List Shape) : Extends e a a := ⟨List.Sublist.refl _, fun _ => rfl⟩

theorem Extends.trans {e : Prop} {a b c : List Shape} (h : Extends e a b) (h' : Extends e b c) : Extends e a c :=
  ⟨h.1.trans h'.1, fun he => (h.2 he).trans (h'.2 he)⟩

theorem Extends.append {e : Prop} {a b c d : List Shape} (h : Extends e a b) (h' : Extends e c d) : Extends e (a ++ c) (b ++ d) :=
  ⟨h.1.append h'.1, fun he => by rw [h.2 he, h'.2 he]⟩

theorem Extends.left {e : Prop} {a b : List Shape} (h : e → b = []) : Extends e a (a ++ b) :=
  ⟨List.sublist_append_left _ _, fun he => by rw [h he, List.append_nil]⟩

/-- The second fragment is the first, perhaps with more in it. -/
def Fragment.PartOf (e : Prop) (asc : Rat) : Fragment → Fragment → Prop
  | .box info children, .box info' children' => info = info' ∧ ∀ o, Extends e (inkOf asc o children) (inkOf asc o children')
  | .anonymous rect children mode, f => f = .anonymous rect children mode
  | .text style rect segment, f => f = .text style rect segment
  | _, _ => False

theorem Fragment.PartOf.ink {e : Prop} {asc : Rat} {f g : Fragment} (h : f.PartOf e asc g) (o : Vec2 Rat) : Extends e (f.ink asc o) (g.ink asc o) := by
  cases f with
  | box info children =>
    cases g with
    | box info' children' =>
      obtain ⟨rfl, h⟩ := h
      simp only [Fragment.ink]
      exact (Extends.refl _ _).append (h _)
    | anonymous rect children mode => exact h.elim
    | text style rect segment => exact h.elim
  | anonymous rect children mode => rw [h]; exact .refl _ _
  | text style rect segment => rw [h]; exact .refl _ _

/-- The fragments of the blocks in flow, and those of all blocks. -/
inductive Among (e : Prop) (asc : Rat) : List Fragment → List Fragment → Prop
  | nil : Among e asc [] []
  | cons {f g fs gs} : f.PartOf e asc g → Among e asc fs gs → Among e asc (f :: fs) (g :: gs)
  | extra {mode fs gs} : Among e asc fs gs → Among e asc fs (.noOp mode :: gs)

theorem Among.append {e : Prop} {asc : Rat} {fs gs fs' gs' : List Fragment} (h : Among e asc fs gs) (h' : Among e asc fs' gs') : Among e asc (fs ++ fs') (gs ++ gs') := by
  induction h with
  | nil => exact h'
  | cons hf _ ih => exact .cons hf ih
  | extra _ ih => exact .extra ih

theorem place_within {e : Prop} {asc : Rat} {f g g1 : Fragment} (h : f.PartOf e asc g) {s s1 : PlacementState} (hp : placeFragment s g = some (g1, s1)) :
    ∃ f1, placeFragment s f = some (f1, s1) ∧ f1.PartOf e asc g1 := by
  cases f with
  | box info children =>
    cases g with
    | box info' children' =>
      obtain ⟨rfl, h⟩ := h
      simp only [placeFragment] at hp ⊢
      split at hp
      · rename_i h1
        rw [if_pos h1]
        split at hp
        · rename_i h2
          rw [if_pos h2]
          split at hp
          · rename_i h3
            rw [if_pos h3]
            cases hp
            exact ⟨_, rfl, rfl, h⟩
          · rename_i h3
            rw [if_neg h3]
            cases hp
            exact ⟨_, rfl, rfl, h⟩
        · cases hp
      · rename_i h1
        rw [if_neg h1]
        split at hp
        · rename_i h3
          rw [if_pos h3]
          cases hp
          exact ⟨_, rfl, rfl, h⟩
        · rename_i h3
          rw [if_neg h3]
          cases hp
          exact ⟨_, rfl, rfl, h⟩
    | anonymous rect children mode => exact h.elim
    | text style rect segment => exact h.elim
  | anonymous rect children mode =>
    cases h
    refine ⟨g1, hp, ?_⟩
    simp only [placeFragment] at hp
    split at hp
    · cases hp; rfl
    · cases hp
  | text style rect segment =>
    cases h
    simp [placeFragment] at hp

theorem placeAll_among {e : Prop} {asc : Rat} {fs gs : List Fragment} (h : Among e asc fs gs) : ∀ {s s1 : PlacementState} {gs1 : List Fragment},
    placeAll s gs = some (gs1, s1) → ∃ fs1, placeAll s fs = some (fs1, s1) ∧ ∀ o, Extends e (inkOf asc o fs1) (inkOf asc o gs1) := by
  induction h with
  | nil =>
    intro s s1 gs1 hp
    simp only [placeAll] at hp
    cases hp
    exact ⟨[], rfl, fun o => .refl _ _⟩
  | @cons f g fs gs hf _ ih =>
    intro s s1 gs1 hp
    simp only [placeAll] at hp
    rcases h1 : placeFragment s g with _ | ⟨g1, s2⟩
    · simp [h1] at hp
    rcases h2 : placeAll s2 gs with _ | ⟨gs2, s3⟩
    · simp [h1, h2] at hp
    simp only [h1, h2] at hp
    cases hp
    obtain ⟨f1, p1, w1⟩ := place_within hf h1
    obtain ⟨fs2, p2, w2⟩ := ih h2
    refine ⟨f1 :: fs2, by simp [placeAll, p1, p2], fun o => ?_⟩
    simp only [inkOf]
    exact (w1.ink o).append (w2 o)
  | @extra mode fs gs _ ih =>
    intro s s1 gs1 hp
    simp only [placeAll] at hp
    rcases h1 : placeFragment s (.noOp mode) with _ | ⟨g1, s2⟩
    · simp [h1] at hp
    rcases h2 : placeAll s2 gs with _ | ⟨gs2, s3⟩
    · simp [h1, h2] at hp
    simp only [h1, h2] at hp
    cases hp
    have e2 : s2 = s := by
      simp only [placeFragment, Fragment.noOp] at h1
      split at h1
      · cases h1; rfl
      · cases h1
    subst e2
    obtain ⟨fs2, p2, w2⟩ := ih h2
    refine ⟨fs2, p2, fun o => ?_⟩
    simp only [inkOf]
    have e1 : g1.ink asc o = [] := by
      simp only [placeFragment, Fragment.noOp] at h1
      split at h1
      · cases h1; rfl
      · cases h1
    rw [e1]
    exact w2 o

/-- What is known of the layout of the contents in flow. -/
structure FlowChildren.PartOf (e : Prop) (asc : Rat) (fc fc' : FlowChildren) : Prop where
  size : fc.blockSize = fc'.blockSize
  margins : fc.collapsibleMarginsInChildren = fc'.collapsibleMarginsInChildren
  ink : ∀ o, Extends e (inkOf asc o fc.fragments) (inkOf asc o fc'.fragments)

/-- What is positioned in a block is seen in addition to what is in flow. -/
theorem layoutAll_hollow {la : Nat → AbsolutelyPositionedFragment → Option Fragment} {asc : Rat}
    (hla : ∀ k a f, HollowBox a.box → la k a = some f → ∀ o, f.ink asc o = []) : ∀ (as : Absolutes) (k : Nat) (fs : List Fragment),
    (∀ a ∈ as, HollowBox a.box) → layoutAll la k as = some fs → ∀ o, inkOf asc o fs = [] := by
  intro as
  induction as with
  | nil => intro k fs _ h o; simp only [layoutAll, Option.some.injEq] at h; rw [← h]; rfl
  | cons a as ih =>
    intro k fs ha h o
    simp only [layoutAll] at h
    rcases h1 : la k a with _ | f
    · simp [h1] at h
    rcases h2 : layoutAll la (k + 1) as with _ | fs'
    · simp [h1, h2] at h
    simp only [h1, h2, Option.some.injEq] at h
    rw [← h, inkOf, hla k a f (ha a List.mem_cons_self) h1, ih _ _ (fun x hx => ha x (List.mem_cons_of_mem _ hx)) h2]
    rfl

theorem inPositioned_ink {e : Prop} {la : DefiniteContainingBlock → Nat → AbsolutelyPositionedFragment → Option Fragment} {as : Absolutes}
    {asc : Rat} (hla : ∀ cb k a f, HollowBox a.box → la cb k a = some f → ∀ o, f.ink asc o = []) (has : e → ∀ a ∈ as, HollowBox a.box)
    {fs fs' : List Fragment} {size : Vec2 Rat} {padding : Sides Rat} {mode : Mode} (h : inPositionedContainingBlock la as fs size padding mode = some fs')
    (o : Vec2 Rat) : Extends e (inkOf asc o fs) (inkOf asc o fs') := by
  cases as with
  | nil =>
    simp only [inPositionedContainingBlock, Option.some.injEq] at h
    rw [h]
    exact .refl _ _
  | cons a as =>
    simp only [inPositionedContainingBlock] at h
    split at h
    · cases h
    · rename_i children h1
      cases h
      rw [inkOf_append]
      refine .left fun he => ?_
      simp only [inkOf, Fragment.ink, List.append_nil]
      exact layoutAll_hollow (fun k a f => hla _ k a f) _ _ _ (has he) h1 _

theorem layoutInFlow_within {e : Prop} {cb : ContainingBlock} {style : ComputedValues} {kind : BlockLevelKind}
    {lc : ContainingBlock → Absolutes → Bool → Option (FlowChildren × Absolutes)}
    {la : DefiniteContainingBlock → Nat → AbsolutelyPositionedFragment → Option Fragment} {f : Fragment} {as : Absolutes}
    (h : layoutInFlow cb [] style kind lc la = some (f, as)) (asc : Rat)
    (hla : ∀ cb k a f, HollowBox a.box → la cb k a = some f → ∀ o, f.ink asc o = [])
    (has : e → ∀ coll fc as, lc (Css.inner cb style) [] coll = some (fc, as) → ∀ a ∈ as, HollowBox a.box) :
    ∃ fc as', lc (Css.inner cb style) [] (decide (kind = .sameFormattingContextBlock) && Css.startCollapses cb style) = some (fc, as') ∧
      ∀ fc' : FlowChildren, fc'.PartOf e asc fc →
        (Fragment.box (blockInfo cb style kind fc'.collapsibleMarginsInChildren fc'.blockSize) fc'.fragments).PartOf e asc f := by
  obtain ⟨fc, as', info, children, h1, rfl, h3, h4, h5, h6, h7, h8, h9, h10, -⟩ := layoutInFlow_some h
  refine ⟨fc, as', h1, fun fc' hw => ?_⟩
  have hch : ∀ o, Extends e (inkOf asc o fc.fragments) (inkOf asc o children) := by
    intro o
    split at h10
    · exact inPositioned_ink hla (fun he => has he _ _ _ h1) h10.2 o
    · rw [h10.2]; exact .refl _ _
  refine ⟨?_, fun o => (hw.ink o).trans (hch o)⟩
  rw [hw.margins, hw.size]
  obtain ⟨style', rect, pad, bor, mar, coll⟩ := info
  obtain ⟨corner, size⟩ := rect
  simp only at h3 h4 h5 h6 h7 h8 h9
  subst h3 h4 h5 h6 h7 h8 h9
  rfl

theorem FlowChildren.PartOf.finish {e : Prop} {asc : Rat} {fc fc' : FlowChildren} (h : fc.PartOf e asc fc') :
    fc.finishBlockFormattingContext.PartOf e asc fc'.finishBlockFormattingContext := by
  refine ⟨?_, ?_, h.ink⟩
  · simp only [FlowChildren.finishBlockFormattingContext, h.size, h.margins]
  · simp only [FlowChildren.finishBlockFormattingContext, h.margins]

theorem LaysL.among {e : Prop} {cb : ContainingBlock} {asc : Rat} : ∀ {bs : List BlockLevelBox} {gs : List Fragment},
    List.Forall₂ (fun b g => (∃ mode, b.flow = [] ∧ g = .noOp mode) ∨ ∃ b' f, b.flow = [b'] ∧ LaysB F cb b' f ∧ f.PartOf e asc g) bs gs →
    ∃ fs, LaysL F cb (blocksFlow bs) fs ∧ Among e asc fs gs := by
  intro bs gs h
  induction h with
  | nil => exact ⟨[], .nil, .nil⟩
  | cons h _ ih =>
    obtain ⟨fs, h1, h2⟩ := ih
    rcases h with ⟨mode, e, rfl⟩ | ⟨b', f, e, hl, hw⟩
    · exact ⟨fs, by rw [blocksFlow, e]; exact h1, .extra h2⟩
    · exact ⟨f :: fs, by rw [blocksFlow, e]; exact .cons hl h1, .cons hw h2⟩

/-- Layout without what is absolutely positioned gives the same, but for what is absolutely positioned. -/
theorem lays_flow (F : FontApi Rat Err) (e : Prop) (asc : Rat) : ∀ (fuel : Nat),
    (∀ c cb rank collapsible fc as, (e → c.Asides HollowBox) → layoutContainer F fuel inOrder c cb rank [] false collapsible = some (fc, as) →
      ∃ fc', LaysC F cb collapsible c.flow fc' ∧ fc'.PartOf e asc fc) ∧
    (∀ b cb rank f as, (e → b.Asides HollowBox) → layoutBox F fuel inOrder b cb rank [] false = some (f, as) →
      (∃ mode, b.flow = [] ∧ f = .noOp mode) ∨ ∃ b' f', b.flow = [b'] ∧ LaysB F cb b' f' ∧ f'.PartOf e asc f) := by
  intro fuel
  induction fuel with
  | zero => exact ⟨by intros; simp_all [layoutContainer], by intros; simp_all [layoutBox]⟩
  | succ fuel ih =>
    obtain ⟨ihc, ihb⟩ := ih
    have hp := layout_prepend F fuel
    refine ⟨?_, ?_⟩
    · intro c cb rank collapsible fc as hq h
      cases c with
      | blockLevelBoxes boxes =>
        simp only [layoutContainer] at h
        rw [layoutChildren_eq (g := fun rank b => layoutBox F fuel inOrder b cb rank [] false)
              (fun rank b absolute => hp.2.1 _ b cb rank absolute false), prepend_nil] at h
        obtain ⟨fs, as', s, hseq, hplace, hsize, hmargins, -⟩ := canonicalChildren_some h
        have hun := seqChildren_forall₂_mem
          (P := fun b g => (∃ mode, b.flow = [] ∧ g = .noOp mode) ∨ ∃ b' f, b.flow = [b'] ∧ LaysB F cb b' f ∧ f.PartOf e asc g) _ _ _ _
          (fun b hb rank f as hl => ihb b cb rank f as (fun he => blocksAsides_mem (hq he) b hb) hl) hseq
        obtain ⟨fs', h1, h2⟩ := LaysL.among hun
        obtain ⟨gs', h3, h4⟩ := placeAll_among h2 hplace
        exact ⟨_, .boxes h1 h3, hsize.symm, hmargins.symm, h4⟩
      | inlineFormattingContext boxes =>
        simp only [layoutContainer] at h
        exact ⟨fc, .inlines (layoutInline_flow h), rfl, rfl, fun o => .refl _ _⟩
    · intro b cb rank f as hq h
      cases b with
      | sameFormattingContextBlock style contents =>
        simp only [layoutBox] at h
        obtain ⟨fc, as', h1, h2⟩ := layoutInFlow_within (e := e) h asc (fun cb k a f hb hl o => layoutAbsolute_hollow hb hl asc o)
          (fun he coll fc as hl => by
            rw [hp.1 (inOrder.sub 0), prepend_nil] at hl
            exact (layout_asides F fuel).1 _ _ _ _ _ _ (hq he) hl)
        simp only [decide_true, Bool.true_and] at h1
        rw [hp.1 (inOrder.sub 0), prepend_nil] at h1
        obtain ⟨fc', h3, h4⟩ := ihc _ _ _ _ _ _ hq h1
        exact .inr ⟨_, _, rfl, .same h3, h2 _ h4⟩
      | independent style floats contents =>
        simp only [layoutBox] at h
        obtain ⟨fc, as', h1, h2⟩ := layoutInFlow_within (e := e) h asc (fun cb k a f hb hl o => layoutAbsolute_hollow hb hl asc o)
          (fun he coll fc as hl => by
            rw [hp.1 (inOrder.sub 0), prepend_nil] at hl
            rcases h5 : layoutContainer F fuel inOrder contents (Css.inner cb style) rank [] false false with _ | ⟨fc1, as1⟩
            · simp [h5, mapFst] at hl
            · rw [h5] at hl
              simp only [mapFst, Option.some.injEq, Prod.mk.injEq] at hl
              obtain ⟨-, rfl⟩ := hl
              exact (layout_asides F fuel).1 _ _ _ _ _ _ (hq he) h5)
        rw [hp.1 (inOrder.sub 0), prepend_nil] at h1
        rcases h5 : layoutContainer F fuel inOrder contents (Css.inner cb style) rank [] false false with _ | ⟨fc1, as1⟩
        · simp [h5, mapFst] at h1
        · rw [h5] at h1
          simp only [mapFst, Option.some.injEq, Prod.mk.injEq] at h1
          obtain ⟨rfl, -⟩ := h1
          obtain ⟨fc', h3, h4⟩ := ihc _ _ _ _ _ _ hq h5
          exact .inr ⟨_, _, rfl, .independent h3, h2 _ h4.finish⟩
      | outOfFlowAbsolutelyPositioned style floats contents =>
        simp only [layoutBox, Option.some.injEq, Prod.mk.injEq] at h
        exact .inl ⟨_, rfl, h.1.symm⟩
      | outOfFlowFloat style floats contents =>
        simp only [layoutBox, Option.some.injEq, Prod.mk.injEq] at h
        rw [← h.1]
        exact .inr ⟨_, _, rfl, .float, rfl⟩

/-- The fragments of a page and those of what is in flow. -/
theorem layoutRoot_grows (e : Prop) {fuel : Nat} {s : Oracle} {root : BlockFormattingContext} {viewport : Vec2 Rat} {fs : List Fragment}
    (hq : e → root.contents.Asides HollowBox) (h : layoutRoot F fuel s root viewport = some fs) (asc : Rat) (o : Vec2 Rat) :
    ∃ fc, LaysC F ⟨viewport.inline, .length viewport.block, (.horizontalTb, .ltr)⟩ false root.contents.flow fc ∧
      Extends e (inkOf asc o fc.fragments) (inkOf asc o fs) := by
  simp only [layoutRoot, BlockFormattingContext.layout] at h
  rw [(layout_prepend F fuel).1 (s.sub 0), prepend_nil] at h
  rcases h1 : layoutContainer F fuel inOrder root.contents
    ⟨viewport.inline, .length viewport.block, (.horizontalTb, .ltr)⟩ 0 [] false false with _ | ⟨fc, as⟩
  · simp [h1, mapFst] at h
  · simp only [h1, mapFst] at h
    split at h
    · cases h
    · rename_i hall
      cases h
      obtain ⟨fc', h2, h3⟩ := (lays_flow F e asc fuel).1 _ _ _ _ _ _ hq h1
      refine ⟨fc', h2, ?_⟩
      rw [inkOf_append]
      refine (h3.ink o).trans (.left fun he => ?_)
      exact layoutAll_hollow (fun k a f hb hl o => layoutAbsolute_hollow hb hl asc o) _ _ _
        ((layout_asides F fuel).1 _ _ _ _ _ _ (hq he) h1) hall _

theorem layoutRoot_flow {fuel : Nat} {s : Oracle} {root : BlockFormattingContext} {viewport : Vec2 Rat} {fs : List Fragment}
    (h : layoutRoot F fuel s root viewport = some fs) (asc : Rat) (o : Vec2 Rat) :
    ∃ fc, LaysC F ⟨viewport.inline, .length viewport.block, (.horizontalTb, .ltr)⟩ false root.contents.flow fc ∧
      (inkOf asc o fc.fragments).Sublist (inkOf asc o fs) := by
  obtain ⟨fc, h1, h2⟩ := layoutRoot_grows False (fun h => h.elim) h asc o
  exact ⟨fc, h1, h2.1⟩

end Verif.Layout
