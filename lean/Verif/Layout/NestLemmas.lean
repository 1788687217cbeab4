/- Which boxes text is in, through box construction and layout: lemmas. -/
import Verif.Layout.NestSpec
import Verif.Layout.BoundLemmas
import Verif.Layout.LookTheorems
namespace Verif.Layout
open Verif.Style Verif.Text

/-- Characters, with the styles of the boxes around them. -/
abbrev BoxedText := List (List ComputedValues × Nat)

/-- More boxes around these characters. -/
def within (p : List ComputedValues) (t : BoxedText) : BoxedText := t.map fun x => (p ++ x.1, x.2)

theorem within_append (p : List ComputedValues) (t u : BoxedText) : within p (t ++ u) = within p t ++ within p u := by simp [within]
theorem within_nil (t : BoxedText) : within [] t = t := by simp [within]
theorem within_empty (p : List ComputedValues) : within p [] = [] := rfl
theorem within_boxedBy (p : List ComputedValues) (s : ComputedValues) (t : BoxedText) : within p (boxedBy s t) = within (p ++ [s]) t := by
  simp [within, boxedBy]
theorem within_cons (s : ComputedValues) (p : List ComputedValues) (t : BoxedText) : boxedBy s (within p t) = within (s :: p) t := by
  simp [within, boxedBy]
theorem boxedBy_append {A B : Type} (s : A) (t u : List (List A × B)) : boxedBy s (t ++ u) = boxedBy s t ++ boxedBy s u := by simp [boxedBy]

theorem inkedBy_append {L : Type} (t u : List (L × Nat)) : inkedBy (t ++ u) = inkedBy t ++ inkedBy u := by simp [inkedBy]
theorem inkedBy_within (p : List ComputedValues) (t : BoxedText) : inkedBy (within p t) = within p (inkedBy t) := by
  simp [inkedBy, within, List.filter_map, Function.comp_def]
theorem inkedBy_boxedBy (s : ComputedValues) (t : BoxedText) : inkedBy (boxedBy s t) = boxedBy s (inkedBy t) := by
  simp [inkedBy, boxedBy, List.filter_map, Function.comp_def]
theorem inkedBy_map {L : Type} (l : L) (t : List Nat) :
    inkedBy (t.map fun c => (l, c)) = (t.filter fun c => !isAsciiWhitespace c).map fun c => (l, c) := by
  simp [inkedBy, List.filter_map, Function.comp_def]

mutual
/-- The text of nodes, with the boxes around it. -/
def StyledNode.boxed : StyledNode → BoxedText
  | .ignored => []
  | .text contents => contents.map fun c => ([], c)
  | .element style children =>
    match displayOf style with
    | .none => []
    | .contents => nodesBoxed children
    | .generatingBox _ _ => boxedBy style (nodesBoxed children)
/-- See `StyledNode.boxed`. -/
def nodesBoxed : List StyledNode → BoxedText
  | [] => []
  | n :: ns => n.boxed ++ nodesBoxed ns
end

mutual
/-- The text in boxes that are in flow, with the boxes around it. -/
def BlockContainer.boxed : BlockContainer → BoxedText
  | .blockLevelBoxes boxes => blocksBoxed boxes
  | .inlineFormattingContext boxes => inlinesBoxed boxes
/-- See `BlockContainer.boxed`. -/
def BlockLevelBox.boxed : BlockLevelBox → BoxedText
  | .sameFormattingContextBlock style contents => boxedBy style contents.boxed
  | .outOfFlowAbsolutelyPositioned _ _ _ => []
  | .outOfFlowFloat _ _ _ => []
  | .independent style _ contents => boxedBy style contents.boxed
/-- See `BlockContainer.boxed`. -/
def blocksBoxed : List BlockLevelBox → BoxedText
  | [] => []
  | b :: bs => b.boxed ++ blocksBoxed bs
/-- See `BlockContainer.boxed`. -/
def InlineLevelBox.boxed : InlineLevelBox → BoxedText
  | .inlineBox style _ _ children => boxedBy style (inlinesBoxed children)
  | .textRun _ text => text.map fun c => ([], c)
  | .outOfFlowAbsolutelyPositioned _ _ _ => []
  | .outOfFlowFloat _ _ _ => []
/-- See `BlockContainer.boxed`. -/
def inlinesBoxed : List InlineLevelBox → BoxedText
  | [] => []
  | b :: bs => b.boxed ++ inlinesBoxed bs
end

theorem blocksBoxed_append (a b : List BlockLevelBox) : blocksBoxed (a ++ b) = blocksBoxed a ++ blocksBoxed b := by
  induction a with
  | nil => rfl
  | cons x a ih => simp [blocksBoxed, ih]

theorem inlinesBoxed_append (a b : List InlineLevelBox) : inlinesBoxed (a ++ b) = inlinesBoxed a ++ inlinesBoxed b := by
  induction a with
  | nil => rfl
  | cons x a ih => simp [inlinesBoxed, ih]

mutual
/-- The glyphs in a fragment, with the boxes around them. -/
def Fragment.boxed : Fragment → BoxedText
  | .box info children => boxedBy info.style (fragmentsBoxed children)
  | .anonymous _ children _ => fragmentsBoxed children
  | .text _ _ segment => segment.glyphs.map fun g => ([], g)
/-- See `Fragment.boxed`. -/
def fragmentsBoxed : List Fragment → BoxedText
  | [] => []
  | f :: fs => f.boxed ++ fragmentsBoxed fs
end

theorem fragmentsBoxed_append (a b : List Fragment) : fragmentsBoxed (a ++ b) = fragmentsBoxed a ++ fragmentsBoxed b := by
  induction a with
  | nil => rfl
  | cons x a ih => simp [fragmentsBoxed, ih]

section
variable {Err : Type} {F : FontApi Rat Err}

theorem ShownBy.append {L : Type} {t u g h : List (L × Nat)} (h1 : ShownBy F t g) (h2 : ShownBy F u h) : ShownBy F (t ++ u) (g ++ h) := by
  induction h1 with
  | nil => exact h2
  | char hc _ ih => exact .char hc ih
  | space _ ih => exact .space ih

theorem ShownBy.of_shaped {L : Type} {text glyphs : List Nat} {width : Rat} (h : IsShaped F text glyphs width) (l : L) :
    ShownBy F (text.map fun c => (l, c)) (glyphs.map fun g => (l, g)) := by
  induction h with
  | nil => exact .nil
  | snoc _ hid _ ih =>
    rw [List.map_append, List.map_append]
    exact ih.append (.char hid .nil)

theorem ShownBy.relabel {L L' : Type} (f : L → L') {t g : List (L × Nat)} (h : ShownBy F t g) :
    ShownBy F (t.map fun x => (f x.1, x.2)) (g.map fun x => (f x.1, x.2)) := by
  induction h with
  | nil => exact .nil
  | char hc _ ih => exact .char hc ih
  | space _ ih => exact .space ih

theorem ShownBy.boxedBy {t g : BoxedText} (h : ShownBy F t g) (s : ComputedValues) : ShownBy F (boxedBy s t) (boxedBy s g) :=
  h.relabel (s :: ·)

/-! ### Inline formatting contexts -/

/-- The styles of the boxes around the current nesting level. -/
def pathOf (stack : List PartialInlineBox) : List ComputedValues := (stack.map PartialInlineBox.style).reverse

theorem pathOf_cons (p : PartialInlineBox) (rest : List PartialInlineBox) : pathOf (p :: rest) = pathOf rest ++ [p.style] := by simp [pathOf]

/-- The glyphs in the nesting levels outside the current one. -/
def stackBoxed : List PartialInlineBox → BoxedText
  | [] => []
  | p :: rest => stackBoxed rest ++ within (pathOf rest) (fragmentsBoxed p.parentNestingLevel.fragmentsSoFar)

/-- All the glyphs so far. -/
def InlineState.boxed (ifc : InlineState) : BoxedText :=
  fragmentsBoxed ifc.lineBoxes.boxes ++ (stackBoxed ifc.stack ++ within (pathOf ifc.stack) (fragmentsBoxed ifc.current.fragmentsSoFar))

/-- The text of the boxes that remain at each nesting level; the styles are those of the boxes around it, the innermost first. -/
def remainingBoxed : List ComputedValues → List (List InlineLevelBox) → BoxedText
  | _, [] => []
  | styles, bs :: rest => within styles.reverse (inlinesBoxed bs) ++ remainingBoxed styles.tail rest

/-- The text of the boxes that remain. -/
def InlineState.remainingBoxed (ifc : InlineState) : BoxedText :=
  Verif.Layout.remainingBoxed (ifc.stack.map PartialInlineBox.style) ifc.allRemaining

theorem breakLine_styles (cb : ContainingBlock) : ∀ (stack : List PartialInlineBox) (level : NestingLevel) (position : Rat) (lines : LinesBoxes),
    (breakLine cb stack level position lines).1.map PartialInlineBox.style = stack.map PartialInlineBox.style := by
  intro stack
  induction stack with
  | nil => intro level position lines; rfl
  | cons p rest ih =>
    intro level position lines
    simp only [breakLine, List.map_cons, ih]
    rfl

theorem breakLine_boxed (cb : ContainingBlock) : ∀ (stack : List PartialInlineBox) (level : NestingLevel) (position : Rat) (lines : LinesBoxes),
    fragmentsBoxed (breakLine cb stack level position lines).2.2.boxes =
        fragmentsBoxed lines.boxes ++ (stackBoxed stack ++ within (pathOf stack) (fragmentsBoxed level.fragmentsSoFar)) ∧
      stackBoxed (breakLine cb stack level position lines).1 = [] ∧ (breakLine cb stack level position lines).2.1.fragmentsSoFar = [] := by
  intro stack
  induction stack with
  | nil =>
    intro level position lines
    simp only [breakLine, finishLine, stackBoxed, fragmentsBoxed_append]
    refine ⟨by simp [fragmentsBoxed, Fragment.boxed, pathOf, within_nil], trivial, trivial⟩
  | cons p rest ih =>
    intro level position lines
    simp only [breakLine]
    obtain ⟨h1, h2, h3⟩ := ih (p.finish { level with inlineStart := 0 } position true).1.parentNestingLevel
      (p.finish { level with inlineStart := 0 } position true).2.2 lines
    refine ⟨?_, ?_, rfl⟩
    · rw [h1]
      simp only [PartialInlineBox.finish, stackBoxed, fragmentsBoxed_append, fragmentsBoxed, Fragment.boxed, List.append_nil, within_append,
        within_boxedBy, pathOf_cons, List.append_assoc]
    · simp only [stackBoxed, h2, h3, fragmentsBoxed, within_empty, List.append_nil]

theorem textLines_boxed (cb : ContainingBlock) (style : ComputedValues) (available : Rat) :
    ∀ (fuel : Nat) (chars : List Nat) (ifc ifc' : InlineState), textLines F cb style available fuel chars ifc = some ifc' →
      ifc'.remainingBoxed = ifc.remainingBoxed ∧ ifc'.stack.map PartialInlineBox.style = ifc.stack.map PartialInlineBox.style ∧
        ∃ g, ShownBy F (chars.map fun c => (pathOf ifc.stack, c)) g ∧ ifc'.boxed = ifc.boxed ++ g := by
  intro fuel
  induction fuel with
  | zero => intro chars ifc ifc' h; simp [textLines] at h
  | succ fuel ih =>
    intro chars ifc ifc' h
    simp only [textLines] at h
    rcases hs : shapeLine F (fontSizeOf style) available chars (ShapedSegment.new F) none with _ | ⟨shaped, rest⟩
    · simp [hs] at h
    · obtain ⟨line, hline, -, hsplit⟩ := shapeLine_line _ _ _ _ _ hs
      simp only [hs] at h
      have hglyphs : (pushText style shaped ifc).boxed = ifc.boxed ++ shaped.glyphs.map fun g => (pathOf ifc.stack, g) := by
        simp [pushText, InlineState.boxed, fragmentsBoxed_append, fragmentsBoxed, Fragment.boxed, within_append, within]
      by_cases hr : rest = []
      · rw [if_pos hr] at h
        cases h
        refine ⟨rfl, rfl, _, ?_, hglyphs⟩
        rcases hsplit with ⟨e, _⟩ | ⟨e, _⟩
        · rw [e]; exact .of_shaped hline _
        · rw [e, hr, List.map_append, ← List.append_nil (List.map (fun g => (pathOf ifc.stack, g)) shaped.glyphs)]
          exact (ShownBy.of_shaped hline _).append (.space .nil)
      · rw [if_neg hr] at h
        obtain ⟨b1, b2, b3⟩ := breakLine_boxed cb (pushText style shaped ifc).stack (pushText style shaped ifc).current
          (pushText style shaped ifc).inlinePosition (pushText style shaped ifc).lineBoxes
        obtain ⟨r1, r2⟩ := breakLine_remaining cb (pushText style shaped ifc).stack (pushText style shaped ifc).current
          (pushText style shaped ifc).inlinePosition (pushText style shaped ifc).lineBoxes
        have r3 := breakLine_styles cb (pushText style shaped ifc).stack (pushText style shaped ifc).current
          (pushText style shaped ifc).inlinePosition (pushText style shaped ifc).lineBoxes
        obtain ⟨hrem, hst, g, hg, he⟩ := ih rest _ ifc' h
        refine ⟨?_, ?_, shaped.glyphs.map (fun g => (pathOf ifc.stack, g)) ++ g, ?_, ?_⟩
        · rw [hrem]
          simp only [InlineState.remainingBoxed, InlineState.allRemaining, r1, r2, r3]
          rfl
        · rw [hst, r3]
          rfl
        · rcases hsplit with ⟨_, e⟩ | ⟨e, _⟩
          · exact absurd e hr
          · rw [e, List.map_append]
            refine (ShownBy.of_shaped hline _).append (.space ?_)
            simp only [pathOf, r3] at hg
            exact hg
        · rw [he, ← List.append_assoc, ← hglyphs]
          simp only [InlineState.boxed, b1, b2, b3, fragmentsBoxed, within_empty, List.append_nil]

theorem inlineLoop_boxed (cb : ContainingBlock) (rank : Nat) :
    ∀ (fuel : Nat) (ifc : InlineState) (as0 : Absolutes) (fc : FlowChildren) (as : Absolutes),
      inlineLoop F cb rank fuel ifc as0 = some (fc, as) →
      ∃ g, fragmentsBoxed fc.fragments = ifc.boxed ++ g ∧ ShownBy F ifc.remainingBoxed g := by
  intro fuel
  induction fuel with
  | zero => intro ifc as0 fc as h; simp [inlineLoop] at h
  | succ fuel ih =>
    intro ifc as0 fc as h
    simp only [inlineLoop, inlineStep] at h
    rcases hr : ifc.current.remainingBoxes with _ | ⟨child, remaining⟩
    · simp only [hr] at h
      rcases hst : ifc.stack with _ | ⟨p, stack⟩
      · simp only [hst, Option.some.injEq, Prod.mk.injEq] at h
        obtain ⟨rfl, rfl⟩ := h
        refine ⟨[], ?_, ?_⟩
        · simp [finishLine, fragmentsBoxed_append, fragmentsBoxed, Fragment.boxed, InlineState.boxed, hst, stackBoxed, pathOf, within_nil]
        · simp only [InlineState.remainingBoxed, InlineState.allRemaining, hr, hst, List.map_nil, remainingBoxed, inlinesBoxed, within_empty,
            List.append_nil]
          exact .nil
      · simp only [hst] at h
        obtain ⟨g, e, hs⟩ := ih _ _ fc as h
        refine ⟨g, ?_, ?_⟩
        · rw [e]
          simp [InlineState.boxed, hst, stackBoxed, PartialInlineBox.finish, fragmentsBoxed_append, fragmentsBoxed, Fragment.boxed,
            within_append, within_boxedBy, pathOf_cons]
        · simp only [InlineState.remainingBoxed, InlineState.allRemaining, hr, hst, remainingBoxed, inlinesBoxed, within_empty,
            List.map_cons, List.tail_cons, List.nil_append] at hs ⊢
          exact hs
    · simp only [hr] at h
      have hrem : ifc.remainingBoxed = within (pathOf ifc.stack) child.boxed ++
          remainingBoxed (ifc.stack.map PartialInlineBox.style) (remaining :: ifc.stack.map PartialInlineBox.remaining) := by
        simp only [InlineState.remainingBoxed, InlineState.allRemaining, hr, remainingBoxed, inlinesBoxed, within_append, pathOf, List.append_assoc]
      rw [hrem]
      cases child with
      | inlineBox style first last children =>
        simp only at h
        obtain ⟨g, e, hs⟩ := ih _ _ fc as h
        refine ⟨g, ?_, ?_⟩
        · rw [e]
          simp [startInlineBox, InlineState.boxed, stackBoxed, fragmentsBoxed, within_empty]
        · simp only [startInlineBox, InlineState.remainingBoxed, InlineState.allRemaining, remainingBoxed, List.map_cons, List.tail_cons,
            PartialInlineBox.remaining, List.reverse_cons] at hs
          simp only [InlineLevelBox.boxed, within_boxedBy, pathOf, remainingBoxed]
          exact hs
      | textRun style text =>
        simp only at h
        rcases ht : layoutTextRun F cb style text { ifc with current := { ifc.current with remainingBoxes := remaining } } with _ | ifc1
        · simp [ht] at h
        · simp only [ht] at h
          obtain ⟨r1, -, g1, s1, e1⟩ := textLines_boxed cb style _ _ text _ ifc1 ht
          obtain ⟨g, e, hs⟩ := ih _ _ fc as h
          refine ⟨g1 ++ g, ?_, ?_⟩
          · rw [e, e1]
            simp [InlineState.boxed]
          · rw [r1] at hs
            refine ShownBy.append ?_ hs
            simpa [InlineLevelBox.boxed, within, Function.comp_def] using s1
      | outOfFlowAbsolutelyPositioned style floats contents =>
        simp only at h
        rcases hi : staticInlineStart style ifc.inlinePosition with _ | i
        · simp [hi] at h
        · simp only [hi] at h
          obtain ⟨g, e, hs⟩ := ih _ _ _ _ h
          exact ⟨g, e, hs⟩
      | outOfFlowFloat style floats contents =>
        simp only at h
        obtain ⟨g, e, hs⟩ := ih _ _ fc as h
        exact ⟨g, e, hs⟩

theorem layoutInline_boxed {boxes : List InlineLevelBox} {cb : ContainingBlock} {rank : Nat} {as0 : Absolutes} {fc : FlowChildren}
    {as : Absolutes} (h : layoutInline F boxes cb rank as0 = some (fc, as)) : ShownBy F (inlinesBoxed boxes) (fragmentsBoxed fc.fragments) := by
  obtain ⟨g, e, hs⟩ := inlineLoop_boxed cb rank _ _ _ _ _ h
  rw [e]
  simpa [initialInlineState, InlineState.boxed, stackBoxed, fragmentsBoxed, within_empty, InlineState.remainingBoxed, InlineState.allRemaining,
    remainingBoxed, within_nil] using hs

/-! ### Block-level boxes -/

theorem placeFragment_boxed {s s' : PlacementState} {f f' : Fragment} (h : placeFragment s f = some (f', s')) : f'.boxed = f.boxed := by
  cases f with
  | text style rect segment => simp [placeFragment] at h
  | anonymous rect children mode =>
    simp only [placeFragment] at h
    split at h
    · cases h
      rfl
    · cases h
  | box b children =>
    simp only [placeFragment] at h
    repeat' split at h
    all_goals first
      | cases h; rfl
      | cases h

theorem placeAll_boxed : ∀ (fs fs' : List Fragment) (s s' : PlacementState), placeAll s fs = some (fs', s') →
    fragmentsBoxed fs' = fragmentsBoxed fs := by
  intro fs
  induction fs with
  | nil =>
    intro fs' s s' h
    simp only [placeAll] at h
    cases h
    rfl
  | cons f fs ih =>
    intro fs' s s' h
    simp only [placeAll] at h
    rcases hp : placeFragment s f with _ | ⟨f1, s1⟩
    · simp [hp] at h
    · simp only [hp] at h
      rcases ha : placeAll s1 fs with _ | ⟨fs1, s2⟩
      · simp [ha] at h
      · simp only [ha] at h
        cases h
        simp only [fragmentsBoxed, placeFragment_boxed hp, ih _ _ _ ha]

theorem layoutInFlow_boxed {cb : ContainingBlock} {style : ComputedValues} {kind : BlockLevelKind}
    {lc : ContainingBlock → Absolutes → Bool → Option (FlowChildren × Absolutes)}
    {la : DefiniteContainingBlock → Nat → AbsolutelyPositionedFragment → Option Fragment} {f : Fragment} {as : Absolutes} {t : BoxedText}
    (hu : PlainUpright style) (hlc : ∀ cb coll fc as, lc cb [] coll = some (fc, as) → ShownBy F t (fragmentsBoxed fc.fragments))
    (h : layoutInFlow cb [] style kind lc la = some (f, as)) : ShownBy F (boxedBy style t) f.boxed := by
  obtain ⟨fc, as', info, children, hl, rfl, hstyle, -, -, -, -, -, -, hch, -⟩ := layoutInFlow_some h
  have hp : (positionOf style).isRelativelyPositioned = false := by rw [hu.1.position]; rfl
  rw [hp] at hch
  simp only [Bool.false_eq_true, if_false] at hch
  obtain ⟨-, rfl⟩ := hch
  rw [Fragment.boxed, hstyle]
  exact (hlc _ _ _ _ hl).boxedBy style

/-- Layout of boxes that are upright. -/
theorem layout_boxed : ∀ (fuel : Nat),
    (∀ c cb rank collapsible fc as, c.Every PlainUpright SizeOk → layoutContainer F fuel inOrder c cb rank [] false collapsible = some (fc, as) →
      ShownBy F c.boxed (fragmentsBoxed fc.fragments)) ∧
    (∀ b cb rank f as, b.Every PlainUpright SizeOk → layoutBox F fuel inOrder b cb rank [] false = some (f, as) → ShownBy F b.boxed f.boxed) := by
  intro fuel
  induction fuel with
  | zero => exact ⟨by intros; simp_all [layoutContainer], by intros; simp_all [layoutBox]⟩
  | succ fuel ih =>
    obtain ⟨ihc, ihb⟩ := ih
    have hp := layout_prepend F fuel
    refine ⟨?_, ?_⟩
    · intro c cb rank collapsible fc as he h
      cases c with
      | blockLevelBoxes boxes =>
        simp only [layoutContainer] at h
        rw [layoutChildren_eq (g := fun rank b => layoutBox F fuel inOrder b cb rank [] false)
              (fun rank b absolute => hp.2.1 _ b cb rank absolute false), prepend_nil] at h
        obtain ⟨fs, as', s, hseq, hplace, -, -, -⟩ := canonicalChildren_some h
        have hst := seqChildren_forall₂ (P := fun b f => b.Every PlainUpright SizeOk → ShownBy F b.boxed f.boxed)
          (fun rank b f as hb hu => ihb b cb rank f as hu hb) _ _ _ _ hseq
        rw [placeAll_boxed _ _ _ _ hplace]
        clear hplace hseq h
        simp only [BlockContainer.Every] at he
        simp only [BlockContainer.boxed]
        induction hst with
        | nil => exact .nil
        | cons h1 _ ih => exact (h1 he.1).append (ih he.2)
      | inlineFormattingContext boxes =>
        simp only [layoutContainer] at h
        exact layoutInline_boxed h
    · intro b cb rank f as he h
      cases b with
      | sameFormattingContextBlock style contents =>
        simp only [layoutBox] at h
        exact layoutInFlow_boxed (F := F) he.1 (fun cb coll fc as hl => by
          rw [hp.1 (inOrder.sub 0), prepend_nil] at hl
          exact ihc contents cb rank coll fc as he.2 hl) h
      | independent style floats contents =>
        simp only [layoutBox] at h
        refine layoutInFlow_boxed (F := F) he.1 (fun cb coll fc as hl => ?_) h
        rw [hp.1 (inOrder.sub 0), prepend_nil] at hl
        rcases h1 : layoutContainer F fuel inOrder contents cb rank [] false false with _ | ⟨fc1, as1⟩
        · simp [h1, mapFst] at hl
        · rw [h1] at hl
          simp only [mapFst] at hl
          cases hl
          exact ihc contents cb rank false fc1 _ he.2 h1
      | outOfFlowAbsolutelyPositioned style floats contents =>
        simp only [layoutBox] at h
        cases h
        exact .nil
      | outOfFlowFloat style floats contents =>
        simp only [layoutBox] at h
        cases h
        exact .nil

theorem layoutRoot_boxed {fuel : Nat} {s : Oracle} {root : BlockFormattingContext} {viewport : Vec2 Rat}
    {fragments : List Fragment} (he : root.contents.Every PlainUpright SizeOk) (hno : root.contents.Only NoAbsolutes)
    (h : layoutRoot F fuel s root viewport = some fragments) : ShownBy F root.contents.boxed (fragmentsBoxed fragments) := by
  simp only [layoutRoot, BlockFormattingContext.layout] at h
  rw [(layout_prepend F fuel).1 (s.sub 0), prepend_nil] at h
  rcases h1 : layoutContainer F fuel inOrder root.contents ⟨viewport.inline, .length viewport.block, (.horizontalTb, .ltr)⟩ 0 [] false
    false with _ | ⟨fc, as⟩
  · simp [h1, mapFst] at h
  · simp only [h1, mapFst] at h
    have ok := (layout_boxed fuel).1 _ _ _ _ _ _ he h1
    obtain ⟨extra, c⟩ := (layout_collect (F := F) (fun _ => ([] : List Unit)) fuel).1 _ _ _ _ _ _ h1
    obtain ⟨rfl, -⟩ := c.order hno
    simp only [layoutAll, List.append_nil] at h
    cases h
    exact ok

end

/-! ### Box construction -/

/-- The boxes around a character that is in these elements of a block container with this style, which may have an anonymous box in it. -/
def Inside (cs : ComputedValues) (elements boxes : List ComputedValues) : Prop :=
  ∃ inner, Around elements inner ∧ (boxes = inner ∨ boxes = ComputedValues.anonymousInheritingFrom (some cs) :: inner)

/-- The same characters, each in boxes for its elements. -/
def BoxedAs (r : List ComputedValues → List ComputedValues → Prop) (t u : BoxedText) : Prop :=
  List.Forall₂ (fun a b => a.2 = b.2 ∧ r a.1 b.1) t u

theorem Around.refl : ∀ p : List ComputedValues, Around p p
  | [] => .nil
  | _ :: p => .box (Around.refl p)

theorem Inside.around {cs : ComputedValues} {e b : List ComputedValues} (h : Inside cs e b) : Around (cs :: e) (cs :: b) := by
  obtain ⟨inner, h1, rfl | rfl⟩ := h
  · exact .box h1
  · exact .anonymous h1

/-- The styles of the boxes around the current list. -/
def ongoingPath (stack : List OngoingInlineBox) : List ComputedValues := (stack.map OngoingInlineBox.style).reverse

/-- The text in ongoing inline boxes. -/
def ongoingBoxed : List OngoingInlineBox → BoxedText
  | [] => []
  | o :: rest => ongoingBoxed rest ++ within (ongoingPath (o :: rest)) (inlinesBoxed o.children)

/-- The text that is not yet in a block-level box. -/
def Builder.inlineBoxed (b : Builder) : BoxedText := inlinesBoxed b.ongoing ++ ongoingBoxed b.stack

/-- The builder has this text. -/
def Has (cs : ComputedValues) (b : Builder) (t : BoxedText) : Prop :=
  ∃ tb, t = tb ++ inkedBy b.inlineBoxed ∧ BoxedAs (Inside cs) tb (inkedBy (blocksBoxed b.blockLevelBoxes))

theorem inlineBoxed_setCurrent (b : Builder) (bs u : List InlineLevelBox) (h : inlinesBoxed bs = inlinesBoxed b.current ++ inlinesBoxed u) :
    (b.setCurrent bs).inlineBoxed = b.inlineBoxed ++ within (ongoingPath b.stack) (inlinesBoxed u) ∧
      (b.setCurrent bs).blockLevelBoxes = b.blockLevelBoxes ∧
      (b.setCurrent bs).stack.map OngoingInlineBox.style = b.stack.map OngoingInlineBox.style := by
  obtain ⟨bl, og, st, cf⟩ := b
  cases st with
  | nil =>
    simp only [Builder.current] at h
    exact ⟨by simp [Builder.setCurrent, Builder.inlineBoxed, h, ongoingBoxed, ongoingPath, within_nil], rfl, rfl⟩
  | cons o rest =>
    simp only [Builder.current] at h
    refine ⟨?_, rfl, rfl⟩
    simp [Builder.setCurrent, Builder.inlineBoxed, h, ongoingBoxed, ongoingPath, within_append]

theorem Has.push {cs : ComputedValues} {b : Builder} {t : BoxedText} (h : Has cs b t) (box : InlineLevelBox) :
    Has cs (b.push box) (t ++ within (ongoingPath b.stack) (inkedBy box.boxed)) := by
  obtain ⟨tb, rfl, h2⟩ := h
  obtain ⟨e1, e2, -⟩ := inlineBoxed_setCurrent b (b.current ++ [box]) [box] (inlinesBoxed_append _ _)
  refine ⟨tb, ?_, by rw [Builder.push, e2]; exact h2⟩
  rw [Builder.push, e1, inkedBy_append, inkedBy_within]
  simp [inlinesBoxed]

theorem Has.handleText {cs : ComputedValues} {b : Builder} {t : BoxedText} (h : Has cs b t) (c : List Nat) (ps : ComputedValues) :
    Has cs (b.handleText c ps) (t ++ within (ongoingPath b.stack) (inkedBy (c.map fun c => ([], c)))) := by
  have hink : inkedBy (c.map fun c => (([] : List ComputedValues), c)) = inkedBy ((b.added c).map fun c => ([], c)) := by
    rw [inkedBy_map, inkedBy_map, Builder.added, squeeze_ink]
  rw [hink, handleText_eq]
  split
  · rename_i he
    simpa [he, inkedBy, within] using h
  · obtain ⟨tb, rfl, h2⟩ := h
    have hb : inlinesBoxed (appendText ps (b.added c) b.current) = inlinesBoxed b.current ++ inlinesBoxed [.textRun ps (b.added c)] := by
      rcases appendText_cases ps (b.added c) b.current with h3 | ⟨pre', s, u, h3, h4⟩
      · rw [h3, inlinesBoxed_append]
      · rw [h4, h3, inlinesBoxed_append, inlinesBoxed_append]
        simp [inlinesBoxed, InlineLevelBox.boxed]
    obtain ⟨e1, e2, -⟩ := inlineBoxed_setCurrent b _ _ hb
    refine ⟨tb, ?_, by rw [e2]; exact h2⟩
    rw [e1, inkedBy_append, inkedBy_within]
    simp [inlinesBoxed, InlineLevelBox.boxed]

theorem handleText_styles (b : Builder) (c : List Nat) (ps : ComputedValues) :
    (b.handleText c ps).stack.map OngoingInlineBox.style = b.stack.map OngoingInlineBox.style := by
  rw [handleText_eq]
  split
  · rfl
  · obtain ⟨bl, og, st, cf⟩ := b
    cases st <;> rfl

theorem boxedAs_within (cs : ComputedValues) (t : BoxedText) :
    BoxedAs (Inside cs) t (boxedBy (ComputedValues.anonymousInheritingFrom (some cs)) t) := by
  induction t with
  | nil => exact .nil
  | cons x t ih => exact .cons ⟨rfl, x.1, .refl _, .inr rfl⟩ ih

theorem BoxedAs.append {r : List ComputedValues → List ComputedValues → Prop} {t u t' u' : BoxedText} (h : BoxedAs r t u) (h' : BoxedAs r t' u') :
    BoxedAs r (t ++ t') (u ++ u') := List.rel_append h h'

theorem Has.endOngoing {cs : ComputedValues} {b b1 : Builder} {t : BoxedText} (h : Has cs b t) (he : b.endOngoing cs = some b1) :
    Has cs b1 t ∧ b1.ongoing = [] ∧ b1.stack = [] := by
  obtain ⟨hs, hs1⟩ := endOngoing_stack he
  unfold Builder.endOngoing at he
  simp only [hs, List.isEmpty_nil, Bool.not_true, Bool.false_eq_true, if_false] at he
  split at he
  · rename_i h1
    simp only [List.isEmpty_iff] at h1
    injection he with he
    subst he
    exact ⟨h, h1, hs1⟩
  · injection he with he
    subst he
    obtain ⟨tb, rfl, h2⟩ := h
    refine ⟨⟨tb ++ inkedBy b.inlineBoxed, ?_, ?_⟩, rfl, hs1⟩
    · simp [Builder.inlineBoxed, inlinesBoxed, hs, ongoingBoxed, inkedBy]
    · simp only [blocksBoxed_append, blocksBoxed, BlockLevelBox.boxed, BlockContainer.boxed, List.append_nil, inkedBy_append, inkedBy_boxedBy]
      refine h2.append ?_
      simp only [Builder.inlineBoxed, hs, ongoingBoxed, List.append_nil]
      exact boxedAs_within _ _

theorem Has.finish {cs : ComputedValues} {b : Builder} {t : BoxedText} {c : BlockContainer} {g : Bool} (h : Has cs b t) (hs : b.stack = [])
    (he : b.finish cs = some (c, g)) : BoxedAs (Inside cs) t (inkedBy c.boxed) := by
  have key : ∀ {b : Builder}, Has cs b t → b.stack = [] → b.ongoing = [] → BoxedAs (Inside cs) t (inkedBy (blocksBoxed b.blockLevelBoxes)) := by
    intro b h h1 h2
    obtain ⟨tb, rfl, h3⟩ := h
    simpa [Builder.inlineBoxed, h1, h2, inlinesBoxed, ongoingBoxed, inkedBy] using h3
  unfold Builder.finish at he
  split at he
  · rename_i h1
    simp only [List.isEmpty_iff] at h1
    simp only [Option.some.injEq, Prod.mk.injEq] at he
    obtain ⟨rfl, -⟩ := he
    exact key h hs h1
  · split at he
    · rename_i h1 h2
      simp only [List.isEmpty_iff] at h2
      simp only [Option.some.injEq, Prod.mk.injEq] at he
      obtain ⟨rfl, -⟩ := he
      obtain ⟨tb, rfl, h3⟩ := h
      rw [h2] at h3
      cases h3
      simp only [Builder.inlineBoxed, hs, ongoingBoxed, List.append_nil, List.nil_append, BlockContainer.boxed]
      exact List.forall₂_same.2 fun x _ => ⟨rfl, x.1, .refl _, .inl rfl⟩
    · rcases h3 : b.endOngoing cs with _ | b1
      · simp [h3] at he
      · simp only [h3, Option.some.injEq, Prod.mk.injEq] at he
        obtain ⟨rfl, -⟩ := he
        obtain ⟨h4, h5, h6⟩ := h.endOngoing h3
        exact key h4 h6 h5

theorem BoxedAs.boxedBy {s : ComputedValues} {t u : BoxedText} (h : BoxedAs (Inside s) t u) : BoxedAs Around (boxedBy s t) (boxedBy s u) := by
  induction h with
  | nil => exact .nil
  | cons h1 _ ih => exact .cons ⟨h1.1, h1.2.around⟩ ih

theorem BoxedAs.inside {cs : ComputedValues} {t u : BoxedText} (h : BoxedAs Around t u) : BoxedAs (Inside cs) t u :=
  h.imp fun _ b h => ⟨h.1, b.1, h.2, .inl rfl⟩

theorem Has.pushBlock {cs : ComputedValues} {b : Builder} {t u : BoxedText} (h : Has cs b t) (h1 : b.ongoing = []) (h2 : b.stack = [])
    (box : BlockLevelBox) (g : Bool) (hb : BoxedAs Around u (inkedBy box.boxed)) :
    Has cs { b with blockLevelBoxes := b.blockLevelBoxes ++ [box], containsFloats := g } (t ++ u) := by
  obtain ⟨tb, rfl, h3⟩ := h
  refine ⟨tb ++ u, ?_, ?_⟩
  · simp [Builder.inlineBoxed, h1, h2, inlinesBoxed, ongoingBoxed, inkedBy]
  · simp only [blocksBoxed_append, blocksBoxed, List.append_nil, inkedBy_append]
    exact h3.append hb.inside

/-- An element in flow, or one without a box. -/
def FlowsOnly (s : ComputedValues) : Prop := displayOf s = .contents ∨ (positionOf s ≠ .absolute ∧ floatOf s = .none)

theorem flowsOnly_block {s : ComputedValues} {ch : List StyledNode} {o i} (hd : displayOf s = .generatingBox o i)
    (h : (StyledNode.element s ch).All fun s _ => FlowsOnly s) :
    (positionOf s ≠ .absolute ∧ floatOf s = .none) ∧ nodesAll (fun s _ => FlowsOnly s) ch := by
  obtain h | h := h
  · simp [hd] at h
  · exact ⟨h.1.resolve_left (by simp [hd]), h.2⟩

theorem SameOutside.styles {b b' : Builder} (h : SameOutside b b') : b'.stack.map OngoingInlineBox.style = b.stack.map OngoingInlineBox.style := by
  unfold SameOutside at h
  split at h
  · rename_i hs
    rw [h, hs]
  · rename_i o rest hs
    obtain ⟨ch, h1, -⟩ := h
    rw [h1, hs]
    rfl

theorem traverse_boxed :
    TraversalCases
      (fun cs _ n b b' => SameOutside b b' ∧ (n.All (fun s _ => FlowsOnly s) → ∀ t, Has cs b t →
        Has cs b' (t ++ within (ongoingPath b.stack) (inkedBy n.boxed))))
      (fun cs _ ns b b' => SameOutside b b' ∧ (nodesAll (fun s _ => FlowsOnly s) ns → ∀ t, Has cs b t →
        Has cs b' (t ++ within (ongoingPath b.stack) (inkedBy (nodesBoxed ns))))) where
  ignored _ _ b := ⟨.refl b, fun _ t h => by simpa [StyledNode.boxed, inkedBy, within] using h⟩
  text _ ps t b := ⟨.handleText _ _ _, fun _ u h => h.handleText t ps⟩
  none _ _ s _ b hd := ⟨.refl b, fun _ t h => by simpa [StyledNode.boxed, hd, inkedBy, within] using h⟩
  contents cs ps s ch b b' hd h := by
    refine ⟨h.1, fun hk t ht => ?_⟩
    obtain hk | hk := hk
    · simp [hd] at hk
    · simpa [StyledNode.boxed, hd] using h.2 hk.2 t ht
  inline cs ps s ch b b1 o rest hd h hs := by
    refine ⟨traverse_shape.inline cs ps s ch b b1 o rest hd h.1 hs, fun hk t ht => ?_⟩
    obtain ⟨-, hk⟩ := flowsOnly_block hd hk
    obtain ⟨rfl, e4, -, h2, h3⟩ := inline_inner h.1 hs
    obtain ⟨tb, rfl, h5⟩ := ht
    obtain ⟨tb', h6, h7⟩ := h.2 hk (tb ++ inkedBy b.inlineBoxed) ⟨tb, by
      simp [Builder.inlineBoxed, ongoingBoxed, inlinesBoxed, within_empty], h5⟩
    simp only [StyledNode.boxed, hd, inkedBy_boxedBy, within_boxedBy]
    have hpath : ongoingPath (⟨s, true, []⟩ :: b.stack) = ongoingPath b.stack ++ [s] := by simp [ongoingPath]
    rw [hpath] at h6
    rw [h6]
    obtain ⟨e1, e2, -⟩ := inlineBoxed_setCurrent ({ b1 with stack := b.stack } : Builder)
      (({ b1 with stack := b.stack } : Builder).current ++ [.inlineBox o.style o.firstFragment true o.children])
      [.inlineBox o.style o.firstFragment true o.children] (inlinesBoxed_append _ _)
    refine ⟨tb', ?_, by rw [Builder.push, e2]; exact h7⟩
    congr 2
    rw [Builder.push, e1]
    simp [Builder.inlineBoxed, hs, ongoingBoxed, inlinesBoxed, InlineLevelBox.boxed, within_boxedBy, ongoingPath]
  absoluteInline cs ps s ch b inner c g i hd h2 h3 h4 h5 := by
    refine ⟨.setCurrent _ _, fun hk => ?_⟩
    exact absurd h2 (flowsOnly_block hd hk).1.1
  absoluteBlock cs ps s ch b inner c g i hd h2 h3 h4 h5 := by
    refine ⟨traverse_shape.absoluteBlock cs ps s ch b inner c g i hd h2 h3.1 h4 h5, fun hk => ?_⟩
    exact absurd h2 (flowsOnly_block hd hk).1.1
  floatInline cs ps s ch b inner c g i hd h2 h2' h3 h4 h5 := by
    refine ⟨traverse_shape.floatInline cs ps s ch b inner c g i hd h2 h2' h3.1 h4 h5, fun hk => ?_⟩
    exact absurd (flowsOnly_block hd hk).1.2 h2'
  floatBlock cs ps s ch b inner c g i hd h2 h2' h3 h4 h5 := by
    refine ⟨traverse_shape.floatBlock cs ps s ch b inner c g i hd h2 h2' h3.1 h4 h5, fun hk => ?_⟩
    exact absurd (flowsOnly_block hd hk).1.2 h2'
  block cs ps s ch b b1 inner c g i hd h2 h2' h0 h3 h4 := by
    refine ⟨traverse_shape.block cs ps s ch b b1 inner c g i hd h2 h2' h0 h3.1 h4, fun hk t ht => ?_⟩
    obtain ⟨-, hk⟩ := flowsOnly_block hd hk
    obtain ⟨hst, hend⟩ := splitInlines_eq h0
    obtain ⟨e1, e2, e3⟩ := ht.endOngoing hend
    have hin : BoxedAs (Inside s) (inkedBy (nodesBoxed ch)) (inkedBy c.boxed) := by
      have := h3.2 hk [] ⟨[], rfl, .nil⟩
      simp only [Builder.new, ongoingPath, List.map_nil, List.reverse_nil, within_nil, List.nil_append] at this
      exact this.finish h3.1.new_stack h4
    have hb : BoxedAs Around (inkedBy (StyledNode.element s ch).boxed) (inkedBy (boxedBy s c.boxed)) := by
      simp only [StyledNode.boxed, hd, inkedBy_boxedBy]
      exact hin.boxedBy
    have hp : ongoingPath b.stack = [] := by simp [ongoingPath, hst]
    rw [hp, within_nil]
    cases i with
    | flow => exact e1.pushBlock e2 e3 _ _ hb
    | flowRoot => exact e1.pushBlock e2 e3 _ _ hb
  nil _ _ b := ⟨.refl b, fun _ t h => by simpa [nodesBoxed, inkedBy, within] using h⟩
  cons cs ps n ns b b1 b2 h h' := by
    refine ⟨h.1.trans h'.1, fun hk t ht => ?_⟩
    have h1 := h'.2 hk.2 _ (h.2 hk.1 t ht)
    rw [nodesBoxed, inkedBy_append, within_append, ← List.append_assoc]
    have e : ongoingPath b1.stack = ongoingPath b.stack := by rw [ongoingPath, h.1.styles, ongoingPath]
    rwa [e] at h1

theorem constructRoot_boxed {style : ComputedValues} {children : List StyledNode} {root : BlockFormattingContext}
    (hd : displayOf style ≠ .none) (hf : floatOf style = .none) (hp : positionOf style ≠ .absolute)
    (hall : nodesAll (fun s _ => FlowsOnly s) children) (h : constructRoot style children = some root) :
    BoxedAs Around (inkedBy (boxedBy style (nodesBoxed children))) (inkedBy root.contents.boxed) := by
  have hp' : (positionOf style).isAbsolutelyPositioned = false := by
    cases hpos : (positionOf style).isAbsolutelyPositioned
    · rfl
    · exact absurd ((isAbsolutelyPositioned_iff _).1 hpos) hp
  have hf' : (floatOf style).isFloating = false := by rw [hf]; rfl
  have key : ∀ {c : BlockContainer} {fl : Bool}, constructContainer style children = some (c, fl) →
      BoxedAs Around (inkedBy (boxedBy style (nodesBoxed children))) (inkedBy (boxedBy style c.boxed)) := by
    intro c fl hc
    unfold constructContainer at hc
    rcases ht : traverseNodes style style children Builder.new with _ | b
    · simp [ht] at hc
    · simp only [ht] at hc
      obtain ⟨h1, h2⟩ := traverseNodes_induct traverse_boxed style style children _ _ ht
      have := h2 hall [] ⟨[], rfl, .nil⟩
      simp only [Builder.new, ongoingPath, List.map_nil, List.reverse_nil, within_nil, List.nil_append] at this
      rw [inkedBy_boxedBy, inkedBy_boxedBy]
      exact (this.finish h1.new_stack hc).boxedBy
  unfold constructRoot at h
  simp only [hp', hf', Bool.false_eq_true, if_false] at h
  split at h
  · rename_i hnone
    exact absurd hnone hd
  all_goals
    rcases hcc : constructContainer style children with _ | ⟨c, fl⟩
    · simp [hcc] at h
    · simp only [hcc, Option.some.injEq] at h
      subst h
      simpa [BlockContainer.boxed, blocksBoxed, BlockLevelBox.boxed] using key hcc

end Verif.Layout
