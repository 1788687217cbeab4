/- Layout with any arithmetic only appends to the list of absolutely positioned fragments, and does not depend on how the work is divided:
the lemmas of `Verif.Layout.FlowLemmas`. -/
import Verif.Layout.Machine
import Verif.Layout.FlowLemmas
set_option linter.unusedSectionVars false
namespace Verif.Layout.Machine
open Verif.Style Verif.Text
variable {R : Type} [Numbers R] {Err : Type} {F : FontApi R Err}

/-- The result with a list put before the absolutely positioned fragments. -/
def prepend {α : Type} (absolute : Absolutes R) : Option (α × Absolutes R) → Option (α × Absolutes R)
  | some (a, as) => some (a, absolute ++ as)
  | none => none

@[simp] theorem prepend_none {α : Type} (l : Absolutes R) : prepend (α := α) l none = none := rfl
@[simp] theorem prepend_some {α : Type} (l : Absolutes R) (a : α) (as : Absolutes R) :
    prepend l (some (a, as)) = some (a, l ++ as) := rfl
@[simp] theorem prepend_nil {α : Type} (r : Option (α × Absolutes R)) : prepend [] r = r := by
  rcases r with _ | ⟨a, as⟩ <;> rfl
theorem prepend_prepend {α : Type} (l l' : Absolutes R) (r : Option (α × Absolutes R)) :
    prepend l (prepend l' r) = prepend (l ++ l') r := by
  rcases r with _ | ⟨a, as⟩ <;> simp
theorem mapFst_prepend {α β : Type} (f : α → β) (l : Absolutes R) (r : Option (α × Absolutes R)) :
    mapFst f (prepend l r) = prepend l (mapFst f r) := by
  rcases r with _ | ⟨a, as⟩ <;> rfl

/-! ### Inline formatting contexts -/

theorem inlineLoop_prepend {Err : Type} (F : FontApi R Err) (cb : ContainingBlock R) (rank : Nat) :
    ∀ (fuel : Nat) (ifc : InlineState R) (absolute : Absolutes R),
      inlineLoop F cb rank fuel ifc absolute = prepend absolute (inlineLoop F cb rank fuel ifc []) := by
  intro fuel
  induction fuel with
  | zero => intro ifc absolute; rfl
  | succ fuel ih =>
    intro ifc absolute
    simp only [inlineLoop, inlineStep]
    cases ifc.current.remainingBoxes with
    | nil =>
      cases ifc.stack with
      | nil => simp
      | cons p stack => simp only; exact ih _ _
    | cons child remaining =>
      cases child with
      | inlineBox style first last children => simp only; exact ih _ _
      | textRun style text =>
        simp only
        cases layoutTextRun F cb style text { ifc with current := { ifc.current with remainingBoxes := remaining } } with
        | none => rfl
        | some ifc => simp only; exact ih _ _
      | outOfFlowAbsolutelyPositioned style floats contents =>
        simp only
        cases staticInlineStart style ifc.inlinePosition with
        | none => rfl
        | some i =>
          simp only
          rw [ih _ (absolute ++ _), ih _ ([] ++ _), prepend_prepend]
          simp
      | outOfFlowFloat style floats contents => simp only; exact ih _ _

theorem layoutInline_prepend {Err : Type} (F : FontApi R Err) (boxes : List InlineLevelBox) (cb : ContainingBlock R)
    (rank : Nat) (absolute : Absolutes R) :
    layoutInline F boxes cb rank absolute = prepend absolute (layoutInline F boxes cb rank []) :=
  inlineLoop_prepend F cb rank _ _ _

/-! ### Lists of block-level boxes -/

/-- Layout of the boxes one after the other. -/
def seqChildren (g : Nat → BlockLevelBox → Option (Fragment R × Absolutes R)) :
    Nat → List BlockLevelBox → Option (List (Fragment R) × Absolutes R)
  | _, [] => some ([], [])
  | rank, b :: bs =>
    match g rank b, seqChildren g (rank + 1) bs with
    | some (f, as), some (fs, as') => some (f :: fs, as ++ as')
    | _, _ => none

theorem seqChildren_append (g : Nat → BlockLevelBox → Option (Fragment R × Absolutes R)) :
    ∀ (bs bs' : List BlockLevelBox) (rank : Nat),
      seqChildren g rank (bs ++ bs') =
        match seqChildren g rank bs, seqChildren g (rank + bs.length) bs' with
        | some (fs, as), some (fs', as') => some (fs ++ fs', as ++ as')
        | _, _ => none := by
  intro bs bs'
  induction bs with
  | nil =>
    intro rank
    simp only [List.nil_append, seqChildren, List.length_nil, Nat.add_zero]
    rcases seqChildren g rank bs' with _ | ⟨fs, as⟩ <;> rfl
  | cons b bs ih =>
    intro rank
    simp only [List.cons_append, seqChildren, ih, List.length_cons]
    have e : rank + 1 + bs.length = rank + (bs.length + 1) := by omega
    rw [e]
    rcases g rank b with _ | ⟨f, as⟩
    · rfl
    · rcases seqChildren g (rank + 1) bs with _ | ⟨fs, as'⟩
      · rfl
      · rcases seqChildren g (rank + (bs.length + 1)) bs' with _ | ⟨fs', as''⟩ <;> simp

/-- The layout of a child only appends to the list of absolutely positioned fragments, and gives the same as `g`. -/
def Appends (f : Nat → BlockLevelBox → Absolutes R → Option (Fragment R × Absolutes R))
    (g : Nat → BlockLevelBox → Option (Fragment R × Absolutes R)) : Prop :=
  ∀ rank b absolute, f rank b absolute = prepend absolute (g rank b)

theorem foldTask_eq {f : Nat → BlockLevelBox → Absolutes R → Option (Fragment R × Absolutes R)}
    {g : Nat → BlockLevelBox → Option (Fragment R × Absolutes R)} (h : Appends f g) :
    ∀ (bs : List BlockLevelBox) (rank : Nat) (absolute : Absolutes R),
      mapfold.foldTask f rank bs absolute = prepend absolute (seqChildren g rank bs) := by
  intro bs
  induction bs with
  | nil => intro rank absolute; simp [mapfold.foldTask, seqChildren]
  | cons b bs ih =>
    intro rank absolute
    simp only [mapfold.foldTask, seqChildren, h rank b absolute]
    rcases g rank b with _ | ⟨fr, as⟩
    · rfl
    · simp only [prepend_some, ih]
      rcases seqChildren g (rank + 1) bs with _ | ⟨fs, as'⟩ <;> simp

theorem mapfold_eq {f : Nat → BlockLevelBox → Absolutes R → Option (Fragment R × Absolutes R)}
    {g : Nat → BlockLevelBox → Option (Fragment R × Absolutes R)} (h : Appends f g) :
    ∀ (s : Schedule) (rank : Nat) (bs : List BlockLevelBox), mapfold f s rank bs = seqChildren g rank bs := by
  intro s
  induction s with
  | task => intro rank bs; simp [mapfold, foldTask_eq h]
  | join cut l r ihl ihr =>
    intro rank bs
    simp only [mapfold, ihl, ihr]
    conv => rhs; rw [← List.take_append_drop cut bs, seqChildren_append]
    by_cases hc : cut ≤ bs.length
    · rw [List.length_take, Nat.min_eq_left hc]
      rcases seqChildren g rank (bs.take cut) with _ | ⟨fs, as⟩
      · rfl
      · rcases seqChildren g (rank + cut) (bs.drop cut) with _ | ⟨fs', as'⟩ <;> rfl
    · have hd : bs.drop cut = [] := List.drop_eq_nil_of_le (by omega)
      simp only [hd, seqChildren]
      rcases seqChildren g rank (bs.take cut) with _ | ⟨fs, as⟩ <;> rfl

theorem layoutInOrder_eq {f : Nat → BlockLevelBox → Absolutes R → Option (Fragment R × Absolutes R)}
    {g : Nat → BlockLevelBox → Option (Fragment R × Absolutes R)} (h : Appends f g) :
    ∀ (bs : List BlockLevelBox) (rank : Nat) (absolute : Absolutes R) (s : PlacementState R),
      layoutInOrder f rank bs absolute s =
        match seqChildren g rank bs with
        | none => none
        | some (fs, as) =>
          match placeAll s fs with
          | none => none
          | some (fs, s) => some (fs, absolute ++ as, s) := by
  intro bs
  induction bs with
  | nil => intro rank absolute s; simp [layoutInOrder, seqChildren, placeAll]
  | cons b bs ih =>
    intro rank absolute s
    simp only [layoutInOrder, seqChildren, h rank b absolute]
    rcases g rank b with _ | ⟨fr, as⟩
    · rfl
    · simp only [prepend_some]
      rcases hp : placeFragment s fr with _ | ⟨fr', s'⟩
      · rcases seqChildren g (rank + 1) bs with _ | ⟨fs, as'⟩
        · rfl
        · simp [placeAll, hp]
      · simp only [ih]
        rcases seqChildren g (rank + 1) bs with _ | ⟨fs, as'⟩
        · rfl
        · simp only [placeAll, hp]
          rcases placeAll s' fs with _ | ⟨fs', s''⟩ <;> simp

theorem finishChildren_prepend (absolute as : Absolutes R) (fs : List (Fragment R)) (s : PlacementState R) (rank : Nat) :
    finishChildren (absolute ++ as) absolute.length fs s rank = prepend absolute (finishChildren as 0 fs s rank) := by
  simp only [finishChildren, List.drop_left, List.take_left, List.drop_zero, List.take_zero, List.nil_append]
  rcases adjustStaticPositions as fs rank with _ | as' <;> rfl

/-- Layout of a list of block-level boxes one after the other, then placing them, then adjusting static positions. -/
def canonicalChildren (g : Nat → BlockLevelBox → Option (Fragment R × Absolutes R)) (boxes : List BlockLevelBox) (rank : Nat)
    (collapsible : Bool) : Option (FlowChildren R × Absolutes R) :=
  match seqChildren g 0 boxes with
  | none => none
  | some (fs, as) =>
    match placeAll (.initial collapsible) fs with
    | none => none
    | some (fs, s) => finishChildren as 0 fs s rank

theorem layoutChildren_eq {f : Nat → BlockLevelBox → Absolutes R → Option (Fragment R × Absolutes R)}
    {g : Nat → BlockLevelBox → Option (Fragment R × Absolutes R)} (h : Appends f g) (s : Schedule) (boxes : List BlockLevelBox) (rank : Nat)
    (absolute : Absolutes R) (floats collapsible : Bool) :
    layoutChildren s f boxes rank absolute floats collapsible =
      prepend absolute (canonicalChildren g boxes rank collapsible) := by
  simp only [layoutChildren, canonicalChildren, layoutInOrder_eq h, mapfold_eq h]
  rcases seqChildren g 0 boxes with _ | ⟨fs, as⟩
  · cases floats <;> rfl
  · simp only
    rcases placeAll (.initial collapsible) fs with _ | ⟨fs', st⟩
    · cases floats <;> rfl
    · simp only [finishChildren_prepend]
      cases floats <;> rfl

/-! ### One block-level box -/

theorem layoutInFlow_prepend (cb : ContainingBlock R) (absolute : Absolutes R) (style : ComputedValues) (kind : BlockLevelKind)
    {f : ContainingBlock R → Absolutes R → Bool → Option (FlowChildren R × Absolutes R)}
    {g : ContainingBlock R → Bool → Option (FlowChildren R × Absolutes R)}
    (h : ∀ cb absolute collapsible, f cb absolute collapsible = prepend absolute (g cb collapsible))
    (la : DefiniteContainingBlock R → Nat → AbsolutelyPositionedFragment R → Option (Fragment R)) :
    layoutInFlow cb absolute style kind f la =
      prepend absolute (layoutInFlow cb [] style kind (fun cb absolute coll => prepend absolute (g cb coll)) la) := by
  simp only [layoutInFlow, h]
  split
  · rfl
  · cases (positionOf style).isRelativelyPositioned
    · simp only [Bool.false_eq_true, if_false, prepend_nil]
      generalize g _ _ = r
      rcases r with _ | ⟨c, as⟩ <;> rfl
    · simp only [if_true, prepend_nil]
      generalize g _ _ = r
      rcases r with _ | ⟨c, as⟩
      · rfl
      · simp only
        generalize inPositionedContainingBlock (R := R) _ _ _ _ _ _ = q
        rcases q with _ | fs <;> simp

theorem inPositioned_congr {la la' : DefiniteContainingBlock R → Nat → AbsolutelyPositionedFragment R → Option (Fragment R)}
    (h : ∀ cb k a, la cb k a = la' cb k a) : la = la' := by funext cb k a; exact h cb k a

theorem layout_prepend {Err : Type} (F : FontApi R Err) : ∀ (fuel : Nat),
    (∀ (s : Oracle) c cb rank absolute floats collapsible,
      layoutContainer F fuel s c cb rank absolute floats collapsible =
        prepend absolute (layoutContainer F fuel inOrder c cb rank [] false collapsible)) ∧
    (∀ (s : Oracle) b cb rank absolute floats,
      layoutBox F fuel s b cb rank absolute floats = prepend absolute (layoutBox F fuel inOrder b cb rank [] false)) ∧
    (∀ (s : Oracle) cb a, layoutAbsolute F fuel s cb a = layoutAbsolute F fuel inOrder cb a) := by
  intro fuel
  induction fuel with
  | zero =>
    refine ⟨?_, ?_, ?_⟩
    · intros; simp [layoutContainer]
    · intros; simp [layoutBox]
    · intros; simp [layoutAbsolute]
  | succ fuel ih =>
    obtain ⟨ihc, ihb, iha⟩ := ih
    refine ⟨?_, ?_, ?_⟩
    · intro s c cb rank absolute floats collapsible
      cases c with
      | blockLevelBoxes boxes =>
        simp only [layoutContainer]
        rw [layoutChildren_eq (g := fun rank b => layoutBox F fuel inOrder b cb rank [] false)
              (fun rank b absolute => ihb _ b cb rank absolute floats),
            layoutChildren_eq (g := fun rank b => layoutBox F fuel inOrder b cb rank [] false)
              (fun rank b absolute => ihb _ b cb rank absolute false)]
        simp
      | inlineFormattingContext boxes =>
        simp only [layoutContainer]
        exact layoutInline_prepend F boxes cb rank absolute
    · intro s b cb rank absolute floats
      cases b with
      | sameFormattingContextBlock style contents =>
        have key : ∀ (s : Oracle) absolute floats, layoutBox F (fuel + 1) s (.sameFormattingContextBlock style contents) cb rank
            absolute floats = prepend absolute (layoutInFlow cb [] style .sameFormattingContextBlock
              (fun cb absolute coll => prepend absolute (layoutContainer F fuel inOrder contents cb rank [] false coll))
              (fun cb _ a => layoutAbsolute F fuel inOrder cb a)) := by
          intro s absolute floats
          simp only [layoutBox, iha]
          exact layoutInFlow_prepend (g := fun cb coll => layoutContainer F fuel inOrder contents cb rank [] false coll)
            cb absolute style _ (fun cb absolute coll => ihc _ contents cb rank absolute floats coll) _
        rw [key s absolute floats, key inOrder [] false, prepend_nil]
      | independent style containsFloats contents =>
        have key : ∀ (s : Oracle) absolute floats, layoutBox F (fuel + 1) s (.independent style containsFloats contents) cb rank
            absolute floats = prepend absolute (layoutInFlow cb [] style .establishesAnIndependentFormattingContext
              (fun cb absolute _ => prepend absolute (mapFst FlowChildren.finishBlockFormattingContext
                (layoutContainer F fuel inOrder contents cb rank [] false false)))
              (fun cb _ a => layoutAbsolute F fuel inOrder cb a)) := by
          intro s absolute floats
          simp only [layoutBox, iha]
          exact layoutInFlow_prepend (g := fun cb _ => mapFst FlowChildren.finishBlockFormattingContext
              (layoutContainer F fuel inOrder contents cb rank [] false false))
            cb absolute style _
            (fun cb absolute coll => by simp only [ihc _ contents cb rank absolute containsFloats false, mapFst_prepend]) _
        rw [key s absolute floats, key inOrder [] false, prepend_nil]
      | outOfFlowAbsolutelyPositioned style containsFloats contents => simp [layoutBox]
      | outOfFlowFloat style containsFloats contents => simp [layoutBox]
    · intro s cb a
      simp only [layoutAbsolute, iha]
      rw [ihc (s.sub 0), ihc (inOrder.sub 0)]

end Verif.Layout.Machine
