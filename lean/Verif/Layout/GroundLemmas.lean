/- The styles of the boxes on the page are those of the boxes in the tree: lemmas for C85. -/
import Verif.Layout.GroundBoxes
import Verif.Layout.StaticLemmas
namespace Verif.Layout
open Verif.Style Verif.Text
variable {Err : Type} {F : FontApi Rat Err} {β : Type} (g : ComputedValues → List β)

mutual
/-- `g` of the style of each box among the fragments, in tree order. -/
def Fragment.collect : Fragment → List β
  | .box info children => g info.style ++ fragmentsCollect children
  | .anonymous _ children _ => fragmentsCollect children
  | .text _ _ _ => []
/-- See `Fragment.collect`. -/
def fragmentsCollect : List Fragment → List β
  | [] => []
  | f :: fs => f.collect ++ fragmentsCollect fs
end

theorem fragmentsCollect_append (a b : List Fragment) : fragmentsCollect g (a ++ b) = fragmentsCollect g a ++ fragmentsCollect g b := by
  induction a with
  | nil => rfl
  | cons f a ih => simp [fragmentsCollect, ih]

/-- Of all boxes. -/
abbrev ofAll : Bool → ComputedValues → List β := fun _ s => g s
/-- Of inline boxes only. -/
abbrev ofInline : Bool → ComputedValues → List β := fun inline s => if inline then g s else []

/-! ### Lines -/

/-- The fragments outside the current nesting level. -/
def stackFragments : List PartialInlineBox → List β
  | [] => []
  | p :: rest => stackFragments rest ++ fragmentsCollect g p.parentNestingLevel.fragmentsSoFar

/-- The partial boxes themselves. -/
def stackOwn : List PartialInlineBox → List β
  | [] => []
  | p :: rest => stackOwn rest ++ g p.style

/-- All the fragments so far. -/
def InlineState.collect (ifc : InlineState) : List β :=
  fragmentsCollect g ifc.lineBoxes.boxes ++ (stackFragments g ifc.stack ++ fragmentsCollect g ifc.current.fragmentsSoFar)

theorem breakLine_collect (cb : ContainingBlock) :
    ∀ (stack : List PartialInlineBox) (level : NestingLevel) (position : Rat) (lines : LinesBoxes),
      (∀ p : β → Bool, (fragmentsCollect g (breakLine cb stack level position lines).2.2.boxes).countP p =
          (fragmentsCollect g lines.boxes).countP p + (stackFragments g stack).countP p + (fragmentsCollect g level.fragmentsSoFar).countP p +
            (stackOwn g stack).countP p) ∧
        (stackOwn g stack = [] → fragmentsCollect g (breakLine cb stack level position lines).2.2.boxes =
          fragmentsCollect g lines.boxes ++ (stackFragments g stack ++ fragmentsCollect g level.fragmentsSoFar)) ∧
        stackFragments g (breakLine cb stack level position lines).1 = [] ∧
        (breakLine cb stack level position lines).2.1.fragmentsSoFar = [] ∧
        stackOwn g (breakLine cb stack level position lines).1 = stackOwn g stack := by
  intro stack
  induction stack with
  | nil =>
    intro level position lines
    refine ⟨fun p => ?_, fun _ => ?_, rfl, rfl, rfl⟩ <;>
    simp [breakLine, finishLine, stackFragments, stackOwn, fragmentsCollect_append, fragmentsCollect, Fragment.collect]
  | cons q rest ih =>
    intro level position lines
    simp only [breakLine]
    obtain ⟨h1, h2, h3, h4, h5⟩ := ih (q.finish { level with inlineStart := 0 } position true).1.parentNestingLevel
      (q.finish { level with inlineStart := 0 } position true).2.2 lines
    refine ⟨fun p => ?_, fun ho => ?_, ?_, rfl, ?_⟩
    · rw [h1]
      simp only [PartialInlineBox.finish, stackFragments, stackOwn, fragmentsCollect_append, fragmentsCollect, Fragment.collect,
        List.countP_append, List.append_nil]
      omega
    · simp only [stackOwn, List.append_eq_nil_iff] at ho
      rw [h2 ho.1]
      simp [PartialInlineBox.finish, stackFragments, fragmentsCollect_append, fragmentsCollect, Fragment.collect, ho.2]
    · simp only [stackFragments, h3, h4, fragmentsCollect, List.append_nil]
    · simp only [stackOwn, h5]
      rfl

theorem textLines_collect (cb : ContainingBlock) (style : ComputedValues) (available : Rat) :
    ∀ (fuel : Nat) (chars : List Nat) (ifc ifc' : InlineState), textLines F cb style available fuel chars ifc = some ifc' →
      stackOwn g ifc'.stack = stackOwn g ifc.stack ∧
      (∃ extra : List β, (∀ x ∈ extra, x ∈ stackOwn g ifc.stack) ∧ ∀ p : β → Bool, (ifc'.collect g).countP p = (ifc.collect g).countP p + extra.countP p) ∧
      (stackOwn g ifc.stack = [] → ifc'.collect g = ifc.collect g) := by
  intro fuel
  induction fuel with
  | zero => intro chars ifc ifc' h; simp [textLines] at h
  | succ fuel ih =>
    intro chars ifc ifc' h
    simp only [textLines] at h
    rcases hs : shapeLine F (fontSizeOf style) available chars (ShapedSegment.new F) none with _ | ⟨shaped, rest⟩
    · simp [hs] at h
    · simp only [hs] at h
      have hpush : (pushText style shaped ifc).collect g = ifc.collect g := by
        simp [pushText, InlineState.collect, fragmentsCollect_append, fragmentsCollect, Fragment.collect]
      by_cases hr : rest = []
      · rw [if_pos hr] at h
        cases h
        exact ⟨rfl, ⟨[], by simp, by simp [hpush]⟩, fun _ => hpush⟩
      · rw [if_neg hr] at h
        obtain ⟨b1, b2, b3, b4, b5⟩ := breakLine_collect g cb (pushText style shaped ifc).stack (pushText style shaped ifc).current
          (pushText style shaped ifc).inlinePosition (pushText style shaped ifc).lineBoxes
        obtain ⟨e1, ⟨extra, e2, e3⟩, e4⟩ := ih rest _ ifc' h
        simp only at e1 e2 e4
        rw [b5] at e1 e2 e4
        refine ⟨e1, ⟨extra ++ stackOwn g ifc.stack, ?_, fun p => ?_⟩, fun ho => ?_⟩
        · intro x hx
          rcases List.mem_append.1 hx with hx | hx
          · exact e2 x hx
          · exact hx
        · rw [e3, ← hpush]
          simp only [InlineState.collect, b3, b4, fragmentsCollect, List.countP_append, b1 p, List.append_nil]
          have : (pushText style shaped ifc).stack = ifc.stack := rfl
          rw [this]
          omega
        · rw [e4 ho, ← hpush]
          simp only [InlineState.collect, b3, b4, fragmentsCollect, b2 ho, List.append_nil]

/-- Of the boxes that are still to be laid out. -/
def pendingCollect (f : Bool → ComputedValues → List β) (as : Absolutes) : List β :=
  as.flatMap fun a => f false a.box.style ++ a.box.contents.contents.collect f

theorem pendingCollect_append (f : Bool → ComputedValues → List β) (as bs : Absolutes) :
    pendingCollect f (as ++ bs) = pendingCollect f as ++ pendingCollect f bs := by simp [pendingCollect]

/-- The boxes are on the page, but for those that are pending, inline boxes perhaps more than once. -/
structure Covers (o : Prop) (boxes inline frags : List β) (as : Absolutes) (more : List β) : Prop where
  extra : ∀ x ∈ more, x ∈ inline
  pending : ∀ x ∈ pendingCollect (ofInline g) as, x ∈ inline
  count : ∀ p : β → Bool, frags.countP p + (pendingCollect (ofAll g) as).countP p = boxes.countP p + more.countP p
  order : o → as = [] ∧ (inline = [] → frags = boxes)

variable {g}

theorem Covers.nil (o : Prop) : Covers g o [] [] [] [] [] := ⟨by simp, by simp [pendingCollect], by simp [pendingCollect], fun _ => ⟨rfl, fun _ => rfl⟩⟩

theorem Covers.append {o o' : Prop} {b b' i i' fr fr' e e' : List β} {as as' : Absolutes} (h : Covers g o b i fr as e)
    (h' : Covers g o' b' i' fr' as' e') : Covers g (o ∧ o') (b ++ b') (i ++ i') (fr ++ fr') (as ++ as') (e ++ e') := by
  refine ⟨fun x hx => ?_, fun x hx => ?_, fun p => ?_, ?_⟩
  · rcases List.mem_append.1 hx with hx | hx
    · exact List.mem_append_left _ (h.extra x hx)
    · exact List.mem_append_right _ (h'.extra x hx)
  · rw [pendingCollect_append] at hx
    rcases List.mem_append.1 hx with hx | hx
    · exact List.mem_append_left _ (h.pending x hx)
    · exact List.mem_append_right _ (h'.pending x hx)
  · have h1 := h.count p
    have h2 := h'.count p
    rw [pendingCollect_append]
    simp only [List.countP_append]
    omega
  · rintro ⟨ho, ho'⟩
    obtain ⟨rfl, h1⟩ := h.order ho
    obtain ⟨rfl, h2⟩ := h'.order ho'
    refine ⟨rfl, fun hi => ?_⟩
    simp only [List.append_eq_nil_iff] at hi
    rw [h1 hi.1, h2 hi.2]

theorem Covers.mono {o o' : Prop} {b i fr e : List β} {as : Absolutes} (h : Covers g o b i fr as e) (ho : o' → o) :
    Covers g o' b i fr as e := ⟨h.extra, h.pending, h.count, fun h' => h.order (ho h')⟩

variable (g)

/-- Of the boxes that remain. -/
def remainingCollect (f : Bool → ComputedValues → List β) (r : List (List InlineLevelBox)) : List β := r.flatMap (inlinesCollect f)

theorem inlineLoop_collect (cb : ContainingBlock) (rank : Nat) :
    ∀ (fuel : Nat) (ifc : InlineState) (fc : FlowChildren) (as : Absolutes), inlineLoop F cb rank fuel ifc [] = some (fc, as) →
      ∃ extra : List β,
        (∀ x ∈ extra, x ∈ stackOwn g ifc.stack ++ remainingCollect (ofInline g) ifc.allRemaining) ∧
        (∀ x ∈ pendingCollect (ofInline g) as, x ∈ remainingCollect (ofInline g) ifc.allRemaining) ∧
        (∀ p : β → Bool, (fragmentsCollect g fc.fragments).countP p + (pendingCollect (ofAll g) as).countP p =
          (ifc.collect g).countP p + (stackOwn g ifc.stack).countP p + (remainingCollect (ofAll g) ifc.allRemaining).countP p +
            extra.countP p) ∧
        ((∀ bs ∈ ifc.allRemaining, inlinesOnly NoAbsolutes bs) → as = [] ∧
          (stackOwn g ifc.stack = [] → remainingCollect (ofInline g) ifc.allRemaining = [] →
            fragmentsCollect g fc.fragments = ifc.collect g ++ remainingCollect (ofAll g) ifc.allRemaining)) := by
  intro fuel
  induction fuel with
  | zero => intro ifc fc as h; simp [inlineLoop] at h
  | succ fuel ih =>
    intro ifc fc as h
    simp only [inlineLoop, inlineStep] at h
    rcases hr : ifc.current.remainingBoxes with _ | ⟨child, remaining⟩
    · simp only [hr] at h
      rcases hst : ifc.stack with _ | ⟨q, stack⟩
      · simp only [hst, Option.some.injEq, Prod.mk.injEq] at h
        obtain ⟨rfl, rfl⟩ := h
        refine ⟨[], by simp, by simp [pendingCollect], fun p => ?_, fun _ => ⟨rfl, fun _ _ => ?_⟩⟩ <;>
        simp [finishLine, fragmentsCollect_append, fragmentsCollect, Fragment.collect, InlineState.collect, hst, stackFragments, stackOwn,
          pendingCollect, remainingCollect, InlineState.allRemaining, hr, inlinesCollect]
      · simp only [hst] at h
        obtain ⟨extra, e1, e2, e3, e4⟩ := ih _ fc as h
        have hrem (f : Bool → ComputedValues → List β) : remainingCollect f ifc.allRemaining = remainingCollect f
              (({ ifc with
                  inlinePosition := (q.finish ifc.current ifc.inlinePosition false).2.2
                  stack := stack
                  current := (q.finish ifc.current ifc.inlinePosition false).1.parentNestingLevel } : InlineState).allRemaining) := by
            simp only [InlineState.allRemaining, hr, hst, remainingCollect, List.flatMap_cons, inlinesCollect, List.map_cons,
              List.nil_append]
            rfl
        rw [hrem, hrem]
        refine ⟨extra, fun x hx => ?_, e2, fun p => ?_, fun ho => ?_⟩
        · have := e1 x hx
          simp only [stackOwn, List.mem_append] at this ⊢
          tauto
        · rw [e3]
          simp only [InlineState.collect, hst, stackFragments, stackOwn, PartialInlineBox.finish, fragmentsCollect_append,
            fragmentsCollect, Fragment.collect, List.countP_append, List.append_nil]
          omega
        · obtain ⟨o1, o2⟩ := e4 fun bs hbs => ho bs (by
            simp only [InlineState.allRemaining, hst, List.map_cons] at hbs ⊢
            exact List.mem_cons_of_mem _ hbs)
          refine ⟨o1, fun h1 h2 => ?_⟩
          simp only [stackOwn, List.append_eq_nil_iff] at h1
          rw [o2 h1.1 h2]
          simp [InlineState.collect, hst, stackFragments, PartialInlineBox.finish, fragmentsCollect_append, fragmentsCollect,
            Fragment.collect, h1.2]
    · simp only [hr] at h
      have hrem (f : Bool → ComputedValues → List β) : remainingCollect f ifc.allRemaining =
          child.collect f ++ remainingCollect f (remaining :: ifc.stack.map PartialInlineBox.remaining) := by
        simp only [InlineState.allRemaining, hr, remainingCollect, List.flatMap_cons, inlinesCollect, List.append_assoc]
      have hno : (∀ bs ∈ ifc.allRemaining, inlinesOnly NoAbsolutes bs) →
          child.Only NoAbsolutes ∧ ∀ bs ∈ remaining :: ifc.stack.map PartialInlineBox.remaining, inlinesOnly NoAbsolutes bs := by
        intro ho
        have h1 := ho (child :: remaining) (by simp [InlineState.allRemaining, hr])
        refine ⟨h1.1, fun bs hbs => ?_⟩
        rcases List.mem_cons.1 hbs with rfl | hbs
        · exact h1.2
        · exact ho bs (by simp only [InlineState.allRemaining]; exact List.mem_cons_of_mem _ hbs)
      rw [hrem, hrem]
      cases child with
      | inlineBox style first last children =>
        simp only at h
        obtain ⟨extra, e1, e2, e3, e4⟩ := ih _ fc as h
        have he (f : Bool → ComputedValues → List β) : remainingCollect f ((startInlineBox cb style first last children
              { ifc with current := { ifc.current with remainingBoxes := remaining } }).allRemaining) =
              inlinesCollect f children ++ remainingCollect f (remaining :: ifc.stack.map PartialInlineBox.remaining) := by
            simp only [startInlineBox, InlineState.allRemaining, List.map_cons, remainingCollect, List.flatMap_cons]
            rfl
        have hc : (startInlineBox cb style first last children
              { ifc with current := { ifc.current with remainingBoxes := remaining } }).collect g = ifc.collect g := by
          simp [startInlineBox, InlineState.collect, stackFragments, fragmentsCollect]
        have hown : stackOwn g (startInlineBox cb style first last children
              { ifc with current := { ifc.current with remainingBoxes := remaining } }).stack = stackOwn g ifc.stack ++ g style := rfl
        rw [he] at e1 e2 e4
        rw [hown] at e1 e3 e4
        simp only [he, hc] at e3 e4
        refine ⟨extra, fun x hx => ?_, fun x hx => ?_, fun p => ?_, fun ho => ?_⟩
        · have := e1 x hx
          simp only [List.mem_append, InlineLevelBox.collect, ofInline, if_true] at this ⊢
          tauto
        · have := e2 x hx
          simp only [List.mem_append, InlineLevelBox.collect] at this ⊢
          tauto
        · have := e3 p
          simp only [List.countP_append, InlineLevelBox.collect, ofAll] at this ⊢
          omega
        · obtain ⟨h1, h2⟩ := hno ho
          obtain ⟨o1, o2⟩ := e4 fun bs hbs => by
            simp only [startInlineBox, InlineState.allRemaining, List.map_cons] at hbs
            rcases List.mem_cons.1 hbs with rfl | hbs
            · exact h1
            · exact h2 bs hbs
          refine ⟨o1, fun h3 h4 => ?_⟩
          simp only [InlineLevelBox.collect, ofInline, if_true, List.append_eq_nil_iff] at h4
          rw [o2 (by simp [h3, h4.1.1]) (by simp [h4.1.2, h4.2])]
          simp [InlineLevelBox.collect, h4.1.1]
      | textRun style text =>
        simp only at h
        rcases ht : layoutTextRun F cb style text { ifc with current := { ifc.current with remainingBoxes := remaining } } with _ | ifc1
        · simp [ht] at h
        · simp only [ht] at h
          obtain ⟨t1, ⟨extra1, t2, t3⟩, t4⟩ := textLines_collect g cb style _ _ text _ ifc1 ht
          have r1 := textLines_remaining _ _ _ _ ht
          obtain ⟨extra, e1, e2, e3, e4⟩ := ih _ fc as h
          rw [r1] at e1 e2 e4
          simp only [r1] at e3 e4
          rw [t1] at e1 e3 e4
          have hc : (({ ifc with current := { ifc.current with remainingBoxes := remaining } } : InlineState)).collect g = ifc.collect g := rfl
          rw [hc] at t3 t4
          refine ⟨extra1 ++ extra, fun x hx => ?_, e2, fun p => ?_, fun ho => ?_⟩
          · rcases List.mem_append.1 hx with hx | hx
            · exact List.mem_append_left _ (t2 x hx)
            · exact e1 x hx
          · have h1 := e3 p
            have h2 := t3 p
            simp only [List.countP_append, InlineLevelBox.collect, List.countP_nil, InlineState.allRemaining] at h1 ⊢
            omega
          · obtain ⟨o1, o2⟩ := e4 (hno ho).2
            refine ⟨o1, fun h1 h2 => ?_⟩
            rw [o2 h1 h2, t4 h1]
            rfl
      | outOfFlowAbsolutelyPositioned style floats contents =>
        simp only at h
        rcases hi : staticInlineStart style ifc.inlinePosition with _ | i
        · simp [hi] at h
        · simp only [hi, List.nil_append] at h
          rw [inlineLoop_prepend] at h
          rcases hl : inlineLoop F cb rank fuel { ifc with current := { ifc.current with remainingBoxes := remaining } } [] with _ | ⟨fc1, as1⟩
          · simp [hl] at h
          · simp only [hl, prepend_some, Option.some.injEq, Prod.mk.injEq] at h
            obtain ⟨rfl, rfl⟩ := h
            obtain ⟨extra, e1, e2, e3, e4⟩ := ih _ _ _ hl
            refine ⟨extra, fun x hx => ?_, fun x hx => ?_, fun p => ?_, fun ho => absurd rfl (hno ho).1.1⟩
            · have := e1 x hx
              simp only [List.mem_append, InlineState.allRemaining] at this ⊢
              tauto
            · rw [pendingCollect_append] at hx
              rcases List.mem_append.1 hx with hx | hx
              · refine List.mem_append_left _ ?_
                simpa [pendingCollect, AbsolutelyPositionedBox.layout, InlineLevelBox.collect] using hx
              · exact List.mem_append_right _ (e2 x hx)
            · have h1 := e3 p
              simp only [InlineState.allRemaining] at h1
              have hc : (({ ifc with current := { ifc.current with remainingBoxes := remaining } } : InlineState)).collect g = ifc.collect g := rfl
              rw [hc] at h1
              rw [pendingCollect_append]
              simp only [pendingCollect, List.flatMap_cons, List.flatMap_nil, List.append_nil, AbsolutelyPositionedBox.layout,
                InlineLevelBox.collect, List.countP_append] at h1 ⊢
              omega
      | outOfFlowFloat style floats contents =>
        simp only at h
        obtain ⟨extra, e1, e2, e3, e4⟩ := ih _ fc as h
        exact ⟨extra, e1, e2, e3, fun ho => e4 (hno ho).2⟩

theorem layoutInline_collect (boxes : List InlineLevelBox) (cb : ContainingBlock) (rank : Nat) (fc : FlowChildren) (as : Absolutes)
    (h : layoutInline F boxes cb rank [] = some (fc, as)) :
    ∃ extra, Covers g (inlinesOnly NoAbsolutes boxes) (inlinesCollect (ofAll g) boxes) (inlinesCollect (ofInline g) boxes)
      (fragmentsCollect g fc.fragments) as extra := by
  obtain ⟨extra, e1, e2, e3, e4⟩ := inlineLoop_collect g cb rank _ _ fc as h
  simp only [initialInlineState, InlineState.collect, stackFragments, stackOwn, fragmentsCollect, List.nil_append, InlineState.allRemaining,
    List.map_nil, remainingCollect, List.flatMap_cons, List.flatMap_nil, List.append_nil, List.mem_singleton, forall_eq, List.countP_nil,
    Nat.zero_add, forall_const] at e1 e2 e3 e4
  exact ⟨extra, e1, e2, e3, e4⟩

/-! ### Block-level boxes -/

theorem placeFragment_collect {s s' : PlacementState} {f f' : Fragment} (h : placeFragment s f = some (f', s')) :
    f'.collect g = f.collect g := by
  cases f with
  | text style rect segment => simp [placeFragment] at h
  | anonymous rect children mode =>
    simp only [placeFragment] at h
    split at h
    · cases h
      rfl
    · cases h
  | box b children =>
    simp only [placeFragment] at h
    repeat' split at h
    all_goals first
      | cases h; rfl
      | cases h

theorem placeAll_collect : ∀ (fs fs' : List Fragment) (s s' : PlacementState), placeAll s fs = some (fs', s') →
    fragmentsCollect g fs' = fragmentsCollect g fs := by
  intro fs
  induction fs with
  | nil =>
    intro fs' s s' h
    simp only [placeAll] at h
    cases h
    rfl
  | cons f fs ih =>
    intro fs' s s' h
    simp only [placeAll] at h
    rcases hp : placeFragment s f with _ | ⟨f1, s1⟩
    · simp [hp] at h
    · simp only [hp] at h
      rcases ha : placeAll s1 fs with _ | ⟨fs1, s2⟩
      · simp [ha] at h
      · simp only [ha] at h
        cases h
        simp only [fragmentsCollect, placeFragment_collect g hp, ih _ _ _ ha]

theorem adjustStaticPositions_collect (fs : List Fragment) (rank : Nat) : ∀ (as as' : Absolutes),
    adjustStaticPositions as fs rank = some as' → (∀ f, pendingCollect (β := β) f as' = pendingCollect f as) ∧ (as = [] → as' = []) := by
  intro as
  induction as with
  | nil =>
    intro as' h
    simp only [adjustStaticPositions] at h
    cases h
    exact ⟨fun _ => rfl, id⟩
  | cons a as ih =>
    intro as' h
    simp only [adjustStaticPositions] at h
    repeat' split at h
    all_goals first
      | cases h; done
      | skip
    rename_i as1 h1
    cases h
    obtain ⟨h2, -⟩ := ih _ h1
    refine ⟨fun f => ?_, by simp⟩
    have h2 := h2 f
    simp only [pendingCollect, List.flatMap_cons] at h2 ⊢
    rw [h2]

theorem seqChildren_collect {l : Nat → BlockLevelBox → Option (Fragment × Absolutes)}
    (hl : ∀ rank b f as, l rank b = some (f, as) →
      ∃ extra, Covers g (b.Only NoAbsolutes) (b.collect (ofAll g)) (b.collect (ofInline g)) (f.collect g) as extra) :
    ∀ (bs : List BlockLevelBox) (rank : Nat) (fs : List Fragment) (as : Absolutes), seqChildren l rank bs = some (fs, as) →
      ∃ extra, Covers g (blocksOnly NoAbsolutes bs) (blocksCollect (ofAll g) bs) (blocksCollect (ofInline g) bs) (fragmentsCollect g fs) as
        extra := by
  intro bs
  induction bs with
  | nil =>
    intro rank fs as h
    simp only [seqChildren] at h
    cases h
    exact ⟨[], .nil _⟩
  | cons b bs ih =>
    intro rank fs as h
    simp only [seqChildren] at h
    rcases h1 : l rank b with _ | ⟨f, as1⟩
    · simp [h1] at h
    · rcases h2 : seqChildren l (rank + 1) bs with _ | ⟨fs', as2⟩
      · simp [h1, h2] at h
      · simp only [h1, h2] at h
        cases h
        obtain ⟨e1, s1⟩ := hl _ _ _ _ h1
        obtain ⟨e2, s2⟩ := ih _ _ _ h2
        exact ⟨_, s1.append s2⟩

theorem canonicalChildren_collect {l : Nat → BlockLevelBox → Option (Fragment × Absolutes)}
    (hl : ∀ rank b f as, l rank b = some (f, as) →
      ∃ extra, Covers g (b.Only NoAbsolutes) (b.collect (ofAll g)) (b.collect (ofInline g)) (f.collect g) as extra)
    (boxes : List BlockLevelBox) (rank : Nat) (coll : Bool) (fc : FlowChildren) (as : Absolutes)
    (h : canonicalChildren l boxes rank coll = some (fc, as)) :
    ∃ extra, Covers g (blocksOnly NoAbsolutes boxes) (blocksCollect (ofAll g) boxes) (blocksCollect (ofInline g) boxes)
      (fragmentsCollect g fc.fragments) as extra := by
  simp only [canonicalChildren] at h
  rcases h1 : seqChildren l 0 boxes with _ | ⟨fs, as1⟩
  · simp [h1] at h
  · simp only [h1] at h
    rcases h2 : placeAll (.initial coll) fs with _ | ⟨fs', s⟩
    · simp [h2] at h
    · simp only [h2, finishChildren, List.drop_zero] at h
      rcases h3 : adjustStaticPositions as1 fs' rank with _ | as2
      · simp [h3] at h
      · simp only [h3, List.take_zero, List.nil_append] at h
        cases h
        obtain ⟨extra, c⟩ := seqChildren_collect g hl _ _ _ _ h1
        obtain ⟨e', n'⟩ := adjustStaticPositions_collect (β := β) _ _ _ _ h3
        refine ⟨extra, c.extra, ?_, ?_, fun h => ⟨n' (c.order h).1, ?_⟩⟩
        · rw [e']; exact c.pending
        · rw [e', placeAll_collect g _ _ _ _ h2]; exact c.count
        · rw [placeAll_collect g _ _ _ _ h2]; exact (c.order h).2

/-- An absolutely positioned box is in its fragment, with all in it. -/
def CoversAbsolute (a : AbsolutelyPositionedFragment) (f : Fragment) : Prop :=
  ∃ extra : List β, (∀ x ∈ extra, x ∈ a.box.contents.contents.collect (ofInline g)) ∧
    ∀ p : β → Bool, (f.collect g).countP p =
      (g a.box.style).countP p + (a.box.contents.contents.collect (ofAll g)).countP p + extra.countP p

theorem layoutAll_collect {la : Nat → AbsolutelyPositionedFragment → Option Fragment} :
    ∀ (as : Absolutes) (k : Nat) (fs : List Fragment), (∀ k a f, la k a = some f → CoversAbsolute g a f) → layoutAll la k as = some fs →
      ∃ extra : List β, (∀ x ∈ extra, x ∈ pendingCollect (ofInline g) as) ∧
        ∀ p : β → Bool, (fragmentsCollect g fs).countP p = (pendingCollect (ofAll g) as).countP p + extra.countP p := by
  intro as
  induction as with
  | nil =>
    intro k fs _ h
    simp only [layoutAll] at h
    cases h
    exact ⟨[], by simp, by simp [pendingCollect, fragmentsCollect]⟩
  | cons a as ih =>
    intro k fs hla h
    simp only [layoutAll] at h
    rcases h1 : la k a with _ | f
    · simp [h1] at h
    · rcases h2 : layoutAll la (k + 1) as with _ | fs'
      · simp [h1, h2] at h
      · simp only [h1, h2] at h
        cases h
        obtain ⟨e1, x1, c1⟩ := hla _ _ _ h1
        obtain ⟨e2, x2, c2⟩ := ih _ _ hla h2
        refine ⟨e1 ++ e2, fun x hx => ?_, fun p => ?_⟩
        · simp only [pendingCollect, List.flatMap_cons, List.mem_append]
          rcases List.mem_append.1 hx with hx | hx
          · exact .inl (.inr (x1 x hx))
          · exact .inr (x2 x hx)
        · have h1 := c1 p
          have h2 := c2 p
          simp only [pendingCollect, List.flatMap_cons, fragmentsCollect, List.countP_append, ofAll] at h1 h2 ⊢
          omega

theorem inPositioned_collect {la : DefiniteContainingBlock → Nat → AbsolutelyPositionedFragment → Option Fragment}
    {as : Absolutes} {fs fs' : List Fragment} {size : Vec2 Rat} {padding : Sides Rat} {mode : Mode} {o : Prop}
    {boxes inline extra : List β}
    (hla : ∀ (cb : DefiniteContainingBlock) k a f, la cb k a = some f → CoversAbsolute g a f)
    (hs : Covers g o boxes inline (fragmentsCollect g fs) as extra)
    (h : inPositionedContainingBlock la as fs size padding mode = some fs') :
    ∃ extra', Covers g o boxes inline (fragmentsCollect g fs') [] extra' := by
  cases as with
  | nil =>
    simp only [inPositionedContainingBlock] at h
    cases h
    exact ⟨_, hs⟩
  | cons a as =>
    simp only [inPositionedContainingBlock] at h
    split at h
    · cases h
    · rename_i children h1
      cases h
      obtain ⟨e, x, c⟩ := layoutAll_collect g _ _ _ (fun k a f hf => hla _ k a f hf) h1
      refine ⟨extra ++ e, fun y hy => ?_, by simp [pendingCollect], fun p => ?_, fun h => absurd (hs.order h).1 (by simp)⟩
      · rcases List.mem_append.1 hy with hy | hy
        · exact hs.extra y hy
        · exact hs.pending y (x y hy)
      · have h1 := hs.count p
        have h2 := c p
        rw [fragmentsCollect_append]
        simp only [fragmentsCollect, Fragment.collect, List.append_nil, List.countP_append, pendingCollect, List.flatMap_nil,
          List.countP_nil] at h1 h2 ⊢
        omega

theorem Covers.box {o : Prop} {boxes inline frags extra : List β} {as : Absolutes} (style : ComputedValues)
    (h : Covers g o boxes inline frags as extra) : Covers g o (g style ++ boxes) inline (g style ++ frags) as extra := by
  refine ⟨h.extra, h.pending, fun p => ?_, fun ho => ⟨(h.order ho).1, fun hi => by rw [(h.order ho).2 hi]⟩⟩
  have := h.count p
  simp only [List.countP_append]
  omega

theorem layoutInFlow_collect {cb : ContainingBlock} {style : ComputedValues} {kind : BlockLevelKind}
    {lc : ContainingBlock → Absolutes → Bool → Option (FlowChildren × Absolutes)}
    {la : DefiniteContainingBlock → Nat → AbsolutelyPositionedFragment → Option Fragment} {o : Prop} {boxes inline : List β}
    {f : Fragment} {as : Absolutes}
    (hlc : ∀ (cb : ContainingBlock) coll fc as, lc cb [] coll = some (fc, as) →
      ∃ extra, Covers g o boxes inline (fragmentsCollect g fc.fragments) as extra)
    (hla : ∀ (cb : DefiniteContainingBlock) k a f, la cb k a = some f → CoversAbsolute g a f)
    (h : layoutInFlow cb [] style kind lc la = some (f, as)) :
    ∃ extra, Covers g o (g style ++ boxes) inline (f.collect g) as extra := by
  simp only [layoutInFlow, ite_self] at h
  split at h
  · cases h
  · split at h
    · cases h
    · rename_i children as1 hl
      obtain ⟨extra, s⟩ := hlc _ _ _ _ hl
      split at h
      · split at h
        · cases h
        · rename_i fs hp
          cases h
          obtain ⟨extra', s'⟩ := inPositioned_collect g hla s hp
          exact ⟨extra', s'.box g style⟩
      · cases h
        exact ⟨extra, s.box g style⟩

theorem layout_collect : ∀ (fuel : Nat),
    (∀ c cb rank collapsible fc as, layoutContainer F fuel inOrder c cb rank [] false collapsible = some (fc, as) →
      ∃ extra, Covers g (c.Only NoAbsolutes) (c.collect (ofAll g)) (c.collect (ofInline g)) (fragmentsCollect g fc.fragments) as extra) ∧
    (∀ b cb rank f as, layoutBox F fuel inOrder b cb rank [] false = some (f, as) →
      ∃ extra, Covers g (b.Only NoAbsolutes) (b.collect (ofAll g)) (b.collect (ofInline g)) (f.collect g) as extra) ∧
    (∀ (cb : DefiniteContainingBlock) a f, layoutAbsolute F fuel inOrder cb a = some f → CoversAbsolute g a f) := by
  intro fuel
  induction fuel with
  | zero =>
    refine ⟨?_, ?_, ?_⟩
    · intro c cb rank coll fc as h
      simp [layoutContainer] at h
    · intro b cb rank f as h
      simp [layoutBox] at h
    · intro cb a f h
      simp [layoutAbsolute] at h
  | succ fuel ih =>
    obtain ⟨ih1, ih2, ih3⟩ := ih
    have hp := layout_prepend F fuel
    have hmap (c : BlockContainer) (cb : ContainingBlock) (rank : Nat) (s : Oracle) (floats coll : Bool) (fc : FlowChildren) (as : Absolutes)
        (h : mapFst FlowChildren.finishBlockFormattingContext (layoutContainer F fuel s c cb rank [] floats coll) = some (fc, as)) :
        ∃ extra, Covers g (c.Only NoAbsolutes) (c.collect (ofAll g)) (c.collect (ofInline g)) (fragmentsCollect g fc.fragments) as extra := by
      rw [hp.1 s, prepend_nil] at h
      rcases h1 : layoutContainer F fuel inOrder c cb rank [] false coll with _ | ⟨fc1, as1⟩
      · simp [h1, mapFst] at h
      · rw [h1] at h
        simp only [mapFst] at h
        cases h
        exact ih1 c cb rank coll fc1 _ h1
    refine ⟨?_, ?_, ?_⟩
    · intro c cb rank coll fc as h
      cases c with
      | inlineFormattingContext boxes =>
        simp only [layoutContainer] at h
        exact layoutInline_collect g boxes cb rank fc as h
      | blockLevelBoxes boxes =>
        simp only [layoutContainer] at h
        rw [layoutChildren_eq (g := fun rank b => layoutBox F fuel inOrder b cb rank [] false)
          (fun rank b absolute => hp.2.1 _ b cb rank absolute false), prepend_nil] at h
        exact canonicalChildren_collect g (fun rank b f as hf => ih2 b cb rank f as hf) boxes rank coll fc as h
    · intro b cb rank f as h
      cases b with
      | sameFormattingContextBlock style contents =>
        simp only [layoutBox] at h
        exact layoutInFlow_collect g (fun cb coll fc as hl => ih1 contents cb rank coll fc as
          (by rw [hp.1 (inOrder.sub 0), prepend_nil] at hl; exact hl))
          (fun cb k a f hl => ih3 cb a f (by rw [hp.2.2] at hl; exact hl)) h
      | independent style floats contents =>
        simp only [layoutBox] at h
        exact layoutInFlow_collect g (fun cb coll fc as hl => hmap contents cb rank _ _ _ fc as hl)
          (fun cb k a f hl => ih3 cb a f (by rw [hp.2.2] at hl; exact hl)) h
      | outOfFlowAbsolutelyPositioned style floats contents =>
        simp only [layoutBox, List.nil_append] at h
        cases h
        refine ⟨[], by simp, fun x hx => ?_, fun p => ?_, fun h => absurd rfl h.1⟩
        · simpa [pendingCollect, AbsolutelyPositionedBox.layout, BlockLevelBox.collect] using hx
        · simp [pendingCollect, AbsolutelyPositionedBox.layout, BlockLevelBox.collect, Fragment.noOp, Fragment.collect, fragmentsCollect]
      | outOfFlowFloat style floats contents =>
        simp only [layoutBox] at h
        cases h
        exact ⟨[], .nil _⟩
    · intro cb a f h
      simp only [layoutAbsolute] at h
      split at h
      · cases h
      · split at h
        · cases h
        · rename_i fc as hl
          obtain ⟨extra, s⟩ := hmap _ _ _ _ _ _ _ _ hl
          split at h
          · cases h
          · rename_i fs hpos
            cases h
            obtain ⟨extra', s'⟩ := inPositioned_collect g
              (fun cb k a f hl => ih3 cb a f (by rw [hp.2.2] at hl; exact hl)) s hpos
            refine ⟨extra', s'.extra, fun p => ?_⟩
            have := s'.count p
            simp only [pendingCollect, List.flatMap_nil, List.countP_nil, Fragment.collect, List.countP_append] at this ⊢
            omega

theorem layoutRoot_collect {fuel : Nat} {s : Oracle} {root : BlockFormattingContext} {viewport : Vec2 Rat} {fragments : List Fragment}
    (h : layoutRoot F fuel s root viewport = some fragments) :
    ∃ extra, Covers g (root.contents.Only NoAbsolutes) (root.contents.collect (ofAll g)) (root.contents.collect (ofInline g))
      (fragmentsCollect g fragments) [] extra := by
  simp only [layoutRoot, BlockFormattingContext.layout] at h
  rw [(layout_prepend F fuel).1 (s.sub 0), prepend_nil] at h
  rcases h1 : layoutContainer F fuel inOrder root.contents ⟨viewport.inline, .length viewport.block, (.horizontalTb, .ltr)⟩ 0 [] false
    false with _ | ⟨fc, as⟩
  · simp [h1, mapFst] at h
  · simp only [h1, mapFst] at h
    obtain ⟨extra, c⟩ := (layout_collect (F := F) g fuel).1 _ _ _ _ _ _ h1
    split at h
    · cases h
    · rename_i fs hl
      cases h
      obtain ⟨e, x, c2⟩ := layoutAll_collect g _ _ _ (fun k a f hf => (layout_collect (F := F) g fuel).2.2 _ _ _
        (by rw [(layout_prepend F fuel).2.2] at hf; exact hf)) hl
      have hfc : fc.finishBlockFormattingContext.fragments = fc.fragments := rfl
      refine ⟨extra ++ e, fun y hy => ?_, by simp [pendingCollect], fun p => ?_, fun ho => ⟨rfl, fun hi => ?_⟩⟩
      · rcases List.mem_append.1 hy with hy | hy
        · exact c.extra y hy
        · exact c.pending y (x y hy)
      · have h1 := c.count p
        have h2 := c2 p
        rw [fragmentsCollect_append, hfc]
        simp only [List.countP_append, pendingCollect, List.flatMap_nil, List.countP_nil] at h1 h2 ⊢
        omega
      · obtain ⟨rfl, h2⟩ := c.order ho
        simp only [layoutAll] at hl
        cases hl
        rw [List.append_nil, hfc]
        exact h2 hi

end Verif.Layout
