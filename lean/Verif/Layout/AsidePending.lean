/- What is left to be positioned when boxes have been laid out comes from the absolutely positioned boxes among them. -/
import Verif.Layout.WrapSim
namespace Verif.Layout
open Verif.Style Verif.Text

variable {Err : Type} {F : FontApi Rat Err}

mutual
/-- `Q` holds of every absolutely positioned box that is not inside of another one, nor in a float. -/
def InlineLevelBox.Asides (Q : AbsolutelyPositionedBox → Prop) : InlineLevelBox → Prop
  | .inlineBox _ _ _ children => inlinesAsides Q children
  | .textRun _ _ => True
  | .outOfFlowAbsolutelyPositioned style floats contents => Q ⟨style, ⟨contents, floats⟩⟩
  | .outOfFlowFloat _ _ _ => True
/-- See `InlineLevelBox.Asides`. -/
def inlinesAsides (Q : AbsolutelyPositionedBox → Prop) : List InlineLevelBox → Prop
  | [] => True
  | x :: xs => x.Asides Q ∧ inlinesAsides Q xs
end

mutual
/-- See `InlineLevelBox.Asides`. -/
def BlockContainer.Asides (Q : AbsolutelyPositionedBox → Prop) : BlockContainer → Prop
  | .blockLevelBoxes bs => blocksAsides Q bs
  | .inlineFormattingContext xs => inlinesAsides Q xs
/-- See `InlineLevelBox.Asides`. -/
def BlockLevelBox.Asides (Q : AbsolutelyPositionedBox → Prop) : BlockLevelBox → Prop
  | .sameFormattingContextBlock _ c => c.Asides Q
  | .independent _ _ c => c.Asides Q
  | .outOfFlowFloat _ _ _ => True
  | .outOfFlowAbsolutelyPositioned style floats contents => Q ⟨style, ⟨contents, floats⟩⟩
/-- See `InlineLevelBox.Asides`. -/
def blocksAsides (Q : AbsolutelyPositionedBox → Prop) : List BlockLevelBox → Prop
  | [] => True
  | b :: bs => b.Asides Q ∧ blocksAsides Q bs
end

variable {Q : AbsolutelyPositionedBox → Prop}

theorem blocksAsides_mem {bs : List BlockLevelBox} (h : blocksAsides Q bs) : ∀ b ∈ bs, b.Asides Q := by
  induction bs with
  | nil => simp
  | cons b bs ih =>
    intro x hx
    rcases List.mem_cons.1 hx with rfl | hx
    · exact h.1
    · exact ih h.2 x hx

/-- What is left to be positioned of the box satisfies `R`, wherever the box is. -/
def Makes (R : AbsolutelyPositionedFragment → Prop) (box : AbsolutelyPositionedBox) : Prop := ∀ corner rank, R (box.layout corner rank)

/-- `R` stays true when the static position is moved. -/
def Carried (R : AbsolutelyPositionedFragment → Prop) : Prop := ∀ (a : AbsolutelyPositionedFragment) (rank : Nat) (i b : Rat), R a →
  R { a with treeRank := rank, inlineStart := a.inlineStart.moveStatic i, blockStart := a.blockStart.moveStatic b }

variable {R : AbsolutelyPositionedFragment → Prop}

theorem inlineLoop_made (cb : ContainingBlock) (rank : Nat) :
    ∀ (fuel : Nat) (ifc : InlineState) (as0 : Absolutes) (fc : FlowChildren) (as : Absolutes), inlineLoop F cb rank fuel ifc as0 = some (fc, as) →
      (∀ bs ∈ ifc.allRemaining, inlinesAsides (Makes R) bs) → (∀ a ∈ as0, R a) → ∀ a ∈ as, R a := by
  intro fuel
  induction fuel with
  | zero => intro ifc as0 fc as h; simp [inlineLoop] at h
  | succ fuel ih =>
    intro ifc as0 fc as h hr0 has
    simp only [inlineLoop, inlineStep] at h
    rcases hr : ifc.current.remainingBoxes with _ | ⟨child, remaining⟩
    · simp only [hr] at h
      rcases hst : ifc.stack with _ | ⟨q, stack⟩
      · simp only [hst, Option.some.injEq, Prod.mk.injEq] at h
        obtain ⟨-, rfl⟩ := h
        exact has
      · simp only [hst] at h
        refine ih _ _ fc as h (fun bs hbs => hr0 bs ?_) has
        simp only [InlineState.allRemaining, hst, List.map_cons, PartialInlineBox.finish] at hbs ⊢
        exact List.mem_cons_of_mem _ hbs
    · simp only [hr] at h
      have h1 := hr0 (child :: remaining) (by simp [InlineState.allRemaining, hr])
      have h2 : ∀ bs ∈ remaining :: ifc.stack.map PartialInlineBox.remaining, inlinesAsides (Makes R) bs := by
        intro bs hbs
        rcases List.mem_cons.1 hbs with rfl | hbs
        · exact h1.2
        · exact hr0 bs (by simp only [InlineState.allRemaining]; exact List.mem_cons_of_mem _ hbs)
      cases child with
      | inlineBox style first last children =>
        simp only at h
        refine ih _ _ fc as h (fun bs hbs => ?_) has
        simp only [startInlineBox, InlineState.allRemaining, List.map_cons] at hbs
        rcases List.mem_cons.1 hbs with rfl | hbs
        · exact h1.1
        · exact h2 bs hbs
      | textRun style text =>
        simp only at h
        rcases ht : layoutTextRun F cb style text { ifc with current := { ifc.current with remainingBoxes := remaining } } with _ | ifc1
        · simp [ht] at h
        · simp only [ht] at h
          have r1 := textLines_remaining _ _ _ _ ht
          exact ih _ _ fc as h (by rw [r1]; exact h2) has
      | outOfFlowAbsolutelyPositioned style floats contents =>
        simp only at h
        rcases hi : staticInlineStart style ifc.inlinePosition with _ | i
        · simp [hi] at h
        · simp only [hi] at h
          refine ih _ _ fc as h h2 (fun a ha => ?_)
          rcases List.mem_append.1 ha with ha | ha
          · exact has a ha
          · simp only [List.mem_singleton] at ha
            subst ha
            exact h1.1 _ _
      | outOfFlowFloat style floats contents =>
        simp only at h
        exact ih _ _ fc as h h2 has

theorem adjustStaticPositions_made (hR : Carried R) {fs : List Fragment} {rank : Nat} : ∀ {as as' : Absolutes}, adjustStaticPositions as fs rank = some as' →
    (∀ a ∈ as, R a) → ∀ a ∈ as', R a := by
  intro as
  induction as with
  | nil => intro as' h _; cases h; simp
  | cons a as ih =>
    intro as' h ha
    simp only [adjustStaticPositions] at h
    split at h
    · cases h
    · split at h
      · cases h
      · split at h
        · cases h
        · rename_i h1
          cases h
          intro x hx
          rcases List.mem_cons.1 hx with rfl | hx
          · exact hR a _ _ _ (ha a List.mem_cons_self)
          · exact ih h1 (fun y hy => ha y (List.mem_cons_of_mem _ hy)) x hx

theorem seqChildren_made {g : Nat → BlockLevelBox → Option (Fragment × Absolutes)} : ∀ (bs : List BlockLevelBox) (rank : Nat) (fs : List Fragment)
    (as : Absolutes), (∀ b ∈ bs, ∀ rank f as, g rank b = some (f, as) → ∀ a ∈ as, R a) → seqChildren g rank bs = some (fs, as) →
    ∀ a ∈ as, R a := by
  intro bs
  induction bs with
  | nil => intro rank fs as _ h; simp only [seqChildren, Option.some.injEq, Prod.mk.injEq] at h; rw [← h.2]; simp
  | cons b bs ih =>
    intro rank fs as hg h
    simp only [seqChildren] at h
    rcases h1 : g rank b with _ | ⟨f, as1⟩
    · simp [h1] at h
    rcases h2 : seqChildren g (rank + 1) bs with _ | ⟨fs2, as2⟩
    · simp [h1, h2] at h
    simp only [h1, h2, Option.some.injEq, Prod.mk.injEq] at h
    rw [← h.2]
    intro a ha
    rcases List.mem_append.1 ha with ha | ha
    · exact hg b List.mem_cons_self _ _ _ h1 a ha
    · exact ih _ _ _ (fun b hb => hg b (List.mem_cons_of_mem _ hb)) h2 a ha

theorem layout_made (hR : Carried R) (F : FontApi Rat Err) : ∀ (fuel : Nat),
    (∀ c cb rank collapsible fc as, c.Asides (Makes R) → layoutContainer F fuel inOrder c cb rank [] false collapsible = some (fc, as) →
      ∀ a ∈ as, R a) ∧
    (∀ b cb rank f as, b.Asides (Makes R) → layoutBox F fuel inOrder b cb rank [] false = some (f, as) → ∀ a ∈ as, R a) := by
  intro fuel
  induction fuel with
  | zero => exact ⟨by intros; simp_all [layoutContainer], by intros; simp_all [layoutBox]⟩
  | succ fuel ih =>
    obtain ⟨ihc, ihb⟩ := ih
    have hp := layout_prepend F fuel
    refine ⟨?_, ?_⟩
    · intro c cb rank collapsible fc as hq h
      cases c with
      | blockLevelBoxes boxes =>
        simp only [layoutContainer] at h
        rw [layoutChildren_eq (g := fun rank b => layoutBox F fuel inOrder b cb rank [] false)
              (fun rank b absolute => hp.2.1 _ b cb rank absolute false), prepend_nil] at h
        obtain ⟨fs, as', s, hseq, -, -, -, hadj⟩ := canonicalChildren_some h
        exact adjustStaticPositions_made hR hadj
          (seqChildren_made _ _ _ _ (fun b hb rank f as hl => ihb b cb rank f as (blocksAsides_mem hq b hb) hl) hseq)
      | inlineFormattingContext boxes =>
        simp only [layoutContainer, layoutInline] at h
        refine inlineLoop_made cb rank _ _ _ _ _ h (fun bs hbs => ?_) (by simp)
        simp only [InlineState.allRemaining, initialInlineState, List.map_nil, List.mem_singleton] at hbs
        rw [hbs]
        exact hq
    · intro b cb rank f as hq h
      cases b with
      | sameFormattingContextBlock style contents =>
        simp only [layoutBox] at h
        obtain ⟨fc, as', info, children, h1, -, -, -, -, -, -, -, -, h10, -⟩ := layoutInFlow_some h
        rw [hp.1 (inOrder.sub 0), prepend_nil] at h1
        split at h10
        · rw [h10.1]; simp
        · rw [h10.1]; exact ihc _ _ _ _ _ _ hq h1
      | independent style floats contents =>
        simp only [layoutBox] at h
        obtain ⟨fc, as', info, children, h1, -, -, -, -, -, -, -, -, h10, -⟩ := layoutInFlow_some h
        rw [hp.1 (inOrder.sub 0), prepend_nil] at h1
        rcases h5 : layoutContainer F fuel inOrder contents (Css.inner cb style) rank [] false false with _ | ⟨fc1, as1⟩
        · simp [h5, mapFst] at h1
        · rw [h5] at h1
          simp only [mapFst, Option.some.injEq, Prod.mk.injEq] at h1
          obtain ⟨-, rfl⟩ := h1
          split at h10
          · rw [h10.1]; simp
          · rw [h10.1]; exact ihc _ _ _ _ _ _ hq h5
      | outOfFlowAbsolutelyPositioned style floats contents =>
        simp only [layoutBox, Option.some.injEq, Prod.mk.injEq, List.nil_append] at h
        rw [← h.2]
        intro a ha
        simp only [List.mem_singleton] at ha
        subst ha
        exact hq _ _
      | outOfFlowFloat style floats contents =>
        simp only [layoutBox, Option.some.injEq, Prod.mk.injEq] at h
        rw [← h.2]
        simp

theorem layout_asides (F : FontApi Rat Err) (fuel : Nat) :
    (∀ c cb rank collapsible fc as, c.Asides Q → layoutContainer F fuel inOrder c cb rank [] false collapsible = some (fc, as) →
      ∀ a ∈ as, Q a.box) ∧
    (∀ b cb rank f as, b.Asides Q → layoutBox F fuel inOrder b cb rank [] false = some (f, as) → ∀ a ∈ as, Q a.box) := by
  have e : Makes (fun a => Q a.box) = Q := funext fun box => propext ⟨fun h => h Vec2.zero 0, fun h _ _ => h⟩
  have h := layout_made (R := fun a => Q a.box) (fun _ _ _ _ h => h) F fuel
  rw [e] at h
  exact h

/-! ### Empty boxes -/

/-- An absolutely positioned box with nothing in it and nothing to be seen of it. -/
def HollowBox (box : AbsolutelyPositionedBox) : Prop := box.contents.contents = .blockLevelBoxes [] ∧ (backgroundOf box.style).alpha = 0

theorem layoutAbsolute_hollow {fuel : Nat} {s : Oracle} {cb : DefiniteContainingBlock} {a : AbsolutelyPositionedFragment} {f : Fragment}
    (hq : HollowBox a.box) (h : layoutAbsolute F fuel s cb a = some f) (asc : Rat) (o : Vec2 Rat) : f.ink asc o = [] := by
  cases fuel with
  | zero => simp [layoutAbsolute] at h
  | succ fuel =>
    simp only [layoutAbsolute] at h
    split at h
    · cases h
    · rw [hq.1, (layout_prepend F fuel).1, prepend_nil] at h
      split at h
      · cases h
      · rename_i children absolute h1
        split at h
        · cases h
        · rename_i fragments h2
          cases h
          have h3 : children.fragments = [] ∧ absolute = [] := by
            rcases h4 : layoutContainer F fuel inOrder (.blockLevelBoxes []) ⟨(absoluteSizes cb a).inlineSize, (absoluteSizes cb a).blockSize,
              writingMode a.box.style⟩ 0 [] false false with _ | ⟨fc, as⟩
            · rw [h4] at h1; simp [mapFst] at h1
            · rw [h4] at h1
              simp only [mapFst, Option.some.injEq, Prod.mk.injEq] at h1
              obtain ⟨rfl, rfl⟩ := h1
              cases fuel with
              | zero => simp [layoutContainer] at h4
              | succ fuel =>
                simp only [layoutContainer] at h4
                rw [layoutChildren_eq (g := fun rank b => layoutBox F fuel inOrder b _ rank [] false)
                  (fun rank b absolute => (layout_prepend F fuel).2.1 _ b _ rank absolute false), prepend_nil] at h4
                simp only [canonicalChildren, seqChildren, placeAll, finishChildren, List.drop_zero, List.take_zero, adjustStaticPositions,
                  Option.some.injEq, Prod.mk.injEq] at h4
                obtain ⟨rfl, rfl⟩ := h4
                exact ⟨rfl, rfl⟩
          rw [h3.1, h3.2] at h2
          simp only [inPositionedContainingBlock, Option.some.injEq] at h2
          subst h2
          simp only [Fragment.ink, inkOf, List.append_nil, BoxInfo.ink, Fragment.shape]
          simp [hq.2]

end Verif.Layout
