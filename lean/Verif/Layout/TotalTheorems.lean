/- C58: layout terminates without a panic. -/
import Verif.Layout.TotalLemmas
import Verif.Layout.SizeTheorems
namespace Verif.Layout
open Verif.Style Verif.Text
variable {Err : Type} {F : FontApi Rat Err}

/-- `r'` is `r` if `r` is a result. -/
def Refines {α : Type} (r r' : Option α) : Prop := ∀ x, r = some x → r' = some x

theorem Refines.refl {α : Type} (r : Option α) : Refines r r := fun _ h => h

theorem seqChildren_refines {g g' : Nat → BlockLevelBox → Option (Fragment × Absolutes)} (h : ∀ rank b, Refines (g rank b) (g' rank b)) :
    ∀ (bs : List BlockLevelBox) (rank : Nat), Refines (seqChildren g rank bs) (seqChildren g' rank bs) := by
  intro bs
  induction bs with
  | nil => intro rank; exact Refines.refl _
  | cons b bs ih =>
    intro rank x hx
    simp only [seqChildren] at hx ⊢
    rcases h1 : g rank b with _ | ⟨f, as⟩
    · simp [h1] at hx
    · rcases h2 : seqChildren g (rank + 1) bs with _ | ⟨fs, as'⟩
      · simp [h1, h2] at hx
      · rw [h rank b _ h1, ih (rank + 1) _ h2]
        simpa [h1, h2] using hx

theorem canonicalChildren_refines {g g' : Nat → BlockLevelBox → Option (Fragment × Absolutes)}
    (h : ∀ rank b, Refines (g rank b) (g' rank b)) (bs : List BlockLevelBox) (rank : Nat) (coll : Bool) :
    Refines (canonicalChildren g bs rank coll) (canonicalChildren g' bs rank coll) := by
  intro x hx
  simp only [canonicalChildren] at hx ⊢
  rcases h1 : seqChildren g 0 bs with _ | ⟨fs, as⟩
  · simp [h1] at hx
  · rw [seqChildren_refines h bs 0 _ h1]
    simpa [h1] using hx

theorem layoutAll_refines {la la' : Nat → AbsolutelyPositionedFragment → Option Fragment}
    (h : ∀ k a, Refines (la k a) (la' k a)) : ∀ (as : Absolutes) (k : Nat), Refines (layoutAll la k as) (layoutAll la' k as) := by
  intro as
  induction as with
  | nil => intro k; exact Refines.refl _
  | cons a as ih =>
    intro k x hx
    simp only [layoutAll] at hx ⊢
    rcases h1 : la k a with _ | f
    · simp [h1] at hx
    · rcases h2 : layoutAll la (k + 1) as with _ | fs
      · simp [h1, h2] at hx
      · rw [h k a _ h1, ih (k + 1) _ h2]
        simpa [h1, h2] using hx

theorem inPositioned_refines {la la' : DefiniteContainingBlock → Nat → AbsolutelyPositionedFragment → Option Fragment}
    (h : ∀ cb k a, Refines (la cb k a) (la' cb k a)) (as : Absolutes) (fs : List Fragment) (size : Vec2 Rat) (padding : Sides Rat)
    (mode : Mode) :
    Refines (inPositionedContainingBlock la as fs size padding mode) (inPositionedContainingBlock la' as fs size padding mode) := by
  intro x hx
  cases as with
  | nil => exact hx
  | cons a as =>
    simp only [inPositionedContainingBlock] at hx ⊢
    split at hx
    · cases hx
    · rename_i children hc
      rw [layoutAll_refines (h _) _ _ _ hc]
      exact hx

theorem layoutInFlow_refines (cb : ContainingBlock) (absolute : Absolutes) (style : ComputedValues) (kind : BlockLevelKind)
    {lc lc' : ContainingBlock → Absolutes → Bool → Option (FlowChildren × Absolutes)}
    {la la' : DefiniteContainingBlock → Nat → AbsolutelyPositionedFragment → Option Fragment}
    (hlc : ∀ cb as coll, Refines (lc cb as coll) (lc' cb as coll)) (hla : ∀ cb k a, Refines (la cb k a) (la' cb k a)) :
    Refines (layoutInFlow cb absolute style kind lc la) (layoutInFlow cb absolute style kind lc' la') := by
  intro x hx
  simp only [layoutInFlow] at hx ⊢
  split at hx
  · cases hx
  · split at hx
    · cases hx
    · rename_i hc
      rw [if_neg (by assumption), hlc _ _ _ _ hc]
      dsimp only
      split at hx
      · rw [if_pos (by assumption)]
        split at hx
        · cases hx
        · rename_i hi
          rw [inPositioned_refines hla _ _ _ _ _ _ hi]
          exact hx
      · rw [if_neg (by assumption)]
        exact hx

theorem mapFst_refines {α β γ : Type} (f : α → γ) {r r' : Option (α × β)} (h : Refines r r') :
    Refines (mapFst f r) (mapFst f r') := by
  intro x hx
  rcases hr : r with _ | ⟨a, b⟩
  · simp [hr, mapFst] at hx
  · rw [h _ hr]
    simpa [hr] using hx

theorem layout_refines : ∀ (fuel : Nat),
    (∀ c cb rank coll, Refines (layoutContainer F fuel inOrder c cb rank [] false coll)
      (layoutContainer F (fuel + 1) inOrder c cb rank [] false coll)) ∧
    (∀ b cb rank, Refines (layoutBox F fuel inOrder b cb rank [] false) (layoutBox F (fuel + 1) inOrder b cb rank [] false)) ∧
    (∀ cb a, Refines (layoutAbsolute F fuel inOrder cb a) (layoutAbsolute F (fuel + 1) inOrder cb a)) := by
  intro fuel
  induction fuel with
  | zero =>
    refine ⟨?_, ?_, ?_⟩
    · intro c cb rank coll x hx; simp [layoutContainer] at hx
    · intro b cb rank x hx; simp [layoutBox] at hx
    · intro cb a x hx; simp [layoutAbsolute] at hx
  | succ fuel ih =>
    obtain ⟨ih1, ih2, ih3⟩ := ih
    have hp := layout_prepend F fuel
    have hq := layout_prepend F (fuel + 1)
    have hc (s : Oracle) (c : BlockContainer) cb rank as floats coll :
        Refines (layoutContainer F fuel s c cb rank as floats coll) (layoutContainer F (fuel + 1) s c cb rank as floats coll) := by
      intro x hx
      rw [hp.1] at hx
      rw [hq.1]
      rcases h1 : layoutContainer F fuel inOrder c cb rank [] false coll with _ | ⟨fc, new⟩
      · simp [h1] at hx
      · rw [ih1 _ _ _ _ _ h1, ← hx, h1]
    have ha (s : Oracle) cb a : Refines (layoutAbsolute F fuel s cb a) (layoutAbsolute F (fuel + 1) s cb a) := by
      rw [hp.2.2, hq.2.2]; exact ih3 cb a
    refine ⟨?_, ?_, ?_⟩
    · intro c cb rank coll
      cases c with
      | inlineFormattingContext boxes => exact Refines.refl _
      | blockLevelBoxes boxes =>
        rw [layoutContainer, layoutContainer]
        rw [layoutChildren_eq (g := fun rank b => layoutBox F fuel inOrder b cb rank [] false)
            (fun rank b absolute => hp.2.1 _ b cb rank absolute false),
          layoutChildren_eq (g := fun rank b => layoutBox F (fuel + 1) inOrder b cb rank [] false)
            (fun rank b absolute => hq.2.1 _ b cb rank absolute false), prepend_nil, prepend_nil]
        exact canonicalChildren_refines (fun rank b => ih2 b cb rank) _ _ _
    · intro b cb rank
      cases b with
      | sameFormattingContextBlock style contents =>
        rw [layoutBox, layoutBox]
        exact layoutInFlow_refines _ _ _ _ (fun cb as coll => hc _ _ _ _ _ _ _) (fun cb k a => ha _ _ _)
      | independent style floats contents =>
        rw [layoutBox, layoutBox]
        exact layoutInFlow_refines _ _ _ _ (fun cb as coll => mapFst_refines _ (hc _ _ _ _ _ _ _)) (fun cb k a => ha _ _ _)
      | outOfFlowAbsolutelyPositioned style floats contents => exact Refines.refl _
      | outOfFlowFloat style floats contents => exact Refines.refl _
    · intro cb a x hx
      rw [layoutAbsolute] at hx ⊢
      dsimp only at hx ⊢
      split at hx
      · cases hx
      · rw [if_neg (by assumption)]
        split at hx
        · cases hx
        · rename_i hm
          rw [mapFst_refines _ (hc _ _ _ _ _ _ _) _ hm]
          dsimp only
          split at hx
          · cases hx
          · rename_i hi
            rw [inPositioned_refines (fun cb k a => ha _ _ _) _ _ _ _ _ _ hi]
            exact hx

/-- Layout of any document whose boxes satisfy `Wf`, for any size of the viewport and any division of the work between
threads, ends without a panic: the recursion is never deeper than the box tree. -/
theorem C58_total (root : BlockFormattingContext) (hwf : root.contents.Wf F) (fuel : Nat) (hfuel : root.contents.depth ≤ fuel)
    (s : Oracle) (viewport : Vec2 Rat) : ∃ fragments, layoutRoot F fuel s root viewport = some fragments := by
  obtain ⟨fc, as, h1, h2⟩ := (layout_total (F := F) fuel).1 root.contents
    ⟨viewport.inline, .length viewport.block, (.horizontalTb, .ltr)⟩ 0 false hwf hfuel rfl
  have hp := layout_prepend F fuel
  simp only [layoutRoot, BlockFormattingContext.layout]
  rw [hp.1, h1]
  simp only [prepend_some, mapFst, List.nil_append]
  obtain ⟨fs, hfs⟩ := layoutAll_some
    (la := fun k a => layoutAbsolute F fuel (s.sub (k + 1)) ⟨viewport, (.horizontalTb, .ltr)⟩ a) as 0 (by
      intro k a ha
      simp only [hp.2.2]
      exact (layout_total (F := F) fuel).2.2 _ _ 0 a rfl (h2 a ha) (by omega))
  rw [hfs]
  exact ⟨_, rfl⟩

/-- More fuel gives the same result, so the fuel is not a part of what layout computes. -/
theorem C58_fuel (root : BlockFormattingContext) (fuel extra : Nat) (s s' : Oracle) (viewport : Vec2 Rat) (fragments : List Fragment)
    (h : layoutRoot F fuel s root viewport = some fragments) : layoutRoot F (fuel + extra) s' root viewport = some fragments := by
  rw [C38_schedules F (fuel + extra) s' s]
  induction extra with
  | zero => exact h
  | succ extra ih =>
    generalize hn : fuel + extra = n at ih
    have : fuel + (extra + 1) = n + 1 := by omega
    rw [this]
    have hr := layout_refines (F := F) n
    have hp := layout_prepend F n
    have hq := layout_prepend F (n + 1)
    simp only [layoutRoot, BlockFormattingContext.layout] at ih ⊢
    rw [hp.1] at ih
    rw [hq.1]
    rcases h1 : layoutContainer F n inOrder root.contents ⟨viewport.inline, .length viewport.block, (.horizontalTb, .ltr)⟩ 0 []
      false false with _ | ⟨fc, as⟩
    · simp [h1, mapFst] at ih
    · rw [hr.1 _ _ _ _ _ h1]
      simp only [h1, prepend_some, mapFst, List.nil_append] at ih ⊢
      split at ih
      · cases ih
      · rename_i hl
        rw [layoutAll_refines (fun k a => by rw [hp.2.2, hq.2.2]; exact hr.2.2 _ _) _ _ _ hl]
        exact ih

/-- Every absolutely positioned fragment that the layout of contents leaves for the containing block is as C40 assumes: an
absolutely positioned box at some static position. -/
theorem C40_reachable (c : BlockContainer) (hwf : c.Wf F) (fuel : Nat) (hfuel : c.depth ≤ fuel) (s : Oracle) (cb : ContainingBlock)
    (hcb : cb.mode = (.horizontalTb, .ltr)) (rank : Nat) (floats collapsible : Bool) (fc : FlowChildren) (as : Absolutes)
    (h : layoutContainer F fuel s c cb rank [] floats collapsible = some (fc, as)) :
    ∀ a ∈ as, ∃ (b : AbsolutelyPositionedBox) (corner : Vec2 Rat), a = b.layout corner rank := by
  obtain ⟨fc', as', h1, h2⟩ := (layout_total (F := F) fuel).1 c cb rank collapsible hwf hfuel hcb
  rw [(layout_prepend F fuel).1, h1] at h
  simp only [prepend_some, List.nil_append, Option.some.injEq, Prod.mk.injEq] at h
  intro a ha
  rw [← h.2] at ha
  exact ⟨a.box, (h2 a ha).shape⟩

/-- The tree of the examples satisfies the hypotheses. -/
example : (BlockContainer.blockLevelBoxes exampleBoxes).Wf exampleFont ∧ (BlockContainer.blockLevelBoxes exampleBoxes).depth = 5 := by
  refine ⟨?_, by decide +kernel⟩
  simp [exampleBoxes, BlockContainer.Wf, blocksWf, BlockLevelBox.Wf]

end Verif.Layout
