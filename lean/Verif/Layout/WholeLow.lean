/- C124: the fragments of a tree of blocks are not nested deeper than the blocks, and have their styles. -/
import Verif.Layout.WholePageSpec
import Verif.Layout.Machine
namespace Verif.Layout.Machine
open Verif.Style Verif.Text

variable {R : Type} [Numbers R] {Q : ComputedValues → Prop}

/-- The fragment has at most this depth, and the styles of its boxes have the property. -/
inductive Low (Q : ComputedValues → Prop) : Nat → Fragment R → Prop
  | box {n b c} : Q b.style → (∀ f ∈ c, Low Q n f) → Low Q (n + 1) (.box b c)
  | anonymous {n r m} : Low Q (n + 1) (.anonymous r [] m)

theorem Low.mono {n : Nat} {f : Fragment R} (h : Low Q n f) : ∀ {m : Nat}, n ≤ m → Low Q m f := by
  induction h with
  | box hq hc ih =>
    intro m hm
    obtain ⟨m, rfl⟩ : ∃ k, m = k + 1 := ⟨m - 1, by omega⟩
    exact .box hq fun f hf => ih f hf (by omega)
  | anonymous =>
    intro m hm
    obtain ⟨m, rfl⟩ : ∃ k, m = k + 1 := ⟨m - 1, by omega⟩
    exact .anonymous

theorem placeFragment_low {n : Nat} {s s' : PlacementState R} {f f' : Fragment R} (h : Low Q n f) (hp : placeFragment s f = some (f', s')) :
    Low Q n f' := by
  cases h with
  | box hq hc =>
    simp only [placeFragment] at hp
    repeat' split at hp
    all_goals first
      | cases hp; done
      | (simp only [Option.some.injEq, Prod.mk.injEq] at hp
         obtain ⟨rfl, -⟩ := hp
         exact .box hq hc)
  | anonymous =>
    simp only [placeFragment] at hp
    split at hp
    · simp only [Option.some.injEq, Prod.mk.injEq] at hp
      obtain ⟨rfl, -⟩ := hp
      exact .anonymous
    · cases hp

theorem placeAll_low {n : Nat} : ∀ {fs fs' : List (Fragment R)} {s s' : PlacementState R}, (∀ f ∈ fs, Low Q n f) →
    placeAll s fs = some (fs', s') → ∀ f ∈ fs', Low Q n f
  | [], fs', s, s', _, h => by
    simp only [placeAll, Option.some.injEq, Prod.mk.injEq] at h
    obtain ⟨rfl, -⟩ := h
    simp
  | f :: fs, fs', s, s', hl, h => by
    simp only [placeAll] at h
    rcases e1 : placeFragment s f with _ | ⟨g, s1⟩
    · rw [e1] at h; cases h
    simp only [e1] at h
    rcases e2 : placeAll s1 fs with _ | ⟨gs, s2⟩
    · rw [e2] at h; cases h
    simp only [e2, Option.some.injEq, Prod.mk.injEq] at h
    obtain ⟨rfl, -⟩ := h
    intro x hx
    rcases List.mem_cons.1 hx with rfl | hx
    · exact placeFragment_low (hl f List.mem_cons_self) e1
    · exact placeAll_low (fun f hf => hl f (List.mem_cons_of_mem _ hf)) e2 x hx

section
variable {n : Nat} {layoutChild : Nat → BlockLevelBox → Absolutes R → Option (Fragment R × Absolutes R)}

theorem layoutInOrder_low : ∀ {bs : List BlockLevelBox} {r : Nat} {s s' : PlacementState R} {fs : List (Fragment R)} {as : Absolutes R},
    (∀ b ∈ bs, ∀ r f as, layoutChild r b [] = some (f, as) → as = [] ∧ Low Q n f) →
    layoutInOrder layoutChild r bs [] s = some (fs, as, s') → as = [] ∧ ∀ f ∈ fs, Low Q n f
  | [], r, s, s', fs, as, _, h => by
    simp only [layoutInOrder, Option.some.injEq, Prod.mk.injEq] at h
    obtain ⟨rfl, rfl, -⟩ := h
    simp
  | b :: bs, r, s, s', fs, as, hc, h => by
    simp only [layoutInOrder] at h
    rcases e0 : layoutChild r b [] with _ | ⟨f, as0⟩
    · rw [e0] at h; cases h
    obtain ⟨rfl, hf⟩ := hc b List.mem_cons_self r f as0 e0
    simp only [e0] at h
    rcases e1 : placeFragment s f with _ | ⟨g, s1⟩
    · rw [e1] at h; cases h
    simp only [e1] at h
    rcases e2 : layoutInOrder layoutChild (r + 1) bs [] s1 with _ | ⟨gs, as2, s2⟩
    · rw [e2] at h; cases h
    simp only [e2, Option.some.injEq, Prod.mk.injEq] at h
    obtain ⟨rfl, rfl, -⟩ := h
    obtain ⟨rfl, hg⟩ := layoutInOrder_low (fun b hb => hc b (List.mem_cons_of_mem _ hb)) e2
    refine ⟨rfl, fun x hx => ?_⟩
    rcases List.mem_cons.1 hx with rfl | hx
    · exact placeFragment_low hf e1
    · exact hg x hx

theorem foldTask_low : ∀ {bs : List BlockLevelBox} {r : Nat} {fs : List (Fragment R)} {as : Absolutes R},
    (∀ b ∈ bs, ∀ r f as, layoutChild r b [] = some (f, as) → as = [] ∧ Low Q n f) →
    mapfold.foldTask layoutChild r bs [] = some (fs, as) → as = [] ∧ ∀ f ∈ fs, Low Q n f
  | [], r, fs, as, _, h => by
    simp only [mapfold.foldTask, Option.some.injEq, Prod.mk.injEq] at h
    obtain ⟨rfl, rfl⟩ := h
    simp
  | b :: bs, r, fs, as, hc, h => by
    simp only [mapfold.foldTask] at h
    rcases e0 : layoutChild r b [] with _ | ⟨f, as0⟩
    · rw [e0] at h; cases h
    obtain ⟨rfl, hf⟩ := hc b List.mem_cons_self r f as0 e0
    simp only [e0] at h
    rcases e2 : mapfold.foldTask layoutChild (r + 1) bs [] with _ | ⟨gs, as2⟩
    · rw [e2] at h; cases h
    simp only [e2, Option.some.injEq, Prod.mk.injEq] at h
    obtain ⟨rfl, rfl⟩ := h
    obtain ⟨rfl, hg⟩ := foldTask_low (fun b hb => hc b (List.mem_cons_of_mem _ hb)) e2
    refine ⟨rfl, fun x hx => ?_⟩
    rcases List.mem_cons.1 hx with rfl | hx
    · exact hf
    · exact hg x hx

theorem mapfold_low : ∀ {schedule : Schedule} {bs : List BlockLevelBox} {r : Nat} {fs : List (Fragment R)} {as : Absolutes R},
    (∀ b ∈ bs, ∀ r f as, layoutChild r b [] = some (f, as) → as = [] ∧ Low Q n f) →
    mapfold layoutChild schedule r bs = some (fs, as) → as = [] ∧ ∀ f ∈ fs, Low Q n f := by
  intro schedule
  induction schedule with
  | task =>
    intro bs r fs as hc h
    rw [mapfold] at h
    exact foldTask_low hc h
  | join cut left right ih1 ih2 =>
    intro bs r fs as hc h
    rw [mapfold] at h
    rcases e1 : mapfold layoutChild left r (bs.take cut) with _ | ⟨f1, a1⟩
    · rw [e1] at h; cases h
    rcases e2 : mapfold layoutChild right (r + cut) (bs.drop cut) with _ | ⟨f2, a2⟩
    · rw [e1, e2] at h; cases h
    simp only [e1, e2, Option.some.injEq, Prod.mk.injEq] at h
    obtain ⟨rfl, rfl⟩ := h
    obtain ⟨rfl, h1⟩ := ih1 (fun b hb => hc b (List.mem_of_mem_take hb)) e1
    obtain ⟨rfl, h2⟩ := ih2 (fun b hb => hc b (List.mem_of_mem_drop hb)) e2
    refine ⟨rfl, fun x hx => ?_⟩
    rcases List.mem_append.1 hx with hx | hx
    · exact h1 x hx
    · exact h2 x hx

theorem layoutChildren_low {schedule : Schedule} {bs : List BlockLevelBox} {r : Nat} {floats coll : Bool} {c : FlowChildren R} {as : Absolutes R}
    (hc : ∀ b ∈ bs, ∀ r f as, layoutChild r b [] = some (f, as) → as = [] ∧ Low Q n f)
    (h : layoutChildren schedule layoutChild bs r [] floats coll = some (c, as)) : as = [] ∧ ∀ f ∈ c.fragments, Low Q n f := by
  unfold layoutChildren at h
  split at h
  · rcases e1 : layoutInOrder layoutChild 0 bs [] (.initial coll) with _ | ⟨fs, a1, s1⟩
    · rw [e1] at h; cases h
    obtain ⟨rfl, hf⟩ := layoutInOrder_low hc e1
    simp only [e1, finishChildren, List.drop_nil, adjustStaticPositions, List.take_nil, List.append_nil, Option.some.injEq, Prod.mk.injEq] at h
    obtain ⟨rfl, rfl⟩ := h
    exact ⟨rfl, hf⟩
  · rcases e1 : mapfold layoutChild schedule 0 bs with _ | ⟨fs, a1⟩
    · rw [e1] at h; cases h
    obtain ⟨rfl, hf⟩ := mapfold_low hc e1
    simp only [e1] at h
    rcases e2 : placeAll (.initial coll) fs with _ | ⟨gs, s1⟩
    · rw [e2] at h; cases h
    simp only [e2, finishChildren, List.append_nil, List.drop_nil, adjustStaticPositions, List.take_nil, Option.some.injEq, Prod.mk.injEq] at h
    obtain ⟨rfl, rfl⟩ := h
    exact ⟨rfl, placeAll_low hf e2⟩

end

theorem layoutInFlow_low {n : Nat} {cb : ContainingBlock R} {style : ComputedValues} {kind : BlockLevelKind}
    {l : ContainingBlock R → Absolutes R → Bool → Option (FlowChildren R × Absolutes R)}
    {a : DefiniteContainingBlock R → Nat → AbsolutelyPositionedFragment R → Option (Fragment R)} {f : Fragment R} {as : Absolutes R} (hq : Q style)
    (hl : ∀ cb coll c as, l cb [] coll = some (c, as) → as = [] ∧ ∀ f ∈ c.fragments, Low Q n f)
    (h : layoutInFlow cb [] style kind l a = some (f, as)) : as = [] ∧ Low Q (n + 1) f := by
  unfold layoutInFlow at h
  simp only [ite_self] at h
  split at h
  · cases h
  split at h
  · cases h
  rename_i c as0 e
  obtain ⟨rfl, hf⟩ := hl _ _ _ _ e
  split at h
  · simp only [inPositionedContainingBlock, Option.some.injEq, Prod.mk.injEq] at h
    obtain ⟨rfl, rfl⟩ := h
    exact ⟨rfl, .box hq hf⟩
  · simp only [Option.some.injEq, Prod.mk.injEq] at h
    obtain ⟨rfl, rfl⟩ := h
    exact ⟨rfl, .box hq hf⟩

theorem blocksNesting_mem : ∀ {bs : List BlockLevelBox} {b : BlockLevelBox}, b ∈ bs → b.nesting ≤ blocksNesting bs
  | c :: bs, b, h => by
    rw [blocksNesting]
    rcases List.mem_cons.1 h with rfl | h
    · omega
    · have := blocksNesting_mem h
      omega

theorem eachBlock_mem : ∀ {bs : List BlockLevelBox} {b : BlockLevelBox}, eachBlock Q bs → b ∈ bs → b.Each Q
  | c :: bs, b, h, hb => by
    rw [eachBlock] at h
    rcases List.mem_cons.1 hb with rfl | hb
    · exact h.1
    · exact eachBlock_mem h.2 hb

private theorem only_mem {k : Nat} : ∀ {bs : List BlockLevelBox} {b : BlockLevelBox}, onlyBlocks k bs → b ∈ bs → b.OnlyBlocks k
  | c :: bs, b, h, hb => by
    rw [onlyBlocks] at h
    rcases List.mem_cons.1 hb with rfl | hb
    · exact h.1
    · exact only_mem h.2 hb

theorem layout_low {Err : Type} (F : FontApi R Err) (k : Nat) (fuel : Nat) : ∀ (s : Oracle),
    (∀ (c : BlockContainer) (cb : ContainingBlock R) (rank : Nat) (floats coll : Bool) (p : FlowChildren R) (as : Absolutes R),
      c.OnlyBlocks k → c.Each Q → layoutContainer F fuel s c cb rank [] floats coll = some (p, as) →
      as = [] ∧ ∀ f ∈ p.fragments, Low Q c.nesting f) ∧
    (∀ (b : BlockLevelBox) (cb : ContainingBlock R) (rank : Nat) (floats : Bool) (f : Fragment R) (as : Absolutes R),
      b.OnlyBlocks k → b.Each Q → layoutBox F fuel s b cb rank [] floats = some (f, as) → as = [] ∧ Low Q b.nesting f) := by
  induction fuel with
  | zero =>
    intro s
    constructor
    · intro c cb rank floats coll p as _ _ h
      simp only [layoutContainer] at h
      cases h
    · intro b cb rank floats f as _ _ h
      simp only [layoutBox] at h
      cases h
  | succ fuel ih =>
    intro s
    constructor
    · intro c cb rank floats coll p as ho hq h
      cases c with
      | inlineFormattingContext boxes => rw [BlockContainer.OnlyBlocks] at ho; exact ho.elim
      | blockLevelBoxes boxes =>
        rw [BlockContainer.OnlyBlocks] at ho
        rw [BlockContainer.Each] at hq
        rw [layoutContainer] at h
        rw [BlockContainer.nesting]
        refine layoutChildren_low ?_ h
        intro b hb r f as e
        obtain ⟨h1, h2⟩ := (ih (s.sub r)).2 b cb r floats f as (only_mem ho hb) (eachBlock_mem hq hb) e
        exact ⟨h1, h2.mono (blocksNesting_mem hb)⟩
    · intro b cb rank floats f as ho hq h
      cases b with
      | outOfFlowAbsolutelyPositioned => rw [BlockLevelBox.OnlyBlocks] at ho; exact ho.elim
      | outOfFlowFloat =>
        simp only [layoutBox, Fragment.noOp, Option.some.injEq, Prod.mk.injEq] at h
        obtain ⟨rfl, rfl⟩ := h
        rw [BlockLevelBox.nesting]
        exact ⟨rfl, .anonymous⟩
      | sameFormattingContextBlock style contents =>
        rw [BlockLevelBox.OnlyBlocks] at ho
        rw [BlockLevelBox.Each] at hq
        rw [BlockLevelBox.nesting]
        rw [layoutBox] at h
        exact layoutInFlow_low hq.1 (fun cb coll c as e => (ih (s.sub 0)).1 contents cb _ _ _ c as ho.2 hq.2 e) h
      | independent style containsFloats contents =>
        rw [BlockLevelBox.OnlyBlocks] at ho
        rw [BlockLevelBox.Each] at hq
        rw [BlockLevelBox.nesting]
        rw [layoutBox] at h
        refine layoutInFlow_low hq.1 (fun cb coll c as e => ?_) h
        rcases e1 : layoutContainer F fuel (s.sub 0) contents cb rank [] containsFloats false with _ | ⟨p, as1⟩
        · rw [e1] at e; cases e
        rw [e1] at e
        simp only [mapFst, Option.some.injEq, Prod.mk.injEq] at e
        obtain ⟨rfl, rfl⟩ := e
        exact (ih (s.sub 0)).1 contents cb _ _ _ p as1 ho.2 hq.2 e1

theorem layoutRoot_low {Err : Type} (F : FontApi R Err) (k : Nat) (fuel : Nat) (s : Oracle) (root : BlockFormattingContext) (viewport : Vec2 R)
    (ho : root.contents.OnlyBlocks k) (hq : root.contents.Each Q) (fs : List (Fragment R)) (h : layoutRoot F fuel s root viewport = some fs) :
    ∀ f ∈ fs, Low Q root.contents.nesting f := by
  simp only [layoutRoot, layoutContext] at h
  rcases e1 : layoutContainer F fuel (s.sub 0) root.contents ⟨viewport.inline, .length viewport.block, (.horizontalTb, .ltr)⟩ 0 []
      root.containsFloats false with _ | ⟨p, as⟩
  · rw [e1] at h; cases h
  obtain ⟨rfl, hl⟩ := (layout_low F k fuel (s.sub 0)).1 root.contents _ _ _ _ p as ho hq e1
  rw [e1] at h
  simp only [mapFst, layoutAll, List.append_nil, Option.some.injEq] at h
  subst h
  exact hl

end Verif.Layout.Machine
