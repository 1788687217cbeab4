/- **C128** with measures of the tree of boxes alone. -/
import Verif.Layout.ColumnsStatic
import Verif.Layout.ColumnsPageTheorems
namespace Verif.Layout.Machine
open Verif.Style Verif.Text Verif.Float Verif.Pdf

/-! ### Specification -/

mutual
/-- The boxes are at most `n` deep in each other, with lines and texts, and the styles of all texts are as `T` says. -/
def _root_.Verif.Layout.BlockContainer.Nested (T : ComputedValues → Prop) (n : Nat) : BlockContainer → Prop
  | .blockLevelBoxes boxes => blocksNested T n boxes
  | .inlineFormattingContext boxes => 1 ≤ n ∧ lineNested T (n - 1) boxes
/-- See `BlockContainer.Nested`. -/
def _root_.Verif.Layout.BlockLevelBox.Nested (T : ComputedValues → Prop) (n : Nat) : BlockLevelBox → Prop
  | .sameFormattingContextBlock _ contents => 1 ≤ n ∧ contents.Nested T (n - 1)
  | .outOfFlowAbsolutelyPositioned _ _ _ => 1 ≤ n
  | .outOfFlowFloat _ _ _ => 1 ≤ n
  | .independent _ _ contents => 1 ≤ n ∧ contents.Nested T (n - 1)
/-- See `BlockContainer.Nested`. -/
def blocksNested (T : ComputedValues → Prop) (n : Nat) : List BlockLevelBox → Prop
  | [] => True
  | b :: bs => b.Nested T n ∧ blocksNested T n bs
/-- See `BlockContainer.Nested`. -/
def _root_.Verif.Layout.InlineLevelBox.Nested (T : ComputedValues → Prop) (n : Nat) : InlineLevelBox → Prop
  | .inlineBox _ _ _ children => 1 ≤ n ∧ lineNested T (n - 1) children
  | .textRun style _ => 1 ≤ n ∧ T style
  | .outOfFlowAbsolutelyPositioned _ _ _ => True
  | .outOfFlowFloat _ _ _ => True
/-- See `BlockContainer.Nested`. -/
def lineNested (T : ComputedValues → Prop) (n : Nat) : List InlineLevelBox → Prop
  | [] => True
  | b :: bs => b.Nested T n ∧ lineNested T n bs
end

/-- The size of the font is not tiny, and the ascender of no text is higher than `J` (in a font with this ascender, in em). -/
def TextTo (J ascender : Rat) (style : ComputedValues) : Prop := 1 / 2 ^ 100 ≤ fontSizeOf style ∧ fontSizeOf style * (1 + |ascender|) ≤ J

/-! ### Proof: paragraphs -/

attribute [local instance] exactNumbers

/-- The fragment is at most this deep, and the styles of all texts in it are as `T` says. -/
def Fragment.Deep (T : ComputedValues → Prop) : Nat → Fragment Rat → Prop
  | 0, _ => False
  | n + 1, .box _ children => ∀ f ∈ children, f.Deep T n
  | n + 1, .anonymous _ children _ => ∀ f ∈ children, f.Deep T n
  | _ + 1, .text style _ _ => T style

/-- What is in the nesting level, and what will come there, is at most this deep. -/
def LevelDeep (T : ComputedValues → Prop) (m : Nat) (level : NestingLevel Rat) : Prop :=
  lineNested T m level.remainingBoxes ∧ ∀ f ∈ level.fragmentsSoFar, f.Deep T m

/-- All of the nesting levels, if the current one is `m` from the greatest depth. -/
def StackDeep (T : ComputedValues → Prop) (M : Nat) : List (PartialInlineBox Rat) → Nat → Prop
  | [], m => m = M
  | p :: rest, m => LevelDeep T (m + 1) p.parentNestingLevel ∧ StackDeep T M rest (m + 1)

section
variable {T : ComputedValues → Prop} {M : Nat}

theorem LevelDeep.push {m : Nat} {level : NestingLevel Rat} {f : Fragment Rat} (h : LevelDeep T m level) (hf : f.Deep T m) :
    ∀ g ∈ level.fragmentsSoFar ++ [f], g.Deep T m := by
  intro g hg
  rcases List.mem_append.1 hg with hg | hg
  · exact h.2 g hg
  · rw [List.mem_singleton.1 hg]; exact hf

theorem finish_deep {m : Nat} {p : PartialInlineBox Rat} {level : NestingLevel Rat} (hl : LevelDeep T m level)
    (hp : LevelDeep T (m + 1) p.parentNestingLevel) (position : Rat) (atBreak : Bool) :
    LevelDeep T (m + 1) (p.finish level position atBreak).1.parentNestingLevel ∧ LevelDeep T m (p.finish level position atBreak).2.1 :=
  ⟨⟨hp.1, hp.push (show Fragment.Deep T (m + 1) (.box _ level.fragmentsSoFar) from hl.2)⟩, ⟨hl.1, fun f hf => by cases hf⟩⟩

theorem breakLine_deep (cb : ContainingBlock Rat) : ∀ (stack : List (PartialInlineBox Rat)) (m : Nat) (level : NestingLevel Rat) (position : Rat)
    (lines : LinesBoxes Rat), LevelDeep T m level → StackDeep T M stack m → (∀ f ∈ lines.boxes, f.Deep T (M + 1)) →
    LevelDeep T m (breakLine cb stack level position lines).2.1 ∧ StackDeep T M (breakLine cb stack level position lines).1 m ∧
    ∀ f ∈ (breakLine cb stack level position lines).2.2.boxes, f.Deep T (M + 1)
  | [], m, level, position, lines, h1, h2, h3 => by
    cases h2
    refine ⟨⟨h1.1, fun f hf => by cases hf⟩, rfl, ?_⟩
    intro g hg
    rcases List.mem_append.1 hg with hg | hg
    · exact h3 g hg
    · rw [List.mem_singleton.1 hg]; exact h1.2
  | p :: rest, m, level, position, lines, h1, h2, h3 => by
    obtain ⟨k1, k2⟩ := finish_deep (level := { level with inlineStart := 0 }) ⟨h1.1, h1.2⟩ h2.1 position true
    obtain ⟨r1, r2, r3⟩ := breakLine_deep cb rest (m + 1) _ (p.finish { level with inlineStart := 0 } position true).2.2 lines k1 h2.2 h3
    exact ⟨k2, ⟨r1, r2⟩, r3⟩

theorem pushText_deep {m : Nat} {style : ComputedValues} (hm : 1 ≤ m) (hs : T style) (shaped : ShapedSegment Rat) {i : InlineState Rat}
    (h : LevelDeep T m i.current) : LevelDeep T m (pushText style shaped i).current := by
  obtain ⟨m, rfl⟩ : ∃ n, m = n + 1 := ⟨m - 1, by omega⟩
  exact ⟨h.1, h.push (show Fragment.Deep T (m + 1) (.text style _ _) from hs)⟩

/-- All that is there of a paragraph. -/
def InlineDeep (T : ComputedValues → Prop) (M m : Nat) (i : InlineState Rat) : Prop :=
  LevelDeep T m i.current ∧ StackDeep T M i.stack m ∧ ∀ f ∈ i.lineBoxes.boxes, f.Deep T (M + 1)

theorem textLines_deep {Err : Type} (F : FontApi Rat Err) (cb : ContainingBlock Rat) {style : ComputedValues} (available : Rat) {m : Nat}
    (hm : 1 ≤ m) (hs : T style) : ∀ (fuel : Nat) (chars : List Nat) (i j : InlineState Rat), InlineDeep T M m i →
    textLines F cb style available fuel chars i = some j → InlineDeep T M m j := by
  intro fuel
  induction fuel with
  | zero => intro chars i j _ h; cases h
  | succ fuel ih =>
    intro chars i j hi h
    unfold textLines at h
    split at h
    · cases h
    rename_i shaped rest _
    have hp := pushText_deep hm hs shaped hi.1
    simp only at h
    split at h
    · cases h
      exact ⟨hp, hi.2⟩
    obtain ⟨r1, r2, r3⟩ := breakLine_deep (M := M) cb (pushText style shaped i).stack m (pushText style shaped i).current
      (pushText style shaped i).inlinePosition (pushText style shaped i).lineBoxes hp hi.2.1 hi.2.2
    exact ih _ _ _ ⟨r1, r2, r3⟩ h

theorem inlineLoop_deep {Err : Type} (F : FontApi Rat Err) (cb : ContainingBlock Rat) (rank : Nat) : ∀ (fuel m : Nat) (i : InlineState Rat)
    (as : Absolutes Rat) (c : FlowChildren Rat) (as' : Absolutes Rat), InlineDeep T M m i → inlineLoop F cb rank fuel i as = some (c, as') →
    ∀ f ∈ c.fragments, f.Deep T (M + 1) := by
  intro fuel
  induction fuel with
  | zero => intro m i as c as' _ h; cases h
  | succ fuel ih =>
    intro m i as c as' hi h
    obtain ⟨lines, position, stack, ⟨boxes, sofar, start, size⟩⟩ := i
    obtain ⟨h1, h2, h3⟩ := hi
    unfold inlineLoop at h
    cases boxes with
    | cons b bs =>
      obtain ⟨hb, hbs⟩ : b.Nested T m ∧ lineNested T m bs := by
        have := h1.1
        rwa [lineNested] at this
      have h1' : LevelDeep T m ⟨bs, sofar, start, size⟩ := ⟨hbs, h1.2⟩
      cases b with
      | inlineBox style first last children =>
        rw [InlineLevelBox.Nested] at hb
        obtain ⟨m, rfl⟩ : ∃ n, m = n + 1 := ⟨m - 1, by omega⟩
        simp only [inlineStep] at h
        refine ih m _ _ _ _ ?_ h
        exact ⟨⟨hb.2, fun f hf => (by cases hf)⟩, ⟨h1', h2⟩, h3⟩
      | textRun style text =>
        rw [InlineLevelBox.Nested] at hb
        simp only [inlineStep, layoutTextRun] at h
        split at h
        · cases h
        · rename_i e1
          split at e1
          · rename_i j e2
            cases e1
            refine ih m _ _ _ _ (textLines_deep F cb _ hb.1 hb.2 _ _ _ _ ?_ e2) h
            exact ⟨h1', h2, h3⟩
          · cases e1
        · rename_i e1
          split at e1
          · cases e1
          · cases e1
      | outOfFlowAbsolutelyPositioned =>
        simp only [inlineStep] at h
        split at h
        · cases h
        · rename_i e1
          split at e1
          · cases e1
            refine ih m _ _ _ _ ?_ h
            exact ⟨h1', h2, h3⟩
          · cases e1
        · rename_i e1
          split at e1
          · cases e1
          · cases e1
      | outOfFlowFloat =>
        simp only [inlineStep] at h
        refine ih m _ _ _ _ ?_ h
        exact ⟨h1', h2, h3⟩
    | nil =>
      cases stack with
      | cons p stack =>
        simp only [inlineStep] at h
        refine ih (m + 1) _ _ _ _ ?_ h
        exact ⟨(finish_deep h1 h2.1 position false).1, h2.2, h3⟩
      | nil =>
        simp only [inlineStep, finishLine] at h
        cases h
        cases h2
        intro g hg
        rcases List.mem_append.1 hg with hg | hg
        · exact h3 g hg
        · rw [List.mem_singleton.1 hg]; exact h1.2

/-! ### Proof: blocks -/

theorem placeFragment_deep {n : Nat} {s t : PlacementState Rat} {f g : Fragment Rat} (h : placeFragment s f = some (g, t)) (hf : f.Deep T n) :
    g.Deep T n := by
  cases n with
  | zero => exact hf.elim
  | succ n =>
    cases f with
    | text => cases h
    | anonymous =>
      simp only [placeFragment] at h
      split at h
      · cases h; exact hf
      · cases h
    | box b c =>
      simp only [placeFragment] at h
      repeat' split at h
      all_goals first | contradiction | skip
      all_goals
        cases h
        exact hf

variable {l : Nat → BlockLevelBox → Absolutes Rat → Option (Fragment Rat × Absolutes Rat)} {n : Nat}

/-- Layout of the box gives nothing that is deeper. -/
def ChildDeep (T : ComputedValues → Prop) (n : Nat) (l : Nat → BlockLevelBox → Absolutes Rat → Option (Fragment Rat × Absolutes Rat))
    (b : BlockLevelBox) : Prop := ∀ r f as, l r b [] = some (f, as) → as = [] ∧ f.Deep T n

theorem placeAll_deep : ∀ {fs gs : List (Fragment Rat)} {s t : PlacementState Rat}, (∀ f ∈ fs, f.Deep T n) → placeAll s fs = some (gs, t) →
    ∀ f ∈ gs, f.Deep T n
  | [], _, _, _, _, h => by cases h; intro f hf; cases hf
  | f :: fs, _, _, _, hf, h => by
    simp only [placeAll] at h
    split at h
    · cases h
    rename_i e1
    split at h
    · cases h
    rename_i e2
    cases h
    exact List.forall_mem_cons.2 ⟨placeFragment_deep e1 (hf f (List.mem_cons_self ..)),
      placeAll_deep (fun g hg => hf g (List.mem_cons_of_mem _ hg)) e2⟩

theorem layoutInOrder_deep : ∀ {bs : List BlockLevelBox} {rank : Nat} {s t : PlacementState Rat} {fs : List (Fragment Rat)} {as : Absolutes Rat},
    (∀ b ∈ bs, ChildDeep T n l b) → layoutInOrder l rank bs [] s = some (fs, as, t) → as = [] ∧ ∀ f ∈ fs, f.Deep T n
  | [], _, _, _, _, _, _, h => by cases h; exact ⟨rfl, fun f hf => by cases hf⟩
  | b :: bs, rank, s, t, fs, as, hf, h => by
    simp only [layoutInOrder] at h
    split at h
    · cases h
    rename_i f as1 e1
    obtain ⟨rfl, h1⟩ := hf b (List.mem_cons_self ..) _ _ _ e1
    split at h
    · cases h
    rename_i e2
    split at h
    · cases h
    rename_i e3
    cases h
    obtain ⟨h2, h3⟩ := layoutInOrder_deep (fun c hc => hf c (List.mem_cons_of_mem _ hc)) e3
    exact ⟨h2, List.forall_mem_cons.2 ⟨placeFragment_deep e2 h1, h3⟩⟩

theorem foldTask_deep : ∀ {bs : List BlockLevelBox} {rank : Nat} {fs : List (Fragment Rat)} {as : Absolutes Rat},
    (∀ b ∈ bs, ChildDeep T n l b) → mapfold.foldTask l rank bs [] = some (fs, as) → as = [] ∧ ∀ f ∈ fs, f.Deep T n
  | [], _, _, _, _, h => by cases h; exact ⟨rfl, fun f hf => by cases hf⟩
  | b :: bs, rank, fs, as, hf, h => by
    simp only [mapfold.foldTask] at h
    split at h
    · cases h
    rename_i f as1 e1
    obtain ⟨rfl, h1⟩ := hf b (List.mem_cons_self ..) _ _ _ e1
    split at h
    · cases h
    rename_i e3
    cases h
    obtain ⟨h2, h3⟩ := foldTask_deep (fun c hc => hf c (List.mem_cons_of_mem _ hc)) e3
    exact ⟨h2, List.forall_mem_cons.2 ⟨h1, h3⟩⟩

theorem mapfold_deep : ∀ {schedule : Schedule} {bs : List BlockLevelBox} {rank : Nat} {fs : List (Fragment Rat)} {as : Absolutes Rat},
    (∀ b ∈ bs, ChildDeep T n l b) → mapfold l schedule rank bs = some (fs, as) → as = [] ∧ ∀ f ∈ fs, f.Deep T n
  | .task, _, _, _, _, hf, h => foldTask_deep hf h
  | .join cut left right, bs, rank, fs, as, hf, h => by
    simp only [mapfold] at h
    split at h
    · rename_i e1 e2
      cases h
      obtain ⟨rfl, h1⟩ := mapfold_deep (fun c hc => hf c (List.mem_of_mem_take hc)) e1
      obtain ⟨rfl, h2⟩ := mapfold_deep (fun c hc => hf c (List.mem_of_mem_drop hc)) e2
      exact ⟨rfl, fun f hf => (List.mem_append.1 hf).elim (h1 f) (h2 f)⟩
    · cases h

theorem layoutChildren_deep {schedule : Schedule} {bs : List BlockLevelBox} {rank : Nat} {floats coll : Bool} {c : FlowChildren Rat}
    {as : Absolutes Rat} (hf : ∀ b ∈ bs, ChildDeep T n l b) (h : layoutChildren schedule l bs rank [] floats coll = some (c, as)) :
    as = [] ∧ ∀ f ∈ c.fragments, f.Deep T n := by
  unfold layoutChildren at h
  cases floats with
  | true =>
    simp only [if_true, List.length_nil] at h
    split at h
    · cases h
    rename_i e1
    obtain ⟨rfl, h1⟩ := layoutInOrder_deep hf e1
    simp only [finishChildren, List.drop_nil, adjustStaticPositions, List.take_nil, List.append_nil] at h
    cases h
    exact ⟨rfl, h1⟩
  | false =>
    simp only [if_false, Bool.false_eq_true, List.length_nil, List.nil_append] at h
    split at h
    · cases h
    rename_i e1
    obtain ⟨rfl, h1⟩ := mapfold_deep hf e1
    split at h
    · cases h
    rename_i e2
    simp only [finishChildren, List.drop_nil, adjustStaticPositions, List.take_nil, List.append_nil] at h
    cases h
    exact ⟨rfl, placeAll_deep h1 e2⟩

theorem layoutInFlow_deep {cb : ContainingBlock Rat} {style : ComputedValues} {kind : BlockLevelKind}
    {l : ContainingBlock Rat → Absolutes Rat → Bool → Option (FlowChildren Rat × Absolutes Rat)}
    {a : DefiniteContainingBlock Rat → Nat → AbsolutelyPositionedFragment Rat → Option (Fragment Rat)} {f : Fragment Rat} {as : Absolutes Rat}
    (hl : ∀ c coll p as, l c [] coll = some (p, as) → as = [] ∧ ∀ f ∈ p.fragments, f.Deep T n)
    (h : layoutInFlow cb [] style kind l a = some (f, as)) : as = [] ∧ f.Deep T (n + 1) := by
  have e : (if (positionOf style).isRelativelyPositioned = true then ([] : Absolutes Rat) else []) = [] := by split <;> rfl
  unfold layoutInFlow at h
  simp only [e] at h
  split at h
  · cases h
  split at h
  · cases h
  rename_i p as1 e1
  obtain ⟨rfl, h1⟩ := hl _ _ _ _ e1
  simp only [inPositionedContainingBlock] at h
  split at h
  all_goals
    cases h
    exact ⟨rfl, h1⟩

theorem blocksNested_mem : ∀ {bs : List BlockLevelBox} {b : BlockLevelBox}, blocksNested T n bs → b ∈ bs → b.Nested T n
  | c :: bs, b, h, hb => by
    rw [blocksNested] at h
    rcases List.mem_cons.1 hb with rfl | hb
    · exact h.1
    · exact blocksNested_mem h.2 hb

theorem layout_deep {Err : Type} (F : FontApi Rat Err) (k e fuel : Nat) : ∀ (s : Oracle),
    (∀ (n : Nat) (c : BlockContainer) (cb : ContainingBlock Rat) (rank : Nat) (floats coll : Bool) (p : FlowChildren Rat) (as : Absolutes Rat),
      c.Ruled k e → c.Nested T n → layoutContainer F fuel s c cb rank [] floats coll = some (p, as) → as = [] ∧ ∀ f ∈ p.fragments, f.Deep T n) ∧
    (∀ (n : Nat) (b : BlockLevelBox) (cb : ContainingBlock Rat) (rank : Nat) (floats : Bool) (f : Fragment Rat) (as : Absolutes Rat),
      b.Ruled k e → b.Nested T n → layoutBox F fuel s b cb rank [] floats = some (f, as) → as = [] ∧ f.Deep T n) := by
  induction fuel with
  | zero =>
    intro s
    exact ⟨fun n c cb rank floats coll p as _ _ h => (by simp only [layoutContainer] at h; cases h),
      fun n b cb rank floats f as _ _ h => (by simp only [layoutBox] at h; cases h)⟩
  | succ fuel ih =>
    intro s
    constructor
    · intro n c cb rank floats coll p as hc hn h
      cases c with
      | inlineFormattingContext boxes =>
        have h0 := ((layout_fits F k e 0 (le_refl 0) (fuel + 1) s).1 _ _ _ _ _ _ _ hc h).1
        rw [BlockContainer.Nested] at hn
        obtain ⟨n, rfl⟩ : ∃ m, n = m + 1 := ⟨n - 1, by omega⟩
        rw [layoutContainer, layoutInline] at h
        refine ⟨h0, inlineLoop_deep F cb rank _ n _ _ _ _ ?_ h⟩
        exact ⟨⟨hn.2, fun f hf => (by cases hf)⟩, rfl, fun f hf => (by cases hf)⟩
      | blockLevelBoxes boxes =>
        rw [BlockContainer.Ruled] at hc
        rw [BlockContainer.Nested] at hn
        rw [layoutContainer] at h
        exact layoutChildren_deep (fun b hb r f as hr => (ih (s.sub r)).2 n b cb r floats f as (ruledBlocks_mem hc hb) (blocksNested_mem hn hb) hr) h
    · intro n b cb rank floats f as hb hn h
      rw [BlockLevelBox.Nested.eq_def] at hn
      obtain ⟨n, rfl⟩ : ∃ m, n = m + 1 := ⟨n - 1, by cases b <;> simp only at hn <;> omega⟩
      cases b with
      | outOfFlowAbsolutelyPositioned => rw [BlockLevelBox.Ruled] at hb; exact hb.elim
      | outOfFlowFloat =>
        simp only [layoutBox, Fragment.noOp] at h
        cases h
        exact ⟨rfl, fun f hf => by cases hf⟩
      | sameFormattingContextBlock style contents =>
        rw [BlockLevelBox.Ruled] at hb
        rw [layoutBox] at h
        exact layoutInFlow_deep (fun c coll p as hp => (ih (s.sub 0)).1 n contents c rank floats coll p as hb.2 hn.2 hp) h
      | independent style containsFloats contents =>
        rw [BlockLevelBox.Ruled] at hb
        rw [layoutBox] at h
        refine layoutInFlow_deep (fun c coll p as hp => ?_) h
        rcases e1 : layoutContainer F fuel (s.sub 0) contents c rank [] containsFloats false with _ | ⟨q, as1⟩
        · simp only [e1, mapFst] at hp; cases hp
        simp only [e1, mapFst] at hp
        cases hp
        exact (ih (s.sub 0)).1 n contents c rank containsFloats false q as hb.2 hn.2 e1

theorem layoutRoot_deep {Err : Type} (F : FontApi Rat Err) (k e fuel : Nat) (s : Oracle) (root : BlockFormattingContext) (viewport : Vec2 Rat)
    (hr : root.contents.Ruled k e) (hn : root.contents.Nested T n) (gs : List (Fragment Rat)) (h : layoutRoot F fuel s root viewport = some gs) :
    ∀ f ∈ gs, f.Deep T n := by
  simp only [layoutRoot, layoutContext] at h
  rcases e1 : layoutContainer F fuel (s.sub 0) root.contents ⟨viewport.inline, .length viewport.block, (.horizontalTb, .ltr)⟩ 0 []
      root.containsFloats false with _ | ⟨p, as⟩
  · simp only [e1, mapFst] at h; cases h
  obtain ⟨rfl, h1⟩ := (layout_deep F k e fuel (s.sub 0)).1 _ _ _ _ _ _ _ _ hr hn e1
  simp only [e1, mapFst, layoutAll, List.append_nil] at h
  cases h
  exact h1
end

/-! ### Theorems -/

theorem deep_layers {T : ComputedValues → Prop} : ∀ (n : Nat),
    (∀ f : Layout.Fragment, (ofFragment f).Deep T n → f.layers ≤ n) ∧
    ∀ fs : List Layout.Fragment, (∀ f ∈ ofFragments fs, f.Deep T n) → fragmentLayers fs ≤ n := by
  intro n
  induction n with
  | zero =>
    have h0 : ∀ f : Layout.Fragment, (ofFragment f).Deep T 0 → f.layers ≤ 0 := fun f h => h.elim
    refine ⟨h0, fun fs h => ?_⟩
    cases fs with
    | nil => rw [fragmentLayers]
    | cons f fs => exact (h (ofFragment f) (by rw [ofFragments]; exact List.mem_cons_self ..)).elim
  | succ n ih =>
    have h1 : ∀ f : Layout.Fragment, (ofFragment f).Deep T (n + 1) → f.layers ≤ n + 1 := by
      intro f h
      cases f with
      | box info c => rw [ofFragment] at h; rw [Fragment.layers]; exact Nat.succ_le_succ (ih.2 c h)
      | anonymous r c m => rw [ofFragment] at h; rw [Fragment.layers]; exact Nat.succ_le_succ (ih.2 c h)
      | text => rw [Fragment.layers]; omega
    refine ⟨h1, fun fs => ?_⟩
    induction fs with
    | nil => intro _; rw [fragmentLayers]; exact Nat.zero_le _
    | cons f fs ih2 =>
      intro h
      rw [ofFragments] at h
      rw [fragmentLayers]
      exact max_le (h1 f (h _ (List.mem_cons_self ..))) (ih2 fun g hg => h g (List.mem_cons_of_mem _ hg))

theorem placed_deep {T : ComputedValues → Prop} {o : Vec2 Rat} {fs : List Layout.Fragment} {placed : List (Layout.Fragment × Vec2 Rat)}
    (hp : Placed o fs placed) : ∀ {n : Nat}, (∀ f ∈ ofFragments fs, f.Deep T n) → ∀ p ∈ placed, ∃ n, (ofFragment p.1).Deep T n := by
  induction hp with
  | nil => intro n _ p hp; cases hp
  | @cons origin f fs below rest _ _ ih1 ih2 =>
    intro n h p hp
    rw [ofFragments] at h
    have hf := h _ (List.mem_cons_self ..)
    rcases List.mem_append.1 hp with hp | hp
    · rcases List.mem_cons.1 hp with rfl | hp
      · exact ⟨n, hf⟩
      · cases n with
        | zero => exact hf.elim
        | succ n =>
          refine ih1 (n := n) ?_ p hp
          cases f with
          | box info c => rw [ofFragment] at hf; exact hf
          | anonymous r c m => rw [ofFragment] at hf; exact hf
          | text => intro f hf; cases hf
    · exact ih2 (fun g hg => h g (List.mem_cons_of_mem _ hg)) p hp

theorem placed_texts {J ascender : Rat} {fs : List Layout.Fragment} {placed : List (Layout.Fragment × Vec2 Rat)} {o : Vec2 Rat} {n : Nat}
    (hp : Placed o fs placed) (h : ∀ f ∈ ofFragments fs, f.Deep (TextTo J ascender) n) :
    TextsTo J ascender (placed.flatMap fun p => p.1.shape ascender p.2) := by
  intro ids fontSize baseline color hm
  obtain ⟨⟨f, q⟩, h1, h2⟩ := List.mem_flatMap.1 hm
  obtain ⟨m, hd⟩ := placed_deep hp h _ h1
  cases f with
  | box info c =>
    simp only [Layout.Fragment.shape] at h2
    split at h2
    · cases h2
    · cases List.mem_singleton.1 h2
  | anonymous => cases h2
  | text style r s =>
    simp only [Layout.Fragment.shape] at h2
    have := List.mem_singleton.1 h2
    cases this
    cases m with
    | zero => exact hd.elim
    | succ m => exact hd

/-- How far something on the page can be from its place, in pixels, by the tree of boxes: with `n` for its depth, and `D`, `K` and `J` for the roundings
and the height of a line and the ascender of a text. -/
def pageBound (n D : Nat) (K J : Rat) (c : BlockContainer) : Rat := (c.tallness D + n + 7 : Nat) * ((n + 5) * c.bulk K + J) / 2 ^ 23

section
attribute [local instance] singleNumbers

/-- The exact layout of a document, of which the tree of boxes says enough for C128. -/
theorem static_layout {σ Err : Type} (engine : Engine σ) (api : FontApi Rat Err) (d : Verif.Dom.Document) (k e : Nat) (root : BlockFormattingContext)
    (fuel : Nat) (schedule : Oracle) (hc : constructDocument engine d fuel = some root) (hr : root.contents.Ruled k e) (D : Nat) (K : Rat) (hK : 0 ≤ K)
    (hwf : root.contents.Wf api) (hfuel : root.contents.depth ≤ fuel) (J ascender : Rat) (hJ : 0 ≤ J) (n : Nat)
    (hd : root.contents.Nested (TextTo J ascender) n) :
    ∃ fragments placed, Layout.layoutDocument engine api d fuel schedule ⟨600, 800⟩ = some fragments ∧ Placed ⟨0, 0⟩ fragments placed ∧
      TextsTo J ascender (placed.flatMap fun p => p.1.shape ascender p.2) ∧ fragmentLayers fragments ≤ n ∧
      fragments.length + mostSteps D (ofFragments fragments) ≤ root.contents.tallness D ∧
      massAll K (ofFragments fragments) ≤ root.contents.bulk K ∧ pageError D K J fragments ≤ pageBound n D K J root.contents := by
  have hz : ZeroLaws Rat := ⟨by decide +kernel, by decide +kernel⟩
  obtain ⟨gs, hgs⟩ := C115_total api root hwf fuel hfuel schedule (⟨600, 800⟩ : Vec2 Rat)
  have hgs' := hgs
  rw [of_layoutRoot, Option.map_eq_some_iff] at hgs'
  obtain ⟨fragments, hx, rfl⟩ := hgs'
  rw [← ofFragments_eq] at hgs
  obtain ⟨s1, s2⟩ := layoutRoot_fits api k e D hK fuel schedule root ⟨600, 800⟩ hr _ hgs
  have hdeep := layoutRoot_deep api k e fuel schedule root ⟨600, 800⟩ hr hd _ hgs
  have hl : (ofFragments fragments).length = fragments.length := by rw [ofFragments_eq, List.length_map]
  rw [hl] at s1
  obtain ⟨placed, hp⟩ := Placed.exists fragments ⟨0, 0⟩
  have hlay := (deep_layers n).2 fragments hdeep
  have nM := massAll_nonneg hK (ofFragments fragments)
  refine ⟨fragments, placed, by simp only [Layout.layoutDocument, hc]; exact hx, hp, placed_texts hp hdeep, hlay, s1, s2, ?_⟩
  rw [pageError, pageBound]
  refine div_le_div_of_nonneg_right ?_ (by positivity)
  have hlay' : (fragmentLayers fragments : Rat) ≤ n := by exact_mod_cast hlay
  refine mul_le_mul (by exact_mod_cast (by omega)) ?_ (by positivity) (Nat.cast_nonneg _)
  have : (fragmentLayers fragments + 5 : Rat) * massAll K (ofFragments fragments) ≤ (n + 5) * root.contents.bulk K :=
    mul_le_mul (by linarith) s2 nM (by positivity)
  linarith

/-- A page is made of every document whose boxes are well-formed. -/
theorem static_calls {σ E Err : Type} (engine : Engine σ) (api : FontApi Single Err) (d : Verif.Dom.Document) (P : Painter Single E)
    (ho : P.fontView.Ok) (root : BlockFormattingContext) (fuel : Nat) (schedule : Oracle) (hc : constructDocument engine d fuel = some root)
    (hwf : root.contents.Wf api) (hfuel : root.contents.depth ≤ fuel) : ∃ ops, documentCalls P engine api d fuel schedule = some ops := by
  have hz : ZeroLaws Single := single_zeroLaws
  obtain ⟨fragments, hf⟩ := C115_total api root hwf fuel hfuel schedule ⟨P.round 600, P.round 800⟩
  obtain ⟨doc, hd⟩ := paintDocument_some P ho (layoutRoot_shown hf).1
  have hb : toPdfBytes P engine api d fuel schedule = some (doc.write P.floats) := by
    simp only [toPdfBytes, layoutDocument, hc, hf, hd]
  rw [toPdfBytes_calls P engine api d ho] at hb
  rcases ec : documentCalls P engine api d fuel schedule with _ | ops
  · rw [ec] at hb; cases hb
  · exact ⟨ops, rfl⟩

/-- **C126** of the calls, under conditions that are about the tree of boxes alone: `n` is how deep the boxes are in each other. -/
theorem C126_static_calls {σ E Err : Type} (engine : Engine σ) (api : FontApi Single Err) (e : Nat) (advance : Nat → Nat)
    (hf : EmFont api (2 ^ e) advance) (he : e < 16) (d : Verif.Dom.Document) (P : Painter Single E) (hP : P.round = Single.round)
    (ho : P.fontView.Ok)
    (k : Nat) (hk : k ≤ 100) (root : BlockFormattingContext) (fuel : Nat) (schedule : Oracle) (hc : constructDocument engine d fuel = some root)
    (hr : root.contents.Ruled k e) (hwf : root.contents.Wf api) (hfuel : root.contents.depth ≤ fuel) (n : Nat)
    (hd : root.contents.Nested (fun _ => True) n)
    (hs : (n + 5) * (600 + root.contents.reach (textUnits api advance) e) < 2 ^ 23 / 2 ^ k) :
    ∃ ops fragments placed, documentCalls P engine api d fuel schedule = some ops ∧
      Layout.layoutDocument engine (exactFont api (2 ^ e) advance) d fuel schedule ⟨600, 800⟩ = some fragments ∧
      Placed ⟨0, 0⟩ fragments placed ∧ RowCalls P api ops (placed.flatMap fun p => p.1.shape 0 p.2) := by
  have hz : ZeroLaws Rat := ⟨by decide +kernel, by decide +kernel⟩
  obtain ⟨ops, h⟩ := static_calls engine api d P ho root fuel schedule hc hwf hfuel
  obtain ⟨gs, hgs⟩ := C115_total (exactFont api (2 ^ e) advance) root (containerWf_exactFont hwf) fuel hfuel schedule (⟨600, 800⟩ : Vec2 Rat)
  have hgs' := hgs
  rw [of_layoutRoot, Option.map_eq_some_iff] at hgs'
  obtain ⟨fragments, hx, rfl⟩ := hgs'
  rw [← ofFragments_eq] at hgs
  have hlay := (deep_layers n).2 fragments (layoutRoot_deep _ k e fuel schedule root ⟨600, 800⟩ hr hd _ hgs)
  have hlay' : (fragmentLayers fragments : Rat) ≤ n := by exact_mod_cast hlay
  have n0 := containerReach_nonneg (textUnits api advance) e root.contents
  have hx' : Layout.layoutDocument engine (exactFont api (2 ^ e) advance) d fuel schedule ⟨600, 800⟩ = some fragments := by
    simp only [Layout.layoutDocument, hc]; exact hx
  obtain ⟨placed, h1, h2⟩ := C126_calls engine api e advance hf he d P hP k hk root fuel schedule hc hr fragments hx'
    (lt_of_le_of_lt (mul_le_mul_of_nonneg_right (by linarith) (by linarith)) hs) h
  exact ⟨ops, fragments, placed, h, hx', h1, h2⟩

/-- **C128** of the calls, under conditions that are about the tree of boxes, the font and its ascender alone: the calls are made, and everything is in
its place from left to right, and not farther from it up or down than `pageBound`. -/
theorem C128_static_calls {σ E Err : Type} (engine : Engine σ) (api : FontApi Single Err) (e : Nat) (advance : Nat → Nat)
    (hf : EmFont api (2 ^ e) advance) (he : e < 16) (d : Verif.Dom.Document) (P : Painter Single E) (hP : P.round = Single.round)
    (ho : P.fontView.Ok) (hasc : P.ascender.Finite)
    (k : Nat) (hk : k ≤ 100) (root : BlockFormattingContext) (fuel : Nat) (schedule : Oracle) (hc : constructDocument engine d fuel = some root)
    (hr : root.contents.Ruled k e) (hwf : root.contents.Wf api) (hfuel : root.contents.depth ≤ fuel) (D : Nat) (K : Rat) (hK : 0 ≤ K)
    (hlow : root.contents.Low D K) (J : Rat) (hJ : 0 ≤ J) (n : Nat) (hd : root.contents.Nested (TextTo J P.ascender.value) n)
    (hs : (n + 5) * (600 + root.contents.reach (textUnits api advance) e) < 2 ^ 23 / 2 ^ k)
    (hn : root.contents.tallness D + n + 7 ≤ 2 ^ 23) (hm : (n + 5) * root.contents.bulk K + J ≤ 2 ^ 100) :
    ∃ ops fragments placed, documentCalls P engine api d fuel schedule = some ops ∧
      Layout.layoutDocument engine (exactFont api (2 ^ e) advance) d fuel schedule ⟨600, 800⟩ = some fragments ∧
      Placed ⟨0, 0⟩ fragments placed ∧ RowCalls P api ops (placed.flatMap fun p => p.1.shape P.ascender.value p.2) ∧
      ColumnCalls P (Within (pageBound n D K J root.contents)) ops (placed.flatMap fun p => p.1.shape P.ascender.value p.2) := by
  obtain ⟨ops, h⟩ := static_calls engine api d P ho root fuel schedule hc hwf hfuel
  obtain ⟨fragments, placed, h1, h2, h3, h4, h5, h6, h7⟩ := static_layout engine (exactFont api (2 ^ e) advance) d k e root fuel schedule hc hr D K hK
    (containerWf_exactFont hwf) hfuel J P.ascender.value hJ n hd
  have h4' : (fragmentLayers fragments : Rat) ≤ n := by exact_mod_cast h4
  have n0 := containerReach_nonneg (textUnits api advance) e root.contents
  have nM := massAll_nonneg hK (ofFragments fragments)
  obtain ⟨r1, r2⟩ := C128_calls engine api e advance hf he d P hP hasc k hk root fuel schedule hc hr D K hK hlow fragments h1
    (lt_of_le_of_lt (mul_le_mul_of_nonneg_right (by linarith) (by linarith)) hs) placed h2 J hJ h3 (by omega)
    (le_trans (add_le_add (mul_le_mul (by linarith) h6 nM (by positivity)) (le_refl J)) hm) h
  exact ⟨ops, fragments, placed, h, h1, h2, r1, r2.imp fun a a' hw => ⟨hw.1, hw.2.trans h7⟩⟩

theorem InColumn.mono {δ δ' : Rat} (h : δ ≤ δ') : ∀ {p : Painted Single} {s : Shape}, InColumn δ p s → InColumn δ' p s
  | .fill _ _ _ _, .rect _ _ _, ⟨h1, x, y, w, v, h2, h3, h4⟩ => ⟨h1, x, y, w, v, h2, ⟨h3.1, h3.2.trans h⟩, ⟨h4.1, h4.2.trans h⟩⟩
  | .show _ _ _ _ _ _ _, .glyphs _ _ _ _, ⟨h1, h2, x, y, h3, h4⟩ => ⟨h1, h2, x, y, h3, ⟨h4.1, h4.2.trans h⟩⟩

/-- **C128** of the file, with measures of the tree of boxes alone: the conditions are about the document, the font and the numbers that are printed
(see C119). -/
theorem C128_static_page_partial {σ E Err : Type} (engine : Engine σ) (api : FontApi Single Err) (e : Nat) (advance : Nat → Nat)
    (hf : EmFont api (2 ^ e) advance) (he : e < 16) (hg : ∀ c g, api.glyphId c = .ok g → g < 65536) (d : Verif.Dom.Document)
    {digits : Nat → Nat × Int} (hdi : FindsDigits digits) (address : Nat) (view : FontView E) (ascender : Single) (hasc : ascender.Finite)
    (hv : view.Valid) (ho : view.Ok)
    (k : Nat) (hk : k ≤ 100) (root : BlockFormattingContext) (fuel : Nat) (schedule : Oracle) (hc : constructDocument engine d fuel = some root)
    (hr : root.contents.Ruled k e) (hwf : root.contents.Wf api) (hfuel : root.contents.depth ≤ fuel) (D : Nat) (K : Rat) (hK : 0 ≤ K)
    (hlow : root.contents.Low D K) (J : Rat) (hJ : 0 ≤ J) (n : Nat) (hd : root.contents.Nested (TextTo J ascender.value) n)
    (hs : (n + 5) * (600 + root.contents.reach (textUnits api advance) e) < 2 ^ 23 / 2 ^ k)
    (hn : root.contents.tallness D + n + 7 ≤ 2 ^ 23) (hm : (n + 5) * root.contents.bulk K + J ≤ 2 ^ 100) {bytes : List Byte} :
    let P : Painter Single E := ⟨singleFloats (dtoaText digits), Single.round, address, view, ascender⟩
    toPdfBytes P engine api d fuel schedule = some bytes →
    (∀ ops, documentCalls P engine api d fuel schedule = some ops →
      ∀ r ∈ PageCalls.numbers P.floats ⟨P.round 600, P.round 800, ops⟩, Plain r) → bytes.length ≤ 2 ^ 32 →
    ∃ fragments placed m file page painted,
      Layout.layoutDocument engine (exactFont api (2 ^ e) advance) d fuel schedule ⟨600, 800⟩ = some fragments ∧ Placed ⟨0, 0⟩ fragments placed ∧
      (∀ fuel, m ≤ fuel → readDocument readSingle fuel bytes = some file) ∧ file.pages = [page] ∧
      (∃ m, ∀ fuel, m ≤ fuel → paintContents readSingle .zero .one (gsAlpha file.extGState) fuel page.contents = some painted) ∧
      AllMatch InRow painted (placed.flatMap fun p => p.1.shape ascender.value p.2) ∧
      AllMatch (InColumn (pageBound n D K J root.contents)) painted (placed.flatMap fun p => p.1.shape ascender.value p.2) := by
  intro P h hplain hl
  obtain ⟨fragments, placed, h1, h2, h3, h4, h5, h6, h7⟩ := static_layout engine (exactFont api (2 ^ e) advance) d k e root fuel schedule hc hr D K hK
    (containerWf_exactFont hwf) hfuel J ascender.value hJ n hd
  have h4' : (fragmentLayers fragments : Rat) ≤ n := by exact_mod_cast h4
  have n0 := containerReach_nonneg (textUnits api advance) e root.contents
  have nM := massAll_nonneg hK (ofFragments fragments)
  obtain ⟨m, file, page, painted, r1, r2, r3, r4, r5⟩ := C128_page_partial engine api e advance hf he hg d hdi address view ascender hasc hv ho k hk
    root fuel schedule hc hr D K hK hlow fragments h1
    (lt_of_le_of_lt (mul_le_mul_of_nonneg_right (by linarith) (by linarith)) hs) placed h2 J hJ h3 (by omega)
    (le_trans (add_le_add (mul_le_mul (by linarith) h6 nM (by positivity)) (le_refl J)) hm) h hplain hl
  exact ⟨fragments, placed, m, file, page, painted, h1, h2, r1, r2, r3, r4, AllMatch.mono (fun _ _ => InColumn.mono h7) r5⟩
end

/-! ### An example -/

mutual
/-- A test for `BlockContainer.Nested`. -/
def nestedTest (t : ComputedValues → Bool) (n : Nat) : BlockContainer → Bool
  | .blockLevelBoxes boxes => nestedBlocksTest t n boxes
  | .inlineFormattingContext boxes => decide (1 ≤ n) && nestedLineTest t (n - 1) boxes
/-- See `nestedTest`. -/
def nestedBoxTest (t : ComputedValues → Bool) (n : Nat) : BlockLevelBox → Bool
  | .sameFormattingContextBlock _ contents => decide (1 ≤ n) && nestedTest t (n - 1) contents
  | .outOfFlowAbsolutelyPositioned _ _ _ => decide (1 ≤ n)
  | .outOfFlowFloat _ _ _ => decide (1 ≤ n)
  | .independent _ _ contents => decide (1 ≤ n) && nestedTest t (n - 1) contents
/-- See `nestedTest`. -/
def nestedBlocksTest (t : ComputedValues → Bool) (n : Nat) : List BlockLevelBox → Bool
  | [] => true
  | b :: bs => nestedBoxTest t n b && nestedBlocksTest t n bs
/-- See `nestedTest`. -/
def nestedInlineTest (t : ComputedValues → Bool) (n : Nat) : InlineLevelBox → Bool
  | .inlineBox _ _ _ children => decide (1 ≤ n) && nestedLineTest t (n - 1) children
  | .textRun style _ => decide (1 ≤ n) && t style
  | .outOfFlowAbsolutelyPositioned _ _ _ => true
  | .outOfFlowFloat _ _ _ => true
/-- See `nestedTest`. -/
def nestedLineTest (t : ComputedValues → Bool) (n : Nat) : List InlineLevelBox → Bool
  | [] => true
  | b :: bs => nestedInlineTest t n b && nestedLineTest t n bs
end

section
variable {T : ComputedValues → Prop} {t : ComputedValues → Bool} (ht : ∀ s, t s = true → T s)
include ht
mutual
theorem nestedTest_sound : ∀ {n : Nat} {c : BlockContainer}, nestedTest t n c = true → c.Nested T n
  | _, .blockLevelBoxes _, h => by rw [nestedTest] at h; rw [BlockContainer.Nested]; exact nestedBlocksTest_sound h
  | _, .inlineFormattingContext _, h => by
    rw [nestedTest, Bool.and_eq_true] at h; rw [BlockContainer.Nested]; exact ⟨of_decide_eq_true h.1, nestedLineTest_sound h.2⟩
theorem nestedBoxTest_sound : ∀ {n : Nat} {b : BlockLevelBox}, nestedBoxTest t n b = true → b.Nested T n
  | _, .sameFormattingContextBlock _ _, h => by
    rw [nestedBoxTest, Bool.and_eq_true] at h; rw [BlockLevelBox.Nested]; exact ⟨of_decide_eq_true h.1, nestedTest_sound h.2⟩
  | _, .outOfFlowAbsolutelyPositioned _ _ _, h => by rw [nestedBoxTest] at h; rw [BlockLevelBox.Nested]; exact of_decide_eq_true h
  | _, .outOfFlowFloat _ _ _, h => by rw [nestedBoxTest] at h; rw [BlockLevelBox.Nested]; exact of_decide_eq_true h
  | _, .independent _ _ _, h => by
    rw [nestedBoxTest, Bool.and_eq_true] at h; rw [BlockLevelBox.Nested]; exact ⟨of_decide_eq_true h.1, nestedTest_sound h.2⟩
theorem nestedBlocksTest_sound : ∀ {n : Nat} {bs : List BlockLevelBox}, nestedBlocksTest t n bs = true → blocksNested T n bs
  | _, [], _ => by rw [blocksNested]; trivial
  | _, _ :: _, h => by
    rw [nestedBlocksTest, Bool.and_eq_true] at h; rw [blocksNested]; exact ⟨nestedBoxTest_sound h.1, nestedBlocksTest_sound h.2⟩
theorem nestedInlineTest_sound : ∀ {n : Nat} {b : InlineLevelBox}, nestedInlineTest t n b = true → b.Nested T n
  | _, .inlineBox _ _ _ _, h => by
    rw [nestedInlineTest, Bool.and_eq_true] at h; rw [InlineLevelBox.Nested]; exact ⟨of_decide_eq_true h.1, nestedLineTest_sound h.2⟩
  | _, .textRun _ _, h => by rw [nestedInlineTest, Bool.and_eq_true] at h; rw [InlineLevelBox.Nested]; exact ⟨of_decide_eq_true h.1, ht _ h.2⟩
  | _, .outOfFlowAbsolutelyPositioned _ _ _, _ => by rw [InlineLevelBox.Nested]; trivial
  | _, .outOfFlowFloat _ _ _, _ => by rw [InlineLevelBox.Nested]; trivial
theorem nestedLineTest_sound : ∀ {n : Nat} {bs : List InlineLevelBox}, nestedLineTest t n bs = true → lineNested T n bs
  | _, [], _ => by rw [lineNested]; trivial
  | _, _ :: _, h => by
    rw [nestedLineTest, Bool.and_eq_true] at h; rw [lineNested]; exact ⟨nestedInlineTest_sound h.1, nestedLineTest_sound h.2⟩
end
end

/-- A test for `TextTo`. -/
def textToTest (J ascender : Rat) (style : ComputedValues) : Bool :=
  decide (1 / 2 ^ 100 ≤ fontSizeOf style) && decide (fontSizeOf style * (1 + |ascender|) ≤ J)

theorem textToTest_sound {J ascender : Rat} (style : ComputedValues) (h : textToTest J ascender style = true) : TextTo J ascender style := by
  rw [textToTest, Bool.and_eq_true] at h
  exact ⟨of_decide_eq_true h.1, of_decide_eq_true h.2⟩

/-- The hypotheses of `C126_static_calls`, `C128_static_calls` and `C128_static_page_partial` are met by the document of `C126_example`, with
`D = 6`, `K = 60`, `J = 31` and `n = 5`; for those which they have in common with `C126_page_partial`, see there. Nothing is moved by more than a tenth of a pixel. -/
theorem C128_static_example :
    (constructDocument rowGroundEngine rowDocument 9).map (fun root => (lowTest 6 60 root.contents && inFlowTest root.contents &&
      nestedTest (textToTest 31 rowPainter.ascender.value) 5 root.contents && nestedTest (fun _ => true) 5 root.contents &&
      decide (root.contents.bulk 60 = 1444) && decide (pageBound 5 6 60 31 root.contents < 1 / 10), root.contents.tallness 6 + 5 + 7, root.contents.depth)) = some (true, 47, 5) ∧
    (∀ ch, Shapable rowFont ch) ∧ ((5 + 5) * 1444 + 31 : Rat) ≤ 2 ^ 100 := by
  have hp : parseStylesheets rowGroundEngine rowDocument = some ⟨[]⟩ := rowGroundEngine_sheets rfl
  refine ⟨?_, fun ch => ⟨_, _, rfl, rfl⟩, by norm_num⟩
  simp only [constructDocument, hp]
  decide +kernel

end Verif.Layout.Machine
