/- Which margins collapse: the places of boxes. Lemmas for C106. -/
import Verif.Layout.CollapseNorm
namespace Verif.Layout
open Verif.Style Verif.Text
variable {Err : Type} {F : FontApi Rat Err}

/-! ### The steps do not depend on where the box is -/

mutual
theorem Fragment.item_counts (cb : ContainingBlock) : ∀ (f : Fragment) (o o' : Vec2 Rat), (f.item o).counts cb = (f.item o').counts cb
  | .box info children, o, o' => by
    rw [Fragment.item, Fragment.item, PageItem.counts, PageItem.counts, itemsAt_count cb children _ (o'.add info.contentRect.startCorner)]
  | .anonymous rect children _, o, o' => by
    rw [Fragment.item, Fragment.item, PageItem.counts, PageItem.counts, itemsAt_count cb children _ (o'.add rect.startCorner)]
  | .text _ _ _, _, _ => rfl
theorem itemsAt_count (cb : ContainingBlock) : ∀ (fs : List Fragment) (o o' : Vec2 Rat), itemsCount cb (itemsAt o fs) = itemsCount cb (itemsAt o' fs)
  | [], _, _ => rfl
  | f :: fs, o, o' => by
    rw [itemsAt, itemsAt, itemsCount, itemsCount, Fragment.item_counts cb f o o', itemsAt_count cb fs o o']
end

theorem Fragment.item_isLine (cb : ContainingBlock) (f : Fragment) (o o' : Vec2 Rat) : (f.item o).isLine cb = (f.item o').isLine cb := by
  cases f with
  | box info children => rfl
  | anonymous rect children m => rw [Fragment.item, Fragment.item, PageItem.isLine, PageItem.isLine, itemsAt_count cb children]
  | text => rfl

theorem Fragment.item_isBox (f : Fragment) (o o' : Vec2 Rat) : (f.item o).isBox = (f.item o').isBox := by
  cases f <;> rfl

theorem itemsAt_anyLine (cb : ContainingBlock) (fs : List Fragment) (o o' : Vec2 Rat) :
    (itemsAt o fs).any (PageItem.isLine cb) = (itemsAt o' fs).any (PageItem.isLine cb) := by
  induction fs with
  | nil => rfl
  | cons f fs ih => rw [itemsAt, itemsAt, List.any_cons, List.any_cons, ih, Fragment.item_isLine cb f o o']

theorem itemsAt_allNothing (cb : ContainingBlock) (fs : List Fragment) (o o' : Vec2 Rat) :
    (itemsAt o fs).all (fun i => !i.isLine cb && !i.isBox) = (itemsAt o' fs).all (fun i => !i.isLine cb && !i.isBox) := by
  induction fs with
  | nil => rfl
  | cons f fs ih => rw [itemsAt, itemsAt, List.all_cons, List.all_cons, ih, Fragment.item_isLine cb f o o', Fragment.item_isBox f o o']

mutual
theorem Fragment.item_steps : ∀ (f : Fragment) (root : Bool) (cb : ContainingBlock) (o o' : Vec2 Rat), (f.item o).steps root cb = (f.item o').steps root cb
  | .box info children, root, cb, o, o' => by
    simp only [Fragment.item, PageItem.steps]
    rw [itemsAt_anyLine _ children _ (o'.add info.contentRect.startCorner), itemsAt_allNothing _ children _ (o'.add info.contentRect.startCorner),
      itemsAt_steps children _ _ (o'.add info.contentRect.startCorner)]
    rfl
  | .anonymous _ _ _, _, _, _, _ => rfl
  | .text _ _ _, _, _, _, _ => rfl
theorem itemsAt_steps : ∀ (fs : List Fragment) (cb : ContainingBlock) (o o' : Vec2 Rat), itemsSteps cb (itemsAt o fs) = itemsSteps cb (itemsAt o' fs)
  | [], _, _, _ => rfl
  | f :: fs, cb, o, o' => by
    rw [itemsAt, itemsAt, itemsSteps, itemsSteps, Fragment.item_steps f false cb o o', itemsAt_steps fs cb o o']
end

theorem itemTexts_nil (fs : List Fragment) (o o' : Vec2 Rat) (h : itemTexts (itemsAt o fs) = []) : itemTexts (itemsAt o' fs) = [] := by
  rw [itemsAt_texts, pageTextsOf_at] at h ⊢
  rw [List.map_eq_nil_iff] at h ⊢
  exact h

mutual
theorem Fragment.item_written : ∀ (f : Fragment) (o o' : Vec2 Rat), (f.item o).Written → (f.item o').Written
  | .box info children, o, o', h => by
    rw [Fragment.item, PageItem.Written] at h ⊢
    exact itemsAt_written children _ _ h
  | .anonymous rect children _, o, o', h => by
    rw [Fragment.item, PageItem.Written] at h ⊢
    exact fun k => h (itemTexts_nil _ _ _ k)
  | .text _ _ _, _, _, _ => trivial
theorem itemsAt_written : ∀ (fs : List Fragment) (o o' : Vec2 Rat), itemsWritten (itemsAt o fs) → itemsWritten (itemsAt o' fs)
  | [], _, _, _ => trivial
  | f :: fs, o, o', h => ⟨Fragment.item_written f o o' h.1, itemsAt_written fs o o' h.2⟩
end

theorem itemsAt_ne_nil {fs : List Fragment} {o : Vec2 Rat} (h : itemsAt o fs ≠ []) : fs ≠ [] := by
  rintro rfl
  exact h rfl

mutual
theorem Fragment.item_notFlat : ∀ (f : Fragment) (cb : ContainingBlock) (o o' : Vec2 Rat), (f.item o).NotFlat cb → (f.item o').NotFlat cb
  | .box info children, cb, o, o', h => by
    rw [Fragment.item, PageItem.NotFlat] at h ⊢
    refine ⟨fun k => ?_, itemsAt_notFlat children _ _ _ h.2⟩
    have := itemsAt_ne_nil (h.1 k)
    cases children with
    | nil => exact absurd rfl this
    | cons => simp [itemsAt]
  | .anonymous _ _ _, _, _, _, _ => trivial
  | .text _ _ _, _, _, _, _ => trivial
theorem itemsAt_notFlat : ∀ (fs : List Fragment) (cb : ContainingBlock) (o o' : Vec2 Rat), itemsNotFlat cb (itemsAt o fs) → itemsNotFlat cb (itemsAt o' fs)
  | [], _, _, _, _ => trivial
  | f :: fs, cb, o, o', h => ⟨Fragment.item_notFlat f cb o o' h.1, itemsAt_notFlat fs cb o o' h.2⟩
end

theorem item_moveBlock (info : BoxInfo) (children : List Fragment) (d : Rat) (o : Vec2 Rat) :
    (Fragment.box (info.moveBlock d) children).item o = (Fragment.box info children).item (o.add ⟨0, d⟩) := by
  have h : o.add (info.moveBlock d).contentRect.startCorner = (o.add ⟨0, d⟩).add info.contentRect.startCorner := by
    simp only [Vec2.add, BoxInfo.moveBlock, Vec2.mk.injEq]
    constructor <;> ring
  simp only [Fragment.item]
  rw [h]
  simp only [BoxInfo.borderAt, BoxInfo.contentAt, BoxInfo.moveBlock, Vec2.add, PageItem.box.injEq, Extent.mk.injEq, and_true, true_and]
  refine ⟨⟨by ring, by ring⟩, by ring, by ring⟩

/-! ### Lines -/

theorem breakLine_anonymous (cb : ContainingBlock) : ∀ (stack : List PartialInlineBox) (level : NestingLevel) (position : Rat) (lines : LinesBoxes),
    ∃ r c m, (breakLine cb stack level position lines).2.2.boxes = lines.boxes ++ [Fragment.anonymous r c m]
  | [], level, position, lines => ⟨_, _, _, rfl⟩
  | p :: rest, level, position, lines => by
    simp only [breakLine]
    exact breakLine_anonymous cb rest _ _ lines

/-- All of them are lines. -/
def AllAnonymous (fs : List Fragment) : Prop := ∀ f ∈ fs, ∃ r c m, f = Fragment.anonymous r c m

theorem AllAnonymous.snoc {fs : List Fragment} (h : AllAnonymous fs) (r : Rect Rat) (c : List Fragment) (m : Mode) :
    AllAnonymous (fs ++ [.anonymous r c m]) := by
  intro f hf
  rcases List.mem_append.1 hf with hf | hf
  · exact h f hf
  · exact ⟨r, c, m, List.mem_singleton.1 hf⟩

theorem lines_invariant (cb : ContainingBlock) :
    Invariant cb (fun ifc => AllAnonymous ifc.lineBoxes.boxes) (fun lines => lines ≠ [] ∧ AllAnonymous lines) where
  start := fun h _ => h
  skip := fun h _ => h
  text := fun _ _ h => h
  line := by
    intro ifc h
    obtain ⟨r, c, m, k⟩ := breakLine_anonymous cb ifc.stack ifc.current ifc.inlinePosition ifc.lineBoxes
    show AllAnonymous (breakLine cb ifc.stack ifc.current ifc.inlinePosition ifc.lineBoxes).2.2.boxes
    rw [k]
    exact h.snoc r c m
  close := fun h _ _ => h
  «end» := fun h _ _ => ⟨by simp [finishLine], h.snoc _ _ _⟩

theorem layoutInline_lines {xs : List InlineLevelBox} {cb : ContainingBlock} {rank : Nat} {as : Absolutes} {fc : FlowChildren}
    (h : layoutInline F xs cb rank [] = some (fc, as)) : fc.fragments ≠ [] ∧ AllAnonymous fc.fragments :=
  (lines_invariant cb).layout (by simp [AllAnonymous, initialInlineState]) h

end Verif.Layout
