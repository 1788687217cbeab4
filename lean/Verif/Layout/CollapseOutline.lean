/- Which blocks there are on a page. Lemmas for C106. -/
import Verif.Layout.CollapsePlaces
namespace Verif.Layout
open Verif.Style Verif.Text
variable {Err : Type} {F : FontApi Rat Err}

/-- The boxes are those of these blocks. -/
inductive Outlined : List BlockLevelBox → List Outline → Prop
  | nil : Outlined [] []
  | anonymous {parent xs bs o} : Outlined bs o →
      Outlined (.sameFormattingContextBlock (ComputedValues.anonymousInheritingFrom (some parent)) (.inlineFormattingContext xs) :: bs) o
  | absolute {s f c bs o} : Outlined bs o → Outlined (.outOfFlowAbsolutelyPositioned s f c :: bs) o
  | float {s f c bs o} : Outlined bs o → Outlined (.outOfFlowFloat s f c :: bs) o
  | sameLines {s xs bs o} : Outlined bs o → Outlined (.sameFormattingContextBlock s (.inlineFormattingContext xs) :: bs) (.block s [] :: o)
  | sameBoxes {s cs i bs o} : Outlined cs i → Outlined bs o → Outlined (.sameFormattingContextBlock s (.blockLevelBoxes cs) :: bs) (.block s i :: o)
  | independentLines {s f xs bs o} : Outlined bs o → Outlined (.independent s f (.inlineFormattingContext xs) :: bs) (.block s [] :: o)
  | independentBoxes {s f cs i bs o} : Outlined cs i → Outlined bs o → Outlined (.independent s f (.blockLevelBoxes cs) :: bs) (.block s i :: o)

theorem Outlined.append {bs : List BlockLevelBox} {o : List Outline} (h : Outlined bs o) {bs' : List BlockLevelBox} {o' : List Outline}
    (h' : Outlined bs' o') : Outlined (bs ++ bs') (o ++ o') := by
  induction h with
  | nil => exact h'
  | anonymous _ ih => exact .anonymous ih
  | absolute _ ih => exact .absolute ih
  | float _ ih => exact .float ih
  | sameLines _ ih => exact .sameLines ih
  | sameBoxes h1 _ _ ih => exact .sameBoxes h1 ih
  | independentLines _ ih => exact .independentLines ih
  | independentBoxes h1 _ _ ih => exact .independentBoxes h1 ih

/-- The contents of a block are those of these blocks. -/
def BlockContainer.Outlined : BlockContainer → List Outline → Prop
  | .blockLevelBoxes bs, o => Layout.Outlined bs o
  | .inlineFormattingContext _, o => o = []

theorem outlined_endOngoing {b b1 : Builder} {cs : ComputedValues} {o : List Outline} (h : Outlined b.blockLevelBoxes o)
    (he : b.endOngoing cs = some b1) : Outlined b1.blockLevelBoxes o := by
  unfold Builder.endOngoing at he
  split at he
  · cases he
  · split at he
    · injection he with he
      exact he ▸ h
    · injection he with he
      subst he
      simpa using h.append (.anonymous .nil)

theorem Outlined.of_nil {o : List Outline} (h : Outlined [] o) : o = [] := by cases h; rfl

theorem outlined_finish {b : Builder} {cs : ComputedValues} {c : BlockContainer} {f : Bool} {o : List Outline} (h : Outlined b.blockLevelBoxes o)
    (he : b.finish cs = some (c, f)) : c.Outlined o := by
  unfold Builder.finish at he
  split at he
  · simp only [Option.some.injEq, Prod.mk.injEq] at he
    obtain ⟨rfl, -⟩ := he
    exact h
  · split at he
    · rename_i hb
      simp only [Option.some.injEq, Prod.mk.injEq] at he
      obtain ⟨rfl, -⟩ := he
      have : b.blockLevelBoxes = [] := by simpa using hb
      rw [this] at h
      exact h.of_nil
    · rcases h1 : b.endOngoing cs with _ | b1
      · simp [h1] at he
      · simp only [h1, Option.some.injEq, Prod.mk.injEq] at he
        obtain ⟨rfl, -⟩ := he
        exact outlined_endOngoing h h1

theorem outlined_setCurrent {b : Builder} {o : List Outline} (h : Outlined b.blockLevelBoxes o) (bs : List InlineLevelBox) :
    Outlined (b.setCurrent bs).blockLevelBoxes o := by
  unfold Builder.setCurrent
  split <;> exact h

theorem outline_none {s : ComputedValues} {ch : List StyledNode} (h : displayOf s = .none) : (StyledNode.element s ch).outline = [] := by
  rw [StyledNode.outline, h]

theorem outline_contents {s : ComputedValues} {ch : List StyledNode} (h : displayOf s = .contents) :
    (StyledNode.element s ch).outline = nodesOutline ch := by
  rw [StyledNode.outline, h]

theorem outline_inline {s : ComputedValues} {ch : List StyledNode} {i : DisplayInside} (h : displayOf s = .generatingBox .inline i) :
    (StyledNode.element s ch).outline = nodesOutline ch := by
  rw [StyledNode.outline, h]

theorem outline_out {s : ComputedValues} {ch : List StyledNode} {i : DisplayInside} (h : displayOf s = .generatingBox .block i)
    (hp : positionOf s = .absolute ∨ floatOf s ≠ .none) : (StyledNode.element s ch).outline = [] := by
  rw [StyledNode.outline, h]
  simp only [hp, if_true]

theorem outline_block {s : ComputedValues} {ch : List StyledNode} {i : DisplayInside} (h : displayOf s = .generatingBox .block i)
    (hp : positionOf s ≠ .absolute) (hf : floatOf s = .none) : (StyledNode.element s ch).outline = [.block s (nodesOutline ch)] := by
  rw [StyledNode.outline, h]
  simp only [hp, hf, ne_eq, not_true, or_self, if_false]

theorem traverse_outlined : TraversalCases
    (fun _ _ n b b' => SameOutside b b' ∧ (∀ o, Outlined b.blockLevelBoxes o → Outlined b'.blockLevelBoxes (o ++ n.outline)))
    (fun _ _ ns b b' => SameOutside b b' ∧ (∀ o, Outlined b.blockLevelBoxes o → Outlined b'.blockLevelBoxes (o ++ nodesOutline ns))) where
  ignored _ _ b := ⟨.refl b, fun o h => by rw [StyledNode.outline, List.append_nil]; exact h⟩
  text _ _ t b := ⟨.handleText _ _ _, fun o h => by
    rw [StyledNode.outline, List.append_nil, handleText_eq]
    split
    · exact h
    · exact outlined_setCurrent h _⟩
  none _ _ _ _ b hd := ⟨.refl b, fun o h => by rw [outline_none hd, List.append_nil]; exact h⟩
  contents _ _ s _ _ _ hd h := by rw [outline_contents hd]; exact h
  inline cs ps s ch b b1 o rest hd h hs := by
    refine ⟨traverse_shape.inline cs ps s ch b b1 o rest hd h.1 hs, fun o hb => ?_⟩
    obtain ⟨rfl, -, -, h2, h3⟩ := inline_inner h.1 hs
    rw [outline_inline hd]
    exact outlined_setCurrent (b := { b1 with stack := b.stack }) (h.2 o hb) _
  absoluteInline cs ps s ch b inner c f i h1 h2 h3 h4 h5 :=
    ⟨.setCurrent _ _, fun o hb => by rw [outline_out h1 (.inl h2), List.append_nil]; exact outlined_setCurrent hb _⟩
  absoluteBlock cs ps s ch b inner c f i h1 h2 h3 h4 h5 :=
    ⟨traverse_shape.absoluteBlock cs ps s ch b inner c f i h1 h2 h3.1 h4 h5, fun o hb => by
      rw [outline_out h1 (.inl h2)]; exact hb.append (.absolute .nil)⟩
  floatInline cs ps s ch b inner c f i h1 h2 h2' h3 h4 h5 :=
    ⟨traverse_shape.floatInline cs ps s ch b inner c f i h1 h2 h2' h3.1 h4 h5, fun o hb => by
      rw [outline_out h1 (.inr h2'), List.append_nil]
      exact outlined_setCurrent (b := { b with containsFloats := true }) hb _⟩
  floatBlock cs ps s ch b inner c f i h1 h2 h2' h3 h4 h5 :=
    ⟨traverse_shape.floatBlock cs ps s ch b inner c f i h1 h2 h2' h3.1 h4 h5, fun o hb => by
      rw [outline_out h1 (.inr h2')]; exact hb.append (.float .nil)⟩
  block cs ps s ch b b1 inner c f i h1 h2 h2' h0 h3 h4 := by
    refine ⟨traverse_shape.block cs ps s ch b b1 inner c f i h1 h2 h2' h0 h3.1 h4, fun o hb => ?_⟩
    have hc : c.Outlined (nodesOutline ch) := outlined_finish (by simpa using h3.2 [] .nil) h4
    rw [outline_block h1 h2 h2']
    refine (outlined_endOngoing hb (splitInlines_eq h0).2).append ?_
    cases i <;> cases c
    · exact .sameBoxes hc .nil
    · rw [show nodesOutline ch = [] from hc]; exact .sameLines .nil
    · exact .independentBoxes hc .nil
    · rw [show nodesOutline ch = [] from hc]; exact .independentLines .nil
  nil _ _ b := ⟨.refl b, fun o h => by rw [nodesOutline, List.append_nil]; exact h⟩
  cons _ _ _ _ _ _ _ h h' := ⟨h.1.trans h'.1, fun o hb => by
    rw [nodesOutline, ← List.append_assoc]
    exact h'.2 _ (h.2 o hb)⟩

theorem constructRoot_outlined {style : ComputedValues} {children : List StyledNode} {root : BlockFormattingContext} (hd : displayOf style ≠ .none)
    (hp : positionOf style ≠ .absolute) (hf : floatOf style = .none) (h : constructRoot style children = some root) :
    ∃ bs, root.contents = .blockLevelBoxes bs ∧ Outlined bs [.block style (nodesOutline children)] := by
  have hp' : (positionOf style).isAbsolutelyPositioned = false := by
    rw [Bool.eq_false_iff]; exact fun k => hp ((isAbsolutelyPositioned_iff _).1 k)
  have hf' : (floatOf style).isFloating = false := by rw [hf]; rfl
  unfold constructRoot at h
  simp only [hp', hf', Bool.false_eq_true, if_false] at h
  have key : ∀ c f, constructContainer style children = some (c, f) →
      Outlined [.independent style f c] [.block style (nodesOutline children)] := by
    intro c f hc
    unfold constructContainer at hc
    rcases h1 : traverseNodes style style children Builder.new with _ | b
    · simp [h1] at hc
    · simp only [h1] at hc
      have := outlined_finish (by simpa using (traverseNodes_induct traverse_outlined _ _ _ _ _ h1).2 [] .nil) hc
      cases c
      · exact .independentBoxes this .nil
      · rw [show nodesOutline children = [] from this]; exact .independentLines .nil
  split at h
  · contradiction
  all_goals
    split at h
    · cases h
    · rename_i c f hc
      cases h
      exact ⟨_, rfl, key c f hc⟩

theorem anonymous_lines {fs : List Fragment} (o : Vec2 Rat) (h : AllAnonymous fs) : AllLines (itemsAt o fs) := by
  intro i hi
  obtain ⟨f, hf, rfl⟩ := mem_itemsAt hi
  obtain ⟨r, c, m, rfl⟩ := h f hf
  exact ⟨_, rfl⟩

theorem AllLines.drawn {items : List PageItem} (h : AllLines items) : Drawn items [] := by
  induction items with
  | nil => exact .nil
  | cons i is ih =>
    obtain ⟨inner, rfl⟩ := h i (by simp)
    exact .line (ih fun j hj => h j (by simp [hj]))

/-- What placement does to a fragment. -/
theorem placeFragment_item {s s' : PlacementState} {f g : Fragment} (h : placeFragment s f = some (g, s')) :
    (∃ info children d, f = .box info children ∧ g = .box (info.moveBlock d) children) ∨
    (∃ r c m r', f = .anonymous r c m ∧ g = .anonymous r' c m) := by
  cases f with
  | text => simp [placeFragment] at h
  | anonymous r c m =>
    simp only [placeFragment] at h
    split at h
    · simp only [Option.some.injEq, Prod.mk.injEq] at h
      exact .inr ⟨r, c, m, _, rfl, h.1.symm⟩
    · cases h
  | box info children =>
    refine .inl ?_
    have hz : info = info.moveBlock 0 := by simp [BoxInfo.moveBlock]
    simp only [placeFragment] at h
    split at h
    · split at h
      · split at h
        · simp only [Option.some.injEq, Prod.mk.injEq] at h
          exact ⟨info, children, 0, rfl, by rw [← hz, h.1]⟩
        · simp only [Option.some.injEq, Prod.mk.injEq] at h
          exact ⟨info, children, _, rfl, h.1.symm⟩
      · cases h
    · split at h <;>
      · simp only [Option.some.injEq, Prod.mk.injEq] at h
        exact ⟨info, children, _, rfl, h.1.symm⟩

mutual
theorem LaysC.drawn : ∀ {cb coll c fc}, LaysC F cb coll c fc → ∀ {out}, c.Outlined out → ∀ o, Drawn (itemsAt o fc.fragments) out
  | _, _, _, _, .inlines h, out, ho, o => by
    rw [show out = [] from ho]
    exact (anonymous_lines o (layoutInline_lines h).2).drawn
  | _, _, _, _, .boxes h hp, _, ho, o => LaysL.drawn h ho hp o
theorem LaysL.drawn : ∀ {cb bs fs}, LaysL F cb bs fs → ∀ {out}, Outlined bs out → ∀ {s s' gs}, placeAll s fs = some (gs, s') →
    ∀ o, Drawn (itemsAt o gs) out
  | _, _, _, .nil, out, ho, s, s', gs, hp, o => by
    rw [ho.of_nil]
    simp only [placeAll, Option.some.injEq, Prod.mk.injEq] at hp
    obtain ⟨rfl, -⟩ := hp
    exact .nil
  | _, _, _, .cons (b := b) (f := f) (fs := fs) h1 h2, out, ho, s, s', gs, hp, o => by
    simp only [placeAll] at hp
    rcases k1 : placeFragment s f with _ | ⟨g, s1⟩
    · simp [k1] at hp
    rcases k2 : placeAll s1 fs with _ | ⟨gs1, s2⟩
    · simp [k1, k2] at hp
    simp only [k1, k2, Option.some.injEq, Prod.mk.injEq] at hp
    obtain ⟨rfl, rfl⟩ := hp
    rw [itemsAt]
    cases h1 with
    | float =>
      obtain ⟨_, _, _, k, -⟩ | ⟨r, c, m, r', k, rfl⟩ := placeFragment_item k1
      · cases k
      · cases ho with
        | float ho => exact .line (LaysL.drawn h2 ho k2 o)
    | same h =>
      obtain ⟨info, children, d, k, rfl⟩ | ⟨r, c, m, r', k, rfl⟩ := placeFragment_item k1
      · cases k
        rw [item_moveBlock, Fragment.item]
        cases ho with
        | anonymous ho =>
          cases h with
          | inlines h => exact .anonymous (anonymous_lines _ (layoutInline_lines h).2) (LaysL.drawn h2 ho k2 o)
        | sameLines ho => exact .box (LaysC.drawn h rfl _) (LaysL.drawn h2 ho k2 o)
        | sameBoxes hi ho => exact .box (LaysC.drawn h hi _) (LaysL.drawn h2 ho k2 o)
      · cases k
    | independent h =>
      obtain ⟨info, children, d, k, rfl⟩ | ⟨r, c, m, r', k, rfl⟩ := placeFragment_item k1
      · cases k
        rw [item_moveBlock, Fragment.item]
        cases ho with
        | independentLines ho => exact .box (LaysC.drawn h rfl _) (LaysL.drawn h2 ho k2 o)
        | independentBoxes hi ho => exact .box (LaysC.drawn h hi _) (LaysL.drawn h2 ho k2 o)
      · cases k
end

end Verif.Layout
