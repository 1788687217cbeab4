/- Induction over box construction. -/
import Verif.Layout.ConstructSpec
namespace Verif.Layout
open Verif.Style

/-- Push a box in the current list. -/
def Builder.push (b : Builder) (box : InlineLevelBox) : Builder := b.setCurrent (b.current ++ [box])

/-- The induction principle of box construction: one case for each way in which the code treats a node. -/
structure TraversalCases (P : ComputedValues → ComputedValues → StyledNode → Builder → Builder → Prop)
    (Q : ComputedValues → ComputedValues → List StyledNode → Builder → Builder → Prop) : Prop where
  ignored : ∀ cs ps b, P cs ps .ignored b b
  text : ∀ cs ps t b, P cs ps (.text t) b (b.handleText t ps)
  none : ∀ cs ps s ch b, displayOf s = .none → P cs ps (.element s ch) b b
  contents : ∀ cs ps s ch b b', displayOf s = .contents → Q cs s ch b b' → P cs ps (.element s ch) b b'
  inline : ∀ cs ps s ch b b1 o rest, displayOf s = .generatingBox .inline .flow →
    Q cs s ch { b with stack := ⟨s, true, []⟩ :: b.stack } b1 → b1.stack = o :: rest →
    P cs ps (.element s ch) b (({ b1 with stack := rest } : Builder).push (.inlineBox o.style o.firstFragment true o.children))
  absoluteInline : ∀ cs ps s ch b inner contents floats inside, displayOf s = .generatingBox .block inside →
    positionOf s = .absolute → Q s s ch Builder.new inner → inner.finish s = some (contents, floats) → b.hasOngoing = true →
    P cs ps (.element s ch) b (b.push (.outOfFlowAbsolutelyPositioned s floats contents))
  absoluteBlock : ∀ cs ps s ch b inner contents floats inside, displayOf s = .generatingBox .block inside →
    positionOf s = .absolute → Q s s ch Builder.new inner → inner.finish s = some (contents, floats) → b.hasOngoing = false →
    P cs ps (.element s ch) b
      { b with blockLevelBoxes := b.blockLevelBoxes ++ [.outOfFlowAbsolutelyPositioned s floats contents] }
  floatInline : ∀ cs ps s ch b inner contents floats inside, displayOf s = .generatingBox .block inside →
    positionOf s ≠ .absolute → floatOf s ≠ .none → Q s s ch Builder.new inner → inner.finish s = some (contents, floats) →
    b.hasOngoing = true →
    P cs ps (.element s ch) b (({ b with containsFloats := true } : Builder).push (.outOfFlowFloat s floats contents))
  floatBlock : ∀ cs ps s ch b inner contents floats inside, displayOf s = .generatingBox .block inside →
    positionOf s ≠ .absolute → floatOf s ≠ .none → Q s s ch Builder.new inner → inner.finish s = some (contents, floats) →
    b.hasOngoing = false →
    P cs ps (.element s ch) b
      { b with blockLevelBoxes := b.blockLevelBoxes ++ [.outOfFlowFloat s floats contents], containsFloats := true }
  block : ∀ cs ps s ch b b1 inner contents floats inside, displayOf s = .generatingBox .block inside →
    positionOf s ≠ .absolute → floatOf s = .none → b.splitInlines cs = some b1 → Q s s ch Builder.new inner →
    inner.finish s = some (contents, floats) →
    P cs ps (.element s ch) b
      { b1 with
        blockLevelBoxes := b1.blockLevelBoxes ++
          [match inside with
            | .flow => .sameFormattingContextBlock s contents
            | .flowRoot => .independent s floats contents]
        containsFloats := b1.containsFloats || (match inside with | .flow => floats | .flowRoot => false) }
  nil : ∀ cs ps b, Q cs ps [] b b
  cons : ∀ cs ps n ns b b1 b2, P cs ps n b b1 → Q cs ps ns b1 b2 → Q cs ps (n :: ns) b b2

variable {P : ComputedValues → ComputedValues → StyledNode → Builder → Builder → Prop}
  {Q : ComputedValues → ComputedValues → List StyledNode → Builder → Builder → Prop}

theorem isAbsolutelyPositioned_iff (p : Position) : p.isAbsolutelyPositioned = true ↔ p = .absolute := by
  cases p <;> decide

theorem isFloating_iff (f : Verif.Style.Float) : f.isFloating = true ↔ f ≠ .none := by
  cases f <;> decide

mutual
theorem traverseNode_induct (H : TraversalCases P Q) (cs ps : ComputedValues) :
    ∀ (n : StyledNode) (b b' : Builder), traverseNode cs ps n b = some b' → P cs ps n b b'
  | .ignored, b, b', h => by
    simp only [traverseNode, Option.some.injEq] at h
    subst h
    exact H.ignored _ _ _
  | .text t, b, b', h => by
    simp only [traverseNode, Option.some.injEq] at h
    subst h
    exact H.text _ _ _ _
  | .element s ch, b, b', h => by
    simp only [traverseNode] at h
    rcases hd : displayOf s with _ | _ | ⟨outside, inside⟩
    · simp only [hd, Option.some.injEq] at h
      subst h
      exact H.none _ _ _ _ _ hd
    · simp only [hd] at h
      exact H.contents _ _ _ _ _ _ hd (traverseNodes_induct H cs s ch _ _ h)
    · rcases outside with _ | _
      · rcases inside with _ | _
        · simp only [hd] at h
          rcases h1 : traverseNodes cs s ch { b with stack := ⟨s, true, []⟩ :: b.stack } with _ | b1
          · simp [h1] at h
          · simp only [h1] at h
            rcases h2 : b1.stack with _ | ⟨o, rest⟩
            · simp [h2] at h
            · simp only [h2, Option.some.injEq] at h
              subst h
              exact H.inline _ _ _ _ _ _ _ _ hd (traverseNodes_induct H cs s ch _ _ h1) h2
        · simp [hd] at h
      · simp only [hd] at h
        split at h
        · rename_i hp
          rcases h1 : traverseNodes s s ch Builder.new with _ | inner
          · simp [h1] at h
          · simp only [h1] at h
            rcases h2 : inner.finish s with _ | ⟨contents, floats⟩
            · simp [h2] at h
            · simp only [h2] at h
              have hq := traverseNodes_induct H s s ch _ _ h1
              rcases h3 : b.hasOngoing with _ | _
              · simp only [h3, Bool.false_eq_true, if_false, Option.some.injEq] at h
                subst h
                exact H.absoluteBlock _ _ _ _ _ _ _ _ _ hd ((isAbsolutelyPositioned_iff _).mp hp) hq h2 h3
              · simp only [h3, if_true, Option.some.injEq] at h
                subst h
                exact H.absoluteInline _ _ _ _ _ _ _ _ _ hd ((isAbsolutelyPositioned_iff _).mp hp) hq h2 h3
        · rename_i hp
          split at h
          · rename_i hf
            rcases h1 : traverseNodes s s ch Builder.new with _ | inner
            · simp [h1] at h
            · simp only [h1] at h
              rcases h2 : inner.finish s with _ | ⟨contents, floats⟩
              · simp [h2] at h
              · simp only [h2] at h
                have hq := traverseNodes_induct H s s ch _ _ h1
                have h4 : ({ b with containsFloats := true } : Builder).hasOngoing = b.hasOngoing := rfl
                rw [h4] at h
                rcases h3 : b.hasOngoing with _ | _
                · simp only [h3, Bool.false_eq_true, if_false, Option.some.injEq] at h
                  subst h
                  exact H.floatBlock _ _ _ _ _ _ _ _ _ hd (fun e => hp ((isAbsolutelyPositioned_iff _).mpr e))
                    ((isFloating_iff _).mp hf) hq h2 h3
                · simp only [h3, if_true, Option.some.injEq] at h
                  subst h
                  exact H.floatInline _ _ _ _ _ _ _ _ _ hd (fun e => hp ((isAbsolutelyPositioned_iff _).mpr e))
                    ((isFloating_iff _).mp hf) hq h2 h3
          · rename_i hf
            have hf' : floatOf s = .none := by
              by_contra hc
              exact hf ((isFloating_iff _).mpr hc)
            rcases h0 : b.splitInlines cs with _ | b1
            · simp [h0] at h
            · simp only [h0] at h
              rcases h1 : traverseNodes s s ch Builder.new with _ | inner
              · simp [h1] at h
              · simp only [h1] at h
                rcases h2 : inner.finish s with _ | ⟨contents, floats⟩
                · simp [h2] at h
                · simp only [h2] at h
                  have hq := traverseNodes_induct H s s ch _ _ h1
                  have key := H.block cs ps s ch b b1 inner contents floats inside hd
                    (fun e => hp ((isAbsolutelyPositioned_iff _).mpr e)) hf' h0 hq h2
                  cases inside with
                  | flow =>
                    simp only [Option.some.injEq] at h
                    subst h
                    exact key
                  | flowRoot =>
                    simp only [Option.some.injEq] at h
                    subst h
                    simpa using key
theorem traverseNodes_induct (H : TraversalCases P Q) (cs ps : ComputedValues) :
    ∀ (ns : List StyledNode) (b b' : Builder), traverseNodes cs ps ns b = some b' → Q cs ps ns b b'
  | [], b, b', h => by
    simp only [traverseNodes, Option.some.injEq] at h
    subst h
    exact H.nil _ _ _
  | n :: ns, b, b', h => by
    simp only [traverseNodes] at h
    rcases h1 : traverseNode cs ps n b with _ | b1
    · simp [h1] at h
    · simp only [h1] at h
      exact H.cons _ _ _ _ _ _ _ (traverseNode_induct H cs ps n _ _ h1) (traverseNodes_induct H cs ps ns _ _ h)
end

/-! ### The shape of the builder -/

/-- Inside an inline box only the children of that box change. -/
def SameOutside (b b' : Builder) : Prop :=
  match b.stack with
  | [] => b'.stack = []
  | o :: rest => ∃ children, b'.stack = ⟨o.style, o.firstFragment, children⟩ :: rest ∧ b'.ongoing = b.ongoing ∧
      b'.blockLevelBoxes = b.blockLevelBoxes

theorem SameOutside.refl (b : Builder) : SameOutside b b := by
  unfold SameOutside
  split
  · assumption
  · rename_i o rest h
    exact ⟨o.children, by rw [h], rfl, rfl⟩

theorem SameOutside.trans {b b1 b2 : Builder} (h : SameOutside b b1) (h' : SameOutside b1 b2) : SameOutside b b2 := by
  unfold SameOutside at h ⊢
  split
  · rename_i hs
    simp only [hs] at h
    simpa [SameOutside, h] using h'
  · rename_i o rest hs
    simp only [hs] at h
    obtain ⟨ch, h1, h2, h3⟩ := h
    simp only [SameOutside, h1] at h'
    obtain ⟨ch', h4, h5, h6⟩ := h'
    exact ⟨ch', h4, by rw [h5, h2], by rw [h6, h3]⟩

theorem SameOutside.setCurrent (b : Builder) (boxes : List InlineLevelBox) : SameOutside b (b.setCurrent boxes) := by
  unfold SameOutside Builder.setCurrent
  split
  · rename_i h
    simp [h]
  · rename_i o rest h
    simp only [h]
    exact ⟨boxes, rfl, trivial, trivial⟩

theorem SameOutside.handleText (b : Builder) (t : List Nat) (ps : ComputedValues) : SameOutside b (b.handleText t ps) := by
  unfold Builder.handleText
  split
  split
  · exact .setCurrent _ _
  · exact .refl _

theorem endOngoing_stack {b b1 : Builder} {cs : ComputedValues} (h : b.endOngoing cs = some b1) : b.stack = [] ∧ b1.stack = [] := by
  unfold Builder.endOngoing at h
  split at h
  · cases h
  · rename_i hs
    have hs : b.stack = [] := by simpa using hs
    refine ⟨hs, ?_⟩
    split at h <;> (injection h with h; subst h; exact hs)

theorem splitInlines_eq {b b1 : Builder} {cs : ComputedValues} (h : b.splitInlines cs = some b1) :
    b.stack = [] ∧ b.endOngoing cs = some b1 := by
  unfold Builder.splitInlines at h
  have hs := (endOngoing_stack h).1
  simp only [List.map_eq_nil_iff] at hs
  refine ⟨hs, ?_⟩
  obtain ⟨bl, og, st, cf⟩ := b
  subst hs
  simpa [fragmentStack] using h

theorem hasOngoing_false {b : Builder} (h : b.hasOngoing = false) : b.ongoing = [] ∧ b.stack = [] := by
  simpa [Builder.hasOngoing] using h

theorem traverse_shape : TraversalCases (fun _ _ _ b b' => SameOutside b b') (fun _ _ _ b b' => SameOutside b b') where
  ignored _ _ b := .refl b
  text _ _ t b := .handleText _ _ _
  none _ _ _ _ b _ := .refl b
  contents _ _ _ _ _ _ _ h := h
  inline cs ps s ch b b1 o rest _ h hs := by
    simp only [SameOutside, hs] at h
    obtain ⟨children, h1, h2, h3⟩ := h
    injection h1 with h1 h1'
    subst h1'
    refine SameOutside.trans (b1 := { b1 with stack := b.stack }) ?_ (.setCurrent _ _)
    unfold SameOutside
    split
    · assumption
    · rename_i o' rest' hb
      exact ⟨o'.children, hb, h2, h3⟩
  absoluteInline _ _ _ _ b _ _ _ _ _ _ _ _ _ := .setCurrent _ _
  absoluteBlock cs ps s ch b inner c f i _ _ _ _ h := by
    have := (hasOngoing_false h).2
    simp [SameOutside, this]
  floatInline _ _ _ _ b _ _ _ _ _ _ _ _ _ _ := by
    refine SameOutside.trans (b1 := { b with containsFloats := true }) ?_ (.setCurrent _ _)
    unfold SameOutside
    split
    · assumption
    · rename_i o' rest' hb
      exact ⟨o'.children, hb, rfl, rfl⟩
  floatBlock cs ps s ch b inner c f i _ _ _ _ _ h := by
    have := (hasOngoing_false h).2
    simp [SameOutside, this]
  block cs ps s ch b b1 inner c f i _ _ _ h _ _ := by
    obtain ⟨h1, h2⟩ := splitInlines_eq h
    simp [SameOutside, h1, (endOngoing_stack h2).2]
  nil _ _ b := .refl b
  cons _ _ _ _ _ _ _ h h' := h.trans h'

end Verif.Layout
