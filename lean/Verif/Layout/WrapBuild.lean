/- The boxes of the contents of blocks to which blocks are added that have nothing of their own. -/
import Verif.Layout.WrapConstruct
namespace Verif.Layout
open Verif.Style

/-! ### What does not depend on the height of the block around it -/

/-- The ongoing inline boxes do not depend on the height of the block around them. -/
structure Builder.Unmeasured (b : Builder) : Prop where
  ongoing : inlineAll UnmeasuredStyle b.ongoing
  stack : ∀ o ∈ b.stack, UnmeasuredStyle o.style ∧ inlineAll UnmeasuredStyle o.children

theorem inlineAll_append {P : ComputedValues → Prop} {xs ys : List InlineLevelBox} : inlineAll P (xs ++ ys) ↔ inlineAll P xs ∧ inlineAll P ys := by
  induction xs with
  | nil => simp [inlineAll]
  | cons x xs ih => simp [inlineAll, ih, and_assoc]

theorem Builder.Unmeasured.current {b : Builder} (h : b.Unmeasured) : inlineAll UnmeasuredStyle b.current := by
  unfold Builder.current
  split
  · rename_i o rest hs
    exact (h.stack o (by simp [hs])).2
  · exact h.ongoing

theorem Builder.Unmeasured.setCurrent {b : Builder} (h : b.Unmeasured) {xs : List InlineLevelBox} (hx : inlineAll UnmeasuredStyle xs) :
    (b.setCurrent xs).Unmeasured := by
  unfold Builder.setCurrent
  split
  · rename_i o rest hs
    refine ⟨h.ongoing, fun o' ho' => ?_⟩
    rcases List.mem_cons.1 ho' with rfl | ho'
    · exact ⟨(h.stack o (by simp [hs])).1, hx⟩
    · exact h.stack o' (by simp [hs, ho'])
  · exact ⟨hx, h.stack⟩

theorem inlineAll_appendText {P : ComputedValues → Prop} (ps : ComputedValues) (out : List Nat) (bs : List InlineLevelBox) (h : inlineAll P bs) :
    inlineAll P (appendText ps out bs) := by
  rcases appendText_cases ps out bs with e | ⟨pre, s, t, e, e'⟩
  · rw [e, inlineAll_append]
    exact ⟨h, trivial, trivial⟩
  · rw [e']
    rw [e, inlineAll_append] at h
    rw [inlineAll_append]
    exact ⟨h.1, trivial, trivial⟩

theorem Builder.Unmeasured.handleText {b : Builder} (h : b.Unmeasured) (t : List Nat) (ps : ComputedValues) : (b.handleText t ps).Unmeasured := by
  simp only [Builder.handleText]
  split
  · exact h.setCurrent (inlineAll_appendText _ _ _ h.current)
  · exact h

/-- What is appended to the blocks. -/
def Builder.Adds (b b1 : Builder) : Prop :=
  (b.Unmeasured → b1.Unmeasured) ∧ ∃ ext, b1.blockLevelBoxes = b.blockLevelBoxes ++ ext ∧ ∀ x ∈ ext, BlockLevelBox.Unmeasured x

theorem Builder.Adds.same {b b1 : Builder} (h : b.Unmeasured → b1.Unmeasured) (e : b1.blockLevelBoxes = b.blockLevelBoxes) : b.Adds b1 :=
  ⟨h, [], by simp [e], by simp⟩

theorem Builder.Adds.trans {b b1 b2 : Builder} (h1 : b.Adds b1) (h2 : b1.Adds b2) : b.Adds b2 := by
  obtain ⟨u1, e1, a1, a2⟩ := h1
  obtain ⟨u2, e2, c1, c2⟩ := h2
  refine ⟨u2 ∘ u1, e1 ++ e2, by rw [c1, a1, List.append_assoc], fun x hx => ?_⟩
  rcases List.mem_append.1 hx with hx | hx
  · exact a2 x hx
  · exact c2 x hx

theorem unmeasured_anonymous (s : ComputedValues) (c : BlockContainer) : (BlockLevelBox.sameFormattingContextBlock (fade s) c).Unmeasured := by
  intro p h
  have : ((fade s).values .height : LengthOrPercentageOrAuto) = .auto := rfl
  rw [this] at h
  cases h

theorem endOngoing_wraps {b b1 : Builder} {cs : ComputedValues} (h : b.endOngoing cs = some b1) : b.Adds b1 := by
  obtain ⟨h1, h2, h3, h4⟩ := endOngoing_some h
  refine ⟨fun _ => ⟨by rw [h3]; trivial, by simp [h2]⟩, _, h4, fun x hx => ?_⟩
  split at hx
  · cases hx
  · rw [List.mem_singleton.1 hx]
    exact unmeasured_anonymous _ _

theorem Builder.Adds.push {b b1 : Builder} (h : b.Adds b1) {x : BlockLevelBox} (hx : x.Unmeasured) (f : Bool) :
    b.Adds { b1 with blockLevelBoxes := b1.blockLevelBoxes ++ [x], containsFloats := f } := by
  refine h.trans ⟨fun hu => ⟨hu.ongoing, hu.stack⟩, [x], rfl, fun y hy => ?_⟩
  rw [List.mem_singleton.1 hy]
  exact hx

mutual
theorem adds_node : ∀ (n : StyledNode) (cs ps : ComputedValues) (b b1 : Builder), n.Unmeasured → traverseNode cs ps n b = some b1 → b.Adds b1
  | .ignored => by
    intro cs ps b b1 hn h
    simp only [traverseNode] at h
    cases h
    exact .same id rfl
  | .text t => by
    intro cs ps b b1 hn h
    simp only [traverseNode] at h
    cases h
    exact .same (fun hu => hu.handleText _ _) (handleText_blocks _ _ _)
  | .element s children => by
    intro cs ps b b1 hn h
    simp only [traverseNode] at h
    simp only [StyledNode.Unmeasured] at hn
    rcases hd : displayOf s with _ | _ | ⟨outside, inside⟩ <;> simp only [hd] at h hn
    · cases h
      exact .same id rfl
    · exact adds_nodes children cs s b b1 hn h
    · cases outside with
      | inline =>
        cases inside with
        | flowRoot => cases h
        | flow =>
          simp only at h hn
          rcases t : traverseNodes cs s children { b with stack := ⟨s, true, []⟩ :: b.stack } with _ | c
          · simp [t] at h
          · simp only [t] at h
            obtain ⟨u, e, a1, a2⟩ := adds_nodes children cs s _ c hn.2 t
            split at h
            · cases h
            · rename_i o rest hs
              cases h
              refine ⟨fun hu => ?_, e, by rw [setCurrent_blocks]; exact a1, a2⟩
              have hc := u ⟨hu.ongoing, fun o ho => by
                rcases List.mem_cons.1 ho with rfl | ho
                · exact ⟨hn.1, trivial⟩
                · exact hu.stack o ho⟩
              have hr : Builder.Unmeasured { c with stack := rest } := ⟨hc.ongoing, fun o ho => hc.stack o (by simp [hs, ho])⟩
              exact hr.setCurrent (inlineAll_append.2 ⟨hr.current, hc.stack o (by simp [hs]), trivial⟩)
      | block =>
        simp only at h hn
        split at h
        · split at h
          · cases h
          · split at h
            · cases h
            · split at h
              · cases h
                exact .same (fun hu => hu.setCurrent (inlineAll_append.2 ⟨hu.current, trivial, trivial⟩)) (setCurrent_blocks _ _)
              · cases h
                exact ⟨fun hu => ⟨hu.ongoing, hu.stack⟩, _, rfl, fun x hx => by rw [List.mem_singleton.1 hx]; trivial⟩
        · split at h
          · split at h
            · cases h
            · split at h
              · cases h
              · split at h
                · cases h
                  refine .same (fun hu => ?_) (setCurrent_blocks _ _)
                  have hu' : Builder.Unmeasured { b with containsFloats := true } := ⟨hu.ongoing, hu.stack⟩
                  exact hu'.setCurrent (inlineAll_append.2 ⟨hu'.current, trivial, trivial⟩)
                · cases h
                  exact ⟨fun hu => ⟨hu.ongoing, hu.stack⟩, _, rfl, fun x hx => by rw [List.mem_singleton.1 hx]; trivial⟩
          · split at h
            · cases h
            · rename_i c hp
              have ha := endOngoing_wraps (splitInlines_eq hp).2
              split at h
              · cases h
              · split at h
                · cases h
                · cases inside with
                  | flow =>
                    rename_i contents floats _
                    cases h
                    exact ha.push (x := .sameFormattingContextBlock s contents) hn _
                  | flowRoot =>
                    rename_i contents floats _
                    cases h
                    exact ha.push (x := .independent s floats contents) hn _
theorem adds_nodes : ∀ (ns : List StyledNode) (cs ps : ComputedValues) (b b1 : Builder), nodesUnmeasured ns → traverseNodes cs ps ns b = some b1 →
    b.Adds b1
  | [] => by
    intro cs ps b b1 hn h
    simp only [traverseNodes] at h
    cases h
    exact .same id rfl
  | n :: ns => by
    intro cs ps b b1 hn h
    simp only [traverseNodes] at h
    rcases t : traverseNode cs ps n b with _ | c
    · simp [t] at h
    · simp only [t] at h
      exact (adds_node n cs ps b c hn.1 t).trans (adds_nodes ns cs ps c b1 hn.2 h)
end

/-! ### New lines -/

theorem traverse_stack {cs ps : ComputedValues} {ns : List StyledNode} {b b1 : Builder} (hs : b.stack = []) (h : traverseNodes cs ps ns b = some b1) :
    b1.stack = [] := by
  have := (traverseNodes_induct traverse_shape cs ps ns b b1 h)
  simpa [SameOutside, hs] using this

theorem traverse_stack_node {cs ps : ComputedValues} {n : StyledNode} {b b1 : Builder} (hs : b.stack = []) (h : traverseNode cs ps n b = some b1) :
    b1.stack = [] := traverse_stack (ns := [n]) (cs := cs) (ps := ps) hs (by simp only [traverseNodes, h])

theorem fresh_node {cs ps : ComputedValues} {n : StyledNode} {b b1 : Builder} {fresh : Bool} (hs : b.stack = []) (hf : fresh = true → b.ongoing = [])
    (h : traverseNode cs ps n b = some b1) (hn : n.fresh fresh = true) : b1.ongoing = [] := by
  cases n with
  | ignored =>
    simp only [traverseNode] at h
    cases h
    exact hf hn
  | text t =>
    simp only [traverseNode] at h
    cases h
    simp only [StyledNode.fresh, Bool.and_eq_true] at hn
    have ho := hf hn.1
    have hd : t.dropWhile isAsciiWhitespace = [] := by
      have : ∀ l : List Nat, l.all isAsciiWhitespace = true → l.dropWhile isAsciiWhitespace = [] := by
        intro l
        induction l with
        | nil => intro _; rfl
        | cons c l ih =>
          intro h
          simp only [List.all_cons, Bool.and_eq_true] at h
          simp only [List.dropWhile_cons, h.1, if_true, ih h.2]
      exact this t hn.2
    have hc : b.current = [] := by simp [Builder.current, hs, ho]
    have hl : b.handleLeadingWhitespace t = (false, []) := by
      cases t with
      | nil => rfl
      | cons c t =>
        have : isAsciiWhitespace c = true := List.all_eq_true.1 hn.2 c List.mem_cons_self
        simp only [Builder.handleLeadingWhitespace, this, if_true, hc, spaceAfterAll, hd]
    simp [Builder.handleText, hl, ho]
  | element s children =>
    simp only [traverseNode] at h
    simp only [StyledNode.fresh] at hn
    rcases hd : displayOf s with _ | _ | ⟨outside, inside⟩ <;> simp only [hd] at h hn
    · cases h
      exact hf hn
    · cases hn
    · cases outside with
      | inline => cases hn
      | block =>
        simp only [decide_eq_true_eq] at h hn
        have hp : (positionOf s).isAbsolutelyPositioned = false := by
          rcases hq : positionOf s with _ | _ | _ <;> first | rfl | exact absurd hq hn.1
        have hfl : (floatOf s).isFloating = false := by rw [hn.2]; rfl
        rw [hp, hfl] at h
        simp only [Bool.false_eq_true, if_false] at h
        split at h
        · cases h
        · rename_i c hc
          have := (endOngoing_some (splitInlines_eq hc).2).2.2.1
          split at h
          · cases h
          · split at h
            · cases h
            · cases inside <;> cases h <;> exact this

theorem fresh_mono : ∀ (ns : List StyledNode) (f g : Bool), (f = true → g = true) → freshAfter f ns = true → freshAfter g ns = true
  | [], _, _, h => h
  | n :: ns, f, g, h => by
    refine fresh_mono ns _ _ fun hn => ?_
    cases n with
    | ignored => exact h hn
    | text t =>
      simp only [StyledNode.fresh, Bool.and_eq_true] at hn ⊢
      exact ⟨h hn.1, hn.2⟩
    | element s children =>
      simp only [StyledNode.fresh] at hn ⊢
      rcases hd : displayOf s with _ | _ | ⟨outside, inside⟩ <;> simp only [hd] at hn ⊢
      · exact h hn
      · cases hn
      · cases outside with
        | block => exact hn
        | inline => cases hn

theorem splitInlines_of {b : Builder} (hs : b.stack = []) (cs : ComputedValues) : b.splitInlines cs = b.endOngoing cs := by
  obtain ⟨bl, og, st, cf⟩ := b
  subst hs
  simp [Builder.splitInlines, fragmentStack]

theorem begins_ended {cs ps : ComputedValues} {ns : List StyledNode} (hb : BeginsWithBlock ns) {b b0 : Builder} (hs : b.stack = [])
    (h : b.endOngoing cs = some b0) : traverseNodes cs ps ns b = traverseNodes cs ps ns b0 := by
  induction hb with
  | ignored _ ih => simpa only [traverseNodes, traverseNode] using ih
  | none hd _ ih => simpa only [traverseNodes, traverseNode, hd] using ih
  | @block s children ns hd =>
    obtain ⟨⟨inside, hd⟩, hp, hf⟩ := hd
    obtain ⟨-, h2, h3, -⟩ := endOngoing_some h
    have e : b.splitInlines cs = b0.splitInlines cs := by
      rw [splitInlines_of hs, splitInlines_of h2, h]
      simp [Builder.endOngoing, h2, h3]
    have hp' : (positionOf s).isAbsolutelyPositioned = false := by
      rcases hq : positionOf s with _ | _ | _ <;> first | rfl | exact absurd hq hp
    have hfl : (floatOf s).isFloating = false := by rw [hf]; rfl
    simp only [traverseNodes, traverseNode, hd, hp', hfl, Bool.false_eq_true, if_false, e]

end Verif.Layout
