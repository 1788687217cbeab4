/- Boxes are made from the marks of a document one after the other. -/
import Verif.Layout.MarkSpec
import Verif.Layout.ConstructInv
namespace Verif.Layout
open Verif.Style Verif.Dom

/-! ### Text, one character at a time -/

theorem mem_spaceCharacters (c : Nat) : c ∈ spaceCharacters ↔ isAsciiWhitespace c = true := by
  simp [spaceCharacters, isAsciiWhitespace, or_assoc]

theorem appendText_append (ps : ComputedValues) (x y : List Nat) (bs : List InlineLevelBox) :
    appendText ps (x ++ y) bs = appendText ps y (appendText ps x bs) := by
  induction bs with
  | nil => rfl
  | cons b bs ih =>
    cases bs with
    | nil => cases b <;> simp [appendText]
    | cons b' bs =>
      have key : ∀ (z : List Nat) (l : List InlineLevelBox), l ≠ [] → appendText ps z (b :: l) = b :: appendText ps z l := by
        intro z l hl
        cases l with
        | nil => exact absurd rfl hl
        | cons c l => rw [appendText]; all_goals simp
      have hne : appendText ps x (b' :: bs) ≠ [] := by
        rcases appendText_cases ps x (b' :: bs) with h | ⟨pre, s, t, h1, h⟩ <;> simp [h]
      rw [key _ _ (by simp), key _ _ (by simp), key _ _ hne, ih]

theorem spaceAfterAll_appendText (ps : ComputedValues) (x : List Nat) (c : Nat) (bs : List InlineLevelBox) :
    spaceAfterAll (appendText ps (x ++ [c]) bs) = some (c != 32) := by
  have key : ∀ (pre : List InlineLevelBox) (s : ComputedValues) (t : List Nat),
      spaceAfterAll (pre ++ [.textRun s (t ++ [c])]) = some (c != 32) := by
    intro pre s t
    induction pre with
    | nil => simp [spaceAfterAll, InlineLevelBox.spaceAfter]; rfl
    | cons p pre ih => simp [spaceAfterAll, ih]
  rcases appendText_cases ps (x ++ [c]) bs with h | ⟨pre, s, t, -, h⟩
  · rw [h, key]
  · rw [h, ← List.append_assoc, key]

theorem setCurrent_setCurrent (b : Builder) (x y : List InlineLevelBox) : (b.setCurrent x).setCurrent y = b.setCurrent y := by
  unfold Builder.setCurrent
  rcases h : b.stack with _ | ⟨o, rest⟩ <;> simp

theorem handleText_nil (b : Builder) (ps : ComputedValues) : b.handleText [] ps = b := by
  simp [Builder.handleText, Builder.handleLeadingWhitespace]

theorem handleText_cons (b : Builder) (c : Nat) (text : List Nat) (ps : ComputedValues) :
    b.handleText (c :: text) ps = (b.handleText [c] ps).handleText text ps := by
  rw [handleText_eq b (c :: text), handleText_eq b [c]]
  by_cases hc : isAsciiWhitespace c = true
  · by_cases ha : (spaceAfterAll b.current != some true) = true
    · have e1 : b.added [c] = [] := by simp [Builder.added, squeeze, hc, ha]
      have e2 : b.added (c :: text) = b.added text := by simp [Builder.added, squeeze, hc, ha]
      rw [if_pos e1, e2, handleText_eq]
    · have e1 : b.added [c] = [32] := by simp [Builder.added, squeeze, hc, ha]
      have e2 : b.added (c :: text) = [32] ++ squeeze true text := by simp [Builder.added, squeeze, hc, ha]
      have e3 : spaceAfterAll (appendText ps [32] b.current) = some false := spaceAfterAll_appendText ps [] 32 b.current
      rw [e1, e2, if_neg (by simp), if_neg (by simp), handleText_eq]
      have e4 : (b.setCurrent (appendText ps [32] b.current)).added text = squeeze true text := by
        rw [Builder.added, current_setCurrent, e3]
        rfl
      rw [e4, current_setCurrent, setCurrent_setCurrent, ← appendText_append]
      split
      · rename_i h
        rw [h]
        simp
      · rfl
  · have e1 : b.added [c] = [c] := by simp [Builder.added, squeeze, hc]
    have e2 : b.added (c :: text) = [c] ++ squeeze false text := by simp [Builder.added, squeeze, hc]
    have hne : c ≠ 32 := fun h => hc (by rw [h]; rfl)
    have e3 : spaceAfterAll (appendText ps [c] b.current) = some true := by
      rw [show ([c] : List Nat) = [] ++ [c] from rfl, spaceAfterAll_appendText]
      simp [hne]
    rw [e1, e2, if_neg (by simp), if_neg (by simp), handleText_eq]
    have e4 : (b.setCurrent (appendText ps [c] b.current)).added text = squeeze false text := by
      simp [Builder.added, current_setCurrent, e3]
    rw [e4, current_setCurrent, setCurrent_setCurrent, ← appendText_append]
    split
    · rename_i h
      rw [h]
      simp
    · rfl

/-- All white space is the same. -/
theorem handleText_space (b : Builder) (c : Nat) (hc : isAsciiWhitespace c = true) (ps : ComputedValues) :
    b.handleText [c] ps = b.handleText [32] ps := by
  have e : b.added [c] = b.added [32] := by simp [Builder.added, squeeze, hc, isAsciiWhitespace_space]
  rw [handleText_eq, handleText_eq, e]

/-- A second space changes nothing. -/
theorem handleText_again (b : Builder) (ps : ComputedValues) : (b.handleText [32] ps).handleText [32] ps = b.handleText [32] ps := by
  rw [← handleText_cons]
  have e : b.added [32, 32] = b.added [32] := by simp [Builder.added, squeeze, isAsciiWhitespace_space]
  rw [handleText_eq, handleText_eq, e]

/-! ### Boxes from marks -/

mutual
/-- The marks of a node. -/
def StyledNode.marks : StyledNode → List Mark
  | .ignored => []
  | .text contents => contents.map .char
  | .element style children => if displayOf style = .none then [] else .start style :: nodesMarks children ++ [.stop]
/-- The marks of nodes. -/
def nodesMarks : List StyledNode → List Mark
  | [] => []
  | n :: ns => n.marks ++ nodesMarks ns
end

/-- Where boxes are being made: the style of the block container, that of the parent, and what was made so far. -/
structure Place where
  container : ComputedValues
  parent : ComputedValues
  builder : Builder

/-- Where the boxes in an element are made. -/
def Place.enter (p : Place) (style : ComputedValues) : Option Place :=
  match displayOf style with
  | .none => none
  | .contents => some ⟨p.container, style, p.builder⟩
  | .generatingBox .inline .flow => some ⟨p.container, style, { p.builder with stack := ⟨style, true, []⟩ :: p.builder.stack }⟩
  | .generatingBox .inline .flowRoot => none
  | .generatingBox .block _ => some ⟨style, style, Builder.new⟩

/-- What is made of an element in this place, when `b` was made of what is in it. -/
def Place.leave (p : Place) (style : ComputedValues) (b : Builder) : Option Builder :=
  match displayOf style with
  | .none => none
  | .contents => some b
  | .generatingBox .inline .flow =>
    match b.stack with
    | [] => none
    | o :: rest =>
      let b := { b with stack := rest }
      some (b.setCurrent (b.current ++ [.inlineBox o.style o.firstFragment true o.children]))
  | .generatingBox .inline .flowRoot => none
  | .generatingBox .block inside =>
    match b.finish style with
    | none => none
    | some (contents, floats) =>
      if (positionOf style).isAbsolutelyPositioned then
        if p.builder.hasOngoing then
          some (p.builder.setCurrent (p.builder.current ++ [.outOfFlowAbsolutelyPositioned style floats contents]))
        else
          some { p.builder with
            blockLevelBoxes := p.builder.blockLevelBoxes ++ [.outOfFlowAbsolutelyPositioned style floats contents] }
      else if (floatOf style).isFloating then
        let b := { p.builder with containsFloats := true }
        if b.hasOngoing then some (b.setCurrent (b.current ++ [.outOfFlowFloat style floats contents]))
        else some { b with blockLevelBoxes := b.blockLevelBoxes ++ [.outOfFlowFloat style floats contents] }
      else
        match p.builder.splitInlines p.container with
        | none => none
        | some b =>
          match inside with
          | .flow =>
            some { b with
              blockLevelBoxes := b.blockLevelBoxes ++ [.sameFormattingContextBlock style contents]
              containsFloats := b.containsFloats || floats }
          | .flowRoot => some { b with blockLevelBoxes := b.blockLevelBoxes ++ [.independent style floats contents] }

/-- What is made of marks; the places are those of the elements that are open, the innermost first. -/
def runMarks : List Mark → Place → List (Place × ComputedValues) → Option Builder
  | [], p, [] => some p.builder
  | [], _, _ :: _ => none
  | .char c :: ms, p, outer => runMarks ms { p with builder := p.builder.handleText [c] p.parent } outer
  | .start style :: ms, p, outer =>
    match p.enter style with
    | none => none
    | some inner => runMarks ms inner ((p, style) :: outer)
  | .stop :: _, _, [] => none
  | .stop :: ms, p, (q, style) :: outer =>
    match q.leave style p.builder with
    | none => none
    | some b => runMarks ms { q with builder := b } outer

theorem runMarks_text (text : List Nat) (ms : List Mark) (p : Place) (outer : List (Place × ComputedValues)) :
    runMarks (text.map .char ++ ms) p outer = runMarks ms { p with builder := p.builder.handleText text p.parent } outer := by
  induction text generalizing p with
  | nil => simp [handleText_nil]
  | cons c text ih =>
    rw [List.map_cons, List.cons_append, runMarks, ih]
    simp only [handleText_cons p.builder c text]

theorem traverseNode_element (p : Place) {style : ComputedValues} (hd : displayOf style ≠ .none) (children : List StyledNode) :
    traverseNode p.container p.parent (.element style children) p.builder =
      (p.enter style).bind fun q => (traverseNodes q.container q.parent children q.builder).bind fun b => p.leave style b := by
  rw [traverseNode]
  rcases hdis : displayOf style with _ | _ | ⟨o, i⟩
  · exact absurd hdis hd
  · simp [Place.enter, Place.leave, hdis]
  · cases o with
    | inline =>
      cases i with
      | flow =>
        simp only [Place.enter, hdis, Place.leave, Option.bind_some]
        rcases h1 : traverseNodes p.container style children { p.builder with stack := ⟨style, true, []⟩ :: p.builder.stack } with _ | b
        · rfl
        · rfl
      | flowRoot => simp [Place.enter, hdis]
    | block =>
      simp only [Place.enter, hdis, Place.leave, Option.bind_some]
      rcases h1 : traverseNodes style style children Builder.new with _ | b
      · rcases h2 : p.builder.splitInlines p.container with _ | b' <;> simp
      · rcases h3 : b.finish style with _ | ⟨contents, floats⟩
        · rcases h2 : p.builder.splitInlines p.container with _ | b' <;> simp [h3]
        · rcases h2 : p.builder.splitInlines p.container with _ | b'
          · simp only [h3, Option.bind_some]
          · simp only [h3, Option.bind_some]
            cases i <;> rfl

mutual
theorem runMarks_node : ∀ (n : StyledNode) (ms : List Mark) (p : Place) (outer : List (Place × ComputedValues)),
    runMarks (n.marks ++ ms) p outer =
      match traverseNode p.container p.parent n p.builder with
      | none => none
      | some b => runMarks ms { p with builder := b } outer
  | .ignored, ms, p, outer => by simp [StyledNode.marks, traverseNode]
  | .text contents, ms, p, outer => by simp [StyledNode.marks, traverseNode, runMarks_text]
  | .element style children, ms, p, outer => by
    by_cases hd : displayOf style = .none
    · simp [StyledNode.marks, traverseNode, hd]
    · rw [traverseNode_element p hd]
      simp only [StyledNode.marks, if_neg hd, List.cons_append, List.append_assoc, List.nil_append]
      rw [runMarks]
      rcases h1 : p.enter style with _ | q
      · rfl
      simp only [runMarks_nodes children, Option.bind_some]
      rcases h2 : traverseNodes q.container q.parent children q.builder with _ | b
      · rfl
      simp only [runMarks, Option.bind_some]
theorem runMarks_nodes : ∀ (ns : List StyledNode) (ms : List Mark) (p : Place) (outer : List (Place × ComputedValues)),
    runMarks (nodesMarks ns ++ ms) p outer =
      match traverseNodes p.container p.parent ns p.builder with
      | none => none
      | some b => runMarks ms { p with builder := b } outer
  | [], ms, p, outer => by simp [nodesMarks, traverseNodes]
  | n :: ns, ms, p, outer => by
    rw [nodesMarks, List.append_assoc, runMarks_node n, traverseNodes]
    rcases h : traverseNode p.container p.parent n p.builder with _ | b
    · rfl
    · simp only
      rw [runMarks_nodes ns]
end

/-- How much white space there is makes no difference. -/
theorem runMarks_squeeze (ms : List Mark) (p : Place) (outer : List (Place × ComputedValues)) :
    runMarks (squeezeMarks ms) p outer = runMarks ms p outer := by
  induction ms generalizing p outer with
  | nil => rfl
  | cons m ms ih =>
    cases m with
    | start style =>
      simp only [squeezeMarks, runMarks]
      split
      · rfl
      · exact ih _ _
    | stop =>
      cases outer with
      | nil => rfl
      | cons q outer =>
        simp only [squeezeMarks, runMarks]
        split
        · rfl
        · exact ih _ _
    | char c =>
      simp only [squeezeMarks]
      split
      · rename_i hc
        rw [mem_spaceCharacters] at hc
        rw [runMarks, handleText_space _ c hc]
        split
        · rename_i rest h
          rw [← ih, h]
          simp only [runMarks, handleText_again]
        · rw [runMarks, ih]
      · simp only [runMarks, ih]

theorem constructContainer_marks {style : ComputedValues} {ns ns' : List StyledNode}
    (h : squeezeMarks (nodesMarks ns) = squeezeMarks (nodesMarks ns')) : constructContainer style ns = constructContainer style ns' := by
  have key : ∀ ns : List StyledNode, traverseNodes style style ns Builder.new = runMarks (nodesMarks ns) ⟨style, style, Builder.new⟩ [] := by
    intro ns
    have := runMarks_nodes ns [] ⟨style, style, Builder.new⟩ []
    rw [List.append_nil] at this
    rw [this]
    rcases traverseNodes style style ns Builder.new with _ | b <;> rfl
  unfold constructContainer
  rw [key ns, key ns', ← runMarks_squeeze, h, runMarks_squeeze]

theorem constructRoot_marks {style : ComputedValues} {ns ns' : List StyledNode}
    (h : squeezeMarks (nodesMarks ns) = squeezeMarks (nodesMarks ns')) : constructRoot style ns = constructRoot style ns' := by
  unfold constructRoot
  rw [constructContainer_marks h]

end Verif.Layout
