/- The invariants of box construction. -/
import Verif.Layout.ConstructText
namespace Verif.Layout
open Verif.Style

/-! ### The text in a builder -/

/-- The flowing text of the ongoing inline boxes, from the outermost on. -/
def stackFlow : List OngoingInlineBox → List Nat
  | [] => []
  | o :: rest => stackFlow rest ++ flowTexts o.children

/-- The flowing text of the ongoing inline formatting context. -/
def Builder.flow (b : Builder) : List Nat := flowTexts b.ongoing ++ stackFlow b.stack

/-- The text of the ongoing inline boxes, from the outermost on. -/
def stackStyled : List OngoingInlineBox → List (ComputedValues × Nat)
  | [] => []
  | o :: rest => stackStyled rest ++ inlinesStyledText o.children

/-- All the text in a builder. -/
def Builder.styled (b : Builder) : List (ComputedValues × Nat) :=
  blocksStyledText b.blockLevelBoxes ++ (inlinesStyledText b.ongoing ++ stackStyled b.stack)

theorem current_setCurrent (b : Builder) (bs : List InlineLevelBox) : (b.setCurrent bs).current = bs := by
  unfold Builder.setCurrent Builder.current
  rcases h : b.stack with _ | ⟨o, rest⟩ <;> simp

theorem flow_current (b : Builder) : ∃ pre, b.flow = pre ++ flowTexts b.current ∧ (b.stack = [] → pre = []) ∧
    ∀ bs, (b.setCurrent bs).flow = pre ++ flowTexts bs := by
  rcases h : b.stack with _ | ⟨o, rest⟩
  · exact ⟨[], by simp [Builder.flow, Builder.current, Builder.setCurrent, h, stackFlow]⟩
  · exact ⟨flowTexts b.ongoing ++ stackFlow rest, by simp [Builder.flow, Builder.current, Builder.setCurrent, h, stackFlow]⟩

theorem styled_current (b : Builder) : ∃ pre, b.styled = pre ++ inlinesStyledText b.current ∧
    ∀ bs, (b.setCurrent bs).styled = pre ++ inlinesStyledText bs := by
  rcases h : b.stack with _ | ⟨o, rest⟩
  · exact ⟨blocksStyledText b.blockLevelBoxes, by simp [Builder.styled, Builder.current, Builder.setCurrent, h, stackStyled]⟩
  · exact ⟨blocksStyledText b.blockLevelBoxes ++ (inlinesStyledText b.ongoing ++ stackStyled rest), by
      simp [Builder.styled, Builder.current, Builder.setCurrent, h, stackStyled]⟩

theorem flowTexts_appendText (ps : ComputedValues) (out : List Nat) (bs : List InlineLevelBox) :
    flowTexts (appendText ps out bs) = flowTexts bs ++ out := by
  rcases appendText_cases ps out bs with h | ⟨pre, s, t, h, h'⟩
  · rw [h, flowTexts_append]
    simp [flowTexts, InlineLevelBox.flowText]
  · rw [h', h, flowTexts_append, flowTexts_append]
    simp [flowTexts, InlineLevelBox.flowText]

theorem flow_handleText (b : Builder) (t : List Nat) (ps : ComputedValues) : (b.handleText t ps).flow = b.flow ++ b.added t := by
  rw [handleText_eq]
  split
  · rename_i h
    simp [h]
  · obtain ⟨pre, h1, -, h2⟩ := flow_current b
    rw [h2, h1, flowTexts_appendText, List.append_assoc]

theorem flow_push (b : Builder) (box : InlineLevelBox) : (b.push box).flow = b.flow ++ box.flowText := by
  obtain ⟨pre, h1, -, h2⟩ := flow_current b
  rw [Builder.push, h2, h1, flowTexts_append]
  simp [flowTexts]

theorem styled_push (b : Builder) (box : InlineLevelBox) : (b.push box).styled = b.styled ++ box.styledText := by
  obtain ⟨pre, h1, h2⟩ := styled_current b
  rw [Builder.push, h2, h1, inlinesStyledText_append]
  simp [inlinesStyledText]

theorem flow_containsFloats (b : Builder) (f : Bool) : ({ b with containsFloats := f } : Builder).flow = b.flow := rfl

/-- What is inside an inline box is known once the box is complete. -/
theorem inline_inner {b b1 : Builder} {s : ComputedValues} {o : OngoingInlineBox} {rest : List OngoingInlineBox}
    (h : SameOutside { b with stack := ⟨s, true, []⟩ :: b.stack } b1) (hs : b1.stack = o :: rest) :
    rest = b.stack ∧ o.style = s ∧ o.firstFragment = true ∧ b1.ongoing = b.ongoing ∧ b1.blockLevelBoxes = b.blockLevelBoxes := by
  simp only [SameOutside, hs] at h
  obtain ⟨children, h1, h2, h3⟩ := h
  injection h1 with h1 h1'
  subst h1
  exact ⟨h1', rfl, rfl, h2, h3⟩

/-! ### Collapsed white space -/

/-- What C41 says about an inline formatting context. -/
def GoodContext (bs : List InlineLevelBox) : Prop := bs ≠ [] ∧ Collapsed (flowTexts bs)

/-- The invariant for C41. -/
structure Good (b : Builder) : Prop where
  full : allFull b.ongoing
  fullStack : ∀ o ∈ b.stack, allFull o.children
  collapsed : squeeze true b.flow = b.flow
  blocks : blocksAllContexts GoodContext b.blockLevelBoxes
  inlines : inlinesAllContexts GoodContext b.ongoing
  inlinesStack : ∀ o ∈ b.stack, inlinesAllContexts GoodContext o.children

theorem Good.new : Good Builder.new := by
  constructor <;> simp [Builder.new, allFull, Builder.flow, flowTexts, stackFlow, squeeze, blocksAllContexts, inlinesAllContexts]

theorem Good.currentFull {b : Builder} (h : Good b) : allFull b.current := by
  unfold Builder.current
  split
  · rename_i o rest hs
    exact h.fullStack o (by simp [hs])
  · exact h.full

theorem Good.currentContexts {b : Builder} (h : Good b) : inlinesAllContexts GoodContext b.current := by
  unfold Builder.current
  split
  · rename_i o rest hs
    exact h.inlinesStack o (by simp [hs])
  · exact h.inlines

theorem Good.setCurrent {b : Builder} (h : Good b) {bs : List InlineLevelBox} (h1 : allFull bs)
    (h2 : inlinesAllContexts GoodContext bs) (h3 : squeeze true (b.setCurrent bs).flow = (b.setCurrent bs).flow) :
    Good (b.setCurrent bs) := by
  rcases hs : b.stack with _ | ⟨o, rest⟩
  · have e : b.setCurrent bs = { b with ongoing := bs } := by simp [Builder.setCurrent, hs]
    rw [e] at h3 ⊢
    exact ⟨h1, h.fullStack, h3, h.blocks, h2, h.inlinesStack⟩
  · have e : b.setCurrent bs = { b with stack := { o with children := bs } :: rest } := by simp [Builder.setCurrent, hs]
    rw [e] at h3 ⊢
    refine ⟨h.full, ?_, h3, h.blocks, h.inlines, ?_⟩
    · intro o' ho'
      rcases List.mem_cons.mp ho' with rfl | ho'
      · exact h1
      · exact h.fullStack o' (by simp [hs, ho'])
    · intro o' ho'
      rcases List.mem_cons.mp ho' with rfl | ho'
      · exact h2
      · exact h.inlinesStack o' (by simp [hs, ho'])

/-- The space is kept only after a character that is not white space. -/
theorem Good.added_state {b : Builder} (h : Good b) : afterSpace true b.flow = true → (spaceAfterAll b.current != some true) = true := by
  intro ha
  by_contra hc
  have hc : spaceAfterAll b.current = some true := by simpa using hc
  rw [spaceAfterAll_eq _ h.currentFull] at hc
  obtain ⟨pre, h1, -, -⟩ := flow_current b
  rcases hl : (flowTexts b.current).getLast? with _ | c
  · simp [hl] at hc
  · simp only [hl, Option.map_some, Option.some.injEq, bne_iff_ne] at hc
    have hlast : b.flow.getLast? = some c := by
      rw [h1, List.getLast?_append, hl]
      rfl
    simp only [afterSpace, hlast] at ha
    have hmem : c ∈ b.flow := List.mem_of_getLast? hlast
    rw [← h.collapsed] at hmem
    exact hc (squeeze_only _ _ c hmem ha)

theorem Good.handleText {b : Builder} (h : Good b) (t : List Nat) (ps : ComputedValues) : Good (b.handleText t ps) := by
  have hflow := flow_handleText b t ps
  rw [handleText_eq] at hflow ⊢
  split at hflow
  · rename_i he
    rw [if_pos he]
    exact h
  · rename_i he
    rw [if_neg he]
    refine h.setCurrent ?_ ?_ ?_
    · have := h.currentFull
      rcases appendText_cases ps (b.added t) b.current with h1 | ⟨pre, s, u, h1, h2⟩
      · rw [h1, allFull_append]
        exact ⟨this, he, trivial⟩
      · rw [h2, allFull_append]
        rw [h1, allFull_append] at this
        refine ⟨this.1, ?_, trivial⟩
        simp [InlineLevelBox.Full, he]
    · have := h.currentContexts
      rcases appendText_cases ps (b.added t) b.current with h1 | ⟨pre, s, u, h1, h2⟩
      · rw [h1, inlinesAllContexts_append]
        exact ⟨this, trivial, trivial⟩
      · rw [h2, inlinesAllContexts_append]
        rw [h1, inlinesAllContexts_append] at this
        exact ⟨this.1, trivial, trivial⟩
    · rw [hflow, squeeze_append, h.collapsed, Builder.added, squeeze_squeeze _ _ _ h.added_state]

theorem Good.push {b : Builder} (h : Good b) {box : InlineLevelBox} (h1 : box.Full) (h2 : box.AllContexts GoodContext)
    (h3 : squeeze true (b.flow ++ box.flowText) = b.flow ++ box.flowText) : Good (b.push box) := by
  refine h.setCurrent ?_ ?_ ?_
  · rw [allFull_append]
    exact ⟨h.currentFull, h1, trivial⟩
  · rw [inlinesAllContexts_append]
    exact ⟨h.currentContexts, h2, trivial⟩
  · have := flow_push b box
    rw [Builder.push] at this
    rw [this, h3]

theorem Good.endOngoing {b b1 : Builder} {cs : ComputedValues} (h : Good b) (he : b.endOngoing cs = some b1) : Good b1 := by
  have hs := (endOngoing_stack he).1
  unfold Builder.endOngoing at he
  simp only [hs, List.isEmpty_nil, Bool.not_true, Bool.false_eq_true, if_false] at he
  split at he
  · injection he with he
    exact he ▸ h
  · rename_i hne
    injection he with he
    subst he
    have hc := h.collapsed
    refine ⟨trivial, by simp, ?_, ?_, trivial, by simp⟩
    · simp [Builder.flow, flowTexts, stackFlow, squeeze]
    · rw [blocksAllContexts_append]
      refine ⟨h.blocks, ⟨⟨by simpa using hne, Collapsed_of_squeeze ?_⟩, h.inlines⟩, trivial⟩
      simpa [Builder.flow, hs, stackFlow] using hc

theorem Good.finish {b : Builder} {cs : ComputedValues} {c : BlockContainer} {f : Bool} (h : Good b) (hs : b.stack = [])
    (he : b.finish cs = some (c, f)) : c.AllContexts GoodContext := by
  unfold Builder.finish at he
  split at he
  · simp only [Option.some.injEq, Prod.mk.injEq] at he
    obtain ⟨rfl, -⟩ := he
    exact h.blocks
  · rename_i hne
    split at he
    · simp only [Option.some.injEq, Prod.mk.injEq] at he
      obtain ⟨rfl, -⟩ := he
      have hc := h.collapsed
      refine ⟨⟨by simpa using hne, Collapsed_of_squeeze ?_⟩, h.inlines⟩
      simpa [Builder.flow, hs, stackFlow] using hc
    · rcases h1 : b.endOngoing cs with _ | b1
      · simp [h1] at he
      · simp only [h1, Option.some.injEq, Prod.mk.injEq] at he
        obtain ⟨rfl, -⟩ := he
        exact (h.endOngoing h1).blocks

theorem SameOutside.new_stack {b : Builder} (h : SameOutside Builder.new b) : b.stack = [] := h

theorem Good.pushBlock {b : Builder} (h : Good b) {box : BlockLevelBox} (f : Bool) (hb : box.AllContexts GoodContext) :
    Good { b with blockLevelBoxes := b.blockLevelBoxes ++ [box], containsFloats := f } := by
  refine ⟨h.full, h.fullStack, h.collapsed, ?_, h.inlines, h.inlinesStack⟩
  rw [blocksAllContexts_append]
  exact ⟨h.blocks, hb, trivial⟩

theorem traverse_good : TraversalCases (fun _ _ _ b b' => SameOutside b b' ∧ (Good b → Good b'))
    (fun _ _ _ b b' => SameOutside b b' ∧ (Good b → Good b')) where
  ignored _ _ b := ⟨.refl b, id⟩
  text _ _ t b := ⟨.handleText _ _ _, fun h => h.handleText _ _⟩
  none _ _ _ _ b _ := ⟨.refl b, id⟩
  contents _ _ _ _ _ _ _ h := h
  inline cs ps s ch b b1 o rest hd h hs := by
    refine ⟨traverse_shape.inline cs ps s ch b b1 o rest hd h.1 hs, fun hb => ?_⟩
    obtain ⟨rfl, -, -, h2, h3⟩ := inline_inner h.1 hs
    have hb1 : Good b1 := h.2 ⟨hb.full, by simpa [allFull] using hb.fullStack, by
      simpa [Builder.flow, stackFlow, flowTexts] using hb.collapsed, hb.blocks, hb.inlines, by
      simpa [inlinesAllContexts] using hb.inlinesStack⟩
    have hb2 : Good { b1 with stack := b.stack } := ⟨hb1.full, hb.fullStack, by
      simpa [Builder.flow, h2] using hb.collapsed, hb1.blocks, hb1.inlines, hb.inlinesStack⟩
    refine hb2.push (hb1.fullStack o (by simp [hs])) (hb1.inlinesStack o (by simp [hs])) ?_
    have := hb1.collapsed
    simpa [Builder.flow, hs, stackFlow, InlineLevelBox.flowText] using this
  absoluteInline cs ps s ch b inner c f i h1 h2 h3 h4 h5 :=
    ⟨.setCurrent _ _, fun hb => hb.push trivial ((h3.2 .new).finish h3.1.new_stack h4) (by
      simpa [InlineLevelBox.flowText] using hb.collapsed)⟩
  absoluteBlock cs ps s ch b inner c f i h1 h2 h3 h4 h5 :=
    ⟨traverse_shape.absoluteBlock cs ps s ch b inner c f i h1 h2 h3.1 h4 h5, fun hb =>
      hb.pushBlock _ ((h3.2 .new).finish h3.1.new_stack h4)⟩
  floatInline cs ps s ch b inner c f i h1 h2 h2' h3 h4 h5 :=
    ⟨traverse_shape.floatInline cs ps s ch b inner c f i h1 h2 h2' h3.1 h4 h5, fun hb =>
      Good.push (b := { b with containsFloats := true }) ⟨hb.full, hb.fullStack, hb.collapsed, hb.blocks, hb.inlines, hb.inlinesStack⟩
        trivial ((h3.2 .new).finish h3.1.new_stack h4) (by
        simpa [InlineLevelBox.flowText, flow_containsFloats] using hb.collapsed)⟩
  floatBlock cs ps s ch b inner c f i h1 h2 h2' h3 h4 h5 :=
    ⟨traverse_shape.floatBlock cs ps s ch b inner c f i h1 h2 h2' h3.1 h4 h5, fun hb =>
      hb.pushBlock _ ((h3.2 .new).finish h3.1.new_stack h4)⟩
  block cs ps s ch b b1 inner c f i h1 h2 h2' h0 h3 h4 := by
    refine ⟨traverse_shape.block cs ps s ch b b1 inner c f i h1 h2 h2' h0 h3.1 h4, fun hb => ?_⟩
    have hc := (h3.2 .new).finish h3.1.new_stack h4
    refine (hb.endOngoing (splitInlines_eq h0).2).pushBlock _ ?_
    cases i <;> exact hc
  nil _ _ b := ⟨.refl b, id⟩
  cons _ _ _ _ _ _ _ h h' := ⟨h.1.trans h'.1, fun hb => h'.2 (h.2 hb)⟩

/-! ### Text in document order -/

theorem inkWith_append {α : Type} (f : ComputedValues → α) (t u : List (ComputedValues × Nat)) :
    inkWith f (t ++ u) = inkWith f t ++ inkWith f u := by
  simp [inkWith, ink]

theorem inkWith_map {α : Type} (f : ComputedValues → α) (s : ComputedValues) (t : List Nat) :
    inkWith f (t.map fun c => (s, c)) = (t.filter fun c => !isAsciiWhitespace c).map fun c => (f s, c) := by
  simp [inkWith, ink, List.filter_map, Function.comp_def]

/-- The text runs among these boxes have the style of their parent, as far as `f` sees. -/
def RunsHave {α : Type} (f : ComputedValues → α) (ps : ComputedValues) (bs : List InlineLevelBox) : Prop :=
  ∀ s t, InlineLevelBox.textRun s t ∈ bs → f s = f ps

/-- The invariant for C42 and C62. -/
def Keeps {α : Type} (f : ComputedValues → α) (ps : ComputedValues) (b b' : Builder) (t : List (ComputedValues × Nat)) : Prop :=
  RunsHave f ps b.current → RunsHave f ps b'.current ∧ inkWith f b'.styled = inkWith f b.styled ++ inkWith f t

theorem finish_styled {b : Builder} {cs : ComputedValues} {c : BlockContainer} {f : Bool} (hs : b.stack = [])
    (he : b.finish cs = some (c, f)) : c.styledText = b.styled := by
  have hst : b.styled = blocksStyledText b.blockLevelBoxes ++ inlinesStyledText b.ongoing := by
    simp [Builder.styled, hs, stackStyled]
  unfold Builder.finish at he
  split at he
  · rename_i h1
    simp only [List.isEmpty_iff] at h1
    simp only [Option.some.injEq, Prod.mk.injEq] at he
    obtain ⟨rfl, -⟩ := he
    simp [hst, h1, inlinesStyledText, BlockContainer.styledText]
  · split at he
    · rename_i h1 h2
      simp only [List.isEmpty_iff] at h2
      simp only [Option.some.injEq, Prod.mk.injEq] at he
      obtain ⟨rfl, -⟩ := he
      simp [hst, h2, blocksStyledText, BlockContainer.styledText]
    · rename_i h1 h2
      rcases h3 : b.endOngoing cs with _ | b1
      · simp [h3] at he
      · simp only [h3, Option.some.injEq, Prod.mk.injEq] at he
        obtain ⟨rfl, -⟩ := he
        unfold Builder.endOngoing at h3
        simp only [hs, List.isEmpty_nil, Bool.not_true, Bool.false_eq_true, if_false, h1, Option.some.injEq] at h3
        subst h3
        simp [BlockContainer.styledText, blocksStyledText_append, blocksStyledText, BlockLevelBox.styledText, hst]

theorem endOngoing_styled {b b1 : Builder} {cs : ComputedValues} (he : b.endOngoing cs = some b1) :
    b1.styled = b.styled ∧ b1.current = [] := by
  have hs := (endOngoing_stack he).1
  unfold Builder.endOngoing at he
  simp only [hs, List.isEmpty_nil, Bool.not_true, Bool.false_eq_true, if_false] at he
  split at he
  · rename_i h1
    simp only [List.isEmpty_iff] at h1
    injection he with he
    subst he
    exact ⟨rfl, by simp [Builder.current, hs, h1]⟩
  · injection he with he
    subst he
    constructor
    · simp [Builder.styled, hs, stackStyled, blocksStyledText_append, blocksStyledText, BlockLevelBox.styledText,
        BlockContainer.styledText, inlinesStyledText]
    · simp [Builder.current]

theorem hasOngoing_false_styled {b : Builder} (h : b.hasOngoing = false) :
    b.styled = blocksStyledText b.blockLevelBoxes ∧ b.current = [] := by
  obtain ⟨h1, h2⟩ := hasOngoing_false h
  simp [Builder.styled, Builder.current, h1, h2, stackStyled, inlinesStyledText]

theorem RunsHave.append {α : Type} {f : ComputedValues → α} {ps : ComputedValues} {bs : List InlineLevelBox} {box : InlineLevelBox}
    (h : RunsHave f ps bs) (hb : ∀ s t, box ≠ .textRun s t) : RunsHave f ps (bs ++ [box]) := by
  intro s t hm
  rcases List.mem_append.mp hm with hm | hm
  · exact h s t hm
  · simp only [List.mem_singleton] at hm
    exact absurd hm.symm (hb s t)

theorem Keeps.handleText {α : Type} (f : ComputedValues → α) (ps : ComputedValues) (b : Builder) (t : List Nat) :
    Keeps f ps b (b.handleText t ps) (t.map fun c => (ps, c)) := by
  intro h
  have hink : inkWith f (t.map fun c => (ps, c)) = inkWith f ((b.added t).map fun c => (ps, c)) := by
    rw [inkWith_map, inkWith_map, Builder.added, squeeze_ink]
  rw [hink, handleText_eq]
  split
  · rename_i he
    simp [he, h, inkWith, ink]
  · obtain ⟨pre, h1, h2⟩ := styled_current b
    rw [h2, h1, current_setCurrent]
    rcases appendText_cases ps (b.added t) b.current with h3 | ⟨pre', s, u, h3, h4⟩
    · rw [h3]
      constructor
      · intro s u hm
        rcases List.mem_append.mp hm with hm | hm
        · exact h s u hm
        · simp only [List.mem_singleton, InlineLevelBox.textRun.injEq] at hm
          rw [hm.1]
      · simp [inlinesStyledText_append, inlinesStyledText, InlineLevelBox.styledText, inkWith_append]
    · have hs : f s = f ps := h s u (by rw [h3]; simp)
      rw [h4]
      constructor
      · intro s' u' hm
        rcases List.mem_append.mp hm with hm | hm
        · exact h s' u' (by rw [h3]; simp [hm])
        · simp only [List.mem_singleton, InlineLevelBox.textRun.injEq] at hm
          rw [hm.1, hs]
      · rw [h3]
        simp [inlinesStyledText_append, inlinesStyledText, InlineLevelBox.styledText, inkWith_append, inkWith_map, hs]

theorem Keeps.pushBlock {α : Type} (f : ComputedValues → α) (ps : ComputedValues) (b : Builder) (box : BlockLevelBox) (g : Bool)
    (h : b.current = []) (hs : b.styled = blocksStyledText b.blockLevelBoxes) :
    RunsHave f ps ({ b with blockLevelBoxes := b.blockLevelBoxes ++ [box], containsFloats := g } : Builder).current ∧
    ({ b with blockLevelBoxes := b.blockLevelBoxes ++ [box], containsFloats := g } : Builder).styled = b.styled ++ box.styledText := by
  have hc : ({ b with blockLevelBoxes := b.blockLevelBoxes ++ [box], containsFloats := g } : Builder).current = b.current := rfl
  rw [hc, h]
  refine ⟨by simp [RunsHave], ?_⟩
  have h2 : inlinesStyledText b.ongoing ++ stackStyled b.stack = [] := by
    simpa [Builder.styled] using hs
  simp only [Builder.styled, h2, List.append_nil, blocksStyledText_append, blocksStyledText]

/-- The condition of `C62` for a node that is not skipped. -/
theorem contentsKeep_element {α : Type} {f : ComputedValues → α} {ps s : ComputedValues} {ch : List StyledNode}
    (h : (StyledNode.element s ch).ContentsKeep f ps) (hd : displayOf s ≠ .none) :
    (displayOf s = .contents → f s = f ps) ∧ nodesContentsKeep f s ch := by
  simp only [StyledNode.ContentsKeep] at h
  exact h.resolve_left hd

theorem styledText_element {ps s : ComputedValues} {ch : List StyledNode} (hd : displayOf s ≠ .none) :
    (StyledNode.element s ch).styledText ps = styledTexts s ch := by
  simp [StyledNode.styledText, hd]

theorem inner_styled {α : Type} {f : ComputedValues → α} {s : ComputedValues} {ch : List StyledNode} {inner : Builder}
    {c : BlockContainer} {fl : Bool}
    (h : SameOutside Builder.new inner ∧ (nodesContentsKeep f s ch → Keeps f s Builder.new inner (styledTexts s ch)))
    (hk : nodesContentsKeep f s ch) (hf : inner.finish s = some (c, fl)) :
    inkWith f c.styledText = inkWith f (styledTexts s ch) := by
  rw [finish_styled h.1.new_stack hf, (h.2 hk (by simp [RunsHave, Builder.current, Builder.new])).2]
  simp [Builder.new, Builder.styled, blocksStyledText, inlinesStyledText, stackStyled, inkWith, ink]

theorem traverse_keeps {α : Type} (f : ComputedValues → α) :
    TraversalCases (fun _ ps n b b' => SameOutside b b' ∧ (n.ContentsKeep f ps → Keeps f ps b b' (n.styledText ps)))
      (fun _ ps ns b b' => SameOutside b b' ∧ (nodesContentsKeep f ps ns → Keeps f ps b b' (styledTexts ps ns))) where
  ignored _ _ b := ⟨.refl b, fun _ h => ⟨h, by simp [StyledNode.styledText, inkWith, ink]⟩⟩
  text _ _ t b := ⟨.handleText _ _ _, fun _ => .handleText _ _ _ _⟩
  none _ _ s _ b hd := ⟨.refl b, fun _ h => ⟨h, by simp [StyledNode.styledText, hd, inkWith, ink]⟩⟩
  contents cs ps s ch b b' hd h := by
    refine ⟨h.1, fun hk hr => ?_⟩
    obtain ⟨h1, h2⟩ := contentsKeep_element hk (by rw [hd]; simp)
    have he := h1 hd
    rw [styledText_element (by rw [hd]; simp)]
    have hr' : RunsHave f s b.current := fun s' t' hm => by rw [hr s' t' hm, he]
    obtain ⟨h3, h4⟩ := h.2 h2 hr'
    exact ⟨fun s' t' hm => by rw [h3 s' t' hm, he], h4⟩
  inline cs ps s ch b b1 o rest hd h hs := by
    refine ⟨traverse_shape.inline cs ps s ch b b1 o rest hd h.1 hs, fun hk hr => ?_⟩
    obtain ⟨-, hk⟩ := contentsKeep_element hk (by rw [hd]; simp)
    rw [styledText_element (by rw [hd]; simp)]
    obtain ⟨rfl, -, -, h2, h3⟩ := inline_inner h.1 hs
    obtain ⟨-, h4⟩ := h.2 hk (by simp [RunsHave, Builder.current])
    have hcur : ({ b1 with stack := b.stack } : Builder).current = b.current := by
      simp [Builder.current, h2]
    have hsty : ({ b1 with stack := b.stack } : Builder).styled = b.styled := by
      simp [Builder.styled, h2, h3]
    constructor
    · rw [Builder.push, current_setCurrent, hcur]
      exact hr.append (by simp)
    · have e1 : ({ b with stack := ⟨s, true, []⟩ :: b.stack } : Builder).styled = b.styled := by
        simp [Builder.styled, stackStyled, inlinesStyledText]
      have e2 : b1.styled = b.styled ++ inlinesStyledText o.children := by
        simp [Builder.styled, h2, h3, hs, stackStyled]
      rw [e1, e2] at h4
      rw [styled_push, hsty, InlineLevelBox.styledText, h4]
  absoluteInline cs ps s ch b inner c g i hd h2 h3 h4 h5 := by
    refine ⟨.setCurrent _ _, fun hk hr => ?_⟩
    obtain ⟨-, hk⟩ := contentsKeep_element hk (by rw [hd]; simp)
    rw [styledText_element (by rw [hd]; simp), styled_push, inkWith_append]
    refine ⟨?_, by rw [InlineLevelBox.styledText, inner_styled h3 hk h4]⟩
    rw [Builder.push, current_setCurrent]
    exact hr.append (by simp)
  absoluteBlock cs ps s ch b inner c g i hd h2 h3 h4 h5 := by
    refine ⟨traverse_shape.absoluteBlock cs ps s ch b inner c g i hd h2 h3.1 h4 h5, fun hk hr => ?_⟩
    obtain ⟨-, hk⟩ := contentsKeep_element hk (by rw [hd]; simp)
    obtain ⟨e1, e2⟩ := hasOngoing_false_styled h5
    obtain ⟨e3, e4⟩ := Keeps.pushBlock f ps b (.outOfFlowAbsolutelyPositioned s g c) b.containsFloats e2 e1
    refine ⟨e3, ?_⟩
    rw [e4, styledText_element (by rw [hd]; simp), inkWith_append, BlockLevelBox.styledText, inner_styled h3 hk h4]
  floatInline cs ps s ch b inner c g i hd h2 h2' h3 h4 h5 := by
    refine ⟨traverse_shape.floatInline cs ps s ch b inner c g i hd h2 h2' h3.1 h4 h5, fun hk hr => ?_⟩
    obtain ⟨-, hk⟩ := contentsKeep_element hk (by rw [hd]; simp)
    rw [styledText_element (by rw [hd]; simp), styled_push, inkWith_append]
    refine ⟨?_, by rw [InlineLevelBox.styledText, inner_styled h3 hk h4]; rfl⟩
    rw [Builder.push, current_setCurrent]
    exact RunsHave.append (bs := b.current) hr (by simp)
  floatBlock cs ps s ch b inner c g i hd h2 h2' h3 h4 h5 := by
    refine ⟨traverse_shape.floatBlock cs ps s ch b inner c g i hd h2 h2' h3.1 h4 h5, fun hk hr => ?_⟩
    obtain ⟨-, hk⟩ := contentsKeep_element hk (by rw [hd]; simp)
    obtain ⟨e1, e2⟩ := hasOngoing_false_styled h5
    obtain ⟨e3, e4⟩ := Keeps.pushBlock f ps b (.outOfFlowFloat s g c) true e2 e1
    refine ⟨e3, ?_⟩
    rw [e4, styledText_element (by rw [hd]; simp), inkWith_append, BlockLevelBox.styledText, inner_styled h3 hk h4]
  block cs ps s ch b b1 inner c g i hd h2 h2' h0 h3 h4 := by
    refine ⟨traverse_shape.block cs ps s ch b b1 inner c g i hd h2 h2' h0 h3.1 h4, fun hk hr => ?_⟩
    obtain ⟨-, hk⟩ := contentsKeep_element hk (by rw [hd]; simp)
    have hend := (splitInlines_eq h0).2
    obtain ⟨e1, e2⟩ := endOngoing_styled hend
    have e5 : b1.styled = blocksStyledText b1.blockLevelBoxes := by
      have hs1 := (endOngoing_stack hend).2
      have : b1.ongoing = [] := by simpa [Builder.current, hs1] using e2
      simp [Builder.styled, hs1, this, stackStyled, inlinesStyledText]
    cases i with
    | flow =>
      obtain ⟨e3, e4⟩ := Keeps.pushBlock f ps b1 (.sameFormattingContextBlock s c) (b1.containsFloats || g) e2 e5
      refine ⟨e3, ?_⟩
      simp only
      rw [e4, styledText_element (by rw [hd]; simp), inkWith_append, e1, BlockLevelBox.styledText, inner_styled h3 hk h4]
    | flowRoot =>
      obtain ⟨e3, e4⟩ := Keeps.pushBlock f ps b1 (.independent s g c) (b1.containsFloats || false) e2 e5
      refine ⟨e3, ?_⟩
      simp only
      rw [e4, styledText_element (by rw [hd]; simp), inkWith_append, e1, BlockLevelBox.styledText, inner_styled h3 hk h4]
  nil _ _ b := ⟨.refl b, fun _ h => ⟨h, by simp [styledTexts, inkWith, ink]⟩⟩
  cons cs ps n ns b b1 b2 h h' := by
    refine ⟨h.1.trans h'.1, fun hk hr => ?_⟩
    simp only [nodesContentsKeep] at hk
    obtain ⟨h1, h2⟩ := h.2 hk.1 hr
    obtain ⟨h3, h4⟩ := h'.2 hk.2 h1
    refine ⟨h3, ?_⟩
    rw [h4, h2, styledTexts, inkWith_append, List.append_assoc]


/-! ### What can be constructed -/

theorem SameOutside.isEmpty {b b' : Builder} (h : SameOutside b b') : b'.stack.isEmpty = b.stack.isEmpty := by
  unfold SameOutside at h
  split at h
  · rename_i hs
    rw [hs, h]
  · rename_i o rest hs
    obtain ⟨ch, h1, -, -⟩ := h
    rw [hs, h1]
    rfl

theorem finish_isSome {b : Builder} (cs : ComputedValues) (hs : b.stack = []) : ∃ c f, b.finish cs = some (c, f) := by
  unfold Builder.finish
  split
  · exact ⟨_, _, rfl⟩
  · rename_i h1
    split
    · exact ⟨_, _, rfl⟩
    · simp only [Builder.endOngoing, hs, List.isEmpty_nil, Bool.not_true, Bool.false_eq_true, if_false, h1]
      exact ⟨_, _, rfl⟩

theorem splitInlines_isSome (b : Builder) (cs : ComputedValues) : (∃ b1, b.splitInlines cs = some b1) ↔ b.stack = [] := by
  constructor
  · rintro ⟨b1, h⟩
    exact (splitInlines_eq h).1
  · intro h
    simp only [Builder.splitInlines, h, fragmentStack, Builder.endOngoing, List.map_nil, List.isEmpty_nil, Bool.not_true,
      Bool.false_eq_true, if_false]
    split <;> exact ⟨_, rfl⟩

theorem Option.exists_bind {α β : Type} (o : Option α) (f : α → Option β) :
    (∃ b, (match o with | none => none | some a => f a) = some b) ↔ ∃ a, o = some a ∧ ∃ b, f a = some b := by
  cases o <;> simp

mutual
theorem traverseNode_isSome (cs ps : ComputedValues) :
    ∀ (n : StyledNode) (b : Builder), (∃ b', traverseNode cs ps n b = some b') ↔ n.Supported (!b.stack.isEmpty)
  | .ignored, b => by simp [traverseNode, StyledNode.Supported]
  | .text t, b => by simp [traverseNode, StyledNode.Supported]
  | .element s ch, b => by
    have hinner : (∃ inner, traverseNodes s s ch Builder.new = some inner) ↔ allSupported false ch :=
      traverseNodes_isSome s s ch Builder.new
    have hfinish : ∀ inner, traverseNodes s s ch Builder.new = some inner → ∃ c f, inner.finish s = some (c, f) := fun inner h =>
      finish_isSome s (traverseNodes_induct traverse_shape s s ch _ _ h).new_stack
    simp only [traverseNode, StyledNode.Supported]
    rcases hd : displayOf s with _ | _ | ⟨outside, inside⟩
    · simp
    · exact traverseNodes_isSome cs s ch b
    · rcases outside with _ | _
      · rcases inside with _ | _
        · dsimp only
          have ih := traverseNodes_isSome cs s ch { b with stack := ⟨s, true, []⟩ :: b.stack }
          simp only [List.isEmpty_cons, Bool.not_false] at ih
          rw [← ih]
          constructor
          · rintro ⟨b', h⟩
            rcases h1 : traverseNodes cs s ch { b with stack := ⟨s, true, []⟩ :: b.stack } with _ | b1
            · simp [h1] at h
            · exact ⟨b1, rfl⟩
          · rintro ⟨b1, h1⟩
            have := (traverseNodes_induct traverse_shape cs s ch _ _ h1).isEmpty
            rcases h2 : b1.stack with _ | ⟨o, rest⟩
            · simp [h2] at this
            · simp only [h1, h2]
              exact ⟨_, rfl⟩
        · simp
      · dsimp only
        by_cases hp : positionOf s = .absolute
        · rw [if_pos ((isAbsolutelyPositioned_iff _).mpr hp), if_pos (.inl hp), ← hinner]
          constructor
          · rintro ⟨b', h⟩
            rcases h1 : traverseNodes s s ch Builder.new with _ | inner
            · simp [h1] at h
            · exact ⟨inner, rfl⟩
          · rintro ⟨inner, h1⟩
            obtain ⟨c, f, h2⟩ := hfinish inner h1
            simp only [h1, h2]
            split <;> exact ⟨_, rfl⟩
        · rw [if_neg (fun h => hp ((isAbsolutelyPositioned_iff _).mp h))]
          by_cases hf : floatOf s = .none
          · rw [if_neg (fun h => (isFloating_iff _).mp h hf), if_neg (by simp [hp, hf]), ← hinner]
            constructor
            · rintro ⟨b', h⟩
              rcases h0 : b.splitInlines cs with _ | b1
              · simp [h0] at h
              · simp only [h0] at h
                rcases h1 : traverseNodes s s ch Builder.new with _ | inner
                · simp [h1] at h
                · exact ⟨by simp [(splitInlines_eq h0).1], inner, rfl⟩
            · rintro ⟨hs, inner, h1⟩
              obtain ⟨c, f, h2⟩ := hfinish inner h1
              obtain ⟨b1, h0⟩ := (splitInlines_isSome b cs).mpr (by simpa using hs)
              simp only [h0, h1, h2]
              cases inside <;> exact ⟨_, rfl⟩
          · rw [if_pos ((isFloating_iff _).mpr hf), if_pos (.inr hf), ← hinner]
            constructor
            · rintro ⟨b', h⟩
              rcases h1 : traverseNodes s s ch Builder.new with _ | inner
              · simp [h1] at h
              · exact ⟨inner, rfl⟩
            · rintro ⟨inner, h1⟩
              obtain ⟨c, f, h2⟩ := hfinish inner h1
              simp only [h1, h2]
              split <;> exact ⟨_, rfl⟩
theorem traverseNodes_isSome (cs ps : ComputedValues) :
    ∀ (ns : List StyledNode) (b : Builder), (∃ b', traverseNodes cs ps ns b = some b') ↔ allSupported (!b.stack.isEmpty) ns
  | [], b => by simp [traverseNodes, allSupported]
  | n :: ns, b => by
    simp only [traverseNodes, allSupported, ← traverseNode_isSome cs ps n b]
    constructor
    · rintro ⟨b', h⟩
      rcases h1 : traverseNode cs ps n b with _ | b1
      · simp [h1] at h
      · simp only [h1] at h
        have := (traverseNodes_isSome cs ps ns b1).mp ⟨b', h⟩
        rw [(traverseNode_induct traverse_shape cs ps n _ _ h1).isEmpty] at this
        exact ⟨⟨b1, rfl⟩, this⟩
    · rintro ⟨⟨b1, h1⟩, h⟩
      rw [← (traverseNode_induct traverse_shape cs ps n _ _ h1).isEmpty] at h
      simp only [h1]
      exact (traverseNodes_isSome cs ps ns b1).mpr h
end

/-! ### Paragraphs -/

/-- The text to come does not begin with white space, unless the current level has text already. -/
def StartsInk (b : Builder) (t : List Nat) : Prop :=
  b.stack ≠ [] → flowTexts b.current = [] → ∀ c ∈ t.head?, isAsciiWhitespace c = false

theorem isOutOfFlow_iff {s : ComputedValues} {inside : DisplayInside} (hd : displayOf s = .generatingBox .block inside) :
    IsOutOfFlow s ↔ positionOf s = .absolute ∨ floatOf s ≠ .none := by
  constructor
  · rintro ⟨-, h⟩
    exact h
  · intro h
    exact ⟨⟨inside, hd⟩, h⟩

theorem not_isBlock {s : ComputedValues} (hd : displayOf s = .contents ∨ displayOf s = .generatingBox .inline .flow) : ¬ IsBlock s := by
  rintro ⟨i, h⟩
  rcases hd with hd | hd <;> rw [hd] at h <;> cases h

theorem not_isOutOfFlow {s : ComputedValues} (hd : displayOf s = .contents ∨ displayOf s = .generatingBox .inline .flow) :
    ¬ IsOutOfFlow s := fun h => not_isBlock hd h.1

theorem blocksParagraphs_append (bs cs : List BlockLevelBox) :
    blocksParagraphs (bs ++ cs) = blocksParagraphs bs ++ blocksParagraphs cs := by
  induction bs with
  | nil => rfl
  | cons b bs ih => simp [blocksParagraphs, ih]

theorem nonEmpty_append (t u : List (List Nat)) : nonEmpty (t ++ u) = nonEmpty t ++ nonEmpty u := by simp [nonEmpty]

/-- The paragraphs in a builder are those of the nodes seen so far, with white space collapsed. -/
def Agrees (b : Builder) (acc : List (List Nat) × List Nat) : Prop :=
  b.flow = collapse acc.2 ∧ nonEmpty (blocksParagraphs b.blockLevelBoxes) = nonEmpty (acc.1.map collapse)

theorem Agrees.new : Agrees Builder.new ([], []) := ⟨rfl, rfl⟩

theorem Agrees.endOngoing {b b1 : Builder} {cs : ComputedValues} {acc : List (List Nat) × List Nat} (h : Agrees b acc)
    (he : b.endOngoing cs = some b1) :
    nonEmpty (blocksParagraphs b1.blockLevelBoxes) = nonEmpty ((acc.1 ++ [acc.2]).map collapse) ∧ b1.flow = [] := by
  have hs := (endOngoing_stack he).1
  have hf : b.flow = flowTexts b.ongoing := by simp [Builder.flow, hs, stackFlow]
  unfold Builder.endOngoing at he
  simp only [hs, List.isEmpty_nil, Bool.not_true, Bool.false_eq_true, if_false] at he
  split at he
  · rename_i h1
    simp only [List.isEmpty_iff] at h1
    injection he with he
    subst he
    have hc : collapse acc.2 = [] := by rw [← h.1, hf, h1]; rfl
    refine ⟨?_, by rw [hf, h1]; rfl⟩
    rw [List.map_append, nonEmpty_append, ← h.2]
    simp [nonEmpty, hc]
  · injection he with he
    subst he
    constructor
    · rw [blocksParagraphs_append, nonEmpty_append, List.map_append, nonEmpty_append, ← h.2]
      simp [blocksParagraphs, BlockLevelBox.paragraphs, BlockContainer.paragraphs, ← h.1, hf]
    · simp [Builder.flow, flowTexts, stackFlow]

theorem Agrees.finish {b : Builder} {cs : ComputedValues} {acc : List (List Nat) × List Nat} {c : BlockContainer} {f : Bool}
    (h : Agrees b acc) (hs : b.stack = []) (he : b.finish cs = some (c, f)) :
    nonEmpty c.paragraphs = nonEmpty ((acc.1 ++ [acc.2]).map collapse) := by
  have hf : b.flow = flowTexts b.ongoing := by simp [Builder.flow, hs, stackFlow]
  unfold Builder.finish at he
  split at he
  · rename_i h1
    simp only [List.isEmpty_iff] at h1
    simp only [Option.some.injEq, Prod.mk.injEq] at he
    obtain ⟨rfl, -⟩ := he
    have hc : collapse acc.2 = [] := by rw [← h.1, hf, h1]; rfl
    rw [List.map_append, nonEmpty_append, ← h.2]
    simp [nonEmpty, hc, BlockContainer.paragraphs]
  · split at he
    · rename_i h1 h2
      simp only [List.isEmpty_iff] at h2
      simp only [Option.some.injEq, Prod.mk.injEq] at he
      obtain ⟨rfl, -⟩ := he
      rw [List.map_append, nonEmpty_append, ← h.2, h2]
      simp [blocksParagraphs, nonEmpty, BlockContainer.paragraphs, ← h.1, hf]
    · rcases h3 : b.endOngoing cs with _ | b1
      · simp [h3] at he
      · simp only [h3, Option.some.injEq, Prod.mk.injEq] at he
        obtain ⟨rfl, -⟩ := he
        exact (h.endOngoing h3).1

theorem added_eq {b : Builder} (h : Good b) {t : List Nat} (hs : StartsInk b t) : b.added t = squeeze (afterSpace true b.flow) t := by
  unfold Builder.added
  obtain ⟨pre, h1, hpre, -⟩ := flow_current b
  rcases hl : (flowTexts b.current).getLast? with _ | c
  · have he : flowTexts b.current = [] := by simpa using hl
    by_cases hst : b.stack = []
    · rw [spaceAfterAll_eq _ h.currentFull, hl, h1, hpre hst, he]
      rfl
    · rw [squeeze_false_of_ink _ _ (hs hst he), ← squeeze_false_of_ink _ _ (hs hst he)]
  · have hlast : b.flow.getLast? = some c := by
      rw [h1, List.getLast?_append, hl]
      rfl
    rw [spaceAfterAll_eq _ h.currentFull, hl]
    congr 1
    simp only [afterSpace, hlast, Option.map_some]
    have hmem : c ∈ b.flow := List.mem_of_getLast? hlast
    rw [← h.collapsed] at hmem
    have h32 := squeeze_only _ _ c hmem
    by_cases hc : c = 32
    · subst hc; rfl
    · have : isAsciiWhitespace c = false := by
        rw [← Bool.not_eq_true]
        exact fun h => hc (h32 h)
      rw [this]
      simp [hc]

/-- The invariant for C63. -/
structure Flows (b b' : Builder) (t : List Nat) : Prop where
  flow : b'.flow = b.flow ++ squeeze (afterSpace true b.flow) t
  starts : ∀ u, StartsInk b (t ++ u) → StartsInk b' u

theorem flow_length_inside {b b' : Builder} (h : SameOutside b b') (hs : b.stack ≠ []) :
    ∃ pre, b.flow = pre ++ flowTexts b.current ∧ b'.flow = pre ++ flowTexts b'.current := by
  unfold SameOutside at h
  split at h
  · rename_i h1
    exact absurd h1 hs
  · rename_i o rest h1
    obtain ⟨ch, h2, h3, -⟩ := h
    exact ⟨flowTexts b.ongoing ++ stackFlow rest, by simp [Builder.flow, Builder.current, h1, stackFlow],
      by simp [Builder.flow, Builder.current, h2, h3, stackFlow]⟩

/-- The second part of `Flows` follows from the first: either some text was added, or the text that was left out is white space. -/
theorem Flows.of_flow {b b' : Builder} {t : List Nat} (ho : SameOutside b b')
    (h : b'.flow = b.flow ++ squeeze (afterSpace true b.flow) t) : Flows b b' t := by
  refine ⟨h, fun u hu hs' he' => ?_⟩
  have hs : b.stack ≠ [] := by
    have := ho.isEmpty
    intro hb
    rw [hb] at this
    exact hs' (by simpa using this)
  obtain ⟨pre, h1, h2⟩ := flow_length_inside ho hs
  rw [he', List.append_nil] at h2
  rw [h1, List.append_assoc] at h
  have h3 : flowTexts b.current ++ squeeze (afterSpace true (pre ++ flowTexts b.current)) t = [] := by
    have := h.symm.trans h2
    simpa using this
  have he : flowTexts b.current = [] := (List.append_eq_nil_iff.mp h3).1
  have hsq := (List.append_eq_nil_iff.mp h3).2
  cases t with
  | nil => exact hu hs he
  | cons c t =>
    have hc : isAsciiWhitespace c = false := hu hs he c rfl
    simp [squeeze, hc] at hsq

theorem StartsInk.left {b : Builder} {t u : List Nat} (h : StartsInk b (t ++ u)) : StartsInk b t := by
  intro hs he c hc
  refine h hs he c ?_
  cases t with
  | nil => simp at hc
  | cons d t => simpa using hc

theorem noLeading_element {s : ComputedValues} {ch : List StyledNode} (h : (StyledNode.element s ch).NoLeadingSpace)
    (h1 : displayOf s ≠ .none) (h2 : ¬ IsOutOfFlow s) :
    (IsInline s → ∀ c ∈ (nodesFlowText ch).head?, isAsciiWhitespace c = false) ∧ noLeadingSpaces ch := by
  simp only [StyledNode.NoLeadingSpace] at h
  exact (h.resolve_left h1).resolve_left h2

theorem traverse_flows : TraversalCases
    (fun _ _ n b b' => SameOutside b b' ∧ (Good b → Good b') ∧
      (Good b → n.NoLeadingSpace → StartsInk b n.flowText →
        (b.stack ≠ [] → b'.flow = b.flow ++ squeeze (afterSpace true b.flow) n.flowText) ∧
        ∀ acc, Agrees b acc → Agrees b' (n.paragraphs acc)))
    (fun _ _ ns b b' => SameOutside b b' ∧ (Good b → Good b') ∧
      (Good b → noLeadingSpaces ns → StartsInk b (nodesFlowText ns) →
        (b.stack ≠ [] → b'.flow = b.flow ++ squeeze (afterSpace true b.flow) (nodesFlowText ns)) ∧
        ∀ acc, Agrees b acc → Agrees b' (nodesParagraphs ns acc))) where
  ignored _ _ b := ⟨.refl b, id, fun _ _ _ => ⟨fun _ => by simp [StyledNode.flowText, squeeze], fun acc h => by
    simpa [StyledNode.paragraphs] using h⟩⟩
  text cs ps t b := ⟨.handleText _ _ _, fun h => h.handleText _ _, fun h _ hs => by
    simp only [StyledNode.flowText] at hs ⊢
    have hflow : (b.handleText t ps).flow = b.flow ++ squeeze (afterSpace true b.flow) t := by
      rw [flow_handleText, added_eq h hs]
    refine ⟨fun _ => hflow, fun acc ha => ⟨?_, ?_⟩⟩
    · simp only [StyledNode.paragraphs]
      rw [hflow, ha.1, collapse, collapse, squeeze_append, afterSpace_squeeze]
    · have hblocks : (b.handleText t ps).blockLevelBoxes = b.blockLevelBoxes := by
        rw [handleText_eq]
        split
        · rfl
        · unfold Builder.setCurrent
          split <;> rfl
      simp only [StyledNode.paragraphs]
      rw [hblocks, ha.2]⟩
  none _ _ s _ b hd := ⟨.refl b, id, fun _ _ _ => ⟨fun _ => by simp [StyledNode.flowText, hd, squeeze], fun acc h => by
    simpa [StyledNode.paragraphs, hd] using h⟩⟩
  contents cs ps s ch b b' hd h := by
    refine ⟨h.1, h.2.1, fun hb hp hs => ?_⟩
    have hno : ¬ IsOutOfFlow s := not_isOutOfFlow (.inl hd)
    have hnb : ¬ IsBlock s := not_isBlock (.inl hd)
    have hflow : (StyledNode.element s ch).flowText = nodesFlowText ch := by simp [StyledNode.flowText, hd, hno]
    rw [hflow] at hs ⊢
    have hpar : ∀ acc, (StyledNode.element s ch).paragraphs acc = nodesParagraphs ch acc := by
      simp [StyledNode.paragraphs, hd, hno, hnb]
    simp only [hpar]
    exact h.2.2 hb (noLeading_element hp (by rw [hd]; simp) hno).2 hs
  inline cs ps s ch b b1 o rest hd h hs := by
    refine ⟨traverse_shape.inline cs ps s ch b b1 o rest hd h.1 hs,
      (traverse_good.inline cs ps s ch b b1 o rest hd ⟨h.1, h.2.1⟩ hs).2, fun hb hp _ => ?_⟩
    have hno : ¬ IsOutOfFlow s := not_isOutOfFlow (.inr hd)
    have hnb : ¬ IsBlock s := not_isBlock (.inr hd)
    obtain ⟨hp1, hp2⟩ := noLeading_element hp (by rw [hd]; simp) hno
    have hflow : (StyledNode.element s ch).flowText = nodesFlowText ch := by simp [StyledNode.flowText, hd, hno]
    have hpar : ∀ acc, (StyledNode.element s ch).paragraphs acc = nodesParagraphs ch acc := by
      simp [StyledNode.paragraphs, hd, hno, hnb]
    rw [hflow]
    simp only [hpar]
    obtain ⟨rfl, -, -, h2, h3⟩ := inline_inner h.1 hs
    have e1 : ({ b with stack := ⟨s, true, []⟩ :: b.stack } : Builder).flow = b.flow := by
      simp [Builder.flow, stackFlow, flowTexts]
    obtain ⟨h4, h5⟩ := h.2.2 ⟨hb.full, by simpa [allFull] using hb.fullStack, by
      rw [e1]; exact hb.collapsed, hb.blocks, hb.inlines, by simpa [inlinesAllContexts] using hb.inlinesStack⟩ hp2
      (fun _ _ => hp1 hd)
    have h4 := h4 (by simp)
    rw [e1] at h4
    have e2 : b1.flow = b.flow ++ flowTexts o.children := by
      simp [Builder.flow, h2, hs, stackFlow]
    have e3 : ({ b1 with stack := b.stack } : Builder).flow = b.flow := by simp [Builder.flow, h2]
    have e4 : (({ b1 with stack := b.stack } : Builder).push (.inlineBox o.style o.firstFragment true o.children)).flow = b1.flow := by
      rw [flow_push, e3, InlineLevelBox.flowText, e2]
    have e5 : (({ b1 with stack := b.stack } : Builder).push (.inlineBox o.style o.firstFragment true o.children)).blockLevelBoxes =
        b1.blockLevelBoxes := by
      unfold Builder.push Builder.setCurrent
      split <;> rfl
    refine ⟨fun _ => by rw [e4, h4], fun acc ha => ?_⟩
    obtain ⟨h6, h7⟩ := h5 acc ⟨e1.trans ha.1, ha.2⟩
    exact ⟨by rw [e4, h6], by rw [e5, h7]⟩
  absoluteInline cs ps s ch b inner c f i h1 h2 h3 h4 h5 := by
    obtain ⟨g1, g2⟩ := traverse_good.absoluteInline cs ps s ch b inner c f i h1 h2 ⟨h3.1, h3.2.1⟩ h4 h5
    have ho : IsOutOfFlow s := (isOutOfFlow_iff h1).mpr (.inl h2)
    have e4 : (b.push (.outOfFlowAbsolutelyPositioned s f c)).flow = b.flow := by simp [flow_push, InlineLevelBox.flowText]
    have e5 : (b.push (.outOfFlowAbsolutelyPositioned s f c)).blockLevelBoxes = b.blockLevelBoxes := by
      unfold Builder.push Builder.setCurrent
      split <;> rfl
    refine ⟨g1, g2, fun _ _ _ => ⟨fun _ => ?_, fun acc ha => ?_⟩⟩
    · rw [e4]
      simp [StyledNode.flowText, ho, squeeze]
    · simp only [StyledNode.paragraphs, ho, or_true, if_true]
      exact ⟨e4.trans ha.1, by rw [e5, ha.2]⟩
  absoluteBlock cs ps s ch b inner c f i h1 h2 h3 h4 h5 := by
    obtain ⟨g1, g2⟩ := traverse_good.absoluteBlock cs ps s ch b inner c f i h1 h2 ⟨h3.1, h3.2.1⟩ h4 h5
    have ho : IsOutOfFlow s := (isOutOfFlow_iff h1).mpr (.inl h2)
    refine ⟨g1, g2, fun _ _ _ => ⟨fun _ => ?_, fun acc ha => ?_⟩⟩
    · simp [StyledNode.flowText, ho, squeeze, Builder.flow]
    · simp only [StyledNode.paragraphs, ho, or_true, if_true]
      exact ⟨ha.1, by simpa [blocksParagraphs_append, blocksParagraphs, BlockLevelBox.paragraphs] using ha.2⟩
  floatInline cs ps s ch b inner c f i h1 h2 h2' h3 h4 h5 := by
    obtain ⟨g1, g2⟩ := traverse_good.floatInline cs ps s ch b inner c f i h1 h2 h2' ⟨h3.1, h3.2.1⟩ h4 h5
    have ho : IsOutOfFlow s := (isOutOfFlow_iff h1).mpr (.inr h2')
    have e4 : (({ b with containsFloats := true } : Builder).push (.outOfFlowFloat s f c)).flow = b.flow := by
      simp [flow_push, InlineLevelBox.flowText, flow_containsFloats]
    have e5 : (({ b with containsFloats := true } : Builder).push (.outOfFlowFloat s f c)).blockLevelBoxes = b.blockLevelBoxes := by
      unfold Builder.push Builder.setCurrent
      split <;> rfl
    refine ⟨g1, g2, fun _ _ _ => ⟨fun _ => ?_, fun acc ha => ?_⟩⟩
    · rw [e4]
      simp [StyledNode.flowText, ho, squeeze]
    · simp only [StyledNode.paragraphs, ho, or_true, if_true]
      exact ⟨e4.trans ha.1, by rw [e5, ha.2]⟩
  floatBlock cs ps s ch b inner c f i h1 h2 h2' h3 h4 h5 := by
    obtain ⟨g1, g2⟩ := traverse_good.floatBlock cs ps s ch b inner c f i h1 h2 h2' ⟨h3.1, h3.2.1⟩ h4 h5
    have ho : IsOutOfFlow s := (isOutOfFlow_iff h1).mpr (.inr h2')
    refine ⟨g1, g2, fun _ _ _ => ⟨fun _ => ?_, fun acc ha => ?_⟩⟩
    · simp [StyledNode.flowText, ho, squeeze, Builder.flow]
    · simp only [StyledNode.paragraphs, ho, or_true, if_true]
      exact ⟨ha.1, by simpa [blocksParagraphs_append, blocksParagraphs, BlockLevelBox.paragraphs] using ha.2⟩
  block cs ps s ch b b1 inner c f i h1 h2 h2' h0 h3 h4 := by
    obtain ⟨g1, g2⟩ := traverse_good.block cs ps s ch b b1 inner c f i h1 h2 h2' h0 ⟨h3.1, h3.2.1⟩ h4
    have hno : ¬ IsOutOfFlow s := by
      rw [isOutOfFlow_iff h1]
      simp [h2, h2']
    have hb : IsBlock s := ⟨i, h1⟩
    obtain ⟨hs0, he0⟩ := splitInlines_eq h0
    refine ⟨g1, g2, fun _ hp _ => ⟨fun hs => absurd hs0 hs, fun acc ha => ?_⟩⟩
    have hp := (noLeading_element hp (by rw [h1]; simp) hno).2
    obtain ⟨e1, e2⟩ := ha.endOngoing he0
    have hin := (h3.2.2 .new hp (fun h => absurd rfl h)).2 _ Agrees.new
    have hfin := hin.finish h3.1.new_stack h4
    have hd' : ¬ (displayOf s = .none ∨ IsOutOfFlow s) := by
      rw [h1]
      simp [hno]
    simp only [StyledNode.paragraphs, hd', hb, if_true, if_false]
    refine ⟨e2, ?_⟩
    cases i <;>
      simp only [blocksParagraphs_append, blocksParagraphs, List.append_nil, nonEmpty_append, e1, List.map_append,
        BlockLevelBox.paragraphs, hfin, List.append_assoc]
  nil _ _ b := ⟨.refl b, id, fun _ _ _ => ⟨fun _ => by simp [nodesFlowText, squeeze], fun acc h => by
    simpa [nodesParagraphs] using h⟩⟩
  cons cs ps n ns b b1 b2 h h' := by
    refine ⟨h.1.trans h'.1, fun hb => h'.2.1 (h.2.1 hb), fun hb hp hs => ?_⟩
    simp only [noLeadingSpaces] at hp
    simp only [nodesFlowText] at hs ⊢
    obtain ⟨h1, h1'⟩ := h.2.2 hb hp.1 hs.left
    have hstart : StartsInk b1 (nodesFlowText ns) := by
      by_cases hst : b.stack = []
      · have hst1 : b1.stack = [] := by
          have := h.1.isEmpty
          rw [hst] at this
          simpa using this
        exact fun h => absurd hst1 h
      · exact (Flows.of_flow h.1 (h1 hst)).starts _ hs
    obtain ⟨h2, h2'⟩ := h'.2.2 (h.2.1 hb) hp.2 hstart
    refine ⟨fun hst => ?_, fun acc ha => by
      rw [nodesParagraphs]
      exact h2' _ (h1' acc ha)⟩
    have hst1 : b1.stack ≠ [] := by
      have := h.1.isEmpty
      intro h0
      rw [h0] at this
      exact hst (by simpa using this.symm)
    rw [h2 hst1, h1 hst, squeeze_append, List.append_assoc]
    congr 3
    rw [afterSpace_append]
    exact afterSpace_squeeze _ _

end Verif.Layout
