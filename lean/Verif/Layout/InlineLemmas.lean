/- Inline layout refines the specification: lemmas. -/
import Verif.Layout.InlineSpec
import Verif.Layout.MarginLemmas
import Verif.Layout.Inline
import Mathlib.Data.List.Forall2
import Mathlib.Tactic.Linarith
import Mathlib.Tactic.Ring
namespace Verif.Layout
open Verif.Style Verif.Text
variable {Err : Type} {F : FontApi Rat Err}

/-! ### One line -/

/-- What is known of the last break opportunity: the text before it fits, and what follows it has no space. -/
def LastBreak (F : FontApi Rat Err) (fontSize available : Rat) (done chars : List Nat) (shaped : ShapedSegment Rat) :
    Option (ShapedSegmentState Rat × List Nat) → Prop
  | none => 32 ∉ done
  | some (state, iter) => ∃ t w g, done = t ++ 32 :: w ∧ 32 ∉ w ∧ iter = w ++ chars ∧
      IsShaped F t (shaped.glyphs.take state.glyphs) state.advanceWidth ∧ state.glyphs ≤ shaped.glyphs.length ∧
      fontSize * state.advanceWidth ≤ available ∧ g = state.glyphs

theorem shapeLine_spec (fontSize available : Rat) :
    ∀ (chars done : List Nat) (shaped : ShapedSegment Rat) (last : Option (ShapedSegmentState Rat × List Nat))
      (shaped' : ShapedSegment Rat) (rest : List Nat),
      IsShaped F done shaped.glyphs shaped.advanceWidth → LastBreak F fontSize available done chars shaped last →
      shapeLine F fontSize available chars shaped last = some (shaped', rest) →
      ∃ line, IsShaped F line shaped'.glyphs shaped'.advanceWidth ∧ LineOk F fontSize available line ∧
        ((done ++ chars = line ∧ rest = []) ∨
         (done ++ chars = line ++ 32 :: rest ∧ BreakNeeded F fontSize available line rest)) := by
  intro chars
  induction chars with
  | nil =>
    intro done shaped last shaped' rest hs hl h
    simp only [shapeLine] at h
    split at h
    · rename_i hover
      rcases last with _ | ⟨state, iter⟩
      · simp only [Option.some.injEq, Prod.mk.injEq] at h
        obtain ⟨rfl, rfl⟩ := h
        exact ⟨done, hs, Or.inr hl, Or.inl ⟨by simp, rfl⟩⟩
      · simp only [Option.some.injEq, Prod.mk.injEq] at h
        obtain ⟨rfl, rfl⟩ := h
        obtain ⟨t, w, g, rfl, hw, rfl, hshape, hle, hfit, -⟩ := hl
        refine ⟨t, hshape, Or.inl ⟨_, _, hshape, hfit⟩, Or.inr ⟨by simp, Or.inr ?_⟩⟩
        have : firstWord (w ++ []) = w := by
          rw [firstWord, List.takeWhile_append_of_pos]
          · simp
          · intro x hx
            simp only [ne_eq, decide_eq_true_eq]
            rintro rfl
            exact hw hx
        rw [this]
        exact ⟨_, _, hs, hover⟩
    · rename_i hfit
      simp only [Option.some.injEq, Prod.mk.injEq] at h
      obtain ⟨rfl, rfl⟩ := h
      exact ⟨done, hs, Or.inl ⟨_, _, hs, not_lt.mp hfit⟩, Or.inl ⟨by simp, rfl⟩⟩
  | cons ch chars ih =>
    intro done shaped last shaped' rest hs hl h
    simp only [shapeLine] at h
    split at h
    · rename_i hover
      obtain ⟨rfl, hover⟩ := hover
      rcases last with _ | ⟨state, iter⟩
      · simp only [Option.some.injEq, Prod.mk.injEq] at h
        obtain ⟨rfl, rfl⟩ := h
        exact ⟨done, hs, Or.inr hl, Or.inr ⟨rfl, Or.inl ⟨_, _, hs, hover⟩⟩⟩
      · simp only [Option.some.injEq, Prod.mk.injEq] at h
        obtain ⟨rfl, rfl⟩ := h
        obtain ⟨t, w, g, rfl, hw, rfl, hshape, hle, hfit, -⟩ := hl
        refine ⟨t, hshape, Or.inl ⟨_, _, hshape, hfit⟩, Or.inr ⟨by simp, Or.inr ?_⟩⟩
        have : firstWord (w ++ 32 :: chars) = w := by
          simp only [firstWord]
          rw [List.takeWhile_append_of_pos]
          · simp
          · intro x hx
            simp only [ne_eq, decide_eq_true_eq]
            rintro rfl
            exact hw hx
        rw [this]
        exact ⟨_, _, hs, hover⟩
    · rename_i hnot
      rcases appendChar_eq F shaped ch with ⟨id, w, hid, hw, he⟩ | ⟨-, e, he⟩
      · simp only [he] at h
        have hs' : IsShaped F (done ++ [ch]) (shaped.glyphs ++ [id]) (F.add shaped.advanceWidth w) := .snoc hs hid hw
        have key := ih (done ++ [ch]) _ _ shaped' rest hs' ?_ h
        · simpa using key
        · split
          · rename_i hch
            subst hch
            have hfit : fontSize * shaped.advanceWidth ≤ available := by
              by_contra hc
              exact hnot ⟨rfl, not_le.mp hc⟩
            refine ⟨done, [], _, rfl, by simp, rfl, ?_, ?_, hfit, rfl⟩
            · simpa [ShapedSegment.save] using hs
            · simp [ShapedSegment.save]
          · rename_i hch
            rcases last with _ | ⟨state, iter⟩
            · simp only [LastBreak] at hl ⊢
              simp only [List.mem_append, List.mem_singleton, not_or]
              exact ⟨hl, fun h => hch h.symm⟩
            · obtain ⟨t, w', g, rfl, hw', rfl, hshape, hle, hfit, -⟩ := hl
              refine ⟨t, w' ++ [ch], _, by simp, ?_, by simp, ?_, ?_, hfit, rfl⟩
              · simp only [List.mem_append, List.mem_singleton, not_or]
                exact ⟨hw', fun h => hch h.symm⟩
              · rw [List.take_append_of_le_length hle]; exact hshape
              · simp only [List.length_append]; omega
      · simp [he] at h

/-- Line breaking of a text: what `shapeLine` does for one line. -/
theorem shapeLine_line (fontSize available : Rat) (chars : List Nat) (shaped : ShapedSegment Rat) (rest : List Nat)
    (h : shapeLine F fontSize available chars (ShapedSegment.new F) none = some (shaped, rest)) :
    ∃ line, IsShaped F line shaped.glyphs shaped.advanceWidth ∧ LineOk F fontSize available line ∧
      ((chars = line ∧ rest = []) ∨ (chars = line ++ 32 :: rest ∧ BreakNeeded F fontSize available line rest)) := by
  have := shapeLine_spec fontSize available chars [] (ShapedSegment.new F) none shaped rest .nil (by simp [LastBreak]) h
  simpa using this

/-! ### Texts of fragments -/

theorem textsOf_append (origin : Rat) (fs fs' : List Fragment) :
    textsOf origin (fs ++ fs') = textsOf origin fs ++ textsOf origin fs' := by
  induction fs with
  | nil => simp [textsOf]
  | cons f fs ih => simp [textsOf, ih]

/-- The texts in the nesting levels outside the current one, from the outermost one. -/
def stackTexts : List PartialInlineBox → List PlacedText
  | [] => []
  | p :: ps => stackTexts ps ++ textsOf p.parentNestingLevel.inlineStart p.parentNestingLevel.fragmentsSoFar

/-- The texts of the current line. -/
def InlineState.texts (ifc : InlineState) : List PlacedText :=
  stackTexts ifc.stack ++ textsOf ifc.current.inlineStart ifc.current.fragmentsSoFar

/-- What is known of a nesting level: it is as high as its texts. -/
def LevelHigh (tall : Prop) (level : NestingLevel) : Prop :=
  tall → ∀ t ∈ textsOf level.inlineStart level.fragmentsSoFar, t.height ≤ level.maxBlockSize

/-- What is known of the partial boxes; `start` is the inline position of the nesting level inside them. -/
def StackOk (cb : ContainingBlock) (tall : Prop) : Rat → List PartialInlineBox → Prop
  | start, [] => start = 0
  | start, p :: ps =>
    start = p.parentNestingLevel.inlineStart + p.startCorner.inline ∧
    p.padding.inlineEnd + p.border.inlineEnd + p.margin.inlineEnd = Css.rightEdge cb p.style ∧
    (tall → 0 ≤ p.padding.blockSum + p.border.blockSum + p.margin.blockSum) ∧
    LevelHigh tall p.parentNestingLevel ∧
    StackOk cb tall p.parentNestingLevel.inlineStart ps

/-- The state of the code and that of the specification. -/
structure Matches (cb : ContainingBlock) (tall : Prop) (ifc : InlineState) (absolute : List AbsolutelyPositionedFragment) (rank : Nat)
    (s : FlatState) : Prop where
  lines : List.Forall₂ (IsLine cb) s.lines ifc.lineBoxes.boxes
  top : s.top = ifc.lineBoxes.nextLineBlockPosition
  texts : s.current = ifc.texts
  position : s.position = ifc.inlinePosition
  high : LevelHigh tall ifc.current
  stack : StackOk cb tall ifc.current.inlineStart ifc.stack
  absolutes : absolute = s.absolutes.map fun a => a.1.layout a.2 rank

theorem edges_left (cb : ContainingBlock) (s : ComputedValues) :
    ((padding s).percentagesRelativeTo cb.inlineSize).inlineStart + ((borderWidth s).percentagesRelativeTo cb.inlineSize).inlineStart +
      (((margin s).autoPercentagesRelativeTo cb.inlineSize).autoIs 0).inlineStart = Css.leftEdge cb s := by
  simp only [Sides.percentagesRelativeTo, Sides.map, percentageRelativeTo_eq, Sides.autoIs, Sides.autoPercentagesRelativeTo,
    autoPercentage_autoIs]
  rfl

theorem edges_right (cb : ContainingBlock) (s : ComputedValues) :
    ((padding s).percentagesRelativeTo cb.inlineSize).inlineEnd + ((borderWidth s).percentagesRelativeTo cb.inlineSize).inlineEnd +
      (((margin s).autoPercentagesRelativeTo cb.inlineSize).autoIs 0).inlineEnd = Css.rightEdge cb s := by
  simp only [Sides.percentagesRelativeTo, Sides.map, percentageRelativeTo_eq, Sides.autoIs, Sides.autoPercentagesRelativeTo,
    autoPercentage_autoIs]
  rfl

theorem edges_vertical (cb : ContainingBlock) (s : ComputedValues) :
    ((padding s).percentagesRelativeTo cb.inlineSize).blockSum + ((borderWidth s).percentagesRelativeTo cb.inlineSize).blockSum +
      (((margin s).autoPercentagesRelativeTo cb.inlineSize).autoIs 0).blockSum = Css.verticalEdges cb s := by
  simp only [Sides.percentagesRelativeTo, Sides.map, percentageRelativeTo_eq, Sides.autoIs, Sides.autoPercentagesRelativeTo,
    autoPercentage_autoIs, Sides.blockSum]
  rfl

/-- The parent's nesting level when a box is finished. -/
theorem finish_spec {cb : ContainingBlock} {tall : Prop} {p : PartialInlineBox} {ps : List PartialInlineBox} {level : NestingLevel}
    (position : Rat) (atBreak : Bool) (hs : StackOk cb tall level.inlineStart (p :: ps)) (hl : LevelHigh tall level) (start : Rat) :
    LevelHigh tall (p.finish { level with inlineStart := start } position atBreak).1.parentNestingLevel ∧
    (p.finish { level with inlineStart := start } position atBreak).1.parentNestingLevel.inlineStart =
      p.parentNestingLevel.inlineStart ∧
    textsOf p.parentNestingLevel.inlineStart
        (p.finish { level with inlineStart := start } position atBreak).1.parentNestingLevel.fragmentsSoFar =
      textsOf p.parentNestingLevel.inlineStart p.parentNestingLevel.fragmentsSoFar ++
        textsOf level.inlineStart level.fragmentsSoFar := by
  obtain ⟨h1, h2, h3, h4, h5⟩ := hs
  have htexts : textsOf p.parentNestingLevel.inlineStart
        (p.finish { level with inlineStart := start } position atBreak).1.parentNestingLevel.fragmentsSoFar =
      textsOf p.parentNestingLevel.inlineStart p.parentNestingLevel.fragmentsSoFar ++
        textsOf level.inlineStart level.fragmentsSoFar := by
    simp only [PartialInlineBox.finish, textsOf_append, textsOf, Fragment.texts, List.append_nil, ← h1]
  refine ⟨?_, rfl, htexts⟩
  intro ht t hmem
  have hstart : (p.finish { level with inlineStart := start } position atBreak).1.parentNestingLevel.inlineStart =
    p.parentNestingLevel.inlineStart := rfl
  rw [hstart, htexts] at hmem
  have hsum : (p.finish { level with inlineStart := start } position atBreak).1.parentNestingLevel.maxBlockSize =
      max p.parentNestingLevel.maxBlockSize (level.maxBlockSize + p.padding.blockSum + p.border.blockSum + p.margin.blockSum) := by
    simp only [PartialInlineBox.finish]
    split <;> rfl
  rw [hsum]
  rcases List.mem_append.mp hmem with hm | hm
  · exact le_trans (h4 ht t hm) (le_max_left _ _)
  · refine le_trans (hl ht t hm) (le_trans ?_ (le_max_right _ _))
    have := h3 ht
    linarith

theorem breakLine_spec (cb : ContainingBlock) (tall : Prop) :
    ∀ (stack : List PartialInlineBox) (level : NestingLevel) (position : Rat) (lines : LinesBoxes),
      StackOk cb tall level.inlineStart stack → LevelHigh tall level →
      ∃ height children,
        (breakLine cb stack level position lines).2.2 =
          ⟨lines.boxes ++ [.anonymous ⟨⟨0, lines.nextLineBlockPosition⟩, ⟨cb.inlineSize, height⟩⟩ children cb.mode],
            lines.nextLineBlockPosition + height⟩ ∧
        textsOf 0 children = stackTexts stack ++ textsOf level.inlineStart level.fragmentsSoFar ∧
        (tall → ∀ t ∈ textsOf 0 children, t.height ≤ height) ∧
        (breakLine cb stack level position lines).2.1.inlineStart = 0 ∧
        (breakLine cb stack level position lines).2.1.fragmentsSoFar = [] ∧
        StackOk cb tall 0 (breakLine cb stack level position lines).1 ∧
        stackTexts (breakLine cb stack level position lines).1 = [] := by
  intro stack
  induction stack with
  | nil =>
    intro level position lines hs hl
    simp only [StackOk] at hs
    refine ⟨level.maxBlockSize, level.fragmentsSoFar, rfl, ?_, ?_, rfl, rfl, rfl, rfl⟩
    · simp [stackTexts, hs]
    · intro ht t hm
      rw [← hs] at hm
      exact hl ht t hm
  | cons p rest ih =>
    intro level position lines hs hl
    obtain ⟨f1, f2, f3⟩ := finish_spec position true hs hl 0
    have hs' := hs
    obtain ⟨h1, h2, h3, h4, h5⟩ := hs'
    obtain ⟨height, children, g1, g2, g3, g4, g5, g6, g7⟩ :=
      ih (p.finish { level with inlineStart := 0 } position true).1.parentNestingLevel
        (p.finish { level with inlineStart := 0 } position true).2.2 lines (by rw [f2]; exact h5) f1
    simp only [breakLine]
    refine ⟨height, children, g1, ?_, g3, rfl, rfl, ?_, ?_⟩
    · rw [g2, f2, f3, stackTexts, List.append_assoc]
    · simp only [StackOk]
      refine ⟨by rw [g4]; simp, h2, h3, ?_, by rw [g4]; exact g6⟩
      intro _ t hm
      rw [g5] at hm
      simp [textsOf] at hm
    · simp only [stackTexts, g7, g5, textsOf, List.append_nil]

/-- The boxes that remain after the partial boxes, and their right edges. -/
def stackInfo (stack : List PartialInlineBox) : List (List InlineLevelBox × Bool × ComputedValues) :=
  stack.map fun p => (p.parentNestingLevel.remainingBoxes, p.lastBoxTreeFragment, p.style)

theorem breakLine_info (cb : ContainingBlock) :
    ∀ (stack : List PartialInlineBox) (level : NestingLevel) (position : Rat) (lines : LinesBoxes),
      (breakLine cb stack level position lines).2.1.remainingBoxes = level.remainingBoxes ∧
      stackInfo (breakLine cb stack level position lines).1 = stackInfo stack := by
  intro stack
  induction stack with
  | nil => intro level position lines; exact ⟨rfl, rfl⟩
  | cons p rest ih =>
    intro level position lines
    obtain ⟨h1, h2⟩ := ih (p.finish { level with inlineStart := 0 } position true).1.parentNestingLevel
      (p.finish { level with inlineStart := 0 } position true).2.2 lines
    simp only [breakLine]
    refine ⟨rfl, ?_⟩
    simp only [stackInfo, List.map_cons] at h2 ⊢
    rw [h2, h1]
    rfl

theorem pushText_matches {cb : ContainingBlock} {tall : Prop} {ifc : InlineState} {absolute : List AbsolutelyPositionedFragment}
    {rank : Nat} {s : FlatState} (h : Matches cb tall ifc absolute rank s) (style : ComputedValues) (shaped : ShapedSegment Rat) :
    Matches cb tall (pushText style shaped ifc) absolute rank (s.push style shaped.glyphs shaped.advanceWidth) := by
  obtain ⟨h1, h2, h3, h4, h5, h6, h7⟩ := h
  refine ⟨h1, h2, ?_, ?_, ?_, h6, h7⟩
  · simp only [FlatState.push, InlineState.texts, pushText, textsOf_append, textsOf, Fragment.texts, h3, h4, List.append_nil,
      List.append_assoc]
    congr 3
    simp
  · simp only [FlatState.push, pushText, h4]
  · intro ht t hm
    simp only [pushText, textsOf_append, textsOf, Fragment.texts, List.append_nil, List.mem_append, List.mem_singleton] at hm ⊢
    rcases hm with hm | rfl
    · exact le_trans (h5 ht t hm) (le_max_left _ _)
    · exact le_max_right _ _

theorem textLines_spec {cb : ContainingBlock} {tall : Prop} {absolute : List AbsolutelyPositionedFragment} {rank : Nat}
    (style : ComputedValues) (available : Rat) :
    ∀ (fuel : Nat) (chars : List Nat) (ifc ifc' : InlineState) (s : FlatState), Matches cb tall ifc absolute rank s →
      textLines F cb style available fuel chars ifc = some ifc' →
      ∃ lines s', IsBroken F (fontSizeOf style) available chars lines ∧ TextLaid F tall style lines s s' ∧
        Matches cb tall ifc' absolute rank s' ∧ ifc'.current.remainingBoxes = ifc.current.remainingBoxes ∧
        stackInfo ifc'.stack = stackInfo ifc.stack := by
  intro fuel
  induction fuel with
  | zero => intro chars ifc ifc' s _ h; simp [textLines] at h
  | succ fuel ih =>
    intro chars ifc ifc' s hm h
    simp only [textLines] at h
    rcases hs : shapeLine F (fontSizeOf style) available chars (ShapedSegment.new F) none with _ | ⟨shaped, rest⟩
    · simp [hs] at h
    · simp only [hs] at h
      obtain ⟨line, hl1, hl2, hl3⟩ := shapeLine_line _ _ _ _ _ hs
      have hp := pushText_matches hm style shaped
      split at h
      · rename_i hrest
        injection h with h
        subst h
        refine ⟨[line], _, ?_, .last hl1, hp, rfl, rfl⟩
        rcases hl3 with ⟨rfl, -⟩ | ⟨rfl, hb⟩
        · exact .whole hl2
        · rw [hrest] at hb ⊢
          exact .dropped hl2 hb
      · rename_i hrest
        obtain ⟨height, children, b1, b2, b3, b4, b5, b6, b7⟩ := breakLine_spec cb tall (pushText style shaped ifc).stack
          (pushText style shaped ifc).current (pushText style shaped ifc).inlinePosition (pushText style shaped ifc).lineBoxes
          hp.stack hp.high
        obtain ⟨i1, i2⟩ := breakLine_info cb (pushText style shaped ifc).stack
          (pushText style shaped ifc).current (pushText style shaped ifc).inlinePosition (pushText style shaped ifc).lineBoxes
        generalize breakLine cb (pushText style shaped ifc).stack (pushText style shaped ifc).current
          (pushText style shaped ifc).inlinePosition (pushText style shaped ifc).lineBoxes = r at h b1 b2 b3 b4 b5 b6 b7 i1 i2
        have hnext : Matches cb tall ⟨r.2.2, 0, r.1, r.2.1⟩ absolute rank
            ((s.push style shaped.glyphs shaped.advanceWidth).newLine height) := by
          refine ⟨?_, ?_, ?_, rfl, ?_, ?_, hm.absolutes⟩
          · rw [b1]
            simp only [FlatState.newLine]
            refine List.rel_append hp.lines ?_
            refine .cons ⟨children, ?_, ?_⟩ .nil
            · rw [hp.top]
            · rw [b2, hp.texts]; rfl
          · simp only [FlatState.newLine, b1, hp.top]
          · simp only [FlatState.newLine, InlineState.texts, b7, b5, textsOf, List.append_nil]
          · intro _ t hmem
            simp only [b5, textsOf] at hmem
            simp at hmem
          · simp only [b4]; exact b6
        obtain ⟨lines, s', j1, j2, j3, j4, j5⟩ := ih rest _ ifc'
          ((s.push style shaped.glyphs shaped.advanceWidth).newLine height) hnext h
        rcases hl3 with ⟨-, hn⟩ | ⟨rfl, hb⟩
        · exact absurd hn hrest
        · refine ⟨line :: lines, s', .broken hl2 hb hrest j1, .line hl1 ?_ ?_ j2, j3, ?_, ?_⟩
          · rintro rfl; cases j1
          · intro ht t hmem
            refine b3 ht t ?_
            rw [b2]
            rw [hp.texts] at hmem
            exact hmem
          · rw [j4]; exact i1
          · rw [j5]; exact i2

/-- What remains to be laid out, after the partial boxes too. -/
def LaidStack (F : FontApi Rat Err) (tall : Prop) (cb : ContainingBlock) :
    List InlineLevelBox → List (List InlineLevelBox × Bool × ComputedValues) → FlatState → FlatState → Prop
  | remaining, [], s, s' => Laid F tall cb remaining s s'
  | remaining, (rest, last, style) :: ps, s, s' =>
    ∃ s1, Laid F tall cb remaining s s1 ∧ LaidStack F tall cb rest ps (if last then s1.advance (Css.rightEdge cb style) else s1) s'

theorem LaidStack.cons {tall : Prop} {cb : ContainingBlock} {b : InlineLevelBox} {bs : List InlineLevelBox} {s s1 s' : FlatState}
    {ps : List (List InlineLevelBox × Bool × ComputedValues)} (h : LaidStack F tall cb bs ps s1 s')
    (hc : ∀ s2, Laid F tall cb bs s1 s2 → Laid F tall cb (b :: bs) s s2) : LaidStack F tall cb (b :: bs) ps s s' := by
  cases ps with
  | nil => exact hc _ h
  | cons p ps =>
    obtain ⟨s2, h1, h2⟩ := h
    exact ⟨s2, hc _ h1, h2⟩

/-- The result. -/
def Final (cb : ContainingBlock) (tall : Prop) (rank : Nat) (s : FlatState) (height : Rat) (fc : FlowChildren)
    (as : List AbsolutelyPositionedFragment) : Prop :=
  s.HighEnough tall height ∧ List.Forall₂ (IsLine cb) (s.newLine height).lines fc.fragments ∧
    fc.blockSize = (s.newLine height).top ∧ as = s.absolutes.map fun a => a.1.layout a.2 rank

/-- No relative positioning. -/
def NotRelative (s : ComputedValues) : Prop := positionOf s ≠ .relative

theorem inlineLoop_spec {cb : ContainingBlock} {tall : Prop} {rank : Nat} :
    ∀ (fuel : Nat) (ifc : InlineState) (absolute : List AbsolutelyPositionedFragment) (fc : FlowChildren)
      (as : List AbsolutelyPositionedFragment) (s : FlatState), Matches cb tall ifc absolute rank s →
      (inlineAll NotRelative ifc.current.remainingBoxes ∧ ∀ x ∈ stackInfo ifc.stack, inlineAll NotRelative x.1) →
      (tall → inlineAll (fun s => 0 ≤ Css.verticalEdges cb s) ifc.current.remainingBoxes ∧
        ∀ x ∈ stackInfo ifc.stack, inlineAll (fun s => 0 ≤ Css.verticalEdges cb s) x.1) →
      inlineLoop F cb rank fuel ifc absolute = some (fc, as) →
      ∃ s' height, LaidStack F tall cb ifc.current.remainingBoxes (stackInfo ifc.stack) s s' ∧ Final cb tall rank s' height fc as := by
  intro fuel
  induction fuel with
  | zero => intro ifc absolute fc as s _ _ _ h; simp [inlineLoop] at h
  | succ fuel ih =>
    intro ifc absolute fc as s hm hrel htall h
    simp only [inlineLoop, inlineStep] at h
    rcases hr : ifc.current.remainingBoxes with _ | ⟨child, remaining⟩
    · simp only [hr] at h
      rcases hst : ifc.stack with _ | ⟨p, stack⟩
      · simp only [hst, Option.some.injEq, Prod.mk.injEq] at h
        obtain ⟨rfl, rfl⟩ := h
        have hstart : ifc.current.inlineStart = 0 := by
          have := hm.stack; rw [hst] at this; exact this
        have htexts : s.current = textsOf 0 ifc.current.fragmentsSoFar := by
          rw [hm.texts, InlineState.texts, hst, hstart]; rfl
        refine ⟨s, ifc.current.maxBlockSize, by simpa [stackInfo, LaidStack] using Laid.nil, ?_, ?_, ?_, hm.absolutes⟩
        · intro ht t hmem
          rw [htexts, ← hstart] at hmem
          exact hm.high ht t hmem
        · simp only [FlatState.newLine, finishLine]
          refine List.rel_append hm.lines (.cons ⟨ifc.current.fragmentsSoFar, ?_, htexts.symm⟩ .nil)
          rw [hm.top]
        · simp only [FlatState.newLine, finishLine, hm.top]
      · simp only [hst] at h
        have hstk := hm.stack
        rw [hst] at hstk
        obtain ⟨f1, f2, f3⟩ := finish_spec ifc.inlinePosition false hstk hm.high ifc.current.inlineStart
        obtain ⟨h1, h2, h3, h4, h5⟩ := hstk
        obtain ⟨s', height, hl, hf⟩ := ih _ absolute fc as
          (if p.lastBoxTreeFragment then s.advance (Css.rightEdge cb p.style) else s) (by
            refine ⟨?_, ?_, ?_, ?_, f1, ?_, ?_⟩
            · cases p.lastBoxTreeFragment <;> exact hm.lines
            · cases p.lastBoxTreeFragment <;> exact hm.top
            · have : s.current = stackTexts stack ++ textsOf p.parentNestingLevel.inlineStart
                  (p.finish ifc.current ifc.inlinePosition false).1.parentNestingLevel.fragmentsSoFar := by
                rw [f3, hm.texts, InlineState.texts, hst, stackTexts, List.append_assoc]
              cases p.lastBoxTreeFragment <;> exact this
            · simp only [PartialInlineBox.finish]
              cases hlast : p.lastBoxTreeFragment
              · simpa using hm.position
              · simp [FlatState.advance, hm.position, h2]
            · simp only [f2]; exact h5
            · cases p.lastBoxTreeFragment <;> exact hm.absolutes)
          (by
            rw [hst] at hrel
            simp only [stackInfo, List.map_cons, List.mem_cons, forall_eq_or_imp] at hrel
            exact ⟨hrel.2.1, hrel.2.2⟩)
          (by
            intro ht
            have := htall ht
            rw [hst] at this
            simp only [stackInfo, List.map_cons, List.mem_cons, forall_eq_or_imp] at this
            exact ⟨this.2.1, this.2.2⟩) h
        refine ⟨s', height, ?_, hf⟩
        simp only [stackInfo, List.map_cons, LaidStack]
        exact ⟨s, .nil, hl⟩
    · simp only [hr] at h hrel htall ⊢
      simp only [inlineAll] at hrel htall
      obtain ⟨⟨hrel1, hrel2⟩, hrel3⟩ := hrel
      have hm' : Matches cb tall { ifc with current := { ifc.current with remainingBoxes := remaining } } absolute rank s :=
        ⟨hm.lines, hm.top, hm.texts, hm.position, hm.high, hm.stack, hm.absolutes⟩
      cases child with
      | inlineBox style first last children =>
        simp only at h
        simp only [InlineLevelBox.All] at hrel1 htall
        have hz : relativeAdjustement style cb.inlineSize cb.blockSize = Vec2.zero := by
          have hn : (positionOf style).isRelativelyPositioned = false := by
            simpa [Position.isRelativelyPositioned] using (show positionOf style ≠ .relative from hrel1.1)
          simp only [relativeAdjustement, hn, Bool.false_eq_true, if_false]
        obtain ⟨s', height, hl, hf⟩ := ih _ absolute fc as (if first then s.advance (Css.leftEdge cb style) else s) (by
            refine ⟨?_, ?_, ?_, ?_, ?_, ?_, ?_⟩
            · cases first <;> exact hm.lines
            · cases first <;> exact hm.top
            · simp only [startInlineBox, InlineState.texts, stackTexts, textsOf, List.append_nil]
              cases first <;> exact hm.texts
            · simp only [startInlineBox]
              cases first
              · exact hm.position
              · simp only [if_true, FlatState.advance, hm.position, edges_left]
            · intro _ t hmem
              simp [startInlineBox, textsOf] at hmem
            · simp only [startInlineBox, StackOk, hz]
              refine ⟨?_, ?_, ?_, hm.high, hm.stack⟩
              · simp [Vec2.add, Vec2.zero]
              · cases first <;> exact edges_right cb style
              · intro ht
                have := (htall ht).1.1.1
                rw [← edges_vertical] at this
                cases first <;> exact this
            · cases first <;> exact hm.absolutes)
          (by
            simp only [startInlineBox, stackInfo, List.map_cons, List.mem_cons, forall_eq_or_imp]
            exact ⟨hrel1.2, hrel2, hrel3⟩)
          (by
            intro ht
            obtain ⟨⟨t1, t2⟩, t3⟩ := htall ht
            simp only [startInlineBox, stackInfo, List.map_cons, List.mem_cons, forall_eq_or_imp]
            exact ⟨t1.2, t2, t3⟩) h
        refine ⟨s', height, ?_, hf⟩
        simp only [startInlineBox, stackInfo, List.map_cons, LaidStack] at hl
        obtain ⟨s1, hl1, hl2⟩ := hl
        exact LaidStack.cons hl2 fun s2 h2 => .box hl1 h2
      | textRun style text =>
        simp only at h
        rcases ht : layoutTextRun F cb style text { ifc with current := { ifc.current with remainingBoxes := remaining } } with
          _ | ifc'
        · simp [ht] at h
        · simp only [ht] at h
          obtain ⟨lines, s1, t1, t2, t3, t4, t5⟩ := textLines_spec style _ _ _ _ _ _ hm' ht
          obtain ⟨s', height, hl, hf⟩ := ih ifc' absolute fc as s1 t3
            (by rw [t4, t5]; exact ⟨hrel2, hrel3⟩) (by rw [t4, t5]; exact fun ht => ⟨(htall ht).1.2, (htall ht).2⟩) h
          rw [t4, t5] at hl
          refine ⟨s', height, LaidStack.cons hl fun s2 h2 => .text ?_ t2 h2, hf⟩
          rw [hm.position]
          exact t1
      | outOfFlowAbsolutelyPositioned style floats contents =>
        simp only at h
        rcases hi : staticInlineStart style ifc.inlinePosition with _ | i
        · simp [hi] at h
        · simp only [hi] at h
          obtain ⟨outside, inside, hd, hi'⟩ : ∃ outside inside, style.specifiedDisplay = .generatingBox outside inside ∧
              i = if outside = .inline then s.position else 0 := by
            simp only [staticInlineStart] at hi
            split at hi
            · injection hi with hi
              exact ⟨_, _, by assumption, by rw [if_pos rfl, hm.position, hi]⟩
            · injection hi with hi
              exact ⟨_, _, by assumption, by rw [if_neg (by decide), hi]⟩
            · cases hi
            · cases hi
          obtain ⟨s', height, hl, hf⟩ := ih { ifc with current := { ifc.current with remainingBoxes := remaining } } _ fc as
            { s with absolutes := s.absolutes ++
              [(⟨style, ⟨contents, floats⟩⟩, ⟨if outside = .inline then s.position else 0, s.top⟩)] }
            (by
              refine ⟨hm.lines, hm.top, hm.texts, hm.position, hm.high, hm.stack, ?_⟩
              simp only [List.map_append, List.map_cons, List.map_nil]
              rw [hm.absolutes, hm.top, ← hi'])
            ⟨hrel2, hrel3⟩ (fun ht => ⟨(htall ht).1.2, (htall ht).2⟩) h
          exact ⟨s', height, LaidStack.cons hl fun s2 h2 => .absolute hd h2, hf⟩
      | outOfFlowFloat style floats contents =>
        simp only at h
        obtain ⟨s', height, hl, hf⟩ := ih _ absolute fc as s hm'
            ⟨hrel2, hrel3⟩ (fun ht => ⟨(htall ht).1.2, (htall ht).2⟩) h
        exact ⟨s', height, LaidStack.cons hl fun s2 h2 => .float h2, hf⟩

end Verif.Layout
