/- C81, C82: the rectangles of lines and of inline boxes. -/
import Verif.Layout.RowSpec
import Verif.Layout.InlineTheorems
namespace Verif.Layout
open Verif.Style Verif.Text
variable {Err : Type} {F : FontApi Rat Err}

/-! ### Invariants of the loop -/

/-- The state after the end of a line. -/
def InlineState.broken (cb : ContainingBlock) (ifc : InlineState) : InlineState :=
  { lineBoxes := (breakLine cb ifc.stack ifc.current ifc.inlinePosition ifc.lineBoxes).2.2
    inlinePosition := 0
    stack := (breakLine cb ifc.stack ifc.current ifc.inlinePosition ifc.lineBoxes).1
    current := (breakLine cb ifc.stack ifc.current ifc.inlinePosition ifc.lineBoxes).2.1 }

/-- The state without the first of the remaining boxes. -/
def InlineState.rest (ifc : InlineState) (remaining : List InlineLevelBox) : InlineState :=
  { ifc with current := { ifc.current with remainingBoxes := remaining } }

/-- The state after an inline box. -/
def InlineState.closed (ifc : InlineState) (p : PartialInlineBox) (stack : List PartialInlineBox) : InlineState :=
  { ifc with
    inlinePosition := (p.finish ifc.current ifc.inlinePosition false).2.2
    stack := stack
    current := (p.finish ifc.current ifc.inlinePosition false).1.parentNestingLevel }

/-- `P` is an invariant of the loop, and gives `Q` at its end. -/
structure Invariant (cb : ContainingBlock) (P : InlineState → Prop) (Q : List Fragment → Prop) : Prop where
  start : ∀ {ifc style first last children remaining}, P ifc →
    ifc.current.remainingBoxes = .inlineBox style first last children :: remaining →
    P (startInlineBox cb style first last children (ifc.rest remaining))
  skip : ∀ {ifc b remaining}, P ifc → ifc.current.remainingBoxes = b :: remaining → P (ifc.rest remaining)
  text : ∀ {ifc} style shaped, P ifc → P (pushText style shaped ifc)
  line : ∀ {ifc}, P ifc → P (ifc.broken cb)
  close : ∀ {ifc p stack}, P ifc → ifc.current.remainingBoxes = [] → ifc.stack = p :: stack → P (ifc.closed p stack)
  «end» : ∀ {ifc}, P ifc → ifc.current.remainingBoxes = [] → ifc.stack = [] → Q (finishLine ifc.lineBoxes ifc.current cb).1.boxes

variable {cb : ContainingBlock} {P : InlineState → Prop} {Q : List Fragment → Prop}

theorem Invariant.textLines (I : Invariant cb P Q) {style : ComputedValues} {available : Rat} :
    ∀ (fuel : Nat) (chars : List Nat) (ifc ifc' : InlineState), P ifc →
      Layout.textLines F cb style available fuel chars ifc = some ifc' → P ifc' := by
  intro fuel
  induction fuel with
  | zero => intro chars ifc ifc' _ h; simp [Layout.textLines] at h
  | succ fuel ih =>
    intro chars ifc ifc' hP h
    rw [Layout.textLines] at h
    rcases hs : shapeLine F (fontSizeOf style) available chars (ShapedSegment.new F) none with _ | ⟨shaped, chars'⟩
    · simp [hs] at h
    · simp only [hs] at h
      by_cases hc : chars' = []
      · simp only [hc, if_true, Option.some.injEq] at h
        rw [← h]
        exact I.text _ _ hP
      · simp only [hc, if_false] at h
        exact ih _ _ _ (I.line (I.text style shaped hP)) h

theorem Invariant.loop (I : Invariant cb P Q) {rank : Nat} :
    ∀ (fuel : Nat) (ifc : InlineState) (as : List AbsolutelyPositionedFragment) (fc : FlowChildren)
      (as' : List AbsolutelyPositionedFragment), P ifc → inlineLoop F cb rank fuel ifc as = some (fc, as') → Q fc.fragments := by
  intro fuel
  induction fuel with
  | zero => intro ifc as fc as' _ h; simp [inlineLoop] at h
  | succ fuel ih =>
    intro ifc as fc as' hP h
    rw [inlineLoop, inlineStep] at h
    rcases hr : ifc.current.remainingBoxes with _ | ⟨child, remaining⟩
    · simp only [hr] at h
      rcases hst : ifc.stack with _ | ⟨p, stack⟩
      · simp only [hst, Option.some.injEq, Prod.mk.injEq] at h
        rw [← h.1]
        exact I.end hP hr hst
      · simp only [hst] at h
        exact ih _ _ _ _ (I.close hP hr hst) h
    · simp only [hr] at h
      rcases child with ⟨style, first, last, children⟩ | ⟨style, text⟩ | ⟨style, floats, contents⟩ | ⟨style, floats, contents⟩
      · exact ih _ _ _ _ (I.start hP hr) h
      · simp only [layoutTextRun] at h
        rcases ht : Layout.textLines F cb style (cb.inlineSize - ifc.inlinePosition) (text.length + 1) text
            (ifc.rest remaining) with _ | ifc'
        · simp only [InlineState.rest] at ht
          simp [ht] at h
        · have h1 := I.textLines _ _ _ _ (I.skip hP hr) ht
          simp only [InlineState.rest] at ht
          simp only [ht] at h
          exact ih _ _ _ _ h1 h
      · simp only at h
        rcases hi : staticInlineStart style ifc.inlinePosition with _ | i
        · simp [hi] at h
        · simp only [hi] at h
          exact ih _ _ _ _ (I.skip hP hr) h
      · exact ih _ _ _ _ (I.skip hP hr) h

theorem Invariant.layout (I : Invariant cb P Q) {boxes : List InlineLevelBox} {rank : Nat} {as as' : List AbsolutelyPositionedFragment}
    {fc : FlowChildren} (h0 : P (initialInlineState boxes)) (h : layoutInline F boxes cb rank as = some (fc, as')) :
    Q fc.fragments :=
  I.loop _ _ _ _ _ h0 h

/-! ### Heights -/

theorem height_box (info : BoxInfo) (children : List Fragment) :
    (Fragment.box info children).height =
      info.contentRect.size.block + info.padding.blockSum + info.border.blockSum + info.margin.blockSum := by
  simp only [Fragment.height, Fragment.bottom, Fragment.top, Sides.blockSum]
  ring

theorem height_text (style : ComputedValues) (rect : Rect Rat) (text : ShapedSegment Rat) :
    (Fragment.text style rect text).height = rect.size.block := by
  simp only [Fragment.height, Fragment.bottom, Fragment.top]
  ring

/-- Everything in the fragment has the property. -/
def Everywhere (P : Fragment → Prop) (f : Fragment) : Prop := ∀ g, Fragment.Within g f → P g

theorem Everywhere.mk {P : Fragment → Prop} {f : Fragment} (h : P f) (hc : ∀ c ∈ f.contents, Everywhere P c) : Everywhere P f := by
  intro g hg
  cases hg with
  | self => exact h
  | child hm hw => exact hc _ hm _ hw

/-- A line or an inline box has room for what is in it. -/
def Roomy (f : Fragment) : Prop := ¬ f.IsText → HoldsAll f.contentHeight f.contents

/-- A line or an inline box is as tall as the tallest thing in it. -/
def Snug (f : Fragment) : Prop := ¬ f.IsText → IsTallest f.contentHeight f.contents

/-- The invariant for one nesting level. On the first line, `first`, all the sizes are exact. -/
structure LevelOk (first exact : Prop) (level : NestingLevel) : Prop where
  nonneg : 0 ≤ level.maxBlockSize
  holds : HoldsAll level.maxBlockSize level.fragmentsSoFar
  exact_ : exact → level.maxBlockSize = 0 ∨ ∃ f ∈ level.fragmentsSoFar, f.height = level.maxBlockSize
  roomy : ∀ f ∈ level.fragmentsSoFar, Everywhere Roomy f
  snug : first → ∀ f ∈ level.fragmentsSoFar, Everywhere Snug f

/-- The invariant for all nesting levels. -/
def LevelsOk (first : Prop) : List PartialInlineBox → NestingLevel → Prop
  | [], level => LevelOk first True level
  | p :: stack, level => LevelOk first first level ∧ LevelsOk first stack p.parentNestingLevel

/-- A line is exactly as tall as the tallest thing on it, and all the boxes on it have room for what is in them. -/
def RoomyLine (line : Fragment) : Prop :=
  ¬ line.IsText ∧ IsTallest line.contentHeight line.contents ∧ Everywhere Roomy line

/-- The invariant for the lines. -/
def LinesOk (lines : List Fragment) : Prop := (∀ f ∈ lines, RoomyLine f) ∧ ∀ f, lines.head? = some f → Everywhere Snug f

theorem LevelOk.congr {first exact : Prop} {l l' : NestingLevel} (h : LevelOk first exact l)
    (hm : l'.maxBlockSize = l.maxBlockSize) (hf : l'.fragmentsSoFar = l.fragmentsSoFar) : LevelOk first exact l' := by
  constructor
  · rw [hm]; exact h.nonneg
  · rw [hm, hf]; exact h.holds
  · rw [hm, hf]; exact h.exact_
  · rw [hf]; exact h.roomy
  · rw [hf]; exact h.snug

theorem LevelOk.push {first exact : Prop} {l l' : NestingLevel} (h : LevelOk first exact l) {f : Fragment} {height : Rat}
    (hh : f.height = height) (hr : Everywhere Roomy f) (hs : first → Everywhere Snug f)
    (hm : l'.maxBlockSize = max l.maxBlockSize height) (hf : l'.fragmentsSoFar = l.fragmentsSoFar ++ [f]) :
    LevelOk first exact l' := by
  constructor
  · rw [hm]; exact le_max_of_le_left h.nonneg
  · rw [hm, hf]
    intro g hg
    rcases List.mem_append.1 hg with hg | hg
    · exact le_max_of_le_left (h.holds g hg)
    · rw [List.mem_singleton.1 hg, hh]; exact le_max_right _ _
  · intro he
    rw [hm, hf]
    rcases max_choice l.maxBlockSize height with e | e
    · rcases h.exact_ he with h0 | ⟨g, hg, hgh⟩
      · exact .inl (by rw [e, h0])
      · exact .inr ⟨g, List.mem_append_left _ hg, by rw [e, hgh]⟩
    · exact .inr ⟨f, by simp, by rw [e, hh]⟩
  · rw [hf]
    intro g hg
    rcases List.mem_append.1 hg with hg | hg
    · exact h.roomy g hg
    · rw [List.mem_singleton.1 hg]; exact hr
  · rw [hf]
    intro h1 g hg
    rcases List.mem_append.1 hg with hg | hg
    · exact h.snug h1 g hg
    · rw [List.mem_singleton.1 hg]; exact hs h1

theorem LevelsOk.current {first : Prop} {stack : List PartialInlineBox} {level : NestingLevel} (h : LevelsOk first stack level) :
    LevelOk first first level := by
  cases stack with
  | nil =>
    exact ⟨h.nonneg, h.holds, fun _ => h.exact_ trivial, h.roomy, h.snug⟩
  | cons p stack => exact h.1

/-- If the current level changes. -/
theorem LevelsOk.modify {first : Prop} {stack : List PartialInlineBox} {l l' : NestingLevel} (h : LevelsOk first stack l)
    (hl : ∀ exact, LevelOk first exact l → LevelOk first exact l') : LevelsOk first stack l' := by
  cases stack with
  | nil => exact hl _ h
  | cons p stack => exact ⟨hl _ h.1, h.2⟩

/-- The fragment of an inline box. -/
theorem finish_level {first exact : Prop} {p : PartialInlineBox} {level : NestingLevel} {position : Rat} {atLineBreak : Bool}
    (hl : LevelOk first first level) (hp : LevelOk first exact p.parentNestingLevel) :
    LevelOk first exact (p.finish level position atLineBreak).1.parentNestingLevel := by
  refine hp.push rfl ?_ ?_ ?_
    (show _ = p.parentNestingLevel.fragmentsSoFar ++ [.box _ level.fragmentsSoFar] from rfl)
  · exact .mk (fun _ => hl.holds) hl.roomy
  · exact fun h1 => .mk (fun _ => ⟨hl.holds, hl.nonneg, hl.exact_ h1⟩) (hl.snug h1)
  · rw [height_box]
    rfl

theorem finishLine_lines {lines : LinesBoxes} {level : NestingLevel} (hl : LinesOk lines.boxes)
    (h : LevelOk (lines.boxes = []) True level) : LinesOk (finishLine lines level cb).1.boxes := by
  have ht : IsTallest level.maxBlockSize level.fragmentsSoFar := ⟨h.holds, h.nonneg, h.exact_ trivial⟩
  constructor
  · intro f hf
    simp only [finishLine, List.mem_append, List.mem_singleton] at hf
    rcases hf with hf | rfl
    · exact hl.1 f hf
    · exact ⟨by simp [Fragment.IsText], ht, .mk (fun _ => h.holds) h.roomy⟩
  · intro f hf
    by_cases he : lines.boxes = []
    · simp only [finishLine, he, List.nil_append, List.head?_cons, Option.some.injEq] at hf
      rw [← hf]
      exact .mk (fun _ => ht) (h.snug he)
    · refine hl.2 f ?_
      rcases hb : lines.boxes with _ | ⟨b, bs⟩
      · exact absurd hb he
      · simpa [finishLine, hb] using hf

theorem breakLine_heights : ∀ (stack : List PartialInlineBox) (level : NestingLevel) (position : Rat) (lines : LinesBoxes),
    LinesOk lines.boxes → LevelsOk (lines.boxes = []) stack level →
    LinesOk (breakLine cb stack level position lines).2.2.boxes ∧ (breakLine cb stack level position lines).2.2.boxes ≠ [] ∧
      LevelsOk False (breakLine cb stack level position lines).1 (breakLine cb stack level position lines).2.1 := by
  intro stack
  induction stack with
  | nil =>
    intro level position lines hl h
    refine ⟨finishLine_lines hl (LevelOk.congr h rfl rfl), by simp [breakLine, finishLine], ?_⟩
    exact ⟨le_refl _, fun _ h => by simp [breakLine, finishLine] at h, fun _ => .inl rfl,
      fun _ h => by simp [breakLine, finishLine] at h, fun h => h.elim⟩
  | cons p stack ih =>
    intro level position lines hl h
    have h1 := ih _ (p.finish { level with inlineStart := 0 } position true).2.2 lines hl
      (h.2.modify (fun exact hp => finish_level (position := position) (atLineBreak := true)
        (LevelOk.congr (l' := { level with inlineStart := 0 }) h.1 rfl rfl) hp))
    refine ⟨h1.1, h1.2.1, ?_, h1.2.2⟩
    exact ⟨h.1.nonneg, fun _ h => by simp [breakLine, PartialInlineBox.finish] at h, fun h => h.elim,
      fun _ h => by simp [breakLine, PartialInlineBox.finish] at h, fun h => h.elim⟩

theorem heights_invariant (cb : ContainingBlock) :
    Invariant cb (fun ifc => LinesOk ifc.lineBoxes.boxes ∧ LevelsOk (ifc.lineBoxes.boxes = []) ifc.stack ifc.current) LinesOk where
  start := by
    intro ifc style first last children remaining h hr
    refine ⟨h.1, ⟨le_refl _, ?_, fun _ => .inl rfl, ?_, ?_⟩, h.2.modify fun _ h => h.congr rfl rfl⟩
    all_goals simp [HoldsAll, startInlineBox, InlineState.rest]
  skip := by
    intro ifc b remaining h hr
    exact ⟨h.1, h.2.modify fun _ h => h.congr rfl rfl⟩
  text := by
    intro ifc style shaped h
    refine ⟨h.1, h.2.modify fun _ h => h.push (height_text _ _ _) ?_ ?_ rfl rfl⟩
    · exact .mk (fun h => absurd trivial h) (fun _ h => by simp [Fragment.contents] at h)
    · exact fun _ => .mk (fun h => absurd trivial h) (fun _ h => by simp [Fragment.contents] at h)
  line := by
    intro ifc h
    have h1 := breakLine_heights (cb := cb) ifc.stack ifc.current ifc.inlinePosition ifc.lineBoxes h.1 h.2
    refine ⟨h1.1, ?_⟩
    have : (ifc.broken cb).lineBoxes.boxes = [] ↔ False := by simpa [InlineState.broken] using h1.2.1
    rw [this]
    exact h1.2.2
  close := by
    intro ifc p stack h hr hst
    have h2 := h.2
    rw [hst] at h2
    exact ⟨h.1, h2.2.modify fun _ hp => finish_level h2.1 hp⟩
  «end» := by
    intro ifc h hr hst
    have h2 := h.2
    rw [hst] at h2
    exact finishLine_lines h.1 h2

theorem initial_heights (boxes : List InlineLevelBox) :
    LinesOk (initialInlineState boxes).lineBoxes.boxes ∧ LevelsOk ((initialInlineState boxes).lineBoxes.boxes = [])
      (initialInlineState boxes).stack (initialInlineState boxes).current := by
  refine ⟨⟨?_, ?_⟩, ⟨le_refl _, ?_, fun _ => .inl rfl, ?_, ?_⟩⟩
  all_goals simp [HoldsAll, initialInlineState]

/-! ### Widths -/

mutual
/-- The fragment is from `x` to `y`, and so is everything in it. The widths of inline boxes are too large by `origin`, the
absolute position of what they are in. -/
def Fragment.Row (origin : Rat) : Fragment → Rat → Rat → Prop
  | .box info children, x, y =>
    x = (Fragment.box info children).left ∧ ∃ w, rowOf (origin + info.contentRect.startCorner.inline) children 0 w ∧
      info.contentRect.size.inline = w + origin ∧
      y = info.contentRect.startCorner.inline + w + (info.padding.inlineEnd + info.border.inlineEnd + info.margin.inlineEnd)
  | .anonymous _ _ _, _, _ => False
  | .text _ rect _, x, y => x = rect.startCorner.inline ∧ y = rect.startCorner.inline + rect.size.inline
/-- See `Fragment.Row`. -/
def rowOf (origin : Rat) : List Fragment → Rat → Rat → Prop
  | [], x, y => x = y
  | f :: fs, x, y => ∃ z, f.Row origin x z ∧ rowOf origin fs z y
end

theorem rowOf_snoc {origin : Rat} {f : Fragment} : ∀ {fs : List Fragment} {x y z : Rat},
    rowOf origin fs x y → f.Row origin y z → rowOf origin (fs ++ [f]) x z := by
  intro fs
  induction fs with
  | nil => intro x y z h hf; cases h; exact ⟨z, hf, rfl⟩
  | cons g fs ih =>
    intro x y z h hf
    obtain ⟨u, hg, hfs⟩ := h
    exact ⟨u, hg, ih hfs hf⟩

/-- Everything directly in the fragment begins at its top. -/
def TopChildren (f : Fragment) : Prop := ∀ c ∈ f.contents, c.top = 0

/-- The invariant of a nesting level, up to an absolute position. -/
structure LevelRow (level : NestingLevel) (position : Rat) : Prop where
  static : inlineAll (fun s => positionOf s ≠ .relative) level.remainingBoxes
  row : rowOf level.inlineStart level.fragmentsSoFar 0 (position - level.inlineStart)
  top : ∀ f ∈ level.fragmentsSoFar, f.top = 0 ∧ Everywhere TopChildren f

/-- What is at the left of the content of the box. -/
def PartialInlineBox.edge (p : PartialInlineBox) : Rat := p.padding.inlineStart + p.border.inlineStart + p.margin.inlineStart

/-- The invariant of all nesting levels. -/
def LevelsRow : List PartialInlineBox → NestingLevel → Rat → Prop
  | [], level, position => LevelRow level position ∧ level.inlineStart = 0
  | p :: stack, level, position => LevelRow level position ∧
      p.parentNestingLevel.inlineStart + p.startCorner.inline = level.inlineStart ∧
      p.startCorner.block = p.padding.blockStart + p.border.blockStart + p.margin.blockStart ∧
      LevelsRow stack p.parentNestingLevel (level.inlineStart - p.edge)

/-- A line: what is on it is in a row. -/
def RowLine (line : Fragment) : Prop := ∃ rect children mode y, line = .anonymous rect children mode ∧
  rowOf 0 children 0 y ∧ Everywhere TopChildren line

theorem LevelsRow.current {stack : List PartialInlineBox} {level : NestingLevel} {position : Rat}
    (h : LevelsRow stack level position) : LevelRow level position := by
  cases stack with
  | nil => exact h.1
  | cons p stack => exact h.1

theorem LevelsRow.modify {stack : List PartialInlineBox} {l l' : NestingLevel} {position position' : Rat}
    (h : LevelsRow stack l position) (hi : l'.inlineStart = l.inlineStart) (hl : LevelRow l' position') :
    LevelsRow stack l' position' := by
  cases stack with
  | nil => exact ⟨hl, by rw [hi]; exact h.2⟩
  | cons p stack => exact ⟨hl, by rw [hi]; exact h.2⟩

theorem LevelsRow.at {stack : List PartialInlineBox} {level : NestingLevel} {x y : Rat} (h : LevelsRow stack level x)
    (e : x = y) : LevelsRow stack level y := e ▸ h

theorem LevelsRow.push {p : PartialInlineBox} {stack : List PartialInlineBox} {level : NestingLevel} {before position : Rat}
    (hp : LevelsRow stack p.parentNestingLevel before)
    (hs : inlineAll (fun s => positionOf s ≠ .relative) level.remainingBoxes) (hf : level.fragmentsSoFar = [])
    (hi : level.inlineStart = position) (h1 : p.parentNestingLevel.inlineStart + p.startCorner.inline = position)
    (h2 : position - p.edge = before)
    (hb : p.startCorner.block = p.padding.blockStart + p.border.blockStart + p.margin.blockStart) :
    LevelsRow (p :: stack) level position := by
  refine ⟨⟨hs, ?_, ?_⟩, by rw [hi, h1], hb, by rw [hi, h2]; exact hp⟩
  · rw [hf, hi, sub_self]; rfl
  · rw [hf]; simp

/-- The fragment of an inline box. -/
theorem finish_row {p : PartialInlineBox} {level : NestingLevel} {position : Rat} {atLineBreak : Bool}
    (hrow : rowOf (p.parentNestingLevel.inlineStart + p.startCorner.inline) level.fragmentsSoFar 0
      (position - (p.parentNestingLevel.inlineStart + p.startCorner.inline)))
    (htop : ∀ f ∈ level.fragmentsSoFar, f.top = 0 ∧ Everywhere TopChildren f)
    (hb : p.startCorner.block = p.padding.blockStart + p.border.blockStart + p.margin.blockStart)
    (hp : LevelRow p.parentNestingLevel (p.parentNestingLevel.inlineStart + p.startCorner.inline - p.edge)) :
    LevelRow (p.finish level position atLineBreak).1.parentNestingLevel (p.finish level position atLineBreak).2.2 := by
  refine ⟨hp.static, rowOf_snoc hp.row ?_, ?_⟩
  · refine ⟨?_, position - (p.parentNestingLevel.inlineStart + p.startCorner.inline), hrow, ?_, ?_⟩
    · cases p.lastBoxTreeFragment <;> cases atLineBreak <;>
        simp [Fragment.left, Sides.withoutInlineEnd, PartialInlineBox.edge] <;> ring
    · simp only [PartialInlineBox.finish]; ring
    · rcases hlast : p.lastBoxTreeFragment <;> cases atLineBreak <;>
        simp [PartialInlineBox.finish, Sides.withoutInlineEnd, hlast] <;> ring
  · intro f hf
    simp only [PartialInlineBox.finish, List.mem_append, List.mem_singleton] at hf
    rcases hf with hf | rfl
    · exact hp.top f hf
    · refine ⟨?_, .mk (fun c hc => (htop c hc).1) (fun c hc => (htop c hc).2)⟩
      cases p.lastBoxTreeFragment <;> cases atLineBreak <;>
        simp [Fragment.top, Sides.withoutInlineEnd, hb]

theorem finishLine_rows {lines : LinesBoxes} {level : NestingLevel} {position : Rat} (hl : ∀ f ∈ lines.boxes, RowLine f)
    (h : LevelRow level position) (h0 : level.inlineStart = 0) : ∀ f ∈ (finishLine lines level cb).1.boxes, RowLine f := by
  intro f hf
  simp only [finishLine, List.mem_append, List.mem_singleton] at hf
  rcases hf with hf | rfl
  · exact hl f hf
  · have := h.row
    rw [h0] at this
    exact ⟨_, _, _, _, rfl, this, .mk (fun c hc => (h.top c hc).1) (fun c hc => (h.top c hc).2)⟩

theorem breakLine_rows : ∀ (stack : List PartialInlineBox) (level level' : NestingLevel) (position : Rat) (lines : LinesBoxes),
    (∀ f ∈ lines.boxes, RowLine f) → LevelsRow stack level position →
    level'.fragmentsSoFar = level.fragmentsSoFar → level'.remainingBoxes = level.remainingBoxes →
    (∀ f ∈ (breakLine cb stack level' position lines).2.2.boxes, RowLine f) ∧
      LevelsRow (breakLine cb stack level' position lines).1 (breakLine cb stack level' position lines).2.1 0 ∧
      (breakLine cb stack level' position lines).2.1.inlineStart = 0 := by
  intro stack
  induction stack with
  | nil =>
    intro level level' position lines hl h hf hr
    have hrow : LevelRow { level' with inlineStart := 0 } position := by
      refine ⟨by rw [hr]; exact h.1.static, ?_, by rw [hf]; exact h.1.top⟩
      have := h.1.row
      rw [h.2] at this
      rw [hf]; exact this
    refine ⟨finishLine_rows hl hrow rfl, ⟨⟨?_, ?_, ?_⟩, rfl⟩, rfl⟩
    · exact hrow.static
    · simp [breakLine, finishLine, rowOf]
    · simp [breakLine, finishLine]
  | cons p stack ih =>
    intro level level' position lines hl h hf hr
    obtain ⟨h1, h2, h3, h4⟩ := h
    have h5 := h4.current
    rw [← h2] at h4 h5
    have hfin : LevelRow (p.finish { level' with inlineStart := 0 } position true).1.parentNestingLevel
        (p.finish { level' with inlineStart := 0 } position true).2.2 := by
      refine finish_row ?_ ?_ h3 h5
      · rw [h2]; simp only [hf]; exact h1.row
      · simp only [hf]; exact h1.top
    obtain ⟨i1, i2, i3⟩ := ih _ _ _ lines hl (h4.modify (l' := (p.finish { level' with inlineStart := 0 } position
      true).1.parentNestingLevel) rfl hfin) rfl rfl
    refine ⟨i1, ⟨⟨?_, ?_, ?_⟩, ?_, ?_, ?_⟩, rfl⟩
    · show inlineAll _ level'.remainingBoxes
      rw [hr]; exact h1.static
    · simp [breakLine, PartialInlineBox.finish, rowOf]
    · simp [breakLine, PartialInlineBox.finish]
    · exact (add_zero _).trans i3
    · exact h3
    · exact i2.at (show (0 : Rat) = 0 - (0 + 0 + 0) by norm_num)

/-- What is known of the state. -/
def RowState (ifc : InlineState) : Prop :=
  (∀ f ∈ ifc.lineBoxes.boxes, RowLine f) ∧ LevelsRow ifc.stack ifc.current ifc.inlinePosition

theorem relativeAdjustement_static {style : ComputedValues} (h : positionOf style ≠ .relative) (w : Rat) (b : LengthOrAuto) :
    relativeAdjustement style w b = Vec2.zero := by
  have hn : (positionOf style).isRelativelyPositioned = false := by simpa [Position.isRelativelyPositioned] using h
  simp only [relativeAdjustement, hn, Bool.false_eq_true, if_false]

theorem rows_invariant (cb : ContainingBlock) : Invariant cb RowState (fun lines => ∀ f ∈ lines, RowLine f) where
  start := by
    intro ifc style first last children remaining h hr
    have h0 := h.2.current
    have hs := h0.static
    rw [hr] at hs
    simp only [inlineAll, InlineLevelBox.All] at hs
    obtain ⟨⟨hstyle, hchildren⟩, hremaining⟩ := hs
    have hp := h.2.modify (l' := { ifc.current with remainingBoxes := remaining }) rfl ⟨hremaining, h0.row, h0.top⟩
    refine ⟨h.1, LevelsRow.push hp hchildren rfl rfl ?_ ?_ ?_⟩
    · simp only [startInlineBox, relativeAdjustement_static hstyle, Vec2.add, Vec2.zero, InlineState.rest]
      ring
    · cases first <;> simp [startInlineBox, PartialInlineBox.edge, InlineState.rest, Sides.withoutInlineStart]
    · simp only [relativeAdjustement_static hstyle, Vec2.add, Vec2.zero, InlineState.rest]
      ring
  skip := by
    intro ifc b remaining h hr
    have h0 := h.2.current
    have hs := h0.static
    rw [hr] at hs
    exact ⟨h.1, h.2.modify rfl ⟨hs.2, h0.row, h0.top⟩⟩
  text := by
    intro ifc style shaped h
    have h0 := h.2.current
    refine ⟨h.1, h.2.modify rfl ⟨h0.static, rowOf_snoc h0.row ⟨rfl, ?_⟩, ?_⟩⟩
    · simp only [pushText]; ring
    · intro f hf
      simp only [pushText, List.mem_append, List.mem_singleton] at hf
      rcases hf with hf | rfl
      · exact h0.top f hf
      · exact ⟨rfl, .mk (fun _ h => by simp [Fragment.contents] at h) (fun _ h => by simp [Fragment.contents] at h)⟩
  line := by
    intro ifc h
    have h1 := breakLine_rows (cb := cb) ifc.stack ifc.current ifc.current ifc.inlinePosition ifc.lineBoxes h.1 h.2 rfl rfl
    exact ⟨h1.1, h1.2.1⟩
  close := by
    intro ifc p stack h hr hst
    have h2 := h.2
    rw [hst] at h2
    obtain ⟨h3, h4, h5, h6⟩ := h2
    rw [← h4] at h6
    exact ⟨h.1, h6.modify rfl (finish_row (by rw [h4]; exact h3.row) h3.top h5 h6.current)⟩
  «end» := by
    intro ifc h hr hst
    have h2 := h.2
    rw [hst] at h2
    exact finishLine_rows h.1 h2.1 h2.2

theorem initial_rows {boxes : List InlineLevelBox} (h : inlineAll (fun s => positionOf s ≠ .relative) boxes) :
    RowState (initialInlineState boxes) :=
  ⟨by simp [initialInlineState], ⟨h, by simp [initialInlineState, rowOf], by simp [initialInlineState]⟩, rfl⟩

/-- Nothing is in what is in the fragments. -/
def Flat (fs : List Fragment) : Prop := ∀ f ∈ fs, ∀ c ∈ f.contents, c.IsText

/-- The invariant if there are no inline boxes in inline boxes. -/
def ShallowState (ifc : InlineState) : Prop :=
  (∀ f ∈ ifc.lineBoxes.boxes, Flat f.contents) ∧
  ((ifc.stack = [] ∧ NoNesting ifc.current.remainingBoxes ∧ Flat ifc.current.fragmentsSoFar) ∨
   ∃ p, ifc.stack = [p] ∧ (∀ c ∈ ifc.current.remainingBoxes, ¬ c.IsInlineBox) ∧ (∀ f ∈ ifc.current.fragmentsSoFar, f.IsText) ∧
     NoNesting p.parentNestingLevel.remainingBoxes ∧ Flat p.parentNestingLevel.fragmentsSoFar)

theorem Flat.snoc {fs : List Fragment} {f : Fragment} (h : Flat fs) (hf : ∀ c ∈ f.contents, c.IsText) : Flat (fs ++ [f]) := by
  intro g hg
  rcases List.mem_append.1 hg with hg | hg
  · exact h g hg
  · rw [List.mem_singleton.1 hg]; exact hf

theorem flat_line {lines : LinesBoxes} {level : NestingLevel} (hl : ∀ f ∈ lines.boxes, Flat f.contents)
    (h : Flat level.fragmentsSoFar) : ∀ f ∈ (finishLine lines level cb).1.boxes, Flat f.contents := by
  intro f hf
  simp only [finishLine, List.mem_append, List.mem_singleton] at hf
  rcases hf with hf | rfl
  · exact hl f hf
  · exact h

theorem shallow_invariant (cb : ContainingBlock) :
    Invariant cb ShallowState (fun lines => ∀ f ∈ lines, Flat f.contents) where
  start := by
    intro ifc style first last children remaining h hr
    rcases h.2 with ⟨h1, h2, h3⟩ | ⟨p, h1, h2, h3⟩
    · rw [hr] at h2
      refine ⟨h.1, .inr ⟨_, show _ :: ifc.stack = [_] by rw [h1], h2 _ List.mem_cons_self, ?_, ?_, h3⟩⟩
      · simp [startInlineBox]
      · exact fun b hb => h2 b (by simp only [InlineState.rest] at hb; simp [hb])
    · rw [hr] at h2
      exact absurd trivial (h2 (.inlineBox style first last children) (by simp))
  skip := by
    intro ifc b remaining h hr
    rcases h.2 with ⟨h1, h2, h3⟩ | ⟨p, h1, h2, h3⟩
    · rw [hr] at h2
      exact ⟨h.1, .inl ⟨h1, fun b hb => h2 b (by simp only [InlineState.rest] at hb; simp [hb]), h3⟩⟩
    · rw [hr] at h2
      exact ⟨h.1, .inr ⟨p, h1, fun b hb => h2 b (by simp only [InlineState.rest] at hb; simp [hb]), h3⟩⟩
  text := by
    intro ifc style shaped h
    rcases h.2 with ⟨h1, h2, h3⟩ | ⟨p, h1, h2, h3, h4⟩
    · exact ⟨h.1, .inl ⟨h1, h2, h3.snoc (by simp [Fragment.contents])⟩⟩
    · refine ⟨h.1, .inr ⟨p, h1, h2, ?_, h4⟩⟩
      intro f hf
      simp only [pushText, List.mem_append, List.mem_singleton] at hf
      rcases hf with hf | rfl
      · exact h3 f hf
      · trivial
  line := by
    intro ifc h
    rcases h.2 with ⟨h1, h2, h3⟩ | ⟨p, h1, h2, h3, h4, h5⟩
    · refine ⟨?_, .inl ?_⟩
      · simp only [InlineState.broken, h1]
        exact flat_line h.1 h3
      · simp only [InlineState.broken, h1]
        exact ⟨rfl, h2, by simp [Flat, breakLine, finishLine]⟩
    · refine ⟨?_, .inr ?_⟩
      · simp only [InlineState.broken, h1]
        exact flat_line h.1 (h5.snoc h3)
      · simp only [InlineState.broken, h1]
        exact ⟨_, rfl, h2, by simp [breakLine, PartialInlineBox.finish], h4, by simp [Flat, breakLine, finishLine]⟩
  close := by
    intro ifc p stack h hr hst
    rcases h.2 with ⟨h1, h2, h3⟩ | ⟨q, h1, h2, h3, h4, h5⟩
    · rw [h1] at hst; cases hst
    · rw [h1] at hst
      injection hst with e1 e2
      subst e1 e2
      exact ⟨h.1, .inl ⟨rfl, h4, h5.snoc h3⟩⟩
  «end» := by
    intro ifc h hr hst
    rcases h.2 with ⟨h1, h2, h3⟩ | ⟨q, h1, h2, h3, h4, h5⟩
    · exact flat_line h.1 h3
    · rw [hst] at h1; cases h1

theorem initial_shallow {boxes : List InlineLevelBox} (h : NoNesting boxes) : ShallowState (initialInlineState boxes) :=
  ⟨by simp [initialInlineState], .inl ⟨rfl, h, by simp [Flat, initialInlineState]⟩⟩

theorem row_texts {origin : Rat} : ∀ {fs : List Fragment} {x y : Rat}, (∀ f ∈ fs, f.IsText) → rowOf origin fs x y → InRow x fs y := by
  intro fs
  induction fs with
  | nil => intro x y _ h; exact h
  | cons f fs ih =>
    intro x y ht h
    obtain ⟨z, hf, hfs⟩ := h
    cases f with
    | box => exact (ht _ List.mem_cons_self).elim
    | anonymous => exact (ht _ List.mem_cons_self).elim
    | text style rect text =>
      obtain ⟨rfl, rfl⟩ := hf
      exact ⟨rfl, ih (fun f hf => ht f (by simp [hf])) hfs⟩

theorem row_line : ∀ {fs : List Fragment} {x y : Rat}, rowOf 0 fs x y → InRow x fs y := by
  intro fs
  induction fs with
  | nil => intro x y h; exact h
  | cons f fs ih =>
    intro x y h
    obtain ⟨z, hf, hfs⟩ := h
    cases f with
    | box info children =>
      obtain ⟨h1, w, -, h2, h3⟩ := hf
      refine ⟨h1.symm, ?_⟩
      have : (Fragment.box info children).right = z := by simp [Fragment.right, h2, h3]
      rw [this]
      exact ih hfs
    | anonymous => exact hf.elim
    | text style rect text =>
      obtain ⟨rfl, rfl⟩ := hf
      exact ⟨rfl, ih hfs⟩

theorem row_boxes : ∀ {fs : List Fragment} {x y : Rat}, rowOf 0 fs x y → Flat fs →
    ∀ f ∈ fs, ¬ f.IsText → InRow 0 f.contents f.contentWidth := by
  intro fs
  induction fs with
  | nil => intro x y _ _ f hf; simp at hf
  | cons g fs ih =>
    intro x y h hflat f hf ht
    obtain ⟨z, hg, hfs⟩ := h
    rcases List.mem_cons.1 hf with rfl | hf
    · cases f with
      | box info children =>
        obtain ⟨h1, w, h4, h2, h3⟩ := hg
        have := row_texts (hflat _ List.mem_cons_self) h4
        simpa [Fragment.contents, Fragment.contentWidth, h2] using this
      | anonymous => exact hg.elim
      | text style rect text => exact absurd trivial ht
    · exact ih hfs (fun f hf => hflat f (by simp [hf])) f hf ht

theorem within_text {f g : Fragment} (h : Fragment.Within f g) (ht : g.IsText) : f = g := by
  cases h with
  | self => rfl
  | child hm _ =>
    cases g with
    | box => exact ht.elim
    | anonymous => exact ht.elim
    | text => simp [Fragment.contents] at hm

/-! ### C81: heights -/

variable (F)

/-- C81, in part: every line is exactly as tall as the tallest thing on it, every inline box has room for everything in it, and
on the first line every inline box is exactly as tall as the tallest thing in it. What is missing is the last part for the other
lines: see `C81_heights_violated`. -/
theorem C81_heights_partial (boxes : List InlineLevelBox) (cb : ContainingBlock) (rank : Nat) (fc : FlowChildren)
    (as as' : List AbsolutelyPositionedFragment) (h : layoutInline F boxes cb rank as = some (fc, as')) :
    (∀ line, fc.fragments.head? = some line → SnugLine line) ∧
    ∀ line ∈ fc.fragments, IsTallest line.contentHeight line.contents ∧
      ∀ f, Fragment.Within f line → ¬ f.IsText → HoldsAll f.contentHeight f.contents := by
  have h1 := (heights_invariant cb).layout (initial_heights boxes) h
  exact ⟨h1.2, fun line hl => ⟨(h1.1 line hl).2.1, (h1.1 line hl).2.2⟩⟩

/-- C81: everything on a line begins at the top of the line, and everything in an inline box at the top of the inline box, unless
it is relatively positioned. -/
theorem C81_tops (boxes : List InlineLevelBox) (cb : ContainingBlock) (rank : Nat) (fc : FlowChildren)
    (as as' : List AbsolutelyPositionedFragment) (hrel : inlineAll (fun s => positionOf s ≠ .relative) boxes)
    (h : layoutInline F boxes cb rank as = some (fc, as')) : ∀ line ∈ fc.fragments, TopLine line := by
  intro line hl
  obtain ⟨_, _, _, _, rfl, -, h2⟩ := (rows_invariant cb).layout (initial_rows hrel) h line hl
  exact h2

/-! ### C82: widths -/

/-- C82, in part: what is on a line follows each other without gaps or overlap from its start; and what is in an inline box fills
exactly the width of the inline box, if it is not in another inline box. What is missing is the width of inline boxes in inline
boxes: see `C82_widths_violated`. -/
theorem C82_widths_partial (boxes : List InlineLevelBox) (cb : ContainingBlock) (rank : Nat) (fc : FlowChildren)
    (as as' : List AbsolutelyPositionedFragment) (hrel : inlineAll (fun s => positionOf s ≠ .relative) boxes)
    (h : layoutInline F boxes cb rank as = some (fc, as')) :
    ∀ line ∈ fc.fragments, (∃ y, InRow 0 line.contents y) ∧ (NoNesting boxes → FilledLine line) := by
  intro line hl
  obtain ⟨rect, children, mode, y, rfl, hrow, -⟩ := (rows_invariant cb).layout (initial_rows hrel) h line hl
  refine ⟨⟨y, row_line hrow⟩, fun hshallow => ⟨⟨y, row_line hrow⟩, ?_⟩⟩
  have hflat := (shallow_invariant cb).layout (initial_shallow hshallow) h _ hl
  intro c hc f hf ht
  cases hf with
  | self => exact row_boxes hrow hflat _ hc ht
  | child hm hw =>
    have htext := hflat c hc _ hm
    rw [within_text hw htext] at ht
    exact absurd htext ht

/-- What is known in general: the widths of inline boxes are too large by the position, on the line, of the content of the inline
box that they are in. -/
theorem C82_excess (boxes : List InlineLevelBox) (cb : ContainingBlock) (rank : Nat) (fc : FlowChildren)
    (as as' : List AbsolutelyPositionedFragment) (hrel : inlineAll (fun s => positionOf s ≠ .relative) boxes)
    (h : layoutInline F boxes cb rank as = some (fc, as')) : ∀ line ∈ fc.fragments, ∃ y, rowOf 0 line.contents 0 y := by
  intro line hl
  obtain ⟨rect, children, mode, y, rfl, hrow, -⟩ := (rows_invariant cb).layout (initial_rows hrel) h line hl
  exact ⟨y, hrow⟩

/-! ### Examples -/

/-- The style of text of 32 pixels. -/
def bigStyle : ComputedValues := postCascadeFixups (initialValues.set .fontSize (32 : Rat))

/-- The sizes of the areas for contents of a line, of what is on it, and the sizes of what is in that. -/
def lineSizes (r : Option (FlowChildren × List AbsolutelyPositionedFragment)) :
    Option (List (Rat × List (Rat × Rat × List (Rat × Rat × Rat)))) :=
  r.map fun r => r.1.fragments.map fun line => (line.contentHeight, line.contents.map fun c =>
    (c.contentHeight, c.contentWidth, c.contents.map fun g => (g.height, g.left, g.right)))

instance decideSizes : DecidableEq (Rat × Rat × List (Rat × Rat × Rat)) := inferInstance

instance decideLines : DecidableEq (Option (List (Rat × List (Rat × Rat × List (Rat × Rat × Rat))))) := inferInstance

/-- `<span><big>a</big> b</span>` in 32 pixels. -/
def tallBoxes : List InlineLevelBox := [.inlineBox plainStyle true true [.textRun bigStyle (codes "a"), .textRun plainStyle (codes " b")]]

/-- `a<span>b<b>c</b></span>`. -/
def wideBoxes : List InlineLevelBox := [.textRun plainStyle (codes "a"), .inlineBox plainStyle true true
  [.textRun plainStyle (codes "b"), .inlineBox plainStyle true true [.textRun plainStyle (codes "c")]]]

/-- The fragments with these sizes. -/
theorem lineSizes_some {r : Option (FlowChildren × List AbsolutelyPositionedFragment)}
    {sizes : List (Rat × List (Rat × Rat × List (Rat × Rat × Rat)))} (h : lineSizes r = some sizes) :
    ∃ fc as, r = some (fc, as) ∧ fc.fragments.map (fun line => (line.contentHeight, line.contents.map fun c =>
      (c.contentHeight, c.contentWidth, c.contents.map fun g => (g.height, g.left, g.right)))) = sizes := by
  rcases r with _ | ⟨fc, as⟩
  · simp [lineSizes] at h
  · exact ⟨fc, as, rfl, by simpa only [lineSizes, Option.map_some, Option.some.injEq] using h⟩

/-- C81 does not hold for the second line: the height of an inline box is that of the tallest thing in it on any line so far. In
32 pixels, `<span><big>a</big> b</span>` is laid out on two lines, and both the second line and the span on it are 38.4 pixels
high, although there is only `b`, which is 19.2 pixels high. -/
theorem C81_heights_violated :
    ∃ (boxes : List InlineLevelBox) (cb : ContainingBlock) (fc : FlowChildren) (as : List AbsolutelyPositionedFragment)
      (line : Fragment), inlineAll (fun s => positionOf s ≠ .relative) boxes ∧
      layoutInline exampleFont boxes cb 0 [] = some (fc, as) ∧ line ∈ fc.fragments ∧ ¬ SnugLine line := by
  have h : lineSizes (layoutInline exampleFont tallBoxes ⟨32, .auto, (.horizontalTb, .ltr)⟩ 0 []) =
      some [(192 / 5, [(192 / 5, 32, [(192 / 5, 0, 32), (96 / 5, 32, 32)])]), (192 / 5, [(192 / 5, 16, [(96 / 5, 0, 16)])])] := by
    decide +kernel
  obtain ⟨fc, as, h1, h2⟩ := lineSizes_some h
  obtain ⟨l1, ls, e1, -, h3⟩ := List.map_eq_cons_iff.1 h2
  obtain ⟨l2, ls', e2, h4, h5⟩ := List.map_eq_cons_iff.1 h3
  simp only [Prod.mk.injEq] at h4
  obtain ⟨c, cs, e3, h6, h7⟩ := List.map_eq_cons_iff.1 h4.2
  simp only [Prod.mk.injEq] at h6
  obtain ⟨g, gs, e4, h8, h9⟩ := List.map_eq_cons_iff.1 h6.2.2
  simp only [Prod.mk.injEq] at h8
  have hgs : gs = [] := by simpa using h9
  refine ⟨_, _, fc, as, l2, ?_, h1, by rw [e1, e2]; simp, ?_⟩
  · simp only [tallBoxes, inlineAll, InlineLevelBox.All, and_true]
    decide +kernel
  · intro hs
    have ht : ¬ c.IsText := by
      cases c with
      | box => exact id
      | anonymous => exact id
      | text => simp [Fragment.contents] at e4
    obtain ⟨-, -, h0 | ⟨f, hf, h10⟩⟩ := hs c (.child (by rw [e3]; simp) .self) ht
    · rw [h6.1] at h0
      exact absurd h0 (by decide +kernel)
    · rw [e4, hgs, List.mem_singleton] at hf
      rw [hf, h8.1, h6.1] at h10
      exact absurd h10 (by decide +kernel)

/-- C82 does not hold for an inline box in an inline box: in `a<span>b<b>c</b></span>` the span is 32 pixels wide, from 16 to 48,
but the `b` element in it is from 32 to 64, although there is only one character in it, which is 16 pixels wide. -/
theorem C82_widths_violated :
    ∃ (boxes : List InlineLevelBox) (cb : ContainingBlock) (fc : FlowChildren) (as : List AbsolutelyPositionedFragment)
      (line : Fragment), inlineAll (fun s => positionOf s ≠ .relative) boxes ∧
      layoutInline exampleFont boxes cb 0 [] = some (fc, as) ∧ line ∈ fc.fragments ∧ ¬ FilledLine line := by
  have h : lineSizes (layoutInline exampleFont wideBoxes ⟨100, .auto, (.horizontalTb, .ltr)⟩ 0 []) =
      some [(96 / 5, [(96 / 5, 16, []), (96 / 5, 32, [(96 / 5, 0, 16), (96 / 5, 16, 48)])])] := by
    decide +kernel
  obtain ⟨fc, as, h1, h2⟩ := lineSizes_some h
  obtain ⟨l1, ls, e1, h4, h3⟩ := List.map_eq_cons_iff.1 h2
  simp only [Prod.mk.injEq] at h4
  obtain ⟨c1, cs, e3, h6, h7⟩ := List.map_eq_cons_iff.1 h4.2
  obtain ⟨c, cs', e5, h10, h11⟩ := List.map_eq_cons_iff.1 h7
  simp only [Prod.mk.injEq] at h10
  obtain ⟨g, gs, e4, h8, h9⟩ := List.map_eq_cons_iff.1 h10.2.2
  obtain ⟨g', gs', e6, h12, h13⟩ := List.map_eq_cons_iff.1 h9
  simp only [Prod.mk.injEq] at h12
  have hgs : gs' = [] := by simpa using h13
  refine ⟨_, _, fc, as, l1, ?_, h1, by rw [e1]; simp, ?_⟩
  · simp only [wideBoxes, inlineAll, InlineLevelBox.All, and_true]
    decide +kernel
  · intro hs
    have ht : ¬ c.IsText := by
      cases c with
      | box => exact id
      | anonymous => exact id
      | text => simp [Fragment.contents] at e4
    have h14 := hs.2 c (by rw [e3, e5]; simp) c .self ht
    rw [e4, e6, hgs] at h14
    have h15 : g'.right = c.contentWidth := h14.2.2
    rw [h12.2.2, h10.2.1] at h15
    exact absurd h15 (by decide +kernel)

/-- The hypotheses of the theorems are met: `aa <span>bb cc</span> dd` in 100 pixels is on two lines, with two fragments of the
span. -/
example : lineSizes (layoutInline exampleFont
      [.textRun plainStyle (codes "aa "), .inlineBox (inlineStyle 5 7 .static .auto) true true [.textRun plainStyle (codes "bb cc")],
        .textRun plainStyle (codes " dd")] ⟨100, .auto, (.horizontalTb, .ltr)⟩ 0 []) =
    some [(96 / 5, [(96 / 5, 48, []), (96 / 5, 32, [(96 / 5, 0, 32)])]),
      (96 / 5, [(96 / 5, 32, [(96 / 5, 0, 32)]), (96 / 5, 48, [])])] := by
  decide +kernel

/-- See above. -/
example : NoNesting [.textRun plainStyle (codes "aa "), .inlineBox (inlineStyle 5 7 .static .auto) true true
    [.textRun plainStyle (codes "bb cc")], .textRun plainStyle (codes " dd")] := by
  simp [NoNesting, InlineLevelBox.IsInlineBox]

end Verif.Layout
