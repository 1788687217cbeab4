/- C83, C84: where absolutely positioned boxes are. -/
import Verif.Layout.StaticLemmas
namespace Verif.Layout
open Verif.Style Verif.Text

variable {Err : Type} {F : FontApi Rat Err}

/-- The fragment of an absolutely positioned box whose static position is as `S` says, in a containing block of this width. -/
def AbsoluteAt (S : AbsolutelyPositionedBox → Vec2 Rat → Prop) (width : Rat) (box : AbsolutelyPositionedBox) (f : Fragment) : Prop :=
  ∃ v, S box v ∧ AtStatic box v f ∧ AtOffsets box width f

theorem layoutAll_at {S : AbsolutelyPositionedBox → Vec2 Rat → Prop} {rank : Nat} {size : Vec2 Rat} {mode : Mode} {fuel : Nat}
    {s : Nat → Oracle} {boxes : List AbsolutelyPositionedBox} {as : Absolutes} (h : PendingAt S rank boxes as) :
    ∀ (k : Nat) (fs : List Fragment), layoutAll (fun k a => layoutAbsolute F fuel (s k) ⟨size, mode⟩ a) k as = some fs →
      List.Forall₂ (AbsoluteAt S size.inline) boxes fs := by
  induction h with
  | nil => intro k fs h; simp only [layoutAll, Option.some.injEq] at h; subst h; exact .nil
  | cons hb _ ih =>
    intro k fs h
    obtain ⟨v, hv, rfl⟩ := hb
    simp only [layoutAll] at h
    split at h
    · rename_i f fs' h1 h2
      simp only [Option.some.injEq] at h
      subst h
      refine .cons ⟨v, hv, ?_, ?_⟩ (ih _ _ h2)
      · obtain ⟨info, children, rfl, hs, ⟨hh, -⟩, ⟨hw, -⟩⟩ := C40_exact h1
        rw [hs] at hh hw
        exact ⟨info, children, rfl, hs, hh.static, hw.static⟩
      · obtain ⟨info, children, rfl, hs, ⟨hh, -⟩, ⟨hw, -⟩⟩ := C40_exact h1
        rw [hs] at hh hw
        exact ⟨info, children, rfl, hs, hh.startOffset, hw.startOffset⟩
    · cases h

theorem container_static {fuel : Nat} {schedule : Oracle} {c : BlockContainer} {cb : ContainingBlock} {rank : Nat} {floats collapsible : Bool}
    {fc : FlowChildren} {as : Absolutes} (h : layoutContainer F fuel schedule c cb rank [] floats collapsible = some (fc, as)) :
    PendingAt (StaticIn F cb c fc.fragments) rank c.absolutes as := by
  rw [(layout_prepend F fuel).1, prepend_nil] at h
  exact (layout_static F fuel).1 _ _ _ _ _ _ h

theorem inPositioned_at {S : AbsolutelyPositionedBox → Vec2 Rat → Prop} {rank fuel : Nat} {s : Nat → Oracle}
    {boxes : List AbsolutelyPositionedBox} {as : Absolutes} {info : BoxInfo} {flow children : List Fragment} (h : PendingAt S rank boxes as)
    (hp : inPositionedContainingBlock (fun cb k a => layoutAbsolute F fuel (s k) cb a) as flow info.contentRect.size info.padding
      (.horizontalTb, .ltr) = some children) :
    HasAbsolutes info boxes flow children (AbsoluteAt S info.paddingBox.size.inline) := by
  cases h with
  | nil =>
    simp only [inPositionedContainingBlock, Option.some.injEq] at hp
    simp [HasAbsolutes, hp]
  | cons hb hbs =>
    simp only [inPositionedContainingBlock] at hp
    split at hp
    · cases hp
    · rename_i fs hl
      simp only [Option.some.injEq] at hp
      subst hp
      simp only [HasAbsolutes, reduceCtorEq, if_false]
      refine ⟨fs, ?_, layoutAll_at (.cons hb hbs) _ _ hl⟩
      simp only [BoxInfo.paddingBox, Rect.inflate, Vec2.zero, zero_sub]
      rfl

/-- The absolutely positioned boxes of the page. -/
theorem layoutRoot_at {fuel : Nat} {s : Oracle} {root : BlockFormattingContext} {viewport : Vec2 Rat} {fragments : List Fragment}
    (h : layoutRoot F fuel s root viewport = some fragments) :
    ∃ flow fs, fragments = flow ++ fs ∧ List.Forall₂ (AbsoluteAt (StaticIn F
      ⟨viewport.inline, .length viewport.block, (.horizontalTb, .ltr)⟩ root.contents flow) viewport.inline) root.contents.absolutes fs := by
  simp only [layoutRoot, BlockFormattingContext.layout] at h
  rcases hq : layoutContainer F fuel (s.sub 0) root.contents ⟨viewport.inline, .length viewport.block, (.horizontalTb, .ltr)⟩ 0 []
    root.containsFloats false with _ | ⟨fc, as⟩
  · simp [hq, mapFst] at h
  · simp only [hq, mapFst] at h
    split at h
    · cases h
    · rename_i fs hl
      simp only [Option.some.injEq] at h
      subst h
      exact ⟨_, fs, rfl, layoutAll_at (container_static hq) _ _ hl⟩

/-- Those of a relatively positioned block. -/
theorem layoutBox_at {fuel : Nat} {s : Oracle} {b : BlockLevelBox} {c : BlockContainer} {cb : ContainingBlock} {rank : Nat}
    {absolute as : Absolutes} {floats : Bool} {f : Fragment}
    (hb : b = .sameFormattingContextBlock (Css.styleOf b) c ∨ ∃ floats, b = .independent (Css.styleOf b) floats c)
    (hrel : positionOf (Css.styleOf b) = .relative)
    (h : layoutBox F fuel s b cb rank absolute floats = some (f, as)) :
    ∃ info flow children, f = .box info children ∧ info.style = Css.styleOf b ∧ as = absolute ∧
      HasAbsolutes info c.absolutes flow children
        (AbsoluteAt (StaticIn F (Css.inner cb (Css.styleOf b)) c flow) info.paddingBox.size.inline) := by
  rw [(layout_prepend F fuel).2.1] at h
  rcases hq : layoutBox F fuel inOrder b cb rank [] false with _ | ⟨f', as'⟩
  · simp [hq] at h
  · simp only [hq, prepend_some, Option.some.injEq, Prod.mk.injEq] at h
    obtain ⟨rfl, rfl⟩ := h
    cases fuel with
    | zero => simp [layoutBox] at hq
    | succ fuel =>
      rcases hb with hb | ⟨fl, hb⟩
      · rw [hb] at hq
        simp only [layoutBox] at hq
        obtain ⟨fc, as'', info, children, hl, rfl, hs, -, -, -, -, -, -, hpos, -⟩ := layoutInFlow_some hq
        simp only [hrel] at hpos
        obtain ⟨rfl, hpos⟩ := hpos
        exact ⟨info, fc.fragments, children, rfl, hs, by simp, inPositioned_at (container_static hl) hpos⟩
      · rw [hb] at hq
        simp only [layoutBox] at hq
        obtain ⟨fc, as'', info, children, hl, rfl, hs, -, -, -, -, -, -, hpos, -⟩ := layoutInFlow_some hq
        simp only [hrel] at hpos
        obtain ⟨rfl, hpos⟩ := hpos
        rcases hq' : layoutContainer F fuel (inOrder.sub 0) c (Css.inner cb (Css.styleOf b)) rank [] fl false with _ | ⟨fc', as1⟩
        · simp [hq', mapFst] at hl
        · simp only [hq', mapFst, Option.some.injEq, Prod.mk.injEq] at hl
          obtain ⟨rfl, rfl⟩ := hl
          exact ⟨info, _, children, rfl, hs, by simp, inPositioned_at (container_static hq') hpos⟩

/-- Those of an absolutely positioned box. -/
theorem layoutAbsolute_at {fuel : Nat} {s : Oracle} {cb : DefiniteContainingBlock} {a : AbsolutelyPositionedFragment} {f : Fragment}
    (h : layoutAbsolute F fuel s cb a = some f) :
    ∃ info flow children height, f = .box info children ∧ info.style = a.box.style ∧
      HasAbsolutes info a.box.contents.contents.absolutes flow children
        (AbsoluteAt (StaticIn F ⟨info.contentRect.size.inline, height, (.horizontalTb, .ltr)⟩ a.box.contents.contents flow)
          info.paddingBox.size.inline) := by
  cases fuel with
  | zero => simp [layoutAbsolute] at h
  | succ fuel =>
    simp only [layoutAbsolute] at h
    split at h
    · cases h
    · rcases hq : layoutContainer F fuel (s.sub 0) a.box.contents.contents
        ⟨(absoluteSizes cb a).inlineSize, (absoluteSizes cb a).blockSize, writingMode a.box.style⟩ 0 []
        a.box.contents.containsFloats false with _ | ⟨fc, as⟩
      · simp [hq, mapFst] at h
      · simp only [hq, mapFst] at h
        split at h
        · cases h
        · rename_i fs hl
          simp only [Option.some.injEq] at h
          exact ⟨_, fc.fragments, fs, (absoluteSizes cb a).blockSize, h.symm, rfl,
            inPositioned_at (info := ⟨a.box.style, _, (absoluteSizes cb a).padding, _, _, .zero⟩) (container_static hq) hl⟩

/-! ### C83 -/

theorem HasAbsolutes.imp {info : BoxInfo} {boxes : List AbsolutelyPositionedBox} {flow children : List Fragment}
    {P Q : AbsolutelyPositionedBox → Fragment → Prop} (h : HasAbsolutes info boxes flow children P) (hpq : ∀ b f, P b f → Q b f) :
    HasAbsolutes info boxes flow children Q := by
  simp only [HasAbsolutes] at h ⊢
  split at h
  · rw [if_pos ‹_›]; exact h
  · rw [if_neg ‹_›]
    obtain ⟨fs, h1, h2⟩ := h
    exact ⟨fs, h1, h2.imp hpq⟩

/-- C83 for the boxes whose containing block is the page: the fragments of the page are those of the flow, and one for each of these
boxes, in tree order. On an axis on which both offsets are `auto` the margin edge of the box is at its static position. Not counted
in the static position are the margins between the box and what precedes it. -/
theorem C83_page_partial {fuel : Nat} {s : Oracle} {root : BlockFormattingContext} {viewport : Vec2 Rat} {fragments : List Fragment}
    (h : layoutRoot F fuel s root viewport = some fragments) :
    ∃ flow fs, fragments = flow ++ fs ∧
      List.Forall₂ (fun box f => ∃ v,
        StaticIn F ⟨viewport.inline, .length viewport.block, (.horizontalTb, .ltr)⟩ root.contents flow box v ∧ AtStatic box v f)
        root.contents.absolutes fs := by
  obtain ⟨flow, fs, h1, h2⟩ := layoutRoot_at h
  exact ⟨flow, fs, h1, h2.imp fun _ _ ⟨v, hv, ha, _⟩ => ⟨v, hv, ha⟩⟩

/-- C83 for the boxes whose containing block is a relatively positioned block without padding at the left and at the top: their
fragments are in one for the padding box, which is at the corner of the content box, so that the static positions in the content box
are those in the padding box. -/
theorem C83_relative_partial {fuel : Nat} {s : Oracle} {b : BlockLevelBox} {c : BlockContainer} {cb : ContainingBlock} {rank : Nat}
    {absolute as : Absolutes} {floats : Bool} {f : Fragment}
    (hb : b = .sameFormattingContextBlock (Css.styleOf b) c ∨ ∃ floats, b = .independent (Css.styleOf b) floats c)
    (hrel : positionOf (Css.styleOf b) = .relative) (hleft : Css.paddingLeft cb (Css.styleOf b) = 0)
    (htop : Css.paddingTop cb (Css.styleOf b) = 0) (h : layoutBox F fuel s b cb rank absolute floats = some (f, as)) :
    ∃ info flow children, f = .box info children ∧ info.style = Css.styleOf b ∧ info.paddingBox.startCorner = ⟨0, 0⟩ ∧
      HasAbsolutes info c.absolutes flow children
        (fun box f => ∃ v, StaticIn F (Css.inner cb (Css.styleOf b)) c flow box v ∧ AtStatic box v f) := by
  obtain ⟨info, flow, children, rfl, h1, -, h2⟩ := layoutBox_at hb hrel h
  have hin : Css.inFlow b = true := by rcases hb with hb | ⟨_, hb⟩ <;> rw [hb] <;> rfl
  obtain ⟨-, hp, -⟩ := inFlow_info hin h
  refine ⟨info, flow, children, rfl, h1, ?_, h2.imp fun _ _ ⟨v, hv, ha, _⟩ => ⟨v, hv, ha⟩⟩
  simp [BoxInfo.paddingBox, hp, inFlow_padding, hleft, htop]

/-- C83 for the boxes whose containing block is an absolutely positioned box without padding at the left and at the top. -/
theorem C83_absolute_partial {fuel : Nat} {s : Oracle} {cb : DefiniteContainingBlock} {a : AbsolutelyPositionedFragment} {f : Fragment}
    (h : layoutAbsolute F fuel s cb a = some f)
    (hleft : Css.paddingLeft ⟨cb.size.inline, .length cb.size.block, cb.mode⟩ a.box.style = 0)
    (htop : Css.paddingTop ⟨cb.size.inline, .length cb.size.block, cb.mode⟩ a.box.style = 0) :
    ∃ info flow children height, f = .box info children ∧ info.style = a.box.style ∧ info.paddingBox.startCorner = ⟨0, 0⟩ ∧
      HasAbsolutes info a.box.contents.contents.absolutes flow children
        (fun box f => ∃ v, StaticIn F ⟨info.contentRect.size.inline, height, (.horizontalTb, .ltr)⟩ a.box.contents.contents flow box v ∧
          AtStatic box v f) := by
  obtain ⟨info, flow, children, height, rfl, h1, h2⟩ := layoutAbsolute_at h
  refine ⟨info, flow, children, height, rfl, h1, ?_, h2.imp fun _ _ ⟨v, hv, ha, _⟩ => ⟨v, hv, ha⟩⟩
  have hp : info.padding = (absoluteSizes cb a).padding := by
    cases fuel with
    | zero => simp [layoutAbsolute] at h
    | succ fuel =>
      simp only [layoutAbsolute] at h
      repeat' split at h
      all_goals first | (cases h; rfl) | cases h
  have h3 : info.padding.inlineStart = 0 := by
    rw [hp]; exact (percentageRelativeTo_eq (a.box.style.values .paddingLeft) cb.size.inline).trans hleft
  have h4 : info.padding.blockStart = 0 := by
    rw [hp]; exact (percentageRelativeTo_eq (a.box.style.values .paddingTop) cb.size.inline).trans htop
  simp [BoxInfo.paddingBox, h3, h4]

/-! ### C84 -/

/-- C84 for the page: the absolutely positioned boxes that are in no positioned block are placed by `left` and `top` from the corner of
the page. -/
theorem C84_page_partial {fuel : Nat} {s : Oracle} {root : BlockFormattingContext} {viewport : Vec2 Rat} {fragments : List Fragment}
    (h : layoutRoot F fuel s root viewport = some fragments) :
    ∃ flow fs, fragments = flow ++ fs ∧ List.Forall₂ (fun box f => AtOffsets box viewport.inline f) root.contents.absolutes fs := by
  obtain ⟨flow, fs, h1, h2⟩ := layoutRoot_at h
  exact ⟨flow, fs, h1, h2.imp fun _ _ ⟨_, _, _, ha⟩ => ha⟩

/-- C84 for the boxes in a relatively positioned block, and in no positioned block in that block: they are placed by `left` and `top`
from the corner of the padding box of that block, and nothing is left for the containing blocks around it. -/
theorem C84_relative {fuel : Nat} {s : Oracle} {b : BlockLevelBox} {c : BlockContainer} {cb : ContainingBlock} {rank : Nat}
    {absolute as : Absolutes} {floats : Bool} {f : Fragment}
    (hb : b = .sameFormattingContextBlock (Css.styleOf b) c ∨ ∃ floats, b = .independent (Css.styleOf b) floats c)
    (hrel : positionOf (Css.styleOf b) = .relative)
    (h : layoutBox F fuel s b cb rank absolute floats = some (f, as)) :
    as = absolute ∧ ∃ info flow children, f = .box info children ∧ info.style = Css.styleOf b ∧
      HasAbsolutes info c.absolutes flow children (fun box f => AtOffsets box info.paddingBox.size.inline f) := by
  obtain ⟨info, flow, children, rfl, h1, h2, h3⟩ := layoutBox_at hb hrel h
  exact ⟨h2, info, flow, children, rfl, h1, h3.imp fun _ _ ⟨_, _, _, ha⟩ => ha⟩

/-- C84 for the boxes in an absolutely positioned box, and in no positioned block in that box. -/
theorem C84_absolute {fuel : Nat} {s : Oracle} {cb : DefiniteContainingBlock} {a : AbsolutelyPositionedFragment} {f : Fragment}
    (h : layoutAbsolute F fuel s cb a = some f) :
    ∃ info flow children, f = .box info children ∧ info.style = a.box.style ∧
      HasAbsolutes info a.box.contents.contents.absolutes flow children (fun box f => AtOffsets box info.paddingBox.size.inline f) := by
  obtain ⟨info, flow, children, height, rfl, h1, h2⟩ := layoutAbsolute_at h
  exact ⟨info, flow, children, rfl, h1, h2.imp fun _ _ ⟨_, _, _, ha⟩ => ha⟩

/-! ### Examples, and where CSS differs -/

/-- A block whose margin below it, height, padding and position are these. -/
def marginStyle (marginBottom padding : Rat) (height : LengthOrPercentageOrAuto) (position : Position) : ComputedValues :=
  postCascadeFixups ((((((initialValues.set .display (Display.generatingBox .block .flow)).set .marginBottom
    (LengthOrPercentageOrAuto.length marginBottom)).set .height height).set .paddingLeft (LengthOrPercentage.length padding)).set
    .paddingTop (LengthOrPercentage.length padding)).set .position position)

/-- An absolutely positioned block-level box with `left`, 30 pixels wide and 20 high. -/
def absoluteBlock (left : LengthOrPercentageOrAuto) : BlockLevelBox :=
  .outOfFlowAbsolutelyPositioned (exampleAbsolute .auto .auto left .auto (.length 30) (.length 20)).style false (.blockLevelBoxes [])

/-- The left and the top margin edges of the boxes, those in the anonymous fragments included, from the corner of the content box that
contains them. -/
def edges : List Fragment → List (Rat × Rat)
  | [] => []
  | .box info _ :: fs => (info.leftEdge, info.topEdge) :: edges fs
  | .anonymous rect children _ :: fs =>
    (children.filterMap fun f => match f with
      | .box info _ => some (rect.startCorner.inline + info.leftEdge, rect.startCorner.block + info.topEdge)
      | _ => none) ++ edges fs
  | .text _ _ _ :: fs => edges fs

/-- The edges of the boxes of the page. -/
def pageEdges (boxes : BlockContainer) : Option (List (Rat × Rat)) :=
  (layoutRoot exampleFont 10 inOrder ⟨boxes, false⟩ ⟨400, 300⟩).map edges

/-- The edges of the boxes in the first box of the page. -/
def innerEdges (boxes : List BlockLevelBox) : Option (List (Rat × Rat)) :=
  match layoutRoot exampleFont 10 inOrder ⟨.blockLevelBoxes boxes, false⟩ ⟨400, 300⟩ with
  | some (.box _ children :: _) => some (edges children)
  | _ => none

/-- The static position of a box below one that is 50 high. -/
example : pageEdges (.blockLevelBoxes [.sameFormattingContextBlock (marginStyle 0 0 (.length 50) .static) (.blockLevelBoxes []),
    absoluteBlock .auto]) = some [(0, 0), (0, 50)] := by decide +kernel

/-- In a relatively positioned block without padding; and `left: 7px` from the padding edge. -/
example : innerEdges [.sameFormattingContextBlock (marginStyle 0 0 .auto .relative) (.blockLevelBoxes
      [.sameFormattingContextBlock (marginStyle 0 0 (.length 50) .static) (.blockLevelBoxes []), absoluteBlock .auto])] =
      some [(0, 0), (0, 50)] ∧
    innerEdges [.sameFormattingContextBlock (marginStyle 0 5 .auto .relative) (.blockLevelBoxes [absoluteBlock (.length 7)])] =
      some [(2, -5)] := by
  constructor <;> decide +kernel

/-- C83 does not hold after a block with a margin of 20 pixels below it: the absolutely positioned box is 50 pixels from the top, where
the block ends, while a block in its place would be 70 pixels from the top. -/
theorem C83_margin_violated :
    pageEdges (.blockLevelBoxes [.sameFormattingContextBlock (marginStyle 20 0 (.length 50) .static) (.blockLevelBoxes []),
      absoluteBlock .auto]) = some [(0, 0), (0, 50)] ∧
    pageEdges (.blockLevelBoxes [.sameFormattingContextBlock (marginStyle 20 0 (.length 50) .static) (.blockLevelBoxes []),
      .sameFormattingContextBlock (marginStyle 0 0 (.length 50) .static) (.blockLevelBoxes [])]) = some [(0, 0), (0, 70)] := by
  constructor <;> decide +kernel

/-- C83 does not hold in a relatively positioned block with a padding of 5 pixels: the box is in the corner of the padding box, 5 pixels
above and to the left of where a block in its place would be. -/
theorem C83_padding_violated :
    innerEdges [.sameFormattingContextBlock (marginStyle 0 5 .auto .relative) (.blockLevelBoxes [absoluteBlock .auto])] =
      some [(-5, -5)] ∧
    innerEdges [.sameFormattingContextBlock (marginStyle 0 5 .auto .relative) (.blockLevelBoxes
      [.sameFormattingContextBlock (marginStyle 0 0 (.length 50) .static) (.blockLevelBoxes [])])] = some [(0, 0)] := by
  constructor <;> decide +kernel

/-- C84 does not hold for boxes in a relatively positioned inline box: after four characters of 16 pixels, a box with `left: 3px` in such
an inline box is 3 pixels from the left of the page, not 67. -/
theorem C84_inline_violated :
    (pageEdges (.inlineFormattingContext [.textRun plainStyle (codes "aaaa"), .inlineBox (inlineStyle 0 0 .relative .auto) true true
      [.outOfFlowAbsolutelyPositioned (exampleAbsolute .auto .auto (.length 3) .auto (.length 30) (.length 20)).style false
        (.blockLevelBoxes [])]])).map List.getLast? = some (some (3, 0)) := by
  decide +kernel

end Verif.Layout
