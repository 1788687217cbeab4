/- Where absolutely positioned boxes are: their containing blocks, and their static positions, in terms of the box tree and of the
fragments of the flow (CSS 2, sections 9.6, 10.1, 10.3.7 and 10.6.4). -/
import Verif.Layout.SizeTheorems
import Verif.Layout.InlineSpec
namespace Verif.Layout
open Verif.Style Verif.Text

/-- The contents of an in-flow box that is not positioned: it is not the containing block of the absolutely positioned boxes
in it. -/
def BlockLevelBox.unpositionedContents : BlockLevelBox → Option BlockContainer
  | .sameFormattingContextBlock style contents => if positionOf style = .relative then none else some contents
  | .independent style _ contents => if positionOf style = .relative then none else some contents
  | .outOfFlowAbsolutelyPositioned _ _ _ => none
  | .outOfFlowFloat _ _ _ => none

mutual
/-- The absolutely positioned boxes in a container, in tree order, but for those in a block-level box in it that is positioned
itself. Those in a relatively positioned inline box are among them, although CSS makes that box their containing block. -/
def BlockContainer.absolutes : BlockContainer → List AbsolutelyPositionedBox
  | .blockLevelBoxes boxes => blocksAbsolutes boxes
  | .inlineFormattingContext boxes => inlinesAbsolutes boxes
/-- See `BlockContainer.absolutes`. -/
def BlockLevelBox.absolutes : BlockLevelBox → List AbsolutelyPositionedBox
  | .sameFormattingContextBlock style contents => if positionOf style = .relative then [] else contents.absolutes
  | .independent style _ contents => if positionOf style = .relative then [] else contents.absolutes
  | .outOfFlowAbsolutelyPositioned style floats contents => [⟨style, ⟨contents, floats⟩⟩]
  | .outOfFlowFloat _ _ _ => []
/-- See `BlockContainer.absolutes`. -/
def blocksAbsolutes : List BlockLevelBox → List AbsolutelyPositionedBox
  | [] => []
  | b :: bs => b.absolutes ++ blocksAbsolutes bs
/-- See `BlockContainer.absolutes`. -/
def InlineLevelBox.absolutes : InlineLevelBox → List AbsolutelyPositionedBox
  | .inlineBox _ _ _ children => inlinesAbsolutes children
  | .textRun _ _ => []
  | .outOfFlowAbsolutelyPositioned style floats contents => [⟨style, ⟨contents, floats⟩⟩]
  | .outOfFlowFloat _ _ _ => []
/-- See `BlockContainer.absolutes`. -/
def inlinesAbsolutes : List InlineLevelBox → List AbsolutelyPositionedBox
  | [] => []
  | b :: bs => b.absolutes ++ inlinesAbsolutes bs
end

/-- `y` is the bottom border edge, before relative positioning, of the last of the boxes `pre` that is not collapsed through, in
the coordinates of the content box that contains them; or zero, the top of that content box, if there is none. The fragments of
the boxes are the first of `fs`. -/
inductive BottomOf (cb : ContainingBlock) : (pre : List BlockLevelBox) → (fs : List Fragment) → Rat → Prop
  | none {pre fs} : (∀ b ∈ pre, Css.through cb b = true) → BottomOf cb pre fs 0
  | last {pre x mid fs info children} : Css.through cb x = false → (∀ b ∈ mid, Css.through cb b = true) →
      fs[pre.length]? = some (.box info children) → BottomOf cb (pre ++ x :: mid) fs (flowBottom cb x info)

/-- The static position of an absolutely positioned box in a container, in the coordinates of the content box of the container.
`fs` are the fragments of the contents.

A block-level box is at the left, below what precedes it (margins are not counted: CSS counts them). In an inline formatting
context the box is where the text before it ends, or at the left if it would have been a block. The position in a box in the
container is taken from the content box of that box. -/
inductive StaticIn {Err : Type} (F : FontApi Rat Err) :
    ContainingBlock → BlockContainer → List Fragment → AbsolutelyPositionedBox → Vec2 Rat → Prop
  | block {cb pre post fs style floats contents y} : BottomOf cb pre fs y →
      StaticIn F cb (.blockLevelBoxes (pre ++ .outOfFlowAbsolutelyPositioned style floats contents :: post)) fs
        ⟨style, ⟨contents, floats⟩⟩ ⟨0, y⟩
  | nested {cb pre b post fs info children contents box v} : b.unpositionedContents = some contents →
      fs[pre.length]? = some (.box info children) → StaticIn F (Css.inner cb (Css.styleOf b)) contents children box v →
      StaticIn F cb (.blockLevelBoxes (pre ++ b :: post)) fs box (info.contentRect.startCorner.add v)
  | inline {cb boxes fs box v} :
      (inlineAll (fun s => positionOf s ≠ .relative) boxes →
        ∃ s tall, Laid F tall cb boxes .empty s ∧ (box, v) ∈ s.absolutes) →
      StaticIn F cb (.inlineFormattingContext boxes) fs box v

/-- The fragment is that of the absolutely positioned box. On an axis where both offsets are `auto`, its margin edge is at `v`. -/
def AtStatic (box : AbsolutelyPositionedBox) (v : Vec2 Rat) (f : Fragment) : Prop :=
  ∃ info children, f = .box info children ∧ info.style = box.style ∧
    (Css.left box.style = .auto → Css.right box.style = .auto → info.leftEdge = v.inline) ∧
    (Css.top box.style = .auto → Css.bottom box.style = .auto → info.topEdge = v.block)

/-- The fragment is that of the absolutely positioned box, and is as far from the left and from the top of the containing block
as `left` and `top` say. `width` is what percentages are of, on both axes (C40). -/
def AtOffsets (box : AbsolutelyPositionedBox) (width : Rat) (f : Fragment) : Prop :=
  ∃ info children, f = .box info children ∧ info.style = box.style ∧
    (Css.left box.style ≠ .auto → info.leftEdge = Css.usedOrZero width (Css.left box.style)) ∧
    (Css.top box.style ≠ .auto → info.topEdge = Css.usedOrZero width (Css.top box.style))

/-- The padding box of a box, in the coordinates of its content box. -/
def BoxInfo.paddingBox (info : BoxInfo) : Rect Rat where
  startCorner := ⟨-info.padding.inlineStart, -info.padding.blockStart⟩
  size := ⟨info.contentRect.size.inline + (info.padding.inlineStart + info.padding.inlineEnd),
    info.contentRect.size.block + (info.padding.blockStart + info.padding.blockEnd)⟩

/-- The children of a positioned box: the fragments of its contents, and one for its padding box with those of the absolutely
positioned boxes `boxes`, if there are any; each of them is as `P` says. -/
def HasAbsolutes (info : BoxInfo) (boxes : List AbsolutelyPositionedBox) (flow children : List Fragment)
    (P : AbsolutelyPositionedBox → Fragment → Prop) : Prop :=
  if boxes = [] then children = flow
  else ∃ fs, children = flow ++ [.anonymous info.paddingBox fs (.horizontalTb, .ltr)] ∧ List.Forall₂ P boxes fs

end Verif.Layout
