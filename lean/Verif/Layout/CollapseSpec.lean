/- Which margins collapse, and where boxes are on a page for that reason (CSS 2, section 8.3.1): the specification of C106. It is in terms
of what is on the page and of the styles, and does not know how layout finds the places. -/
import Verif.Layout.BoundSpec
import Verif.Layout.FlowSpec
import Verif.Layout.Construct
namespace Verif.Layout
open Verif.Style

/-- What is met on the way down a page: a margin, or something else with a height, which keeps the margins above it from those below it. -/
inductive DownStep where
  | margin (m : Rat)
  | part (height : Rat)

/-- Margins without anything between them take up this much: the largest positive one plus the most negative one. -/
def collapsedSize (margins : List Rat) : Rat := margins.foldr max 0 + margins.foldr min 0

/-- How far down the steps lead; `pending` are the margins since the last part. -/
def descend (pending : List Rat) : List DownStep → Rat
  | [] => collapsedSize pending
  | .margin m :: steps => descend (pending ++ [m]) steps
  | .part height :: steps => collapsedSize pending + height + descend [] steps

def DownStep.isMargin : DownStep → Bool
  | .margin _ => true
  | .part _ => false

/-- The margins at the beginning. -/
def leadingMargins (steps : List DownStep) : List DownStep := steps.takeWhile DownStep.isMargin

/-- All but the margins at the end. -/
def withoutTrailing (steps : List DownStep) : List DownStep := (steps.reverse.dropWhile DownStep.isMargin).reverse

/-- The element has margins, borders or padding. -/
def Decorated (cb : ContainingBlock) (s : ComputedValues) : Bool :=
  decide (Css.paddingTop cb s ≠ 0) || decide (Css.paddingRight cb s ≠ 0) || decide (Css.paddingBottom cb s ≠ 0) ||
  decide (Css.paddingLeft cb s ≠ 0) || decide (Css.borderTop cb s ≠ 0) || decide (Css.borderRight cb s ≠ 0) ||
  decide (Css.borderBottom cb s ≠ 0) || decide (Css.borderLeft cb s ≠ 0) || decide (Css.marginTop cb s ≠ 0) ||
  decide (Css.marginBottom cb s ≠ 0) || decide (Css.usedOrZero cb.inlineSize (s.values .marginLeft) ≠ 0) ||
  decide (Css.usedOrZero cb.inlineSize (s.values .marginRight) ≠ 0)

mutual
/-- It has text in it, or boxes with margins, borders or padding: a line without them does not exist for CSS (section 9.4.2). -/
def PageItem.counts (cb : ContainingBlock) : PageItem → Bool
  | .text _ => true
  | .box style _ _ items => Decorated cb style || itemsCount cb items
  | .line items => itemsCount cb items
/-- See `PageItem.counts`. -/
def itemsCount (cb : ContainingBlock) : List PageItem → Bool
  | [] => false
  | i :: is => i.counts cb || itemsCount cb is
end

/-- It is a line that exists for CSS. -/
def PageItem.isLine (cb : ContainingBlock) : PageItem → Bool
  | .line items => itemsCount cb items
  | .text _ => false
  | .box _ _ _ _ => false

/-- It is a box. -/
def PageItem.isBox : PageItem → Bool
  | .box _ _ _ _ => true
  | .text _ => false
  | .line _ => false

/-- The element is a block formatting context of its own: margins do not collapse with those of what is in it. -/
def isFlowRoot (s : ComputedValues) : Bool :=
  match displayOf s with
  | .generatingBox _ .flowRoot => true
  | _ => false

/-- What is between the top of a box and what is in it. -/
def stepsAbove (apart : Bool) (cb : ContainingBlock) (s : ComputedValues) : List DownStep :=
  if apart || decide (Css.paddingTop cb s + Css.borderTop cb s ≠ 0) then [.part (Css.paddingTop cb s + Css.borderTop cb s)] else []

/-- What is between what is in a box and its bottom. -/
def stepsBelow (apart : Bool) (cb : ContainingBlock) (s : ComputedValues) : List DownStep :=
  if apart || decide (Css.paddingBottom cb s + Css.borderBottom cb s ≠ 0) then [.part (Css.paddingBottom cb s + Css.borderBottom cb s)] else []

mutual
/-- What is met on the way down a block: its top margin, its border and padding, what is in it, its padding and border again and its
bottom margin. If its height is set, it is this high whatever is in it, but the margins at the beginning of what is in it still collapse
with its own; it is nothing at all if it is zero and nothing is in it. The box of the root element is apart from what is in it. -/
def PageItem.steps (root : Bool) (cb : ContainingBlock) : PageItem → List DownStep
  | .text _ => []
  | .line _ => []
  | .box style _ content items =>
    let apart := root || isFlowRoot style
    .margin (Css.marginTop cb style) :: (stepsAbove apart cb style ++
      (match Css.height cb style with
        | .auto =>
          if items.any (PageItem.isLine (Css.inner cb style)) then [.part content.height] else itemsSteps (Css.inner cb style) items
        | .length height =>
          (if (stepsAbove apart cb style).isEmpty then leadingMargins (itemsSteps (Css.inner cb style) items) else []) ++
          (if height = 0 ∧ items.all (fun i => !i.isLine (Css.inner cb style) && !i.isBox) then [] else [.part height])) ++
      stepsBelow apart cb style ++ [.margin (Css.marginBottom cb style)])
/-- See `PageItem.steps`. -/
def itemsSteps (cb : ContainingBlock) : List PageItem → List DownStep
  | [] => []
  | i :: is => i.steps false cb ++ itemsSteps cb is
end

mutual
/-- The block, and all blocks in it, are where CSS has them: `before` are the steps from `origin` to it. Its border is as far down as
these steps and the margins at its top lead, and it reaches as far down as the steps to its last part lead. Blocks of which the margins
at the top and at the bottom collapse have no height and are not asked for. Relative positioning moves a block with what is in it. -/
def PageItem.Settled (root : Bool) (cb : ContainingBlock) (origin : Rat) (before : List DownStep) : PageItem → Prop
  | .text _ => True
  | .line _ => True
  | .box style border content items =>
    let apart := root || isFlowRoot style
    let origin := origin + Css.relativeShift cb style
    let steps := PageItem.steps root cb (.box style border content items)
    content.top = border.top + (Css.paddingTop cb style + Css.borderTop cb style) ∧
    (steps.all DownStep.isMargin = false →
      border.top = origin + descend [] (before ++ leadingMargins steps) ∧
      border.top + border.height = origin + descend [] (before ++ withoutTrailing steps)) ∧
    match Css.height cb style with
    | .auto => itemsSettled (Css.inner cb style) origin (before ++ .margin (Css.marginTop cb style) :: stepsAbove apart cb style) items
    | .length _ =>
      itemsSettled (Css.inner cb style)
        (content.top - if (stepsAbove apart cb style).isEmpty then descend [] (leadingMargins (itemsSteps (Css.inner cb style) items)) else 0)
        [] items
/-- See `PageItem.Settled`. -/
def itemsSettled (cb : ContainingBlock) (origin : Rat) (before : List DownStep) : List PageItem → Prop
  | [] => True
  | i :: is => i.Settled false cb origin before ∧ itemsSettled cb origin (before ++ i.steps false cb) is
end

mutual
/-- Every line has text on it. -/
def PageItem.Written : PageItem → Prop
  | .text _ => True
  | .line items => itemTexts items ≠ []
  | .box _ _ _ items => itemsWritten items
/-- See `PageItem.Written`. -/
def itemsWritten : List PageItem → Prop
  | [] => True
  | i :: is => i.Written ∧ itemsWritten is
end

mutual
/-- No block without contents has a height that is set to zero. -/
def PageItem.NotFlat (cb : ContainingBlock) : PageItem → Prop
  | .text _ => True
  | .line _ => True
  | .box style _ _ items => (Css.height cb style = .length 0 → items ≠ []) ∧ itemsNotFlat (Css.inner cb style) items
/-- See `PageItem.NotFlat`. -/
def itemsNotFlat (cb : ContainingBlock) : List PageItem → Prop
  | [] => True
  | i :: is => i.NotFlat cb ∧ itemsNotFlat cb is
end

/-! ### Which blocks there are -/

/-- A block and the blocks in it. -/
inductive Outline where
  | block (style : ComputedValues) (inner : List Outline)

mutual
/-- The blocks in flow that an element makes. Those in inline elements and in elements with `display: contents` belong to the block around them. -/
def StyledNode.outline : StyledNode → List Outline
  | .ignored => []
  | .text _ => []
  | .element style children =>
    match displayOf style with
    | .none => []
    | .contents => nodesOutline children
    | .generatingBox .inline _ => nodesOutline children
    | .generatingBox .block _ => if positionOf style = .absolute ∨ floatOf style ≠ .none then [] else [.block style (nodesOutline children)]
/-- See `StyledNode.outline`. -/
def nodesOutline : List StyledNode → List Outline
  | [] => []
  | n :: ns => n.outline ++ nodesOutline ns
end

/-- They are lines. -/
def AllLines (items : List PageItem) : Prop := ∀ i ∈ items, ∃ inner, i = .line inner

/-- The boxes of these blocks are on the page, in this order and nested like this, and there are no others but anonymous ones, which have
nothing in them but lines. -/
inductive Drawn : List PageItem → List Outline → Prop
  | nil : Drawn [] []
  | line {items rest outline} : Drawn rest outline → Drawn (.line items :: rest) outline
  | anonymous {parent border content items rest outline} : AllLines items → Drawn rest outline →
      Drawn (.box (ComputedValues.anonymousInheritingFrom (some parent)) border content items :: rest) outline
  | box {style border content items inner rest outline} : Drawn items inner → Drawn rest outline →
      Drawn (.box style border content items :: rest) (.block style inner :: outline)

end Verif.Layout
