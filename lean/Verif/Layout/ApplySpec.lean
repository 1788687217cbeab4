/- Which properties apply to which elements: the specification of C107 and C108. -/
import Verif.Layout.Construct
namespace Verif.Layout
open Verif.Style Verif.Text

/-- The element is a part of lines, with what is in it. (CSS 2.1, 9.2.2; out of flow elements are blocks, 9.7.) -/
def inlineElement (s : ComputedValues) : Bool :=
  match displayOf s with
  | .generatingBox .inline _ => decide (positionOf s ≠ .absolute) && decide (floatOf s = .none)
  | _ => false

/-- The element has a box. -/
def hasBox (s : ComputedValues) : Bool :=
  match displayOf s with
  | .generatingBox _ _ => true
  | _ => false

/-- Anything but `none`. -/
def hasStyle : LineStyle → Bool
  | .none => false
  | _ => true

/-- The property has an effect on elements in this style: the lines "Applies to" of CSS 2.1.
Sizes do not apply to inline elements (10.2, 10.5), nor do vertical margins (8.3). Offsets apply only to positioned elements (9.3.2). A border
without a style is not there, and has no colour (8.5.3). Elements without a box have none of these. -/
def Css.applies (s : ComputedValues) : Longhand → Bool
  | .display => true
  | .color | .fontSize => decide (displayOf s ≠ .none)
  | .position | .float => hasBox s
  | .width | .height | .marginTop | .marginBottom => hasBox s && !inlineElement s
  | .top | .left | .bottom | .right => hasBox s && decide (positionOf s ≠ .static)
  | .borderTopColor => hasBox s && hasStyle (s.values .borderTopStyle)
  | .borderLeftColor => hasBox s && hasStyle (s.values .borderLeftStyle)
  | .borderBottomColor => hasBox s && hasStyle (s.values .borderBottomStyle)
  | .borderRightColor => hasBox s && hasStyle (s.values .borderRightStyle)
  | .marginLeft | .marginRight | .paddingTop | .paddingLeft | .paddingBottom | .paddingRight | .backgroundColor
  | .borderTopStyle | .borderLeftStyle | .borderBottomStyle | .borderRightStyle
  | .borderTopWidth | .borderLeftWidth | .borderBottomWidth | .borderRightWidth => hasBox s

/-- As `Css.applies`, but vertical margins also apply to inline elements. -/
def appliesHere (s : ComputedValues) : Longhand → Bool
  | .marginTop | .marginBottom => hasBox s
  | p => Css.applies s p

/-- The colours and the styles of borders. (The width of a border without style is zero in these styles, see C29.) -/
def BorderPaint : Longhand → Bool
  | .borderTopColor | .borderLeftColor | .borderBottomColor | .borderRightColor
  | .borderTopStyle | .borderLeftStyle | .borderBottomStyle | .borderRightStyle => true
  | _ => false

/-- All but the colours of borders without a style. -/
def seenBorders (s : ComputedValues) : Longhand → Bool
  | .borderTopColor => hasStyle (s.values .borderTopStyle)
  | .borderLeftColor => hasStyle (s.values .borderLeftStyle)
  | .borderBottomColor => hasStyle (s.values .borderBottomStyle)
  | .borderRightColor => hasStyle (s.values .borderRightStyle)
  | _ => true

/-- Two styles are the same where `A` says that it matters. -/
def SameWhere (A : ComputedValues → Longhand → Bool) (s s' : ComputedValues) : Prop :=
  (∀ p, A s p = true → s.values p = s'.values p) ∧ (hasBox s = true → s.specifiedDisplay = s'.specifiedDisplay)

mutual
/-- Nodes with styles that are the same where it matters. -/
def StyledNode.SameWhere (A : ComputedValues → Longhand → Bool) : StyledNode → StyledNode → Prop
  | .ignored, .ignored => True
  | .text t, .text t' => t = t'
  | .element s children, .element s' children' => Layout.SameWhere A s s' ∧ (displayOf s = .none ∨ nodesSameWhere A children children')
  | _, _ => False
/-- See `StyledNode.SameWhere`. -/
def nodesSameWhere (A : ComputedValues → Longhand → Bool) : List StyledNode → List StyledNode → Prop
  | [], [] => True
  | n :: ns, n' :: ns' => n.SameWhere A n' ∧ nodesSameWhere A ns ns'
  | _, _ => False
end

end Verif.Layout
