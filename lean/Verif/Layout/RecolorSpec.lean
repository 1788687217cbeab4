/- Documents that are the same but for the colours: the specification of C103. -/
import Verif.Layout.Construct
import Verif.Layout.PaintSpec
namespace Verif.Layout
open Verif.Style Verif.Text

/-- The properties whose values are colours. -/
def ColorProperty : Longhand → Bool
  | .color | .backgroundColor | .borderTopColor | .borderLeftColor | .borderBottomColor | .borderRightColor => true
  | _ => false

/-- Styles that differ at most in colours. -/
def SameButColors (s s' : ComputedValues) : Prop :=
  (∀ p, ColorProperty p = false → s.values p = s'.values p) ∧ s.specifiedDisplay = s'.specifiedDisplay

mutual
/-- Nodes that differ at most in the colours of the elements in them. -/
def StyledNode.Recolored : StyledNode → StyledNode → Prop
  | .ignored, .ignored => True
  | .text t, .text t' => t = t'
  | .element s children, .element s' children' => SameButColors s s' ∧ nodesRecolored children children'
  | _, _ => False
/-- See `StyledNode.Recolored`. -/
def nodesRecolored : List StyledNode → List StyledNode → Prop
  | [], [] => True
  | n :: ns, n' :: ns' => n.Recolored n' ∧ nodesRecolored ns ns'
  | _, _ => False
end

/-- Backgrounds of the same size at the same place, or the same glyphs in the same size at the same place. -/
inductive SameOutline : Shape → Shape → Prop
  | rect (corner size : Vec2 Rat) (color color' : RGBA) : SameOutline (.rect corner size color) (.rect corner size color')
  | glyphs (ids : List Nat) (fontSize : Rat) (baseline : Vec2 Rat) (color color' : RGBA) :
      SameOutline (.glyphs ids fontSize baseline color) (.glyphs ids fontSize baseline color')

/-- Everything but fully transparent backgrounds. -/
def Shape.isPainted : Shape → Bool
  | .rect _ _ color => color.alpha ≠ 0
  | .glyphs _ _ _ _ => true

/-- What is on two pages differs at most in colours, and in backgrounds that are fully transparent on one of them. -/
def SameButPaint (shapes shapes' : List Shape) : Prop :=
  ∃ all all', List.Forall₂ SameOutline all all' ∧ shapes = all.filter Shape.isPainted ∧ shapes' = all'.filter Shape.isPainted

end Verif.Layout
