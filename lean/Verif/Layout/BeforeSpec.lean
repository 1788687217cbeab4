/- What comes before a change in a document: the specification of C94. -/
import Verif.Layout.WrapSpec
import Verif.Layout.ShownSpec
namespace Verif.Layout
open Verif.Style Verif.Text

/-- `AgreeUntil nodes nodes' before`: two lists of contents of a block begin in the same way, and `before` is the text up to where they
differ. They differ from the beginning of a block on, or one of them ends there, or they differ within a block that is in both of them. If
one of them ends there, nothing that comes before is computed from the height of the block around it. -/
inductive AgreeUntil : List StyledNode → List StyledNode → List Nat → Prop
  | here {pre a b} : BeginsWithBlock a → BeginsWithBlock b → AgreeUntil (pre ++ a) (pre ++ b) (visibleTexts pre)
  | added {pre b} : BeginsWithBlock b → nodesUnmeasured pre → AgreeUntil pre (pre ++ b) (visibleTexts pre)
  | removed {pre a} : BeginsWithBlock a → nodesUnmeasured pre → AgreeUntil (pre ++ a) pre (visibleTexts pre)
  | inside {pre s children children' a b before} : BlockInFlow s → AgreeUntil children children' before →
      AgreeUntil (pre ++ .element s children :: a) (pre ++ .element s children' :: b) (visibleTexts pre ++ before)

/-- `Appended nodes nodes'`: the contents of a block, and the same with something added at the end of it, or at the end of the block that
comes last in it, at any depth. What is added at the end begins with a block. The blocks to whose contents something is added have no
background, and what is in them is not computed from the height of the block around it. -/
inductive Appended : List StyledNode → List StyledNode → Prop
  | here {pre b} : BeginsWithBlock b → nodesUnmeasured pre → Appended pre (pre ++ b)
  | inside {pre s children children' b} : BlockInFlow s → (backgroundOf s).alpha = 0 → Appended children children' →
      Appended (pre ++ [.element s children]) (pre ++ .element s children' :: b)

/-- An element in this style is in flow: it is neither absolutely positioned nor floating. -/
def InFlowStyle (s : ComputedValues) : Prop := positionOf s ≠ .absolute ∧ floatOf s = .none

/-- It is text. -/
def Shape.isText : Shape → Bool
  | .rect _ _ _ => false
  | .glyphs _ _ _ _ => true

/-- Glyphs one by one: each begins where the one before it ends. -/
def eachGlyph {Err : Type} (F : FontApi Rat Err) (size : Rat) (color : RGBA) : Vec2 Rat → List Nat → List Shape
  | _, [] => []
  | baseline, g :: glyphs => .glyphs [g] size baseline color ::
      eachGlyph F size color ⟨baseline.inline + size * (match F.glyphWidth g with | .ok w => w | .error _ => 0), baseline.block⟩ glyphs

/-- The glyphs of a text, each with its place; nothing of a rectangle. -/
def Shape.each {Err : Type} (F : FontApi Rat Err) : Shape → List Shape
  | .rect _ _ _ => []
  | .glyphs ids size baseline color => eachGlyph F size color baseline ids

/-- An element in this style is not an inline element that is moved by a percentage of the height of the block around it. -/
def NotByHeight (s : ComputedValues) : Prop :=
  displayOf s = .generatingBox .inline .flow →
    positionOf s = .static ∨ ((∀ p, Css.top s ≠ .percentage p) ∧ ∀ p, Css.bottom s ≠ .percentage p)

/-- `SameUntil nodes nodes' before`: two lists of nodes are the same up to some point, and `before` is the text up to there. That can be
anywhere: between two nodes, in the middle of a text, or within an element that is displayed and has the same style in both. -/
inductive SameUntil : List StyledNode → List StyledNode → List Nat → Prop
  | here {pre a b} : SameUntil (pre ++ a) (pre ++ b) (visibleTexts pre)
  | text {pre t u u' a b} : SameUntil (pre ++ .text (t ++ u) :: a) (pre ++ .text (t ++ u') :: b) (visibleTexts pre ++ t)
  | inside {pre s children children' a b before} : displayOf s ≠ .none → SameUntil children children' before →
      SameUntil (pre ++ .element s children :: a) (pre ++ .element s children' :: b) (visibleTexts pre ++ before)

/-- A text up to the white space that comes last in it. -/
def beforeLastWord : List Nat → List Nat
  | [] => []
  | c :: text => if (c :: text).any isAsciiWhitespace then c :: beforeLastWord text else []

end Verif.Layout
