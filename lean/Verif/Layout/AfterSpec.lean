/- What comes after a change in a document: the specification of C99. -/
import Verif.Layout.BeforeSpec
namespace Verif.Layout
open Verif.Style Verif.Text

/-- `AgreeAfter Q nodes nodes' after`: two lists of contents of a block end in the same way, and `after` is the text from where they are
the same on. That is from the beginning of a block on, or from the beginning of a block on that is within another block, at any depth. The
blocks around it are in both of them, their heights are `auto` and their styles are in `Q`. -/
inductive AgreeAfter (Q : ComputedValues → Prop) : List StyledNode → List StyledNode → List Nat → Prop
  | here {a b post} : BeginsWithBlock post → AgreeAfter Q (a ++ post) (b ++ post) (visibleTexts post)
  | inside {a b s children children' post after} : BlockInFlow s → (s.values .height : LengthOrPercentageOrAuto) = .auto → Q s →
      AgreeAfter Q children children' after →
      AgreeAfter Q (a ++ .element s children :: post) (b ++ .element s children' :: post) (after ++ visibleTexts post)

/-- The same further down. -/
def Shape.down (distance : Rat) : Shape → Shape
  | .rect corner size color => .rect ⟨corner.inline, corner.block + distance⟩ size color
  | .glyphs ids fontSize baseline color => .glyphs ids fontSize ⟨baseline.inline, baseline.block + distance⟩ color

end Verif.Layout
