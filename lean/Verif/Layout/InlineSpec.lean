/- Inline formatting contexts as a sequence of lines of text, without nesting: the specification of C44. -/
import Verif.Layout.FlowSpec
import Verif.Text.ShapedTheorems
namespace Verif.Layout
open Verif.Style Verif.Text

variable {Err : Type} (F : FontApi Rat Err)

/-! ### Line breaking of one text -/

/-- The text is at most `available` wide. -/
def Fits (fontSize available : Rat) (text : List Nat) : Prop :=
  ∃ glyphs width, IsShaped F text glyphs width ∧ fontSize * width ≤ available

/-- The text is more than `available` wide. -/
def Overfull (fontSize available : Rat) (text : List Nat) : Prop :=
  ∃ glyphs width, IsShaped F text glyphs width ∧ available < fontSize * width

/-- The text up to its first space. -/
def firstWord (text : List Nat) : List Nat := text.takeWhile (· ≠ 32)

/-- A line that can be broken is not too wide. -/
def LineOk (fontSize available : Rat) (line : List Nat) : Prop := Fits F fontSize available line ∨ 32 ∉ line

/-- The next word does not fit on the line, or the line is already too wide. -/
def BreakNeeded (fontSize available : Rat) (line rest : List Nat) : Prop :=
  Overfull F fontSize available line ∨ Overfull F fontSize available (line ++ 32 :: firstWord rest)

/-- The lines of a text: it is broken at spaces, which are dropped, and only where necessary. The space at the end of the text is
dropped too, without a new line, if it does not fit. -/
inductive IsBroken (fontSize available : Rat) : List Nat → List (List Nat) → Prop
  | whole {line} : LineOk F fontSize available line → IsBroken fontSize available line [line]
  | dropped {line} : LineOk F fontSize available line → BreakNeeded F fontSize available line [] →
      IsBroken fontSize available (line ++ [32]) [line]
  | broken {line rest lines} : LineOk F fontSize available line → BreakNeeded F fontSize available line rest → rest ≠ [] →
      IsBroken fontSize available rest lines → IsBroken fontSize available (line ++ 32 :: rest) (line :: lines)

/-! ### Lines of text -/

/-- A piece of text on a line: its absolute inline position, and its size. -/
structure PlacedText where
  style : ComputedValues
  glyphs : List Nat
  x : Rat
  width : Rat
  height : Rat

/-- A line: its block position and its height. -/
structure Line where
  top : Rat
  height : Rat
  texts : List PlacedText

/-- The state of the layout: the lines that are complete, the current line, where it ends, its block position, and the
absolutely positioned boxes with their static positions. -/
structure FlatState where
  lines : List Line
  current : List PlacedText
  position : Rat
  top : Rat
  absolutes : List (AbsolutelyPositionedBox × Vec2 Rat)

/-- Nothing. -/
def FlatState.empty : FlatState := ⟨[], [], 0, 0, []⟩

/-- What is at the left of an inline box. -/
def Css.leftEdge (cb : ContainingBlock) (s : ComputedValues) : Rat :=
  Css.paddingLeft cb s + Css.borderLeft cb s + Css.usedOrZero cb.inlineSize (s.values .marginLeft)

/-- What is at the right of an inline box. -/
def Css.rightEdge (cb : ContainingBlock) (s : ComputedValues) : Rat :=
  Css.paddingRight cb s + Css.borderRight cb s + Css.usedOrZero cb.inlineSize (s.values .marginRight)

/-- What is above and below an inline box. -/
def Css.verticalEdges (cb : ContainingBlock) (s : ComputedValues) : Rat :=
  (Css.paddingTop cb s + Css.paddingBottom cb s) + (Css.borderTop cb s + Css.borderBottom cb s) +
    (Css.marginTop cb s + Css.marginBottom cb s)

/-- Move to the right. -/
def FlatState.advance (s : FlatState) (d : Rat) : FlatState := { s with position := s.position + d }

/-- Add text to the current line. -/
def FlatState.push (s : FlatState) (style : ComputedValues) (glyphs : List Nat) (width : Rat) : FlatState :=
  { s with
    current := s.current ++ [⟨style, glyphs, s.position, fontSizeOf style * width, fontSizeOf style * (12 / 10)⟩]
    position := s.position + fontSizeOf style * width }

/-- End the current line. -/
def FlatState.newLine (s : FlatState) (height : Rat) : FlatState :=
  { s with lines := s.lines ++ [⟨s.top, height, s.current⟩], current := [], position := 0, top := s.top + height }

/-- The line is as high as all its texts, if `tall`. -/
def FlatState.HighEnough (s : FlatState) (tall : Prop) (height : Rat) : Prop := tall → ∀ t ∈ s.current, t.height ≤ height

/-- The lines of a text are laid out: the first one at the end of the current line. -/
inductive TextLaid (tall : Prop) (style : ComputedValues) : List (List Nat) → FlatState → FlatState → Prop
  | last {line glyphs width s} : IsShaped F line glyphs width → TextLaid tall style [line] s (s.push style glyphs width)
  | line {line glyphs width lines s height s'} : IsShaped F line glyphs width → lines ≠ [] →
      (s.push style glyphs width).HighEnough tall height →
      TextLaid tall style lines ((s.push style glyphs width).newLine height) s' → TextLaid tall style (line :: lines) s s'

/-- The inline-level boxes are laid out in order. -/
inductive Laid (tall : Prop) (cb : ContainingBlock) : List InlineLevelBox → FlatState → FlatState → Prop
  | nil {s} : Laid tall cb [] s s
  | text {style text lines rest s s' s''} :
      IsBroken F (fontSizeOf style) (cb.inlineSize - s.position) text lines → TextLaid F tall style lines s s' →
      Laid tall cb rest s' s'' → Laid tall cb (.textRun style text :: rest) s s''
  | box {style first last children rest s s' s''} :
      Laid tall cb children (if first then s.advance (Css.leftEdge cb style) else s) s' →
      Laid tall cb rest (if last then s'.advance (Css.rightEdge cb style) else s') s'' →
      Laid tall cb (.inlineBox style first last children :: rest) s s''
  | float {style floats contents rest s s'} :
      Laid tall cb rest s s' → Laid tall cb (.outOfFlowFloat style floats contents :: rest) s s'
  | absolute {style floats contents rest s s'} {outside : DisplayOutside} {inside : DisplayInside} :
      style.specifiedDisplay = .generatingBox outside inside →
      Laid tall cb rest { s with absolutes := s.absolutes ++
        [(⟨style, ⟨contents, floats⟩⟩, ⟨if outside = .inline then s.position else 0, s.top⟩)] } s' →
      Laid tall cb (.outOfFlowAbsolutelyPositioned style floats contents :: rest) s s'

/-! ### What the fragments say -/

mutual
/-- The texts in a fragment, with absolute inline positions. `origin` is the inline position of the coordinate system of the
fragment. -/
def Fragment.texts (origin : Rat) : Fragment → List PlacedText
  | .box info children => textsOf (origin + info.contentRect.startCorner.inline) children
  | .anonymous rect children _ => textsOf (origin + rect.startCorner.inline) children
  | .text style rect text => [⟨style, text.glyphs, origin + rect.startCorner.inline, rect.size.inline, rect.size.block⟩]
/-- See `Fragment.texts`. -/
def textsOf (origin : Rat) : List Fragment → List PlacedText
  | [] => []
  | f :: fs => f.texts origin ++ textsOf origin fs
end

/-- The fragment is that of a line: as wide as the containing block. -/
def IsLine (cb : ContainingBlock) (line : Line) (f : Fragment) : Prop :=
  ∃ children, f = .anonymous ⟨⟨0, line.top⟩, ⟨cb.inlineSize, line.height⟩⟩ children cb.mode ∧ textsOf 0 children = line.texts

mutual
/-- All the inline boxes have this property. -/
def InlineLevelBox.All (P : ComputedValues → Prop) : InlineLevelBox → Prop
  | .inlineBox style _ _ children => P style ∧ inlineAll P children
  | .textRun _ _ => True
  | .outOfFlowAbsolutelyPositioned _ _ _ => True
  | .outOfFlowFloat _ _ _ => True
/-- See `InlineLevelBox.All`. -/
def inlineAll (P : ComputedValues → Prop) : List InlineLevelBox → Prop
  | [] => True
  | b :: bs => b.All P ∧ inlineAll P bs
end

end Verif.Layout
