/- Model of `victor/src/style/values/`: CSS values, parsed from tokens. -/
import Mathlib.Algebra.Order.Field.Rat
namespace Verif.Style

/-- cssparser's `Token`, as far as this code looks at it; comments and white space are skipped by cssparser's `next`.
Numbers are exact (`f32` in the code). `other` stands for every other token, a function or a block with its contents being
one token; colours are read by cssparser itself. -/
inductive Token where
  | ident (s : String)
  | dimension (value : Rat) (unit : String)
  | number (value : Rat)
  | percentage (unitValue : Rat)
  | delim (c : Char)
  | other (s : String)
deriving DecidableEq, Repr

/-- values/mod.rs 18-20, `Parse::parse`: what was parsed and the tokens that remain, or an error. `parser.try(f)` goes back
to the tokens it started with when `f` fails, so it is `f` itself with the caller keeping its tokens. -/
abbrev Parser (α : Type) := List Token → Option (α × List Token)

/-- cssparser's `expect_ident`. -/
def expectIdent : Parser String
  | .ident s :: rest => some (s, rest)
  | _ => none

/-- cssparser's `expect_percentage`. -/
def expectPercentage : Parser Rat
  | .percentage v :: rest => some (v, rest)
  | _ => none

/-- `str::to_ascii_lowercase`, as used by `match_ignore_ascii_case!` and `ascii_case_insensitive_phf_map!`. -/
def asciiLower (s : String) : String := String.ofList (s.toList.map Char.toLower)

/-- cssparser's `parse_important`: `!` and `important` in any case. -/
def parseImportant : Parser Unit
  | .delim '!' :: .ident s :: rest => if asciiLower s = "important" then some ((), rest) else none
  | _ => none

/-- cssparser's `RGBA`. -/
structure RGBA where
  red : Nat
  green : Nat
  blue : Nat
  alpha : Nat
deriving DecidableEq, Repr

/-- cssparser's `Color`. -/
inductive Color where
  | currentColor
  | rgba (c : RGBA)
deriving DecidableEq, Repr

/-- cssparser's reading of colours, a parameter: a colour is one identifier, or one hash or function with its arguments. -/
structure Colors where
  keyword : String → Option Color
  other : String → Option Color

/-- values/color.rs 6-10: cssparser's `Color::parse`. -/
def Color.parse (colors : Colors) : Parser Color
  | .ident s :: rest => (colors.keyword s).map (·, rest)
  | .other s :: rest => (colors.other s).map (·, rest)
  | _ => none

/-- values/mod.rs 47-52, `CssWideKeyword`. -/
inductive CssWideKeyword where
  | inherit
  | initial
  | unset
deriving DecidableEq, Repr

/-- The keyword part of derive(Parse) (proc-macros/src/style.rs 158-171): the identifier is compared as it is. -/
def parseKeyword {α : Type} (keywords : List (String × α)) : Parser α := fun tokens =>
  match expectIdent tokens with
  | none => none
  | some (s, rest) =>
    match keywords.lookup s with
    | some a => some (a, rest)
    | none => none

/-- values/mod.rs 47 derive(Parse). -/
def CssWideKeyword.parse : Parser CssWideKeyword :=
  parseKeyword [("inherit", .inherit), ("initial", .initial), ("unset", .unset)]

/-- values/length.rs 9-11 and 21-25, `SpecifiedLength`. A `Length` is its number of px. -/
inductive SpecifiedLength where
  | absolute (px : Rat)
  | em (value : Rat)
deriving DecidableEq, Repr

/-- values/length.rs 59-79. -/
def SpecifiedLength.parse : Parser SpecifiedLength
  | .dimension value unit :: rest =>
    if asciiLower unit = "px" then some (.absolute value, rest)
    else if asciiLower unit = "em" then some (.em value, rest)
    else none
  | .number value :: rest => if value = 0 then some (.absolute 0, rest) else none
  | _ => none

/-- values/length.rs 28-31, `SpecifiedLengthOrPercentage`. -/
inductive SpecifiedLengthOrPercentage where
  | length (l : SpecifiedLength)
  | percentage (unitValue : Rat)
deriving DecidableEq, Repr

/-- values/length.rs 27 derive(Parse): each variant is tried in order. -/
def SpecifiedLengthOrPercentage.parse : Parser SpecifiedLengthOrPercentage := fun tokens =>
  match SpecifiedLength.parse tokens with
  | some (l, rest) => some (.length l, rest)
  | none =>
    match expectPercentage tokens with
    | some (p, rest) => some (.percentage p, rest)
    | none => none

/-- values/length.rs 34-37, `LengthOrPercentage`. -/
inductive LengthOrPercentage where
  | length (px : Rat)
  | percentage (unitValue : Rat)
deriving DecidableEq, Repr

/-- values/length.rs 40-44, `SpecifiedLengthOrPercentageOrAuto`. -/
inductive SpecifiedLengthOrPercentageOrAuto where
  | length (l : SpecifiedLength)
  | percentage (unitValue : Rat)
  | auto
deriving DecidableEq, Repr

/-- values/length.rs 39 derive(Parse). -/
def SpecifiedLengthOrPercentageOrAuto.parse : Parser SpecifiedLengthOrPercentageOrAuto := fun tokens =>
  match SpecifiedLength.parse tokens with
  | some (l, rest) => some (.length l, rest)
  | none =>
    match expectPercentage tokens with
    | some (p, rest) => some (.percentage p, rest)
    | none => parseKeyword [("auto", .auto)] tokens

/-- values/length.rs 47-51, `LengthOrPercentageOrAuto`. -/
inductive LengthOrPercentageOrAuto where
  | length (px : Rat)
  | percentage (unitValue : Rat)
  | auto
deriving DecidableEq, Repr

/-- values/length.rs 85-92, `Length::from_specified`: relative to the font size of the element itself. -/
def SpecifiedLength.compute (fontSize : Rat) : SpecifiedLength → Rat
  | .absolute px => px
  | .em value => fontSize * value

/-- values/length.rs 33 derive(FromSpecified). -/
def SpecifiedLengthOrPercentage.compute (fontSize : Rat) : SpecifiedLengthOrPercentage → LengthOrPercentage
  | .length l => .length (l.compute fontSize)
  | .percentage p => .percentage p

/-- values/length.rs 46 derive(FromSpecified). -/
def SpecifiedLengthOrPercentageOrAuto.compute (fontSize : Rat) : SpecifiedLengthOrPercentageOrAuto → LengthOrPercentageOrAuto
  | .length l => .length (l.compute fontSize)
  | .percentage p => .percentage p
  | .auto => .auto

/-- values/border.rs 6-10, `LineStyle`. -/
inductive LineStyle where
  | none
  | solid
deriving DecidableEq, Repr

/-- values/border.rs 6 derive(Parse). -/
def LineStyle.parse : Parser LineStyle := parseKeyword [("none", .none), ("solid", .solid)]

/-- values/border.rs 12-21 and 37-49: `SpecifiedLineWidth` is a `SpecifiedLengthOrPercentage`; the variant with a field is
tried first. -/
def parseLineWidth : Parser SpecifiedLengthOrPercentage := fun tokens =>
  match SpecifiedLengthOrPercentage.parse tokens with
  | some r => some r
  | none => parseKeyword [("thin", .length (.absolute 1)), ("medium", .length (.absolute 3)),
      ("thick", .length (.absolute 5))] tokens

/-- values/box_.rs 32-41, `DisplayOutside` and `DisplayInside`. -/
inductive DisplayOutside where
  | inline
  | block
deriving DecidableEq, Repr

inductive DisplayInside where
  | flow
  | flowRoot
deriving DecidableEq, Repr

/-- values/box_.rs 8-29, `Display` and `DisplayGeneratingBox`. -/
inductive Display where
  | none
  | contents
  | generatingBox (outside : DisplayOutside) (inside : DisplayInside)
deriving DecidableEq, Repr

/-- values/box_.rs 78-108. -/
def Display.parse : Parser Display :=
  parseKeyword [("none", .none), ("contents", .contents), ("block", .generatingBox .block .flow),
    ("flow-root", .generatingBox .block .flowRoot), ("inline", .generatingBox .inline .flow)]

/-- values/box_.rs 45-48, `Display::INITIAL`. -/
def Display.initial : Display := .generatingBox .inline .flow

/-- values/box_.rs 51-64, `blockify`. -/
def Display.blockify : Display → Display
  | .generatingBox _ inside => .generatingBox .block inside
  | other => other

/-- values/box_.rs 111-116, `Float`. -/
inductive Float where
  | none
  | left
  | right
deriving DecidableEq, Repr

/-- values/box_.rs 111 derive(Parse). -/
def Float.parse : Parser Float := parseKeyword [("none", .none), ("left", .left), ("right", .right)]

/-- values/box_.rs 119-124, `is_floating`. -/
def Float.isFloating : Float → Bool
  | .none => false
  | .left | .right => true

/-- values/box_.rs 128-133, `Position`. -/
inductive Position where
  | static
  | relative
  | absolute
deriving DecidableEq, Repr

/-- values/box_.rs 128 derive(Parse). -/
def Position.parse : Parser Position :=
  parseKeyword [("static", .static), ("relative", .relative), ("absolute", .absolute)]

/-- values/box_.rs 136-138. -/
def Position.isRelativelyPositioned (p : Position) : Bool := decide (p = .relative)
/-- values/box_.rs 140-142. -/
def Position.isAbsolutelyPositioned (p : Position) : Bool := decide (p = .absolute)

/-- values/generic.rs 5-10, `FourSides`. -/
structure FourSides (α : Type) where
  top : α
  left : α
  bottom : α
  right : α
deriving DecidableEq, Repr

/-- values/generic.rs 16-58, `FourSides::parse`. -/
def FourSides.parse {α : Type} (p : Parser α) : Parser (FourSides α) := fun tokens =>
  match p tokens with
  | none => none
  | some (top, tokens) =>
    match p tokens with
    | none => some (⟨top, top, top, top⟩, tokens)
    | some (left, tokens) =>
      match p tokens with
      | none => some (⟨top, left, top, left⟩, tokens)
      | some (bottom, tokens) =>
        match p tokens with
        | none => some (⟨top, left, bottom, left⟩, tokens)
        | some (right, tokens) => some (⟨top, left, bottom, right⟩, tokens)

/-- values/border.rs 87-92, `BorderSide`. -/
structure BorderSide where
  style : Option LineStyle := none
  color : Option Color := none
  width : Option SpecifiedLengthOrPercentage := none
deriving DecidableEq, Repr

/-- values/border.rs 59-70 with 81-85: one round of the loop of `parse_one_or_more!`; `none` is the `break`. -/
def BorderSide.step (colors : Colors) (values : BorderSide) (tokens : List Token) : Option (BorderSide × List Token) :=
  let tryWidth : Option (BorderSide × List Token) :=
    match values.width with
    | some _ => none
    | none =>
      match parseLineWidth tokens with
      | some (w, rest) => some ({ values with width := some w }, rest)
      | none => none
  let tryColor : Option (BorderSide × List Token) :=
    match values.color with
    | some _ => tryWidth
    | none =>
      match Color.parse colors tokens with
      | some (c, rest) => some ({ values with color := some c }, rest)
      | none => tryWidth
  match values.style with
  | some _ => tryColor
  | none =>
    match LineStyle.parse tokens with
    | some (s, rest) => some ({ values with style := some s }, rest)
    | none => tryColor

/-- values/border.rs 57-70: the loop. Each round fills one of three fields, so there are at most three. -/
def BorderSide.loop (colors : Colors) : Nat → BorderSide → List Token → BorderSide × List Token
  | 0, values, tokens => (values, tokens)
  | n + 1, values, tokens =>
    match BorderSide.step colors values tokens with
    | none => (values, tokens)
    | some (values, tokens) => BorderSide.loop colors n values tokens

/-- values/border.rs 54-76, `BorderSide::parse`. -/
def BorderSide.parse (colors : Colors) : Parser BorderSide := fun tokens =>
  let (values, rest) := BorderSide.loop colors 3 {} tokens
  if values.style.isSome ∨ values.color.isSome ∨ values.width.isSome then some (values, rest) else none

end Verif.Style
