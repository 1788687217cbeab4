/- Model of `victor/src/style/properties/`: the longhand properties, declarations and computed values. -/
import Verif.Style.Values
namespace Verif.Style

/-- properties/definitions.rs 7-61 with macros.rs 31-35: `LonghandId`. -/
inductive Longhand where
  | fontSize
  | color
  | position | float | display | top | left | bottom | right | width | height
  | marginTop | marginLeft | marginBottom | marginRight
  | paddingTop | paddingLeft | paddingBottom | paddingRight
  | borderTopColor | borderLeftColor | borderBottomColor | borderRightColor
  | borderTopStyle | borderLeftStyle | borderBottomStyle | borderRightStyle
  | borderTopWidth | borderLeftWidth | borderBottomWidth | borderRightWidth
  | backgroundColor
deriving DecidableEq, Repr

/-- The `$ValueType`s of properties/definitions.rs. -/
inductive Kind where
  | fontSize | rgba | position | float | display | lengthOrPercentageOrAuto | lengthOrPercentage | color | lineStyle | lineWidth
deriving DecidableEq, Repr

/-- properties/definitions.rs 7-61: the `$ValueType` of each property. -/
def Longhand.kind : Longhand → Kind
  | .fontSize => .fontSize
  | .color => .rgba
  | .position => .position
  | .float => .float
  | .display => .display
  | .top | .left | .bottom | .right | .width | .height => .lengthOrPercentageOrAuto
  | .marginTop | .marginLeft | .marginBottom | .marginRight => .lengthOrPercentageOrAuto
  | .paddingTop | .paddingLeft | .paddingBottom | .paddingRight => .lengthOrPercentage
  | .borderTopColor | .borderLeftColor | .borderBottomColor | .borderRightColor => .color
  | .borderTopStyle | .borderLeftStyle | .borderBottomStyle | .borderRightStyle => .lineStyle
  | .borderTopWidth | .borderLeftWidth | .borderBottomWidth | .borderRightWidth => .lineWidth
  | .backgroundColor => .color

/-- The computed values of each kind. A font size and a line width are their length. -/
abbrev Kind.Value : Kind → Type
  | .fontSize => Rat
  | .rgba => RGBA
  | .position => Position
  | .float => Float
  | .display => Display
  | .lengthOrPercentageOrAuto => LengthOrPercentageOrAuto
  | .lengthOrPercentage => LengthOrPercentage
  | .color => Color
  | .lineStyle => LineStyle
  | .lineWidth => LengthOrPercentage

/-- The `SpecifiedValue::SpecifiedValue` of each kind (values/mod.rs 32-34 and its implementations). -/
abbrev Kind.Specified : Kind → Type
  | .fontSize => SpecifiedLength
  | .rgba => Color
  | .position => Position
  | .float => Float
  | .display => Display
  | .lengthOrPercentageOrAuto => SpecifiedLengthOrPercentageOrAuto
  | .lengthOrPercentage => SpecifiedLengthOrPercentage
  | .color => Color
  | .lineStyle => LineStyle
  | .lineWidth => SpecifiedLengthOrPercentage

/-- properties/definitions.rs 8: `@early`. -/
def Longhand.isEarly (p : Longhand) : Bool := decide (p = .fontSize)

/-- properties/definitions.rs 7-61: whether the property is in an `inherited struct`. -/
def Longhand.isInherited : Longhand → Bool
  | .fontSize | .color => true
  | _ => false

/-- properties/macros.rs 164-184: the computed values, without `specified_display`. The fields of the style structs are the
values of a function; that the structs are shared (`Arc`, copied when written to) is not visible. -/
abbrev Values := (p : Longhand) → p.kind.Value

/-- Reading the field `font_size`. -/
def Values.fontSize (v : Values) : Rat := v .fontSize

/-- properties/definitions.rs 7-61: `initial = …`. -/
def initialValues : Values
  | .fontSize => (16 : Rat)
  | .color => (⟨0, 0, 0, 255⟩ : RGBA)
  | .position => Position.static
  | .float => Float.none
  | .display => Display.initial
  | .top | .left | .bottom | .right | .width | .height => LengthOrPercentageOrAuto.auto
  | .marginTop | .marginLeft | .marginBottom | .marginRight => LengthOrPercentageOrAuto.length 0
  | .paddingTop | .paddingLeft | .paddingBottom | .paddingRight => LengthOrPercentage.length 0
  | .borderTopColor | .borderLeftColor | .borderBottomColor | .borderRightColor => Color.currentColor
  | .borderTopStyle | .borderLeftStyle | .borderBottomStyle | .borderRightStyle => LineStyle.none
  | .borderTopWidth | .borderLeftWidth | .borderBottomWidth | .borderRightWidth => LengthOrPercentage.length 3
  | .backgroundColor => Color.rgba ⟨0, 0, 0, 0⟩

/-- Assignment to a field. -/
def Values.set (v : Values) (p : Longhand) (x : p.kind.Value) : Values :=
  fun q => if h : p = q then h ▸ x else v q

/-- properties/macros.rs 96-101, `LonghandDeclaration`. -/
inductive Declaration where
  | value (p : Longhand) (v : p.kind.Specified)
  | cssWide (p : Longhand) (keyword : CssWideKeyword)

/-- The property of a declaration. -/
def Declaration.longhand : Declaration → Longhand
  | .value p _ => p
  | .cssWide p _ => p

/-- properties/macros.rs 37-65, `cascade_css_wide_keyword_into`. -/
def cascadeCssWide (p : Longhand) (keyword : CssWideKeyword) (computed inherited : Values) : Values :=
  let isInitial := match keyword with
    | .initial => true
    | .inherit => false
    | .unset => !p.isInherited
  computed.set p (if isInitial then initialValues p else inherited p)

/-- values/fonts.rs 16-23, `FontSize::early_from_specified`. -/
def fontSizeFromSpecified (inherited : Values) : SpecifiedLength → Rat
  | .absolute px => px
  | .em value => inherited.fontSize * value

/-- The `FromSpecified::from_specified` of each kind: values/color.rs 15-37, length.rs 85-92, and the derived ones
(proc-macros/src/style.rs 3-113). `FontSize` only has the early one, which is not used in this phase. -/
def fromSpecified (computed inherited : Values) : (k : Kind) → k.Specified → k.Value
  | .fontSize, v => fontSizeFromSpecified inherited v
  | .rgba, .rgba c => c
  | .rgba, .currentColor => inherited .color
  | .position, v => v
  | .float, v => v
  | .display, v => v
  | .lengthOrPercentageOrAuto, v => v.compute computed.fontSize
  | .lengthOrPercentage, v => v.compute computed.fontSize
  | .color, v => v
  | .lineStyle, v => v
  | .lineWidth, v => v.compute computed.fontSize

/-- properties/macros.rs 103-131, `if_early_cascade_into`; `FontSize` is the only early property. -/
def Declaration.ifEarlyCascadeInto (d : Declaration) (computed inherited : Values) : Values :=
  match d with
  | .value .fontSize v => computed.set .fontSize (fontSizeFromSpecified inherited v)
  | .value _ _ => computed
  | .cssWide p keyword => if p.isEarly then cascadeCssWide p keyword computed inherited else computed

/-- properties/macros.rs 133-161, `if_late_cascade_into`. -/
def Declaration.ifLateCascadeInto (d : Declaration) (computed inherited : Values) : Values :=
  match d with
  | .value p v => if p.isEarly then computed else computed.set p (fromSpecified computed inherited p.kind v)
  | .cssWide p keyword => if p.isEarly then computed else cascadeCssWide p keyword computed inherited

/-- properties/mod.rs 118-122, `PerPhase<bool>`. -/
structure PerPhase where
  early : Bool := false
  late : Bool := false
deriving DecidableEq, Repr

/-- properties/mod.rs 129-132, `PropertyData`. -/
structure PropertyData where
  longhands : List Longhand
  parse : Parser (List Declaration × PerPhase)

/-- The `Parse::parse` of the specified values of each kind. -/
def parseKind (colors : Colors) : (k : Kind) → Parser k.Specified
  | .fontSize => SpecifiedLength.parse
  | .rgba => Color.parse colors
  | .position => Position.parse
  | .float => Float.parse
  | .display => Display.parse
  | .lengthOrPercentageOrAuto => SpecifiedLengthOrPercentageOrAuto.parse
  | .lengthOrPercentage => SpecifiedLengthOrPercentage.parse
  | .color => Color.parse colors
  | .lineStyle => LineStyle.parse
  | .lineWidth => parseLineWidth

/-- properties/macros.rs 257-269: the data of a longhand property. -/
def longhandData (colors : Colors) (p : Longhand) : PropertyData where
  longhands := [p]
  parse := fun tokens =>
    match parseKind colors p.kind tokens with
    | none => none
    | some (v, rest) => some (([.value p v], ⟨p.isEarly, !p.isEarly⟩), rest)

/-- properties/macros.rs 270-298: the data of a shorthand property, given the declarations it parses to. -/
def shorthandData (longhands : List Longhand) (parse : Parser (List Declaration)) : PropertyData where
  longhands := longhands
  parse := fun tokens =>
    match parse tokens with
    | none => none
    | some (ds, rest) => some ((ds, ⟨longhands.any Longhand.isEarly, longhands.any (!·.isEarly)⟩), rest)

/-- properties/mod.rs 149-159, `ValueOrInitial` for `Option`. -/
def valueOrInitial (p : Longhand) : Option p.kind.Specified → Declaration
  | some v => .value p v
  | none => .cssWide p .initial

/-- properties/definitions.rs 64-93: a shorthand with `FourSides`. -/
def fourSidesData (t l b r : Longhand) {α : Type} (p : Parser α) (ht : α → t.kind.Specified) (hl : α → l.kind.Specified)
    (hb : α → b.kind.Specified) (hr : α → r.kind.Specified) : PropertyData :=
  shorthandData [t, l, b, r] fun tokens =>
    match FourSides.parse p tokens with
    | none => none
    | some (s, rest) => some ([.value t (ht s.top), .value l (hl s.left), .value b (hb s.bottom), .value r (hr s.right)], rest)

/-- properties/definitions.rs 7-102 with macros.rs 255-300: all properties by name. -/
def propertyTable (colors : Colors) : List (String × PropertyData) := [
  ("font-size", longhandData colors .fontSize),
  ("color", longhandData colors .color),
  ("position", longhandData colors .position),
  ("float", longhandData colors .float),
  ("display", longhandData colors .display),
  ("top", longhandData colors .top),
  ("left", longhandData colors .left),
  ("bottom", longhandData colors .bottom),
  ("right", longhandData colors .right),
  ("width", longhandData colors .width),
  ("height", longhandData colors .height),
  ("margin-top", longhandData colors .marginTop),
  ("margin-left", longhandData colors .marginLeft),
  ("margin-bottom", longhandData colors .marginBottom),
  ("margin-right", longhandData colors .marginRight),
  ("padding-top", longhandData colors .paddingTop),
  ("padding-left", longhandData colors .paddingLeft),
  ("padding-bottom", longhandData colors .paddingBottom),
  ("padding-right", longhandData colors .paddingRight),
  ("border-top-color", longhandData colors .borderTopColor),
  ("border-left-color", longhandData colors .borderLeftColor),
  ("border-bottom-color", longhandData colors .borderBottomColor),
  ("border-color-right", longhandData colors .borderRightColor),
  ("border-top-style", longhandData colors .borderTopStyle),
  ("border-left-style", longhandData colors .borderLeftStyle),
  ("border-bottom-style", longhandData colors .borderBottomStyle),
  ("border-right-style", longhandData colors .borderRightStyle),
  ("border-top-width", longhandData colors .borderTopWidth),
  ("border-left-width", longhandData colors .borderLeftWidth),
  ("border-bottom-width", longhandData colors .borderBottomWidth),
  ("border-right-width", longhandData colors .borderRightWidth),
  ("background-color", longhandData colors .backgroundColor),
  ("margin", fourSidesData .marginTop .marginLeft .marginBottom .marginRight SpecifiedLengthOrPercentageOrAuto.parse id id id id),
  ("padding", fourSidesData .paddingTop .paddingLeft .paddingBottom .paddingRight SpecifiedLengthOrPercentage.parse id id id id),
  ("border-style", fourSidesData .borderTopStyle .borderLeftStyle .borderBottomStyle .borderRightStyle LineStyle.parse id id id id),
  ("border-color", fourSidesData .borderTopColor .borderLeftColor .borderBottomColor .borderRightColor (Color.parse colors) id id id id),
  ("border-width", fourSidesData .borderTopWidth .borderLeftWidth .borderBottomWidth .borderRightWidth parseLineWidth id id id id),
  ("border-top", shorthandData [.borderTopStyle, .borderTopColor, .borderTopWidth] fun tokens =>
    match BorderSide.parse colors tokens with
    | none => none
    | some (s, rest) => some ([valueOrInitial .borderTopStyle s.style, valueOrInitial .borderTopColor s.color,
        valueOrInitial .borderTopWidth s.width], rest)),
  ("background", shorthandData [.backgroundColor] fun tokens =>
    match Color.parse colors tokens with
    | none => none
    | some (c, rest) => some ([valueOrInitial .backgroundColor (some c)], rest))]

/-- properties/macros.rs 255-300, `property_data_by_name`, with the ASCII case folding of
`ascii_case_insensitive_phf_map!` (a cssparser macro). -/
def propertyDataByName (colors : Colors) (name : String) : Option PropertyData :=
  (propertyTable colors).lookup (asciiLower name)

end Verif.Style
