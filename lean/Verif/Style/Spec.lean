/- What CSS says, for the theorems about styles: which declarations a block holds, which declaration wins, and what value it
gives. Written from css-cascade-4, css-values and CSS 2; only the tables of property names and the value parsers of the model
are used, not its cascade. -/
import Verif.Style.Cascade
namespace Verif.Style.Spec
open Verif.Style

/-- A keyword all properties accept. -/
def IsCssWide : String → CssWideKeyword → Prop := fun s k =>
  s = "inherit" ∧ k = .inherit ∨ s = "initial" ∧ k = .initial ∨ s = "unset" ∧ k = .unset

/-- The value `value`, whole, sets the properties as in `ds` when it is given to the property `name`: a CSS-wide keyword
stands alone. -/
inductive SetsTo (colors : Colors) (name : String) (value : List Token) : List Declaration → Prop
  | cssWide (data : PropertyData) (s : String) (k : CssWideKeyword) :
      propertyDataByName colors name = some data → value = [.ident s] → IsCssWide s k →
      SetsTo colors name value (data.longhands.map (fun p => .cssWide p k))
  | value (data : PropertyData) (ds : List Declaration) (phase : PerPhase) :
      propertyDataByName colors name = some data → (∀ s k, value.head? = some (.ident s) → ¬ IsCssWide s k) →
      data.parse value = some ((ds, phase), []) → SetsTo colors name value ds

/-- The declaration `name: tokens` is valid; it sets the properties as in `ds`, and is important when `!important` ends it. -/
inductive Declares (colors : Colors) (name : String) : List Token → List Declaration → Bool → Prop
  | normal (value : List Token) (ds : List Declaration) : SetsTo colors name value ds → Declares colors name value ds false
  | important (value : List Token) (s : String) (ds : List Declaration) : asciiLower s = "important" →
      SetsTo colors name value ds → Declares colors name (value ++ [.delim '!', .ident s]) ds true

/-- An item of a block is a valid declaration. -/
def Valid (colors : Colors) : Item → Prop
  | .declaration name tokens => ∃ ds important, Declares colors name tokens ds important
  | .invalid => False

/-- The declarations of a block with their importance, in order: those of its valid items. -/
inductive Contents (colors : Colors) : List Item → List (Declaration × Bool) → Prop
  | nil : Contents colors [] []
  | valid (name : String) (tokens : List Token) (ds : List Declaration) (important : Bool) (items : List Item)
      (rest : List (Declaration × Bool)) : Declares colors name tokens ds important → Contents colors items rest →
      Contents colors (.declaration name tokens :: items) (ds.map (·, important) ++ rest)
  | ignored (item : Item) (items : List Item) (rest : List (Declaration × Bool)) : ¬ Valid colors item →
      Contents colors items rest → Contents colors (item :: items) rest

/-- Selectors with the declarations of their blocks, in the order of their appearance; invalid rules are ignored. -/
inductive Appearances (colors : Colors) {σ : Type} : List (SourceRule σ) → List (σ × List (Declaration × Bool)) → Prop
  | nil : Appearances colors [] []
  | invalid (rules : List (SourceRule σ)) (rest : List (σ × List (Declaration × Bool))) : Appearances colors rules rest →
      Appearances colors (none :: rules) rest
  | rule (selectors : List σ) (items : List Item) (rules : List (SourceRule σ)) (contents : List (Declaration × Bool))
      (rest : List (σ × List (Declaration × Bool))) : Contents colors items contents → Appearances colors rules rest →
      Appearances colors (some (selectors, items) :: rules) (selectors.map (·, contents) ++ rest)

/-- The declarations of the `style` attribute, for HTML, SVG and MathML elements. -/
def AttrContents (colors : Colors) (tokenize : String → List Item) (element : Verif.Dom.ElementData)
    (contents : List (Declaration × Bool)) : Prop :=
  if element.name.ns = "http://www.w3.org/1999/xhtml" ∨ element.name.ns = "http://www.w3.org/2000/svg" ∨
      element.name.ns = "http://www.w3.org/1998/Math/MathML" then
    match element.getAttr "style" with
    | some text => Contents colors (tokenize text) contents
    | none => contents = []
  else contents = []

inductive Origin where
  | userAgent
  | author
deriving DecidableEq

/-- A declaration that applies to an element, and where it comes from. -/
structure Candidate where
  origin : Origin
  important : Bool
  /-- From the `style` attribute. -/
  inline : Bool
  specificity : Nat
  /-- The place of the selector in the order of appearance. -/
  order : Nat
  /-- The place in the block. -/
  position : Nat
  declaration : Declaration

/-- css-cascade-4, origin and importance. -/
def Candidate.level (c : Candidate) : Nat :=
  match c.origin, c.important with
  | .userAgent, false => 0
  | .author, false => 1
  | .author, true => 2
  | .userAgent, true => 3

/-- `b` wins over `a`: origin and importance, then the `style` attribute, then specificity, then order of appearance. -/
def Beats (b a : Candidate) : Prop :=
  a.level < b.level ∨ a.level = b.level ∧
    (a.inline = false ∧ b.inline = true ∨ a.inline = b.inline ∧
      (a.specificity < b.specificity ∨ a.specificity = b.specificity ∧
        (a.order < b.order ∨ a.order = b.order ∧ a.position < b.position)))

/-- The declarations that apply to an element: those of the rules with a selector that matches, and of its attribute. -/
def Applies {σ : Type} (specificity : σ → Nat) (isMatch : σ → Bool) (ua author : List (σ × List (Declaration × Bool)))
    (attr : List (Declaration × Bool)) (c : Candidate) : Prop :=
  if c.inline then
    c.origin = .author ∧ c.specificity = 0 ∧ c.order = 0 ∧ attr[c.position]? = some (c.declaration, c.important)
  else
    ∃ s contents, (match c.origin with | .userAgent => ua | .author => author)[c.order]? = some (s, contents) ∧
      isMatch s = true ∧ c.specificity = specificity s ∧ contents[c.position]? = some (c.declaration, c.important)

/-- A length in px, for an element with the given font size. -/
def px (fontSize : Rat) : SpecifiedLength → Rat
  | .absolute x => x
  | .em x => x * fontSize

/-- The computed value of a specified value: `fontSize` is that of the element, `parent` has the values of its parent. -/
def computed (fontSize : Rat) (parent : Values) : (p : Longhand) → p.kind.Specified → p.kind.Value := fun p =>
  match p with
  | .fontSize => px (parent .fontSize)
  | .color => fun c : Color => match c with
    | .rgba c => c
    | .currentColor => (parent .color : RGBA)
  | .position | .float | .display => id
  | .top | .left | .bottom | .right | .width | .height
  | .marginTop | .marginLeft | .marginBottom | .marginRight => fun v : SpecifiedLengthOrPercentageOrAuto => match v with
    | .length l => LengthOrPercentageOrAuto.length (px fontSize l)
    | .percentage x => .percentage x
    | .auto => .auto
  | .paddingTop | .paddingLeft | .paddingBottom | .paddingRight
  | .borderTopWidth | .borderLeftWidth | .borderBottomWidth | .borderRightWidth => fun v : SpecifiedLengthOrPercentage => match v with
    | .length l => LengthOrPercentage.length (px fontSize l)
    | .percentage x => .percentage x
  | .borderTopColor | .borderLeftColor | .borderBottomColor | .borderRightColor | .backgroundColor => id
  | .borderTopStyle | .borderLeftStyle | .borderBottomStyle | .borderRightStyle => id

/-- The initial values, from the definition of each property. -/
def initial : (p : Longhand) → p.kind.Value
  | .fontSize => (16 : Rat)
  | .color => (⟨0, 0, 0, 255⟩ : RGBA)
  | .position => Position.static
  | .float => Float.none
  | .display => Display.generatingBox .inline .flow
  | .top | .left | .bottom | .right | .width | .height => LengthOrPercentageOrAuto.auto
  | .marginTop | .marginLeft | .marginBottom | .marginRight => LengthOrPercentageOrAuto.length 0
  | .paddingTop | .paddingLeft | .paddingBottom | .paddingRight => LengthOrPercentage.length 0
  | .borderTopColor | .borderLeftColor | .borderBottomColor | .borderRightColor => Color.currentColor
  | .borderTopStyle | .borderLeftStyle | .borderBottomStyle | .borderRightStyle => LineStyle.none
  | .borderTopWidth | .borderLeftWidth | .borderBottomWidth | .borderRightWidth => LengthOrPercentage.length 3
  | .backgroundColor => Color.rgba ⟨0, 0, 0, 0⟩

/-- The inherited properties of those implemented. -/
def Inherited (p : Longhand) : Prop := p = .fontSize ∨ p = .color

instance (p : Longhand) : Decidable (Inherited p) := by unfold Inherited; infer_instance

/-- The value of a property that no declaration sets, and of `unset`. -/
def unset (parent : Values) (p : Longhand) : p.kind.Value := if Inherited p then parent p else initial p

/-- The value a declaration gives to its property. -/
def valueOf (fontSize : Rat) (parent : Values) : (d : Declaration) → d.longhand.kind.Value
  | .value p v => computed fontSize parent p v
  | .cssWide p .inherit => parent p
  | .cssWide p .initial => initial p
  | .cssWide p .unset => unset parent p

/-- The values of the parent, or the initial ones at the root. -/
def parentValues : Option ComputedValues → Values
  | some p => p.values
  | none => initial

end Verif.Style.Spec
