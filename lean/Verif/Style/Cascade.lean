/- Model of `victor/src/style/cascade.rs`, and of `ComputedValues::new` in `properties/macros.rs`. -/
import Verif.Style.Block
import Verif.Dom.Model
namespace Verif.Style

/-- properties/macros.rs 165-170, `ComputedValues`. -/
structure ComputedValues where
  values : Values
  specifiedDisplay : Display

/-- cascade.rs 12-14, `StyleSet`; `σ` is the type of selectors of the crate `selectors`. -/
structure StyleSet (σ : Type) where
  rules : List (σ × DeclarationBlock)

/-- What cssparser's `RuleListParser` and rules.rs 22-45 find in a style sheet: a list of selectors and the contents of the
block, or an error (a selector list that does not parse, or an at-rule, rules.rs 47-52). -/
abbrev SourceRule (σ : Type) := Option (List σ × List Item)

/-- cascade.rs 29-44, `add_stylesheet`, with `parse_block` of rules.rs 34-44. -/
def addStylesheet {σ : Type} (colors : Colors) (set : StyleSet σ) : List (SourceRule σ) → Outcome (StyleSet σ)
  | [] => .ok set
  | none :: rest => addStylesheet colors set rest
  | some (selectors, items) :: rest =>
    match DeclarationBlock.parse colors items with
    | .ok block => addStylesheet colors ⟨set.rules ++ selectors.map (·, block)⟩ rest
    | .err => .err
    | .panic => .panic

/-- The calls of `add_stylesheet` for each sheet in order (dom/mod.rs 47-59, and cascade.rs 16-22 for the user agent's). -/
def addStylesheets {σ : Type} (colors : Colors) (set : StyleSet σ) : List (List (SourceRule σ)) → Outcome (StyleSet σ)
  | [] => .ok set
  | sheet :: sheets =>
    match addStylesheet colors set sheet with
    | .ok set' => addStylesheets colors set' sheets
    | .err => .err
    | .panic => .panic

/-- cascade.rs 46-52, `finish`: Rust's stable sort by key. -/
def StyleSet.finish {σ : Type} (specificity : σ → Nat) (set : StyleSet σ) : StyleSet σ :=
  ⟨set.rules.mergeSort (fun a b => decide (specificity a.1 ≤ specificity b.1))⟩

/-- cascade.rs 56-67, `push_matching`; `isMatch` is `selectors::matches` for the node. -/
def StyleSet.pushMatching {σ : Type} (set : StyleSet σ) (isMatch : σ → Bool) (into : List DeclarationBlock) :
    List DeclarationBlock :=
  into ++ (set.rules.filter (fun r => isMatch r.1)).map Prod.snd

/-- cascade.rs 70-73, `MatchingDeclarations`. -/
structure MatchingDeclarations where
  ua : List DeclarationBlock := []
  author : List DeclarationBlock := []

/-- cascade.rs 76-82. -/
def MatchingDeclarations.cascade (m : MatchingDeclarations) (phase : Phase) (inherited computed : Values) : Values :=
  let computed := m.ua.foldl (fun c b => b.cascadeNormal phase inherited c) computed
  let computed := m.author.foldl (fun c b => b.cascadeNormal phase inherited c) computed
  let computed := m.author.foldl (fun c b => b.cascadeImportant phase inherited c) computed
  m.ua.foldl (fun c b => b.cascadeImportant phase inherited c) computed

/-- values/border.rs 30-34, `LineWidth::fixup`. -/
def lineWidthFixup (width : LengthOrPercentage) (style : LineStyle) : LengthOrPercentage :=
  match style with
  | .none => .length 0
  | .solid => width

/-- properties/mod.rs 23-27. -/
def borderFixups (v : Values) : Values :=
  let v := v.set .borderTopWidth (lineWidthFixup (v .borderTopWidth) (v .borderTopStyle))
  let v := v.set .borderLeftWidth (lineWidthFixup (v .borderLeftWidth) (v .borderLeftStyle))
  let v := v.set .borderBottomWidth (lineWidthFixup (v .borderBottomWidth) (v .borderBottomStyle))
  v.set .borderRightWidth (lineWidthFixup (v .borderRightWidth) (v .borderRightStyle))

/-- values/box_.rs 67-75, `Display::fixup`. -/
def displayFixup (v : Values) : ComputedValues :=
  let display : Display := v .display
  let position : Position := v .position
  let float : Float := v .float
  if position.isAbsolutelyPositioned ∨ float.isFloating then
    if display.blockify ≠ display then ⟨v.set .display display.blockify, display⟩ else ⟨v, display⟩
  else ⟨v, display⟩

/-- properties/mod.rs 22-30, `post_cascade_fixups`. -/
def postCascadeFixups (v : Values) : ComputedValues := displayFixup (borderFixups v)

/-- properties/macros.rs 196-230: the computed values before the fix-ups. -/
def cascaded (parent : Option ComputedValues) (matching : Option MatchingDeclarations) : Values :=
  let inherited : Values := match parent with
    | some p => p.values
    | none => initialValues
  let computed : Values := fun p => if p.isInherited then inherited p else initialValues p
  match matching with
  | none => computed
  | some m => m.cascade .late inherited (m.cascade .early inherited computed)

/-- properties/macros.rs 192-233, `ComputedValues::new`. -/
def ComputedValues.new (parent : Option ComputedValues) (matching : Option MatchingDeclarations) : ComputedValues :=
  postCascadeFixups (cascaded parent matching)

/-- properties/mod.rs 18-20, `anonymous_inheriting_from`. -/
def ComputedValues.anonymousInheritingFrom (parent : Option ComputedValues) : ComputedValues := ComputedValues.new parent none

/-- The name spaces of cascade.rs 99. -/
def styleAttrNamespaces : List String :=
  [Verif.Dom.htmlNs, "http://www.w3.org/2000/svg", "http://www.w3.org/1998/Math/MathML"]

/-- cascade.rs 99-106: the declarations of the `style` attribute. `tokenize` is cssparser's reading of the attribute. -/
def styleAttrBlock (colors : Colors) (tokenize : String → List Item) (element : Verif.Dom.ElementData) :
    Outcome (List DeclarationBlock) :=
  if element.name.ns ∈ styleAttrNamespaces then
    match element.getAttr "style" with
    | none => .ok []
    | some text =>
      match DeclarationBlock.parse colors (tokenize text) with
      | .ok block => .ok [block]
      | .err => .err
      | .panic => .panic
  else .ok []

/-- cascade.rs 85-108, `style_for_element`. -/
def styleForElement {σ : Type} (colors : Colors) (tokenize : String → List Item) (ua author : StyleSet σ)
    (isMatch : σ → Bool) (element : Verif.Dom.ElementData) (parent : Option ComputedValues) : Outcome ComputedValues :=
  match styleAttrBlock colors tokenize element with
  | .ok attr =>
    .ok (ComputedValues.new parent (some
      { ua := ua.pushMatching isMatch [], author := author.pushMatching isMatch [] ++ attr }))
  | .err => .err
  | .panic => .panic

end Verif.Style
