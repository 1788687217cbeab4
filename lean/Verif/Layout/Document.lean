/- Model of how a document becomes boxes and fragments: `Document::layout` and `BoxTreeRoot::construct` of
`victor/src/layout/flow/root.rs` 3-85, and the traversal of the arena, `layout/dom_traversal.rs` 53-125. -/
import Verif.Layout.Construct
import Verif.Layout.Flow
import Verif.Style.Cascade
namespace Verif.Layout
open Verif.Style

/-- What the style system needs from other crates (cssparser and selectors), and the style sheet of the user agent
(style/cascade.rs 16-22). -/
structure Engine (σ : Type) where
  colors : Colors
  /-- cssparser on a style attribute -/
  tokenize : String → List Item
  /-- cssparser and `RulesParser` on a style sheet -/
  rulesOf : String → List (SourceRule σ)
  specificity : σ → Nat
  /-- `selectors::matches` -/
  isMatch : σ → Verif.Dom.Document → Nat → Bool
  ua : StyleSet σ

/-- dom/mod.rs 47-60, `parse_stylesheets`. -/
def parseStylesheets {σ : Type} (E : Engine σ) (d : Verif.Dom.Document) : Option (StyleSet σ) :=
  match d.stylesheetTexts d.nodes.length d.styleElements with
  | none => none
  | some texts =>
    match addStylesheets E.colors ⟨[]⟩ (texts.map E.rulesOf) with
    | .ok set => some (set.finish E.specificity)
    | _ => none

/-- style/cascade.rs 85-108, `style_for_element`, on a node of the arena. -/
def nodeStyle {σ : Type} (E : Engine σ) (author : StyleSet σ) (d : Verif.Dom.Document) (node : Nat) (parent : Option ComputedValues) :
    Option ComputedValues :=
  match (d.get node).bind Verif.Dom.Node.asElement with
  | none => none
  | some element =>
    match styleForElement E.colors E.tokenize E.ua author (fun s => E.isMatch s d node) element parent with
    | .ok style => some style
    | _ => none

/-- dom_traversal.rs 53-125: the nodes from `next` on, with their styles. `style` is `style_for_element`; it is `none` where that
panics. Below an element with `display: none` nothing is styled; there `unset_boxes_in_subtree` is called, which for an element that
never had boxes returns exactly if it has a next sibling (theorem `C43_fresh_partial`): `none` if it does not return. The fuel bounds
the number of steps. -/
def styledNodes (style : Nat → ComputedValues → Option ComputedValues) (d : Verif.Dom.Document) :
    (fuel : Nat) → ComputedValues → Option Nat → Option (List StyledNode)
  | 0, _, _ => none
  | _ + 1, _, none => some []
  | fuel + 1, parentStyle, some child =>
    match d.get child with
    | none => none
    | some node =>
      let first : Option StyledNode :=
        match node.data with
        | .document | .doctype _ _ _ | .comment _ | .pi _ _ => some .ignored
        | .text contents => some (.text (contents.toList.map Char.toNat))
        | .element _ =>
          match style child parentStyle with
          | none => none
          | some s =>
            if displayOf s = .none then if node.nextSibling.isSome then some (.element s []) else none
            else
              match styledNodes style d fuel s node.firstChild with
              | none => none
              | some children => some (.element s children)
      match first with
      | none => none
      | some n =>
        match styledNodes style d fuel parentStyle node.nextSibling with
        | none => none
        | some ns => some (n :: ns)

/-- root.rs 15-49, `BoxTreeRoot::construct`, for a document that is laid out for the first time. `none` when it panics or does not
return. -/
def constructDocument {σ : Type} (E : Engine σ) (d : Verif.Dom.Document) (fuel : Nat) : Option BlockFormattingContext :=
  match parseStylesheets E d with
  | none => none
  | some author =>
    match d.rootElement d.nodes.length with
    | none => none
    | some root =>
      match nodeStyle E author d root none with
      | none => none
      | some style =>
        if displayOf style = .none then constructRoot style []
        else
          match d.get root with
          | none => none
          | some node =>
            match styledNodes (fun child parent => nodeStyle E author d child (some parent)) d fuel style node.firstChild with
            | none => none
            | some children => constructRoot style children

/-- root.rs 4-9, `Document::layout`. -/
def layoutDocument {σ Err : Type} (E : Engine σ) (F : Verif.Text.FontApi Rat Err) (d : Verif.Dom.Document) (fuel : Nat) (schedule : Oracle)
    (viewport : Vec2 Rat) : Option (List Fragment) :=
  match constructDocument E d fuel with
  | none => none
  | some root => layoutRoot F fuel schedule root viewport

end Verif.Layout
