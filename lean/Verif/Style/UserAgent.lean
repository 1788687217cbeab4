/- Model of `victor/src/style/user_agent.css`, the style sheet of the user agent, as cssparser and the crate `selectors` read it. -/
import Verif.Style.Cascade
namespace Verif.Style
open Verif.Dom

/-- The selectors of user_agent.css: a name of elements, and an attribute that is present or (with the flag `i`) has a value. -/
structure UaSelector where
  tag : Option String := none
  attr : Option (String × Option String) := none
deriving DecidableEq

/-- The crate's specificity: 1 for a name, 2¹⁰ for an attribute. -/
def UaSelector.specificity (s : UaSelector) : Nat := (if s.tag.isSome then 1 else 0) + (if s.attr.isSome then 1024 else 0)

/-- The crate's matching with selectors.rs 153-155 `local_name` and 173-187 `attr_matches`. Names of elements in the sheet are in lower
case. There is no default name space, as `@namespace` is not implemented (rules.rs 47-52, selectors.rs 58-61), so elements of any are
matched; attributes in selectors have no name space. -/
def UaSelector.matches (s : UaSelector) (e : ElementData) : Bool :=
  (match s.tag with
    | none => true
    | some tag => e.name.loc == tag) &&
  (match s.attr with
    | none => true
    | some (name, value) => e.attrs.any fun a => a.name.loc == name && a.name.ns == "" &&
      (match value with | none => true | some v => Document.eqIgnoreAsciiCase a.value v))

/-- user_agent.css 5-6. -/
def uaHidden : List UaSelector := ⟨none, some ("hidden", none)⟩ :: ["area", "base", "basefont", "datalist", "head", "link", "meta",
  "noembed", "noframes", "param", "rp", "script", "source", "style", "template", "track", "title"].map fun s => ⟨some s, none⟩

/-- user_agent.css 18-19. -/
def uaBlocks : List UaSelector := ["address", "blockquote", "center", "dialog", "div", "figure", "figcaption", "footer", "form",
  "header", "hr", "legend", "listing", "main", "p", "plaintext", "pre", "xmp"].map fun s => ⟨some s, none⟩

/-- user_agent.css. -/
def userAgentRules : List (SourceRule UaSelector) := [
  -- 3: an at-rule
  none,
  some (uaHidden, [.declaration "display" [.ident "none"]]),
  some ([⟨some "embed", some ("hidden", none)⟩], [.declaration "display" [.ident "inline"], .declaration "height" [.number 0],
    .declaration "width" [.number 0]]),
  some ([⟨some "input", some ("type", some "hidden")⟩], [.declaration "display" [.ident "none", .delim '!', .ident "important"]]),
  some ([⟨some "html", none⟩, ⟨some "body", none⟩], [.declaration "display" [.ident "block"]]),
  some ([⟨some "body", none⟩], [.declaration "margin" [.dimension 8 "px"]]),
  some (uaBlocks, [.declaration "display" [.ident "block"]])]

/-- The sheet with selectors of the crate. -/
def userAgentSheet {σ : Type} (embed : UaSelector → σ) : List (SourceRule σ) :=
  userAgentRules.map fun r => r.map fun (selectors, items) => (selectors.map embed, items)

end Verif.Style
