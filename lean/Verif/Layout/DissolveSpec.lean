/- Documents without their elements with `display: contents`: the specification of C104. -/
import Verif.Layout.LookSpec
namespace Verif.Layout
open Verif.Style Verif.Text

/-- `Dissolved parent nodes nodes'`: some elements in `nodes` with `display: contents`, whose font sizes and colours are those of what they are
in, are replaced by what is in them, at any depth. `parent` is the style of what the nodes are in. -/
inductive Dissolved : ComputedValues → List StyledNode → List StyledNode → Prop
  | nil {parent} : Dissolved parent [] []
  | ignored {parent nodes nodes'} : Dissolved parent nodes nodes' → Dissolved parent (.ignored :: nodes) (.ignored :: nodes')
  | text {parent t nodes nodes'} : Dissolved parent nodes nodes' → Dissolved parent (.text t :: nodes) (.text t :: nodes')
  | element {parent style children children' nodes nodes'} : Dissolved style children children' → Dissolved parent nodes nodes' →
      Dissolved parent (.element style children :: nodes) (.element style children' :: nodes')
  | contents {parent style children children' nodes nodes'} : displayOf style = .contents → look style = look parent →
      Dissolved style children children' → Dissolved parent nodes nodes' →
      Dissolved parent (.element style children :: nodes) (children' ++ nodes')

end Verif.Layout
