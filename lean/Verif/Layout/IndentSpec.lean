/- White space at the beginning of blocks and between blocks: the specification of C96. -/
import Verif.Layout.MarkSpec
import Verif.Layout.WrapSpec
namespace Verif.Layout
open Verif.Style

/-- Nothing but white space. -/
def BlankText (t : List Nat) : Prop := ∀ c ∈ t, c ∈ spaceCharacters

/-- An element in this style is a block out of flow: it is absolutely positioned, or it floats. -/
def BlockOutOfFlow (s : ComputedValues) : Prop :=
  (∃ inside, displayOf s = .generatingBox .block inside) ∧ (positionOf s = .absolute ∨ floatOf s ≠ .none)

/-- `Indented lineStart nodes nodes'`: the same contents, of which `nodes` may have more white space: at the beginning of blocks, before
blocks that come first or come after a block, and after blocks. `lineStart` is whether a new line begins here, as it does at the beginning of
a block and after it. -/
inductive Indented : Bool → List StyledNode → List StyledNode → Prop
  | nil {lineStart} : Indented lineStart [] []
  /-- Text between blocks. -/
  | blank {t ns ns'} : BlankText t → Indented true ns ns' → Indented true (.text t :: ns) ns'
  /-- The beginning of text. -/
  | indent {w t ns ns'} : BlankText w → Indented false ns ns' → Indented true (.text (w ++ t) :: ns) (.text t :: ns')
  | block {lineStart s children children' ns ns'} : BlockInFlow s → Indented true children children' → Indented true ns ns' →
      Indented lineStart (.element s children :: ns) (.element s children' :: ns')
  | outOfFlow {lineStart s children children' ns ns'} : BlockOutOfFlow s → Indented true children children' → Indented lineStart ns ns' →
      Indented lineStart (.element s children :: ns) (.element s children' :: ns')
  | hidden {lineStart s children ns ns'} : displayOf s = .none → Indented lineStart ns ns' →
      Indented lineStart (.element s children :: ns) (.element s children :: ns')
  | comment {lineStart ns ns'} : Indented lineStart ns ns' → Indented lineStart (.ignored :: ns) (.ignored :: ns')
  /-- Blocks may be in inline elements, too. -/
  | inline {lineStart s inside children children' ns ns'} : displayOf s = .generatingBox .inline inside → Indented false children children' →
      Indented false ns ns' → Indented lineStart (.element s children :: ns) (.element s children' :: ns')
  | contents {lineStart s children children' ns ns'} : displayOf s = .contents → Indented lineStart children children' → Indented false ns ns' →
      Indented lineStart (.element s children :: ns) (.element s children' :: ns')
  /-- Anything else. -/
  | same {lineStart n ns ns'} : Indented false ns ns' → Indented lineStart (n :: ns) (n :: ns')

end Verif.Layout
