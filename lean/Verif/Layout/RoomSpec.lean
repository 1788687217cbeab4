/- Parts of a text: the specification of C98. -/
namespace Verif.Layout

/-- A part of a text that begins at the beginning of it or after a space. -/
def WordPart (part text : List Nat) : Prop := ∃ before after, text = before ++ (part ++ after) ∧ (before = [] ∨ ∃ b, before = b ++ [32])

end Verif.Layout
