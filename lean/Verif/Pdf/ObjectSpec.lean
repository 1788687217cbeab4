import Verif.Pdf.Object
import Verif.Pdf.Reader
/- What a written object must read back as, and under which conditions. -/
namespace Verif.Pdf

section
variable {R : Type}

mutual
/-- The value an object stands for. -/
def Object.value : Object R → Val R
  | .usize n => .int n
  | .i32 i => .int i
  | .float r => .real r
  | .name b => .name b
  | .literal b => .str b
  | .hex b => .str b
  | .array l => .array l.values
  | .dict d => .dict d.values
  | .ref id => .ref id 0
  | .alpha r => .dict [(ascii "CA", .real r), (ascii "ca", .real r)]
  | .owned p => .dict p.values
def Items.values : Items R → List (Val R)
  | .nil => []
  | .cons o l => o.value :: l.values
def Pairs.values : Pairs R → List (List Byte × Val R)
  | .nil => []
  | .cons k v l => (k, v.value) :: l.values
/-- The entries of a linked dictionary come after those of the one it extends. -/
def Dictionary.values : Dictionary R → List (List Byte × Val R)
  | .root p => p.values
  | .linked prev p => prev.values ++ p.values
end

mutual
/-- No name (or key) contains `#` and no literal string contains a carriage return. -/
def Object.Plain : Object R → Prop
  | .name b => 35 ∉ b
  | .literal b => 13 ∉ b
  | .array l => l.Plain
  | .dict d => d.Plain
  | .owned p => p.Plain
  | _ => True
def Items.Plain : Items R → Prop
  | .nil => True
  | .cons o l => o.Plain ∧ l.Plain
def Pairs.Plain : Pairs R → Prop
  | .nil => True
  | .cons k v l => 35 ∉ k ∧ v.Plain ∧ l.Plain
def Dictionary.Plain : Dictionary R → Prop
  | .root p => p.Plain
  | .linked prev p => prev.Plain ∧ p.Plain
end

/-- What is assumed of the `dtoa` crate: the text of a float is one regular token, is not the text of an
integer (it has a decimal point), and reads back as the same float. The reader takes no text that starts with a
letter for a real number. -/
structure RealText (dtoa : R → List Byte) (readReal : List Byte → Option R) : Prop where
  reads_back : ∀ r, readReal (dtoa r) = some r
  regular : ∀ r, ∀ b ∈ dtoa r, isRegular b = true
  not_int : ∀ r, readInt (dtoa r) = none
  not_empty : ∀ r, dtoa r ≠ []
  letter : ∀ b t, (65 ≤ b.val ∧ b.val ≤ 90) ∨ (97 ≤ b.val ∧ b.val ≤ 122) → readReal (b :: t) = none

/-- What may follow an object: not a regular character (which would continue the last token), and not `R` or an
integer and `R` (which would make a reference of a last integer). -/
structure MayFollow (readReal : List Byte → Option R) (rest : List Byte) : Prop where
  delimited : ∀ b, rest.head? = some b → isRegular b = false
  not_r : ∀ r, nextToken readReal rest ≠ some (.keyword [82], r)
  not_ref : ∀ g r2 r3, nextToken readReal rest = some (.int g, r2) → nextToken readReal r2 ≠ some (.keyword [82], r3)

end
end Verif.Pdf
