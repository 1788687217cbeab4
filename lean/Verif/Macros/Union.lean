/- Model of victor/src/tagged_union_with_jump_tables.rs: enums with methods that dispatch through a table of functions, over the bytes of the
values. -/
namespace Verif.Macros

/-- A type, as far as the layout of a struct depends on it. -/
structure Ty where
  size : Nat
  align : Nat

/-- One of the integer types of lines 169-176. -/
structure IntTy where
  size : Nat
  signed : Bool

/-- A variant of the enum, lines 15-25: its name and the types of its fields. -/
structure UnionVariant where
  name : String
  fields : List Ty

/-- An arm of the `match` in a method, lines 58-65: the enum and the variant that it names, how many fields it binds, and its block as a
function of the bytes of the fields and of the arguments. -/
structure Arm (α β : Type) where
  enum : String
  variant : String
  bound : Nat
  block : List (List Nat) → α → β

/-- The next multiple of an alignment. -/
def alignUp (offset align : Nat) : Nat := (offset + align - 1) / align * align

/-- The layout of a struct with repr(C), which the language defines: each field at the next multiple of its alignment. -/
def reprC : Nat → List Ty → List Nat
  | _, [] => []
  | offset, t :: rest => alignUp offset t.align :: reprC (alignUp offset t.align + t.size) rest

/-- The bytes of a place, in memory that starts at 0. -/
def slice (memory : List Nat) (offset size : Nat) : List Nat := (memory.drop offset).take size

/-- The number of bytes in little-endian order. -/
def ofBytes : List Nat → Nat
  | [] => 0
  | b :: rest => b + 256 * ofBytes rest

/-- Lines 73-80: the tag, read as the first field of `AnyVariant`, converted to usize. A negative number is converted to one larger than any
index. -/
def readTag (int : IntTy) (memory : List Nat) : Nat :=
  let v := ofBytes (slice memory 0 int.size)
  if int.signed && decide (2 ^ (8 * int.size - 1) ≤ v) then 2 ^ 64 - (2 ^ (8 * int.size) - v) else v

/-- Lines 147-154: one closure: the fields are read where the struct `Variant` of the closure has them. -/
def closure {α β : Type} (int : IntTy) (fields : List Ty) (block : List (List Nat) → α → β) (memory : List Nat) (arg : α) : β :=
  block ((((reprC 0 (⟨int.size, int.size⟩ :: fields)).drop 1).zip fields).map fun p => slice memory p.1 p.2.size) arg

/-- Lines 108-168: the table, built from the variants and the arms in parallel; `none` is a compilation error, which is given for names that
differ (177-187), for lists of different lengths (no rule of the macro matches), and by the compiler for a wrong number of fields. -/
def closuresTable {α β : Type} (int : IntTy) (enum : String) :
    List UnionVariant → List (Arm α β) → List (List Nat → α → β) → Option (List (List Nat → α → β))
  | [], [], closures => some closures
  | v :: variants, a :: arms, closures =>
    if enum = a.enum ∧ v.name = a.variant ∧ v.fields.length = a.bound then
      closuresTable int enum variants arms (closures ++ [closure int v.fields a.block])
    else none
  | _, _, _ => none

/-- Lines 70-92: a call of a method; the inner `none` is the panic of an index out of bounds, the outer a compilation error. -/
def callMethod {α β : Type} (int : IntTy) (enum : String) (variants : List UnionVariant) (arms : List (Arm α β)) :
    Option (List Nat → α → Option β) :=
  (closuresTable int enum variants arms []).map fun table memory arg => (table[readTag int memory]?).map fun f => f memory arg

end Verif.Macros
