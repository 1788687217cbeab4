/- Model of the derive macros of proc-macros/src: what they generate, as a function of the type they are applied to. -/
import Verif.Style.Values
namespace Verif.Macros
open Verif.Style

/-! ## derive(Parse) -/

/-- proc-macros/src/style.rs 187-205: one round of `camel_case_to_kebab_case`; `none` is the panic. -/
def kebabStep (out : List Char) (c : Char) : Option (List Char) :=
  if c.isLower then some (out ++ [c])
  else if c.isUpper then some ((if out ≠ [] then out ++ ['-'] else out) ++ [c.toLower])
  else none

/-- proc-macros/src/style.rs 187-205, `camel_case_to_kebab_case`. -/
def kebab (name : List Char) : Option (List Char) := name.foldlM kebabStep []

/-- A variant of an enum: without fields, or with one unnamed field, for which `parse` is the parser of the field followed by the
constructor. -/
inductive Shape (α : Type) where
  | unit (value : α)
  | field (parse : Parser α)

/-- A variant with its name. -/
structure Variant (α : Type) where
  name : List Char
  shape : Shape α

/-- proc-macros/src/style.rs 120-149: the keywords with their variants; `none` is a panic of the macro. -/
def keywords {α : Type} : List (Variant α) → Option (List (String × α))
  | [] => some []
  | ⟨name, .unit value⟩ :: rest =>
    match kebab name, keywords rest with
    | some k, some rest => some ((String.ofList k, value) :: rest)
    | _, _ => none
  | ⟨_, .field _⟩ :: rest => keywords rest

/-- proc-macros/src/style.rs 120-149: the variants with a field. -/
def fieldParsers {α : Type} : List (Variant α) → List (Parser α)
  | [] => []
  | ⟨_, .unit _⟩ :: rest => fieldParsers rest
  | ⟨_, .field p⟩ :: rest => p :: fieldParsers rest

/-- proc-macros/src/style.rs 151-157: each is tried in order. -/
def tryFields {α : Type} : List (Parser α) → Parser α
  | [], _ => none
  | p :: rest, tokens =>
    match p tokens with
    | some r => some r
    | none => tryFields rest tokens

/-- proc-macros/src/style.rs 115-185, derive(Parse): the generated parser. -/
def deriveParse {α : Type} (variants : List (Variant α)) : Option (Parser α) :=
  match keywords variants with
  | none => none
  | some ks => some fun tokens =>
    match tryFields (fieldParsers variants) tokens with
    | some r => some r
    | none => if ks = [] then none else parseKeyword ks tokens

/-! ## derive(SfntTable) -/

/-- proc-macros/src/lib.rs 61-66: the size of a field of the given type. -/
def fieldSize : String → Option Nat
  | "u16" | "i16" | "FWord" | "UFWord" | "FontDesignUnitsPerEmFactorU16" => some 2
  | "u32" | "FixedPoint" | "Tag" => some 4
  | "LongDateTime" => some 8
  | _ => none

/-- proc-macros/src/lib.rs 47-77: the offset of each field, and the offset at the end; `none` is a panic. -/
def fieldOffsets : Nat → List (String × String) → Option (List (String × Nat) × Nat)
  | offset, [] => some ([], offset)
  | offset, (name, type) :: rest =>
    match fieldSize type with
    | none => none
    | some size =>
      if offset % min size 4 ≠ 0 then none
      else
        match fieldOffsets (offset + size) rest with
        | none => none
        | some (fields, total) => some ((name, offset) :: fields, total)

/-- proc-macros/src/lib.rs 16-95, derive(SfntTable): the offsets that the generated methods add, and the size that the struct is asserted to
have. -/
def deriveSfntTable (fields : List (String × String)) : Option (List (String × Nat) × Nat) := fieldOffsets 0 fields

end Verif.Macros
