/- Model of the derive macros that generate conversions (proc-macros/src): the code that they generate, as data, and what that code does. -/
import Verif.Style.Values
namespace Verif.Macros

/-! ## Definitions of types -/

/-- `syn::Fields`: the fields of a struct or of a variant, with their types. -/
inductive Fields where
  | unit
  | unnamed (types : List String)
  | named (fields : List (String × String))
  deriving DecidableEq

/-- `syn::Data`. -/
inductive Body where
  | struct (fields : Fields)
  | enum (variants : List (String × Fields))
  | union

/-- `syn::DeriveInput`: the item that `#[derive]` is on. -/
structure TypeDef where
  name : String
  params : List String
  body : Body

/-! ## The code that is generated -/

/-- The name of a constructor: `Type` or `Type::Variant`. -/
structure Path where
  type : String
  variant : Option String
  deriving DecidableEq

/-- What is after the path in a pattern: nothing, `(a, b)` or `{ a, b }`. -/
inductive Pattern where
  | unit
  | tuple (names : List String)
  | record (names : List String)

/-- What is after the path in an expression: nothing, `(from_specified(a), …)` or `{ x: from_specified(a), … }`. With each name is the type
of the field, from which Rust infers which implementation of `from_specified` is called. -/
inductive Rebuilt where
  | unit
  | tuple (parts : List (String × String))
  | record (parts : List (String × String × String))

/-- An arm of the generated `match`. -/
structure MatchArm where
  source : Path
  pattern : Pattern
  target : Path
  rebuilt : Rebuilt

/-- proc-macros/src/style.rs 51-55: the name of the `i`th unnamed field. -/
def fieldName (i : Nat) : String := "f" ++ Nat.repr i

/-- proc-macros/src/style.rs 46-81, `gen_variant`. -/
def genVariant (specifiedName name : String) (variant : Option String) : Fields → MatchArm
  | .unit => ⟨⟨specifiedName, variant⟩, .unit, ⟨name, variant⟩, .unit⟩
  | .unnamed types =>
    ⟨⟨specifiedName, variant⟩, .tuple ((types.zipIdx).map fun t => fieldName t.2), ⟨name, variant⟩,
      .tuple ((types.zipIdx).map fun t => (fieldName t.2, t.1))⟩
  | .named fields =>
    ⟨⟨specifiedName, variant⟩, .record (fields.map Prod.fst), ⟨name, variant⟩, .record (fields.map fun f => (f.1, f.1, f.2))⟩

/-- proc-macros/src/style.rs 35-45: the name of the type of specified values. -/
def specifiedName (d : TypeDef) : String := if d.params = [] then "Specified" ++ d.name else d.name

/-- proc-macros/src/style.rs 31-113, derive(FromSpecified): the arms of the generated `match`; `none` is the panic. -/
def deriveFromSpecified (d : TypeDef) : Option (List MatchArm) :=
  match d.body with
  | .struct fields => some [genVariant (specifiedName d) d.name none fields]
  | .enum variants => some (variants.map fun v => genVariant (specifiedName d) d.name (some v.1) v.2)
  | .union => none

/-! ## What the generated code does -/

/-- What is in a value: nothing, or values by position, or values by name. -/
inductive Payload (α : Type) where
  | unit
  | tuple (values : List α)
  | record (fields : List (String × α))

/-- A value of a struct or an enum. -/
structure Value (α : Type) where
  path : Path
  payload : Payload α

/-- What the names in a pattern are bound to. `none`: the pattern does not match. A pattern with names of fields matches in Rust only if it
names all of them. -/
def Pattern.bind {α : Type} : Pattern → Payload α → Option (List (String × α))
  | .unit, .unit => some []
  | .tuple names, .tuple values => if names.length = values.length then some (names.zip values) else none
  | .record names, .record fields =>
    if names.length = fields.length then names.mapM fun n => (fields.lookup n).map fun v => (n, v) else none
  | _, _ => none

/-- The value of the expression on the right of an arm. `conv` is `from_specified` for each type of field. -/
def Rebuilt.eval {α β : Type} (conv : String → α → β) (env : List (String × α)) : Rebuilt → Option (Payload β)
  | .unit => some .unit
  | .tuple parts => (parts.mapM fun p => (env.lookup p.1).map (conv p.2)).map .tuple
  | .record parts => (parts.mapM fun p => (env.lookup p.2.1).map fun v => (p.1, conv p.2.2 v)).map .record

/-- An arm; `none` if its pattern does not match. -/
def MatchArm.run {α β : Type} (conv : String → α → β) (arm : MatchArm) (v : Value α) : Option (Value β) :=
  if v.path = arm.source then
    match arm.pattern.bind v.payload with
    | none => none
    | some env => (arm.rebuilt.eval conv env).map fun p => ⟨arm.target, p⟩
  else none

/-- The generated `match`: the first arm that matches. -/
def runArms {α β : Type} (conv : String → α → β) : List MatchArm → Value α → Option (Value β)
  | [], _ => none
  | arm :: rest, v =>
    match arm.run conv v with
    | some r => some r
    | none => runArms conv rest v

/-! ## derive(FromVariants) -/

/-- An `impl From<type> for …`: wraps a value in this variant. -/
structure FromImpl where
  type : String
  target : Path

/-- proc-macros/src/generic.rs 7-22: an implementation for each variant with a single unnamed field. -/
def variantImpls (name : String) : List (String × Fields) → List FromImpl
  | [] => []
  | (variant, .unnamed [type]) :: rest => ⟨type, ⟨name, some variant⟩⟩ :: variantImpls name rest
  | _ :: rest => variantImpls name rest

/-- proc-macros/src/generic.rs 1-32, derive(FromVariants); `none` is the panic. -/
def deriveFromVariants (d : TypeDef) : Option (List FromImpl) :=
  match d.body with
  | .enum variants => if (variantImpls d.name variants).isEmpty then none else some (variantImpls d.name variants)
  | _ => none

/-- Rust accepts at most one implementation of `From` for each type. -/
def Coherent (impls : List FromImpl) : Prop := (impls.map FromImpl.type).Nodup

/-- `from` of the generated code, for a value of the given type. -/
def runFrom {α : Type} (impls : List FromImpl) (type : String) (x : α) : Option (Value α) :=
  (impls.find? fun i => i.type = type).map fun i => ⟨i.target, .tuple [x]⟩

end Verif.Macros
