/- Model of `victor/src/style/declaration_block.rs`. -/
import Verif.Style.Properties
namespace Verif.Style

/-- The outcome of a Rust function that may return an error or panic. -/
inductive Outcome (α : Type) where
  | ok (a : α)
  | err
  | panic

/-- The two implementations of `Phase` (properties/mod.rs 93-116). -/
inductive Phase where
  | early
  | late
deriving DecidableEq, Repr

/-- properties/mod.rs 99-101 and 109-111, `select`. -/
def Phase.select : Phase → PerPhase → Bool
  | .early, p => p.early
  | .late, p => p.late

/-- properties/mod.rs 103-105 and 113-115, `cascade`: the context is the computed values so far and the inherited ones. -/
def Phase.cascade (phase : Phase) (inherited : Values) (computed : Values) (d : Declaration) : Values :=
  match phase with
  | .early => d.ifEarlyCascadeInto computed inherited
  | .late => d.ifLateCascadeInto computed inherited

/-- declaration_block.rs 8-14, `DeclarationBlock`. The bit vector is a list. -/
structure DeclarationBlock where
  declarations : List Declaration := []
  important : List Bool := []
  anyImportant : PerPhase := {}
  anyNormal : PerPhase := {}

/-- What cssparser's `DeclarationListParser` finds in a block (declaration_block.rs 18-26): a name, a colon and the tokens
up to the next semicolon, or something else, which is an error (at-rules have no implementation here, 120-125). -/
inductive Item where
  | declaration (name : String) (tokens : List Token)
  | invalid

/-- declaration_block.rs 111-112. -/
def PerPhase.or (a b : PerPhase) : PerPhase := ⟨a.early || b.early, a.late || b.late⟩

/-- declaration_block.rs 87-101: the declarations to push and what phases they are of. All pushes of `data.parse` come after
its own parsing succeeded, so nothing is pushed on an error. -/
def parseDeclared (data : PropertyData) : Parser (List Declaration × PerPhase) := fun tokens =>
  match CssWideKeyword.parse tokens with
  | some (keyword, rest) =>
    some ((data.longhands.map (.cssWide · keyword), ⟨data.longhands.any Longhand.isEarly, data.longhands.any (!·.isEarly)⟩), rest)
  | none => data.parse tokens

/-- declaration_block.rs 102: `try(parse_important).is_ok()` and the tokens that remain. -/
def tryImportant (tokens : List Token) : Bool × List Token :=
  match parseImportant tokens with
  | some ((), rest) => (true, rest)
  | none => (false, tokens)

/-- declaration_block.rs 103-112: the importance of the declarations that have just been pushed. -/
def DeclarationBlock.push (block : DeclarationBlock) (ds : List Declaration) (parsed : PerPhase) (important : Bool) :
    DeclarationBlock where
  declarations := block.declarations ++ ds
  important := block.important ++ List.replicate ds.length important
  anyImportant := if important then block.anyImportant.or parsed else block.anyImportant
  anyNormal := if important then block.anyNormal else block.anyNormal.or parsed

/-- declaration_block.rs 79-117, `parse_value`: the block and the tokens that remain. -/
def DeclarationBlock.parseValue (colors : Colors) (block : DeclarationBlock) (name : String) (tokens : List Token) :
    Outcome (DeclarationBlock × List Token) :=
  match propertyDataByName colors name with
  | none => .err
  | some data =>
    match parseDeclared data tokens with
    | none => .err
    | some ((ds, parsed), rest) =>
      if ds.length > 0 then .ok (block.push ds parsed (tryImportant rest).1, (tryImportant rest).2) else .panic

/-- declaration_block.rs 24-38: one round of the loop. cssparser's `parse_until_after` calls `parse_value` through
`parse_entirely`, which makes an error of tokens that remain; the assertion on line 30 then finds the declarations pushed
before. -/
def DeclarationBlock.parseItem (colors : Colors) (block : DeclarationBlock) : Item → Outcome DeclarationBlock
  | .invalid => .ok block
  | .declaration name tokens =>
    match block.parseValue colors name tokens with
    | .err => .ok block
    | .panic => .panic
    | .ok (block', rest) =>
      if rest = [] then .ok block'
      else if block'.declarations.length = block.declarations.length then .ok block' else .panic

/-- declaration_block.rs 24-38: the loop. -/
def DeclarationBlock.parseItems (colors : Colors) (block : DeclarationBlock) : List Item → Outcome DeclarationBlock
  | [] => .ok block
  | item :: items =>
    match block.parseItem colors item with
    | .ok block' => block'.parseItems colors items
    | .err => .err
    | .panic => .panic

/-- declaration_block.rs 17-48, `DeclarationBlock::parse`. The `debug_assert`s are `DeclarationBlock.Consistent`. -/
def DeclarationBlock.parse (colors : Colors) (items : List Item) : Outcome DeclarationBlock :=
  ({} : DeclarationBlock).parseItems colors items

/-- declaration_block.rs 34-46: the conditions of the `debug_assert_eq!`s. -/
structure DeclarationBlock.Consistent (block : DeclarationBlock) : Prop where
  length : block.declarations.length = block.important.length
  normal : (block.anyNormal.early || block.anyNormal.late) = !block.important.all (· = true)
  important : (block.anyImportant.early || block.anyImportant.late) = !block.important.all (· = false)

/-- declaration_block.rs 58-68, `cascade`. -/
def DeclarationBlock.cascade (block : DeclarationBlock) (important : Bool) (any : PerPhase) (phase : Phase)
    (inherited computed : Values) : Values :=
  if phase.select any then
    (block.declarations.zip block.important).foldl
      (fun computed (d : Declaration × Bool) => if d.2 = important then phase.cascade inherited computed d.1 else computed)
      computed
  else computed

/-- declaration_block.rs 50-52. -/
def DeclarationBlock.cascadeNormal (block : DeclarationBlock) (phase : Phase) (inherited computed : Values) : Values :=
  block.cascade false block.anyNormal phase inherited computed

/-- declaration_block.rs 54-56. -/
def DeclarationBlock.cascadeImportant (block : DeclarationBlock) (phase : Phase) (inherited computed : Values) : Values :=
  block.cascade true block.anyImportant phase inherited computed

end Verif.Style
