import Verif.Pdf.Bytes
/- Model of pdf/object.rs: PDF object values and how they are written. -/
namespace Verif.Pdf

mutual
/-- pdf/object.rs 6-19 `Object`. `R` is the type of `f32` values. -/
inductive Object (R : Type) where
  | usize (n : Nat)
  | i32 (i : Int)
  | float (r : R)
  | name (b : List Byte)
  | literal (b : List Byte)
  | hex (b : List Byte)
  | array (l : Items R)
  | dict (d : Dictionary R)
  | ref (id : Nat)
  | alpha (r : R)
  | owned (p : Pairs R)
/-- The slice in `Object::Array`. -/
inductive Items (R : Type) where
  | nil
  | cons (o : Object R) (l : Items R)
/-- pdf/object.rs 25 `KeyValuePairs`, and the slice in `DictionaryWithOwnedKeys`. -/
inductive Pairs (R : Type) where
  | nil
  | cons (k : List Byte) (v : Object R) (l : Pairs R)
/-- pdf/object.rs 28-31 `Dictionary`: `prev` absent (55-62) or present (64-71). -/
inductive Dictionary (R : Type) where
  | root (p : Pairs R)
  | linked (prev : Dictionary R) (p : Pairs R)
end

/-- pdf/object.rs 258-262 `CharKind`. -/
inductive CharKind where
  | whitespace
  | delimiter
  | regular
deriving DecidableEq, Repr

/-- pdf/object.rs 282-318 `KIND`, rows of eight. -/
def kindTable : List CharKind :=
  let D := CharKind.delimiter
  let r := CharKind.regular
  let W := CharKind.whitespace
  [ W, r, r, r, r, r, r, r,
    r, W, W, r, W, W, r, r,
    r, r, r, r, r, r, r, r,
    r, r, r, r, r, r, r, r,
    W, r, r, r, r, D, r, r,
    D, D, r, r, r, r, r, D,
    r, r, r, r, r, r, r, r,
    r, r, r, r, D, r, D, r,
    r, r, r, r, r, r, r, r,
    r, r, r, r, r, r, r, r,
    r, r, r, r, r, r, r, r,
    r, r, r, D, r, D, r, r,
    r, r, r, r, r, r, r, r,
    r, r, r, r, r, r, r, r,
    r, r, r, r, r, r, r, r,
    r, r, r, D, r, D, r, r ] ++ List.replicate 128 r

/-- pdf/object.rs 245 `KIND[byte as usize]`. -/
def kind (b : Byte) : CharKind := kindTable.getD b.val .regular

/-- pdf/object.rs 235 `HEX_DIGITS[n]`. -/
def hexDigit (n : Nat) : Byte := (ascii "0123456789ABCDEF").getD n 0

/-- pdf/object.rs 234-240 `write_hex`. -/
def writeHex (b : Byte) : List Byte := [hexDigit (b.val / 16), hexDigit (b.val % 16)]

/-- pdf/object.rs 244-252, the loop of `write_name`. -/
def writeNameBytes : List Byte → List Byte
  | [] => []
  | b :: bs => (match kind b with
      | .regular => [b]
      | .whitespace | .delimiter => 35 :: writeHex b) ++ writeNameBytes bs

/-- pdf/object.rs 242-254 `write_name`. -/
def writeName (n : List Byte) : List Byte := 47 :: writeNameBytes n

/-- pdf/object.rs 161-166: the bytes of a literal string, backslash and parentheses escaped. -/
def writeLiteralBytes : List Byte → List Byte
  | [] => []
  | b :: bs => (if b = 92 ∨ b = 40 ∨ b = 41 then [92, b] else [b]) ++ writeLiteralBytes bs

/-- pdf/object.rs 171-173. -/
def writeHexBytes : List Byte → List Byte
  | [] => []
  | b :: bs => writeHex b ++ writeHexBytes bs

section
variable {R : Type} (dtoa : R → List Byte)

mutual
/-- pdf/object.rs 151-210 `Object::write`, the bytes appended to the writer. `dtoa` is `dtoa::write`. Errors of
the writer are not modelled: they abort the whole document (syntax.rs 170-173). -/
def Object.write : Object R → List Byte
  | .usize n => decimal n
  | .i32 i => decimalInt i
  | .float r => dtoa r
  | .name b => writeName b
  | .literal b => 40 :: writeLiteralBytes b ++ [41]
  | .hex b => 60 :: writeHexBytes b ++ [62]
  | .array .nil => [91, 93]
  | .array (.cons o l) => 91 :: o.write ++ l.writeRest ++ [93]
  | .dict d => [60, 60] ++ d.writePairs ++ [32, 62, 62]
  | .ref id => decimal id ++ [32, 48, 32, 82]
  | .alpha r => [60, 60] ++ (32 :: writeName (ascii "CA") ++ 32 :: dtoa r ++
      (32 :: writeName (ascii "ca") ++ 32 :: dtoa r)) ++ [32, 62, 62]
  | .owned p => [60, 60] ++ p.write ++ [32, 62, 62]
/-- pdf/object.rs 181-184: the items after the first, each after a space. -/
def Items.writeRest : Items R → List Byte
  | .nil => []
  | .cons o l => 32 :: o.write ++ l.writeRest
/-- pdf/object.rs 224-229 and 201-206. -/
def Pairs.write : Pairs R → List Byte
  | .nil => []
  | .cons k v l => 32 :: writeName k ++ 32 :: v.write ++ l.write
/-- pdf/object.rs 220-231 `write_pairs`. -/
def Dictionary.writePairs : Dictionary R → List Byte
  | .root p => p.write
  | .linked prev p => prev.writePairs ++ p.write
end

/-- pdf/object.rs 214-218 `Dictionary::write`. -/
def Dictionary.write (d : Dictionary R) : List Byte := [60, 60] ++ d.writePairs dtoa ++ [32, 62, 62]

end

/-- Array literal, pdf/object.rs 33-40 `array!`. -/
def Items.ofList {R : Type} : List (Object R) → Items R
  | [] => .nil
  | o :: l => .cons o (Items.ofList l)

/-- Key-value literal, pdf/object.rs 42-53 `key_value_pairs!`. -/
def Pairs.ofList {R : Type} : List (List Byte × Object R) → Pairs R
  | [] => .nil
  | (k, v) :: l => .cons k v (Pairs.ofList l)

end Verif.Pdf
