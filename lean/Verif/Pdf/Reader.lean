import Verif.Pdf.Bytes
/-
Specification: a reader for the PDF object syntax (ISO 32000-1, 7.2 and 7.3), written independently of the
writer. Comments, `true`, `false` and `null` are left out: keywords are returned as keywords.
-/
namespace Verif.Pdf

/-- PDF object values. Literal and hexadecimal strings are both strings; dictionaries keep their order. -/
inductive Val (R : Type) where
  | int (i : Int)
  | real (r : R)
  | name (b : List Byte)
  | str (b : List Byte)
  | array (l : List (Val R))
  | dict (l : List (List Byte × Val R))
  | ref (id gen : Nat)

/-- 7.2.2: white-space characters NUL, TAB, LF, FF, CR, SPACE. -/
def isWhite (b : Byte) : Bool := b.val ∈ [0, 9, 10, 12, 13, 32]
/-- 7.2.2: delimiters `( ) < > [ ] { } / %`. -/
def isDelim (b : Byte) : Bool := b.val ∈ [40, 41, 60, 62, 91, 93, 123, 125, 47, 37]
/-- 7.2.2: all other characters. -/
def isRegular (b : Byte) : Bool := !isWhite b && !isDelim b

/-- Value of a hexadecimal digit, upper or lower case. -/
def hexValue (b : Byte) : Option Nat :=
  if 48 ≤ b.val ∧ b.val ≤ 57 then some (b.val - 48)
  else if 65 ≤ b.val ∧ b.val ≤ 70 then some (b.val - 55)
  else if 97 ≤ b.val ∧ b.val ≤ 102 then some (b.val - 87)
  else none

/-- 7.3.5: `#` and two hexadecimal digits stand for a byte; `#` stands for nothing else. -/
def decodeName : List Byte → Option (List Byte)
  | [] => some []
  | 35 :: x :: y :: bs => do
      let h ← hexValue x
      let l ← hexValue y
      let r ← decodeName bs
      return Fin.ofNat 256 (h * 16 + l) :: r
  | b :: bs => if b = 35 then none else do
      let r ← decodeName bs
      return b :: r

/-- 7.3.4.3: hexadecimal string after `<`, up to `>`; white space is ignored, a missing last digit is 0. -/
def readHex (pending : Option Nat) : List Byte → Option (List Byte × List Byte)
  | [] => none
  | b :: bs =>
    if b = 62 then
      match pending with
      | none => some ([], bs)
      | some h => some ([Fin.ofNat 256 (h * 16)], bs)
    else if isWhite b then readHex pending bs
    else do
      let v ← hexValue b
      match pending with
      | none => readHex (some v) bs
      | some h =>
        let (s, r) ← readHex none bs
        return (Fin.ofNat 256 (h * 16 + v) :: s, r)

/-- An octal digit. -/
def octal (b : Byte) : Option Nat := if 48 ≤ b.val ∧ b.val ≤ 55 then some (b.val - 48) else none

/-- 7.3.4.2: what a backslash and one character stand for. -/
def escaped (b : Byte) : List Byte :=
  if b = 110 then [10] else if b = 114 then [13] else if b = 116 then [9] else if b = 98 then [8]
  else if b = 102 then [12] else [b]

/-- Where we are inside a literal string: in plain text, after a backslash, in an octal escape (value so far and
whether two digits were read), or after a carriage return (a line feed is then part of the same line end). -/
inductive LitState where
  | plain
  | backslash
  | octal (v : Nat) (two : Bool)
  | cr

/-- Effect of one byte: the bytes it adds, and either the end of the string or the next state and depth. -/
inductive LitStep where
  | done
  | cont (out : List Byte) (st : LitState) (depth : Nat)

/-- 7.3.4.2: a byte in plain text, inside `depth` further parentheses. Any line end reads as LF. -/
def litPlain (depth : Nat) (b : Byte) : LitStep :=
  if b = 92 then .cont [] .backslash depth
  else if b = 13 then .cont [10] .cr depth
  else if b = 40 then .cont [40] .plain (depth + 1)
  else if b = 41 then
    match depth with
    | 0 => .done
    | depth + 1 => .cont [41] .plain depth
  else .cont [b] .plain depth

/-- 7.3.4.2: a byte in each state. The first list is what a pending octal escape adds before it. -/
def litStep (st : LitState) (depth : Nat) (b : Byte) : List Byte × LitStep :=
  match st with
  | .plain => ([], litPlain depth b)
  | .cr => ([], if b = 10 then .cont [] .plain depth else litPlain depth b)
  | .backslash =>
    match octal b with
    | some x => ([], .cont [] (.octal x false) depth)
    | none => ([], if b = 10 then .cont [] .plain depth
        else if b = 13 then .cont [] .cr depth
        else .cont (escaped b) .plain depth)
  | .octal v two =>
    match octal b with
    | some x => if two then ([], .cont [Fin.ofNat 256 (v * 8 + x)] .plain depth)
        else ([], .cont [] (.octal (v * 8 + x) true) depth)
    | none => ([Fin.ofNat 256 v], litPlain depth b)

/-- 7.3.4.2: the rest of a literal string, up to its closing parenthesis. -/
def readLiteral (st : LitState) (depth : Nat) : List Byte → Option (List Byte × List Byte)
  | [] => none
  | b :: bs =>
    match litStep st depth b with
    | (p, .done) => some (p, bs)
    | (p, .cont q st depth) => (readLiteral st depth bs).map fun x => (p ++ q ++ x.1, x.2)

/-- 7.3.3: integers: digits with an optional sign. -/
def readInt : List Byte → Option Int
  | 45 :: b :: bs => (digitsValue 0 (b :: bs)).map fun n : Nat => -(n : Int)
  | 43 :: b :: bs => (digitsValue 0 (b :: bs)).map fun n : Nat => (n : Int)
  | b :: bs => (digitsValue 0 (b :: bs)).map fun n : Nat => (n : Int)
  | [] => none

inductive Token (R : Type) where
  | int (i : Int)
  | real (r : R)
  | name (b : List Byte)
  | str (b : List Byte)
  | arrayOpen
  | arrayClose
  | dictOpen
  | dictClose
  | keyword (b : List Byte)

section
variable {R : Type} (readReal : List Byte → Option R)

/-- The next token and what follows it. `readReal` reads the text of a real number. -/
def nextToken (bs : List Byte) : Option (Token R × List Byte) :=
  match bs.dropWhile isWhite with
  | [] => none
  | 47 :: r => (decodeName (r.takeWhile isRegular)).map fun n => (.name n, r.dropWhile isRegular)
  | 40 :: r => (readLiteral .plain 0 r).map fun x => (.str x.1, x.2)
  | 60 :: 60 :: r => some (.dictOpen, r)
  | 60 :: r => (readHex none r).map fun x => (.str x.1, x.2)
  | 62 :: 62 :: r => some (.dictClose, r)
  | 91 :: r => some (.arrayOpen, r)
  | 93 :: r => some (.arrayClose, r)
  | b :: r =>
    if isDelim b then none
    else
      let t := (b :: r).takeWhile isRegular
      let r' := (b :: r).dropWhile isRegular
      match readInt t with
      | some i => some (.int i, r')
      | none => match readReal t with
        | some x => some (.real x, r')
        | none => some (.keyword t, r')

/-- 7.3.10: after the integer `n`: is this `n g R`? -/
def readAfterInt (n : Int) (r : List Byte) : Val R × List Byte :=
  match nextToken readReal r with
  | some (.int g, r2) =>
    match nextToken readReal r2 with
    | some (.keyword [82], r3) => (.ref n.toNat g.toNat, r3)
    | _ => (.int n, r)
  | _ => (.int n, r)

mutual
/-- One object and what follows it. -/
def readObj : Nat → List Byte → Option (Val R × List Byte)
  | 0, _ => none
  | fuel + 1, bs =>
    match nextToken readReal bs with
    | some (.int n, r) => some (readAfterInt readReal n r)
    | some (.real x, r) => some (.real x, r)
    | some (.name n, r) => some (.name n, r)
    | some (.str s, r) => some (.str s, r)
    | some (.arrayOpen, r) => (readItems fuel r).map fun x => (.array x.1, x.2)
    | some (.dictOpen, r) => (readPairs fuel r).map fun x => (.dict x.1, x.2)
    | _ => none
/-- Array items up to `]`. -/
def readItems : Nat → List Byte → Option (List (Val R) × List Byte)
  | 0, _ => none
  | fuel + 1, bs =>
    match nextToken readReal bs with
    | some (.arrayClose, r) => some ([], r)
    | _ => do
      let (v, r) ← readObj fuel bs
      let (vs, r) ← readItems fuel r
      return (v :: vs, r)
/-- Dictionary entries up to `>>`. -/
def readPairs : Nat → List Byte → Option (List (List Byte × Val R) × List Byte)
  | 0, _ => none
  | fuel + 1, bs =>
    match nextToken readReal bs with
    | some (.dictClose, r) => some ([], r)
    | some (.name k, r) => do
      let (v, r) ← readObj fuel r
      let (vs, r) ← readPairs fuel r
      return ((k, v) :: vs, r)
    | _ => none
end

end

end Verif.Pdf
