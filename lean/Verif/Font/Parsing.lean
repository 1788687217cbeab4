/- Model of `victor/src/fonts/parsing.rs`: reading typed values at positions of a font file. -/
namespace Verif.Font

/-- Rust `u8`. -/
abbrev Byte := Fin 256

/-- fonts/mod.rs 23-46, `FontError`. -/
inductive FontError where
  | unsupportedFormat
  | offsetBeyondEof
  | offsetPlusLengthBeyondEof
  | missingTable
  | noSupportedPostscriptName
  | noSupportedCmap
  | noHorizontalGlyphMetrics
  deriving DecidableEq, Repr

/-- How a Rust call can end: `Ok`, `Err`, a panic, or undefined behaviour (a raw pointer read outside its
allocation). Arithmetic overflow is a panic, as in a build with overflow checks; a release build wraps instead, and
does the same as the model in every case where the model does not panic. -/
inductive Res (α : Type) where
  | ok (a : α)
  | err (e : FontError)
  | panic
  | ub
  deriving DecidableEq, Repr

namespace Res

/-- The `?` operator. -/
def bind {α β : Type} : Res α → (α → Res β) → Res β
  | .ok a, f => f a
  | .err e, _ => .err e
  | .panic, _ => .panic
  | .ub, _ => .ub

instance : Monad Res where
  pure := .ok
  bind := Res.bind

/-- `Option::ok_or(e)?`. -/
def ofOption {α : Type} (e : FontError) : Option α → Res α
  | some a => .ok a
  | none => .err e

end Res

/-- `u32` addition, with overflow check. -/
def addU32 (a b : Nat) : Res Nat := if a + b < 4294967296 then .ok (a + b) else .panic

/-- `u32` multiplication, with overflow check. -/
def mulU32 (a b : Nat) : Res Nat := if a * b < 4294967296 then .ok (a * b) else .panic

/-- Unsigned subtraction, with overflow check. -/
def subU32 (a b : Nat) : Res Nat := if b ≤ a then .ok (a - b) else .panic

/-- parsing.rs 45-50, `Position::offset_bytes`. A `Position<T>` is modelled by its `byte_position`, a number below
2^32; the phantom type is dropped and `mem::size_of::<T>()` is passed explicitly where it is used. -/
def offsetBytes (pos by_ : Nat) : Res Nat := addU32 pos by_

/-- parsing.rs 52-54, `Position::offset`. -/
def offset (size pos by_ : Nat) : Res Nat := do
  let n ← mulU32 size by_
  offsetBytes pos n

/-- parsing.rs 56-58, `Position::followed_by`. -/
def followedBy (size pos : Nat) : Res Nat := offsetBytes pos size

/-- `bytes.get(pos..)` (`usize` is at least 32 bits wide, so `as usize` loses nothing). -/
def sliceFrom (bytes : List Byte) (pos : Nat) : Option (List Byte) :=
  if pos ≤ bytes.length then some (bytes.drop pos) else none

/-- `bytes.get(..n)`. -/
def sliceTo (bytes : List Byte) (n : Nat) : Option (List Byte) :=
  if n ≤ bytes.length then some (bytes.take n) else none

/-- parsing.rs 85-88: `*ptr` for `ptr` the start of `bytes` cast to `*const [u8; n]`. Reading a slice shorter than
`n` bytes this way is undefined behaviour. -/
def derefArray (n : Nat) (bytes : List Byte) : Res (List Byte) :=
  if n ≤ bytes.length then .ok (bytes.take n) else .ub

/-- parsing.rs 76-94, `<[u8; n]>::read_from`. -/
def byteArray (n : Nat) (bytes : List Byte) : Res (List Byte) := do
  let bytes ← Res.ofOption .offsetPlusLengthBeyondEof (sliceTo bytes n)
  derefArray n bytes

/-- `mem::transmute` of a byte array to an integer followed by `from_be` (parsing.rs 97-131), on either
endianness of the host: the big-endian value of the array. -/
def fromBe (bytes : List Byte) : Nat := bytes.foldl (fun acc b => acc * 256 + b.val) 0

/-- parsing.rs 60-70, `Position::read_from`, given the `ReadFromBytes::read_from` of the type. -/
def readFrom {α : Type} (read : List Byte → Res α) (bytes : List Byte) (pos : Nat) : Res α := do
  let rest ← Res.ofOption .offsetBeyondEof (sliceFrom bytes pos)
  read rest

/-- parsing.rs 117-123: a `u16` at a position; also `UFWord` and `FontDesignUnitsPerEmFactorU16` (133-149), which
wrap the number. -/
def readU16 (bytes : List Byte) (pos : Nat) : Res Nat :=
  readFrom (fun b => do let a ← byteArray 2 b; pure (fromBe a)) bytes pos

/-- parsing.rs 109-115: an `i16` at a position; also `FWord` (142-149). -/
def readI16 (bytes : List Byte) (pos : Nat) : Res Int :=
  readFrom (fun b => do
    let a ← byteArray 2 b
    let v := fromBe a
    pure (if v < 32768 then (v : Int) else (v : Int) - 65536)) bytes pos

/-- parsing.rs 125-131: a `u32` at a position. -/
def readU32 (bytes : List Byte) (pos : Nat) : Res Nat :=
  readFrom (fun b => do let a ← byteArray 4 b; pure (fromBe a)) bytes pos

/-- types.rs 19-20 with derive(ReadFromBytes): a `Tag` at a position. -/
def readTag (bytes : List Byte) (pos : Nat) : Res (List Byte) := readFrom (byteArray 4) bytes pos

/-- parsing.rs 17-20, `Slice<T>`. -/
structure Slice where
  start : Nat
  count : Nat
  deriving DecidableEq, Repr

/-- parsing.rs 151-159, `Slice::<u8>::read_from`. -/
def Slice.readBytes (s : Slice) (bytes : List Byte) : Res (List Byte) := do
  let rest ← Res.ofOption .offsetBeyondEof (sliceFrom bytes s.start)
  Res.ofOption .offsetPlusLengthBeyondEof (sliceTo rest s.count)

/-- parsing.rs 175-177, `Slice::get_unchecked`. -/
def Slice.getUnchecked (size : Nat) (s : Slice) (index : Nat) : Res Nat := offset size s.start index

/-- parsing.rs 206-217: the loop of `binary_search`. `fuel` bounds the number of rounds; `size` is enough, because
each round makes `size` smaller (`binarySearchLoop_enough`). -/
def binarySearchLoop (f : Nat → Res Ordering) : Nat → Nat → Nat → Res Nat
  | 0, _, _ => .panic
  | fuel + 1, base, size =>
    if size > 1 then do
      let half := size / 2
      let mid ← addU32 base half
      let cmp ← f mid
      let base := if cmp = .gt then base else mid
      let size ← subU32 size half
      binarySearchLoop f fuel base size
    else .ok base

/-- parsing.rs 196-224, `binary_search`. -/
def binarySearch (size : Nat) (f : Nat → Res Ordering) : Res (Option Nat) :=
  if size = 0 then .ok none
  else do
    let base ← binarySearchLoop f size 0 size
    let cmp ← f base
    if cmp = .eq then pure (some base) else pure none

/-- Rust's `Ord::cmp` for arrays of bytes: lexicographic. -/
def cmpBytes : List Byte → List Byte → Ordering
  | [], [] => .eq
  | [], _ :: _ => .lt
  | _ :: _, [] => .gt
  | a :: as, b :: bs => if a.val < b.val then .lt else if b.val < a.val then .gt else cmpBytes as bs

/-- parsing.rs 180-193, `Slice::binary_search_by_key`, for keys that are tags. -/
def Slice.binarySearchByKey (size : Nat) (s : Slice) (value : List Byte) (f : Nat → Res (List Byte)) :
    Res (Option Nat) := do
  let found ← binarySearch s.count fun index => do
    let p ← s.getUnchecked size index
    let key ← f p
    pure (cmpBytes key value)
  match found with
  | none => pure none
  | some index => do
    let p ← s.getUnchecked size index
    pure (some p)

/-- parsing.rs 23-26, `SliceIter<T>`. -/
structure SliceIter where
  start : Nat
  stop : Nat
  deriving DecidableEq, Repr

/-- parsing.rs 248-258, `Slice::into_iter`. -/
def Slice.intoIter (size : Nat) (s : Slice) : Res SliceIter := do
  let stop ← s.getUnchecked size s.count
  pure ⟨s.start, stop⟩

/-- parsing.rs 261-273, `SliceIter::next`: the item and the new state. -/
def SliceIter.next (size : Nat) (it : SliceIter) : Res (Option (Nat × SliceIter)) :=
  if it.start ≠ it.stop then do
    let next := it.start
    let start ← followedBy size next
    pure (some (next, { it with start := start }))
  else pure none

/-- parsing.rs 275-289, `SliceIter::next_back`. -/
def SliceIter.nextBack (size : Nat) (it : SliceIter) : Res (Option (Nat × SliceIter)) :=
  if it.start ≠ it.stop then do
    let next := it.stop
    let bytePosition ← subU32 next size
    pure (some (next, { it with stop := bytePosition }))
  else pure none

/-- A Rust `for` loop over an iterator given by its `next` function; the body returns `some b` to leave the loop
with a value. `fuel` bounds the number of calls of `next`. -/
def forLoop {β : Type} (next : SliceIter → Res (Option (Nat × SliceIter))) (body : Nat → Res (Option β)) :
    Nat → SliceIter → Res (Option β)
  | 0, _ => .panic
  | fuel + 1, it => do
    match ← next it with
    | none => pure none
    | some (p, it) => do
      match ← body p with
      | some b => pure (some b)
      | none => forLoop next body fuel it

/-- `Iterator::collect`: calls `next` until it returns `None`. -/
def collect (next : SliceIter → Res (Option (Nat × SliceIter))) : Nat → SliceIter → Res (List Nat)
  | 0, _ => .panic
  | fuel + 1, it => do
    match ← next it with
    | none => pure []
    | some (p, it) => do
      let ps ← collect next fuel it
      pure (p :: ps)

end Verif.Font
