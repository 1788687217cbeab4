/- Compares Verif.Float.Single with the Float32 of the machine on pseudo-random and special numbers. -/
import Verif.Float.Single
open Verif.Float

def ofMachine (x : Float32) : Single :=
  if x.isNaN then .nan
  else
    let b := x.toBits.toNat
    if h : b % 2 ^ 31 ≤ infinityBits then .num (b ≥ 2 ^ 31) (b % 2 ^ 31) h else .nan

def step (s : UInt64) : UInt64 :=
  let s := s ^^^ (s <<< 13)
  let s := s ^^^ (s >>> 7)
  s ^^^ (s <<< 17)

/-- Special numbers, numbers near to each other and any numbers. -/
def pick (s : UInt64) : Float32 :=
  let special : Array UInt32 := #[0, 0x80000000, 1, 0x80000001, 0x007fffff, 0x00800000, 0x7f7fffff, 0xff7fffff, 0x7f800000, 0xff800000, 0x7fc00000,
    0x3f800000, 0xbf800000, 0x4b800000, 0x4b7fffff, 0x33800000, 0x3f000000, 0x40400000]
  match (s % 4).toNat with
  | 0 => Float32.ofBits special[((s >>> 8).toNat % special.size)]!
  | 1 => Float32.ofBits ((0x3e800000 : UInt32) + (s >>> 20).toUInt32 % (0x02000000 : UInt32))
  | _ => Float32.ofBits (s >>> 16).toUInt32

def main : IO UInt32 := do
  let mut s : UInt64 := 88172645463325252
  let mut bad := 0
  let mut count := 0
  for _ in [0:100000] do
    s := step s
    let x := pick s
    s := step s
    let y := pick s
    let a := ofMachine x
    let b := ofMachine y
    let checks : List (String × Bool) := [
      ("add", Single.add a b == ofMachine (x + y)), ("sub", Single.sub a b == ofMachine (x - y)),
      ("mul", Single.mul a b == ofMachine (x * y)), ("div", Single.div a b == ofMachine (x / y)),
      ("neg", Single.neg a == ofMachine (-x)), ("gt", Single.gt a b == decide (x > y)), ("ge", Single.ge a b == decide (x ≥ y)),
      ("eq", Single.eq a b == (x == y)), ("ofNat", Single.ofNat s.toNat == ofMachine s.toFloat32)]
    for (name, ok) in checks do
      count := count + 1
      unless ok do
        bad := bad + 1
        if bad < 20 then IO.println s!"{name} differs: {x} {y} ({x.toBits} {y.toBits})"
  IO.println s!"{count} comparisons, {bad} differences"
  return if bad = 0 then 0 else 1
