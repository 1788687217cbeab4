/- Bytes and decimal numbers. -/
namespace Verif.Pdf

/-- Rust `u8`. -/
abbrev Byte := Fin 256

/-- The bytes of an ASCII string (Rust `b"..."`). -/
def ascii (s : String) : List Byte := s.toList.map fun c => Fin.ofNat 256 c.toNat

/-- ASCII digit of a number below ten. -/
def digit (n : Nat) : Byte := Fin.ofNat 256 (48 + n % 10)

/-- Decimal digits of `n`, most significant first, at most `k` of them. -/
def decimalAux : Nat → Nat → List Byte
  | 0, _ => []
  | k + 1, n => if n < 10 then [digit n] else decimalAux k (n / 10) ++ [digit n]

/-- Decimal digits, most significant first: what `itoa::write` writes for an unsigned integer (crate `itoa`,
called in pdf/object.rs 154-155, 189 and pdf/syntax.rs 89, 100, 116, 134; the crate itself is not modelled). -/
def decimal (n : Nat) : List Byte := decimalAux (n + 1) n

theorem decimalAux_enough : ∀ k k' n, n < k → n < k' → decimalAux k n = decimalAux k' n := by
  intro k
  induction k with
  | zero => intro k' n h; omega
  | succ k ih =>
    intro k' n h h'
    cases k' with
    | zero => omega
    | succ k' =>
      simp only [decimalAux]
      split
      · rfl
      · rw [ih k' (n / 10) (by omega) (by omega)]

theorem decimal_eq (n : Nat) : decimal n = if n < 10 then [digit n] else decimal (n / 10) ++ [digit n] := by
  unfold decimal
  rw [decimalAux]
  split
  · rfl
  · rw [decimalAux_enough n (n / 10 + 1) (n / 10) (by omega) (by omega)]

/-- `itoa::write` of a signed integer. -/
def decimalInt (i : Int) : List Byte :=
  if i < 0 then 45 :: decimal i.natAbs else decimal i.natAbs

/-- Value of a string of digits, `none` if some byte is not a digit. -/
def digitsValue (acc : Nat) : List Byte → Option Nat
  | [] => some acc
  | b :: bs => if 48 ≤ b.val ∧ b.val ≤ 57 then digitsValue (acc * 10 + (b.val - 48)) bs else none

theorem digit_val (n : Nat) : (digit n).val = 48 + n % 10 := by
  simp only [digit, Fin.ofNat]
  omega

theorem digitsValue_append (a b : List Byte) : ∀ acc, digitsValue acc (a ++ b) =
    (digitsValue acc a).bind fun x => digitsValue x b := by
  induction a with
  | nil => intro acc; rfl
  | cons x a ih =>
    intro acc
    simp only [List.cons_append, digitsValue]
    split
    · exact ih _
    · rfl

theorem digitsValue_digit (acc n : Nat) : digitsValue acc [digit n] = some (acc * 10 + n % 10) := by
  simp only [digitsValue, digit_val]
  rw [if_pos ⟨by omega, by omega⟩]
  congr 1; omega

theorem digitsValue_decimal (n : Nat) : digitsValue 0 (decimal n) = some n := by
  induction n using Nat.strongRecOn with
  | ind n ih =>
    rw [decimal_eq]
    split
    · rw [digitsValue_digit]; congr 1; omega
    · rw [digitsValue_append, ih (n / 10) (by omega)]
      simp only [Option.bind_some]
      rw [digitsValue_digit]; congr 1; omega

theorem decimal_ne_nil (n : Nat) : decimal n ≠ [] := by
  rw [decimal_eq]; split <;> simp

theorem decimal_digits (n : Nat) : ∀ b ∈ decimal n, 48 ≤ b.val ∧ b.val ≤ 57 := by
  induction n using Nat.strongRecOn with
  | ind n ih =>
    intro b hb
    rw [decimal_eq] at hb
    split at hb
    · simp only [List.mem_singleton] at hb
      subst hb; rw [digit_val]; omega
    · simp only [List.mem_append, List.mem_singleton] at hb
      rcases hb with hb | rfl
      · exact ih (n / 10) (by omega) b hb
      · rw [digit_val]; omega

theorem decimal_injective {m n : Nat} (h : decimal m = decimal n) : m = n := by
  have := digitsValue_decimal m
  rw [h, digitsValue_decimal] at this
  exact (Option.some.inj this).symm

end Verif.Pdf
