/- The real numbers of PDF files (ISO 32000-1, 7.3.3) as `f32`, and one way to print them. -/
import Verif.Pdf.PrintedTheorems
import Mathlib.Data.Countable.Basic
import Verif.Pdf.SingleFloats
import Verif.Pdf.ObjectTheorems
namespace Verif.Pdf
open Verif.Float

/-- 7.3.3: digits with a decimal point. -/
def readUnsigned (t : List Byte) : Option Rat :=
  match t.dropWhile isDigit with
  | 46 :: fraction =>
    let digits := t.takeWhile isDigit ++ fraction
    if digits = [] then none
    else match digitsValue 0 digits with
      | some n => some ((n : Rat) / 10 ^ fraction.length)
      | none => none
  | _ => none

/-- 7.3.3: an optional sign, digits with a decimal point: whether there is a minus sign, and the absolute value. -/
def readDecimal : List Byte → Option (Bool × Rat)
  | [] => none
  | b :: t =>
    if b = 45 then (readUnsigned t).map fun x => (true, x)
    else if b = 43 then (readUnsigned t).map fun x => (false, x)
    else (readUnsigned (b :: t)).map fun x => (false, x)

/-- A reader of real numbers in single precision: the nearest number. -/
def readSingle (t : List Byte) : Option Single := (readDecimal t).map fun x => .signed x.1 x.2

/-- A number of units of 10 to the power of `-k`, with `k` digits after the point. -/
def fixedText (k : Nat) (neg : Bool) (n : Nat) : List Byte :=
  (if neg then [45] else []) ++ (decimal (n / 10 ^ k) ++ 46 :: zeroPadded k (n % 10 ^ k))

/-- All digits of a number; infinities and NaN as words. -/
def exactText : Single → List Byte
  | .nan => ascii "NaN"
  | .num neg bits _ => if bits = infinityBits then ascii "inf" else fixedText 149 neg (units bits * 5 ^ 149)

theorem dropWhile_digits {l : List Byte} (h : ∀ b ∈ l, isDigit b = true) (r : List Byte) :
    (l ++ 46 :: r).dropWhile isDigit = 46 :: r ∧ (l ++ 46 :: r).takeWhile isDigit = l := by
  induction l with
  | nil => exact ⟨by simp [isDigit], by simp [isDigit]⟩
  | cons b l ih =>
    obtain ⟨h1, h2⟩ := ih fun b hb => h b (by simp [hb])
    simp [h b (by simp), h1, h2]

theorem readUnsigned_digits {a : List Byte} {r : List Byte} {n : Nat} (ha : ∀ b ∈ a, isDigit b = true) (hne : a ≠ [])
    (hv : digitsValue 0 (a ++ r) = some n) : readUnsigned (a ++ 46 :: r) = some ((n : Rat) / 10 ^ r.length) := by
  obtain ⟨h1, h2⟩ := dropWhile_digits ha r
  unfold readUnsigned
  rw [h1, h2]
  show (if a ++ r = [] then none else match digitsValue 0 (a ++ r) with
    | some n => some ((n : Rat) / 10 ^ r.length)
    | none => none) = _
  rw [if_neg (by simp [hne]), hv]

theorem readDecimal_digits {a : List Byte} {r : List Byte} {n : Nat} (ha : ∀ b ∈ a, isDigit b = true) (hne : a ≠ [])
    (hv : digitsValue 0 (a ++ r) = some n) (neg : Bool) :
    readDecimal ((if neg then [45] else []) ++ (a ++ 46 :: r)) = some (neg, (n : Rat) / 10 ^ r.length) := by
  have h := readUnsigned_digits ha hne hv
  cases neg with
  | true =>
    simp only [if_true, List.singleton_append, readDecimal, h, Option.map_some]
  | false =>
    cases a with
    | nil => exact absurd rfl hne
    | cons b a =>
      have hb := ha b (by simp)
      have h1 : b ≠ 45 := by rintro rfl; exact absurd hb (by decide)
      have h2 : b ≠ 43 := by rintro rfl; exact absurd hb (by decide)
      simp only [Bool.false_eq_true, if_false, List.nil_append, List.cons_append, readDecimal, h1, h2]
      rw [List.cons_append] at h
      rw [h, Option.map_some]

theorem digitsValue_padded (a k v : Nat) (hv : v < 10 ^ k) : digitsValue a (zeroPadded k v) = some (a * 10 ^ k + v) := by
  induction k generalizing v with
  | zero =>
    simp only [Nat.pow_zero, Nat.lt_one_iff] at hv
    subst hv
    simp [zeroPadded, digitsValue]
  | succ k ih =>
    rw [zeroPadded, digitsValue_append, ih (v / 10) (by rw [Nat.pow_succ] at hv; omega)]
    simp only [Option.bind_some, digitsValue_digit, Option.some.injEq]
    rw [Nat.pow_succ, ← Nat.mul_assoc]
    omega

theorem fixedText_value (k : Nat) (neg : Bool) (n : Nat) : readDecimal (fixedText k neg (n * 5 ^ k)) = some (neg, (n : Rat) / 2 ^ k) := by
  have hd : digitsValue 0 (decimal (n * 5 ^ k / 10 ^ k) ++ zeroPadded k (n * 5 ^ k % 10 ^ k)) = some (n * 5 ^ k) := by
    rw [digitsValue_append, digitsValue_decimal]
    simp only [Option.bind_some]
    rw [digitsValue_padded _ _ _ (Nat.mod_lt _ (Nat.pow_pos (by omega))), Nat.div_add_mod']
  have hv : ((n * 5 ^ k : Nat) : Rat) / 10 ^ k = (n : Rat) / 2 ^ k := by
    have : (10 : Rat) ^ k = 2 ^ k * 5 ^ k := by rw [← mul_pow]; norm_num
    rw [this, Nat.cast_mul, Nat.cast_pow]
    exact mul_div_mul_right _ _ (by positivity)
  unfold fixedText
  rw [readDecimal_digits (decimal_isDigit _) (decimal_ne_nil _) hd, zeroPadded_length, hv]

theorem exactText_finite {neg : Bool} {bits : Nat} {hb : bits ≤ infinityBits} (h : bits < infinityBits) :
    exactText (.num neg bits hb) = fixedText 149 neg (units bits * 5 ^ 149) := if_neg (Nat.ne_of_lt h)

theorem digitsValue_isDigit {t : List Byte} {acc n : Nat} (h : digitsValue acc t = some n) : ∀ b ∈ t, isDigit b = true := by
  induction t generalizing acc with
  | nil => simp
  | cons a t ih =>
    rw [digitsValue] at h
    split at h
    · rename_i ha
      intro b hb
      rcases List.mem_cons.1 hb with rfl | hb
      · simpa [isDigit] using ha
      · exact ih h b hb
    · cases h

theorem readUnsigned_chars {t : List Byte} {x : Rat} (h : readUnsigned t = some x) : 46 ∈ t ∧ ∀ b ∈ t, b = 46 ∨ isDigit b = true := by
  unfold readUnsigned at h
  split at h
  · rename_i fraction e
    have ht : t.takeWhile isDigit ++ 46 :: fraction = t := by rw [← e]; exact List.takeWhile_append_dropWhile
    dsimp only at h
    split at h
    · cases h
    · split at h
      · rename_i n hn
        have hd := digitsValue_isDigit hn
        rw [← ht]
        refine ⟨by simp, ?_⟩
        intro b hb
        simp only [List.mem_append, List.mem_cons] at hb
        rcases hb with hb | hb | hb
        · exact .inr (hd b (by simp [hb]))
        · exact .inl hb
        · exact .inr (hd b (by simp [hb]))
      · cases h
  · cases h

theorem readDecimal_chars {t : List Byte} {x : Bool × Rat} (h : readDecimal t = some x) :
    46 ∈ t ∧ (∀ b ∈ t, b = 45 ∨ b = 43 ∨ b = 46 ∨ isDigit b = true) := by
  cases t with
  | nil => cases h
  | cons b t =>
    simp only [readDecimal] at h
    split at h
    · rename_i hb
      obtain ⟨y, hy, -⟩ := Option.map_eq_some_iff.1 h
      obtain ⟨h1, h2⟩ := readUnsigned_chars hy
      refine ⟨by simp [h1], ?_⟩
      intro c hc
      rcases List.mem_cons.1 hc with rfl | hc
      · exact .inl hb
      · exact .inr (.inr (h2 c hc))
    · split at h
      · rename_i hb
        obtain ⟨y, hy, -⟩ := Option.map_eq_some_iff.1 h
        obtain ⟨h1, h2⟩ := readUnsigned_chars hy
        refine ⟨by simp [h1], ?_⟩
        intro c hc
        rcases List.mem_cons.1 hc with rfl | hc
        · exact .inr (.inl hb)
        · exact .inr (.inr (h2 c hc))
      · obtain ⟨y, hy, -⟩ := Option.map_eq_some_iff.1 h
        obtain ⟨h1, h2⟩ := readUnsigned_chars hy
        exact ⟨h1, fun c hc => .inr (.inr (h2 c hc))⟩

/-- All that is assumed of how `dtoa` prints the `f32` that are good is that a reader that rounds the real numbers of a PDF file to the nearest
`f32` reads them back. -/
theorem realTextOn_single {good : Single → Prop} {dtoa : Single → List Byte} (h : ∀ r, good r → readSingle (dtoa r) = some r) :
    RealTextOn good dtoa readSingle where
  reads_back := h
  regular r hr := by
    obtain ⟨x, hx, -⟩ := Option.map_eq_some_iff.1 (h r hr)
    intro b hb
    have key : ∀ b : Byte, (b = 45 ∨ b = 43 ∨ b = 46 ∨ isDigit b = true) → isRegular b = true := by decide +kernel
    exact key b ((readDecimal_chars hx).2 b hb)
  not_int r hr := by
    obtain ⟨x, hx, -⟩ := Option.map_eq_some_iff.1 (h r hr)
    exact readInt_dot (readDecimal_chars hx).1
  not_empty r hr := by
    obtain ⟨x, hx, -⟩ := Option.map_eq_some_iff.1 (h r hr)
    exact List.ne_nil_of_mem (readDecimal_chars hx).1
  start b t hb := by
    have : readDecimal (b :: t) = none := by
      rcases hr : readDecimal (b :: t) with _ | x
      · rfl
      have key : ∀ b : Byte, (b = 45 ∨ b = 43 ∨ b = 46 ∨ isDigit b = true) → b ∈ ascii "0123456789+-." := by decide +kernel
      exact absurd (key b ((readDecimal_chars hr).2 b (by simp))) hb
    simp [readSingle, this]

/-- The assumption is met for all finite numbers if all their digits are printed. -/
theorem exactText_reads (r : Single) (hr : r.Finite) : readSingle (exactText r) = some r := by
  rcases r with _ | ⟨neg, bits, hb⟩
  · exact absurd rfl hr.1
  rw [readSingle, exactText_finite (Single.finite_num.1 hr), fixedText_value, Option.map_some]
  have : (units bits : Rat) / 2 ^ 149 * 2 ^ 149 = units bits := div_mul_cancel₀ _ (by positivity)
  simp only [Single.signed, this, nearestBits_units hb]

instance : Countable Single := by
  let f : Single → Option (Bool × Nat)
    | .nan => none
    | .num neg bits _ => some (neg, bits)
  refine Function.Injective.countable (f := f) ?_
  rintro (_ | ⟨n, b, h⟩) (_ | ⟨n', b', h'⟩) e
  · rfl
  · cases e
  · cases e
  · cases e; rfl

end Verif.Pdf
