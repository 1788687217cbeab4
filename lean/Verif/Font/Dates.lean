/- C113: dates in fonts. Model of victor/src/fonts/types.rs 14-16 and 33-48. -/
namespace Verif.Font

/-! ### Specification: the calendar -/

/-- Every fourth year has a day more, but of the years that begin a century only every fourth. -/
def leapYear (y : Nat) : Bool := y % 4 == 0 && (y % 100 != 0 || y % 400 == 0)

/-- The days of a year. -/
def yearDays (y : Nat) : Nat := if leapYear y then 366 else 365

/-- The days from the beginning of a year to the beginning of the year that is `n` years later. -/
def daysOfYears (y : Nat) : Nat → Nat
  | 0 => 0
  | n + 1 => yearDays y + daysOfYears (y + 1) n

/-- The seconds from the beginning of 1904, from which fonts count, to the beginning of 1970, from which Unix counts. -/
def fontToUnix : Int := daysOfYears 1904 (1970 - 1904) * (24 * 60 * 60)

/-! ### The model -/

/-- A number that an `i64` can hold. -/
def FitsI64 (n : Int) : Prop := -2 ^ 63 ≤ n ∧ n < 2 ^ 63

instance (n : Int) : Decidable (FitsI64 n) := inferInstanceAs (Decidable (_ ∧ _))

/-- `SystemTime - Duration` of the standard library, by whole seconds since `UNIX_EPOCH`, which are an `i64`: a panic if there is no such
instant. -/
def systemTimeSub (t : Int) (duration : Nat) : Option Int := if FitsI64 (t - duration) then some (t - duration) else none

/-- `SystemTime + Duration`. -/
def systemTimeAdd (t : Int) (duration : Nat) : Option Int := if FitsI64 (t + duration) then some (t + duration) else none

/-- `-n` of an `i64`: the least one has no negation, which is a panic if overflow is checked; otherwise it is the number itself. -/
def negI64 (checked : Bool) (n : Int) : Option Int := if n = -2 ^ 63 then (if checked then none else some n) else some (-n)

/-- `n as u64` of an `i64`. -/
def asU64 (n : Int) : Nat := (n % 2 ^ 64).toNat

/-- types.rs 33-48, `From<LongDateTime> for SystemTime`; the result is in seconds since `UNIX_EPOCH`. -/
def dateOf (checked : Bool) (instant : Int) : Option Int := do
  let truetypeEpoch ← systemTimeSub 0 2082844800
  if instant ≥ 0 then systemTimeAdd truetypeEpoch (asU64 instant)
  else
    let n ← negI64 checked instant
    systemTimeSub truetypeEpoch (asU64 n)

/-! ### The theorem -/

theorem fontToUnix_eq : fontToUnix = 2082844800 := by decide +kernel

/-- **C113**: every date in a font is converted to the instant that it denotes, if this is one that the system can tell, whether overflow is
checked or not; otherwise the conversion panics. -/
theorem C113_dates (checked : Bool) (instant : Int) (h : FitsI64 instant) (t : Int) :
    dateOf checked instant = some t ↔ t = instant - fontToUnix ∧ FitsI64 t := by
  rw [fontToUnix_eq]
  have e : systemTimeSub 0 2082844800 = some (-2082844800) := by decide +kernel
  simp only [dateOf, e, Option.bind_eq_bind, Option.bind_some]
  obtain ⟨h1, h2⟩ := h
  split
  · have : ((asU64 instant : Nat) : Int) = instant := by unfold asU64; omega
    simp only [systemTimeAdd, this]
    split
    · simp only [Option.some.injEq]; constructor
      · rintro rfl; exact ⟨by omega, by assumption⟩
      · rintro ⟨rfl, -⟩; omega
    · constructor
      · intro h; cases h
      · rintro ⟨rfl, h⟩
        exact absurd h (by rw [show instant - 2082844800 = -2082844800 + instant by omega]; assumption)
  · unfold negI64
    split
    · rename_i hn
      subst hn
      have e : systemTimeSub (-2082844800) (asU64 (-2 ^ 63)) = none := by decide +kernel
      have : ¬ FitsI64 (-2 ^ 63 - 2082844800) := by decide +kernel
      cases checked
      · simp only [Bool.false_eq_true, if_false, Option.bind_some, e]
        constructor
        · intro h; cases h
        · rintro ⟨rfl, h⟩; exact absurd h this
      · simp only [if_true, Option.bind_none]
        constructor
        · intro h; cases h
        · rintro ⟨rfl, h⟩; exact absurd h this
    · have : ((asU64 (-instant) : Nat) : Int) = -instant := by unfold asU64; omega
      simp only [Option.bind_some, systemTimeSub, this]
      rw [show (-2082844800 : Int) - -instant = instant - 2082844800 by omega]
      split
      · simp only [Option.some.injEq]; constructor
        · rintro rfl; exact ⟨rfl, by assumption⟩
        · rintro ⟨rfl, -⟩; rfl
      · constructor
        · intro h; cases h
        · rintro ⟨rfl, h⟩; contradiction

/-- 2000-01-01, and an instant before 1904. -/
example : dateOf true (daysOfYears 1904 96 * 86400) = some 946684800 ∧ dateOf true (-1) = some (-2082844801) ∧
    dateOf true (-2 ^ 63) = none := by decide +kernel

end Verif.Font
