/-!
# The calendar

Days follow one another as in the Gregorian calendar; the 1st of January 1901 was a Tuesday.  Nothing here refers to the code.
-/
namespace Verif.Dates

/-- Every fourth year, but of the full centuries only every fourth. -/
def leap (y : Nat) : Prop := 4 ∣ y ∧ (¬ 100 ∣ y ∨ 400 ∣ y)

instance (y : Nat) : Decidable (leap y) := inferInstanceAs (Decidable (_ ∧ _))

/-- The days of a month. -/
def monthLen (y m : Nat) : Nat :=
  if m = 2 then (if leap y then 29 else 28) else if m = 4 ∨ m = 6 ∨ m = 9 ∨ m = 11 then 30 else 31

/-- Year, month (1 to 12) and day (from 1). -/
structure Date where
  y : Nat
  m : Nat
  d : Nat
deriving DecidableEq

/-- A day that exists. -/
def Date.valid (t : Date) : Prop := 1 ≤ t.m ∧ t.m ≤ 12 ∧ 1 ≤ t.d ∧ t.d ≤ monthLen t.y t.m

/-- The next day. -/
def Date.next (t : Date) : Date :=
  if t.d < monthLen t.y t.m then ⟨t.y, t.m, t.d + 1⟩ else if t.m < 12 then ⟨t.y, t.m + 1, 1⟩ else ⟨t.y + 1, 1, 1⟩

/-- The day `n` days after the 1st of January 1901. -/
def dateOf : Nat → Date
  | 0 => ⟨1901, 1, 1⟩
  | n + 1 => (dateOf n).next

/-- The day of the week of day `n`, where 0 is Monday: the 1st of January 1901 was a Tuesday. -/
def weekday (n : Nat) : Nat := (1 + n) % 7

/-- The number that stands for a date in Oberon: 9 bits for month and day below the years since 1900. -/
def code (t : Date) : Int := ((t.y : Int) - 1900) * 512 + t.m * 32 + t.d

/-- The number that stands for a time of the day in Oberon. -/
def timeCode (s : Nat) : Int := (s / 3600 * 4096 + s / 60 % 60 * 64 + s % 60 : Nat)

end Verif.Dates
