import Mathlib.Data.Int.Basic

/-!
# Points in time and intervals: src/library/ooc/oocTime.Mod

The module is compiled for both sizes of LONGINT (src/tools/make/oberon.mk 266).  `H` is half of the number of the values of
LONGINT: 2^31 or 2^63.  Sums outside the range wrap around.  `Scale` and `Fraction`, which compute with real numbers, are not
modelled.
-/
namespace Verif.Time

/-- A result of type LONGINT. -/
def wrap (H x : Int) : Int := (x + H) % (2 * H) - H

/-- `msecPerDay`, oocTime.Mod 27-30. -/
def msecPerDay : Int := 1000 * 60 * 60 * 24

/-- `TimeStamp` and `Interval`, oocTime.Mod 46-65: days, and milliseconds. -/
structure T where
  days : Int
  msecs : Int
deriving DecidableEq

/-- `InitTimeStamp`, oocTime.Mod 71-77, and `InitInterval`, 143-149.  DIV and MOD round down. -/
def init (H days msecs : Int) : T := ⟨wrap H (days + msecs / msecPerDay), msecs % msecPerDay⟩

/-- `GetTime`, oocTime.Mod 79-90, from what `SysClock.GetTimeOfDay` gives. -/
def getTime (H sec usec : Int) : T :=
  ⟨wrap H (40587 + sec / 86400), wrap H (wrap H (sec % 86400 * 1000) + usec / 1000)⟩

/-- `Add` of time stamps, oocTime.Mod 93-101, and of intervals, 151-159. -/
def add (H : Int) (a b : T) : T :=
  let m := wrap H (a.msecs + b.msecs)
  let d := wrap H (a.days + b.days)
  if m ≥ msecPerDay then ⟨wrap H (d + 1), wrap H (m - msecPerDay)⟩ else ⟨d, m⟩

/-- `Sub` of time stamps, oocTime.Mod 103-109, and of intervals, 161-169; and `Delta`, 111-119. -/
def sub (H : Int) (a b : T) : T :=
  let m := wrap H (a.msecs - b.msecs)
  let d := wrap H (a.days - b.days)
  if m < 0 then ⟨wrap H (d - 1), wrap H (m + msecPerDay)⟩ else ⟨d, m⟩

/-- `Cmp` of time stamps, oocTime.Mod 121-137, and of intervals, 171-187. -/
def cmp (a b : T) : Int :=
  if a.days > b.days ∨ a.days = b.days ∧ a.msecs > b.msecs then 1
  else if a.days = b.days ∧ a.msecs = b.msecs then 0
  else -1

end Verif.Time
