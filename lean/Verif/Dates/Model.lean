import Verif.Utf.Model

/-!
# Dates and times

src/library/s3/ethDates.Mod.  INTEGER has 16 bits, LONGINT 32 (src/tools/make/oberon.mk 353-376).  An addition of INTEGERs beyond
their range is an outcome of its own; the numbers made of LONGINTs stay in range for all years an INTEGER can hold.
-/
namespace Verif.Dates
open Verif.Sums (Out chk)
open Verif.Utf (short)

/-- The result of an addition of INTEGERs. -/
def chk16 (x : Int) : Out Int := if -32768 ≤ x ∧ x ≤ 32767 then .ok x else .overflow

/-- `IsLeapYear`, src/library/s3/ethDates.Mod 19-21. -/
def isLeapYear (year : Int) : Bool := year % 4 = 0 ∧ (¬ year % 100 = 0 ∨ year % 400 = 0)

/-- `LastDay`, src/library/s3/ethDates.Mod 23-30. -/
def lastDay (year month : Int) : Int :=
  if month < 8 ∧ month % 2 = 1 ∨ 7 < month ∧ ¬ month % 2 = 1 then 31
  else if month = 2 then (if isLeapYear year then 29 else 28)
  else 30

/-- The table `A`, src/library/s3/ethDates.Mod 186-187. -/
def tabA : List Int := [0, 31, 59, 90, 120, 151, 181, 212, 243, 273, 304, 334, 365]

/-- The loops that fill `T`, src/library/s3/ethDates.Mod 188-189: for `i = 0 … 11` the elements from where the last ended up to
`A[i+1]` are `i + 1`. -/
def tabT : List Int := (List.range 12).flatMap fun i => List.replicate (tabA.getD (i + 1) 0 - tabA.getD i 0).toNat ((i : Int) + 1)

/-- An element of a table, with the index check. -/
def elem (t : List Int) (i : Int) : Out Int :=
  if 0 ≤ i then match t[i.toNat]? with
    | some x => .ok x
    | none => .trap
  else .trap

/-- `NumberOfDays`, src/library/s3/ethDates.Mod 33-41. -/
def numberOfDays (date : Int) : Out Int :=
  let y := short (date / 512) + 1900 - 1901
  let m := short (date / 32) % 16
  (elem tabA ((m - 1) % 12)).bind fun a =>
  let num := y * 365 + y / 4 + a + date % 32 - 1
  .ok (if isLeapYear (1901 + y) = true ∧ 2 < m then num + 1 else num)

/-- `NumberOfDaysToDate`, src/library/s3/ethDates.Mod 44-53. -/
def numberOfDaysToDate (days : Int) : Out Int :=
  let d : Int := if (days + 307) % 1461 = 0 then 2 else 1
  let days := days - (days + 307) / 1461
  let y := 1901 + days / 365
  if 1901 > y then .ok (((1900 - 1900) * 16 + 1) * 32 + 1)
  else
    let M := days % 365
    (elem tabT M).bind fun m =>
    (elem tabA (m - 1)).bind fun a => .ok (((y - 1900) * 16 + m) * 32 + (M - a + d))

/-- `ToDate`, src/library/s3/ethDates.Mod 57-63. -/
def toDate (year month day : Int) : Int :=
  let month := 1 + (month - 1) % 12
  let d := lastDay year month
  let day := 1 + (day - 1) % d
  ((year - 1900) * 16 + month) * 32 + day

/-- `ToTime`, src/library/s3/ethDates.Mod 66-68. -/
def toTime (hour min sec : Int) : Int := ((hour % 24) * 64 + min % 60) * 64 + sec % 60

/-- `ToYMD`, src/library/s3/ethDates.Mod 72-76. -/
def toYMD (date : Int) : Int × Int × Int := (short (date / 512) + 1900, short ((date / 32) % 16), short (date % 32))

/-- `ToHMS`, src/library/s3/ethDates.Mod 79-82. -/
def toHMS (time : Int) : Int × Int × Int := (short (time / 4096), short ((time / 64) % 64), short (time % 64))

/-- `DayOfWeek`, src/library/s3/ethDates.Mod 85-90. -/
def dayOfWeek (date : Int) : Out Int := (numberOfDays date).bind fun num => .ok (short ((num + 1) % 7))

/-- `DaysOfMonth`, src/library/s3/ethDates.Mod 93-98. -/
def daysOfMonth (date : Int) : Int := lastDay (short (date / 512 + 1900)) (short ((date / 32) % 16))

/-- `AddYear`, src/library/s3/ethDates.Mod 102-111. -/
def addYear (date years : Int) : Out Int :=
  let (y, m, d) := toYMD date
  (chk16 (y + years)).bind fun y' =>
  .ok (if 1901 ≤ y' then toDate y' m (if isLeapYear y = true ∧ m = 2 ∧ d = 29 ∧ isLeapYear y' = false then 28 else d) else date)

/-- `AddMonth`, src/library/s3/ethDates.Mod 113-129. -/
def addMonth (date months : Int) : Out Int :=
  let (y, m, d) := toYMD date
  (chk16 (months - 1)).bind fun k =>
  (chk16 (m + k)).bind fun m =>
  (chk16 (y + m / 12)).bind fun y =>
  .ok (if 1901 ≤ y then
    let m := m % 12 + 1
    let d :=
      if m = 2 then
        if 29 < d ∧ isLeapYear y = true then 29 else if 28 < d ∧ isLeapYear y = false then 28 else d
      else if 30 < d ∧ (m < 8 ∧ ¬ m % 2 = 1 ∨ 7 < m ∧ m % 2 = 1) then 30 else d
    toDate y m d
  else date)

/-- `AddDay`, src/library/s3/ethDates.Mod 131-134. -/
def addDay (date days : Int) : Out Int :=
  (numberOfDays date).bind fun num => (chk (num + days)).bind numberOfDaysToDate

/-- `AddHour`, src/library/s3/ethDates.Mod 138-141. -/
def addHour (time hour : Int) : Out Int :=
  let (h, m, s) := toHMS time
  (chk16 (h + hour)).bind fun h => .ok (toTime (h % 24) m s)

/-- The end of `AddMinute` and `AddSecond`, src/library/s3/ethDates.Mod 147-148 and 157-159. -/
def carryHour (h m s : Int) : Int :=
  if m < 0 ∨ 60 ≤ m then toTime ((h + m / 60) % 24) (m % 60) s else toTime h m s

/-- `AddMinute`, src/library/s3/ethDates.Mod 143-149. -/
def addMinute (time min : Int) : Out Int :=
  let (h, m, s) := toHMS time
  (chk16 (m + min)).bind fun m => .ok (carryHour h m s)

/-- `AddSecond`, src/library/s3/ethDates.Mod 151-160. -/
def addSecond (time sec : Int) : Out Int :=
  let (h, m, s) := toHMS time
  (chk16 (s + sec)).bind fun s => .ok (if s < 0 ∨ 60 ≤ s then carryHour h (m + s / 60) (s % 60) else toTime h m s)

/-- `AddTime`, src/library/s3/ethDates.Mod 163-177: the values of `time` and `date`. -/
def addTime (time date sec : Int) : Out (Int × Int) :=
  let (hh, mm, ss) := toHMS time
  (chk (sec + ss)).bind fun s =>
  if s < 0 ∨ 60 ≤ s then
    let m := s / 60 + mm
    let s := s % 60
    if m < 0 ∨ 60 ≤ m then
      let h := m / 60 + hh
      let m := m % 60
      if h < 0 ∨ 24 ≤ h then
        (addDay date (short (h / 24))).bind fun date => .ok (toTime (short (h % 24)) (short m) (short s), date)
      else .ok (toTime (short h) (short m) (short s), date)
    else .ok (toTime (short hh) (short m) (short s), date)
  else .ok (toTime (short hh) (short mm) (short s), date)

end Verif.Dates
