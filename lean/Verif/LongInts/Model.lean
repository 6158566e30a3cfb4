import Verif.Sums.Model

/-!
# Long integers

src/library/ooc/oocLongInts.Mod.  A long integer is an array of digits to the base 8000H, the most significant first; element 0 takes
carries.  The digits are INTEGERs that are not negative.  A product beyond LONGINT (32 bits) is an outcome of its own.
-/
namespace Verif.LongInts
open Verif.Sums (Out)

/-- The constant `B`, src/library/ooc/oocLongInts.Mod 24. -/
def B : Nat := 32768

/-- The loop of `MinDigit`, src/library/ooc/oocLongInts.Mod 34.  The number is that of the steps left before `min = l`. -/
def minLoop (w : List Nat) : Nat → Nat → Nat
  | 0, min => min
  | n + 1, min => if w.getD min 0 = 0 then minLoop w n (min + 1) else min

/-- `MinDigit`, src/library/ooc/oocLongInts.Mod 30-36. -/
def minDigit (w : List Nat) : Nat := minLoop w (w.length - 1 - 1) 1

/-- A sum of products that is not negative, as LONGINT. -/
def chkN (t : Nat) : Out Nat := if t ≤ 2147483647 then .ok t else .overflow

/-- The loop of `MultDigit` over the digits from the last to the first, src/library/ooc/oocLongInts.Mod 42-46: the carry and the new
digits. -/
def multR (digit k : Nat) : List Nat → Out (Nat × List Nat)
  | [] => .ok (k, [])
  | x :: xs => (multR digit k xs).bind fun r => (chkN (x * digit + r.1)).bind fun t => .ok (t / B, t % B :: r.2)

/-- `MultDigit`, src/library/ooc/oocLongInts.Mod 38-47.  The loop stops after the digit before the first that is not zero. -/
def multDigit (w : List Nat) (digit k : Nat) : Out (List Nat) :=
  let n := minDigit w - 1
  (multR digit k (w.drop n)).bind fun r => .ok (w.take n ++ r.2)

/-- The loop of `AddDigit`, src/library/ooc/oocLongInts.Mod 53-57. -/
def addR (k : Nat) : List Nat → Out (Nat × List Nat)
  | [] => .ok (k, [])
  | x :: xs => (addR k xs).bind fun r => (chkN (x + r.1)).bind fun t => .ok (t / B, t % B :: r.2)

/-- `AddDigit`, src/library/ooc/oocLongInts.Mod 49-58. -/
def addDigit (w : List Nat) (k : Nat) : Out (List Nat) :=
  let n := minDigit w - 1
  (addR k (w.drop n)).bind fun r => .ok (w.take n ++ r.2)

/-- `SHORT(x)` to INTEGER of a number that is not negative; the digits of the quotient are below `B` (`div_ok`). -/
def shortN (x : Nat) : Nat := x % 65536

/-- The loop of `DivDigit` from the first digit to the last, src/library/ooc/oocLongInts.Mod 64-68: the new digits and the remainder. -/
def divL (digit : Nat) : Nat → List Nat → Out (List Nat × Nat)
  | r, [] => .ok ([], r)
  | r, x :: xs => (chkN (r * B + x)).bind fun t => (divL digit (t % digit) xs).bind fun p => .ok (shortN (t / digit) :: p.1, p.2)

/-- `DivDigit`, src/library/ooc/oocLongInts.Mod 60-69: the new value of `w` and the remainder. -/
def divDigit (w : List Nat) (digit : Nat) : Out (List Nat × Nat) :=
  let n := minDigit w - 1
  (divL digit 0 (w.drop n)).bind fun p => .ok (w.take n ++ p.1, p.2)

/-- `FOR i := 1 TO n DO MultDigit(x, digit, 0) END`, src/library/ooc/oocLongInts.Mod 76-77. -/
def multTimes (digit : Nat) : Nat → List Nat → Out (List Nat)
  | 0, x => .ok x
  | n + 1, x => (multDigit x digit 0).bind (multTimes digit n)

/-- `FOR i := 1 TO n DO DivDigit(x, digit, d) END`, src/library/ooc/oocLongInts.Mod 81-82. -/
def divTimes (digit : Nat) : Nat → List Nat → Out (List Nat)
  | 0, x => .ok x
  | n + 1, x => (divDigit x digit).bind fun p => divTimes digit n p.1

/-- `TenPower`, src/library/ooc/oocLongInts.Mod 71-84. -/
def tenPower (x : List Nat) (power : Int) : Out (List Nat) :=
  if 0 < power then (multTimes 10000 (power / 4).toNat x).bind (multTimes 10 (power % 4).toNat)
  else if power < 0 then (divTimes 10000 ((-power) / 4).toNat x).bind (divTimes 10 ((-power) % 4).toNat)
  else .ok x

/-- `FOR i := a TO a + n - 1 DO x[i] := x[i + power] END`, src/library/ooc/oocLongInts.Mod 91. -/
def downLoop (power : Nat) : Nat → Nat → List Nat → Out (List Nat)
  | 0, _, x => .ok x
  | n + 1, i, x => match x[i + power]? with
    | some d => downLoop power n (i + 1) (x.set i d)
    | none => .trap

/-- `FOR i := a TO a + n - 1 DO x[i] := 0 END`, src/library/ooc/oocLongInts.Mod 92 and 96. -/
def zeroLoop : Nat → Nat → List Nat → Out (List Nat)
  | 0, _, x => .ok x
  | n + 1, i, x => if i < x.length then zeroLoop n (i + 1) (x.set i 0) else .trap

/-- `FOR i := n TO 1 BY -1 DO x[i + power] := x[i] END`, src/library/ooc/oocLongInts.Mod 95. -/
def upLoop (power : Nat) : Nat → List Nat → Out (List Nat)
  | 0, x => .ok x
  | i + 1, x => match x[i + 1]? with
    | some d => if i + 1 + power < x.length then upLoop power i (x.set (i + 1 + power) d) else .trap
    | none => .trap

/-- `BPower`, src/library/ooc/oocLongInts.Mod 86-98.  `lx - power` below zero makes the second loop begin with an index out of
range. -/
def bPower (x : List Nat) (power : Int) : Out (List Nat) :=
  let lx := x.length
  if 0 < power then
    let p := power.toNat
    if lx < p then .trap
    else (downLoop p (lx - 1 - p) 1 x).bind (zeroLoop p (lx - p))
  else if power < 0 then
    let p := (-power).toNat
    (upLoop p (lx - 1 - p) x).bind (zeroLoop p 1)
  else .ok x

end Verif.LongInts
