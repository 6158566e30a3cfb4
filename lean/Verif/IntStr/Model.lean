import Verif.OocStr.Model
import Verif.CStr.Model
import Verif.Chars

/-!
# Conversion of whole numbers, src/library/ooc/oocIntConv.Mod and oocIntStr.Mod

An array of characters is the list of its elements.  LONGINT has 32 bits, INTEGER 16.  The result `none` stands for an index out of range, for a call through
NIL, and for an overflow of LONGINT, which is undefined in C.  Loops have a number of rounds as an additional argument, and end with `none` if it is too small.
-/
namespace Verif.IntStr
open Verif.OocStr (put length)

/-- `IsNumeric`, src/library/ooc/oocCharClass.Mod 47-51. -/
def isNumeric (c : Nat) : Bool := 48 ≤ c && c ≤ 57

/-- `IsWhiteSpace`, src/library/ooc/oocCharClass.Mod 77-83, with the characters of src/library/ooc/oocAscii.Mod 7-8, 17. -/
def isWhiteSpace (c : Nat) : Bool := c = 32 || c = 12 || c = 10 || c = 13 || c = 9 || c = 11

/-- `ScanClass`, src/library/ooc/oocConvTypes.Mod 16-23. -/
inductive Class where
  | padding | valid | invalid | terminator
  deriving DecidableEq

/-- The scan states, src/library/ooc/oocIntConv.Mod 39, 237-240. -/
inductive State where
  | SI | S | W
  deriving DecidableEq

/-- `WState`, src/library/ooc/oocIntConv.Mod 43-48; no state is NIL. -/
def wState (c : Nat) : Class × Option State := if isNumeric c then (.valid, some .W) else (.terminator, none)

/-- `SState`, src/library/ooc/oocIntConv.Mod 51-56. -/
def sState (c : Nat) : Class × Option State := if isNumeric c then (.valid, some .W) else (.invalid, some .S)

/-- `ScanInt`, src/library/ooc/oocIntConv.Mod 59-110. -/
def scanInt (c : Nat) : Class × Option State :=
  if isWhiteSpace c then (.padding, some .SI)
  else if c = 43 ∨ c = 45 then (.valid, some .S)
  else if isNumeric c then (.valid, some .W)
  else (.invalid, some .SI)

/-- The call `state.p(ch, class, state)`. -/
def scan : State → Nat → Class × Option State
  | .SI => scanInt
  | .S => sState
  | .W => wState

/-- `ConvResults`, src/library/ooc/oocConvTypes.Mod 6-13. -/
inductive Res where
  | allRight | outOfRange | wrongFormat | empty
  deriving DecidableEq

/-- `MAX(LONGINT)` and `MIN(LONGINT)`. -/
def maxLong : Int := 2147483647
def minLong : Int := -2147483648

/-- A LONGINT result. -/
def long (x : Int) : Option Int := if minLong ≤ x ∧ x ≤ maxLong then some x else none

/-- A digit, src/library/ooc/oocIntConv.Mod 135-150: the new value of `int`, or out of range (`some none`). -/
def addDigit (positive : Bool) (int digit : Int) : Option (Option Int) :=
  if positive then
    if int > (maxLong - digit) / 10 then some none else (long (int * 10 + digit)).map some
  else
    if int > (minLong + digit) / 10 then (long (int * 10 - digit)).map some
    else if int < (minLong + digit) / 10 ∨ (int = (minLong + digit) / 10 ∧ (minLong + digit) % 10 ≠ 0) then some none
    else (long (int * 10 - digit)).map some

/-- The loop of `FormatInt`, src/library/ooc/oocIntConv.Mod 126-168, on the elements from `index` on.  `index` is an INTEGER. -/
def formatLoop : List Nat → Nat → State → Class → Int → Bool → Option Res
  | [], _, _, _, _, _ => none
  | ch :: l, index, state, prev, int, positive =>
    if 32767 < index then none
    else match (scan state ch).1 with
    | .padding => (scan state ch).2.bind fun st => formatLoop l (index + 1) st .padding int positive
    | .valid =>
      (scan state ch).2.bind fun st =>
      if ch = 45 then formatLoop l (index + 1) st .valid int false
      else if ch = 43 then formatLoop l (index + 1) st .valid int true
      else (addDigit positive int ((ch : Int) - 48)).bind fun r =>
        match r with
        | none => some .outOfRange
        | some int => formatLoop l (index + 1) st .valid int positive
    | .invalid => if prev = .padding then some .empty else some .wrongFormat
    | .terminator => if ch = 0 then some .allRight else some .wrongFormat

/-- `FormatInt`, src/library/ooc/oocIntConv.Mod 113-169. -/
def formatInt (str : List Nat) : Option Res := formatLoop str 0 .SI .padding 0 true

/-- The loop of `ValueInt`, src/library/ooc/oocIntConv.Mod 188-201, on the elements that remain. -/
def valueLoop : List Nat → Option State → Int → Bool → Option Int
  | [], _, int, _ => some int
  | ch :: l, state, int, positive =>
    state.bind fun st =>
    if (scan st ch).1 = .valid then
      if ch = 45 then valueLoop l (scan st ch).2 int false
      else if ch = 43 then valueLoop l (scan st ch).2 int true
      else (long (if positive then int * 10 + ((ch : Int) - 48) else int * 10 - ((ch : Int) - 48))).bind fun int => valueLoop l (scan st ch).2 int positive
    else valueLoop l (scan st ch).2 int positive

/-- `ValueInt`, src/library/ooc/oocIntConv.Mod 172-205. -/
def valueInt (str : List Nat) : Option Int :=
  (formatInt str).bind fun r =>
  if r = .allRight then (length str).bind fun len => valueLoop (str.take len) (some .SI) 0 true
  else some 0

/-- `StrToInt`, src/library/ooc/oocIntStr.Mod 43-52: `int` and `res`. -/
def strToInt (str : List Nat) (int : Int) : Option (Int × Res) :=
  (formatInt str).bind fun res =>
  if res = .allRight then (valueInt str).map fun v => (v, res) else some (int, res)

/-- The loop of `LengthInt`, src/library/ooc/oocIntConv.Mod 222. -/
def lengthLoop : Nat → Int → Nat → Option Nat
  | 0, _, _ => none
  | f + 1, int, cnt => if int > 0 then lengthLoop f (int / 10) (cnt + 1) else some cnt

/-- `LengthInt`, src/library/ooc/oocIntConv.Mod 208-224. -/
def lengthInt (int : Int) : Option Nat :=
  if int = minLong then (long (int + 1)).bind fun x => (long (-x)).bind fun int => lengthLoop 12 int 1
  else if int ≤ 0 then (long (-int)).bind fun int => lengthLoop 12 int 1
  else lengthLoop 12 int 0

/-- The loop of `Reverse`, src/library/ooc/oocIntStr.Mod 60-63. -/
def reverse : Nat → List Nat → Nat → Nat → Option (List Nat)
  | 0, _, _, _ => none
  | f + 1, str, start, «end» =>
    if start < «end» then
      str[start]?.bind fun h => str[«end»]?.bind fun c => (put str start c).bind fun str => (put str «end» h).bind fun str =>
      reverse f str (start + 1) («end» - 1)
    else some str

/-- The REPEAT statement of `IntToStr`, src/library/ooc/oocIntStr.Mod 87-91: `b` and `e`. -/
def digitLoop : Nat → List Nat → Int → Nat → Option (List Nat × Nat)
  | 0, _, _, _ => none
  | f + 1, b, int, e =>
    (put b e (int % 10 + 48).toNat).bind fun b =>
    if int / 10 = 0 then some (b, e + 1) else digitLoop f b (int / 10) (e + 1)

/-- `IntToStr`, src/library/ooc/oocIntStr.Mod 67-97; `b` is the array with whatever it holds at first (12 elements). -/
def intToStr (b : List Nat) (int : Int) (str : List Nat) : Option (List Nat) :=
  if int = minLong then (Verif.CStr.moveStr (w! "-2147483648") b).bind fun b => Verif.CStr.copy b str
  else
    (if int < 0 then (put b 0 45).bind fun b => (long (-int)).map fun int => (b, int, 1) else some (b, int, 0)).bind fun r =>
    (digitLoop 12 r.1 r.2.1 r.2.2).bind fun q =>
    (put q.1 q.2 0).bind fun b =>
    (reverse 12 b r.2.2 (q.2 - 1)).bind fun b => Verif.CStr.copy b str

end Verif.IntStr
