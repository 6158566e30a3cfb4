import Mathlib.Data.Nat.Bitwise
import Mathlib.Algebra.Order.Field.Rat
import Mathlib.Tactic.FieldSimp
import Verif.Common

/-!
# The parts of a real number: src/runtime/Math.Mod, src/runtime/MathL.Mod, src/library/ooc/oocLowReal.Mod

The procedures take a REAL or LONGREAL apart into sign, exponent and significand by means of sets.  A number is modelled
by its bits, a natural number.  `m` is the number of bits of the significand, `w` of the exponent: 23 and 8 for REAL
(Math.Mod, oocLowReal.Mod), 52 and 11 for LONGREAL (MathL.Mod).

The arithmetic of the machine (`*`, `+`, `-`) is a parameter; what is required of it is in the specification: a result
that is a value of the type is computed exactly.  A comparison with zero is a comparison of the values of the bits.
Infinities and NaNs are not given to the procedures.
-/
namespace Verif.RealBits

/-- The format of a type of real numbers. -/
structure Fmt where
  m : Nat
  w : Nat
  hm : 1 ≤ m
  hw : 3 ≤ w
  hb : m + 1 < 2 ^ (w - 1) - 1

/-- REAL: Math.Mod 139, `(* TYPE REAL: 1/sign, 8/exponent, 23/significand *)`. -/
def real : Fmt := ⟨23, 8, by decide, by decide, by decide⟩

/-- LONGREAL: MathL.Mod 126. -/
def longreal : Fmt := ⟨52, 11, by decide, by decide, by decide⟩

namespace Fmt
variable (f : Fmt)

/-- `expoMax` and `expOffset`, Math.Mod 92-94, MathL.Mod 87-89. -/
def bias : Nat := 2 ^ (f.w - 1) - 1

/-- `expoMin`, Math.Mod 93, MathL.Mod 88. -/
def expoMin : Int := 1 - f.bias

/-- `expoMax`. -/
def expoMax : Int := f.bias

/-- `places`, Math.Mod 88, MathL.Mod 83. -/
def places : Int := f.m + 1

/-- The significand, the exponent and the sign in the bits of a number. -/
def man (x : Nat) : Nat := x % 2 ^ f.m
def ex (x : Nat) : Nat := x / 2 ^ f.m % 2 ^ f.w
def sgn (x : Nat) : Nat := x / 2 ^ (f.m + f.w) % 2

/-- The value of the bits without their sign, as a multiple of the least positive number of the type (IEEE 754). -/
def mag (x : Nat) : Nat :=
  if f.ex x = 0 then f.man x else (2 ^ f.m + f.man x) * 2 ^ (f.ex x - 1)

/-- The value of the bits, as a multiple of the least positive number of the type. -/
def units (x : Nat) : Int := if f.sgn x = 1 then - (f.mag x : Int) else f.mag x

end Fmt

/-- The arithmetic of the machine, and the constant `small`, Math.Mod 91, MathL.Mod 86.  (The compiler computes it by a
division; its last bits depend on the arithmetic of the machine.) -/
structure Machine where
  mul : Nat → Nat → Nat
  add : Nat → Nat → Nat
  sub : Nat → Nat → Nat
  small : Nat

/-- The set `{a..b}`, as an integer. -/
def rng (a b : Nat) : Nat := (2 ^ (b + 1 - a) - 1) <<< a

variable (f : Fmt) (M : Machine)

/-- `nMask`, Math.Mod 95, and `NumberMask`, MathL.Mod 673-675. -/
def nMask : Nat := rng 0 (f.m - 1) ||| rng (f.m + f.w) (f.m + f.w)

/-- `{24..29}`, Math.Mod 153, and `ZeroExponent`, MathL.Mod 677-678.  The bytes in oocLowReal.Mod 168-174 have the same
effect. -/
def eZero : Nat := rng (f.m + 1) (f.m + f.w - 2)

/-- The bits of 0.0, 1.0, -1.0, 2.0 and of `large`, the greatest number. -/
def zero : Nat := 0
def one : Nat := f.bias <<< f.m
def minusOne : Nat := 1 <<< (f.m + f.w) ||| f.bias <<< f.m
def two : Nat := (f.bias + 1) <<< f.m
def large : Nat := (2 ^ f.w - 1) <<< f.m - 1

/-- `fraction`, Math.Mod 141-155, MathL.Mod 128-142, oocLowReal.Mod 158-185. -/
def fraction (x : Nat) : Nat :=
  if f.units x = 0 then zero else M.mul ((x &&& nMask f) ||| eZero f) (two f)

/-- `exponent`, Math.Mod 157-168, MathL.Mod 144-157, oocLowReal.Mod 128-139. -/
def exponent (x : Nat) : Int :=
  if f.units x = 0 then 0 else (((x >>> f.m) % 2 ^ f.w : Nat) : Int) - f.bias

/-- `sign`, Math.Mod 170-178, MathL.Mod 159-167, oocLowReal.Mod 209-217. -/
def sign (x : Nat) : Nat := if f.units x < 0 then minusOne f else one f

/-- `scale`, Math.Mod 180-195, MathL.Mod 169-184, oocLowReal.Mod 220-234; also `synthesize`, oocLowReal.Mod 328-337. -/
def scale (x : Nat) (n : Int) : Nat :=
  if f.units x = 0 then zero
  else
    let exp := exponent f x + n
    if exp > f.expoMax then M.mul (large f) (sign f x)
    else if exp < f.expoMin then M.mul M.small (sign f x)
    else (x &&& nMask f) ||| (exp + f.bias).toNat <<< f.m

/-- `ulp`, Math.Mod 197-205, MathL.Mod 186-194, oocLowReal.Mod 236-244. -/
def ulp (x : Nat) : Nat := scale f M (one f) (exponent f x - f.places + 1)

/-- `succ`, Math.Mod 207-215, MathL.Mod 196-204, oocLowReal.Mod 246-254. -/
def succ (x : Nat) : Nat := M.add x (M.mul (ulp f M x) (sign f x))

/-- `pred`, Math.Mod 217-225, MathL.Mod 206-214, oocLowReal.Mod 256-264. -/
def pred (x : Nat) : Nat := M.sub x (M.mul (ulp f M x) (sign f x))

/-- `intpart`, oocLowReal.Mod 266-279. -/
def intpart (x : Nat) : Nat :=
  let loBit : Int := f.m - exponent f x
  if loBit ≤ 0 then x
  else if loBit ≤ f.m then x &&& rng loBit.toNat (f.m + f.w)
  else zero

/-- `fractpart`, oocLowReal.Mod 281-288. -/
def fractpart (x : Nat) : Nat := M.sub x (intpart f x)

/-- `trunc`, oocLowReal.Mod 290-303. -/
def trunc (x : Nat) (n : Int) : Nat :=
  let loBit : Int := f.places - n
  if n ≤ 0 then zero
  else if loBit ≤ 0 then x
  else x &&& rng loBit.toNat (f.m + f.w)

/-- `round`, oocLowReal.Mod 305-326. -/
def round (x : Nat) (n : Int) : Nat :=
  let loBit : Int := f.places - n
  if n ≤ 0 then zero
  else if loBit ≤ 0 then x
  else
    let t := x &&& rng loBit.toNat (f.m + f.w)
    if x.testBit (loBit - 1).toNat then
      let r := scale f M (one f) (exponent f t - n + 1)
      if x.testBit (f.m + f.w) then M.sub t r else M.add t r
    else t

end Verif.RealBits
