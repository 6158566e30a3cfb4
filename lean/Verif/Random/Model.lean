import Verif.Sums.Model

/-!
# Model of the random numbers of the library

`oocRandomNumbers.Mod` (/repo/src/library/ooc) and `ethRandomNumbers.Mod` (/repo/src/library/s3), with LONGINT of 32 bits.  The
global variable `z` or `Z` is an argument and a result.  Results beyond LONGINT are the outcome `overflow`: the generated C leaves
them undefined.  `DIV` and `MOD` round towards minus infinity, as `__DIV` and `__MOD` of the runtime do (C01, C02).
-/
namespace Verif.Random
open Verif.Sums (Out chk)

/-- `PutSeed(seed)`: the new value of `z` (oocRandomNumbers.Mod 21-31). -/
def putSeed (seed : Int) : Int :=
  let seed := seed % 2147483647
  if seed = 0 then 1 else seed

/-- `NextRND` (oocRandomNumbers.Mod 33-49). -/
def nextRND (z : Int) : Out Int :=
  let hi := z / 127773
  let lo := z % 127773
  (chk (16807 * lo)).bind fun p =>
  (chk (2836 * hi)).bind fun s =>
  (chk (p - s)).bind fun test =>
  if 0 < test then .ok test else chk (test + 2147483647)

/-- `RND(range)`: the new `z` and the result (oocRandomNumbers.Mod 51-57).  `MOD 0` is a trap of the processor. -/
def rnd (z range : Int) : Out (Int × Int) :=
  (nextRND z).bind fun z =>
  if range = 0 then .trap else .ok (z, z % range)

/-- `n` calls of `NextRND`. -/
def steps (z : Int) : Nat → Out Int
  | 0 => .ok z
  | n + 1 => (steps z n).bind nextRND

/-- `InitSeed(seed)` (ethRandomNumbers.Mod 32-35). -/
def initSeed (seed : Int) : Int := seed

/-- `q = m DIV a` (ethRandomNumbers.Mod 15). -/
def ethQ : Int := 2147483647 / 16807
/-- `r = m MOD a` (ethRandomNumbers.Mod 15). -/
def ethR : Int := 2147483647 % 16807

/-- The new `Z` in `Uniform` (ethRandomNumbers.Mod 12-21).  The result, the quotient of `Z` and `m` shortened to REAL, is left to the
theorems. -/
def uniform (Z : Int) : Out Int :=
  (chk (16807 * (Z % ethQ))).bind fun p =>
  (chk (ethR * (Z / ethQ))).bind fun s =>
  (chk (p - s)).bind fun g =>
  if 0 < g then .ok g else chk (g + 2147483647)

end Verif.Random
