import Mathlib.Data.Rat.Defs

/-!
# Specification for C59: random numbers

The minimal standard generator of Park and Miller (Communications of the ACM 31, 1988, 1192–1201), which both modules cite or copy:
`z` becomes `16807 z mod (2³¹ − 1)`.
-/
namespace Verif.Random

/-- 2³¹ − 1. -/
def M : Nat := 2 ^ 31 - 1

/-- The generator, on exact integers. -/
def parkMiller (z : Int) : Int := 16807 * z % M

/-- The sequence of numbers from a seed. -/
def sequence (z : Int) : Nat → Int
  | 0 => z
  | n + 1 => parkMiller (sequence z n)

/-- A legal state. -/
def Good (z : Int) : Prop := 1 ≤ z ∧ z ≤ M - 1

/-- The REAL nearest to `x` is 1: every REAL below 1 that is at least one half, that is every `k / 2²⁴` with `k < 2²⁴`, is farther
from `x` than 1 is. -/
def NearestIsOne (x : ℚ) : Prop := ∀ k : Nat, k < 2 ^ 24 → (1 - x) * (1 - x) < ((k : ℚ) / 2 ^ 24 - x) * ((k : ℚ) / 2 ^ 24 - x)

end Verif.Random
