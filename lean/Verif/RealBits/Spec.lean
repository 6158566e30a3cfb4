import Verif.RealBits.Model

/-!
# Specification: the values of real numbers
-/
namespace Verif.RealBits
variable (f : Fmt)

/-- The bits are those of a number of the type, and not of an infinity or NaN. -/
def Fin (x : Nat) : Prop := x < 2 ^ (f.m + f.w + 1) ∧ f.ex x ≠ 2 ^ f.w - 1

/-- The number has the full precision: it is not zero and not one of the very small numbers. -/
def Normal (x : Nat) : Prop := Fin f x ∧ f.ex x ≠ 0

/-- The value of the number (IEEE 754). -/
def value (x : Nat) : ℚ := f.units x * 2 ^ (1 - (f.bias : Int) - f.m)

/-- What the machine has to do: a result that is a value of the type is exact.  IEEE 754 requires this in every rounding
mode.  `small` is a positive number that is not less than 2 ^ `expoMin`. -/
structure Machine.Ok (M : Machine) : Prop where
  mul : ∀ a b d, Fin f a → Fin f b → Fin f d → value f d = value f a * value f b →
    Fin f (M.mul a b) ∧ value f (M.mul a b) = value f d
  add : ∀ a b d, Fin f a → Fin f b → Fin f d → value f d = value f a + value f b →
    Fin f (M.add a b) ∧ value f (M.add a b) = value f d
  sub : ∀ a b d, Fin f a → Fin f b → Fin f d → value f d = value f a - value f b →
    Fin f (M.sub a b) ∧ value f (M.sub a b) = value f d
  small : Fin f M.small ∧ 2 ^ f.expoMin ≤ value f M.small

/-- `r` is the least number of the type greater than `x`. -/
def Next (x r : Nat) : Prop :=
  Fin f r ∧ value f x < value f r ∧ ∀ y, Fin f y → value f x < value f y → value f r ≤ value f y

/-- `r` is the greatest number of the type less than `x`. -/
def Prev (x r : Nat) : Prop :=
  Fin f r ∧ value f r < value f x ∧ ∀ y, Fin f y → value f y < value f x → value f y ≤ value f r

/-- `q` is `v` cut off, towards zero, to a multiple of `u`. -/
def Cut (u v q : ℚ) : Prop := ∃ k : ℤ, q = k * u ∧ |q| ≤ |v| ∧ |v| < |q| + u ∧ 0 ≤ q * v

/-- `q` is a multiple of `u` next to `v`. -/
def Nearest (u v q : ℚ) : Prop := ∃ k : ℤ, q = k * u ∧ |v - q| ≤ u / 2

end Verif.RealBits
