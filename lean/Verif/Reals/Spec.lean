import Verif.Reals.Model

/-!
# Specification: the fields of IEEE 754 numbers, decimal and hexadecimal digits
-/
namespace Verif.Reals

/-- The `n` lowest decimal digits of a number, the lowest first. -/
def lowDigits (n x : Nat) : List Nat := (List.range n).map fun k => x / 10 ^ k % 10 + 48

/-- The value of a hexadecimal digit. -/
def hexVal (c : Nat) : Nat := if c ≤ 57 then c - 48 else c - 55

/-- The bytes that pairs of hexadecimal digits stand for. -/
def unhex : List Nat → List Nat
  | a :: b :: s => (hexVal a * 16 + hexVal b) :: unhex s
  | _ => []

/-- A hexadecimal digit: 0 to 9, A to F. -/
def isHex (c : Nat) : Prop := (48 ≤ c ∧ c ≤ 57) ∨ (65 ≤ c ∧ c ≤ 70)

/-- The four bytes of a number of 32 bits, and the eight of one of 64 bits. -/
def bytes (n x : Nat) : List Nat := (List.range n).map fun k => x / 256 ^ k % 256

end Verif.Reals
