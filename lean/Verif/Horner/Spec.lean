import Verif.Horner.Model

/-! The elements of an array in row-major order. -/
namespace Verif.Horner

/-- The number of elements of an array with the given lengths. -/
def count : List Int → Int
  | [] => 1
  | l :: ls => l * count ls

/-- The position of the first element of the part of the array selected by the leading indices: every step over the first
index passes `count` elements of the rest. -/
def position : List Int → List Int → Int
  | _ :: ls, i :: is => i * count ls + position ls is
  | _, _ => 0

/-- The indices are at least 0 and below the lengths. -/
def Inside : List Int → List Int → Prop
  | _, [] => True
  | [], _ :: _ => False
  | l :: ls, i :: is => 0 ≤ i ∧ i < l ∧ Inside ls is

end Verif.Horner
