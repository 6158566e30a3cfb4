/-!
# Numbers as lists of digits
-/
namespace Verif.LongInts

/-- The number that digits to the base 32768 stand for, the most significant first. -/
def val : List Nat → Nat
  | [] => 0
  | x :: xs => x * 32768 ^ xs.length + val xs

/-- The digits are below the base. -/
def Digits (w : List Nat) : Prop := ∀ x ∈ w, x < 32768

end Verif.LongInts
