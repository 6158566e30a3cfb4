import Verif.Chars

/-!
# Whole numbers as strings (C85)
-/
namespace Verif.IntStr

/-- The value of decimal digits. -/
def value (ds : List Nat) : Int := ds.foldl (fun (v : Int) (d : Nat) => 10 * v + ((d : Int) - 48)) 0

/-- White space: blank, tab, line feed, vertical tab, form feed, carriage return. -/
def White (c : Nat) : Prop := c = 32 ∨ (9 ≤ c ∧ c ≤ 13)

def Digit (c : Nat) : Prop := 48 ≤ c ∧ c ≤ 57

/-- `Whole s v`: the string `s` is a whole number with the value `v`: white space, perhaps a sign, and decimal digits. -/
def Whole (s : List Nat) (v : Int) : Prop :=
  ∃ ws sign ds, s = ws ++ sign ++ ds ∧ (∀ c ∈ ws, White c) ∧ (∀ d ∈ ds, Digit d) ∧ ds ≠ [] ∧
    ((sign = [] ∧ v = value ds) ∨ (sign = w! "+" ∧ v = value ds) ∨ (sign = w! "-" ∧ v = -value ds))

/-- The numbers of type LONGINT. -/
def Long (v : Int) : Prop := -2 ^ 31 ≤ v ∧ v < 2 ^ 31

/-- `s` has no number in it: behind the white space nothing follows, or neither a sign nor a digit. -/
def NoNumber (s : List Nat) : Prop :=
  ∃ ws r, s = ws ++ r ∧ (∀ c ∈ ws, White c) ∧ ∀ c, r.head? = some c → c ≠ 43 ∧ c ≠ 45 ∧ ¬ Digit c ∧ ¬ White c

/-- The usual decimal representation. -/
def decimal (v : Int) : List Nat := (toString v).toList.map Char.toNat

end Verif.IntStr
