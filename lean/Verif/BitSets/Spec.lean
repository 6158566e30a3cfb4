/-!
# Sets of numbers (C86)
-/
namespace Verif.BitSets

/-- The number `x` is in the set that the array represents: bit `x MOD w` of its element `x DIV w`. -/
def Elem {w : Nat} (s : List (BitVec w)) (x : Nat) : Prop := ∃ v, s[x / w]? = some v ∧ v.getLsbD (x % w) = true

/-- The numbers an array of `n` sets has room for. -/
def Room (w n : Nat) (x : Nat) : Prop := x < n * w

/-- `xs` lists the elements of a set, each once, in ascending order. -/
def Lists {w : Nat} (s : List (BitVec w)) (xs : List Nat) : Prop := xs.Pairwise (· < ·) ∧ ∀ x, x ∈ xs ↔ Elem s x

end Verif.BitSets
