import Mathlib.Data.List.Basic

/-!
# What strings are (C31), and what wildcards mean (C32)
-/
namespace Verif.Str

/-- The string in an array: the characters up to the terminator, or all of them. -/
def str (a : List Nat) : List Nat := a.takeWhile (· ≠ 0)

/-- `Glob p s`: the string `s` is the pattern `p` with each `*` (42) replaced by some sequence of characters. -/
inductive Glob : List Nat → List Nat → Prop where
  | nil : Glob [] []
  | char {c : Nat} {p s : List Nat} : c ≠ 42 → Glob p s → Glob (c :: p) (c :: s)
  | star {p s : List Nat} (t : List Nat) : Glob p s → Glob (42 :: p) (t ++ s)

/-- The upper case equivalent of a letter; other characters are unchanged. -/
def upper (c : Nat) : Nat := if 97 ≤ c ∧ c ≤ 122 then c - 32 else c

/-- `i` is the first position from `p` on where `pat` occurs in `s`. -/
def FirstAt (pat s : List Nat) (p i : Nat) : Prop :=
  p ≤ i ∧ pat <+: s.drop i ∧ ∀ j, p ≤ j → j < i → ¬ pat <+: s.drop j

end Verif.Str
