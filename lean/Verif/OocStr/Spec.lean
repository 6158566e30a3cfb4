import Verif.Str.Spec

/-!
# What string operations mean (C84)

The string in an array is `Verif.Str.str`; `FirstAt` says where a pattern occurs first.  The order of strings is that of lists, `<`: the first difference
decides, and a proper prefix is smaller.
-/
namespace Verif.OocStr
open Verif.Str

/-- The array `d` is what becomes of the array `a` when the string `t` is assigned to it: it has the same number of elements, is terminated, and holds as much
of `t` as there is room for. -/
def Assigned (a t d : List Nat) : Prop := d.length = a.length ∧ 0 ∈ d ∧ str d = t.take (a.length - 1)

/-- `i` is the last position up to `p` where `pat` occurs in `s`. -/
def LastAt (pat s : List Nat) (p : Int) (i : Nat) : Prop :=
  (i : Int) ≤ p ∧ i + pat.length ≤ s.length ∧ pat <+: s.drop i ∧ ∀ j : Nat, (j : Int) ≤ p → i < j → j + pat.length ≤ s.length → ¬ pat <+: s.drop j

/-- `i` is the position of the first difference. -/
def FirstDiff (s t : List Nat) (i : Nat) : Prop := s.take i = t.take i ∧ s[i]? ≠ t[i]?

end Verif.OocStr
