import Mathlib.Data.List.Basic

/-!
# The name on the command line of showdef: `Ident`, src/tools/browser/BrowserCmd.Mod 254-263

Characters are bytes; arrays are lists with index checks, and `none` is a failing check.
-/
namespace Verif.ShowDef.Arg

/-- The first loop, BrowserCmd.Mod 257; the first argument bounds the number of rounds. -/
def toEnd (a : List Nat) : Nat → Nat → Option Nat
  | 0, _ => none
  | f + 1, i =>
    match a[i]? with
    | none => none
    | some c => if c ≠ 0 then toEnd a f (i + 1) else some i

/-- The second loop, BrowserCmd.Mod 258, with `i + 1` for `i`, which can be -1. -/
def back (a : List Nat) : Nat → Option Nat
  | 0 => some 0
  | i + 1 =>
    match a[i]? with
    | none => none
    | some c => if c ≠ 47 then back a i else some (i + 1)

/-- The third loop and the end, BrowserCmd.Mod 260-262. -/
def copy (a : List Nat) : Nat → Nat → Nat → List Nat → Option (List Nat)
  | 0, _, _, _ => none
  | f + 1, i, j, first =>
    match a[i]? with
    | none => none
    | some c =>
      if j < first.length then
        if c ≠ 46 ∧ c ≠ 0 then copy a f (i + 1) (j + 1) (first.set j c) else some (first.set j 0)
      else none

/-- The string in an array: the characters before 0X. -/
def str (a : List Nat) : List Nat := a.takeWhile (· ≠ 0)

/-- `Ident`, BrowserCmd.Mod 254-263: what `Files.SetSearchPath` is called with, if it is, and the array `first`. -/
def ident (name first : List Nat) : Option (Option (List Nat) × List Nat) := do
  let e ← toEnd name (name.length + 1) 0
  let k ← back name (e + 1)
  let name' := if 1 < k then name.set (k - 1) 0 else name
  let r ← copy name' (name.length + 1) k 0 first
  pure (if 1 < k then some (str name') else none, r)

end Verif.ShowDef.Arg
