/-!
# String comparison and COPY, src/runtime/SYSTEM.h

A character array is a list of bytes (numbers below 256).  Reading or writing outside an array is
undefined behaviour and yields `none`.
-/
namespace Verif.CStr

/-- `__str_cmp`, src/runtime/SYSTEM.h 147-154, from index `i` on; the number returned is a C `int`.
The loop stops at the latest at the end of `x`, so recursion on what is left of `x` is total. -/
def strCmpFrom (x y : List Nat) (i : Nat) : Option Int :=
  if h : i < x.length then do
    let ch1 := x[i]
    let ch2 ← y[i]?
    if ch1 = 0 then some (-(ch2 : Int))
    else if ch1 = ch2 then strCmpFrom x y (i + 1)
    else some ((ch1 : Int) - ch2)
  else none
  termination_by x.length - i

/-- `__STRCMP`, src/runtime/SYSTEM.h 155. -/
def strCmp (x y : List Nat) : Option Int := strCmpFrom x y 0

/-- The relational operators. -/
inductive Rel where
  | eql | neq | lss | leq | gtr | geq
  deriving DecidableEq, Repr

/-- A comparison of strings in a program: `__STRCMP(x, y) op 0`, src/compiler/OPV.Mod 592-596 and
`OPC.Cmp`, src/compiler/OPC.Mod 1126-1137. -/
def strRel (r : Rel) (x y : List Nat) : Option Bool :=
  (strCmp x y).map fun (n : Int) =>
    match r with
    | .eql => n = 0
    | .neq => n ≠ 0
    | .lss => n < 0
    | .leq => n ≤ 0
    | .gtr => n > 0
    | .geq => n ≥ 0

/-- The loop and final store of `__COPY`, src/runtime/SYSTEM.h 161-162, with `_i = i` and
`_t = t`: `while(_i<_t&&((_b[_i]=_a[_i])!=0)){_i++;};_b[_i]=0;`.  Source and destination are distinct
arrays. -/
def copyLoop (a : List Nat) (t : Int) (b : List Nat) (i : Nat) : Option (List Nat) :=
  if h : (i : Int) < t then do
    let c ← a[i]?
    if i < b.length then
      let b' := b.set i c
      if c ≠ 0 then copyLoop a t b' (i + 1)
      else some (b'.set i 0)
    else none
  else if i < b.length then some (b.set i 0) else none
  termination_by (t - i).toNat

/-- `COPY(a, b)`: `__COPY(a, b, n)` with `n = LEN(b)`, src/compiler/OPV.Mod 839-841. -/
def copy (a b : List Nat) : Option (List Nat) := copyLoop a (b.length - 1) b 0

/-- Assignment of a string constant to a character array: `__MOVE(s, d, n)` with `n` the length of
the constant including its 0X, src/compiler/OPV.Mod 794-797, src/runtime/SYSTEM.h 189. -/
def moveStr (s d : List Nat) : Option (List Nat) :=
  let n := s.length + 1
  if n ≤ d.length then some (s ++ [0] ++ d.drop n) else none

end Verif.CStr
