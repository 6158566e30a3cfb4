/-!
The index expression of an element of a multi-dimensional open array: the branch `Nindex` of `OPV.design`
(`src/compiler/OPV.Mod` 331-354).  The expression is kept as a tree; that its C text is read as this tree is the
subject of C41.  Values are those of C's 64-bit arithmetic: lengths are of type `ADDRESS` (`OPC.LenList`,
`SYSTEM_NEWARR`), so every sum and product with a length is computed in 64 bits.
-/
namespace Verif.Horner

/-- An index as it stands in the program: a value, and whether it is the constant 0. -/
structure Ix where
  val : Int
  const : Bool := false
deriving Repr, DecidableEq

/-- The C expression: an index with its check against length `i`, length `i`, sums and products. -/
inductive IExp where
  | idx (x : Ix) (i : Nat)
  | len (i : Nat)
  | add (a b : IExp)
  | mul (a b : IExp)
deriving Repr

/-- The loop `WHILE x # d` with its closing parentheses (`src/compiler/OPV.Mod` 339-345): the indices from the last to
the first, `i` the dimension of the last one.  The empty list does not occur. -/
def hornerLoop : Nat → List Ix → IExp
  | i, [] => .len i
  | i, [x] => .idx x i
  | i, x :: r => .add (.idx x i) (.mul (.len i) (hornerLoop (i - 1) r))

/-- The last part (`src/compiler/OPV.Mod` 346-353): if the element is itself an open array, the index is multiplied by the
lengths of the remaining dimensions; `dims + 1` is the value of `i` after `FOR i := 1 TO dims`, and `k`, the number of
open dimensions, is `(d^.typ^.size - 4) DIV 4` (`OPT.TypSize`, `src/compiler/OPT.Mod` 353-357). -/
def remaining (k : Nat) : Nat → Nat → IExp → IExp
  | 0, _, e => e
  | f + 1, i, e => if i < k then remaining k f (i + 1) (.mul e (.len i)) else e

/-- The expression between the brackets for the indices `ix` of an array with `k` open dimensions. -/
def indexExp (k : Nat) (ix : List Ix) : IExp :=
  let dims := ix.length - 1
  let e := hornerLoop dims ix.reverse
  if ix.length < k then remaining k k (dims + 1) e else e

/-- 64-bit signed arithmetic of C; `none` is undefined behaviour. -/
def ck (x : Int) : Option Int := if -(2 ^ 63) ≤ x ∧ x < 2 ^ 63 then some x else none

/-- The value of the expression; `none` is `__HALT(-2)` or undefined.  `OPV.Index` (`src/compiler/OPV.Mod` 298-307) writes
the index without check if checks are off or it is the constant 0, and else `__X` or `__XF` (`src/runtime/SYSTEM.h`
119-120): with `xf`, as for an index that calls a function, negative values are caught too. -/
def eval (inxchk : Bool) (xf : Bool) (lens : List Int) : IExp → Option Int
  | .idx x i =>
    if !inxchk || (x.const && x.val == 0) then some x.val
    else match lens[i]? with
      | none => none
      | some l => if x.val < l ∧ (xf = true → 0 ≤ x.val) then some x.val else none
  | .len i => lens[i]?
  | .add a b => (eval inxchk xf lens a).bind fun x => (eval inxchk xf lens b).bind fun y => ck (x + y)
  | .mul a b => (eval inxchk xf lens a).bind fun x => (eval inxchk xf lens b).bind fun y => ck (x * y)

end Verif.Horner
