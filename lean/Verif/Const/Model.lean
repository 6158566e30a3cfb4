import Verif.Arith.Model

/-!
# Integer constants and the rewriting of expressions, src/compiler/OPB.Mod

The compiler's own arithmetic is C arithmetic on `INT64`: an overflow *in the compiler* is undefined
behaviour and yields `none`.  `DIV` and `MOD` in the compiler are the macros `__DIV` and `__MOD`
(`bootstrap/unix-88/OPB.c` 923, 972).  `…Wrap` functions describe the compiler on a machine that wraps
around.  An error message is `.error n`.
-/
namespace Verif.Const
open Verif.Arith

def maxI64 : Int := 2 ^ 63 - 1
def minI64 : Int := -(2 ^ 63)

/-- Result of folding: the new constant, or an error number. -/
abbrev Fold := Except Nat Int

deriving instance DecidableEq for Except

/-- `ConstOp`, case `plus` on integers, src/compiler/OPB.Mod 548-553. -/
def constPlus (x y : Int) : Option Fold := do
  let a ← if y ≥ 0 then (ck (maxI64 - y)).map (fun m => decide (x ≤ m)) else some false
  let b ← if a then some true
    else if y < 0 then (ck (minI64 - y)).map (fun m => decide (x ≥ m)) else some false
  if b then (ck (x + y)).map .ok else some (.error 206)

/-- `ConstOp`, case `minus` on integers, src/compiler/OPB.Mod 564-569. -/
def constMinus (x y : Int) : Option Fold := do
  let a ← if y ≥ 0 then (ck (minI64 + y)).map (fun m => decide (x ≥ m)) else some false
  let b ← if a then some true
    else if y < 0 then (ck (maxI64 + y)).map (fun m => decide (x ≤ m)) else some false
  if b then (ck (x - y)).map .ok else some (.error 207)

/-- The guard of `ConstOp`, case `times` on integers, src/compiler/OPB.Mod 496-500; `div` is the
division used by the compiler and `neg` its negation. -/
def timesGuard (div : Int → Int → Option Int) (neg : Int → Option Int) (x y : Int) : Option Bool := do
  if x = 0 ∨ y = 0 then some true
  else
    let a ← if x > 0 ∧ y > 0 then (div maxI64 x).map (fun q => decide (y ≤ q)) else some false
    if a then some true
    else
      let b ← if x > 0 ∧ y < 0 then (div minI64 x).map (fun q => decide (y ≥ q)) else some false
      if b then some true
      else
        let c ← if x < 0 ∧ y > 0 then (div minI64 y).map (fun q => decide (x ≥ q)) else some false
        if c then some true
        else if x < 0 ∧ y < 0 ∧ x ≠ minI64 ∧ y ≠ minI64 then do
          let nx ← neg x
          let ny ← neg y
          (div maxI64 ny).map (fun q => decide (nx ≤ q))
        else some false

/-- `ConstOp`, case `times` on integers, src/compiler/OPB.Mod 495-503. -/
def constTimes (x y : Int) : Option Fold := do
  let g ← timesGuard divMacro (fun a => ck (-a)) x y
  if g then (ck (x * y)).map .ok else some (.error 204)

/-- `__DIV` on a wrapping machine, src/runtime/SYSTEM.h 194. -/
def divMacroWrap (x y : Int) : Int := if x > 0 ∧ y > 0 then Int.tdiv x y else systemDivWrap x y

/-- `constTimes` on a machine that wraps around. -/
def constTimesWrap (x y : Int) : Option Fold := do
  let g ← timesGuard (fun a b => some (divMacroWrap a b)) (fun a => some (wrap64 (-a))) x y
  some (if g then .ok (wrap64 (x * y)) else .error 204)

/-- `ConstOp`, case `div` on integers, src/compiler/OPB.Mod 530-536. -/
def constDiv (x y : Int) : Option Fold :=
  if y ≠ 0 then (divMacro x y).map .ok else some (.error 205)

/-- `ConstOp`, case `mod` on integers, src/compiler/OPB.Mod 537-543. -/
def constMod (x y : Int) : Option Fold :=
  if y ≠ 0 then (modMacro x y).map .ok else some (.error 205)

/-- `constDiv` on a wrapping machine. -/
def constDivWrap (x y : Int) : Fold := if y ≠ 0 then .ok (divMacroWrap x y) else .error 205

/-- The relational operators. -/
inductive Rel where
  | eql | neq | lss | leq | gtr | geq
  deriving DecidableEq, Repr

/-- Results of `ConstCmp`, src/compiler/OPB.Mod 426-460, for integers and characters. -/
inductive Cmp where
  | lss | eql | gtr
  deriving DecidableEq, Repr

/-- `ConstCmp` on integers and characters, src/compiler/OPB.Mod 431-435. -/
def constCmp (x y : Int) : Cmp := if x < y then .lss else if x > y then .gtr else .eql

/-- `ConstOp` for relations, src/compiler/OPB.Mod 584-597. -/
def constRel (r : Rel) (x y : Int) : Bool :=
  match r with
  | .eql => constCmp x y = .eql
  | .neq => constCmp x y ≠ .eql
  | .lss => constCmp x y = .lss
  | .leq => constCmp x y ≠ .gtr
  | .gtr => constCmp x y = .gtr
  | .geq => constCmp x y ≠ .lss

/-- `MOp`, monadic minus on an integer constant, src/compiler/OPB.Mod 302-305. -/
def constNeg (x : Int) : Option Fold := if x = minI64 then some (.error 203) else (ck (-x)).map .ok

/-- `MOp`, ABS of an integer constant, src/compiler/OPB.Mod 322-325. -/
def constAbs (x : Int) : Option Fold :=
  if x = minI64 then some (.error 203) else (ck (if x < 0 then -x else x)).map .ok

/-- `MOp`, ODD of a constant, src/compiler/OPB.Mod 343. -/
def constOdd (x : Int) : Bool := odd x

/-- The largest exponent, src/compiler/OPB.Mod 1513: `log(MAX(INT64) DIV 2 + 1)` sets `exp` to 62 (see
`maxExp_eq`). -/
def maxExp : Int := 62

/-- ASH of two constants, src/compiler/OPB.Mod 1180-1189.  `__ABS` of the smallest number is undefined. -/
def constAsh (p n : Int) : Option Fold :=
  if -maxExp > n ∨ n > maxExp then some (.error 208)
  else if n ≥ 0 then do
    let a ← ck (absMacro p)
    let e ← ash 1 n
    let q ← divMacro maxI64 e
    if a ≤ q then (ck (p * e)).map .ok else some (.error 208)
  else (ash p n).map .ok

/-! ### Types of integer constants -/

/-- The loop of `IntSize`, src/compiler/OPT.Mod 233. -/
def intSizeLoop (n : Int) : Nat → Nat → Nat
  | 0, bytes => bytes
  | fuel + 1, bytes =>
    if bytes < 8 ∧ n >>> (8 * bytes - 1) ≠ 0 then intSizeLoop n fuel (bytes + 1) else bytes

/-- `IntSize`, src/compiler/OPT.Mod 228-235. -/
def intSize (n : Int) : Nat := intSizeLoop (if n < 0 then -(n + 1) else n) 8 1

/-- `IntType`, src/compiler/OPT.Mod 237-244: the size of the type chosen. -/
def intType (size : Nat) : Nat :=
  if size ≤ 1 then 1 else if size ≤ 2 then 2 else if size ≤ 4 then 4 else 8

/-- `SetIntType`, src/compiler/OPB.Mod 107-109. -/
def setIntType (v : Int) : Nat := intType (intSize v)

/-- `CheckAssign` for an integer designator of size `x` and an integer expression of size `y`,
src/compiler/OPB.Mod 866-867: accepted? -/
def checkAssignInt (x y : Nat) : Bool := ¬ (x < y)

/-- `SignedMaximum`, src/compiler/OPM.Mod 156-162; `none`: overflow. -/
def signedMaximum (bytes : Nat) : Option Int := do
  let r ← lsh 64 1 (bytes * 8 - 1)
  ck (r - 1)

/-- `SignedMaximum` on a wrapping machine. -/
def signedMaximumWrap (bytes : Nat) : Option Int := (lsh 64 1 (bytes * 8 - 1)).map (fun r => wrap64 (r - 1))

/-- `SignedMinimum` on a wrapping machine, src/compiler/OPM.Mod 164-166. -/
def signedMinimumWrap (bytes : Nat) : Option Int :=
  (signedMaximumWrap bytes).map (fun r => wrap64 (wrap64 (-r) - 1))

/-- `Convert` of an integer constant of value `v`, whose type has size `old`, to an integer type of size
`new`, src/compiler/OPB.Mod 611-615: the new value and the errors. -/
def convertConst (v : Int) (old new : Nat) : Int × List Nat :=
  if old > new then
    if setIntType v > new then (1, [203]) else (v, [])
  else (v, [])

/-! ### Rewriting of operations with one constant operand -/

/-- The loop of `log`, src/compiler/OPB.Mod 260: value and exponent. -/
def logLoop : Nat → Int → Nat → Int × Nat
  | 0, x, e => (x, e)
  | fuel + 1, x, e => if ¬ x % 2 = 1 then logLoop fuel (x / 2) (e + 1) else (x, e)

/-- `log`, src/compiler/OPB.Mod 257-263; the second component is the global variable `exp`. -/
def log (x : Int) : Int × Nat := if x > 0 then logLoop 64 x 0 else (x, 0)

/-- Operations of expression nodes: those of the source language, and `ash` and `msk`, which the
compiler introduces. -/
inductive DOp where
  | times | div | mod | plus | minus | and | or | ash | msk
  deriving DecidableEq, Repr

/-- Expression nodes.  `opaque n` is any expression whose inside does not matter here, such as a
variable or a function call. -/
inductive Node where
  | const (v : Int)
  | opaque (n : Nat)
  | dop (op : DOp) (l r : Node)
  deriving DecidableEq, Repr

/-- Outcome of building a node: a node, or an error message. -/
abbrev Built := Except Nat Node

/-- `Op` for operands of the same integer type (or both BOOLEAN), not both constant,
src/compiler/OPB.Mod 702-775. -/
def rewriteOp (op : DOp) (z y : Node) : Built :=
  match op with
  | .times =>
    match z, y with
    | .const v, y =>
      if v = 1 then .ok y
      else if v = 0 then .ok (.const v)
      else if (log v).1 = 1 then .ok (.dop .ash y (.const (log v).2))
      else .ok (.dop .times (.const v) y)
    | z, .const v =>
      if v = 1 then .ok z
      else if v = 0 then .ok (.const v)
      else if (log v).1 = 1 then .ok (.dop .ash z (.const (log v).2))
      else .ok (.dop .times z (.const v))
    | z, y => .ok (.dop .times z y)
  | .div =>
    match y with
    | .const v =>
      if v = 0 then .error 205
      else if v = 1 then .ok z
      else if (log v).1 = 1 then .ok (.dop .ash z (.const (-((log v).2 : Int))))
      else .ok (.dop .div z (.const v))
    | y => .ok (.dop .div z y)
  | .mod =>
    match y with
    | .const v =>
      if v = 0 then .error 205
      else if (log v).1 = 1 then .ok (.dop .msk z (.const (-(2 ^ (log v).2))))
      else .ok (.dop .mod z (.const v))
    | y => .ok (.dop .mod z y)
  | .plus =>
    match z, y with
    | .const v, y => if v = 0 then .ok y else .ok (.dop .plus (.const v) y)
    | z, .const v => if v = 0 then .ok z else .ok (.dop .plus z (.const v))
    | z, y => .ok (.dop .plus z y)
  | .minus =>
    match y with
    | .const v => if v = 0 then .ok z else .ok (.dop .minus z (.const v))
    | y => .ok (.dop .minus z y)
  | .and =>
    match z, y with
    | .const v, y => if v ≠ 0 then .ok y else .ok (.const v)
    | z, .const v => if v ≠ 0 then .ok z else .ok (.dop .and z (.const v))
    | z, y => .ok (.dop .and z y)
  | .or =>
    match z, y with
    | .const v, y => if v = 0 then .ok y else .ok (.const v)
    | z, .const v => if v = 0 then .ok z else .ok (.dop .or z (.const v))
    | z, y => .ok (.dop .or z y)
  | .ash => .ok (.dop .ash z y)
  | .msk => .ok (.dop .msk z y)

/-- `ConstOp`, src/compiler/OPB.Mod 494-583, on integers, and on BOOLEAN constants (0 and 1). -/
def constOp (op : DOp) (x y : Int) : Option Fold :=
  match op with
  | .times => constTimes x y
  | .div => constDiv x y
  | .mod => constMod x y
  | .plus => constPlus x y
  | .minus => constMinus x y
  | .and => some (.ok (if x ≠ 0 ∧ y ≠ 0 then 1 else 0))
  | .or => some (.ok (if x ≠ 0 ∨ y ≠ 0 then 1 else 0))
  | .ash => constAsh x y
  | .msk => some (.ok (mask x y))

/-- `Op`, src/compiler/OPB.Mod 637-799, for operands of the same integer type or both BOOLEAN.
`none`: undefined behaviour in the compiler. -/
def mkOp (op : DOp) (z y : Node) : Option Built :=
  match z, y with
  | .const a, .const b => (constOp op a b).map fun r =>
      match r with
      | .ok v => .ok (.const v)
      | .error e => .error e
  | z, y => some (rewriteOp op z y)

/-- The tree the parser builds, bottom up, for an expression (src/compiler/OPP.Mod 418-500 call `Op` for
each operator). -/
def build : Node → Option Built
  | .const v => some (.ok (.const v))
  | .opaque n => some (.ok (.opaque n))
  | .dop op l r => do
    match ← build l with
    | .error e => some (.error e)
    | .ok l' =>
      match ← build r with
      | .error e => some (.error e)
      | .ok r' => mkOp op l' r'

/-! ### What the emitted C computes -/

/-- The value of an operation in the emitted C code, src/compiler/OPV.Mod 529-630, on operands of a type of
`w` bits.  `*`, `+`, `-` are undefined on overflow of the type; `DIV`, `MOD`, `ash` and `msk` are the macros
`__DIV`, `__MOD`, `__ASHL`/`__ASHR`, `__MASK`. -/
def applyOp (w : Nat) (op : DOp) (x y : Int) : Option Int :=
  match op with
  | .times => if InRange w (x * y) then some (x * y) else none
  | .plus => if InRange w (x + y) then some (x + y) else none
  | .minus => if InRange w (x - y) then some (x - y) else none
  | .div => if y = 0 then none else divMacro x y
  | .mod => if y = 0 then none else modMacro x y
  | .ash => ash x y
  | .msk => some (mask x y)
  | .and => some (if x ≠ 0 ∧ y ≠ 0 then 1 else 0)
  | .or => some (if x ≠ 0 ∨ y ≠ 0 then 1 else 0)

/-- Evaluation of a node in a state, from left to right, `&` and `OR` with short circuit; `leaf n` is
the effect of the opaque expression `n`: it may change the state, and may fail to deliver a value. -/
def eval {S : Type} (w : Nat) (leaf : Nat → S → Option (Int × S)) : Node → S → Option (Int × S)
  | .const v, s => some (v, s)
  | .opaque n, s => leaf n s
  | .dop .and l r, s => do
    let (x, s) ← eval w leaf l s
    if x = 0 then some (0, s)
    else
      let (y, s) ← eval w leaf r s
      some (if y ≠ 0 then 1 else 0, s)
  | .dop .or l r, s => do
    let (x, s) ← eval w leaf l s
    if x ≠ 0 then some (1, s)
    else
      let (y, s) ← eval w leaf r s
      some (if y ≠ 0 then 1 else 0, s)
  | .dop op l r, s => do
    let (x, s) ← eval w leaf l s
    let (y, s) ← eval w leaf r s
    let v ← applyOp w op x y
    some (v, s)

end Verif.Const
