/-
Model of the arithmetic part of the run time: `src/runtime/SYSTEM.c` and the macros of
`src/runtime/SYSTEM.h`.

C integers are mathematical integers (`Int`).  An operation whose exact result does not fit the
C type is undefined behaviour: the model returns `none`.  `wrap64` versions describe what a
two's complement machine that wraps around computes instead.
-/
namespace Verif.Arith

/-- The range of C's `INT64` (`SYSTEM.h` integer typedefs). -/
def InI64 (x : Int) : Prop := -(2 ^ 63) ≤ x ∧ x < 2 ^ 63

instance (x : Int) : Decidable (InI64 x) := inferInstanceAs (Decidable (_ ∧ _))

/-- The range of a signed integer type of `n` bits. -/
def InRange (n : Nat) (x : Int) : Prop := -(2 ^ (n - 1)) ≤ x ∧ x < 2 ^ (n - 1)

instance (n : Nat) (x : Int) : Decidable (InRange n x) := inferInstanceAs (Decidable (_ ∧ _))

/-- Result of a C `INT64` operation with exact result `x`: undefined when `x` does not fit. -/
def ck (x : Int) : Option Int := if InI64 x then some x else none

/-- C's `/` on `INT64` (C11 6.5.5: truncation toward zero; undefined for 0 and for overflow). -/
def cdiv (x y : Int) : Option Int := if y = 0 then none else ck (Int.tdiv x y)

/-- C's `%` on `INT64` (C11 6.5.5: undefined when `x / y` is). -/
def cmod (x y : Int) : Option Int :=
  if y = 0 then none else if InI64 (Int.tdiv x y) then some (Int.tmod x y) else none

/-- `SYSTEM_DIV`, src/runtime/SYSTEM.c 27-36.  Every intermediate value is checked. -/
def systemDiv (x y : Int) : Option Int :=
  if x = 0 then some 0
  else if x ≥ 0 then
    if y ≥ 0 then cdiv x y
    else do
      let a ← ck (x - y)
      let b ← ck (a - 1)
      let c ← ck (-y)
      let d ← cdiv b c
      ck (-d)
  else
    if y ≥ 0 then do
      let a ← ck (y - x)
      let b ← ck (a - 1)
      let d ← cdiv b y
      ck (-d)
    else do
      let a ← ck (-x)
      let c ← ck (-y)
      cdiv a c

/-- `SYSTEM_MOD`, src/runtime/SYSTEM.c 38-47. -/
def systemMod (x y : Int) : Option Int :=
  if x = 0 then some 0
  else if x ≥ 0 then
    if y ≥ 0 then cmod x y
    else do
      let a ← ck (y + 1)
      let b ← ck (x - 1)
      let c ← ck (-y)
      let d ← cmod b c
      ck (a + d)
  else
    if y ≥ 0 then do
      let a ← ck (y - 1)
      let b ← ck (-x)
      let c ← ck (b - 1)
      let d ← cmod c y
      ck (a - d)
    else do
      let a ← ck (-x)
      let c ← ck (-y)
      let d ← cmod a c
      ck (-d)

/-- `__DIV`, src/runtime/SYSTEM.h 194: fast path for two positive operands. -/
def divMacro (x y : Int) : Option Int :=
  if x > 0 ∧ y > 0 then cdiv x y else systemDiv x y

/-- `__MOD`, src/runtime/SYSTEM.h 199. -/
def modMacro (x y : Int) : Option Int :=
  if x > 0 ∧ y > 0 then cmod x y else systemMod x y

/-- Two's complement wrap-around to 64 bits: what the hardware does where C says "undefined". -/
def wrap64 (x : Int) : Int := (x + 2 ^ 63) % 2 ^ 64 - 2 ^ 63

/-- `SYSTEM_DIV` on a wrapping machine, for `y ≠ 0` (src/runtime/SYSTEM.c 27-36). -/
def systemDivWrap (x y : Int) : Int :=
  if x = 0 then 0
  else if x ≥ 0 then
    if y ≥ 0 then Int.tdiv x y
    else wrap64 (-(wrap64 (Int.tdiv (wrap64 (wrap64 (x - y) - 1)) (wrap64 (-y)))))
  else
    if y ≥ 0 then wrap64 (-(Int.tdiv (wrap64 (wrap64 (y - x) - 1)) y))
    else wrap64 (Int.tdiv (wrap64 (-x)) (wrap64 (-y)))

/-- Outcome of a checked run time operation: a value, or `__HALT(code)`. -/
inductive Res (α : Type) where
  | ok (v : α)
  | halt (code : Int)
  deriving DecidableEq, Repr

/-- Conversion of a C integer to `UINT64`. -/
def toU64 (x : Int) : Int := x % 2 ^ 64

/-- Conversion to `UINT32` (C's `unsigned int`). -/
def toU32 (x : Int) : Int := x % 2 ^ 32

/-- `__XF`, src/runtime/SYSTEM.h 119: both parameters are converted to `UINT64`, and the
result back to `INT64`. -/
def xf (i ub : Int) : Res Int :=
  if toU64 i ≥ toU64 ub then .halt (-2) else .ok (wrap64 (toU64 i))

/-- `__X`, src/runtime/SYSTEM.h 120.  `i` is the index expression, of a signed Oberon integer
type, and `ub` an `ADDRESS` (signed) or an integer literal: C compares them as signed numbers. -/
def xMacro (i ub : Int) : Res Int := if i < ub then .ok i else .halt (-2)

/-- `__RF`, src/runtime/SYSTEM.h 125. -/
def rf (i ub : Int) : Res Int :=
  if toU64 i ≥ toU64 ub then .halt (-8) else .ok (wrap64 (toU64 i))

/-- `__R`, src/runtime/SYSTEM.h 126: a signed comparison, as in `__X`. -/
def rMacro (i ub : Int) : Res Int := if i < ub then .ok i else .halt (-8)

/-- Conversion to C's 32-bit `int` by wrapping. -/
def wrap32 (x : Int) : Int := (x + 2 ^ 31) % 2 ^ 32 - 2 ^ 31

/-- `__SHORT`, src/runtime/SYSTEM.h 127: the sum is a `UINT64` sum, so it wraps. -/
def shortMacro (x ub : Int) : Res Int :=
  if (toU64 x + ub) % 2 ^ 64 < toU64 (ub + ub) then .ok (wrap32 x) else .halt (-8)

/-- `__SHORTF`, src/runtime/SYSTEM.h 128.  `w` is the width of the type in which C computes
`(x)+(ub)`: 32 when both are `int`, 64 otherwise; the sum wraps (strictly: undefined behaviour
in C when it overflows; see `shortFDefined`). -/
def shortF (w : Nat) (x ub : Int) : Res Int :=
  let s := (x + ub + 2 ^ (w - 1)) % 2 ^ w - 2 ^ (w - 1)
  match rf s (ub + ub) with
  | .ok v => .ok (wrap32 (v - ub))
  | .halt c => .halt c

/-- The sum in `__SHORTF` stays in its C type. -/
def shortFDefined (w : Nat) (x ub : Int) : Prop := InRange w (x + ub)

/-- Conversion to `CHAR` (`UINT8`). -/
def toChar (x : Int) : Int := x % 256

/-- `__CHR`, src/runtime/SYSTEM.h 129. -/
def chrMacro (x : Int) : Res Int :=
  match rMacro x 256 with | .ok v => .ok (toChar v) | .halt c => .halt c

/-- `__CHRF`, src/runtime/SYSTEM.h 130. -/
def chrF (x : Int) : Res Int :=
  match rf x 256 with | .ok v => .ok (toChar v) | .halt c => .halt c

/-- How an index is checked: OPV.Index, src/compiler/OPV.Mod 298-307, together with the compile
time check of constant indices in OPB.Index, src/compiler/OPB.Mod 175-198. -/
inductive IndexKind where
  /-- constant index (`Nconst`) -/
  | const
  /-- an index expression that contains a procedure call (`SideEffects`, OPV.Mod 229-234) -/
  | withCall
  /-- any other expression -/
  | plain
  deriving DecidableEq, Repr

/-- Outcome of an element access `a[i]` with index checks on. -/
inductive Access where
  | compileError
  | halt (code : Int)
  /-- memory is accessed at this index -/
  | element (i : Int)
  deriving DecidableEq, Repr

/-- Outcome of `a[i]` for an array of length `len` (`isOpen`: open array), with option `x`
(index checks) on.  OPB.Mod 175-198 rejects constant indices that are negative, or too large for an array
of fixed length; OPV.Mod 298-307 emits no check for the constant 0 or for a constant index of a
fixed array, `__XF` if the index contains a call, `__X` otherwise. -/
def indexAccess (k : IndexKind) (isOpen : Bool) (i len : Int) : Access :=
  match k with
  | .const =>
    if i < 0 ∨ (isOpen = false ∧ i ≥ len) then .compileError
    else if i = 0 ∨ isOpen = false then .element i
    else match xMacro i len with | .ok v => .element v | .halt c => .halt c
  | .withCall => match xf i len with | .ok v => .element v | .halt c => .halt c
  | .plain => match xMacro i len with | .ok v => .element v | .halt c => .halt c

/-- `__ABS`, src/runtime/SYSTEM.h 206. -/
def absMacro (x : Int) : Int := if x < 0 then -x else x

/-- `SYSTEM_ABS64`, src/runtime/SYSTEM.h 208: note the result type `INT32`. -/
def systemAbs64 (x : Int) : Int := wrap32 (if x ≥ 0 then x else -x)

/-- `SYSTEM_ABS32`, src/runtime/SYSTEM.h 209. -/
def systemAbs32 (x : Int) : Int := if x ≥ 0 then x else -x

/-- `__ABSF`, src/runtime/SYSTEM.h 210; `size` is the size in bytes of the argument's type.
Used for `ABS(e)` when `e` contains a call (src/compiler/OPV.Mod 504-512). -/
def absF (size : Nat) (x : Int) : Int := if size ≤ 4 then systemAbs32 x else systemAbs64 x

/-! ### Shifts, rotations, sets -/

/-- The bit pattern of `x` in an `s`-bit word: C's conversion to `UINT##s`. -/
def pat (s : Nat) (x : Int) : Nat := (x % 2 ^ s).toNat

/-- Conversion of a bit pattern back to `INT##s`. -/
def sgn (s : Nat) (u : Nat) : Int :=
  let v : Int := (u : Int) % 2 ^ s
  if v < 2 ^ (s - 1) then v else v - 2 ^ s

/-- The width in which C shifts an `s`-bit unsigned value (integer promotion: at least 32).
For `s < 32` C promotes to signed `int`; we take its left shift to wrap. -/
def promW (s : Nat) : Nat := if s < 32 then 32 else s

/-- C's `<<` on a promoted `s`-bit unsigned value; undefined for a count outside the width. -/
def cshl (s : Nat) (u : Nat) (n : Int) : Option Nat :=
  if 0 ≤ n ∧ n < promW s then some ((u <<< n.toNat) % 2 ^ promW s) else none

/-- C's `>>` on a promoted `s`-bit unsigned value. -/
def cshr (s : Nat) (u : Nat) (n : Int) : Option Nat :=
  if 0 ≤ n ∧ n < promW s then some (u >>> n.toNat) else none

/-- `__LSHL`, src/runtime/SYSTEM.h 175. -/
def lshl (s : Nat) (x n : Int) : Option Int := (cshl s (pat s x) n).map (sgn s)

/-- `__LSHR`, src/runtime/SYSTEM.h 176. -/
def lshr (s : Nat) (x n : Int) : Option Int := (cshr s (pat s x) n).map (sgn s)

/-- `__LSH`, src/runtime/SYSTEM.h 177. -/
def lsh (s : Nat) (x n : Int) : Option Int := if n ≥ 0 then lshl s x n else lshr s x (-n)

/-- `__ROTL`, src/runtime/SYSTEM.h 179. -/
def rotl (s : Nat) (x n : Int) : Option Int := do
  let a ← cshl s (pat s x) n
  let b ← cshr s (pat s x) (s - n)
  return sgn s (a ||| b)

/-- `__ROTR`, src/runtime/SYSTEM.h 180. -/
def rotr (s : Nat) (x n : Int) : Option Int := do
  let a ← cshr s (pat s x) n
  let b ← cshl s (pat s x) (s - n)
  return sgn s (a ||| b)

/-- `__ROT`, src/runtime/SYSTEM.h 181. -/
def rot (s : Nat) (x n : Int) : Option Int := if n ≥ 0 then rotl s x n else rotr s x (-n)

/-- `__ASHL`, src/runtime/SYSTEM.h 183, on a machine whose left shift wraps; undefined for a
count outside 0..63. -/
def ashl (x n : Int) : Option Int :=
  if 0 ≤ n ∧ n < 64 then some (wrap64 (x * 2 ^ n.toNat)) else none

/-- `__ASHR`, src/runtime/SYSTEM.h 184: arithmetic shift. -/
def ashr (x n : Int) : Option Int :=
  if 0 ≤ n ∧ n < 64 then some (x >>> n.toNat) else none

/-- `__ASH`, src/runtime/SYSTEM.h 185-187. -/
def ash (x n : Int) : Option Int := if n ≥ 0 then ashl x n else ashr x (-n)

/-- `__ODD`, src/runtime/SYSTEM.h 216: `(x)&1`. -/
def odd (x : Int) : Bool := (pat 64 x) &&& 1 ≠ 0

/-- `__CAP`, src/runtime/SYSTEM.h 215. -/
def cap (ch : Nat) : Nat := (ch &&& 0x5f) % 256

/-- `__IN`, src/runtime/SYSTEM.h 218.  `x` is converted to `unsigned int` for the comparison only;
the shift count is `x` itself, and is undefined outside the width. -/
def inMacro (s : Nat) (x : Int) (set : Nat) : Option Bool :=
  if toU32 x < s then (cshr s (set % 2 ^ s) x).map (fun u => decide (u &&& 1 ≠ 0))
  else some false

/-- `__SETOF`, src/runtime/SYSTEM.h 220. -/
def setOf (s : Nat) (x : Int) : Option Nat := (cshl s 1 x).map (· % 2 ^ s)

/-- `__SETRNG`, src/runtime/SYSTEM.h 221: `(~0<<l) & ~0>>(size-1-h)`. -/
def setRng (s : Nat) (l h : Int) : Option Nat := do
  let a ← cshl s (2 ^ s - 1) l
  let b ← cshr s (2 ^ s - 1) (s - 1 - h)
  return (a &&& b) % 2 ^ s

/-- INCL and EXCL: `v |= __SETOF(x,s)` / `v &= ~__SETOF(x,s)`, src/compiler/OPV.Mod 835-838 and
src/compiler/OPC.Mod 1192-1195. -/
def incl (s : Nat) (v : Nat) (x : Int) : Option Nat := (setOf s x).map (fun b => (v ||| b) % 2 ^ s)

@[inherit_doc incl]
def excl (s : Nat) (v : Nat) (x : Int) : Option Nat :=
  (setOf s x).map (fun b => v &&& (2 ^ s - 1 - b))

/-- `__MASK`, src/runtime/SYSTEM.h 223: `(x)&~(m)` on `INT64`. -/
def mask (x m : Int) : Int := sgn 64 (pat 64 x &&& (2 ^ 64 - 1 - pat 64 m))

/-- Set union, emitted as `a | b`, src/compiler/OPV.Mod 618. -/
def setUnion (a b : Nat) : Nat := a ||| b

/-- Set intersection, emitted as `(a & b)`, src/compiler/OPV.Mod 608. -/
def setInter (a b : Nat) : Nat := a &&& b

/-- Set difference, emitted as `(a & ~b)`, src/compiler/OPV.Mod 621. -/
def setDiff (s a b : Nat) : Nat := a &&& (2 ^ s - 1 - b)

/-- Symmetric set difference, emitted as `a ^ b`, src/compiler/OPV.Mod 611. -/
def setSymDiff (a b : Nat) : Nat := a ^^^ b

/-- Set complement (monadic `-`), emitted as `~a`, src/compiler/OPV.Mod 494; the assignment to a
`UINT##s` keeps the low `s` bits. -/
def setCompl (s a : Nat) : Nat := 2 ^ s - 1 - a

end Verif.Arith
