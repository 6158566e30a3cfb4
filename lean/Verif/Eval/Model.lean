import Verif.Expr.Spec
import Verif.Emit.Spec
import Verif.Emit.Model
import Verif.Arith.Model

/-!
# Expressions with types, and the macros they are translated to

The trees of `Verif.Expr` carry what `OPV.expr` looks at.  Here expressions carry the types of their operands, and `nd` makes
the tests of `OPV.expr` on them; the text is then that of `Verif.Expr`.  The macros of src/runtime/SYSTEM.h are expanded in
the tree of the C expression that is read from the text.

Included: whole numbers of all sizes, characters, truth values, sets of 32 and 64 bits, variables, VAR parameters, fields,
elements of arrays of one dimension, pointers, type guards on pointers, calls with value parameters.  Left out: real numbers,
strings, arrays of several dimensions (C38), procedure variables, methods (C37), VAR parameters of calls, SYSTEM.VAL, ADR and
BIT.  A 64-bit target is assumed (`ADDRESS` is `INT64`).
-/
namespace Verif.Eval
open Verif.Expr

/-- Sizes of whole numbers. -/
inductive W where
  | w8 | w16 | w32 | w64
deriving DecidableEq, Repr

/-- Their number of bits. -/
def W.bits : W → Nat
  | .w8 => 8
  | .w16 => 16
  | .w32 => 32
  | .w64 => 64

/-- Types; a set has 64 bits or 32. -/
inductive Ty where
  | int (w : W)
  | chr
  | bool
  | set (wide : Bool)
  | ptr
  /-- Arrays and records. -/
  | other
deriving DecidableEq, Repr

/-- The number of elements of a set. -/
def sbits (wide : Bool) : Nat := if wide then 64 else 32

/-- What a variable is, as far as its declaration tells: a variable; the element of an array; the field of a record; what a
pointer points to; what a pointer points to that is guarded to be of type `T`. -/
inductive SP where
  | var (x : String)
  | elem (a : SP)
  | fld (r : SP) (f : String)
  | at (p : SP)
  | as (T : String)
deriving DecidableEq, Repr

/-- Declarations: the types of variables, results and parameters. -/
structure Decl where
  ty : SP → Ty
  res : String → Ty
  par : String → List Ty

/-- Arithmetic operators. -/
inductive AOp where
  | add | sub | mul
deriving DecidableEq, Repr

/-- Operators on sets: union, difference, intersection, symmetric difference. -/
inductive SOp where
  | union | diff | inter | sym
deriving DecidableEq, Repr

/-- The length of an array: declared, or the name of the variable that has it. -/
inductive Len where
  | fixed (n : Nat)
  | open_ (x : String)
deriving DecidableEq, Repr

mutual
/-- Expressions as the front end leaves them (src/compiler/OPB.Mod): constants are evaluated, and conversions are explicit. -/
inductive E where
  | int (w : W) (v : Int)
  | chr (c : Nat)
  | bool (b : Bool)
  | set (wide : Bool) (v : Nat)
  | var (x : String)
  | varpar (x : String)
  | field (d : E) (f : String)
  | deref (d : E)
  /-- An element of an array. -/
  | index (d i : E) (len : Len)
  /-- `p^[i]`, an element of an array on the heap without declared length. -/
  | hidx (p i : E)
  /-- `p(T)`. -/
  | guard (d : E) (T : String) (lev : Nat) (anon : Bool)
  /-- `LEN(a)`, of type LONGINT, whose size is given. -/
  | lenv (w : W) (x : String)
  | lenh (w : W) (p : E)
  | neg (e : E)
  | compl (e : E)
  | not (e : E)
  | abs (e : E)
  | odd (e : E)
  | cap (e : E)
  /-- A conversion to another size, or ORD. -/
  | conv (w : W) (e : E)
  | toset (wide : Bool) (e : E)
  | widen (e : E)
  | tochr (e : E)
  | upto (wide : Bool) (l r : E)
  | arith (o : AOp) (l r : E)
  | div (l r : E)
  | mod (l r : E)
  /-- `l MOD 2^k`. -/
  | msk (l : E) (k : Nat)
  | ash (l r : E)
  | lsh (l r : E)
  | rot (l r : E)
  | isin (l r : E)
  | setop (o : SOp) (l r : E)
  | rel (o : Rel) (l r : E)
  | and (l r : E)
  | or (l r : E)
  | call (f : String) (as : Es)
inductive Es where
  | nil
  | cons (e : E) (as : Es)
end

/-- Options of the compiler: checks of indices, of ranges, of types. -/
structure Opt where
  inx : Bool
  ran : Bool
  typ : Bool

/-- What is known of a variable. -/
def sp : E → SP
  | .var x => .var x
  | .varpar x => .at (.var x)
  | .field d f => .fld (sp d) f
  | .deref d => .at (sp d)
  | .index d _ _ => .elem (sp d)
  | .hidx p _ => .elem (.fld (.at (sp p)) "data")
  | .guard _ T _ _ => .as T
  | _ => .var ""

/-- The type of an expression. -/
def ty (D : Decl) : E → Ty
  | .int w _ => .int w
  | .chr _ => .chr
  | .bool _ => .bool
  | .set s _ => .set s
  | .var x => D.ty (.var x)
  | .varpar x => D.ty (.at (.var x))
  | .field d f => D.ty (.fld (sp d) f)
  | .deref d => D.ty (.at (sp d))
  | .index d _ _ => D.ty (.elem (sp d))
  | .hidx p _ => D.ty (.elem (.fld (.at (sp p)) "data"))
  | .guard _ _ _ _ => .ptr
  | .lenv w _ | .lenh w _ | .conv w _ => .int w
  | .neg e | .abs e => ty D e
  | .compl e => ty D e
  | .not _ | .odd _ | .isin _ _ | .rel _ _ _ | .and _ _ | .or _ _ => .bool
  | .cap _ | .tochr _ => .chr
  | .toset s _ | .upto s _ _ => .set s
  | .widen _ => .set true
  | .arith _ l _ | .div l _ | .mod l _ | .msk l _ | .ash l _ | .lsh l _ | .rot l _ | .setop _ l _ => ty D l
  | .call f _ => D.res f

/-- The size in bits of a value of a type. -/
def Ty.bits : Ty → Nat
  | .int w => w.bits
  | .chr | .bool => 8
  | .set s => sbits s
  | _ => 64

/-- A text of the compiler as a string. -/
def str (t : List Nat) : String := String.ofList (t.map Char.ofNat)

/-- The name of a size of whole numbers in C. -/
def W.cname : W → String
  | .w8 => "INT8"
  | .w16 => "INT16"
  | .w32 => "INT32"
  | .w64 => "INT64"

/-- Constants. -/
def const? : E → Option Int
  | .int _ v => some v
  | _ => none

/-- Is the index checked?  src/compiler/OPV.Mod 300-301. -/
def checked (o : Opt) (i : E) (fixed : Bool) : Bool :=
  o.inx && !(match const? i with | some v => v == 0 || fixed | none => false)

/-- `SizeCast`, src/compiler/OPV.Mod 244-256, for a value of `from_` bits. -/
def sizeCast (o : Opt) (from_ : Nat) (to : W) : Conv :=
  if to.bits < from_ && o.ran then .short (2 ^ (to.bits - 1))
  else if from_ ≠ to.bits ∧ (from_ > 32 ∨ to.bits ≠ 32) then .size (some to.cname)
  else .size none

/-- Size at most that of a C `int`, src/compiler/OPV.Mod 501, 565, 569. -/
def small (D : Decl) (e : E) : Bool := (ty D e).bits ≤ 32

mutual
/-- The tests of `expr` and `design` on the types of operands, src/compiler/OPV.Mod 309-396 and 470-645. -/
def nd (D : Decl) (o : Opt) : E → Nd
  | .int _ v => .int v
  | .chr c => .lit (str (Emit.characterLiteral c))
  | .bool b => .int (if b then 1 else 0)
  | .set _ v => .lit (str (Emit.setLiteral v))
  | .var x => .var x .here
  | .varpar x => .varpar x .here false
  | .field d f => .field (nd D o d) f
  | .deref d => .deref false (nd D o d)
  | .index d i (.fixed n) => .index (nd D o d) (nd D o i) (checked o i true) (.num n)
  | .index d i (.open_ x) => .hindex false (nd D o d) (.one (nd D o i) (checked o i false) (.name none x)) []
  | .hidx p i => .hindex false (.deref true (nd D o p)) (.one (nd D o i) (checked o i false) (.heap 0)) []
  | .guard d T lev anon => .guardp o.typ anon T lev (nd D o d)
  | .lenv _ x => .len (.var x .here) (.name none x)
  | .lenh _ p => .len (.deref true (nd D o p)) (.heap 0)
  | .neg e => .neg false (nd D o e)
  | .compl e => .neg true (nd D o e)
  | .not e => .not (nd D o e)
  | .abs e => .abs false (small D e) (nd D o e)
  | .odd e => .odd (nd D o e)
  | .cap e => .cap (nd D o e)
  | .conv w e => .conv (sizeCast o (ty D e).bits w) false (nd D o e)
  | .toset s e => .conv (.setOf (sbits s)) false (nd D o e)
  | .widen e => .conv (.size (some "INT64")) false (nd D o e)
  | .tochr e => .conv (if o.ran then .chr else .chrCast) false (nd D o e)
  | .upto s l r => .upto (sbits s) (nd D o l) (nd D o r)
  | .arith a l r => .bop (match a with | .add => .plus | .sub => .minus | .mul => .times) false none (nd D o l) (nd D o r)
  | .div l r => .fop .div (small D l) 0 (nd D o l) (nd D o r)
  | .mod l r => .fop .mod (small D l) 0 (nd D o l) (nd D o r)
  | .msk l k => .fop .msk (small D l) 0 (nd D o l) (.int (-(2 ^ k)))
  | .ash l r => .fop .ash (small D l) 0 (nd D o l) (nd D o r)
  | .lsh l r => .fop .lsh (small D l) (ty D l).bits (nd D o l) (nd D o r)
  | .rot l r => .fop .rot (small D l) (ty D l).bits (nd D o l) (nd D o r)
  | .isin l r => .fop .isin (small D l) (ty D r).bits (nd D o l) (nd D o r)
  | .setop a l r =>
    .bop (match a with | .union => .plus | .diff => .minus | .inter => .times | .sym => .slash) true none (nd D o l) (nd D o r)
  | .rel a l r => .rel a false (nd D o l) (nd D o r)
  | .and l r => .bop .and false none (nd D o l) (nd D o r)
  | .or l r => .bop .or false none (nd D o l) (nd D o r)
  | .call f as => .callp f (ndArgs D o as)
def ndArgs (D : Decl) (o : Opt) : Es → Args
  | .nil => .nil
  | .cons e as => .cons .none (nd D o e) [] (ndArgs D o as)
end

/-! ### C expressions after the expansion of macros -/

/-- Types of C, as far as numbers go, src/runtime/SYSTEM.h 40-58; a pointer is compared like a `UINT64`. -/
inductive CTy where
  | i8 | i16 | i32 | i64 | u8 | u16 | u32 | u64
deriving DecidableEq, Repr

/-- Binary operators of C. -/
inductive XOp where
  | add | sub | mul | div | rem | and | or | xor | shl | shr | lt | le | gt | ge | eq | ne
deriving DecidableEq, Repr

/-- Functions of the run time system: `__XF`, `__RF`, `SYSTEM_DIV`, `SYSTEM_MOD`, `SYSTEM_ASH`, `SYSTEM_ABS32`,
`SYSTEM_ABS64`. -/
inductive Fn where
  | xf | rf | div | mod | ash | abs32 | abs64
deriving DecidableEq, Repr

mutual
inductive X where
  | num (t : CTy) (v : Int)
  | id (x : String)
  | neg (e : X)
  | compl (e : X)
  | lnot (e : X)
  | bin (o : XOp) (a b : X)
  | land (a b : X)
  | lor (a b : X)
  | cond (c a b : X)
  /-- `(__HALT(code), e)`. -/
  | halt (code : Int) (e : X)
  | cast (t : CTy) (e : X)
  /-- A cast to a pointer to `T`. -/
  | pcast (T : String) (e : X)
  | star (e : X)
  | arrow (e : X) (f : String)
  | dot (e : X) (f : String)
  | idx (a i : X)
  /-- `__ISP(p, T, level)`, see C36. -/
  | isp (e : X) (T : String)
  | fn1 (f : Fn) (a : X)
  | fn2 (f : Fn) (a b : X)
  | szof (e : X)
  | call (f : String) (as : Xs)
inductive Xs where
  | nil
  | cons (e : X) (as : Xs)
end

/-- The type with a name. -/
def tyName (t : String) : Option CTy :=
  if t = "int" then some .i32
  else if t = "INT8" then some .i8
  else if t = "INT16" then some .i16
  else if t = "INT32" then some .i32
  else if t = "INT64" then some .i64
  else if t = "CHAR" then some .u8
  else none

/-- `INT##s` and `UINT##s`. -/
def sty (n : Int) : CTy := if n = 8 then .i8 else if n = 16 then .i16 else if n = 32 then .i32 else .i64
@[inherit_doc sty]
def uty (n : Int) : CTy := if n = 8 then .u8 else if n = 16 then .u16 else if n = 32 then .u32 else .u64

/-- A number in the text of a macro. -/
def k (n : Int) : X := .num .i32 n

/-- Macros of one argument: `__CHR`, `__CHRF`, src/runtime/SYSTEM.h 126-130; `__ABS`, `__ABSF`, 205-209; `__CAP`, `__ODD`,
214-215. -/
def mac1 (f : String) (x : X) : Option X :=
  if f = "__CHR" then some (.cast .u8 (.cond (.bin .lt x (k 256)) x (.halt (-8) (k 0))))
  else if f = "__CHRF" then some (.cast .u8 (.fn2 .rf x (k 256)))
  else if f = "__ABS" then some (.cond (.bin .lt x (k 0)) (.neg x) x)
  else if f = "__ABSF" then some (.cond (.bin .le (.szof x) (k 4)) (.fn1 .abs32 x) (.fn1 .abs64 x))
  else if f = "__CAP" then some (.cast .u8 (.bin .and x (k 0x5f)))
  else if f = "__ODD" then some (.bin .and x (k 1))
  else none

/-- `__LSHL`, `__LSHR`, src/runtime/SYSTEM.h 175-176. -/
def lshl (x n : X) (s : Int) : X := .cast (sty s) (.bin .shl (.cast (uty s) x) n)
@[inherit_doc lshl]
def lshr (x n : X) (s : Int) : X := .cast (sty s) (.bin .shr (.cast (uty s) x) n)

/-- `__ROTL`, `__ROTR`, src/runtime/SYSTEM.h 179-180. -/
def rotl (x n : X) (s : Int) : X :=
  .cast (sty s) (.bin .or (.bin .shl (.cast (uty s) x) n) (.bin .shr (.cast (uty s) x) (.bin .sub (k s) n)))
@[inherit_doc rotl]
def rotr (x n : X) (s : Int) : X :=
  .cast (sty s) (.bin .or (.bin .shr (.cast (uty s) x) n) (.bin .shl (.cast (uty s) x) (.bin .sub (k s) n)))

/-- `__ASHL`, `__ASHR`, src/runtime/SYSTEM.h 183-184. -/
def ashl (x n : X) : X := .bin .shl (.cast .i64 x) n
@[inherit_doc ashl]
def ashr (x n : X) : X := .bin .shr (.cast .i64 x) n

/-- Macros of two arguments: `__XF`, `__X`, src/runtime/SYSTEM.h 119-120; `__SHORT`, `__SHORTF`, 127-128; `__ASHL` to
`__ASHF`, 183-187; `__DIVF` to `__MOD`, 192-199; `__SETOF`, 219; `__MASK`, 222. -/
def mac2 (f : String) (x y : X) : Option X :=
  if f = "__XF" then some (.fn2 .xf x y)
  else if f = "__X" then some (.cond (.bin .lt x y) x (.halt (-2) (k 0)))
  else if f = "__SHORT" then some (.cast .i32 (.cond (.bin .lt (.bin .add (.cast .u64 x) y) (.bin .add y y)) x
    (.halt (-8) (k 0))))
  else if f = "__SHORTF" then some (.cast .i32 (.bin .sub (.fn2 .rf (.bin .add x y) (.bin .add y y)) y))
  else if f = "__ASHL" then some (ashl x y)
  else if f = "__ASHR" then some (ashr x y)
  else if f = "__ASH" then some (.cond (.bin .ge y (k 0)) (ashl x y) (ashr x (.neg y)))
  else if f = "__ASHF" then some (.fn2 .ash (.cast .i64 x) (.cast .i64 y))
  else if f = "__DIVF" then some (.fn2 .div x y)
  else if f = "__DIV" then some (.cond (.land (.bin .gt x (k 0)) (.bin .gt y (k 0))) (.bin .div x y) (.fn2 .div x y))
  else if f = "__MODF" then some (.fn2 .mod x y)
  else if f = "__MOD" then some (.cond (.land (.bin .gt x (k 0)) (.bin .gt y (k 0))) (.bin .rem x y) (.fn2 .mod x y))
  else if f = "__SETOF" then match y with
    | .num _ n => some (.bin .shl (.cast (uty n) (k 1)) x)
    | _ => none
  else if f = "__MASK" then some (.bin .and x (.compl y))
  else none

/-- Macros of three arguments: `__LSHL` to `__ROT`, src/runtime/SYSTEM.h 175-181; `__IN`, 217; `__SETRNG`, 220; `__GUARDP`,
`__GUARDA`, 242-244.  `ADDRESS` and the level of the type play no part here. -/
def mac3 (f : String) (x y z : X) : Option X :=
  if f = "__GUARDP" ∨ f = "__GUARDA" then match y with
    | .id T => some (.pcast T (.cond (.isp x T) x (.halt (-5) x)))
    | _ => none
  else match z with
  | .num _ n =>
    if f = "__LSHL" then some (lshl x y n)
    else if f = "__LSHR" then some (lshr x y n)
    else if f = "__LSH" then some (.cond (.bin .ge y (k 0)) (lshl x y n) (lshr x (.neg y) n))
    else if f = "__ROTL" then some (rotl x y n)
    else if f = "__ROTR" then some (rotr x y n)
    else if f = "__ROT" then some (.cond (.bin .ge y (k 0)) (rotl x y n) (rotr x (.neg y) n))
    else if f = "__IN" then some (.land (.bin .lt (.cast .u32 x) (k n)) (.bin .and (.bin .shr (.cast (uty n) y) x) (k 1)))
    else if f = "__SETRNG" then some (.bin .and (.bin .shl (.compl (.cast (uty n) (k 0))) x)
      (.bin .shr (.compl (.cast (uty n) (k 0))) (.bin .sub (.bin .sub (k n) (k 1)) y)))
    else none
  | _ => none

/-- The macros that occur. -/
def macros : List String :=
  ["__CHR", "__CHRF", "__ABS", "__ABSF", "__CAP", "__ODD", "__XF", "__X", "__SHORT", "__SHORTF", "__ASHL", "__ASHR", "__ASH",
    "__ASHF", "__DIVF", "__DIV", "__MODF", "__MOD", "__SETOF", "__MASK", "__LSHL", "__LSHR", "__LSH", "__ROTL", "__ROTR",
    "__ROT", "__IN", "__SETRNG", "__GUARDP", "__GUARDA"]

/-- The expansion of a macro, or the call of a function. -/
def mac (f : String) (as : Xs) : Option X :=
  if f ∈ macros then match as with
    | .cons x .nil => mac1 f x
    | .cons x (.cons y .nil) => mac2 f x y
    | .cons x (.cons y (.cons z .nil)) => mac3 f x y z
    | _ => none
  else some (.call f as)

/-- The type of a constant: decimal ones are written with `LL` if they do not fit an `int` (C11); others are of the first of
the types `int`, `unsigned`, `long`, `unsigned long` that contains them (ISO/IEC 9899, 6.4.4.1). -/
def decTy (n : Nat) : CTy := if n < 2 ^ 31 then .i32 else .i64
@[inherit_doc decTy]
def hexTy (n : Nat) : CTy := if n < 2 ^ 31 then .i32 else if n < 2 ^ 32 then .u32 else if n < 2 ^ 63 then .i64 else .u64

/-- The value of the text of a constant for a character or a set, as a C compiler reads it (see C12). -/
def litVal (s : String) : Option Nat := Emit.CSpec.cCharConst (Emit.CSpec.trigraphs (s.toList.map Char.toNat))

/-- Operators. -/
def xop : COp → Option XOp
  | .plus => some .add
  | .minus => some .sub
  | .star => some .mul
  | .slash => some .div
  | .amp => some .and
  | .bar => some .or
  | .caret => some .xor
  | .lt => some .lt
  | .le => some .le
  | .gt => some .gt
  | .ge => some .ge
  | .eq => some .eq
  | .ne => some .ne
  | _ => none

/-- A unary operator. -/
def xun (o : COp) (e : X) : Option X :=
  match o with
  | .minus => some (.neg e)
  | .tilde => some (.compl e)
  | .bang => some (.lnot e)
  | .star => some (.star e)
  | _ => none

/-- A binary operator. -/
def xbin (o : COp) (a b : X) : Option X :=
  match o with
  | .andand => some (.land a b)
  | .oror => some (.lor a b)
  | o => (xop o).map fun p => .bin p a b

/-- A cast to a type of numbers, or of a pointer to a type with this name. -/
def xcast (t : String) (stars : Nat) (e : X) : Option X :=
  if stars = 0 then match tyName t with
    | some c => some (.cast c e)
    | none => some (.pcast t e)
  else none

mutual
/-- The expansion of the macros in an expression. -/
def expand : CE → Option X
  | .num n => some (.num (decTy n) n)
  | .lit s => (litVal s).map fun v => .num (hexTy v) v
  | .id x => some (.id x)
  | .un o e => (expand e).bind (xun o)
  | .bin o a b => (expand a).bind fun x => (expand b).bind fun y => xbin o x y
  | .idx a i => (expand a).bind fun x => (expand i).map fun y => .idx x y
  | .dot a f => (expand a).map fun x => .dot x f
  | .arrow a f => (expand a).map fun x => .arrow x f
  | .cast t n e => (expand e).bind (xcast t n)
  | .call (.id f) as => (expandArgs as).bind (mac f)
  | .call _ _ => none
def expandArgs : CEs → Option Xs
  | .nil => some .nil
  | .cons e as => (expand e).bind fun x => (expandArgs as).map fun xs => .cons x xs
  | .ty _ _ => none
end

end Verif.Eval
