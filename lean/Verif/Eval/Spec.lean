import Verif.Eval.Model

/-!
# The values of expressions

First the meaning of an expression in the language (report, chapter 8 and 10.3), then the meaning of an expression of C
(ISO/IEC 9899, 6.3.1 and 6.5).  Both give a value, or stop the program with a code, after the calls made; operands are
evaluated from left to right on both sides, an order that both languages leave open.  Nothing is said (`undef`) of the
language's side if a result does not fit its type, a divisor is zero, NIL is dereferenced, or a set element is out of range.
-/
namespace Verif.Eval
open Verif.Expr

/-- The call of a procedure with its arguments. -/
abbrev Ev := String × List Int

/-- What becomes of an evaluation. -/
inductive Out (α : Type) where
  | undef
  /-- The program stops with a code. -/
  | trap (code : Int) (t : List Ev)
  | ok (a : α) (t : List Ev)
deriving Repr, DecidableEq

/-- After some calls. -/
def Out.after {α : Type} (t : List Ev) : Out α → Out α
  | .undef => .undef
  | .trap c u => .trap c (t ++ u)
  | .ok a u => .ok a (t ++ u)

/-- One evaluation and then another. -/
def Out.bind {α β : Type} (x : Out α) (f : α → Out β) : Out β :=
  match x with
  | .undef => .undef
  | .trap c t => .trap c t
  | .ok a t => (f a).after t

/-- A variable at run time. -/
inductive Place where
  | var (x : String)
  | elem (a : Place) (i : Int)
  | fld (r : Place) (f : String)
  /-- What the pointer with this value points to. -/
  | at (s : SP) (v : Int)
deriving DecidableEq, Repr

/-- What is known of it. -/
def Place.sp : Place → SP
  | .var x => .var x
  | .elem a _ => .elem a.sp
  | .fld r f => .fld r.sp f
  | .at s _ => .at s

/-- The values of variables, the results of procedures, and whether an object has a type or an extension of it. -/
structure Env where
  load : Place → Int
  res : String → List Int → Int
  isT : Int → String → Bool

/-- The values of a type. -/
def InTy : Ty → Int → Prop
  | .int w, v => -(2 ^ (w.bits - 1)) ≤ v ∧ v < 2 ^ (w.bits - 1)
  | .chr, v => 0 ≤ v ∧ v < 256
  | .bool, v => v = 0 ∨ v = 1
  | .set s, v => 0 ≤ v ∧ v < 2 ^ sbits s
  | _, v => 0 ≤ v ∧ v < 2 ^ 64

instance (t : Ty) (v : Int) : Decidable (InTy t v) := by
  cases t <;> unfold InTy <;> infer_instance

/-- Variables have values of their types. -/
def EnvOk (D : Decl) (V : Env) : Prop := (∀ p, InTy (D.ty p.sp) (V.load p)) ∧ ∀ f vs, InTy (D.res f) (V.res f vs)

/-! ### The language -/

/-- A result that has to fit its type. -/
def fit (t : Ty) (v : Int) : Out Int := if InTy t v then .ok v [] else .undef

/-- A truth value. -/
def tv (b : Bool) : Int := if b then 1 else 0

/-- Relations. -/
def relV : Rel → Int → Int → Bool
  | .eql, a, b => a = b
  | .neq, a, b => a ≠ b
  | .lss, a, b => a < b
  | .leq, a, b => a ≤ b
  | .gtr, a, b => a > b
  | .geq, a, b => a ≥ b

def arithV : AOp → Int → Int → Int
  | .add, a, b => a + b
  | .sub, a, b => a - b
  | .mul, a, b => a * b

/-- Sets as numbers: `k` is an element if bit `k` is set. -/
def setV (n : Nat) : SOp → Nat → Nat → Nat
  | .union, a, b => a ||| b
  | .diff, a, b => a &&& (2 ^ n - 1 - b)
  | .inter, a, b => a &&& b
  | .sym, a, b => a ^^^ b

/-- The set `{l .. h}`. -/
def rangeV (l h : Int) : Nat := if l ≤ h then 2 ^ (h.toNat + 1) - 2 ^ l.toNat else 0

/-- The pattern of `n` bits of a number, and the number with that pattern. -/
def bits (n : Nat) (x : Int) : Nat := (x % 2 ^ n).toNat
@[inherit_doc bits]
def unbits (n : Nat) (u : Nat) : Int := (u + 2 ^ (n - 1) : Int) % 2 ^ n - 2 ^ (n - 1)

/-- SYSTEM.LSH: zeros are shifted in. -/
def lshV (n : Nat) (x c : Int) : Int :=
  if 0 ≤ c then unbits n (bits n x * 2 ^ c.toNat) else unbits n (bits n x / 2 ^ (-c).toNat)

/-- SYSTEM.ROT: what is shifted out comes in on the other side. -/
def rotV (n : Nat) (x c : Int) : Int :=
  let m := (c % n).toNat
  unbits n (bits n x * 2 ^ m + bits n x / 2 ^ (n - m))

/-- ASH(x, c): `x * 2^c`, rounded down. -/
def ashV (x c : Int) : Int := if 0 ≤ c then x * 2 ^ c.toNat else Int.fdiv x (2 ^ (-c).toNat)

/-- An element of an array. -/
def elemP (chk : Bool) (p : Place) (i n : Int) : Out Place :=
  if 0 ≤ i ∧ i < n then .ok (.elem p i) [] else if chk then .trap (-2) [] else .undef

/-- What a pointer points to. -/
def atP (s : SP) (v : Int) : Out Place := if v = 0 then .undef else .ok (.at s v) []

/-- The value of a variable. -/
def ld (V : Env) (p : Out Place) : Out Int := p.bind fun p => .ok (V.load p) []

/-- The length of an array. -/
def lenV (V : Env) : Len → Int
  | .fixed n => n
  | .open_ x => V.load (.var x)

/-- The length of an array on the heap, from the array's descriptor. -/
def lenH (V : Env) (p : Place) : Int := V.load (.elem (.fld p "len") 0)

/-- A conversion to another size. -/
def convV (ran : Bool) (t : Ty) (v : Int) : Out Int :=
  if InTy t v then .ok v [] else if ran then .trap (-8) [] else .undef

/-- The monadic operators that cannot fail. -/
def oddV (v : Int) : Int := v % 2
@[inherit_doc oddV]
def capV (v : Int) : Int := ((v.toNat &&& 0x5f : Nat) : Int)

mutual
/-- The variable that a designator denotes. -/
def plc (D : Decl) (o : Opt) (V : Env) : E → Out Place
  | .var x => .ok (.var x) []
  | .varpar x => atP (.var x) (V.load (.var x))
  | .field d f => (plc D o V d).bind fun p => .ok (.fld p f) []
  | .deref d => (val D o V d).bind (atP (sp d))
  | .index d i n => (plc D o V d).bind fun p => (val D o V i).bind fun v => elemP o.inx p v (lenV V n)
  | .hidx p i => (val D o V p).bind fun a => (atP (sp p) a).bind fun q => (val D o V i).bind fun v =>
      elemP o.inx (.fld q "data") v (lenH V q)
  | _ => .undef
/-- The value of an expression. -/
def val (D : Decl) (o : Opt) (V : Env) : E → Out Int
  | .int _ v => .ok v []
  | .chr c => .ok c []
  | .bool b => .ok (tv b) []
  | .set _ v => .ok v []
  | .var x => .ok (V.load (.var x)) []
  | .varpar x => ld V (atP (.var x) (V.load (.var x)))
  | .field d f => ld V ((plc D o V d).bind fun p => .ok (.fld p f) [])
  | .deref d => ld V ((val D o V d).bind (atP (sp d)))
  | .index d i n => ld V ((plc D o V d).bind fun p => (val D o V i).bind fun v => elemP o.inx p v (lenV V n))
  | .hidx p i => ld V ((val D o V p).bind fun a => (atP (sp p) a).bind fun q => (val D o V i).bind fun v =>
      elemP o.inx (.fld q "data") v (lenH V q))
  | .guard d T _ _ => (val D o V d).bind fun v =>
      if v = 0 then .undef else if V.isT v T then .ok v [] else if o.typ then .trap (-5) [] else .undef
  | .lenv w x => fit (.int w) (V.load (.var x))
  | .lenh w p => (val D o V p).bind fun a => (atP (sp p) a).bind fun q => fit (.int w) (lenH V q)
  | .neg e => (val D o V e).bind fun v => fit (ty D e) (-v)
  | .compl e => (val D o V e).bind fun v => .ok (2 ^ (ty D e).bits - 1 - v) []
  | .not e => (val D o V e).bind fun v => .ok (1 - v) []
  | .abs e => (val D o V e).bind fun v => fit (ty D e) (if v < 0 then -v else v)
  | .odd e => (val D o V e).bind fun v => .ok (oddV v) []
  | .cap e => (val D o V e).bind fun v => .ok (capV v) []
  | .conv w e => (val D o V e).bind (convV (o.ran && decide (w.bits < (ty D e).bits)) (.int w))
  | .toset s e => (val D o V e).bind fun v => if 0 ≤ v ∧ v < sbits s then .ok (2 ^ v.toNat) [] else .undef
  | .widen e => val D o V e
  | .tochr e => (val D o V e).bind (convV o.ran .chr)
  | .upto s l r => (val D o V l).bind fun a => if 0 ≤ a ∧ a < sbits s then
      (val D o V r).bind fun b => if 0 ≤ b ∧ b < sbits s then .ok (rangeV a b) [] else .undef
      else .undef
  | .arith q l r => (val D o V l).bind fun a => (val D o V r).bind fun b => fit (ty D l) (arithV q a b)
  | .div l r => (val D o V l).bind fun a => (val D o V r).bind fun b =>
      if b = 0 then .undef else fit (ty D l) (Int.fdiv a b)
  | .mod l r => (val D o V l).bind fun a => (val D o V r).bind fun b =>
      if b = 0 then .undef else fit (ty D l) (Int.fmod a b)
  | .msk l k => (val D o V l).bind fun a => fit (ty D l) (Int.fmod a (2 ^ k))
  | .ash l r => (val D o V l).bind fun a => (val D o V r).bind fun b => fit (ty D l) (ashV a b)
  | .lsh l r => (val D o V l).bind fun a => (val D o V r).bind fun b => .ok (lshV (ty D l).bits a b) []
  | .rot l r => (val D o V l).bind fun a => (val D o V r).bind fun b => .ok (rotV (ty D l).bits a b) []
  | .isin l r => (val D o V l).bind fun a => (val D o V r).bind fun b =>
      .ok (tv (decide (0 ≤ a) && b.toNat.testBit a.toNat)) []
  | .setop q l r => (val D o V l).bind fun a => (val D o V r).bind fun b =>
      .ok (setV (ty D l).bits q a.toNat b.toNat) []
  | .rel q l r => (val D o V l).bind fun a => (val D o V r).bind fun b => .ok (tv (relV q a b)) []
  | .and l r => (val D o V l).bind fun a => if a = 0 then .ok 0 [] else val D o V r
  | .or l r => (val D o V l).bind fun a => if a = 0 then val D o V r else .ok 1 []
  | .call f as => (vals D o V as).bind fun vs => .ok (V.res f vs) [(f, vs)]
def vals (D : Decl) (o : Opt) (V : Env) : Es → Out (List Int)
  | .nil => .ok [] []
  | .cons e as => (val D o V e).bind fun v => (vals D o V as).bind fun vs => .ok (v :: vs) []
end

/-! ### C -/

/-- Signed? -/
def CTy.sg : CTy → Bool
  | .i8 | .i16 | .i32 | .i64 => true
  | _ => false

def CTy.bits : CTy → Nat
  | .i8 | .u8 => 8
  | .i16 | .u16 => 16
  | .i32 | .u32 => 32
  | .i64 | .u64 => 64

/-- The values of a type of C. -/
def CTy.has (t : CTy) (v : Int) : Prop :=
  if t.sg then -(2 ^ (t.bits - 1)) ≤ v ∧ v < 2 ^ (t.bits - 1) else 0 ≤ v ∧ v < 2 ^ t.bits

instance (t : CTy) (v : Int) : Decidable (t.has v) := by unfold CTy.has; infer_instance

/-- Conversion to a type (6.3.1.3; to a signed type by wrapping around). -/
def cnv (t : CTy) (v : Int) : Int :=
  if t.sg then (v + 2 ^ (t.bits - 1)) % 2 ^ t.bits - 2 ^ (t.bits - 1) else v % 2 ^ t.bits

/-- The integer promotions (6.3.1.1). -/
def prom (t : CTy) : CTy := if t.bits < 32 then .i32 else t

/-- The usual arithmetic conversions (6.3.1.8). -/
def usual (a b : CTy) : CTy :=
  let a := prom a
  let b := prom b
  if a = b then a
  else if a.sg = b.sg then if a.bits < b.bits then b else a
  else
    let u := if a.sg then b else a
    let s := if a.sg then a else b
    if s.bits ≤ u.bits then u else s

/-- The type of an Oberon type in C. -/
def cty : Ty → CTy
  | .int .w8 => .i8
  | .int .w16 => .i16
  | .int .w32 => .i32
  | .int .w64 => .i64
  | .chr => .u8
  | .bool => .i8
  | .set false => .u32
  | .set true => .u64
  | .ptr => .u64
  | .other => .u64

/-- A relation? -/
def XOp.isRel : XOp → Bool
  | .lt | .le | .gt | .ge | .eq | .ne => true
  | _ => false

/-- A shift? -/
def XOp.isSh : XOp → Bool
  | .shl | .shr => true
  | _ => false

/-- The type of the result of a function of the run time system. -/
def Fn.ret : Fn → CTy
  | .abs64 => .i32
  | _ => .i64

/-- What is known of a variable. -/
def xsp : X → SP
  | .id x => .var x
  | .star e => .at (xsp e)
  | .arrow e f => .fld (.at (xsp e)) f
  | .dot e f => .fld (xsp e) f
  | .idx a _ => .elem (xsp a)
  | .pcast T _ => .as T
  | _ => .var ""

/-- The type of an expression (6.5). -/
def xty (D : Decl) : X → CTy
  | .num t _ => t
  | .id x => cty (D.ty (.var x))
  | .star e => cty (D.ty (.at (xsp e)))
  | .arrow e f => cty (D.ty (.fld (.at (xsp e)) f))
  | .dot e f => cty (D.ty (.fld (xsp e) f))
  | .idx a _ => cty (D.ty (.elem (xsp a)))
  | .neg e | .compl e => prom (xty D e)
  | .lnot _ | .land _ _ | .lor _ _ | .isp _ _ => .i32
  | .bin o a b => if o.isRel then .i32 else if o.isSh then prom (xty D a) else usual (xty D a) (xty D b)
  | .cond _ a b => usual (xty D a) (xty D b)
  | .halt _ e => xty D e
  | .cast t _ => t
  | .pcast _ _ => .u64
  | .fn1 f _ | .fn2 f _ _ => f.ret
  | .szof _ => .u64
  | .call f _ => cty (D.res f)

/-- The result of an arithmetic operation: undefined if a signed one does not fit, otherwise wrapped around. -/
def cfit (t : CTy) (v : Int) : Out Int :=
  if t.sg then if t.has v then .ok v [] else .undef else .ok (v % 2 ^ t.bits) []

/-- A bitwise operation, on the patterns. -/
def cbits (t : CTy) (f : Nat → Nat → Nat) (a b : Int) : Int :=
  cnv t (f (a % 2 ^ t.bits).toNat (b % 2 ^ t.bits).toNat)

/-- A binary operator on operands of a type; for shifts, that of the left operand.  A left shift wraps around, a right shift
of a negative number keeps the sign. -/
def binV (o : XOp) (t : CTy) (a b : Int) : Out Int :=
  match o with
  | .add => cfit t (a + b)
  | .sub => cfit t (a - b)
  | .mul => cfit t (a * b)
  | .div => if b = 0 then .undef else cfit t (Int.tdiv a b)
  | .rem => if b = 0 then .undef else if t.has (Int.tdiv a b) then .ok (Int.tmod a b) [] else .undef
  | .and => .ok (cbits t (· &&& ·) a b) []
  | .or => .ok (cbits t (· ||| ·) a b) []
  | .xor => .ok (cbits t (· ^^^ ·) a b) []
  | .shl => if 0 ≤ b ∧ b < t.bits then .ok (cnv t (a * 2 ^ b.toNat)) [] else .undef
  | .shr => if 0 ≤ b ∧ b < t.bits then .ok (a / 2 ^ b.toNat) [] else .undef
  | .lt => .ok (tv (decide (a < b))) []
  | .le => .ok (tv (decide (a ≤ b))) []
  | .gt => .ok (tv (decide (a > b))) []
  | .ge => .ok (tv (decide (a ≥ b))) []
  | .eq => .ok (tv (decide (a = b))) []
  | .ne => .ok (tv (decide (a ≠ b))) []

/-- A binary operator on operands of types. -/
def binX (o : XOp) (ta tb : CTy) (a b : Int) : Out Int :=
  if o.isSh then binV o (prom ta) a b else binV o (usual ta tb) (cnv (usual ta tb) a) (cnv (usual ta tb) b)

/-- The outcome of a function of the run time system. -/
def ofOpt : Option Int → Out Int
  | some v => .ok v []
  | none => .undef
@[inherit_doc ofOpt]
def ofRes : Arith.Res Int → Out Int
  | .ok v => .ok v []
  | .halt c => .trap c []

/-- The functions of the run time system; arguments are converted to the types of the parameters. -/
def fn1V (f : Fn) (a : Int) : Out Int :=
  match f with
  | .abs32 => cfit .i32 (if cnv .i32 a ≥ 0 then cnv .i32 a else -(cnv .i32 a))
  | .abs64 => (cfit .i64 (if cnv .i64 a ≥ 0 then cnv .i64 a else -(cnv .i64 a))).bind fun v => .ok (cnv .i32 v) []
  | _ => .undef
@[inherit_doc fn1V]
def fn2V (f : Fn) (a b : Int) : Out Int :=
  match f with
  | .xf => ofRes (Arith.xf a b)
  | .rf => ofRes (Arith.rf a b)
  | .div => ofOpt (Arith.systemDiv (cnv .i64 a) (cnv .i64 b))
  | .mod => ofOpt (Arith.systemMod (cnv .i64 a) (cnv .i64 b))
  | .ash => ofOpt (Arith.ash (cnv .i64 a) (cnv .i64 b))
  | _ => .undef

mutual
/-- The variable that an expression of C denotes. -/
def cplc (D : Decl) (V : Env) : X → Out Place
  | .id x => .ok (.var x) []
  | .star e => (cval D V e).bind (atP (xsp e))
  | .arrow e f => (cval D V e).bind fun v => (atP (xsp e) v).bind fun p => .ok (.fld p f) []
  | .dot e f => (cplc D V e).bind fun p => .ok (.fld p f) []
  | .idx a i => (cplc D V a).bind fun p => (cval D V i).bind fun v => .ok (.elem p v) []
  | _ => .undef
/-- The value of an expression of C. -/
def cval (D : Decl) (V : Env) : X → Out Int
  | .num _ v => .ok v []
  | .id x => .ok (V.load (.var x)) []
  | .star e => ld V ((cval D V e).bind (atP (xsp e)))
  | .arrow e f => ld V ((cval D V e).bind fun v => (atP (xsp e) v).bind fun p => .ok (.fld p f) [])
  | .dot e f => ld V ((cplc D V e).bind fun p => .ok (.fld p f) [])
  | .idx a i => ld V ((cplc D V a).bind fun p => (cval D V i).bind fun v => .ok (.elem p v) [])
  | .neg e => (cval D V e).bind fun v => cfit (prom (xty D e)) (-v)
  | .compl e => (cval D V e).bind fun v => .ok (cnv (prom (xty D e)) (-1 - v)) []
  | .lnot e => (cval D V e).bind fun v => .ok (tv (decide (v = 0))) []
  | .bin o a b => (cval D V a).bind fun v => (cval D V b).bind fun w => binX o (xty D a) (xty D b) v w
  | .land a b => (cval D V a).bind fun v => if v = 0 then .ok 0 [] else
      (cval D V b).bind fun w => .ok (tv (decide (w ≠ 0))) []
  | .lor a b => (cval D V a).bind fun v => if v = 0 then (cval D V b).bind fun w => .ok (tv (decide (w ≠ 0))) [] else .ok 1 []
  | .cond c a b => (cval D V c).bind fun v =>
      (if v = 0 then cval D V b else cval D V a).bind fun w => .ok (cnv (usual (xty D a) (xty D b)) w) []
  | .halt c _ => .trap c []
  | .cast t e => (cval D V e).bind fun v => .ok (cnv t v) []
  | .pcast _ e => cval D V e
  | .isp e T => (cval D V e).bind fun v => if v = 0 then .undef else .ok (tv (V.isT v T)) []
  | .fn1 f a => (cval D V a).bind (fn1V f)
  | .fn2 f a b => (cval D V a).bind fun v => (cval D V b).bind fun w => fn2V f v w
  | .szof e => .ok ((xty D e).bits / 8 : Nat) []
  | .call f as => (cvals D V (D.par f) as).bind fun vs => .ok (V.res f vs) [(f, vs)]
/-- Arguments, converted to the types of the parameters. -/
def cvals (D : Decl) (V : Env) : List Ty → Xs → Out (List Int)
  | _, .nil => .ok [] []
  | ts, .cons e as => (cval D V e).bind fun v => (cvals D V ts.tail as).bind fun vs =>
      .ok (cnv (cty (ts.headD .other)) v :: vs) []
end

/-! ### What the front end makes sure of -/

/-- Is the expression a constant set? -/
def isSet : E → Bool
  | .set _ _ => true
  | _ => false

/-- Constants. -/
def isConst' : E → Bool
  | .int _ _ | .chr _ | .bool _ | .set _ _ => true
  | _ => false

/-- Designators. -/
def isDesE : E → Bool
  | .var _ | .varpar _ | .field _ _ | .deref _ | .index _ _ _ | .hidx _ _ | .guard _ _ _ _ => true
  | _ => false

/-- A variable other than a guarded one. -/
def isVarE : E → Bool
  | .var _ | .varpar _ | .field _ _ | .deref _ | .index _ _ _ | .hidx _ _ => true
  | _ => false

/-- A whole number. -/
def isIntTy : Ty → Bool
  | .int _ => true
  | _ => false

/-- A value of the first type may be passed for a parameter of the second. -/
def passes : Ty → Ty → Bool
  | .int a, .int b => a.bits ≤ b.bits
  | .set a, .set b => sbits a ≤ sbits b
  | a, b => a == b && a != .other

mutual
/-- Expressions as the front end leaves them: operands have the types that the operators ask for, of the same size; constants
are evaluated. -/
def wt (D : Decl) : E → Bool
  | .int w v => decide (InTy (.int w) v)
  | .chr c => decide (c < 256)
  | .bool _ => true
  | .set s v => decide (v < 2 ^ sbits s)
  | .var _ => true
  | .varpar x => D.ty (.var x) == .ptr
  | .field d _ => wt D d && isVarE d
  | .deref d => wt D d && isDesE d && ty D d == .ptr
  | .index d i n => wt D d && isVarE d && wt D i && isIntTy (ty D i) && (match n with
      | .fixed n => decide (0 < n ∧ n < 2 ^ 31) && (match const? i with | some v => decide (0 ≤ v ∧ v < n) | none => true)
      | .open_ x => D.ty (.var x) == .int .w64)
  | .hidx p i => wt D p && isDesE p && ty D p == .ptr && wt D i && isIntTy (ty D i) &&
      D.ty (.elem (.fld (.at (sp p)) "len")) == .int .w64
  | .guard d T _ _ => wt D d && isDesE d && ty D d == .ptr && (tyName T).isNone
  | .lenv _ x => D.ty (.var x) == .int .w64
  | .lenh _ p => wt D p && isDesE p && ty D p == .ptr && D.ty (.elem (.fld (.at (sp p)) "len")) == .int .w64
  | .neg e | .abs e => wt D e && isIntTy (ty D e) && !isConst' e
  | .compl e => wt D e && (ty D e == .set false || ty D e == .set true) && !isConst' e
  | .not e => wt D e && ty D e == .bool
  | .odd e => wt D e && isIntTy (ty D e)
  | .cap e => wt D e && ty D e == .chr
  | .conv w e => wt D e && !isConst' e && (isIntTy (ty D e) || ty D e == .chr && decide (8 < w.bits))
  | .toset _ e => wt D e && isIntTy (ty D e)
  | .widen e => wt D e && ty D e == .set false
  | .tochr e => wt D e && isIntTy (ty D e)
  | .upto _ l r => wt D l && wt D r && isIntTy (ty D l) && isIntTy (ty D r)
  | .arith _ l r | .div l r | .mod l r => wt D l && wt D r && isIntTy (ty D l) && ty D l == ty D r &&
      !(isConst' l && isConst' r)
  | .msk l k => wt D l && isIntTy (ty D l) && !isConst' l && decide (k < (ty D l).bits - 1)
  | .ash l r | .lsh l r | .rot l r => wt D l && wt D r && isIntTy (ty D l) && isIntTy (ty D r)
  | .isin l r => wt D l && wt D r && isIntTy (ty D l) && (ty D r == .set false || ty D r == .set true)
  | .setop _ l r => wt D l && wt D r && (ty D l == .set false || ty D l == .set true) && ty D l == ty D r &&
      !(isSet l && isSet r)
  | .rel o l r => wt D l && wt D r && ty D l == ty D r && !(isConst' l && isConst' r) && (match ty D l with
      | .int _ | .chr => true
      | .bool | .ptr | .set _ => o == .eql || o == .neq
      | .other => false)
  | .and l r | .or l r => wt D l && wt D r && ty D l == .bool && ty D r == .bool
  | .call f as => wts D (D.par f) as && !(macros.contains f)
def wts (D : Decl) : List Ty → Es → Bool
  | [], .nil => true
  | t :: ts, .cons e as => wt D e && passes (ty D e) t && wts D ts as
  | _, _ => false
end

/-- The expression contains a call. -/
def calls (D : Decl) (o : Opt) (e : E) : Bool := sideEff (nd D o e)

/-- DIV and MOD of 64 bits do not work for all operands, see C01. -/
def divOk (x y : Int) : Prop :=
  (x ≥ 0 → y < 0 → x - y ≤ 2 ^ 63 - 1 ∧ -y ≤ 2 ^ 63 - 1) ∧ (x < 0 → y ≥ 0 → y - x ≤ 2 ^ 63 - 1) ∧
    (x < 0 → y < 0 → -x ≤ 2 ^ 63 - 1 ∧ -y ≤ 2 ^ 63 - 1 )

/-- Every value of the expression has a property. -/
def Vals (D : Decl) (o : Opt) (V : Env) (e : E) (P : Int → Prop) : Prop := ∀ v t, val D o V e = .ok v t → P v

/-- The expression has a value. -/
def HasVal (D : Decl) (o : Opt) (V : Env) (e : E) : Prop := ∃ v t, val D o V e = .ok v t

/-- The evaluation stops the program. -/
def Traps (D : Decl) (o : Opt) (V : Env) (e : E) : Prop := ∃ c t, val D o V e = .trap c t

mutual
/-- Expressions without the cases in which the generated code is known to deviate; each is shown to deviate below, or in C01,
C02 and C05. -/
def Calm (D : Decl) (o : Opt) (V : Env) : E → Prop
  | .field d _ | .deref d => Calm D o V d
  | .index d i n => Calm D o V d ∧ Calm D o V i ∧ 0 < lenV V n ∧
      (checked o i (match n with | .fixed _ => true | .open_ _ => false) = true → calls D o i = false →
        Vals D o V i fun v => 0 ≤ v)
  | .hidx p i => Calm D o V p ∧ Calm D o V i ∧ (Vals D o V p fun a => 0 < lenH V (.at (sp p) a)) ∧
      (checked o i false = true → calls D o p = false ∧ (calls D o i = false → Vals D o V i fun v => 0 ≤ v))
  | .guard d _ _ _ => Calm D o V d ∧ (o.typ = true → calls D o d = false)
  | .lenh _ p => Calm D o V p
  | .neg e | .compl e | .not e | .odd e | .cap e | .toset _ e | .widen e => Calm D o V e
  | .abs e => Calm D o V e ∧ (calls D o e = true → ty D e = .int .w64 → Vals D o V e fun v => -(2 ^ 31) < v ∧ v < 2 ^ 31)
  | .conv w e => Calm D o V e ∧ (o.ran = true → w.bits < (ty D e).bits → calls D o e = true →
      Vals D o V e fun v => v + 2 ^ (w.bits - 1) < 2 ^ ((if (ty D e).bits ≤ 32 then 32 else 64) - 1))
  | .tochr e => Calm D o V e ∧ (o.ran = true → calls D o e = false → Vals D o V e fun v => 0 ≤ v)
  | .upto _ l r | .arith _ l r | .rel _ l r | .and l r | .or l r => Calm D o V l ∧ Calm D o V r
  | .div l r | .mod l r => Calm D o V l ∧ Calm D o V r ∧ Vals D o V l fun a => Vals D o V r fun b => divOk a b
  | .msk l _ => Calm D o V l
  | .ash l r => Calm D o V l ∧ Calm D o V r ∧
      (const? r = none → calls D o r = false → HasVal D o V r ∨ calls D o l = false ∧ ¬ Traps D o V l) ∧
      Vals D o V r fun b => -64 < b ∧ b < 64
  | .lsh l r => Calm D o V l ∧ Calm D o V r ∧ (const? r = none → calls D o r = false) ∧
      (const? r = none → HasVal D o V r ∨ calls D o l = false ∧ ¬ Traps D o V l) ∧
      Vals D o V r fun b => -((ty D l).bits : Int) < b ∧ b < (ty D l).bits
  | .rot l r => Calm D o V l ∧ Calm D o V r ∧ calls D o l = false ∧ (const? r = none → calls D o r = false) ∧
      (const? r = none → HasVal D o V r ∨ ¬ Traps D o V l) ∧
      Vals D o V r fun b => b ≠ 0 ∧ -((ty D l).bits : Int) < b ∧ b < (ty D l).bits
  | .isin l r => Calm D o V l ∧ Calm D o V r ∧ calls D o l = false ∧ calls D o r = false ∧
      (Vals D o V l fun a => -(2 ^ 31) ≤ a ∧ a < 2 ^ 31) ∧
      (Traps D o V r → Vals D o V l fun a => 0 ≤ a ∧ a < (ty D r).bits)
  | .setop q l r => Calm D o V l ∧ Calm D o V r ∧
      (q = .diff → ty D l = .set true → ∀ v, r = .set true v → ¬ (2 ^ 31 ≤ v ∧ v < 2 ^ 32))
  | .call _ as => Calms D o V as
  | _ => True
def Calms (D : Decl) (o : Opt) (V : Env) : Es → Prop
  | .nil => True
  | .cons e as => Calm D o V e ∧ Calms D o V as
end

end Verif.Eval
