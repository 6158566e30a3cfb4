import Verif.Opers.Spec

/-!
# Specification for C63: the predeclared procedures of the report

The tables of section 10.3 of the Oberon-2 report.  Types and expressions are those of C53 and C62.  What the compiler accepts beyond the report is
marked.
-/
namespace Verif.Predecl
open Verif.Types Verif.Opers

/-- The predeclared procedures. -/
inductive Fn where
  | halt | new | abs | cap | ord | entier | odd | min | max | chr | short | long | size | inc | dec | incl | excl | len | copy | ash | assert
deriving DecidableEq, Repr

/-- An argument: an expression, with its value if it is a constant. -/
structure Arg where
  ex : Ex
  val : Int := 0
deriving DecidableEq, Repr

/-- The types SHORTINT, INTEGER, LONGINT, the smallest and the largest integer type, and the one a constant belongs to; the largest length of an array. -/
structure Std where
  sint : Nat
  int : Nat
  lint : Nat
  int8 : Nat
  int64 : Nat
  ofInt : Int → Nat
  maxIndex : Int

/-- SHORTINT, INTEGER and LONGINT are integers, each larger than the one before, between the smallest and the largest type. -/
structure Std.Wf (S : Std) (T : Tab) : Prop where
  sint : (T S.sint).form = .int
  int : (T S.int).form = .int
  lint : (T S.lint).form = .int
  int8 : (T S.int8).form = .int
  int64 : (T S.int64).form = .int
  le8 : (T S.int8).size ≤ (T S.sint).size
  lts : (T S.sint).size < (T S.int).size
  lti : (T S.int).size < (T S.lint).size
  le64 : ∀ t, (T t).form = .int → (T t).size ≤ (T S.int64).size

/-- One of SHORTINT, INTEGER, LONGINT. -/
def Std.Is (S : Std) (t : Nat) : Prop := t = S.sint ∨ t = S.int ∨ t = S.lint

/-- The type of `LONG(x)`: the next larger one of SHORTINT, INTEGER, LONGINT.  Beyond the report, if there is none: the largest integer type. -/
def Longer (T : Tab) (S : Std) (t r : Nat) : Prop :=
  (S.Is r ∧ (T t).size < (T r).size ∧ ∀ u, S.Is u → (T t).size < (T u).size → (T r).size ≤ (T u).size) ∨
  (r = S.int64 ∧ ∀ u, S.Is u → (T u).size ≤ (T t).size)

/-- The type of `SHORT(x)`: the next smaller one.  Beyond the report, if there is none: the smallest integer type. -/
def Shorter (T : Tab) (S : Std) (t r : Nat) : Prop :=
  (S.Is r ∧ (T r).size < (T t).size ∧ ∀ u, S.Is u → (T u).size < (T t).size → (T u).size ≤ (T r).size) ∨
  (r = S.int8 ∧ ∀ u, S.Is u → (T t).size ≤ (T u).size)

/-- A value of `n` bytes. -/
def Fits (n : Nat) (v : Int) : Prop := -(2 ^ (8 * n - 1)) ≤ v ∧ v < 2 ^ (8 * n - 1)

/-- A variable that may be changed. -/
def Variable (e : Ex) : Prop := ∃ g, e.kind = .var false g

/-- The name of a type. -/
def TypeName (e : Ex) : Prop := e.kind = .typ

/-- A constant integer from `a` to `b`. -/
def ConstIn (T : Tab) (x : Arg) (a b : Int) : Prop := Constant x.ex ∧ Integer T x.ex.typ ∧ a ≤ x.val ∧ x.val ≤ b

/-- An expression of an integer type. -/
def IntExpr (T : Tab) (x : Arg) : Prop := x.ex.value ∧ Integer T x.ex.typ

def IsArray (T : Tab) (t : Nat) : Prop := (T t).comp = .array ∨ (T t).comp = .dyn

/-- An array of characters. -/
def CharArray (T : Tab) (t : Nat) : Prop := IsArray T t ∧ (T t).base = some chartyp

/-- `d` is dimension `k` of the array `t`. -/
inductive Dim (T : Tab) : Nat → Nat → Nat → Prop
  | here {t : Nat} : IsArray T t → Dim T t 0 t
  | next {t b d k : Nat} : IsArray T t → (T t).base = some b → Dim T b k d → Dim T t (k + 1) d

/-- `t` has `k` open dimensions. -/
inductive Opens (T : Tab) : Nat → Nat → Prop
  | none {t : Nat} : (T t).comp ≠ .dyn → Opens T t 0
  | dim {t b k : Nat} : (T t).comp = .dyn → (T t).base = some b → Opens T b k → Opens T t (k + 1)

/-- The type of the length of an array: LONGINT, or that of the constant. -/
def lenType (T : Tab) (S : Std) (t : Nat) : Nat := if (T t).comp = .dyn then S.lint else S.ofInt (T t).n

/-- The length of an open dimension given to NEW. -/
def Length (T : Tab) (S : Std) (x : Arg) : Prop := IntExpr T x ∧ (Constant x.ex → 0 < x.val ∧ x.val ≤ S.maxIndex)

/-- A call of a predeclared procedure, and the type of its result; `notyp` for a proper procedure. -/
inductive Call (T : Tab) (S : Std) : Fn → List Arg → Nat → Prop
  | halt {x : Arg} : ConstIn T x 0 255 → Call T S .halt [x] notyp
  | new {v : Arg} {b : Nat} : Variable v.ex → (T v.ex.typ).form = .ptr → (T v.ex.typ).base = some b → (T b).comp = .record ∨ (T b).comp = .array →
      Call T S .new [v] notyp
  | newOpen {v : Arg} {b : Nat} {xs : List Arg} : Variable v.ex → (T v.ex.typ).form = .ptr → (T v.ex.typ).base = some b → (T b).comp = .dyn →
      Opens T b xs.length → (∀ x ∈ xs, Length T S x) → Call T S .new (v :: xs) notyp
  | abs {x : Arg} {r : Nat} : x.ex.value → UnRule T (S.ofInt x.val.natAbs) x.ex .abs r → (Constant x.ex → Integer T x.ex.typ → x.val ≠ -(2 ^ 63)) → Call T S .abs [x] r
  | cap {x : Arg} : x.ex.value → x.ex.typ = chartyp → Call T S .cap [x] chartyp
  | ord {x : Arg} : x.ex.value → x.ex.typ = chartyp → Call T S .ord [x] S.int
  | entier {x : Arg} : x.ex.value → Real T x.ex.typ → Call T S .entier [x] S.lint
  | odd {x : Arg} : IntExpr T x → Call T S .odd [x] booltyp
  | minBool {x : Arg} : TypeName x.ex → x.ex.typ = booltyp → Call T S .min [x] booltyp
  | minChar {x : Arg} : TypeName x.ex → x.ex.typ = chartyp → Call T S .min [x] chartyp
  | minInt {x : Arg} : TypeName x.ex → Integer T x.ex.typ → Call T S .min [x] (S.ofInt (-(2 ^ (8 * (T x.ex.typ).size - 1))))
  | minReal {x : Arg} : TypeName x.ex → Real T x.ex.typ → Call T S .min [x] x.ex.typ
  | minSet {x : Arg} : TypeName x.ex → SetType T x.ex.typ → Call T S .min [x] S.int
  | maxBool {x : Arg} : TypeName x.ex → x.ex.typ = booltyp → Call T S .max [x] booltyp
  | maxChar {x : Arg} : TypeName x.ex → x.ex.typ = chartyp → Call T S .max [x] chartyp
  | maxInt {x : Arg} : TypeName x.ex → Integer T x.ex.typ → Call T S .max [x] (S.ofInt (2 ^ (8 * (T x.ex.typ).size - 1) - 1))
  | maxReal {x : Arg} : TypeName x.ex → Real T x.ex.typ → Call T S .max [x] x.ex.typ
  | maxSet {x : Arg} : TypeName x.ex → SetType T x.ex.typ → Call T S .max [x] S.int
  | chr {x : Arg} : IntExpr T x → (Constant x.ex → 0 ≤ x.val ∧ x.val ≤ 255) → Call T S .chr [x] chartyp
  | short {x : Arg} {r : Nat} : IntExpr T x → Shorter T S x.ex.typ r → (Constant x.ex → Fits (T r).size x.val) → Call T S .short [x] r
  | shortReal {x : Arg} : x.ex.value → x.ex.typ = lrltyp → Call T S .short [x] realtyp
  | long {x : Arg} {r : Nat} : IntExpr T x → Longer T S x.ex.typ r → Call T S .long [x] r
  | longReal {x : Arg} : x.ex.value → x.ex.typ = realtyp → Call T S .long [x] lrltyp
  /-- Beyond the report: `LONG` of a character. -/
  | longChar {x : Arg} : x.ex.value → x.ex.typ = chartyp → Call T S .long [x] S.lint
  | size {x : Arg} : TypeName x.ex → (T x.ex.typ).form ∈ [Form.byte, .bool, .char, .int, .real, .lreal, .set, .ptr, .proc] ∨
      (T x.ex.typ).comp = .array ∨ (T x.ex.typ).comp = .record → Call T S .size [x] (S.ofInt (T x.ex.typ).size)
  | inc {f : Fn} {v : Arg} : f = .inc ∨ f = .dec → Variable v.ex → Integer T v.ex.typ → Call T S f [v] notyp
  | incBy {f : Fn} {v x : Arg} : f = .inc ∨ f = .dec → Variable v.ex → Integer T v.ex.typ → IntExpr T x → (Constant x.ex → Fits (T v.ex.typ).size x.val) →
      (¬ Constant x.ex → (T x.ex.typ).size ≤ (T v.ex.typ).size) → Call T S f [v, x] notyp
  | incl {f : Fn} {v x : Arg} : f = .incl ∨ f = .excl → Variable v.ex → SetType T v.ex.typ → IntExpr T x →
      (Constant x.ex → 0 ≤ x.val ∧ x.val < 8 * (T v.ex.typ).size) → Call T S f [v, x] notyp
  /-- Beyond the report: also the name of a type. -/
  | len {v : Arg} : v.ex.value ∨ TypeName v.ex → IsArray T v.ex.typ → Call T S .len [v] (lenType T S v.ex.typ)
  /-- The number of the dimension is a constant of one byte. -/
  | lenDim {v x : Arg} {d k : Nat} : v.ex.value ∨ TypeName v.ex → Constant x.ex → Integer T x.ex.typ → (T x.ex.typ).size = 1 → x.val = k →
      Dim T v.ex.typ k d → Call T S .len [v, x] (lenType T S d)
  | copy {x v : Arg} : x.ex.value → StringLike T x.ex → Variable v.ex → CharArray T v.ex.typ → Call T S .copy [x, v] notyp
  /-- Beyond the report: of a type larger than LONGINT the result is of that type.  With two constants the result is within 64 bits. -/
  | ash {x n : Arg} : IntExpr T x → IntExpr T n →
      (Constant x.ex → Constant n.ex → -62 ≤ n.val ∧ n.val ≤ 62 ∧ (0 ≤ n.val → (x.val.natAbs : Int) * 2 ^ n.val.toNat ≤ 2 ^ 63 - 1)) →
      Call T S .ash [x, n] (if (T x.ex.typ).size < (T S.lint).size then S.lint else x.ex.typ)
  | assert {x : Arg} : x.ex.value → x.ex.typ = booltyp → (Constant x.ex → x.val ≠ 0) → Call T S .assert [x] notyp
  | assertNo {x n : Arg} : x.ex.value → x.ex.typ = booltyp → (Constant x.ex → x.val ≠ 0) → ConstIn T n 0 255 → Call T S .assert [x, n] notyp

/-- An argument as it comes from the parser: as in C62; the value of a constant integer is one of its type; no function gives an array. -/
def SoundArg (T : Tab) (x : Arg) : Prop :=
  Sound T x.ex ∧ (Constant x.ex → Integer T x.ex.typ → Fits (T x.ex.typ).size x.val) ∧ (∀ a r ps, x.ex.kind = .proc a r ps → ¬ IsArray T x.ex.typ)

end Verif.Predecl
