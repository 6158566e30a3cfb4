import Verif.Types.Spec

/-!
# Specification for C62: the operators of the report

The tables of chapter 8 and appendix A of the Oberon-2 report, "expression compatible".  Types are as in C53.  What the compiler accepts beyond the
report is marked.
-/
namespace Verif.Opers
open Verif.Types

/-- Operators with two operands. -/
inductive BinOp where
  | add | sub | mul | quo | div | mod | and | or | eq | ne | lt | le | gt | ge
deriving DecidableEq, Repr

/-- Operators with one operand, with the predeclared functions the compiler treats like them. -/
inductive UnOp where
  | not | plus | minus | abs | cap | odd
deriving DecidableEq, Repr

/-- The six relations. -/
def BinOp.relation : BinOp → Prop
  | .eq | .ne | .lt | .le | .gt | .ge => True
  | _ => False

/-- = and #. -/
def BinOp.equality : BinOp → Prop
  | .eq | .ne => True
  | _ => False

def Integer (T : Tab) (t : Nat) : Prop := (T t).form = .int

def Real (T : Tab) (t : Nat) : Prop := (T t).form = .real ∨ (T t).form = .lreal

def Numeric (T : Tab) (t : Nat) : Prop := Integer T t ∨ Real T t

def SetType (T : Tab) (t : Nat) : Prop := (T t).form = .set

/-- A constant. -/
def Constant (e : Ex) : Prop := ∃ len, e.kind = .const len

/-- `r` is the smaller of the types `x` and `y` that includes both.  Beyond the report: there are different integer types of the same size
(HUGEINT and SYSTEM.INT64), then it is the type of the right operand. -/
def Smallest (T : Tab) (x y r : Nat) : Prop :=
  Includes T r x ∧ Includes T r y ∧ (r = y ∨ r = x ∧ ¬ Includes T y x)

/-- The larger of two types of sets; beyond the report, which has but one. -/
def LargerSet (T : Tab) (x y r : Nat) : Prop :=
  SetType T x ∧ SetType T y ∧ (r = y ∧ (T x).size ≤ (T y).size ∨ r = x ∧ (T y).size < (T x).size)

/-- An array of characters, a string, or a character constant, which is a string of length 1. -/
def StringLike (T : Tab) (e : Ex) : Prop :=
  (((T e.typ).comp = .array ∨ (T e.typ).comp = .dyn) ∧ (T e.typ).base = some chartyp) ∨ e.typ = stringtyp ∨ e.typ = chartyp ∧ Constant e

/-- Expression compatible: `x o y` is an expression of type `r`.  `ci` and `cs` are the types to which the values of constant integers and sets
belong ("the type of an integer constant is the minimal type to which the value belongs"). -/
inductive Rule (T : Tab) (ci cs : Nat) (o : BinOp) (x y : Ex) : Nat → Prop
  /-- `+`, `-` and `*` for numbers. -/
  | arith {r : Nat} : o = .add ∨ o = .sub ∨ o = .mul → ¬ (Constant x ∧ Constant y ∧ Integer T x.typ ∧ Integer T y.typ) → Smallest T x.typ y.typ r →
      Rule T ci cs o x y r
  /-- `/` for numbers. -/
  | quotient : o = .quo → Numeric T x.typ → Numeric T y.typ →
      Rule T ci cs o x y (if (T x.typ).form = .lreal ∨ (T y.typ).form = .lreal then lrltyp else realtyp)
  /-- `DIV` and `MOD`. -/
  | integer {r : Nat} : o = .div ∨ o = .mod → ¬ (Constant x ∧ Constant y) → Integer T x.typ → Integer T y.typ → Smallest T x.typ y.typ r →
      Rule T ci cs o x y r
  | constant : o = .add ∨ o = .sub ∨ o = .mul ∨ o = .div ∨ o = .mod → Constant x → Constant y → Integer T x.typ → Integer T y.typ → Rule T ci cs o x y ci
  /-- `+`, `-`, `*` and `/` for sets. -/
  | sets {r : Nat} : o = .add ∨ o = .sub ∨ o = .mul ∨ o = .quo → ¬ (Constant x ∧ Constant y) → LargerSet T x.typ y.typ r → Rule T ci cs o x y r
  | constantSets : o = .add ∨ o = .sub ∨ o = .mul ∨ o = .quo → Constant x → Constant y → SetType T x.typ → SetType T y.typ → Rule T ci cs o x y cs
  | bool : o = .and ∨ o = .or → x.typ = booltyp → y.typ = booltyp → Rule T ci cs o x y booltyp
  /-- Relations. -/
  | numbers : o.relation → Numeric T x.typ → Numeric T y.typ → Rule T ci cs o x y booltyp
  | chars : o.relation → x.typ = chartyp → y.typ = chartyp → Rule T ci cs o x y booltyp
  | strings : o.relation → StringLike T x → StringLike T y → Rule T ci cs o x y booltyp
  | equalBool : o.equality → x.typ = booltyp → y.typ = booltyp → Rule T ci cs o x y booltyp
  | equalSet : o.equality → SetType T x.typ → SetType T y.typ → Rule T ci cs o x y booltyp
  /-- Pointers and procedure variables of the same type. -/
  | equalSame : o.equality → (T x.typ).form = .ptr ∨ (T x.typ).form = .proc → x.typ = y.typ → Rule T ci cs o x y booltyp
  | equalNil : o.equality → (T x.typ).form = .ptr ∨ (T x.typ).form = .proc → y.typ = niltyp → Rule T ci cs o x y booltyp
  | nilEqual : o.equality → x.typ = niltyp → (T y.typ).form = .ptr ∨ (T y.typ).form = .proc → Rule T ci cs o x y booltyp
  /-- Pointers to records of which one is an extension of the other. -/
  | equalPtr {a b : Nat} : o.equality → RecPtr T x.typ a → RecPtr T y.typ b → Ext T a b ∨ Ext T b a → Rule T ci cs o x y booltyp
  /-- Beyond the report. -/
  | equalByte : o.equality → x.typ = bytetyp → y.typ = bytetyp → Rule T ci cs o x y booltyp
  /-- Beyond the report: NIL = NIL. -/
  | nils : o.equality → x.typ = niltyp → y.typ = niltyp → Rule T ci cs o x y booltyp

/-- Operators with one operand. -/
inductive UnRule (T : Tab) (ci : Nat) (x : Ex) : UnOp → Nat → Prop
  | not : x.typ = booltyp → UnRule T ci x .not booltyp
  | plus : Numeric T x.typ → UnRule T ci x .plus x.typ
  /-- `-` and `ABS` for a number: the type is kept, or the one the constant belongs to. -/
  | minus : Numeric T x.typ → ¬ (Constant x ∧ Integer T x.typ) → UnRule T ci x .minus x.typ
  | minusConst : Constant x → Integer T x.typ → UnRule T ci x .minus ci
  | complement : SetType T x.typ → UnRule T ci x .minus x.typ
  | abs : Numeric T x.typ → ¬ (Constant x ∧ Integer T x.typ) → UnRule T ci x .abs x.typ
  | absConst : Constant x → Integer T x.typ → UnRule T ci x .abs ci
  | cap : x.typ = chartyp → UnRule T ci x .cap chartyp
  | odd : Integer T x.typ → UnRule T ci x .odd booltyp

/-- `x IN y`; a constant element has to be one of the set. -/
def InRule (T : Tab) (x y : Ex) (v : Int) : Prop :=
  Integer T x.typ ∧ SetType T y.typ ∧ (Constant x → 0 ≤ v ∧ v < 8 * (T y.typ).size)

/-- The element of a set `{x}`, and the limits of a range `{x..y}`. -/
def Element (T : Tab) (x : Ex) (v : Int) : Prop := Integer T x.typ ∧ (Constant x → 0 ≤ v ∧ v ≤ 63)

/-- The value of `x o y` for integers, and for Booleans as 0 and 1, with the short circuit of `&` and `OR`. -/
def BinOp.value : BinOp → Int → Int → Int
  | .add, x, y => x + y
  | .sub, x, y => x - y
  | .mul, x, y => x * y
  | .div, x, y => Int.fdiv x y
  | .mod, x, y => Int.fmod x y
  | .and, x, y => if x = 0 then 0 else y
  | .or, x, y => if x = 0 then y else 1
  | _, _, _ => 0

/-- An expression as it comes from other expressions: no error was reported in it, strings are constants, and constants are of basic types. -/
def Sound (T : Tab) (e : Ex) : Prop :=
  (e.value → e.typ ≠ undftyp) ∧ (e.typ = stringtyp → Constant e) ∧
  (Constant e → (T e.typ).form = .bool ∨ (T e.typ).form = .char ∨ (T e.typ).form = .int ∨ (T e.typ).form = .real ∨ (T e.typ).form = .lreal ∨
    (T e.typ).form = .set ∨ (T e.typ).form = .str ∨ (T e.typ).form = .nil)

end Verif.Opers
