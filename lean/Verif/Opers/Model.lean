import Verif.Types.Model
import Verif.Opers.Spec

/-!
# Which operators the compiler accepts, and the types of their results

src/compiler/OPB.Mod 239-255, 279-379, 422-601, 637-842.  Functions give the errors reported, the type of the result, and which operands are in the tree
that is built.  The values of constants are those of C09; errors because a value is too large (203, 204, 206, 207) are left out.  `ci` and `cs` are the
types `SetIntType` and `SetSetType` give to the value of a constant result (OPB.Mod 106-114).
-/
namespace Verif.Opers
open Verif.Types

/-- What `z` is in the end. -/
inductive Tree where
  /-- A new node with both operands. -/
  | both
  | left
  | right
  /-- A constant. -/
  | const
deriving DecidableEq, Repr

/-- An expression with the value of an integer constant; of a real constant it is 0 exactly for 0.0; of a Boolean constant it is 0 or 1. -/
structure Arg where
  ex : Ex
  val : Int := 0
deriving DecidableEq, Repr

/-- `class = Nconst`. -/
def isConst (e : Ex) : Bool :=
  match e.kind with
  | .const _ => true
  | _ => false

/-- `(class = Ntype) OR (class = Nproc)`. -/
def noValue (e : Ex) : Bool :=
  match e.kind with
  | .typ => true
  | .proc _ _ _ => true
  | _ => false

/-- `CheckPtr`, src/compiler/OPB.Mod 366-379. -/
def checkPtrOp (T : Tab) (x y : Nat) : List Nat :=
  if (T y).form = .ptr then
    let p := (T x).base.getD undftyp
    let q := (T y).base.getD undftyp
    if (T p).comp = .record ∧ (T q).comp = .record then
      if (T p).extlev < (T q).extlev then if (climb T p ((T q).extlev + 1) (some q)).isNone then [100] else []
      else if (climb T q ((T p).extlev + 1) (some p)).isNone then [100] else []
    else [100]
  else if (T y).form = .nil then [] else [100]

/-- `IF z^.typ # y^.typ`, src/compiler/OPB.Mod 672-699: errors, and the types of `z` and `y` after it. -/
def mix (T : Tab) (x y : Ex) : List Nat × Nat × Nat :=
  if x.typ = y.typ then ([], x.typ, y.typ) else
  let g := (T y.typ).form
  match (T x.typ).form with
  | .char => if isConst x then ([], stringtyp, y.typ) else ([100], x.typ, y.typ)
  | .int =>
    if g = .int ∧ (T y.typ).size < (T x.typ).size then ([], x.typ, x.typ)
    else if g = .int ∨ g = .real ∨ g = .lreal then ([], y.typ, y.typ) else ([100], x.typ, y.typ)
  | .set =>
    if g = .set ∧ (T y.typ).size < (T x.typ).size then ([], x.typ, x.typ)
    else if g = .set then ([], y.typ, y.typ) else ([100], x.typ, y.typ)
  | .real =>
    if g = .int then ([], x.typ, x.typ) else if g = .real ∨ g = .lreal then ([], y.typ, y.typ) else ([100], x.typ, y.typ)
  | .lreal => if g = .int ∨ g = .real ∨ g = .lreal then ([], x.typ, x.typ) else ([100], x.typ, y.typ)
  | .nil => (if g = .ptr ∨ g = .proc then [] else [100], x.typ, y.typ)
  | .ptr => (checkPtrOp T x.typ y.typ, x.typ, y.typ)
  | .proc => (if g = .nil then [] else [100], x.typ, y.typ)
  | .str => ([], x.typ, y.typ)
  | .comp => (if (T x.typ).comp = .record then [100] else [], x.typ, y.typ)
  | _ => ([100], x.typ, y.typ)

/-- `(typ^.comp IN {Array, DynArr}) & (typ^.BaseTyp^.form = Char) OR (form = String)`, src/compiler/OPB.Mod 650-651. -/
def charArr (T : Tab) (t : Nat) : Bool :=
  decide (((T t).comp = .array ∨ (T t).comp = .dyn) ∧ (T ((T t).base.getD undftyp)).form = .char ∨ (T t).form = .str)

/-- `strings`, src/compiler/OPB.Mod 647-665, its result. -/
def strings (T : Tab) (x y : Ex) (z t : Nat) : Bool :=
  let t := if charArr T z ∧ (T t).form = .char ∧ isConst y then stringtyp else t
  let z := if charArr T t ∧ (T z).form = .char ∧ isConst x then stringtyp else z
  charArr T z && charArr T t

/-- The result of `NewOp`. -/
def node (es : List Nat) (t : Nat) : List Nat × Nat × Tree := (es, t, .both)

/-- `CASE op OF`, src/compiler/OPB.Mod 700-796, for operands of types `z` and `t` after `mix`. -/
def opCase (T : Tab) (o : BinOp) (x y : Arg) (z t : Nat) : List Nat × Nat × Tree :=
  let f := (T z).form
  match o with
  | .mul =>
    if f = .int then
      if isConst x.ex then
        if x.val = 1 then ([], t, .right) else if x.val = 0 then ([], z, .left) else node [] z
      else if isConst y.ex then
        if y.val = 1 then ([], z, .left) else if y.val = 0 then ([], t, .right) else node [] z
      else node [] z
    else if f = .undef ∨ f = .real ∨ f = .lreal ∨ f = .set then node [] z else node [105] undftyp
  | .quo =>
    if f = .int then node (if isConst y.ex ∧ y.val = 0 then [205] else []) realtyp
    else if f = .real ∨ f = .lreal then node (if isConst y.ex ∧ y.val = 0 then [205] else []) z
    else if f = .set ∨ f = .undef then node [] z else node [102] undftyp
  | .div =>
    if f = .int then
      if isConst y.ex then
        if y.val = 0 then node [205] z else if y.val = 1 then ([], z, .left) else node [] z
      else node [] z
    else if f = .undef then node [] z else node [103] undftyp
  | .mod =>
    if f = .int then node (if isConst y.ex ∧ y.val = 0 then [205] else []) z
    else if f = .undef then node [] z else node [104] undftyp
  | .and =>
    if f = .bool then
      if isConst x.ex then if x.val ≠ 0 then ([], t, .right) else ([], z, .left)
      else if isConst y.ex ∧ y.val ≠ 0 then ([], z, .left) else node [] z
    else if f = .undef then ([], z, .left) else ([94], undftyp, .left)
  | .or =>
    if f = .bool then
      if isConst x.ex then if x.val = 0 then ([], t, .right) else ([], z, .left)
      else if isConst y.ex ∧ y.val = 0 then ([], z, .left) else node [] z
    else if f = .undef then ([], z, .left) else ([95], undftyp, .left)
  | .add =>
    if f = .int then
      if isConst x.ex ∧ x.val = 0 then ([], t, .right) else if isConst y.ex ∧ y.val = 0 then ([], z, .left) else node [] z
    else if f = .undef ∨ f = .real ∨ f = .lreal ∨ f = .set then node [] z else node [105] undftyp
  | .sub =>
    if f = .int then if isConst y.ex ∧ y.val = 0 then ([], z, .left) else node [] z
    else if f = .undef ∨ f = .real ∨ f = .lreal ∨ f = .set then node [] z else node [106] undftyp
  | .eq | .ne =>
    if f = .undef ∨ f = .byte ∨ f = .bool ∨ f = .char ∨ f = .int ∨ f = .real ∨ f = .lreal ∨ f = .set ∨ f = .nil ∨ f = .ptr ∨ f = .proc ∨
        strings T x.ex y.ex z t = true then node [] booltyp
    else node [107] undftyp
  | .lt | .le | .gt | .ge =>
    if f = .undef ∨ f = .char ∨ f = .int ∨ f = .real ∨ f = .lreal ∨ strings T x.ex y.ex z t = true then node [] booltyp
    else node [108] undftyp

/-- The first part of `ConstOp`, src/compiler/OPB.Mod 463-493: errors, and the type of `x` after it. -/
def constMix (T : Tab) (x y : Ex) : List Nat × Nat :=
  let f := (T x.typ).form
  let g := (T y.typ).form
  if f = g then ([], x.typ) else
  match f with
  | .char => if g = .str then ([], stringtyp) else ([100], x.typ)
  | .int => if g = .real then ([], realtyp) else if g = .lreal then ([], lrltyp) else ([100], x.typ)
  | .real => if g = .int then ([], x.typ) else if g = .lreal then ([], lrltyp) else ([100], x.typ)
  | .lreal => if g = .int ∨ g = .real then ([], x.typ) else ([100], x.typ)
  | .str => if g = .char then ([], x.typ) else ([100], x.typ)
  | .nil => (if g = .ptr ∨ g = .proc then [] else [100], x.typ)
  | .ptr => (checkPtrOp T x.typ y.typ, x.typ)
  | .proc => (if g = .nil then [] else [100], x.typ)
  | _ => ([100], x.typ)

/-- The second part of `ConstOp`, src/compiler/OPB.Mod 494-600. -/
def constCase (T : Tab) (ci cs : Nat) (o : BinOp) (x y : Arg) (z : Nat) : List Nat × Nat :=
  let f := (T z).form
  match o with
  | .mul => if f = .int then ([], ci) else if f = .real ∨ f = .lreal then ([], z) else if f = .set then ([], cs) else (if f = .undef then [] else [101], z)
  | .quo =>
    if f = .int then (if y.val = 0 then [205] else [], realtyp)
    else if f = .real ∨ f = .lreal then (if y.val = 0 ∧ x.val ≠ 0 then [205] else [], z)
    else if f = .set then ([], cs) else (if f = .undef then [] else [102], z)
  | .div => if f = .int then (if y.val = 0 then [205] else [], ci) else (if f = .undef then [] else [103], z)
  | .mod => if f = .int then (if y.val = 0 then [205] else [], ci) else (if f = .undef then [] else [104], z)
  | .and => if f = .bool then ([], z) else ([94], z)
  | .add => if f = .int then ([], ci) else if f = .real ∨ f = .lreal then ([], z) else if f = .set then ([], cs) else (if f = .undef then [] else [105], z)
  | .sub => if f = .int then ([], ci) else if f = .real ∨ f = .lreal then ([], z) else if f = .set then ([], cs) else (if f = .undef then [] else [106], z)
  | .or => if f = .bool then ([], z) else ([95], z)
  | .eq | .ne => ([], booltyp)
  | .lt | .le | .gt | .ge => if f = .bool ∨ f = .set ∨ f = .nil ∨ f = .ptr then ([108], z) else ([], booltyp)

/-- `ConstOp`, src/compiler/OPB.Mod 422-601. -/
def constOp (T : Tab) (ci cs : Nat) (o : BinOp) (x y : Arg) : List Nat × Nat × Tree :=
  let m := constMix T x.ex y.ex
  let r := constCase T ci cs o x y m.2
  (m.1 ++ r.1, r.2, .const)

/-- `Op`, src/compiler/OPB.Mod 637-799. -/
def op (T : Tab) (ci cs : Nat) (o : BinOp) (x y : Arg) : List Nat × Nat × Tree :=
  if noValue x.ex ∨ noValue y.ex then ([126], x.ex.typ, .left)
  else if isConst x.ex ∧ isConst y.ex then constOp T ci cs o x y
  else
    let m := mix T x.ex y.ex
    let r := opCase T o x y m.2.1 m.2.2
    (m.1 ++ r.1, r.2)

/-- `MOp`, src/compiler/OPB.Mod 279-364, without SYSTEM.ADR and SYSTEM.CC. -/
def mop (T : Tab) (ci : Nat) (o : UnOp) (x : Ex) : List Nat × Nat :=
  let f := (T x.typ).form
  if noValue x then ([126], x.typ)
  else match o with
  | .not => (if f = .bool then [] else [98], x.typ)
  | .plus => (if f = .int ∨ f = .real ∨ f = .lreal then [] else [96], x.typ)
  | .minus =>
    if f = .int ∨ f = .set ∨ f = .real ∨ f = .lreal then ([], if isConst x ∧ f = .int then ci else x.typ) else ([97], x.typ)
  | .abs => if f = .int ∨ f = .real ∨ f = .lreal then ([], if isConst x ∧ f = .int then ci else x.typ) else ([111], x.typ)
  | .cap => if f = .char then ([], x.typ) else ([111], chartyp)
  | .odd => (if f = .int then [] else [111], booltyp)

/-- `In`, src/compiler/OPB.Mod 239-255. -/
def inOp (T : Tab) (x : Arg) (y : Ex) : List Nat × Nat :=
  (if noValue x.ex ∨ noValue y then [126]
   else if (T x.ex.typ).form = .int ∧ (T y.typ).form = .set then
     if isConst x.ex ∧ (x.val < 0 ∨ (T y.typ).size * 8 ≤ x.val) then [202] else []
   else [92], booltyp)

/-- `SetElem`, src/compiler/OPB.Mod 827-842, for SET = `st`; MAX(SYSTEM.SET64) is 63. -/
def setElem (T : Tab) (st cs : Nat) (x : Arg) : List Nat × Nat :=
  if noValue x.ex then ([126], x.ex.typ)
  else if (T x.ex.typ).form ≠ .int then ([93], x.ex.typ)
  else if isConst x.ex then (if 0 ≤ x.val ∧ x.val ≤ 63 then [] else [202], cs)
  else ([], st)

/-- `SetRange`, src/compiler/OPB.Mod 801-825. -/
def setRange (T : Tab) (st : Nat) (x y : Arg) : List Nat × Nat :=
  (if noValue x.ex ∨ noValue y.ex then [126]
   else if (T x.ex.typ).form = .int ∧ (T y.ex.typ).form = .int then
     (if isConst x.ex ∧ (x.val < 0 ∨ 63 < x.val) then [202] else []) ++ (if isConst y.ex ∧ (y.val < 0 ∨ 63 < y.val) then [202] else []) ++
     (if isConst x.ex ∧ isConst y.ex ∧ y.val < x.val then [201] else [])
   else [93], st)

end Verif.Opers
