import Verif.Opers.Model
import Verif.Predecl.Spec

/-!
# Which calls of predeclared procedures the compiler accepts

src/compiler/OPB.Mod 155-157, 603-635, 948-1116 (`StPar0`), 1118-1291 (`StPar1`), 1293-1316 (`StParN`), 1318-1359 (`StFct`), with
src/compiler/OPP.Mod 368-390, without the procedures of module SYSTEM.  Functions give the errors reported and what the node `p` is afterwards: its
class, type and constant value.  Left out: errors because a real constant is too large for its type (203), and the tree itself.
-/
namespace Verif.Predecl
open Verif.Types Verif.Opers

/-- `x^.class = Ntype`. -/
def isType (e : Ex) : Bool :=
  match e.kind with
  | .typ => true
  | _ => false

/-- `NotVar`, src/compiler/OPB.Mod 155-157, without SYSTEM.VAL. -/
def notVar (e : Ex) : Bool :=
  match e.kind with
  | .var _ _ => false
  | _ => true

/-- `x^.readonly`. -/
def readonly (e : Ex) : Bool :=
  match e.kind with
  | .var r _ => r
  | _ => false

/-- A value of `n` bytes: what comparing the sizes after `SetIntType` amounts to, as the sizes are 1, 2, 4 and 8 (OPT.Mod 228-243). -/
def fits (n : Nat) (v : Int) : Bool := decide (-(2 ^ (8 * n - 1)) ≤ v ∧ v < 2 ^ (8 * n - 1))

/-- `Convert` of an integer to an integer type, src/compiler/OPB.Mod 603-635: the errors. -/
def convInt (T : Tab) (x : Arg) (t : Nat) : List Nat :=
  if isConst x.ex ∧ (T t).size < (T x.ex.typ).size ∧ fits (T t).size x.val = false then [203] else []

/-- `ShorterOrLongerType`, src/compiler/OPT.Mod 252-269. -/
def longer (T : Tab) (S : Std) (t : Nat) : Nat :=
  if (T t).size < (T S.sint).size then S.sint
  else if (T t).size < (T S.int).size then S.int
  else if (T t).size < (T S.lint).size then S.lint
  else S.int64

/-- `ShorterOrLongerType`, src/compiler/OPT.Mod 252-269. -/
def shorter (T : Tab) (S : Std) (t : Nat) : Nat :=
  if (T t).size > (T S.lint).size then S.lint
  else if (T t).size > (T S.int).size then S.int
  else if (T t).size > (T S.sint).size then S.sint
  else S.int8

/-- `x` with another type; if it was not a constant, it is a conversion. -/
def retype (x : Arg) (t : Nat) : Arg := ⟨⟨if isConst x.ex then x.ex.kind else .other, t⟩, x.val⟩

/-- A constant of type `t`. -/
def constArg (t : Nat) (v : Int) : Arg := ⟨⟨.const 0, t⟩, v⟩

/-- A statement. -/
def stat (t : Nat) : Arg := ⟨⟨.other, t⟩, 0⟩

/-- `typ^.BaseTyp`. -/
def baseTyp (T : Tab) (t : Nat) : Nat := (T t).base.getD undftyp

/-- `ABS` of a 64 bit integer. -/
def abs64 (v : Int) : Int := if v = -(2 ^ 63) then v else v.natAbs

/-- `StPar0`, src/compiler/OPB.Mod 948-1116. -/
def stPar0 (T : Tab) (S : Std) (f : Fn) (x : Arg) : List Nat × Arg :=
  let g := (T x.ex.typ).form
  match f with
  | .halt =>
    (if g = .int ∧ isConst x.ex then (if 0 ≤ x.val ∧ x.val ≤ 255 then [] else [218]) else [69], stat notyp)
  | .new =>
    if notVar x.ex then ([112], stat notyp)
    else if g = .ptr then
      let b := baseTyp T x.ex.typ
      let ro := if readonly x.ex then [76] else []
      if (T b).comp = .record ∨ (T b).comp = .array then (ro, stat notyp)
      else if (T b).comp = .dyn then (ro, stat b)
      else (ro ++ [111], stat notyp)
    else ([111], stat notyp)
  | .abs =>
    let m := mop T (S.ofInt x.val.natAbs) .abs x.ex
    (m.1 ++ (if noValue x.ex = false ∧ isConst x.ex ∧ g = .int ∧ x.val = -(2 ^ 63) then [203] else []), ⟨⟨x.ex.kind, m.2⟩, x.val.natAbs⟩)
  | .cap => let m := mop T 0 .cap x.ex; (m.1, ⟨⟨x.ex.kind, m.2⟩, x.val⟩)
  | .odd => let m := mop T 0 .odd x.ex; (m.1, ⟨⟨x.ex.kind, m.2⟩, x.val % 2⟩)
  | .ord => (if noValue x.ex then [126] else if g = .char then [] else [111], retype x S.int)
  | .entier => (if noValue x.ex then [126] else if g = .real ∨ g = .lreal then [] else [111], retype x S.lint)
  | .min =>
    if isType x.ex then
      match g with
      | .bool => ([], constArg booltyp 0)
      | .char => ([], constArg chartyp 0)
      | .int => ([], constArg (S.ofInt (-(2 ^ (8 * (T x.ex.typ).size - 1)))) (-(2 ^ (8 * (T x.ex.typ).size - 1))))
      | .set => ([], constArg S.int 0)
      | .real => ([], constArg realtyp 1)
      | .lreal => ([], constArg lrltyp 1)
      | _ => ([111], x)
    else ([110], x)
  | .max =>
    if isType x.ex then
      match g with
      | .bool => ([], constArg booltyp 1)
      | .char => ([], constArg chartyp 255)
      | .int => ([], constArg (S.ofInt (2 ^ (8 * (T x.ex.typ).size - 1) - 1)) (2 ^ (8 * (T x.ex.typ).size - 1) - 1))
      | .set => ([], constArg S.int ((T x.ex.typ).size * 8 - 1))
      | .real => ([], constArg realtyp 1)
      | .lreal => ([], constArg lrltyp 1)
      | _ => ([111], x)
    else ([110], x)
  | .chr =>
    (if noValue x.ex then [126]
     else if g = .undef ∨ g = .int then (if isConst x.ex ∧ g = .int ∧ (0 > x.val ∨ x.val > 255) then [220] else [])
     else [111], retype x chartyp)
  | .short =>
    if noValue x.ex then ([126], x)
    else if g = .int then (convInt T x (shorter T S x.ex.typ), retype x (shorter T S x.ex.typ))
    else if g = .lreal then ([], retype x realtyp)
    else ([111], x)
  | .long =>
    if noValue x.ex then ([126], x)
    else if g = .int then (convInt T x (longer T S x.ex.typ), retype x (longer T S x.ex.typ))
    else if g = .real then ([], retype x lrltyp)
    else if g = .char then ([], retype x S.lint)
    else ([111], x)
  | .inc | .dec => (if notVar x.ex then [112] else if g ≠ .int then [111] else if readonly x.ex then [76] else [], x)
  | .incl | .excl => (if notVar x.ex then [112] else if g ≠ .set then [111] else if readonly x.ex then [76] else [], x)
  | .len => (if (T x.ex.typ).comp = .dyn ∨ (T x.ex.typ).comp = .array then [] else [131], x)
  | .copy =>
    let str := isConst x.ex ∧ g = .char ∨ g = .str
    (if noValue x.ex then [126]
     else if (¬ ((T x.ex.typ).comp = .dyn ∨ (T x.ex.typ).comp = .array) ∨ (T (baseTyp T x.ex.typ)).form ≠ .char) ∧ ¬ str then [111] else [], x)
  | .ash =>
    if noValue x.ex then ([126], x)
    else if g = .int then ([], if (T x.ex.typ).size < (T S.lint).size then retype x S.lint else x)
    else ([111], ⟨⟨x.ex.kind, S.lint⟩, x.val⟩)
  | .size =>
    if isType x.ex = false then ([110], constArg (S.ofInt 1) 1)
    else if g = .byte ∨ g = .bool ∨ g = .char ∨ g = .int ∨ g = .real ∨ g = .lreal ∨ g = .set ∨ g = .ptr ∨ g = .proc ∨
        (T x.ex.typ).comp = .array ∨ (T x.ex.typ).comp = .record then ([], constArg (S.ofInt (T x.ex.typ).size) (T x.ex.typ).size)
    else ([111], constArg (S.ofInt 1) 1)
  | .assert =>
    if noValue x.ex then ([126], constArg booltyp 0)
    else if g ≠ .bool then ([120], constArg booltyp 0)
    else ([], ⟨⟨x.ex.kind, booltyp⟩, if x.val = 0 then 1 else 0⟩)

/-- `WHILE (L > 0) & (typ^.comp IN {DynArr, Array}) DO typ := typ^.BaseTyp; DEC(L) END`, src/compiler/OPB.Mod 1156: what is left of `L`, and `typ`. -/
def downDim (T : Tab) : Nat → Nat → Nat × Nat
  | 0, t => (0, t)
  | l + 1, t => if (T t).comp = .dyn ∨ (T t).comp = .array then downDim T l (baseTyp T t) else (l + 1, t)

/-- The trap of ASSERT for a constant condition, `p` negated, src/compiler/OPB.Mod 1279-1283: ASSERT(FALSE) is an error. -/
def assertErr (p : Arg) : List Nat := if isConst p.ex ∧ p.val ≠ 0 then [99] else []

/-- `StPar1`, src/compiler/OPB.Mod 1118-1291. -/
def stPar1 (T : Tab) (S : Std) (f : Fn) (p x : Arg) : List Nat × Arg :=
  let g := (T x.ex.typ).form
  match f with
  | .inc | .dec =>
    (if noValue x.ex then [126]
     else if x.ex.typ ≠ p.ex.typ then
       (if g = .int ∧ (isConst x.ex ∨ (T p.ex.typ).form = .int ∧ (T x.ex.typ).size ≤ (T p.ex.typ).size) then convInt T x p.ex.typ else [111])
     else [], stat notyp)
  | .incl | .excl =>
    (if noValue x.ex then [126]
     else if g = .int then (if isConst x.ex ∧ (0 > x.val ∨ x.val ≥ (T p.ex.typ).size * 8) then [202] else [])
     else [111], stat notyp)
  | .len =>
    if g ≠ .int ∨ isConst x.ex = false then ([69], p)
    else if (T x.ex.typ).size = 1 then
      let d := downDim T x.val.toNat p.ex.typ
      if (x.val < 0 ∨ d.1 ≠ 0) ∨ ¬ ((T d.2).comp = .dyn ∨ (T d.2).comp = .array) then ([132], p)
      else if (T d.2).comp = .dyn then ([], stat S.lint)
      else ([], constArg (S.ofInt (T d.2).n) (T d.2).n)
    else ([132], p)
  | .copy =>
    (if notVar x.ex then [112]
     else if ((T x.ex.typ).comp = .array ∨ (T x.ex.typ).comp = .dyn) ∧ (T (baseTyp T x.ex.typ)).form = .char then (if readonly x.ex then [76] else [])
     else [111], stat notyp)
  | .ash =>
    if noValue x.ex then ([126], p)
    else if g = .int then
      if isConst p.ex ∧ isConst x.ex then
        if -62 > x.val ∨ x.val > 62 then ([208], ⟨p.ex, 1⟩)
        else if x.val ≥ 0 then
          if abs64 p.val ≤ (2 ^ 63 - 1) / 2 ^ x.val.toNat then ([], ⟨p.ex, p.val * 2 ^ x.val.toNat⟩) else ([208], ⟨p.ex, 1⟩)
        else ([], ⟨p.ex, p.val / 2 ^ (-x.val).toNat⟩)
      else ([], stat p.ex.typ)
    else ([111], p)
  | .new =>
    if noValue x.ex then ([126], p)
    else if (T p.ex.typ).comp = .dyn then
      (if g = .int then (if isConst x.ex ∧ (x.val ≤ 0 ∨ x.val > S.maxIndex) then [63] else []) else [111], stat (baseTyp T p.ex.typ))
    else ([64], p)
  | .assert =>
    (if g = .int ∧ isConst x.ex then (if 0 ≤ x.val ∧ x.val ≤ 255 then assertErr p else [218]) else [69], stat notyp)
  | _ => ([64], p)

/-- `StParN`, src/compiler/OPB.Mod 1293-1316. -/
def stParN (T : Tab) (S : Std) (f : Fn) (p x : Arg) : List Nat × Arg :=
  let g := (T x.ex.typ).form
  if f = .new then
    if noValue x.ex then ([126], p)
    else if (T p.ex.typ).comp ≠ .dyn then ([64], p)
    else if g = .int then
      (if isConst x.ex ∧ (x.val ≤ 0 ∨ x.val > S.maxIndex) then [63] else [], stat (baseTyp T p.ex.typ))
    else ([111], p)
  else ([64], p)

/-- `StFct`, src/compiler/OPB.Mod 1318-1359: errors and the type of the result. -/
def stFct (T : Tab) (S : Std) (f : Fn) (p : Arg) (parno : Nat) : List Nat × Nat :=
  match f with
  | .new =>
    if p.ex.typ ≠ notyp then (if (T p.ex.typ).comp = .dyn then [65] else [], notyp)
    else (if parno < 1 then [65] else [], notyp)
  | .inc | .dec => if parno = 1 then ([], notyp) else (if parno < 2 then [65] else [], p.ex.typ)
  | .len =>
    if parno = 1 then
      if (T p.ex.typ).comp = .dyn then ([], S.lint) else ([], S.ofInt (T p.ex.typ).n)
    else (if parno < 2 then [65] else [], p.ex.typ)
  | .incl | .excl | .copy | .ash => (if parno < 2 then [65] else [], p.ex.typ)
  | .assert => if parno = 1 then (assertErr p, notyp) else (if parno < 1 then [65] else [], notyp)
  | _ => (if parno < 1 then [65] else [], p.ex.typ)

/-- The third and further arguments, src/compiler/OPP.Mod 376. -/
def parN (T : Tab) (S : Std) (f : Fn) : Arg → List Arg → List Nat × Arg
  | p, [] => ([], p)
  | p, x :: xs =>
    let q := stParN T S f p x
    let r := parN T S f q.2 xs
    (q.1 ++ r.1, r.2)

/-- `StandProcCall`, src/compiler/OPP.Mod 368-390: errors and the type of the result. -/
def stand (T : Tab) (S : Std) (f : Fn) : List Arg → List Nat × Nat
  | [] => stFct T S f (stat notyp) 0
  | [x] =>
    let p := stPar0 T S f x
    let r := stFct T S f p.2 1
    (p.1 ++ r.1, r.2)
  | x :: y :: zs =>
    let p := stPar0 T S f x
    let q := stPar1 T S f p.2 y
    let m := parN T S f q.2 zs
    let r := stFct T S f m.2 (zs.length + 2)
    (p.1 ++ q.1 ++ m.1 ++ r.1, r.2)

end Verif.Predecl
