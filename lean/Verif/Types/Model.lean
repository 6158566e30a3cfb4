import Verif.Types.Spec

/-!
# How the compiler checks assignments and parameters

src/compiler/OPB.Mod 366-420, 844-937, 1361-1434.  Functions give the list of errors reported.  SYSTEM.VAL, and the types given to
nodes on the way, are not modelled.
-/
namespace Verif.Types

/-- `WHILE (q # p) & (q # NIL) & (q # undftyp) DO q := q^.BaseTyp END`, src/compiler/OPB.Mod 373, 878, 926, 1378, 1415.  The number
bounds the steps; `extlev + 1` is enough (`climb_eq`). -/
def climb (T : Tab) (p : Nat) : Nat → Option Nat → Option Nat
  | 0, q => q
  | _ + 1, none => none
  | f + 1, some q => if q = p ∨ q = undftyp then some q else climb T p f (T q).base

/-- `WHILE (ft^.comp = DynArr) & (at^.comp = DynArr)`, src/compiler/OPB.Mod 387-389. -/
def strip (T : Tab) : Nat → Nat → Nat → Nat × Nat
  | 0, t, u => (t, u)
  | f + 1, t, u =>
    if (T t).comp = .dyn ∧ (T u).comp = .dyn then strip T f ((T t).base.getD undftyp) ((T u).base.getD undftyp) else (t, u)

/-- `CheckParameters`, src/compiler/OPB.Mod 381-405; the errors, or `none` if more steps are needed. -/
def checkPars (T : Tab) : Nat → Bool → List Par → List Par → Option (List Nat)
  | 0, _, _, _ => none
  | _ + 1, _, [], [] => some []
  | _ + 1, _, [], _ :: _ => some [116]
  | f + 1, names, _ :: fps, [] => (checkPars T f names fps []).map fun es => 116 :: es
  | f + 1, names, fp :: fps, ap :: aps =>
    let r := strip T ((T fp.typ).n + 1) fp.typ ap.typ
    (if r.1 ≠ r.2 then
      if (T r.1).form = .proc ∧ (T r.2).form = .proc then
        if (T r.1).base = (T r.2).base then checkPars T f false (T r.1).params (T r.2).params else some [117]
      else some [115]
    else some []).bind fun es =>
    (checkPars T f names fps aps).map fun fs => es ++ (if fp.var ≠ ap.var ∨ names = true ∧ fp.name ≠ ap.name then [115] else []) ++ fs

/-- `CheckProc`, src/compiler/OPB.Mod 407-420; the procedure can be assigned unless it is a standard procedure (113) or local to
another (73). -/
def checkProc (T : Tab) (f : Nat) (x : Nat) (res : Nat) (ps : List Par) : Option (List Nat) :=
  if (T x).base = some res then checkPars T f false (T x).params ps else some [117]

/-- The two ends of a pointer, and a record below another, src/compiler/OPB.Mod 877-880. -/
def checkPtrs (T : Tab) (p q : Nat) : List Nat :=
  if (T p).comp = .record ∧ (T q).comp = .record then if (climb T p ((T q).extlev + 1) (some q)).isNone then [113] else [] else [113]

/-- The type of the expression after the conversion of a character constant to a string of length one where an array is assigned
to (`CharToString`), src/compiler/OPB.Mod 892. -/
def charToString (T : Tab) (x : Nat) (e : Ex) : Nat :=
  match e.kind with
  | .const _ => if (T x).comp = .array ∧ (T e.typ).form = .char then stringtyp else e.typ
  | _ => e.typ

/-- The case `Comp` of `CheckAssign`, src/compiler/OPB.Mod 890-931. -/
def checkComp (T : Tab) (x : Nat) (e : Ex) : List Nat :=
  let y := charToString T x e
  match (T x).comp with
  | .array =>
    if x = y then []
    else if (T y).comp = .array ∧ (T y).base = (T x).base ∧ (T y).n ≤ (T x).n then []
    else if (T y).comp = .dyn ∧ (T y).base = (T x).base then [113]
    else if (T x).base = some chartyp then
      if (T y).form = .str then match e.kind with
        | .const len => if len > (T x).n then [114] else []
        | _ => []
      else [113]
    else [113]
  | .record =>
    if x = y then []
    else if (T y).comp = .record then if (climb T x ((T y).extlev) (T y).base).isNone then [113] else []
    else [113]
  | _ => [113]

/-- The case `Pointer` of `CheckAssign`, src/compiler/OPB.Mod 874-883. -/
def checkPtr (T : Tab) (x y : Nat) : List Nat :=
  if x = y ∨ (T y).form = .nil ∨ x = sysptrtyp ∧ (T y).form = .ptr then []
  else if (T y).form = .ptr then match (T x).base, (T y).base with
    | some p, some q => checkPtrs T p q
    | _, _ => [113]
  else [113]

/-- The case `ProcTyp` of `CheckAssign`, src/compiler/OPB.Mod 884-887. -/
def checkProcTyp (T : Tab) (f : Nat) (x : Nat) (e : Ex) : Option (List Nat) :=
  match e.kind with
  | .proc a r ps => if a then checkProc T f x r ps else some [113]
  | _ => some (if x = e.typ ∨ (T e.typ).form = .nil then [] else [113])

/-- The basic types in `CheckAssign`, src/compiler/OPB.Mod 865-873, 888-889: by the forms `f`, `g` and the sizes. -/
def checkBasic (f g : Form) (sx sy : Nat) : List Nat :=
  match f with
  | .byte => if (g = .byte ∨ g = .char ∨ g = .int) ∧ sy = 1 then [] else [113]
  | .bool | .char => if g ≠ f then [113] else []
  | .int | .set => if g ≠ f ∨ sx < sy then [113] else []
  | .real => if g = .int ∨ g = .real then [] else [113]
  | .lreal => if g = .int ∨ g = .real ∨ g = .lreal then [] else [113]
  | .no | .nil => [113]
  | _ => []

/-- The first test of `CheckAssign`, src/compiler/OPB.Mod 863. -/
def notValue (T : Tab) (x : Nat) (e : Ex) : List Nat :=
  match e.kind with
  | .typ => [126]
  | .proc _ _ _ => if (T x).form ≠ .proc then [126] else []
  | _ => []

/-- `CheckAssign`, src/compiler/OPB.Mod 844-937. -/
def checkAssign (T : Tab) (f : Nat) (x : Nat) (e : Ex) : Option (List Nat) :=
  (match (T x).form with
    | .ptr => some (checkPtr T x e.typ)
    | .proc => checkProcTyp T f x e
    | .comp => some (checkComp T x e)
    | g => some (checkBasic g (T e.typ).form (T x).size (T e.typ).size)).map fun es => notValue T x e ++ es

/-- `DynArrParCheck`, src/compiler/OPB.Mod 1361-1384.  Warnings are left out. -/
def dynCheck (T : Tab) (var : Bool) : Nat → Nat → Nat → List Nat
  | 0, _, _ => []
  | f + 1, ft, at_ =>
    let fe := (T ft).base.getD undftyp
    if var = true ∧ fe = bytetyp then []
    else if (T at_).comp = .array ∨ (T at_).comp = .dyn then
      let ae := (T at_).base.getD undftyp
      if (T fe).comp = .dyn then dynCheck T var f fe ae
      else if fe ≠ ae then
        if var = false ∧ (T fe).form = .ptr ∧ (T ae).form = .ptr then
          match (T fe).base, (T ae).base with
          | some c, some d =>
            if (T c).comp = .record ∧ (T d).comp = .record then if (climb T c ((T d).extlev + 1) (some d)).isNone then [113] else [] else [66]
          | _, _ => [66]
        else [66]
      else []
    else [67]

/-- `NotVar`, src/compiler/OPB.Mod 155-157, without SYSTEM.VAL. -/
def notVar : Kind → Bool
  | .var _ _ => false
  | _ => true

/-- `Param` for a VAR parameter, src/compiler/OPB.Mod 1408-1424. -/
def paramVar (T : Tab) (f : Nat) (e : Ex) : List Nat :=
  let a := e.typ
  (if notVar e.kind then [122] else []) ++ (match e.kind with | .var true _ => [76] | _ => []) ++
  (if (T f).comp = .dyn then dynCheck T true ((T f).n + 1) f a
   else if (T f).comp = .record ∧ (T a).comp = .record then if (climb T f ((T a).extlev + 1) (some a)).isNone then [111] else []
   else if f = sysptrtyp ∧ (T a).form = .ptr then []
   else if a ≠ f ∧ ¬((T f).form = .byte ∧ ((T a).form = .byte ∨ (T a).form = .bool ∨ (T a).form = .char ∨ (T a).form = .int) ∧ (T a).size = 1) then [123]
   else if (T f).form = .ptr ∧ (match e.kind with | .var _ true => true | _ => false) = true then [123] else [])

/-- `Param` for a value parameter, src/compiler/OPB.Mod 1425-1433. -/
def paramVal (T : Tab) (n : Nat) (f : Nat) (e : Ex) : Option (List Nat) :=
  if (T f).comp = .dyn then
    some (match e.kind with
      | .const _ => if ((T e.typ).form = .char ∨ (T e.typ).form = .str) ∧ ((T f).base.map fun b => (T b).form) = some .char then [] else [59]
      | .var _ _ => dynCheck T false ((T f).n + 1) f e.typ
      | _ => [59])
  else checkAssign T n f e

end Verif.Types
