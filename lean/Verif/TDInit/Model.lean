import Verif.Decls.Model
import Verif.TDInit.Spec

/-!
# The initialisation of type descriptors

The compiler makes a list of the record types of a module: `TypeDecl` (src/compiler/OPP.Mod 266-268) appends a node to it (`OPB.Inittd`,
src/compiler/OPB.Mod 1503-1510) when it has read a record up to its END.  For each node of the list `OPV.InitTDescs` (src/compiler/OPV.Mod 765-768)
with `OPC.InitTDesc` (src/compiler/OPC.Mod 550-558) writes a call of `__INITYP` (src/runtime/SYSTEM.h 316-324) at the beginning of the body of the
module, before its statements (src/compiler/OPV.Mod 776-782; src/compiler/OPP.Mod 997-999).

Declarations are those of C64 (`Verif.Decls`), whose functions give the states between.  Left out: type-bound procedures (C36, C37), sizes (C13, C14), the
registration with the module (C46), and records in the parameter lists of procedure headings.
-/
namespace Verif.TDInit
open Verif.Types Verif.Decls

mutual
/-- The nodes `TypeDecl` appends, src/compiler/OPP.Mod 253-273: the functions of `RecordType`, `ArrayType`, `PointerType` and `FormalParameters` append
theirs, and for a record the node of the record itself comes last. -/
def initsT (mx : Int) (s : St) (loc : Loc) (banned : Option Nat) : TE → List Nat
  | .name _ => []
  | .dyn e => initsT mx (new s loc { form := .comp, comp := .dyn }) (.base s.next) banned e
  | .arr n e =>
    let s1 := new s loc { form := .comp, comp := .array, n := if n ≤ 0 ∨ n > mx then 1 else n.toNat }
    initsT mx (if n ≤ 0 ∨ n > mx then err s1 63 else s1) (.base s.next) banned e
  | .recd b fs =>
    initsF mx (openScope (recBase (new s loc { form := .comp, comp := .record, base := none }) s.next banned b)) s.next banned fs ++ [s.next]
  | .ptrTo _ => []
  | .ptr e => initsT mx (new s loc { form := .ptr }) (.base s.next) none e
  | .proc ps _ => initsP mx (openScope (new s loc { form := .proc })) ps
/-- The nodes of the fields of a record, src/compiler/OPP.Mod 110-140. -/
def initsF (mx : Int) (s : St) (t : Nat) (banned : Option Nat) : GL → List Nat
  | .nil => []
  | .cons _ xs e rest =>
    let r := noDyn (typeCheck (typeDecl mx (addFields s t xs) .tmp banned e))
    initsT mx (addFields s t xs) .tmp banned e ++ initsF mx (setFields r.1 t xs r.2) t banned rest
/-- The nodes of formal parameters, src/compiler/OPP.Mod 200-235. -/
def initsP (mx : Int) (s : St) : GL → List Nat
  | .nil => []
  | .cons _ xs e rest =>
    initsT mx (addObjs s xs) .tmp none e ++ initsP mx (typeCheck (typeDecl mx (addObjs s xs) .tmp none e)).1 rest
end

/-- The nodes of a declaration, src/compiler/OPP.Mod 898-958. -/
def initsD (mx : Int) (s : St) : Decl → List Nat
  | .const _ => []
  | .typ x e => initsT mx (insert s x { mode := .typ }) (.obj s.nobj) (some s.nobj) e
  | .var xs e => initsT mx (addObjs s xs) .tmp none e

/-- The nodes of declarations one after the other. -/
def initsDs (mx : Int) : List Decl → St → List Nat
  | [], _ => []
  | d :: ds, s => initsD mx s d ++ initsDs mx ds (declare mx s d)

/-- The nodes of the declarations of a block, src/compiler/OPP.Mod 895-966: what has been appended to the list `TDinit`. -/
def inits (mx : Int) (s : St) (ds : List Decl) : List Nat := initsDs mx ds { s with fwd := [] }

/-! ### The start of the module -/

/-- The descriptors (`__TDESC`, src/runtime/SYSTEM.h 294-307): whether the variable `t__typ` has been set, and the entries of `t__desc.basep`, as the
numbers of the types whose `__typ` they hold; `none` is 0. -/
structure Descs where
  set : Nat → Bool
  basep : Nat → Nat → Option Nat

/-- How the start of a module goes on: `null` when `t0__typ` is NULL and is used as an address; `bounds` when `basep` has no entry of the level
(`__MAXEXT`, src/runtime/SYSTEM.h 72). -/
inductive Out where
  | run (d : Descs)
  | null
  | bounds

/-- `__INITYP(t, t0, level)`, src/runtime/SYSTEM.h 316-319: `t__typ` is set, the first `level` entries are copied from `t0`, and the entry `level` is the
own one.  `memcpy` of no entries from a descriptor is that of `t` itself, when there is no base type. -/
def inityp (d : Descs) (t t0 level : Nat) : Out :=
  let set := upd d.set t true
  if set t0 = false then .null
  else if 16 ≤ level then .bounds
  else .run ⟨set, upd d.basep t fun k => if k < level then d.basep t0 k else if k = level then some t else d.basep t k⟩

/-- `InitTDesc`, src/compiler/OPC.Mod 550-556: the base type, or the type itself. -/
def initTDesc (T : Tab) (d : Descs) (t : Nat) : Out := inityp d t ((T t).base.getD t) (T t).extlev

/-- `InitTDescs`, src/compiler/OPV.Mod 765-768: one after the other. -/
def initTDescs (T : Tab) : List Nat → Descs → Out
  | [], d => .run d
  | t :: ts, d => match initTDesc T d t with
    | .run d => initTDescs T ts d
    | o => o

/-- `__IS(tag, typ, level)`, src/runtime/SYSTEM.h 235, with the tag of the type `t`, the type `u` and its level (src/compiler/OPV.Mod 495-503). -/
def isTest (T : Tab) (d : Descs) (t u : Nat) : Bool := d.basep t (T u).extlev = some u

/-- Nothing has been initialised: `__TDFLDS` (src/runtime/SYSTEM.h 312), static variables. -/
def noDescs : Descs := ⟨fun _ => false, fun _ _ => none⟩

end Verif.TDInit
