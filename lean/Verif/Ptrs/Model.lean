import Verif.Layout.Model

/-!
# Tables of pointers

`NofPtrs`, `PutPtrOffsets`, `TDescDecl` and `GenEnumPtrs` of src/compiler/OPC.Mod, which tell the garbage collector where
the pointers in records and global variables are; `SYSTEM_ENUMP` and `SYSTEM_ENUMR` of src/runtime/SYSTEM.c, which visit
those of global variables; `OutFlds` and `OutHdFld` of src/compiler/OPT.Mod with `InFld`, which carry the positions of
pointers in hidden fields to importing modules.

Simplifications.  Types are trees, as in `Verif.Layout`; the type a pointer points to plays no part.  The compiler's LONGINT
(32 bits) is modelled by natural numbers: the quantities are bounded by sizes of types, see C13.  The text of
the table is modelled as the list of the numbers written.
-/
namespace Verif.Ptrs

mutual
/-- Types.  `nil` is the absence of a base type; `basic` a type that is no pointer, array or record; `ptr` a pointer type,
`traced` if its `sysflag` is 0; `record` a record of the given size, `traced` if its `sysflag MOD 100H` is 0. -/
inductive Ty where
  | nil
  | basic (size : Nat)
  | ptr (traced : Bool)
  | arr (n : Nat) (e : Ty)
  | record (size : Nat) (traced : Bool) (base : Ty) (fs : Flds)
/-- Fields with address and visibility; `hid` is one with name `HdPtrName`, which stands for a hidden pointer of an
imported record. -/
inductive Flds where
  | nil
  | fld (exported : Bool) (adr : Nat) (t : Ty) (rest : Flds)
  | hid (adr : Nat) (rest : Flds)
end

/-- `typ^.size`: pointers have the size of an address (src/compiler/OPT.Mod 343), arrays 348-352. -/
def size : Ty → Nat
  | .nil => 0
  | .basic s => s
  | .ptr _ => 8
  | .arr n e => n * size e
  | .record s _ _ _ => s

mutual
/-- `NofPtrs`, src/compiler/OPC.Mod 259-280, times `n`; the parameter collects the numbers of elements in the loop
over nested arrays, line 276.  `NofPtrs(t)` is `nofPtrs t 1`. -/
def nofPtrs : Ty → Nat → Nat
  | .ptr true, n => n
  | .record _ true b fs, n => (nofPtrs b 1 + nofFlds fs) * n
  | .arr m e, n => nofPtrs e (m * n)
  | _, _ => 0
/-- The loop over the fields, src/compiler/OPC.Mod 267-272. -/
def nofFlds : Flds → Nat
  | .nil => 0
  | .fld _ _ t rest => nofPtrs t 1 + nofFlds rest
  | .hid _ rest => 1 + nofFlds rest
end

/-- The type of the elements of nested arrays, src/compiler/OPC.Mod 302. -/
def inner : Ty → Ty
  | .arr _ e => inner e
  | t => t

mutual
/-- `PutPtrOffsets`, src/compiler/OPC.Mod 282-307, for `n` elements of type `t` from `adr` on: the offsets written.  The
parameter `n` collects the numbers of elements in the loop over nested arrays, line 302, and the elements are passed through
by the loop in line 304.  `PutPtrOffsets(t, adr)` is `put t 1 adr`. -/
def put : Ty → Nat → Nat → List Nat
  | .ptr true, n, adr => (List.range n).map fun i => adr + i * 8
  | .record s true b fs, n, adr =>
    (List.range n).flatMap fun i => put b 1 (adr + i * s) ++ putFlds fs (adr + i * s)
  | .arr m e, n, adr => if nofPtrs (inner e) 1 > 0 then put e (m * n) adr else []
  | _, _, _ => []
/-- The loop over the fields, src/compiler/OPC.Mod 291-298. -/
def putFlds : Flds → Nat → List Nat
  | .nil, _ => []
  | .fld _ a t rest, adr => put t 1 (adr + a) ++ putFlds rest adr
  | .hid a rest, adr => (adr + a) :: putFlds rest adr
end

/-- A type descriptor as far as the collector uses it: block size, offsets and sentinel.  `TDescDecl`,
src/compiler/OPC.Mod 535-548. -/
def tdesc (t : Ty) : List Int :=
  (size t : Int) :: (put t 1 0).map (fun (o : Nat) => (o : Int)) ++ [-(((put t 1 0).length : Int) + 1) * 8]

/-- The number of entries for which `TDescDecl` reserves room: `NofPtrs(typ)` entries and the sentinel
(`__TDESC`, src/runtime/SYSTEM.h 295-310). -/
def tdescRoom (t : Ty) : Nat := nofPtrs t 1 + 1

/-! ### Global variables -/

/-- `SYSTEM_ENUMP`, src/runtime/SYSTEM.c 70-77: the addresses read. -/
def enumP (adr : Nat) : Nat → List Nat
  | 0 => []
  | n + 1 => adr :: enumP (adr + 8) n

/-- The inner loop of `SYSTEM_ENUMR`, src/runtime/SYSTEM.c 86-87: the entries up to the sentinel. -/
def enumTab (adr : Nat) : List Int → List Nat
  | [] => []
  | o :: os => if 0 ≤ o then (adr + o.toNat) :: enumTab adr os else []

/-- `SYSTEM_ENUMR`, src/runtime/SYSTEM.c 79-90; `tab` is the descriptor from its second word on. -/
def enumR (adr : Nat) (tab : List Int) (size : Nat) : Nat → List Nat
  | 0 => []
  | n + 1 => enumTab adr tab ++ enumR (adr + size) tab size n

/-- The loop over nested arrays in `GenEnumPtrs`, src/compiler/OPC.Mod 891-892: number and type of the elements. -/
def flatten : Nat → Ty → Nat × Ty
  | n, .arr m e => flatten (n * m) e
  | n, t => (n, t)

/-- What the procedure `EnumPtrs` of a module does for one variable at address `adr`: the addresses whose contents it passes
to the collector.  `GenEnumPtrs`, src/compiler/OPC.Mod 872-905. -/
def enumVar (t : Ty) (adr : Nat) : List Nat :=
  if nofPtrs t 1 > 0 then
    match t with
    | .ptr _ => [adr]
    | .record s _ _ _ => enumR adr (tdesc t).tail s 1
    | .arr n e =>
      let (n, b) := flatten n e
      match b with
      | .ptr _ => enumP adr n
      | .record s _ _ _ => enumR adr (tdesc b).tail s n
      | _ => []
    | _ => []
  else []

/-! ### Export and import -/

mutual
/-- `OutHdFld`, src/compiler/OPT.Mod 1103-1122, for `n` elements: the addresses written with `Shdptr`.  The base type of a
record plays no part.  The program looks at the first element of an array and passes over the others if it writes nothing for
it; since it would write nothing for the others either, all are treated alike here.  The test `nofhdfld <= OPM.MaxHdFld`, which ends the loop over the elements when more than 2048
addresses are written, is left out; the compiler then reports error 223 and no symbol file is made. -/
def outHd : Ty → Nat → Nat → List Nat
  | .ptr _, n, adr => (List.range n).map fun i => adr + i * 8
  | .record s _ _ fs, n, adr => (List.range n).flatMap fun i => outHdFlds fs (adr + i * s)
  | .arr m e, n, adr => outHd e (m * n) adr
  | _, _, _ => []
/-- `OutFlds` with `visible = FALSE`, src/compiler/OPT.Mod 1124-1133. -/
def outHdFlds : Flds → Nat → List Nat
  | .nil, _ => []
  | .fld _ a t rest, adr => outHd t 1 (adr + a) ++ outHdFlds rest adr
  | .hid a rest, adr => (adr + a) :: outHdFlds rest adr
end

/-- Hidden pointers as fields: `InFld`, src/compiler/OPT.Mod 805-821. -/
def hidden : List Nat → Flds → Flds
  | [], fs => fs
  | a :: as, fs => .hid a (hidden as fs)

mutual
/-- A type as an importing module sees it: `OutStr` and `OutFlds` with `visible = TRUE`, src/compiler/OPT.Mod 1124-1133,
1169-1212, and `InStruct`, 850-924. -/
def importTy : Ty → Ty
  | .record s tr b fs => .record s tr (importTy b) (importFlds fs)
  | .arr n e => .arr n (importTy e)
  | t => t
def importFlds : Flds → Flds
  | .nil => .nil
  | .fld true a t rest => .fld true a (importTy t) (importFlds rest)
  | .fld false a t rest => hidden (outHd t 1 a) (importFlds rest)
  | .hid a rest => .hid a (importFlds rest)
end

end Verif.Ptrs
