import Verif.Assign.Spec

/-!
# Assignments: `CheckAssign` and `Assign`, src/compiler/OPB.Mod 844-932, 1480-1501; `stat`, src/compiler/OPV.Mod 791-845; src/runtime/SYSTEM.h

Simplifications.  Designators and expressions have been evaluated: there are addresses and values.  Procedure constants and the conversion
of integers to REAL and of REAL to LONGREAL are left out (the last are C conversions; in the model these assignments are not compiled).
-/
namespace Verif.Assign
open Verif.Layout Verif.Layout.CSpec

/-- The type of the right side, if it is a basic type; character constants are of type CHAR. -/
def Rhs.basic : Rhs → Option Basic
  | .var (.simple b) _ => some b
  | .val b _ => some b
  | .chr _ => some .char
  | _ => none

/-- `CheckAssign` for basic types, src/compiler/OPB.Mod 865-888 (`x` is the type of the variable). -/
def checkBasic (x : Basic) (r : Rhs) : Bool :=
  match x, r.basic with
  | .byte, some y =>
    match y with
    | .byte => true
    | .char => true
    | .int s => s = 1
    | _ => false
  | .bool, some y => y = .bool
  | .char, some y => y = .char
  | .int s, some (.int s') => s' ≤ s
  | .set s, some (.set s') => s' ≤ s
  | .real, some y => y = .real
  | .lreal, some y => y = .lreal
  | .ptr i ls, some (.ptr j ls') =>
    i = j || i = 0 ||
      match ls with
      | [] => false
      | p :: _ => ls'.contains p
  | .ptr _ _, none =>
    match r with
    | .nil => true
    | _ => false
  | .proc i, some (.proc j) => i = j
  | .proc _, none =>
    match r with
    | .nil => true
    | _ => false
  | _, _ => false

/-- `CharToString`, src/compiler/OPB.Mod 138-146: the characters of a string or character constant. -/
def Rhs.string : Rhs → Option (List Nat)
  | .str cs => some cs
  | .chr c => some (if c = 0 then [] else [c])
  | _ => none

/-- `CheckAssign`, src/compiler/OPB.Mod 844-932.  `intval2` of a string is its length with 0X. -/
def checkAssign (x : Ty) (r : Rhs) : Bool :=
  match x with
  | .simple b => checkBasic b r
  | .array n e _ =>
    match r with
    | .var (.array k e' _) _ => e = e' && decide (k ≤ n)
    | .var _ _ => false
    | .val _ _ => false
    | .nil => false
    | .str cs => e = 0 && decide (cs.length + 1 ≤ n)
    | .chr c => e = 0 && decide ((if c = 0 then [] else [c]).length + 1 ≤ n)
  | .record x =>
    match r with
    | .var (.record y) _ => y.up.any fun q => q.id = x.id
    | _ => false

/-- Statements in C: `__MOVE(r, l, n)`; the same with a string; `l = r` for basic types; `l = *(T*)&r` for records, where `lt` and `rt` are
the types of both sides in C, after `if (dyn != T__typ) __HALT(-6);` if there is a guard. -/
inductive CStat where
  | move (src dst n : Nat)
  | moveStr (cs : List Nat) (dst n : Nat)
  | store (dst : Nat) (t : Basic) (r : Rhs)
  | struct (guard : Option (Nat × Nat)) (lt rt : Nat) (src dst size : Nat)

/-- The guard, the type of the left side in C: `Assign`, src/compiler/OPB.Mod 1486-1493, and `Neguard` in `design`, src/compiler/OPV.Mod 383-391.
With a type guard on a VAR parameter, `z := x^.left` has the type before the guard, and its name is written. -/
def guardOf (typchk : Bool) (cls : Cls) (x : Rc) : Option (Nat × Nat) × Nat :=
  match cls with
  | .plain => (none, x.id)
  | .varpar d => (if typchk && x.named then some (d, x.id) else none, x.id)
  | .deref d => (if typchk && x.named then some (d, x.id) else none, x.id)
  | .guarded s d => (if typchk && x.named then some (d, s.id) else none, s.id)
  | .guardedPtr s d => if typchk && x.named then (some (d, x.id), x.id) else (none, s.id)

/-- The size that `TypSize` computes. -/
def sizeOf? (al : Nat) (t : Typ) : Option Nat := (layoutTyp al t).map Prod.fst

/-- `Assign`, src/compiler/OPB.Mod 1480-1501, and `stat`, src/compiler/OPV.Mod 792-826; `none`: an error is reported. -/
def assign (al : Nat) (typchk : Bool) (l : Lhs) (r : Rhs) : Option CStat :=
  if checkAssign l.typ r then
    match l.typ, r with
    | .simple b, r => some (.store l.adr b r)
    | .array _ _ _, .var t a => (sizeOf? al t.lay).map fun n => .move a l.adr n
    | .array _ _ _, r =>
      match r.string with
      | some [] => some (.store l.adr .char (.chr 0))
      | some cs => some (.moveStr (cs ++ [0]) l.adr (cs.length + 1))
      | none => none
    | .record x, .var _ a =>
      let g := guardOf typchk l.cls x
      (sizeOf? al (.record x.lay)).map fun n => .struct g.1 g.2 x.id a l.adr n
    | .record _, _ => none
  else none

/-! ### C -/

/-- What happens: the C text is not legal; a trap; undefined behaviour; done. -/
inductive Outcome where
  | illegal
  | halt (n : Nat)
  | undefined
  | ok (m : Mem)

/-- Store bytes. -/
def write (m : Mem) (a : Nat) (bs : List Nat) : Mem := fun i => if a ≤ i ∧ i < a + bs.length then bs.getD (i - a) 0 else m i

/-- Do the areas overlap? -/
def overlap (a b n : Nat) : Bool := decide (a < b + n) && decide (b < a + n)

/-- The lowest `n` bytes of a number. -/
def toBytes : Nat → Nat → List Nat
  | 0, _ => []
  | n + 1, v => v % 256 :: toBytes n (v / 256)

/-- The conversion that C makes in `l = r`: integers keep the number, with a sign (`INT8` … `INT64`) or without (`UINT8` … for sets); all
others are stored as they are. -/
def convert (t from' : Basic) (bs : List Nat) : List Nat :=
  match t, from' with
  | .int s, .int _ => toBytes s ((intOf bs) % (256 ^ s : Nat)).toNat
  | .set s, .set _ => toBytes s (natOf bs)
  | _, _ => bs

/-- The value of the right side and its type. -/
def rhsBytes (m : Mem) (t : Basic) : Rhs → Option (Basic × List Nat)
  | .var (.simple b) a => some (b, read m a b.size)
  | .chr c => some (.char, [c])
  | .val b bs => some (b, bs)
  | .nil => some (t, List.replicate 8 0)
  | _ => none

/-- A C statement.  `memcpy` (`__MOVE`, src/runtime/SYSTEM.h 189) of overlapping areas is undefined (ISO C 7.21.2.1); so is the assignment of a
structure that overlaps in another way than exactly (6.5.16.1); the types of both sides must be the same.  `__GUARDEQR` and `__GUARDEQP`,
src/runtime/SYSTEM.h 255-256. -/
def exec (m : Mem) : CStat → Outcome
  | .move src dst n => if overlap src dst n then .undefined else .ok (write m dst (read m src n))
  | .moveStr cs dst n => .ok (write m dst (cs.take n))
  | .store dst t r =>
    match rhsBytes m t r with
    | some (b, bs) => .ok (write m dst (convert t b bs))
    | none => .illegal
  | .struct g lt rt src dst n =>
    if lt ≠ rt then .illegal
    else if (match g with | some (d, t) => decide (d ≠ t) | none => false) then .halt 6
    else if overlap src dst n ∧ src ≠ dst then .undefined
    else .ok (write m dst (read m src n))

/-! ### INC, DEC, INCL, EXCL, SYSTEM.GET, PUT, MOVE -/

/-- `x += n` and `x -= n`, `stat`, src/compiler/OPV.Mod 834-835: C computes with at least 32 bits (with 64 if one side has 64), an overflow is
undefined, and the result is reduced to the size of `x`.  `n` has size `s'`, at most `s` (src/compiler/OPB.Mod 1130-1143). -/
def execInc (m : Mem) (minus : Bool) (dst s : Nat) (n : Int) : Outcome :=
  let v := intOf (read m dst s)
  let r := if minus then v - n else v + n
  let w := if s ≤ 4 then 4 else 8
  if 2 * r < (256 ^ w : Nat) ∧ -((256 ^ w : Nat) : Int) ≤ 2 * r then .ok (write m dst (toBytes s (r % (256 ^ s : Nat)).toNat)) else .undefined

/-- `x |= __SETOF(i, 8 s)` and `x &= ~__SETOF(i, 8 s)`, `stat`, src/compiler/OPV.Mod 836-838, src/runtime/SYSTEM.h 220: sets have 4 or 8 bytes,
`__SETOF` shifts a `UINT32` or `UINT64`, which is undefined unless `0 ≤ i < 8 s`. -/
def execIncl (m : Mem) (excl : Bool) (dst s : Nat) (i : Int) : Outcome :=
  let v := natOf (read m dst s)
  if 0 ≤ i ∧ i < (8 * s : Nat) then
    let b := 2 ^ i.toNat
    .ok (write m dst (toBytes s (if excl then v &&& (256 ^ s - 1 - b) else v ||| b)))
  else .undefined

/-- `SYSTEM.MOVE(src, dst, n)`, src/compiler/OPV.Mod 842-846. -/
def execMove (m : Mem) (src dst n : Nat) : Outcome := exec m (.move src dst n)

end Verif.Assign
