import Verif.Heap.Model

/-!
# Allocation of arrays

`SYSTEM_NEWARR` of src/runtime/SYSTEM.c.  The calls are written by `NewArr` of src/compiler/OPV.Mod 728-758.
`Heap_Lock` and `Heap_Unlock`, which delay interrupts, are left out.
-/
namespace Verif.Heap

/-- The first argument: NIL for elements without pointers, `POINTER__typ` for pointers, the descriptor of a record type. -/
inductive ArrKind where
  | none
  | ptr
  | rcd (tag : Nat)
  deriving DecidableEq, Repr

/-- The number of elements: `halt` is `__HALT(-20)`, `undef` signed overflow. -/
inductive Prod where
  | ok (n : Int)
  | halt
  | undef
  deriving DecidableEq, Repr

/-- 64-bit signed numbers. -/
def in64 (x : Int) : Bool := decide (-(2 ^ 63) ≤ x ∧ x < 2 ^ 63)

/-- Computations whose result does not fit are undefined. -/
def guardD (b : Bool) : Option Unit := match b with
  | true => some ()
  | false => Option.none

/-- The loop over the lengths, src/runtime/SYSTEM.c 101-104. -/
def prodLoop (n : Int) : List Int → Prod
  | [] => .ok n
  | l :: ls =>
    if in64 (n * l) then
      if n * l ≤ 0 then .halt else prodLoop (n * l) ls
    else .undef

/-- The offset of the elements, src/runtime/SYSTEM.c 106-110. -/
def dataOff (nofdyn elemalgn : Nat) : Nat :=
  let o := nofdyn * 8
  if elemalgn > 8 then
    let n := o % elemalgn
    if n ≠ 0 then o + (elemalgn - n) else o
  else o

/-- The table for an array of pointers, src/runtime/SYSTEM.c 123: the last argument is the number of iterations to go.
Delivers `p` as well. -/
def fillPtr (m : Mem) (p n : Nat) : Nat → Mem × Nat
  | 0 => (m, p)
  | k + 1 => fillPtr (put m p (n * 8 : Nat)) (p + 8) (n + 1) k

/-- The number of pointers in a record, src/runtime/SYSTEM.c 130. -/
def countPtrs (m : Mem) (ptab : Nat) : Nat → Nat → Option Nat
  | 0, _ => Option.none
  | f + 1, n => if 0 ≤ m (ptab + 8 * n) then countPtrs m ptab f (n + 1) else some n

/-- The inner loop, src/runtime/SYSTEM.c 137. -/
def fillElem (m : Mem) (p : Nat) (off : Nat) (ptab i : Nat) : Nat → Mem × Nat
  | 0 => (m, p)
  | k + 1 => fillElem (put m p (off + m (ptab + 8 * i))) (p + 8) off ptab (i + 1) k

/-- The outer loop, src/runtime/SYSTEM.c 136-139. -/
def fillRec (m : Mem) (p : Nat) (off ptab nofptrs elemsz : Nat) : Nat → Mem × Nat
  | 0 => (m, p)
  | k + 1 =>
    let (m, p) := fillElem m p off ptab 0 nofptrs
    fillRec m p (off + elemsz) ptab nofptrs elemsz k

/-- The lengths, src/runtime/SYSTEM.c 147. -/
def fillLens (m : Mem) (p : Nat) : List Int → Mem
  | [] => m
  | l :: ls => fillLens (put m p l) (p + 8) ls

/-- The result of SYSTEM_NEWARR. -/
inductive ArrRes where
  | halt
  | done (s : HS) (x : Nat)

/-- The table of pointers behind the elements, src/runtime/SYSTEM.c 119-126 and 133-142: room for `nptr` words is made
in front of the size that ends the block, `fill` stores the offsets. -/
def putTable (s : HS) (x nptr : Nat) (fill : Mem → Nat → Mem × Nat) : HS × Nat :=
  let p := (s.mem (x - 8)).toNat
  let m := put s.mem (p - 8 * nptr) (s.mem p)
  let (m, p) := fill m (p - 8 * nptr + 8)
  let m := put m p (-((nptr : Int) + 1) * 8)
  let m := put m (x - 8) (m (x - 8) - 8 * nptr)
  ({ s with mem := m }, x)

/-- The block, src/runtime/SYSTEM.c 111-145. -/
def arrBlock (os : OS) (f : Nat) (e : Env) (s : HS) (slot : Nat) (elemsz dataoff nofelems size : Nat) :
    ArrKind → Option (HS × Nat)
  | .none => newBlk os f e s slot size
  | .ptr => (guardD (in64 (size + nofelems * 8 : Nat))).bind fun _ =>
    (newBlk os f e s slot (size + nofelems * 8)).bind fun r =>
    some (putTable r.1 r.2 nofelems fun m p => fillPtr m p 1 nofelems)
  | .rcd typ => (countPtrs s.mem (typ + 8) f 0).bind fun nofptrs =>
    (guardD (in64 (size + nofelems * nofptrs * 8 : Nat))).bind fun _ =>
    (newBlk os f e s slot (size + nofelems * nofptrs * 8)).bind fun r =>
    some (putTable r.1 r.2 (nofelems * nofptrs) fun m p => fillRec m p dataoff (typ + 8) nofptrs elemsz nofelems)

/-- `SYSTEM_NEWARR`, src/runtime/SYSTEM.c 95-152.  `nofdim` is the number of lengths.  `slot` is the address of the local
variable of NEWBLK.  `none` is undefined: overflow, or NEWBLK storing through NIL. -/
def newArr (os : OS) (f : Nat) (e : Env) (s : HS) (slot : Nat) (kind : ArrKind) (elemsz elemalgn : Nat)
    (lens : List Int) (nofdyn : Nat) : Option ArrRes :=
  match prodLoop 1 lens with
  | .halt => some .halt
  | .undef => Option.none
  | .ok n => (guardD (in64 (dataOff nofdyn elemalgn + n.toNat * elemsz : Nat))).bind fun _ =>
    (arrBlock os f e s slot elemsz (dataOff nofdyn elemalgn) n.toNat (dataOff nofdyn elemalgn + n.toNat * elemsz) kind).bind
    fun r => some (.done { r.1 with mem := fillLens r.1.mem r.2 (lens.take nofdyn) } r.2)

end Verif.Heap
