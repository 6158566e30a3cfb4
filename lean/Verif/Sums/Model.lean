import Verif.Common

/-!
# Adler32 and CRC32

src/library/s3/ethZlib.Mod.  The library is built with LONGINT and SET of 32 bits (src/tools/make/oberon.mk 353-376).  An
addition beyond the range of LONGINT is an outcome of its own: the generated C leaves it undefined.
-/
namespace Verif.Sums

/-- What a call comes to. -/
inductive Out (α : Type) where
  | ok (a : α)
  /-- An index out of range. -/
  | trap
  /-- An addition beyond LONGINT. -/
  | overflow
deriving DecidableEq

/-- Run `f` after `r`. -/
def Out.bind {α β : Type} : Out α → (α → Out β) → Out β
  | .ok a, f => f a
  | .trap, _ => .trap
  | .overflow, _ => .overflow

/-- The result of an addition of LONGINTs (`INC`, `+`). -/
def chk (x : Int) : Out Int := if -2147483648 ≤ x ∧ x ≤ 2147483647 then .ok x else .overflow

/-- `buf[offset]`, with the index check of __X (src/runtime/SYSTEM.h 120). -/
def at_ (buf : List (BitVec 8)) (offset : Int) : Out (BitVec 8) :=
  if 0 ≤ offset then match buf[offset.toNat]? with
    | some b => .ok b
    | none => .trap
  else .trap

/-- `SYSTEM.LSH(x, n)` of a LONGINT: the bits are shifted as an unsigned number (src/runtime/SYSTEM.h 175-177, C05). -/
def lsh (x : Int) (n : Int) : Int :=
  if 0 ≤ n then ((BitVec.ofInt 32 x) <<< n.toNat).toInt else ((BitVec.ofInt 32 x) >>> (-n).toNat).toInt

/-- The loop `REPEAT … UNTIL k = 0` entered with `k > 0`, src/library/s3/ethZlib.Mod 85-90: `s1`, `s2` and `offset` after it. -/
def adlerRun (buf : List (BitVec 8)) : Nat → Int → Int → Int → Out (Int × Int × Int)
  | 0, s1, s2, offset => .ok (s1, s2, offset)
  | k + 1, s1, s2, offset =>
    (at_ buf offset).bind fun c =>
    (chk (s1 + c.toNat)).bind fun s1 =>
    (chk (s2 + s1)).bind fun s2 => adlerRun buf k s1 s2 (offset + 1)

/-- The constant `nmax`, src/library/s3/ethZlib.Mod 72. -/
def nmax : Nat := 5552

/-- The loop `WHILE len > 0`, src/library/s3/ethZlib.Mod 82-93. -/
def adlerLoop (buf : List (BitVec 8)) (len : Nat) (s1 s2 offset : Int) : Out (Int × Int) :=
  if 0 < len then
    let k := if len < nmax then len else nmax
    (adlerRun buf k s1 s2 offset).bind fun r => adlerLoop buf (len - k) (r.1 % 65521) (r.2.1 % 65521) r.2.2
  else .ok (s1, s2)
termination_by len
decreasing_by
  have h : 0 < if len < nmax then len else nmax := by unfold nmax; split <;> omega
  simp only [dite_eq_ite] at *
  omega

/-- `Adler32`, src/library/s3/ethZlib.Mod 69-96. -/
def adler32 (adler : Int) (buf : List (BitVec 8)) (offset len : Int) : Out Int :=
  if len < 0 then .ok 1
  else
    (adlerLoop buf len.toNat (adler % 65536) (lsh adler (-16) % 65536) offset).bind fun r => chk (lsh r.2 16 + r.1)

/-- The constant `poly`, src/library/s3/ethZlib.Mod 124, as a SET. -/
def poly : BitVec 32 := 0xEDB88320#32

/-- One step of the inner loop of `InitCRCTable`, src/library/s3/ethZlib.Mod 131-133. -/
def crcStep (c : BitVec 32) : BitVec 32 := if c.getLsbD 0 then poly ^^^ (c >>> 1) else c >>> 1

/-- `FOR k := 0 TO 7`, src/library/s3/ethZlib.Mod 130-134: the step done `k` times. -/
def crcSteps : Nat → BitVec 32 → BitVec 32
  | 0, c => c
  | k + 1, c => crcSteps k (crcStep c)

/-- `CRCTable` after `InitCRCTable`, src/library/s3/ethZlib.Mod 122-137. -/
def crcTable : List (BitVec 32) := (List.range 256).map fun n => crcSteps 8 (BitVec.ofNat 32 n)

/-- The loop `WHILE len > 0` of `CRC32`, src/library/s3/ethZlib.Mod 147-151. -/
def crcLoop (buf : List (BitVec 8)) : Nat → Int → BitVec 32 → Out (BitVec 32)
  | 0, _, crc => .ok crc
  | len + 1, offset, crc =>
    (at_ buf offset).bind fun c =>
    let idx := (crc ^^^ BitVec.ofNat 32 c.toNat).toInt % 256
    (match crcTable[idx.toNat]? with
      | some t => Out.ok t
      | none => Out.trap).bind fun t => crcLoop buf len (offset + 1) (t ^^^ (crc >>> 8))

/-- `CRC32`, src/library/s3/ethZlib.Mod 140-155. -/
def crc32 (crc : BitVec 32) (buf : List (BitVec 8)) (offset len : Int) : Out (BitVec 32) :=
  if offset < 0 then .ok 0
  else (crcLoop buf len.toNat offset (crc ^^^ BitVec.allOnes 32)).bind fun crc => .ok (crc ^^^ BitVec.allOnes 32)

end Verif.Sums
