import Verif.Arith.Model

/-!
# Reading and writing numbers and strings through a rider, src/runtime/Files.Mod 594-715

The bytes of the file from the rider's position on are a `List Nat` (bytes are numbers below 256).
A write operation is modelled by the bytes it appends, a read operation by what it delivers and the
bytes that are left.  `Files.Read` at the end of the file delivers 0X (Files.Mod 398-414).

Integers are mathematical integers; conversions to a C type are explicit.  `none` is a halt or
undefined behaviour.
-/
namespace Verif.FileNum
open Verif.Arith

/-- Sizes in bits of INTEGER, LONGINT and SET: the size models, src/compiler/OPM.Mod 328-333. -/
structure Sizes where
  int : Nat
  long : Nat
  set : Nat
  deriving DecidableEq, Repr

/-- `-O2` (the default), src/compiler/OPM.Mod 329. -/
def o2 : Sizes := ⟨16, 32, 32⟩
/-- `-OC`, src/compiler/OPM.Mod 330. -/
def oC : Sizes := ⟨32, 64, 32⟩
/-- `-OV`, src/compiler/OPM.Mod 331. -/
def oV : Sizes := ⟨32, 64, 64⟩

/-- Conversion to a signed C type of `w` bits (wraps). -/
def wrapW (w : Nat) (x : Int) : Int := (x + 2 ^ (w - 1)) % 2 ^ w - 2 ^ (w - 1)

/-- `Files.WriteNum`, src/runtime/Files.Mod 711-715.  `x MOD 128` and `x DIV 128` are emitted as a
mask and an arithmetic shift, which are the floored operations. -/
def writeNum (x : Int) : List Nat :=
  if x < -64 ∨ x > 63 then (x % 128 + 128).toNat :: writeNum (x / 128)
  else [(x % 128).toNat]
  termination_by x.natAbs
  decreasing_by omega

/-- The loop of `Files.ReadNum`, src/runtime/Files.Mod 653-660.  `s` is an `INT8`, `q` an `INT64`.
Additions that overflow, and shifts by 64 or more, are undefined.  A byte of 128 or more is a negative
`INT8`, so `b+128` is `b - 128` in terms of the byte. -/
def readNumLoop (s q : Int) : List Nat → Option (Int × List Nat)
  | [] => do
    let t ← ash 0 s
    let q' ← ck (q + t)
    some (q', [])
  | b :: r =>
    if 128 ≤ b then do
      let t ← ash ((b : Int) - 128) s
      let q' ← ck (q + t)
      readNumLoop (wrapW 8 (s + 7)) q' r
    else do
      let t ← ash ((b : Int) % 64 - (b : Int) / 64 * 64) s
      let q' ← ck (q + t)
      some (q', r)

/-- `Files.ReadNum` into a variable of `len` bytes, src/runtime/Files.Mod 653-660: the final MOVE of
the `len` low bytes (little endian). -/
def readNum (len : Nat) (s : List Nat) : Option (Int × List Nat) :=
  if len ≤ 8 then (readNumLoop 0 0 s).map fun p => (wrapW (8 * len) p.1, p.2) else none

/-- `CHR(x)`: with range checks (`r`) `__CHR(x)`, otherwise `(CHAR)x`, src/compiler/OPV.Mod 270-275. -/
def chr (r : Bool) (x : Int) : Option Nat :=
  if r then (match chrMacro x with | .ok v => some v.toNat | .halt _ => none)
  else some (toChar x).toNat

/-- The bytes `CHR(x), CHR(x DIV 256), ...`: `n` of them. -/
def bytesOf (r : Bool) (x : Int) : Nat → Option (List Nat)
  | 0 => some []
  | n + 1 => do
    let b ← chr r x
    let bs ← bytesOf r (x / 256) n
    some (b :: bs)

/-- `Files.WriteInt`, src/runtime/Files.Mod 666-670. -/
def writeInt (r : Bool) (x : Int) : Option (List Nat) := bytesOf r x 2

/-- `Files.WriteLInt`, src/runtime/Files.Mod 672-677. -/
def writeLInt (r : Bool) (x : Int) : Option (List Nat) := bytesOf r x 4

/-- `Files.WriteSet`, src/runtime/Files.Mod 679-692, of a set with bit pattern `x`: both branches give
the LONGINT `i` whose low 32 bits are those of the set. -/
def writeSet (m : Sizes) (r : Bool) (x : Nat) : Option (List Nat) :=
  let i : Int := if m.set = m.int then wrapW m.int x else wrapW m.long x
  bytesOf r i 4

/-- `Files.ReadBytes(R, b, n)` where enough bytes are left, src/runtime/Files.Mod 422-441.
(At the end of the file the rest of `b` is not assigned: `none`.) -/
def readBytes (n : Nat) (s : List Nat) : Option (List Nat × List Nat) :=
  if n ≤ s.length then some (s.take n, s.drop n) else none

/-- `ORD(b[0]) + ORD(b[1])*100H + ...`: C computes this sum in `INT64`, since `__ASHL` yields an
`INT64` (src/runtime/SYSTEM.h 183). -/
def sumBytes : List Nat → Int
  | [] => 0
  | b :: bs => b + 256 * sumBytes bs

/-- `Files.ReadInt`, src/runtime/Files.Mod 607-611: the sum is converted to INTEGER. -/
def readInt (m : Sizes) (s : List Nat) : Option (Int × List Nat) :=
  (readBytes 2 s).map fun p => (wrapW m.int (sumBytes p.1), p.2)

/-- `Files.ReadLInt`, src/runtime/Files.Mod 613-617: the sum is converted to LONGINT. -/
def readLInt (m : Sizes) (s : List Nat) : Option (Int × List Nat) :=
  (readBytes 4 s).map fun p => (wrapW m.long (sumBytes p.1), p.2)

/-- `Files.ReadSet`, src/runtime/Files.Mod 619-626: via a LONGINT. -/
def readSet (m : Sizes) (s : List Nat) : Option (Nat × List Nat) :=
  (readBytes 4 s).map fun p => ((wrapW m.long (sumBytes p.1) % 2 ^ m.set).toNat, p.2)

/-- `Files.FlipBytes`, src/runtime/Files.Mod 594-601: on a little endian machine a copy, on a big
endian machine the bytes in reverse. -/
def flipBytes (littleEndian : Bool) (b : List Nat) : List Nat :=
  if littleEndian then b else b.reverse

/-- The search for 0X in `Files.WriteString`, src/runtime/Files.Mod 704-709; the counter is an INTEGER
of `w` bits, and every index is checked. -/
def writeStringLoop (w : Nat) (x : List Nat) : Nat → Int → Option Int
  | 0, _ => none
  | fuel + 1, i =>
    if 0 ≤ i then
      match x[i.toNat]? with
      | none => none
      | some c => if c ≠ 0 then writeStringLoop w x fuel (wrapW w (i + 1)) else some i
    else none

/-- `Files.WriteString`, src/runtime/Files.Mod 704-709.  The loop ends after at most `LEN(x)` rounds. -/
def writeString (w : Nat) (x : List Nat) : Option (List Nat) :=
  (writeStringLoop w x (x.length + 1) 0).map fun i => x.take (i + 1).toNat

/-- `Files.ReadString`, src/runtime/Files.Mod 638-642, from index `i` on. -/
def readStringLoop (w : Nat) (x : List Nat) (i : Int) : List Nat → Option (List Nat × List Nat)
  | [] => if 0 ≤ i ∧ i < x.length then some (x.set i.toNat 0, []) else none
  | ch :: s =>
    if 0 ≤ i ∧ i < x.length then
      if ch = 0 then some (x.set i.toNat ch, s)
      else readStringLoop w (x.set i.toNat ch) (wrapW w (i + 1)) s
    else none

/-- `Files.ReadString` into the array `x`. -/
def readString (w : Nat) (x : List Nat) (s : List Nat) : Option (List Nat × List Nat) :=
  readStringLoop w x 0 s

/-- The reading loop of `Files.ReadLine`, src/runtime/Files.Mod 644-651: the array, the counter and
the rest. -/
def readLineLoop (w : Nat) (x : List Nat) (i : Int) : List Nat → Option (List Nat × Int × List Nat)
  | [] => if 0 ≤ i ∧ i < x.length then some (x.set i.toNat 0, wrapW w (i + 1), []) else none
  | ch :: s =>
    if 0 ≤ i ∧ i < x.length then
      if ch = 0 ∨ ch = 10 then some (x.set i.toNat ch, wrapW w (i + 1), s)
      else readLineLoop w (x.set i.toNat ch) (wrapW w (i + 1)) s
    else none

/-- `Files.ReadLine`, src/runtime/Files.Mod 644-651. -/
def readLine (w : Nat) (x : List Nat) (s : List Nat) : Option (List Nat × List Nat) := do
  let (x, i, rest) ← readLineLoop w x 0 s
  let i := if x[(i - 1).toNat]? = some 10 then i - 1 else i
  let i := if i > 0 ∧ x[(i - 1).toNat]? = some 13 then i - 1 else i
  if 0 ≤ i ∧ i < x.length then some (x.set i.toNat 0, rest) else none

end Verif.FileNum
