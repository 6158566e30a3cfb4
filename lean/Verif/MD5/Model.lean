import Verif.MD5.Spec

/-!
# Model of src/library/s3/ethMD5.Mod

LONGINT has 32 bits; the results of its operations are taken modulo 2^32 (the generated C leaves results beyond LONGINT undefined, see
`C76_overflow`), sets are the same words.  The machine is little-endian.
-/
namespace Verif.MD5

/-- `F1`, src/library/s3/ethMD5.Mod 60-63. -/
def f1 (x y z : Word) : Word := (x &&& y) ||| (~~~x &&& z)
/-- `F2`, src/library/s3/ethMD5.Mod 65-68. -/
def f2 (x y z : Word) : Word := (x &&& z) ||| (y &&& ~~~z)
/-- `F3`, src/library/s3/ethMD5.Mod 70-73. -/
def f3 (x y z : Word) : Word := x ^^^ y ^^^ z
/-- `F4`, src/library/s3/ethMD5.Mod 75-78. -/
def f4 (x y z : Word) : Word := y ^^^ (x ||| ~~~z)

/-- `__ROTL` with 32 bits, src/runtime/SYSTEM.h 179. -/
def rotl (x : Word) (n : Nat) : Word := (x <<< n) ||| (x >>> (32 - n))

/-- A call of `STEP1` to `STEP4` in `Transform`: the procedure, the variables passed (0 to 3: a to d), the index of `in`, the constant and the
number of bits. -/
structure Row where
  proc : Nat
  w : Nat
  x : Nat
  y : Nat
  z : Nat
  k : Nat
  const : Nat
  s : Nat
deriving DecidableEq, Repr

/-- The calls in `Transform`, src/library/s3/ethMD5.Mod 113-179. -/
def rows : List Row :=
  [⟨1, 0, 1, 2, 3, 0, 0x0FFFFFFFFD76AA478, 7⟩, ⟨1, 3, 0, 1, 2, 1, 0x0FFFFFFFFE8C7B756, 12⟩,
   ⟨1, 2, 3, 0, 1, 2, 0x000000000242070DB, 17⟩, ⟨1, 1, 2, 3, 0, 3, 0x0FFFFFFFFC1BDCEEE, 22⟩,
   ⟨1, 0, 1, 2, 3, 4, 0x0FFFFFFFFF57C0FAF, 7⟩, ⟨1, 3, 0, 1, 2, 5, 0x0000000004787C62A, 12⟩,
   ⟨1, 2, 3, 0, 1, 6, 0x0FFFFFFFFA8304613, 17⟩, ⟨1, 1, 2, 3, 0, 7, 0x0FFFFFFFFFD469501, 22⟩,
   ⟨1, 0, 1, 2, 3, 8, 0x000000000698098D8, 7⟩, ⟨1, 3, 0, 1, 2, 9, 0x0FFFFFFFF8B44F7AF, 12⟩,
   ⟨1, 2, 3, 0, 1, 10, 0x0FFFFFFFFFFFF5BB1, 17⟩, ⟨1, 1, 2, 3, 0, 11, 0x0FFFFFFFF895CD7BE, 22⟩,
   ⟨1, 0, 1, 2, 3, 12, 0x0000000006B901122, 7⟩, ⟨1, 3, 0, 1, 2, 13, 0x0FFFFFFFFFD987193, 12⟩,
   ⟨1, 2, 3, 0, 1, 14, 0x0FFFFFFFFA679438E, 17⟩, ⟨1, 1, 2, 3, 0, 15, 0x00000000049B40821, 22⟩,
   ⟨2, 0, 1, 2, 3, 1, 0x0FFFFFFFFF61E2562, 5⟩, ⟨2, 3, 0, 1, 2, 6, 0x0FFFFFFFFC040B340, 9⟩,
   ⟨2, 2, 3, 0, 1, 11, 0x000000000265E5A51, 14⟩, ⟨2, 1, 2, 3, 0, 0, 0x0FFFFFFFFE9B6C7AA, 20⟩,
   ⟨2, 0, 1, 2, 3, 5, 0x0FFFFFFFFD62F105D, 5⟩, ⟨2, 3, 0, 1, 2, 10, 0x00000000002441453, 9⟩,
   ⟨2, 2, 3, 0, 1, 15, 0x0FFFFFFFFD8A1E681, 14⟩, ⟨2, 1, 2, 3, 0, 4, 0x0FFFFFFFFE7D3FBC8, 20⟩,
   ⟨2, 0, 1, 2, 3, 9, 0x00000000021E1CDE6, 5⟩, ⟨2, 3, 0, 1, 2, 14, 0x0FFFFFFFFC33707D6, 9⟩,
   ⟨2, 2, 3, 0, 1, 3, 0x0FFFFFFFFF4D50D87, 14⟩, ⟨2, 1, 2, 3, 0, 8, 0x000000000455A14ED, 20⟩,
   ⟨2, 0, 1, 2, 3, 13, 0x0FFFFFFFFA9E3E905, 5⟩, ⟨2, 3, 0, 1, 2, 2, 0x0FFFFFFFFFCEFA3F8, 9⟩,
   ⟨2, 2, 3, 0, 1, 7, 0x000000000676F02D9, 14⟩, ⟨2, 1, 2, 3, 0, 12, 0x0FFFFFFFF8D2A4C8A, 20⟩,
   ⟨3, 0, 1, 2, 3, 5, 0x0FFFFFFFFFFFA3942, 4⟩, ⟨3, 3, 0, 1, 2, 8, 0x0FFFFFFFF8771F681, 11⟩,
   ⟨3, 2, 3, 0, 1, 11, 0x0000000006D9D6122, 16⟩, ⟨3, 1, 2, 3, 0, 14, 0x0FFFFFFFFFDE5380C, 23⟩,
   ⟨3, 0, 1, 2, 3, 1, 0x0FFFFFFFFA4BEEA44, 4⟩, ⟨3, 3, 0, 1, 2, 4, 0x0000000004BDECFA9, 11⟩,
   ⟨3, 2, 3, 0, 1, 7, 0x0FFFFFFFFF6BB4B60, 16⟩, ⟨3, 1, 2, 3, 0, 10, 0x0FFFFFFFFBEBFBC70, 23⟩,
   ⟨3, 0, 1, 2, 3, 13, 0x000000000289B7EC6, 4⟩, ⟨3, 3, 0, 1, 2, 0, 0x0FFFFFFFFEAA127FA, 11⟩,
   ⟨3, 2, 3, 0, 1, 3, 0x0FFFFFFFFD4EF3085, 16⟩, ⟨3, 1, 2, 3, 0, 6, 0x00000000004881D05, 23⟩,
   ⟨3, 0, 1, 2, 3, 9, 0x0FFFFFFFFD9D4D039, 4⟩, ⟨3, 3, 0, 1, 2, 12, 0x0FFFFFFFFE6DB99E5, 11⟩,
   ⟨3, 2, 3, 0, 1, 15, 0x0000000001FA27CF8, 16⟩, ⟨3, 1, 2, 3, 0, 2, 0x0FFFFFFFFC4AC5665, 23⟩,
   ⟨4, 0, 1, 2, 3, 0, 0x0FFFFFFFFF4292244, 6⟩, ⟨4, 3, 0, 1, 2, 7, 0x000000000432AFF97, 10⟩,
   ⟨4, 2, 3, 0, 1, 14, 0x0FFFFFFFFAB9423A7, 15⟩, ⟨4, 1, 2, 3, 0, 5, 0x0FFFFFFFFFC93A039, 21⟩,
   ⟨4, 0, 1, 2, 3, 12, 0x000000000655B59C3, 6⟩, ⟨4, 3, 0, 1, 2, 3, 0x0FFFFFFFF8F0CCC92, 10⟩,
   ⟨4, 2, 3, 0, 1, 10, 0x0FFFFFFFFFFEFF47D, 15⟩, ⟨4, 1, 2, 3, 0, 1, 0x0FFFFFFFF85845DD1, 21⟩,
   ⟨4, 0, 1, 2, 3, 8, 0x0000000006FA87E4F, 6⟩, ⟨4, 3, 0, 1, 2, 15, 0x0FFFFFFFFFE2CE6E0, 10⟩,
   ⟨4, 2, 3, 0, 1, 6, 0x0FFFFFFFFA3014314, 15⟩, ⟨4, 1, 2, 3, 0, 13, 0x0000000004E0811A1, 21⟩,
   ⟨4, 0, 1, 2, 3, 4, 0x0FFFFFFFFF7537E82, 6⟩, ⟨4, 3, 0, 1, 2, 11, 0x0FFFFFFFFBD3AF235, 10⟩,
   ⟨4, 2, 3, 0, 1, 2, 0x0000000002AD7D2BB, 15⟩, ⟨4, 1, 2, 3, 0, 9, 0x0FFFFFFFFEB86D391, 21⟩]

/-- The values of a, b, c, d. -/
abbrev Regs := Nat → Word

/-- `STEP1` to `STEP4`, src/library/s3/ethMD5.Mod 80-106. -/
def call (inp : Nat → Word) (r : Regs) (o : Row) : Regs :=
  let f := if o.proc = 1 then f1 else if o.proc = 2 then f2 else if o.proc = 3 then f3 else f4
  let data := inp o.k + BitVec.ofNat 32 o.const
  let w := r o.w + f (r o.x) (r o.y) (r o.z) + data
  let w := rotl w o.s
  let w := w + r o.x
  fun i => if i = o.w then w else r i

/-- `Transform`, src/library/s3/ethMD5.Mod 108-183. -/
def transform (buf : St) (inp : Nat → Word) : St :=
  let r : Regs := fun i => if i = 0 then buf.a else if i = 1 then buf.b else if i = 2 then buf.c else buf.d
  let r := rows.foldl (call inp) r
  ⟨buf.a + r 0, buf.b + r 1, buf.c + r 2, buf.d + r 3⟩

/-- A word in `ByteReverse`, src/library/s3/ethMD5.Mod 51-54. -/
def assemble (b0 b1 b2 b3 : Byte) : Word :=
  let t := b3.setWidth 32
  let t := 256#32 * t + b2.setWidth 32
  let t := 256#32 * t + b1.setWidth 32
  256#32 * t + b0.setWidth 32

/-- `ByteReverse`, src/library/s3/ethMD5.Mod 42-58: the words of an array of bytes. -/
def byteReverse (bs : List Byte) (i : Nat) : Word :=
  assemble (bs.getD (4 * i) 0) (bs.getD (4 * i + 1) 0) (bs.getD (4 * i + 2) 0) (bs.getD (4 * i + 3) 0)

/-- The bytes of a word in memory. -/
def mem (w : Word) : List Byte := [w.extractLsb' 0 8, w.extractLsb' 8 8, w.extractLsb' 16 8, w.extractLsb' 24 8]

/-- `ContextDesc`, src/library/s3/ethMD5.Mod 23-27. -/
structure Ctx where
  buf : St
  bits : Word
  inn : List Byte
deriving DecidableEq, Repr

/-- `New`, src/library/s3/ethMD5.Mod 30-40; the array `in` holds any bytes. -/
def new (inn : List Byte) : Ctx := ⟨⟨0x0000000067452301#32, 0xFFFFFFFFEFCDAB89#32, 0xFFFFFFFF98BADCFE#32, 0x0000000010325476#32⟩, 0, inn⟩

/-- Copy bytes to an array from an index on. -/
def blit (dst : List Byte) (off : Nat) (src : List Byte) : List Byte := dst.take off ++ src ++ dst.drop (off + src.length)

/-- `(t DIV 8) MOD 64` with a LONGINT, src/library/s3/ethMD5.Mod 194, 221, 250. -/
def position (bits : Word) : Nat := (bits.toInt / 8 % 64).toNat

/-- `Write`, src/library/s3/ethMD5.Mod 187-210. -/
def write (c : Ctx) (ch : Byte) : Ctx :=
  let t := position c.bits
  let bits := c.bits + 8#32
  if 0 < t then
    if 1 < 64 - t then ⟨c.buf, bits, c.inn.set (64 - (64 - t)) ch⟩
    else
      let inn := c.inn.set (64 - (64 - t)) ch
      ⟨transform c.buf (byteReverse inn), bits, inn⟩
  else ⟨c.buf, bits, c.inn.set 0 ch⟩

/-- The loop of `WriteBytes` over whole blocks and what follows, src/library/s3/ethMD5.Mod 232-241; `k` steps suffice. -/
def blocks : Nat → Ctx → List Byte → Ctx
  | 0, c, _ => c
  | k + 1, c, b =>
    if 64 ≤ b.length then
      let inn := blit c.inn 0 (b.take 64)
      blocks k ⟨transform c.buf (byteReverse inn), c.bits, inn⟩ (b.drop 64)
    else if 0 < b.length then ⟨c.buf, c.bits, blit c.inn 0 b⟩
    else c

/-- `WriteBytes`, src/library/s3/ethMD5.Mod 214-242, with the `len` bytes of the buffer. -/
def writeBytes (c : Ctx) (b : List Byte) : Ctx :=
  let t := position c.bits
  let bits := c.bits + BitVec.ofNat 32 b.length * 8#32
  if 0 < t then
    let t := 64 - t
    if b.length < t then ⟨c.buf, bits, blit c.inn (64 - t) b⟩
    else
      let inn := blit c.inn (64 - t) (b.take t)
      blocks (b.length + 1) ⟨transform c.buf (byteReverse inn), bits, inn⟩ (b.drop t)
  else blocks (b.length + 1) ⟨c.buf, bits, c.inn⟩ b

/-- The loop that writes zeros. -/
def zeros (l : List Byte) (i n : Nat) : List Byte := blit l i (List.replicate n 0#8)

/-- `Close`, src/library/s3/ethMD5.Mod 245-276. -/
def close (c : Ctx) : List Byte :=
  let beg := position c.bits
  let inn := c.inn.set beg 128#8
  let count := 64 - 1 - beg
  let bi : St × List Byte :=
    if count < 8 then
      let inn := zeros inn (beg + 1) count
      (transform c.buf (byteReverse inn), zeros inn 0 56)
    else (c.buf, zeros inn (beg + 1) (count - 8))
  let x : Nat → Word := fun i => if i = 14 then c.bits else if i = 15 then 0 else byteReverse bi.2 i
  let s := transform bi.1 x
  let bytes := mem s.a ++ mem s.b ++ mem s.c ++ mem s.d
  mem (byteReverse bytes 0) ++ mem (byteReverse bytes 1) ++ mem (byteReverse bytes 2) ++ mem (byteReverse bytes 3)

/-- `HexDigit`, src/library/s3/ethMD5.Mod 278-285. -/
def hexDigit (i : Nat) : Nat := if i < 10 then 48 + i else 97 + i - 10

/-- `ToString`, src/library/s3/ethMD5.Mod 288-296: the characters 0 to 32 of the array. -/
def toStr (digest : List Byte) : List Nat :=
  ((List.range 16).flatMap fun i => [hexDigit ((digest.getD i 0).toNat / 16), hexDigit ((digest.getD i 0).toNat % 16)]) ++ [0]

/-- The calls of a program between `New` and `Close`. -/
inductive Op where
  | write (ch : Byte)
  | writeBytes (b : List Byte)
deriving DecidableEq, Repr

/-- One call. -/
def Op.exec (c : Ctx) : Op → Ctx
  | .write ch => MD5.write c ch
  | .writeBytes b => MD5.writeBytes c b

/-- The bytes written by a call. -/
def Op.bytes : Op → List Byte
  | .write ch => [ch]
  | .writeBytes b => b

/-- `New`, calls, `Close`. -/
def digest (inn : List Byte) (ops : List Op) : List Byte := close (ops.foldl Op.exec (new inn))

end Verif.MD5
