import Verif.Sums.Model

/-!
# Unicode and UTF-8

src/library/s3/ethUnicode.Mod.  CHAR is a number below 256, INTEGER has 16 bits, LONGINT and SET have 32 (src/tools/make/oberon.mk
353-376).  Positions are not negative; an index beyond the array traps.
-/
namespace Verif.Utf
open Verif.Sums (Out chk)

/-- `CHR(x)` without range checks: the low byte (src/compiler/OPV.Mod 270-275). -/
def chr (x : Int) : Nat := (x % 256).toNat

/-- `SHORT(x)` from LONGINT to INTEGER (src/compiler/OPV.Mod 268-269, without range checks). -/
def short (x : Int) : Int := (BitVec.ofInt 16 x).toInt

/-- `AND`, src/library/s3/ethUnicode.Mod 8-10. -/
def and (a b : Int) : Int := (BitVec.ofInt 32 a &&& BitVec.ofInt 32 b).toInt

/-- `WHILE (ucs > max)`, src/library/s3/ethUnicode.Mod 31-36.  `buf` are the bytes written so far, `byte` is their number; the array
has room for six.  The number bounds the steps; the index check ends the loop before it does. -/
def encLoop : Nat → Int → Int → Int → List Nat → Out (Int × Int × List Nat)
  | 0, _, _, _, _ => .trap
  | f + 1, ucs, mask, max, buf =>
    if max < ucs then
      if buf.length < 6 then encLoop f (ucs / 64) (mask / 2) (max / 2) (buf ++ [chr (0x80 + short (and ucs 0x3F))]) else .trap
    else .ok (ucs, mask, buf)

/-- `FOR i := 0 TO byte DO utf8[pos + i] := buf[byte - i] END`, src/library/s3/ethUnicode.Mod 40: the bytes are given in the order in
which they are written. -/
def put (utf8 : List Nat) (pos : Nat) : List Nat → List Nat
  | [] => utf8
  | b :: bs => put (utf8.set pos b) (pos + 1) bs

/-- `UCStoUTF8`, src/library/s3/ethUnicode.Mod 15-47: the result, and the values of `utf8` and `pos`. -/
def ucsToUtf8 (ucs : Int) (utf8 : List Nat) (pos : Nat) : Out (Bool × List Nat × Nat) :=
  if ucs ≤ 0x7F then
    if pos + 1 < utf8.length then .ok (true, (utf8.set pos (chr (short ucs))).set (pos + 1) 0, pos + 1)
    else .ok (false, utf8, pos)
  else
    (encLoop 8 ucs 0x7F80 0x3F []).bind fun r =>
    if r.2.2.length < 6 then
      let buf := r.2.2 ++ [chr (r.2.1 + short r.1)]
      let byte := r.2.2.length
      if pos + byte + 1 < utf8.length then .ok (true, (put utf8 pos buf.reverse).set (pos + byte + 1) 0, pos + byte + 1)
      else .ok (false, utf8, pos)
    else .trap

/-- `UCS4toUTF8` and `UCS2toUTF8`, src/library/s3/ethUnicode.Mod 50-71: the rest of the array is converted as long as there is room. -/
def arrToUtf8 : List Int → List Nat → Nat → Out (List Nat)
  | [], utf8, _ => .ok utf8
  | c :: cs, utf8, p => (ucsToUtf8 c utf8 p).bind fun r => if r.1 then arrToUtf8 cs r.2.1 r.2.2 else .ok r.2.1

/-- `UCS4toUTF8`, src/library/s3/ethUnicode.Mod 62-71. -/
def ucs4ToUtf8 (ucs4 : List Int) (utf8 : List Nat) : Out (List Nat) := arrToUtf8 ucs4 utf8 0

/-- `UCS2toUTF8`, src/library/s3/ethUnicode.Mod 50-59: the elements are INTEGERs. -/
def ucs2ToUtf8 (ucs2 : List (BitVec 16)) (utf8 : List Nat) : Out (List Nat) := arrToUtf8 (ucs2.map BitVec.toInt) utf8 0

/-- `WHILE ((7-bytes) IN s)`, src/library/s3/ethUnicode.Mod 87.  Elements outside the set are not in it (src/runtime/SYSTEM.h 218), so
the loop ends with `bytes = 8` at the latest. -/
def lead (b : Nat) : Nat → Nat → Nat → Nat × Nat
  | 0, bytes, mask => (bytes, mask)
  | f + 1, bytes, mask => if bytes ≤ 7 ∧ b.testBit (7 - bytes) = true then lead b f (bytes + 1) (mask / 2) else (bytes, mask)

/-- `FOR i := 1 TO bytes-1 DO ucs := ucs * 64 + AND(ORD(utf8[p+i]), 3FH) END`, src/library/s3/ethUnicode.Mod 90, from `q = p + i` on. -/
def contLoop (utf8 : List Nat) : Nat → Nat → Int → Out Int
  | 0, _, ucs => .ok ucs
  | n + 1, q, ucs =>
    match utf8[q]? with
    | none => .trap
    | some c => (chk (ucs * 64)).bind fun u => (chk (u + and c 0x3F)).bind fun u => contLoop utf8 n (q + 1) u

/-- `UTF8toUCS`, src/library/s3/ethUnicode.Mod 75-97: the result, and the values of `p` and `ucs`. -/
def utf8ToUcs (utf8 : List Nat) (p : Nat) (ucs : Int) : Out (Bool × Nat × Int) :=
  match utf8[p]? with
  | none => .ok (false, p, ucs)
  | some b =>
    if b < 0x80 then .ok (true, p + 1, b)
    else
      let r := lead b 8 2 0x3F
      let u := and b r.2
      if p + r.1 - 1 < utf8.length then (contLoop utf8 (r.1 - 1) (p + 1) u).bind fun v => .ok (true, p + r.1, v)
      else .ok (false, p, u)

/-- The loop and the end of `UTF8toUCS4`, src/library/s3/ethUnicode.Mod 121-124: the values of `ucs4` and `idx`.  The number is
`LEN(ucs4) - idx`. -/
def ucs4Loop (utf8 : List Nat) : Nat → Nat → List Int → Nat → Out (List Int × Nat)
  | 0, _, ucs4, idx => .ok (ucs4, idx)
  | n + 1, p, ucs4, idx =>
    (utf8ToUcs utf8 p (ucs4.getD idx 0)).bind fun r =>
    let ucs4 := ucs4.set idx r.2.2
    if r.1 = true ∧ 0 < r.2.2 then ucs4Loop utf8 n r.2.1 ucs4 (idx + 1) else .ok (ucs4.set idx 0, idx + 1)

/-- `UTF8toUCS4`, src/library/s3/ethUnicode.Mod 117-125. -/
def utf8ToUcs4 (utf8 : List Nat) (ucs4 : List Int) (idx : Nat) : Out (List Int × Nat) :=
  ucs4Loop utf8 (ucs4.length - idx) 0 ucs4 idx

/-- The loop of `UTF8toASCII`, src/library/s3/ethUnicode.Mod 133-137: the values of `ascii` and `idx`.  Every turn uses up a byte of
`utf8`, so that the number, one more than its length, suffices. -/
def asciiLoop (utf8 : List Nat) : Nat → Nat → Int → List Nat → Nat → Out (List Nat × Nat)
  | 0, _, _, ascii, idx => .ok (ascii, idx)
  | f + 1, p, ucs, ascii, idx =>
    if ucs ≠ 0 then
      (utf8ToUcs utf8 p ucs).bind fun r =>
      if r.1 = true ∧ idx < ascii.length then
        asciiLoop utf8 f r.2.1 r.2.2 (ascii.set idx (if 0 ≤ r.2.2 ∧ r.2.2 < 256 then chr r.2.2 else 0x5F)) (idx + 1)
      else .ok (ascii, idx)
    else .ok (ascii, idx)

/-- `UTF8toASCII`, src/library/s3/ethUnicode.Mod 129-141: the result, and the values of `ascii` and `lossy`. -/
def utf8ToAscii (utf8 : List Nat) (ascii : List Nat) (lossy : Bool) : Out (Bool × List Nat × Bool) :=
  (asciiLoop utf8 (utf8.length + 1) 0 (-1) ascii 0).bind fun r =>
  if 0 < r.2 then
    match r.1[r.2 - 1]? with
    | none => .trap
    | some c =>
      if c ≠ 0 ∧ r.2 < r.1.length then .ok (true, r.1.set r.2 0, lossy)
      else .ok (decide (c = 0), r.1, lossy)
  else .trap

end Verif.Utf
