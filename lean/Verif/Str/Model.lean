import Mathlib.Data.List.Basic

/-!
# The module Strings, src/runtime/Strings.Mod

An array of characters is the list of its elements, terminator and what follows it included; its length is `LEN`.
Value parameters are copied by the callee (`__DUP`), so they do not overlap the destination.  INTEGER has 16 bits.
Variables that are never negative are natural numbers.  The model returns `none` for an index out of range (the program is
stopped by the index check; a negative index, which the check lets through, is also `none`) and for an overflow of a
16-bit variable.  The loop conditions bound the counters by an INTEGER except in `Cap`.  The conversions of numbers
(Strings.Mod 156-) are not modelled.
-/
namespace Verif.Str

/-- `a[i]` with the index check. -/
def rd (a : List Nat) (i : Int) : Option Nat := if 0 ≤ i then a[i.toNat]? else none

/-- `a[i] := c` with the index check. -/
def wr (a : List Nat) (i : Int) (c : Nat) : Option (List Nat) :=
  if 0 ≤ i ∧ i < a.length then some (a.set i.toNat c) else none

/-- The loop of `Length`, Strings.Mod 37. -/
def lengthLoop (s : List Nat) : Nat → Nat → Option Nat
  | 0, _ => none
  | f + 1, i =>
    if i < s.length then (rd s i).bind fun c => if c ≠ 0 then lengthLoop s f (i + 1) else some i
    else some i

/-- `Length`, Strings.Mod 34-39. -/
def length (s : List Nat) : Option Nat :=
  (lengthLoop s (s.length + 1) 0).map fun i => if i ≤ 32767 then i else 32767

/-- The loop of `Append`, Strings.Mod 46. -/
def appendLoop (extra : List Nat) (n1 n2 : Nat) : Nat → List Nat → Nat → Option (List Nat × Nat)
  | 0, _, _ => none
  | f + 1, dest, i =>
    if i < n2 ∧ i + n1 < dest.length then
      (rd extra i).bind fun c => (wr dest (i + n1) c).bind fun dest => appendLoop extra n1 n2 f dest (i + 1)
    else some (dest, i)

/-- `Append`, Strings.Mod 42-48. -/
def append (extra dest : List Nat) : Option (List Nat) :=
  (length dest).bind fun n1 => (length extra).bind fun n2 =>
  (appendLoop extra n1 n2 (n2 + 1) dest 0).bind fun (dest, i) =>
  if i + n1 < dest.length then wr dest (i + n1) 0 else some dest

/-- `IF i + n2 < LEN(dest) THEN dest[i + n2] := dest[i] END`, Strings.Mod 60. -/
def moveUp (dest : List Nat) (n2 i : Nat) : Option (List Nat) :=
  if i + n2 < dest.length then (rd dest i).bind fun c => wr dest (i + n2) c else some dest

/-- The loop `i := n1; WHILE i >= pos DO ... DEC(i) END` of `Insert`, Strings.Mod 58-62; `k` is `i + 1`. -/
def makeRoom (n2 pos : Nat) : Nat → List Nat → Option (List Nat)
  | 0, dest => some dest
  | k + 1, dest => if pos ≤ k then (moveUp dest n2 k).bind fun dest => makeRoom n2 pos k dest else some dest

/-- The last loop of `Insert`, Strings.Mod 64. -/
def copyIn (source : List Nat) (n2 pos : Nat) : Nat → List Nat → Nat → Option (List Nat)
  | 0, _, _ => none
  | f + 1, dest, i =>
    if i < n2 then (rd source i).bind fun c => (wr dest (pos + i) c).bind fun dest => copyIn source n2 pos f dest (i + 1)
    else some dest

/-- `Insert`, Strings.Mod 51-65.  When `pos` is behind the end, `Append(dest, source)` changes the local copy of `source`. -/
def insert (source : List Nat) (pos : Int) (dest : List Nat) : Option (List Nat) :=
  (length dest).bind fun n1 => (length source).bind fun n2 =>
  let pos := if pos < 0 then 0 else pos.toNat
  if pos > n1 then (append dest source).map fun _ => dest
  else
    (if pos + n2 < dest.length then makeRoom n2 pos (n1 + 1) dest else some dest).bind fun dest =>
    copyIn source n2 pos (n2 + 1) dest 0

/-- The loop of `Delete`, Strings.Mod 74: the array and `i`. -/
def moveDown (len : Int) (n : Int) : Nat → List Nat → Int → Option (List Nat × Int)
  | 0, _, _ => none
  | f + 1, s, i =>
    if i < len then (rd s i).bind fun c => (wr s (i - n) c).bind fun s => moveDown len n f s (i + 1)
    else some (s, i)

/-- Strings.Mod 73-77. -/
def deleteAt (s : List Nat) (len : Nat) (pos n : Int) : Option (List Nat) :=
  if pos + n < len then
    (moveDown len n ((len - (pos + n)).toNat + 1) s (pos + n)).bind fun (s, i) =>
    if i - n < s.length then wr s (i - n) 0 else some s
  else wr s pos 0

/-- `Delete`, Strings.Mod 68-78. -/
def delete (s : List Nat) (pos n : Int) : Option (List Nat) :=
  (length s).bind fun len =>
  if pos < 0 then deleteAt s len 0 n
  else if pos ≥ len then some s
  else deleteAt s len pos n

/-- The value `x` as an INTEGER. -/
def int16 (x : Int) : Option Int := if -32768 ≤ x ∧ x ≤ 32767 then some x else none

/-- `Replace`, Strings.Mod 81-85. -/
def replace (source : List Nat) (pos : Int) (dest : List Nat) : Option (List Nat) :=
  (length source).bind fun n2 => (int16 (pos + n2)).bind fun n =>
  (delete dest pos n).bind fun dest => insert source pos dest

/-- The loop of `Extract`, Strings.Mod 95-98: the destination and `i`. -/
def extractLoop (source : List Nat) (pos : Nat) (n : Int) (destLen : Int) : Nat → List Nat → Nat → Option (List Nat × Nat)
  | 0, _, _ => none
  | f + 1, dest, i =>
    if pos + i ≤ source.length then
      (rd source (pos + i)).bind fun c =>
      if c ≠ 0 ∧ i < n then
        (if i < destLen then wr dest i c else some dest).bind fun dest => extractLoop source pos n destLen f dest (i + 1)
      else some (dest, i)
    else some (dest, i)

/-- `Extract`, Strings.Mod 88-100. -/
def extract (source : List Nat) (pos n : Int) (dest : List Nat) : Option (List Nat) :=
  (length source).bind fun len => (int16 dest.length).bind fun dl =>
  let pos := if pos < 0 then 0 else pos.toNat
  if pos ≥ len then wr dest 0 0
  else (extractLoop source pos n (dl - 1) (source.length + 2) dest 0).bind fun (dest, i) => wr dest i 0

/-- The inner loop of `Pos`, Strings.Mod 111: the final `j`. -/
def posInner (pattern s : List Nat) (n2 : Nat) (i : Int) : Nat → Nat → Option Nat
  | 0, _ => none
  | f + 1, j =>
    if j < n2 then
      (rd s (i + j)).bind fun a => (rd pattern j).bind fun b => if a = b then posInner pattern s n2 i f (j + 1) else some j
    else some j

/-- The outer loop of `Pos`, Strings.Mod 109-115. -/
def posLoop (pattern s : List Nat) (n1 n2 : Nat) : Nat → Int → Option Int
  | 0, _ => none
  | f + 1, i =>
    if i ≤ (n1 : Int) - n2 then
      (rd s i).bind fun a => (rd pattern 0).bind fun b =>
      if a = b then
        (posInner pattern s n2 i (n2 + 1) 1).bind fun j => if j = n2 then some i else posLoop pattern s n1 n2 f (i + 1)
      else posLoop pattern s n1 n2 f (i + 1)
    else some (-1)

/-- `Pos`, Strings.Mod 103-117. -/
def pos (pattern s : List Nat) (p : Int) : Option Int :=
  (length s).bind fun n1 => (length pattern).bind fun n2 =>
  if n2 = 0 then some 0 else posLoop pattern s n1 n2 ((n1 - p).toNat + 2) p

/-- `CAP`, SYSTEM.h 215. -/
def cap (c : Nat) : Nat := c &&& 0x5f

/-- The loop of `Cap`, Strings.Mod 124-127. -/
def capLoop : Nat → List Nat → Nat → Option (List Nat)
  | 0, _, _ => none
  | f + 1, s, i =>
    (rd s i).bind fun c =>
    if c ≠ 0 then
      (if 97 ≤ c ∧ c ≤ 122 then wr s i (cap c) else some s).bind fun s =>
      (int16 (i + 1)).bind fun _ => capLoop f s (i + 1)
    else some s

/-- `Cap`, Strings.Mod 120-128. -/
def capString (s : List Nat) : Option (List Nat) := capLoop (s.length + 1) s 0

/-- The first loop of `M`, Strings.Mod 135-138.  `n` and `m` are one more than in the code; `none` inside is RETURN FALSE. -/
def back (name mask : List Nat) : Nat → Nat → Option (Option (Nat × Nat))
  | n + 1, m + 1 =>
    (rd mask m).bind fun b =>
    if b ≠ 42 then
      (rd name n).bind fun a => if a ≠ b then some none else back name mask n m
    else some (some (n + 1, m + 1))
  | n, m => some (some (n, m))

/-- The second loop of `M`, Strings.Mod 142. -/
def skipStars (mask : List Nat) : Nat → Option Nat
  | m + 1 => (rd mask m).bind fun b => if b = 42 then skipStars mask m else some (m + 1)
  | 0 => some 0

mutual

/-- `M`, Strings.Mod 133-150; `n` and `m` are one more than in the code. -/
def matchM (name mask : List Nat) : Nat → Nat → Nat → Option Bool
  | 0, _, _ => none
  | f + 1, n, m =>
    (back name mask n m).bind fun r =>
    match r with
    | none => some false
    | some (n, m) =>
      if m = 0 then some (n == 0)
      else (skipStars mask m).bind fun m =>
        if m = 0 then some true else tryAll name mask f n m

/-- The last loop of `M`, Strings.Mod 145-149. -/
def tryAll (name mask : List Nat) : Nat → Nat → Nat → Option Bool
  | 0, _, _ => none
  | _ + 1, 0, _ => some false
  | f + 1, n + 1, m => (matchM name mask f (n + 1) m).bind fun b => if b then some true else tryAll name mask f n m

end

/-- `Match`, Strings.Mod 131-154. -/
def «match» (f : Nat) (string pattern : List Nat) : Option Bool :=
  (length string).bind fun n => (length pattern).bind fun m => matchM string pattern f n m

end Verif.Str
