import Verif.Str.Model

/-!
# The module oocStrings, src/library/ooc/oocStrings.Mod

An array of characters is the list of its elements, terminator and what follows it included; its length is `LEN`.  Value parameters are copied by the callee,
so they do not overlap the destination.  Positions and numbers are not negative, as the comments in the code require, except for `FindPrev`.
INTEGER has 16 bits: arrays have at most 32767 elements, so that no INTEGER variable overflows; sums in expressions are computed with 32 bits.  The model
returns `none` when an index is out of range.  Loops have a number of rounds as an additional argument, and end with `none` if it is too small.
-/
namespace Verif.OocStr
open Verif.Str (lengthLoop)

/-- `a[i] := c` with the index check (src/runtime/SYSTEM.h 120). -/
def put (a : List Nat) (i c : Nat) : Option (List Nat) := if i < a.length then some (a.set i c) else none

/-- `Length`, src/library/ooc/oocStrings.Mod 59-74.  The loop is the same as that of Strings.Length (C31). -/
def length (s : List Nat) : Option Nat := lengthLoop s (s.length + 1) 0

/-- The loop of `Assign`, src/library/ooc/oocStrings.Mod 94-97: the destination and `i`. -/
def assignLoop (source : List Nat) : Nat → List Nat → Nat → Option (List Nat × Nat)
  | 0, _, _ => none
  | f + 1, dest, i =>
    source[i]?.bind fun c => (put dest i c).bind fun dest =>
    if c = 0 ∨ i + 1 = dest.length then some (dest, i) else assignLoop source f dest (i + 1)

/-- `Assign`, src/library/ooc/oocStrings.Mod 86-99. -/
def assign (source dest : List Nat) : Option (List Nat) :=
  (assignLoop source (dest.length + 1) dest 0).bind fun r => put r.1 r.2 0

/-- The loop of `Extract`, src/library/ooc/oocStrings.Mod 125-128: the destination and `i`. -/
def extractLoop (source : List Nat) (startPos number : Nat) : Nat → List Nat → Nat → Option (List Nat × Nat)
  | 0, _, _ => none
  | f + 1, dest, i =>
    if i < number then
      source[startPos + i]?.bind fun c =>
      if c ≠ 0 then (put dest i c).bind fun dest => extractLoop source startPos number f dest (i + 1) else some (dest, i)
    else some (dest, i)

/-- `Extract`, src/library/ooc/oocStrings.Mod 101-130. -/
def extract (source : List Nat) (startPos number : Nat) (dest : List Nat) : Option (List Nat) :=
  (length source).bind fun sourceLength =>
  let startPos := if startPos > sourceLength then sourceLength else startPos
  let number := if number ≥ dest.length then dest.length - 1 else number
  (extractLoop source startPos number (dest.length + 1) dest 0).bind fun r => put r.1 r.2 0

/-- The FOR statement of `Delete`, src/library/ooc/oocStrings.Mod 145-147, from `i` to `last`. -/
def deleteLoop (number last : Nat) : Nat → List Nat → Nat → Option (List Nat)
  | 0, _, _ => none
  | f + 1, s, i =>
    if i ≤ last then s[i + number]?.bind fun c => (put s i c).bind fun s => deleteLoop number last f s (i + 1) else some s

/-- `Delete`, src/library/ooc/oocStrings.Mod 132-151. -/
def delete (s : List Nat) (startPos number : Nat) : Option (List Nat) :=
  (length s).bind fun stringLength =>
  if startPos + number < stringLength then deleteLoop number (stringLength - number) (s.length + 1) s startPos
  else if startPos < stringLength then put s startPos 0
  else some s

/-- The first FOR statement of `Insert`, src/library/ooc/oocStrings.Mod 177-179, from `k - 1` down to `startPos`. -/
def moveTail (sourceLength startPos : Nat) : Nat → List Nat → Option (List Nat)
  | 0, dest => some dest
  | k + 1, dest =>
    if startPos ≤ k then dest[k]?.bind fun c => (put dest (k + sourceLength) c).bind fun dest => moveTail sourceLength startPos k dest
    else some dest

/-- The second FOR statement of `Insert`, src/library/ooc/oocStrings.Mod 188-190. -/
def copyLoop (source : List Nat) (number startPos : Nat) : Nat → List Nat → Nat → Option (List Nat)
  | 0, _, _ => none
  | f + 1, dest, i =>
    if i < number then
      source[i]?.bind fun c => (put dest (startPos + i) c).bind fun dest => copyLoop source number startPos f dest (i + 1)
    else some dest

/-- `Insert`, src/library/ooc/oocStrings.Mod 153-191: the destination and `sourceLength` before the last loop. -/
def insertRoom (sourceLength startPos destLength destMax : Nat) (dest : List Nat) : Option (List Nat × Nat) :=
  if startPos + sourceLength < destMax then
    (if destLength + sourceLength > destMax then
      (put dest (destMax - sourceLength) 0).bind fun dest => moveTail sourceLength startPos (destMax - sourceLength + 1) dest
    else moveTail sourceLength startPos (destLength + 1) dest).map fun dest => (dest, sourceLength)
  else if startPos ≤ destLength then (put dest destMax 0).map fun dest => (dest, destMax - startPos)
  else some (dest, 0)

/-- `Insert`, src/library/ooc/oocStrings.Mod 153-191. -/
def insert (source : List Nat) (startPos : Nat) (dest : List Nat) : Option (List Nat) :=
  (length dest).bind fun destLength => (length source).bind fun sourceLength =>
  (insertRoom sourceLength startPos destLength (dest.length - 1) dest).bind fun r =>
  copyLoop source r.2 startPos (source.length + 1) r.1 0

/-- The loop of `Replace`, src/library/ooc/oocStrings.Mod 209-213. -/
def replaceLoop (source : List Nat) (destLength : Nat) : Nat → List Nat → Nat → Nat → Option (List Nat)
  | 0, _, _, _ => none
  | f + 1, dest, startPos, i =>
    if startPos ≠ destLength then
      source[i]?.bind fun c =>
      if c ≠ 0 then (put dest startPos c).bind fun dest => replaceLoop source destLength f dest (startPos + 1) (i + 1) else some dest
    else some dest

/-- `Replace`, src/library/ooc/oocStrings.Mod 193-215. -/
def replace (source : List Nat) (startPos : Nat) (dest : List Nat) : Option (List Nat) :=
  (length dest).bind fun destLength =>
  if startPos < destLength then replaceLoop source destLength (dest.length + 1) dest startPos 0 else some dest

/-- The loop of `Append`, src/library/ooc/oocStrings.Mod 224-228; `j` is `destLength`: the destination and `j`. -/
def appendLoop (source : List Nat) : Nat → List Nat → Nat → Nat → Option (List Nat × Nat)
  | 0, _, _, _ => none
  | f + 1, dest, j, i =>
    if j + 1 < dest.length then
      source[i]?.bind fun c =>
      if c ≠ 0 then (put dest j c).bind fun dest => appendLoop source f dest (j + 1) (i + 1) else some (dest, j)
    else some (dest, j)

/-- `Append`, src/library/ooc/oocStrings.Mod 217-230. -/
def append (source dest : List Nat) : Option (List Nat) :=
  (length dest).bind fun destLength =>
  (appendLoop source (dest.length + 1) dest destLength 0).bind fun r => put r.1 r.2 0

/-- The loops of `Concat`, src/library/ooc/oocStrings.Mod 241-244 and 248-251: `source[i]` is read before the room is tested. -/
def concatLoop (source : List Nat) : Nat → List Nat → Nat → Nat → Option (List Nat × Nat)
  | 0, _, _, _ => none
  | f + 1, dest, j, i =>
    source[i]?.bind fun c =>
    if c ≠ 0 ∧ j + 1 < dest.length then (put dest j c).bind fun dest => concatLoop source f dest (j + 1) (i + 1)
    else some (dest, j)

/-- `Concat`, src/library/ooc/oocStrings.Mod 232-253. -/
def concat (source1 source2 dest : List Nat) : Option (List Nat) :=
  (concatLoop source1 (dest.length + 1) dest 0 0).bind fun r =>
  (concatLoop source2 (dest.length + 1) r.1 r.2 0).bind fun r => put r.1 r.2 0

/-- `CanAssignAll`, src/library/ooc/oocStrings.Mod 262-268. -/
def canAssignAll (sourceLength : Nat) (dest : List Nat) : Bool := sourceLength < dest.length

/-- `CanExtractAll`, src/library/ooc/oocStrings.Mod 270-280. -/
def canExtractAll (sourceLength startPos number : Nat) (dest : List Nat) : Bool :=
  startPos + number ≤ sourceLength && number < dest.length

/-- `CanDeleteAll`, src/library/ooc/oocStrings.Mod 282-289. -/
def canDeleteAll (stringLength startPos number : Nat) : Bool := startPos + number ≤ stringLength

/-- `CanInsertAll`, src/library/ooc/oocStrings.Mod 291-303. -/
def canInsertAll (sourceLength startPos : Nat) (dest : List Nat) : Option Bool :=
  (length dest).map fun lenDestination => startPos ≤ lenDestination && sourceLength + lenDestination < dest.length

/-- `CanReplaceAll`, src/library/ooc/oocStrings.Mod 305-312. -/
def canReplaceAll (sourceLength startPos : Nat) (dest : List Nat) : Option Bool :=
  (length dest).map fun destLength => sourceLength + startPos ≤ destLength

/-- `CanAppendAll`, src/library/ooc/oocStrings.Mod 314-322. -/
def canAppendAll (sourceLength : Nat) (dest : List Nat) : Option Bool :=
  (length dest).map fun destLength => destLength + sourceLength < dest.length

/-- `CanConcatAll`, src/library/ooc/oocStrings.Mod 324-331. -/
def canConcatAll (source1Length source2Length : Nat) (dest : List Nat) : Bool := source1Length + source2Length < dest.length

/-- The loop of `Compare`, `Equal` and `FindDiff`, src/library/ooc/oocStrings.Mod 349-351, 368-370, 478-480. -/
def diffLoop (s1 s2 : List Nat) : Nat → Nat → Option Nat
  | 0, _ => none
  | f + 1, i =>
    s1[i]?.bind fun a => if a ≠ 0 then s2[i]?.bind fun b => if a = b then diffLoop s1 s2 f (i + 1) else some i else some i

/-- `Compare`, src/library/ooc/oocStrings.Mod 340-359; the constants, 50-54. -/
def compare (s1 s2 : List Nat) : Option Int :=
  (diffLoop s1 s2 (s1.length + 1) 0).bind fun i => s1[i]?.bind fun a => s2[i]?.map fun b =>
  if a < b then -1 else if a > b then 1 else 0

/-- `Equal`, src/library/ooc/oocStrings.Mod 361-372. -/
def equal (s1 s2 : List Nat) : Option Bool :=
  (diffLoop s1 s2 (s1.length + 1) 0).bind fun i => s1[i]?.bind fun a => if a = 0 then s2[i]?.map fun b => b == 0 else some false

/-- `FindDiff`, src/library/ooc/oocStrings.Mod 466-485: the position, if a difference is found. -/
def findDiff (s1 s2 : List Nat) : Option (Option Nat) :=
  (diffLoop s1 s2 (s1.length + 1) 0).bind fun i => s1[i]?.bind fun a =>
  if a ≠ 0 then some (some i) else s2[i]?.map fun b => if b ≠ 0 then some i else none

/-- The loop of `FindNext`, src/library/ooc/oocStrings.Mod 390-409: the position, if the pattern is found. -/
def nextLoop (pattern s : List Nat) : Nat → Nat → Nat → Option (Option Nat)
  | 0, _, _ => none
  | f + 1, startPos, patternPos =>
    pattern[patternPos]?.bind fun p =>
    if p = 0 then some (some (startPos - patternPos))
    else s[startPos]?.bind fun c =>
      if c = 0 then some none
      else if c = p then nextLoop pattern s f (startPos + 1) (patternPos + 1)
      else nextLoop pattern s f (startPos - patternPos + 1) 0

/-- `FindNext`, src/library/ooc/oocStrings.Mod 374-413. -/
def findNext (pattern s : List Nat) (startPos : Nat) : Option (Option Nat) :=
  (length s).bind fun n =>
  if startPos < n then nextLoop pattern s ((s.length + 1) * (pattern.length + 1)) startPos 0 else some none

/-- The loop of `FindPrev`, src/library/ooc/oocStrings.Mod 440-460. -/
def prevLoop (pattern s : List Nat) : Nat → Nat → Nat → Option (Option Nat)
  | 0, _, _ => none
  | f + 1, startPos, patternPos =>
    pattern[patternPos]?.bind fun p =>
    if p = 0 then some (some (startPos - patternPos))
    else s[startPos]?.bind fun c =>
      if c ≠ p then
        if startPos > patternPos then prevLoop pattern s f (startPos - patternPos - 1) 0 else some none
      else prevLoop pattern s f (startPos + 1) (patternPos + 1)

/-- `FindPrev`, src/library/ooc/oocStrings.Mod 415-464. -/
def findPrev (pattern s : List Nat) (startPos : Int) : Option (Option Nat) :=
  (length s).bind fun stringLength => (length pattern).bind fun patternLength =>
  let startPos := if startPos > (stringLength : Int) - patternLength then (stringLength : Int) - patternLength else startPos
  if startPos ≥ 0 then prevLoop pattern s ((s.length + 1) * (pattern.length + 1)) startPos.toNat 0 else some none

/-- `CAP`, src/runtime/SYSTEM.h 215. -/
def cap (c : Nat) : Nat := c &&& 0x5f

/-- The loop of `Capitalize`, src/library/ooc/oocStrings.Mod 495-498. -/
def capLoop : Nat → List Nat → Nat → Option (List Nat)
  | 0, _, _ => none
  | f + 1, s, i => s[i]?.bind fun c => if c ≠ 0 then (put s i (cap c)).bind fun s => capLoop f s (i + 1) else some s

/-- `Capitalize`, src/library/ooc/oocStrings.Mod 488-499. -/
def capitalize (s : List Nat) : Option (List Nat) := capLoop (s.length + 1) s 0

end Verif.OocStr
