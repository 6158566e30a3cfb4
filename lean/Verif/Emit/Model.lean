import Verif.Chars
import Verif.Arith.Model

/-!
# The text of constants and names in the emitted C code

Text is a list of character codes.
-/
namespace Verif.Emit
open Verif.Arith

abbrev Text := List Nat

/-- The digits `WriteInt` collects, least significant first, src/compiler/OPM.Mod 699-700.  The fuel
bounds the WHILE loop; 20 is enough for 64-bit numbers. -/
def digitsLE : Nat → Nat → Text
  | 0, _ => []
  | fuel + 1, n => (n % 10 + 48) :: if n / 10 > 0 then digitsLE fuel (n / 10) else []

/-- `WriteInt` for a number that is not the smallest one of its width, src/compiler/OPM.Mod 697-702:
suffix, digits and sign are collected in reverse. -/
def writeInt0 (i : Int) : Text :=
  ((if (i.natAbs : Int) ≤ 2 ^ 31 - 1 then [] else w! "LL") ++ digitsLE 20 i.natAbs ++
    (if i < 0 then w! "-" else [])).reverse

/-- `WriteInt`, src/compiler/OPM.Mod 688-704. -/
def writeInt (i : Int) : Text :=
  if i = -(2 ^ 15) ∨ i = -(2 ^ 31) ∨ i = -(2 ^ 63) then w! "(" ++ writeInt0 (i + 1) ++ w! "-1)"
  else writeInt0 i

/-- `IntLiteral`, src/compiler/OPC.Mod 1207-1215; `CIntSize` is 4, src/compiler/OPM.Mod 70-72. -/
def intLiteral (n : Int) (size : Nat) : Text :=
  if size > 4 ∧ n ≤ 2 ^ 31 - 1 ∧ n > -(2 ^ 31) then
    w! "((INT" ++ writeInt (size * 8) ++ w! ")(" ++ writeInt n ++ w! "))"
  else writeInt n

/-- A hexadecimal digit, src/compiler/OPM.Mod 681-683. -/
def hexDigit (d : Nat) : Nat := if d < 10 then 48 + d else 97 - 10 + d

/-- `WriteHex`, src/compiler/OPM.Mod 676-686: two digits. -/
def writeHex (i : Nat) : Text := [hexDigit (i / 16), hexDigit (i % 16)]

/-- `CharacterLiteral`, src/compiler/OPC.Mod 1139-1151. -/
def characterLiteral (c : Nat) : Text :=
  if c < 32 ∨ c > 126 then w! "0x" ++ writeHex c
  else [39] ++ (if c = 92 ∨ c = 39 ∨ c = 63 then [92] else []) ++ [c] ++ [39]

/-- One character in `StringLiteral`, src/compiler/OPC.Mod 1158-1172. -/
def strChar (c : Nat) : Text :=
  if c < 32 ∨ c > 126 then [92, 48 + c / 64, 48 + c % 64 / 8, 48 + c % 64 % 8]
  else (if c = 92 ∨ c = 34 ∨ c = 63 then [92] else []) ++ [c]

/-- `StringLiteral`, src/compiler/OPC.Mod 1153-1177. -/
def stringLiteral (s : Text) : Text := [34] ++ s.flatMap strChar ++ [34]

/-- The inner loop for set constants, src/compiler/OPC.Mod 1247-1250: the bits `8k+7 … 8k`. -/
def setByte (s k : Nat) : Nat :=
  [7, 6, 5, 4, 3, 2, 1, 0].foldl (fun hex j => 2 * hex + if s.testBit (8 * k + j) then 1 else 0) 0

/-- The outer loop, src/compiler/OPC.Mod 1245-1255: bytes from the highest, leading zero bytes skipped. -/
def setLoop (s : Nat) : List Nat → Bool → Text
  | [], skip => if skip then [48] else []
  | k :: ks, skip =>
    if setByte s k ≠ 0 ∨ skip = false then writeHex (setByte s k) ++ setLoop s ks false
    else setLoop s ks skip

/-- `Constant`, case Set, src/compiler/OPC.Mod 1242-1256. -/
def setLiteral (s : Nat) : Text := w! "0x" ++ setLoop s [7, 6, 5, 4, 3, 2, 1, 0] true

/-! ### Names -/

/-- `PerfectHash`, src/compiler/OPC.Mod 97-102; `i` counts the characters. -/
def hashLoop : Text → Nat → Nat → Nat
  | [], _, h => h
  | c :: cs, i, h => if i < 5 then hashLoop cs (i + 1) (3 * h + c) else h

def perfectHash (s : Text) : Nat := hashLoop s 0 0 % 105

/-- `keytab` after `InitKeywords`, src/compiler/OPC.Mod 1274-1319. -/
def keytab : List Text := [
  w! "ADDRESS", w! "INT16", w! "INT32", w! "INT64", w! "INT8", w! "UINT16", w! "UINT32", w! "UINT64",
  w! "UINT8", w! "asm", w! "auto", w! "break", w! "case", w! "char", w! "const", w! "continue",
  w! "default", w! "do", w! "double", w! "else", w! "enum", w! "extern", w! "export", w! "float",
  w! "for", w! "fortran", w! "goto", w! "if", w! "import", w! "int", w! "long", w! "register",
  w! "return", w! "short", w! "signed", w! "sizeof", w! "size_t", w! "static", w! "struct", w! "switch",
  w! "typedef", w! "union", w! "unsigned", w! "void", w! "volatile", w! "while"]

/-- `Enter` for each keyword, src/compiler/OPC.Mod 1267-1270: the table of numbers, -1 where empty. -/
def enterAll : List Text → Nat → List Int → List Int
  | [], _, t => t
  | k :: ks, n, t => enterAll ks (n + 1) (t.set (perfectHash k) n)

def hashtab : List Int := enterAll keytab 0 (List.replicate 105 (-1))

/-- Is the name one of the keywords, as `Ident` decides, src/compiler/OPC.Mod 110-113? -/
def clash (name : Text) : Bool :=
  let n := hashtab.getD (perfectHash name) (-1)
  if n ≥ 0 then keytab.getD n.toNat [] = name else false

/-- Objects whose C names are modelled: variables, types and procedures inside procedures, fields and
VAR parameters (`inner`); objects of a module; type-bound procedures; lengths of open array parameters;
types of VAR record parameters; type descriptors. -/
inductive Obj where
  | inner (name : Text)
  | global (mod name : Text)
  | tproc (mod typ name : Text)
  | len (name : Text) (dim : Nat)
  | dyntyp (name : Text)
  | desc (mod typ : Text)
  deriving DecidableEq, Repr

/-- The first branch of `Ident`, src/compiler/OPC.Mod 108-113. -/
def identInner (name : Text) : Text := name ++ if clash name then w! "_" else []

/-- `Ident`, src/compiler/OPC.Mod 104-135, `Len` 1217-1229 and the extensions `__len` and `__typ`, 27-29.
Predefined types and anonymous types are not modelled. -/
def ident : Obj → Text
  | .inner n => identInner n
  | .global m n => m ++ w! "_" ++ n
  | .tproc m t n => m ++ w! "_" ++ t ++ w! "_" ++ n
  | .len n d => identInner n ++ w! "__len" ++ if d ≠ 0 then writeInt d else []
  | .dyntyp n => identInner n ++ w! "__typ"
  | .desc m t => m ++ w! "_" ++ t ++ w! "__typ"

end Verif.Emit
