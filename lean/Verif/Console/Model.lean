import Verif.Arith.Model
import Verif.Chars

/-!
# Console output and input: src/runtime/Out.Mod, src/runtime/In.Mod, and the integers of src/runtime/Texts.Mod

Characters are bytes.  The devices are a list of events, and the bytes of the input that are not requested yet.  `none` is a
failing index check, or an operation that is undefined in C.  `lim`: how many bytes the operating system takes in one
call, `none` if all.  Real numbers are not modelled.
-/
namespace Verif.Console

open Verif.Arith (lsh rot ck wrap64)

/-- What happens at the devices: a byte is delivered; a byte is requested (`none`: the end of the input). -/
inductive Ev where
  | out (b : Nat)
  | inp (b : Option Nat)
  deriving DecidableEq

/-- `readstate`, In.Mod 8-13. -/
inductive RS where
  | pending | ready | eof
  deriving DecidableEq

/-- The variables of Out (5-9) and In (5-8), and the devices.  `n` is `in`. -/
structure State where
  buf : Nat → Nat
  n : Nat
  ev : List Ev
  input : List Nat
  nextch : Nat
  rs : RS

/-! ## Out -/

/-- `Platform.Write` to standard output, Platformunix.Mod 350-355, the result being ignored by Out. -/
def deliver (lim : Option Nat) (s : State) (b : List Nat) : State :=
  { s with ev := s.ev ++ (match lim with | none => b | some k => b.take k).map .out }

/-- `Flush`, Out.Mod 13-18. -/
def flush (lim : Option Nat) (s : State) : State :=
  let s := if 0 < s.n then deliver lim s ((List.range s.n).map s.buf) else s
  { s with n := 0 }

/-- `Char`, Out.Mod 24-29. -/
def char (lim : Option Nat) (c : Nat) (s : State) : Option State :=
  let s := if 128 ≤ s.n then flush lim s else s
  if s.n < 128 then
    let s := { s with buf := fun i => if i = s.n then c else s.buf i, n := s.n + 1 }
    some (if c = 10 then flush lim s else s)
  else none

/-- `Length`, Out.Mod 31-34. -/
def length : List Nat → Nat
  | [] => 0
  | c :: t => if c = 0 then 0 else length t + 1

/-- `String`, Out.Mod 36-47.  `str`: all elements of the array.  Moving bytes behind the end of `buf` is `none`. -/
def string (lim : Option Nat) (str : List Nat) (s : State) : Option State :=
  let l := length str
  let s := if 128 < s.n + l then flush lim s else s
  if 128 < l then some (deliver lim s (str.take l))
  else if s.n + l ≤ 128 then
    some { s with buf := fun i => if s.n ≤ i ∧ i < s.n + l then (str[i - s.n]?).getD 0 else s.buf i, n := s.n + l }
  else none

/-- Calls of `Char`. -/
def chars (lim : Option Nat) : List Nat → State → Option State
  | [], s => some s
  | c :: t, s => (char lim c s).bind (chars lim t)

/-- The digits of `x`, the last first, in an array with `k` free elements: Out.Mod 59-64. -/
def digits : Nat → Nat → Option (List Nat)
  | 0, _ => none
  | k + 1, x => if x / 10 = 0 then some [48 + x % 10] else (digits k (x / 10)).map fun s => (48 + x % 10) :: s

/-- The array `s` in `Int`, Out.Mod 54-66. -/
def intChars (x : Int) : Option (List Nat) :=
  (if x = -2 ^ 63 then some (w! "8085774586302733229") else digits 22 x.natAbs).bind fun s =>
  if x < 0 then (if s.length < 22 then some (s ++ [45]) else none) else some s

/-- `Int`, Out.Mod 50-69. -/
def int (lim : Option Nat) (x n : Int) (s : State) : Option State :=
  (intChars x).bind fun t =>
  (chars lim (List.replicate (n - t.length).toNat 32) s).bind fun s =>
  chars lim t.reverse s

/-- The loop of `Hex` that finds the number of digits, Out.Mod 76; `k = 16 - n`. -/
def hexLen (x : Int) : Nat → Option Nat
  | 0 => some 16
  | k + 1 => (lsh 64 x (-4 * ((16 : Int) - (k + 1 : Nat)))).bind fun y => if y ≠ 0 then hexLen x k else some (16 - (k + 1))

/-- One hexadecimal digit, Out.Mod 81-82. -/
def hexChar (d : Nat) : Nat := if d < 10 then d + 48 else d - 10 + 65

/-- The loop that writes the digits, Out.Mod 79-83. -/
def hexDigits (x : Int) : Nat → Option (List Nat)
  | 0 => some []
  | n + 1 => (rot 64 x 4).bind fun x => (hexDigits x n).map fun t => hexChar (x % 16).toNat :: t

/-- The characters of `Hex`, Out.Mod 74-83. -/
def hexText (x n : Int) : Option (List Nat) :=
  let n := if n < 1 then 1 else if 16 < n then 16 else n.toNat
  (if 0 ≤ x then hexLen x (16 - n) else some n).bind fun n =>
  (rot 64 x (4 * ((16 : Int) - n))).bind fun x => hexDigits x n

/-- `Hex`, Out.Mod 72-84. -/
def hex (lim : Option Nat) (x n : Int) (s : State) : Option State := (hexText x n).bind fun t => chars lim t s

/-- `Ln`, Out.Mod 86-88; `Platform.NL` is LF. -/
def ln (lim : Option Nat) (s : State) : Option State := (string lim [10, 0] s).map (flush lim)

/-! ## In -/

/-- `ReadChar`, In.Mod 23-28. -/
def readChar (s : State) : State :=
  match s.input with
  | [] => { s with ev := s.ev ++ [.inp none], rs := .eof }
  | c :: t => { s with ev := s.ev ++ [.inp (some c)], input := t, nextch := c, rs := .ready }

/-- `StartRead`, In.Mod 30-32. -/
def startRead (lim : Option Nat) (s : State) : State :=
  let s := flush lim s
  if s.rs = .pending then readChar s else s

/-- The loop of `StartAndSkip`, In.Mod 36; `f`: a bound for the steps. -/
def skip : Nat → State → Option State
  | 0, _ => none
  | f + 1, s => if s.rs = .ready ∧ s.nextch ≤ 32 then skip f (readChar s) else some s

/-- `StartAndSkip`, In.Mod 34-37. -/
def startAndSkip (lim : Option Nat) (s : State) : Option State := skip (s.input.length + 2) (startRead lim s)

/-- `Char`, In.Mod 39-49: `Done` and the character. -/
def inChar (lim : Option Nat) (s : State) : State × Bool × Nat :=
  let s := startRead lim s
  if s.rs = .ready then
    (if s.nextch = 10 then { s with rs := .pending } else readChar s, true, s.nextch)
  else (s, false, 0)

/-- The digit read, In.Mod 65-71; `true`: a letter. -/
def digit (c : Nat) : Option (Nat × Bool) :=
  if 48 ≤ c ∧ c ≤ 57 then some (c % 16, false)
  else if 97 ≤ c ∧ c ≤ 102 ∨ 65 ≤ c ∧ c ≤ 70 then some (c % 16 + 9, true)
  else none

/-- The loop of `HugeInt`, In.Mod 64-82; `A`: what a C operation with the exact result gives.  The result: `Done`, `hex`,
`decacc`, `hexacc`. -/
def hugeLoop (A : Int → Option Int) : Nat → State → Bool → Bool → Int → Int → Option (State × Bool × Bool × Int × Int)
  | 0, _, _, _, _, _ => none
  | f + 1, s, d, h, x, y =>
    if s.rs = .ready then
      match digit s.nextch with
      | some (k, l) =>
        (A (x * 10)).bind fun x => (A (x + k)).bind fun x => (A (y * 16)).bind fun y => (A (y + k)).bind fun y =>
        hugeLoop A f (readChar s) true (h || l) x y
      | none => if s.nextch = 72 then some (readChar s, d, true, x, y) else some (s, d, h, x, y)
    else some (s, d, h, x, y)

/-- `HugeInt`, In.Mod 51-90: `Done` and the number; `none`: the variable is not assigned. -/
def huge (lim : Option Nat) (A : Int → Option Int) (s : State) : Option (State × Bool × Option Int) :=
  (startAndSkip lim s).bind fun s =>
  if s.rs = .ready then
    let neg := s.nextch = 45
    let s := if neg then readChar s else s
    (hugeLoop A (s.input.length + 2) s false false 0 0).bind fun (s, d, h, x, y) =>
    if d then
      let v := if h then y else x
      (if neg then A (-v) else some v).map fun v => (s, true, some v)
    else some (s, false, some 0)
  else some (s, false, none)

/-- `Int` and `LongInt`, In.Mod 92-100: SYSTEM.VAL takes the first `b` bytes of the number, on a little-endian machine. -/
def narrow (b : Nat) (h : Int) : Int := (h + 2 ^ (8 * b - 1)) % 2 ^ (8 * b) - 2 ^ (8 * b - 1)

/-- The loop of `Line`, In.Mod 105-107: the characters stored in the elements from `i` on of an array of length `len`. -/
def lineLoop (len : Nat) : Nat → State → Nat → Option (State × List Nat)
  | 0, _, _ => none
  | f + 1, s, i =>
    if s.rs = .ready ∧ s.nextch ≠ 13 ∧ s.nextch ≠ 10 ∧ i + 1 < len then
      (lineLoop len f (readChar s) (i + 1)).map fun (t, r) => (t, s.nextch :: r)
    else some (s, [])

/-- `Line`, In.Mod 102-111: `Done` and the string. -/
def line (lim : Option Nat) (len : Nat) (s : State) : Option (State × Bool × List Nat) :=
  let s := startRead lim s
  let done := s.rs = .ready
  (lineLoop len (s.input.length + 2) s 0).bind fun (s, r) =>
  if r.length < len then
    let s := if s.rs = .ready ∧ s.nextch = 13 then readChar s else s
    let s := if s.rs = .ready ∧ s.nextch = 10 then { s with rs := .pending } else s
    some (s, done, r)
  else none

/-- The loop of `String`, In.Mod 118-123. -/
def strLoop (len : Nat) : Nat → State → Nat → Option (State × List Nat)
  | 0, _, _ => none
  | f + 1, s, i =>
    if s.rs = .ready ∧ i + 1 < len ∧ 32 ≤ s.nextch ∧ s.nextch ≠ 34 then
      (strLoop len f (readChar s) (i + 1)).map fun (t, r) => (t, s.nextch :: r)
    else some (s, [])

/-- `String`, In.Mod 113-133: `Done` and the string. -/
def inString (lim : Option Nat) (len : Nat) (s : State) : Option (State × Bool × List Nat) :=
  (startAndSkip lim s).bind fun s =>
  (if s.rs = .ready ∧ s.nextch = 34 then
    let s := readChar s
    strLoop len (s.input.length + 2) s 0
  else some (s, [])).bind fun (s, r) =>
  if s.rs = .ready ∧ r.length + 1 < len ∧ s.nextch = 34 then some (readChar s, true, r) else some (s, false, [])

/-! ## Histories -/

inductive Op where
  | char (c : Nat)
  | string (str : List Nat)
  | int (x n : Int)
  | hex (x n : Int)
  | ln
  | flush
  | inChar
  | line (len : Nat)
  | inString (len : Nat)
  | huge

inductive Out where
  | none
  | ch (done : Bool) (c : Nat)
  | str (done : Bool) (s : List Nat)
  | num (done : Bool) (h : Option Int)
  deriving DecidableEq

def step (lim : Option Nat) (A : Int → Option Int) (s : State) : Op → Option (State × Out)
  | .char c => (char lim c s).map fun s => (s, .none)
  | .string str => (string lim str s).map fun s => (s, .none)
  | .int x n => (int lim x n s).map fun s => (s, .none)
  | .hex x n => (hex lim x n s).map fun s => (s, .none)
  | .ln => (ln lim s).map fun s => (s, .none)
  | .flush => some (flush lim s, .none)
  | .inChar => let (s, d, c) := inChar lim s; some (s, .ch d c)
  | .line len => (line lim len s).map fun (s, d, r) => (s, .str d r)
  | .inString len => (inString lim len s).map fun (s, d, r) => (s, .str d r)
  | .huge => (huge lim A s).map fun (s, d, h) => (s, .num d h)

/-- A history; `none` if an operation is undefined. -/
def run (lim : Option Nat) (A : Int → Option Int) : State → List Op → Option (State × List Out)
  | s, [] => some (s, [])
  | s, op :: ops => (step lim A s op).bind fun (s, o) => (run lim A s ops).map fun (s, os) => (s, o :: os)

/-- The bodies of the modules, Out.Mod 224-227 and In.Mod 157-161. -/
def init (input : List Nat) : State := ⟨fun _ => 0, 0, [], input, 0, .pending⟩

/-! ## Integers in texts -/

/-- The digits in `Texts.WriteInt`, Texts.Mod 558-560, in an array with `k` free elements. -/
def textDigits : Nat → Nat → Option (List Nat)
  | 0, _ => none
  | k + 1, x => if x / 10 = 0 then some [x % 10 + 48] else (textDigits k (x / 10)).map fun s => (x % 10 + 48) :: s

/-- The characters written by `Texts.WriteInt`, Texts.Mod 547-564. -/
def writeInt (x n : Int) : Option (List Nat) :=
  if x = -2 ^ 63 then some (w! " -9223372036854775808")
  else
    let n := if x < 0 then n - 1 else n
    (textDigits 24 x.natAbs).map fun a =>
    List.replicate (n - a.length).toNat 32 ++ (if x < 0 then [45] else []) ++ a.reverse

/-- The digits in `Texts.WriteHex`, Texts.Mod 570-573; DIV and MOD as in Oberon. -/
def writeHexDigits : Nat → Int → List Nat
  | 0, _ => []
  | k + 1, x => (let y := (x.fmod 16).toNat; if y < 10 then y + 48 else y + 55) :: writeHexDigits k (x.fdiv 16)

/-- The characters written by `Texts.WriteHex`, Texts.Mod 566-575. -/
def writeHex (x : Int) : List Nat := 32 :: (writeHexDigits 8 x).reverse

end Verif.Console
