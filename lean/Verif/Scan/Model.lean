import Verif.Sums.Model

/-!
# Model of `Texts.Scan` (/repo/src/runtime/Texts.Mod 394-493)

The reader delivers the characters of the text one after the other and then 0X (C28); they are a list here.  LONGINT has 32 bits.  The line number
is not bounded.  Of real numbers the characters they take and the class are modelled, not the value; the exponent is an INTEGER of 16 bits that
wraps around (its arithmetic is done in `int` and assigned).  Arithmetic that
overflows is an outcome of its own, and an index out of range is a trap.
-/
namespace Verif.Scan
open Verif.Sums (Out chk)

/-- `Read(S, ch)` (Texts.Mod 336-354). -/
def rd : List Nat → Nat × List Nat
  | [] => (0, [])
  | c :: s => (c, s)

/-- `CAP(ch)`: `__CAP`, src/runtime/SYSTEM.h 215. -/
def cap (ch : Nat) : Nat := ch &&& 0x5f

/-- `S.class` with the value for it (Texts.Mod 95-101, 17). -/
inductive Sym where
  | inval
  | name (s : List Nat)
  | str (s : List Nat)
  | int (i : Int)
  | real
  | longreal
  | char (c : Nat)
deriving DecidableEq, Repr

/-- The scanner: `nextCh`, what the reader has not read, and `line`. -/
structure Sc where
  nextCh : Nat
  rest : List Nat
  line : Int
deriving DecidableEq, Repr

/-- The first LOOP (Texts.Mod 415-420). -/
def skip : List Nat → Nat → Int → Nat × List Nat × Int
  | [], ch, line => if ch = 13 then (0, [], line + 1) else if ch ≠ 32 ∧ ch ≠ 9 then (ch, [], line) else (0, [], line)
  | c :: r, ch, line => if ch = 13 then skip r c (line + 1) else if ch ≠ 32 ∧ ch ≠ 9 then (ch, c :: r, line) else skip r c line

/-- The condition of UNTIL for names, without the length (Texts.Mod 423-425). -/
def stop (ch : Nat) : Bool :=
  decide (90 < cap ch ∧ ch ≠ 95 ∨ cap ch < 65 ∧ 57 < ch ∨ ch < 48 ∧ ch ≠ 46 ∧ ch ≠ 47)

/-- REPEAT … UNTIL for names (Texts.Mod 422-426).  The first argument is `63 - i`. -/
def nameLoop : Nat → Nat → List Nat → List Nat × Nat × List Nat
  | 0, ch, rest => ([], ch, rest)
  | n + 1, ch, rest =>
    let x := rd rest
    if stop x.1 = true ∨ n = 0 then ([ch], x.1, x.2)
    else let t := nameLoop n x.1 x.2; (ch :: t.1, t.2)

/-- WHILE for strings (Texts.Mod 430-432).  The first argument is `63 - i`. -/
def strLoop : Nat → Nat → List Nat → List Nat × Nat × List Nat
  | 0, ch, rest => ([], ch, rest)
  | n + 1, ch, rest =>
    if ch ≠ 34 ∧ 32 ≤ ch then let t := strLoop n (rd rest).1 (rd rest).2; (ch :: t.1, t.2)
    else ([], ch, rest)

/-- LOOP for digits (Texts.Mod 438-446).  The first argument is `32 - i`: `d[32]` is out of range. -/
def numLoop : Nat → Nat → List Nat → Bool → Out (List Nat × Bool × Nat × List Nat)
  | 0, _, _, _ => .trap
  | n + 1, ch, rest, hex =>
    let x := rd rest
    if x.1 < 48 then .ok ([ch], hex, x.1, x.2)
    else if 57 < x.1 then
      if 65 ≤ x.1 ∧ x.1 ≤ 70 then (numLoop n (x.1 - 7) x.2 true).bind fun t => .ok (ch :: t.1, t.2)
      else if 97 ≤ x.1 ∧ x.1 ≤ 102 then (numLoop n (x.1 - 0x27) x.2 true).bind fun t => .ok (ch :: t.1, t.2)
      else .ok ([ch], hex, x.1, x.2)
    else (numLoop n x.1 x.2 hex).bind fun t => .ok (ch :: t.1, t.2)

/-- `k := k*16 + (ORD(d[j]) - 30H)` (Texts.Mod 452). -/
def hexFold (k : Int) : List Nat → Out Int
  | [] => .ok k
  | d :: ds => (chk (k * 16)).bind fun k => (chk (k + ((d : Int) - 48))).bind fun k => hexFold k ds

/-- A hexadecimal number (Texts.Mod 449-453). -/
def hexVal (ds : List Nat) : Out Int :=
  match (if ds.length > 8 then ds.drop (ds.length - 8) else ds) with
  | [] => .trap
  | d :: t =>
    let k : Int := (d : Int) - 48
    let k := if t.length = 7 ∧ 8 ≤ k then k - 16 else k
    hexFold k t

/-- `k := k*10 + (ORD(d[j]) - 30H)` (Texts.Mod 484). -/
def decFold (k : Int) : List Nat → Out Int
  | [] => .ok k
  | d :: ds => (chk (k * 10)).bind fun k => (chk (k + ((d : Int) - 48))).bind fun k => decFold k ds

/-- The digits after the point (Texts.Mod 456).  The first argument is `32 - i`. -/
def fracLoop : Nat → Nat → List Nat → Out (Nat × List Nat)
  | 0, ch, rest => if 48 ≤ ch ∧ ch ≤ 57 then .trap else .ok (ch, rest)
  | n + 1, ch, rest => if 48 ≤ ch ∧ ch ≤ 57 then fracLoop n (rd rest).1 (rd rest).2 else .ok (ch, rest)

/-- An assignment to an INTEGER of 16 bits. -/
def int16 (x : Int) : Int := (x + 32768) % 65536 - 32768

/-- The digits of an exponent (Texts.Mod 409-411). -/
def expLoop : List Nat → Nat → Int → Int × Nat × List Nat
  | [], ch, e => if 48 ≤ ch ∧ ch ≤ 57 then (int16 (e * 10 + ch - 48), 0, []) else (e, ch, [])
  | c :: r, ch, e => if 48 ≤ ch ∧ ch ≤ 57 then expLoop r c (int16 (e * 10 + ch - 48)) else (e, ch, c :: r)

/-- `ReadScaleFactor` (Texts.Mod 403-412): `negE`, `e`, `ch` and what is left. -/
def scale (rest : List Nat) : Bool × Int × Nat × List Nat :=
  let x := rd rest
  if x.1 = 45 then let y := rd x.2; (true, expLoop y.2 y.1 0)
  else if x.1 = 43 then let y := rd x.2; (false, expLoop y.2 y.1 0)
  else (false, expLoop x.2 x.1 0)

/-- A real number after the point (Texts.Mod 455-481).  `n` digits are in `d`. -/
def real (n : Nat) (hex : Bool) (rest : List Nat) : Out (Sym × Nat × List Nat) :=
  (fracLoop (32 - n) (rd rest).1 (rd rest).2).bind fun t =>
  if t.1 = 68 then
    let e := scale t.2
    if !e.1 ∧ 308 < e.2.1 then .trap else .ok (if hex then .inval else .longreal, e.2.2)
  else if t.1 = 69 then
    let e := scale t.2
    if !e.1 ∧ 38 < e.2.1 then .trap else .ok (if hex then .inval else .real, e.2.2)
  else .ok (if hex then .inval else .real, t)

/-- A number (Texts.Mod 437-487). -/
def number (neg : Bool) (ch : Nat) (rest : List Nat) : Out (Sym × Nat × List Nat) :=
  (numLoop 32 ch rest false).bind fun t =>
  let ds := t.1
  let hex := t.2.1
  let ch := t.2.2.1
  let rest := t.2.2.2
  if ch = 72 then
    (hexVal ds).bind fun k => (if neg then chk (-k) else .ok k).bind fun k => .ok (.int k, rd rest)
  else if ch = 46 then real ds.length hex rest
  else
    (decFold 0 ds).bind fun k => (if neg then chk (-k) else .ok k).bind fun k => .ok (if hex then .inval else .int k, ch, rest)

/-- `Scan` from the first character that is no blank (Texts.Mod 420-493). -/
def scanAt (ch : Nat) (rest : List Nat) (line : Int) : Out (Sym × Sc) :=
  if 65 ≤ cap ch ∧ cap ch ≤ 90 ∨ ch = 47 ∨ ch = 46 then
    let t := nameLoop 63 ch rest
    .ok (.name t.1, ⟨t.2.1, t.2.2, line⟩)
  else if ch = 34 then
    let t := strLoop 63 (rd rest).1 (rd rest).2
    let y := rd t.2.2
    .ok (.str t.1, ⟨y.1, y.2, line⟩)
  else if ch = 45 then
    let y := rd rest
    if 48 ≤ y.1 ∧ y.1 ≤ 57 then (number true y.1 y.2).bind fun t => .ok (t.1, ⟨t.2.1, t.2.2, line⟩)
    else .ok (.char 45, ⟨y.1, y.2, line⟩)
  else if 48 ≤ ch ∧ ch ≤ 57 then (number false ch rest).bind fun t => .ok (t.1, ⟨t.2.1, t.2.2, line⟩)
  else .ok (.char ch, ⟨(rd rest).1, (rd rest).2, line⟩)

/-- `Scan` (Texts.Mod 394-493). -/
def scan (S : Sc) : Out (Sym × Sc) :=
  let x := skip S.rest S.nextCh S.line
  scanAt x.1 x.2.1 x.2.2

/-- `OpenScanner(S, T, 0)` (Texts.Mod 386-388). -/
def openScanner (text : List Nat) : Sc := ⟨32, text, 0⟩

/-- `n` calls of `Scan`. -/
def scans : Nat → Sc → Out (List Sym × Sc)
  | 0, S => .ok ([], S)
  | n + 1, S => (scan S).bind fun t => (scans n t.2).bind fun u => .ok (t.1 :: u.1, u.2)

end Verif.Scan
