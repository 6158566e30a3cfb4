import Verif.Chars

/-!
# The scanner, src/compiler/OPS.Mod

The source text is a list of characters.  The pair (`ch`, rest of the source text) is represented
by *one* list: its head is `OPS.ch`, the empty list is the state at the end of the text, in which
`ch = OPM.Eot = 0X`.  `OPM.Get(ch)` (src/compiler/OPM.Mod 388-397) is then `List.tail`.

Not modelled: the values of real literals, error positions, the line bookkeeping of OPM.
-/
namespace Verif.Scanner

/-- The replacement made by `OPM.Get`, src/compiler/OPM.Mod 396: characters below 09X read as
blanks.  It is applied to the whole source text up front. -/
def source (raw : List Nat) : List Nat := raw.map (fun c => if c < 9 then 32 else c)

/-- `OPS.ch`: 0X at the end of the text, src/compiler/OPM.Mod 388 ("0X if eof"). -/
def ch (t : List Nat) : Nat := t.headD 0

/-- Results of `Get`: the symbol with its attributes, src/compiler/OPS.Mod 28-57.  `sym n` is the
symbol numbered `n` in OPS.Mod 28-40. -/
inductive Tok where
  | sym (n : Nat)
  | ident (name : List Nat)
  | string (s : List Nat)
  /-- `number` with numtyp = char -/
  | char (v : Int)
  /-- `number` with numtyp = integer -/
  | int (v : Int)
  /-- `number` with numtyp = real or longreal; the value is not modelled -/
  | real (long : Bool)
  /-- `number`, after error 203 for an integer: numtyp unchanged -/
  | bad
  | eof
  deriving DecidableEq, Repr

/-- A token, the text after it, and the errors reported on the way (in order). -/
abbrev Out := Tok × List Nat × List Nat

/-! ## Strings -/

/-- The loop of `OPS.Str`, src/compiler/OPS.Mod 69-74.  The text is the one after the opening
quote; `i` is the number of characters stored so far.  Result: characters, text from the character
that ended the loop on, errors. -/
def strLoop (och : Nat) : List Nat → Nat → List Nat × List Nat × List Nat
  | [], _ => ([], [], [3])
  | c :: t, i =>
    if c = och then ([], c :: t, [])
    else if c < 32 then ([], c :: t, [3])
    else if i = 255 then ([], c :: t, [241])
    else
      let r := strLoop och t (i + 1)
      (c :: r.1, r.2.1, r.2.2)

/-- `OPS.Str`, src/compiler/OPS.Mod 66-80; `t` starts with the quote.  One-character strings are
character constants. -/
def str (t : List Nat) : Out :=
  let r := strLoop (ch t) t.tail 0
  (if r.1.length + 1 = 2 then .char (r.1.headD 0) else .string r.1, r.2.1.tail, r.2.2)

/-! ## Identifiers -/

/-- `CAP` on a byte, src/runtime/SYSTEM.h 215. -/
def cap (c : Nat) : Nat := c &&& 0x5f

/-- The negation of the loop's exit test, src/compiler/OPS.Mod 87, without the length test. -/
def identChar (c : Nat) : Bool := ¬ (c < 48 ∨ (57 < c ∧ cap c < 65) ∨ 90 < cap c)

/-- The REPEAT loop of `OPS.Identifier` after the first character, src/compiler/OPS.Mod 85-87.
`n` is the room left in `name`. -/
def identLoop : Nat → List Nat → List Nat × List Nat
  | 0, t => ([], t)
  | _ + 1, [] => ([], [])
  | n + 1, c :: t =>
    if identChar c then
      let r := identLoop n t
      (c :: r.1, r.2)
    else ([], c :: t)

/-- `OPS.Identifier`, src/compiler/OPS.Mod 82-90: name, rest, errors.  `MaxIdLen = 256`; a name that
fills the array is cut to 255 characters with error 240. -/
def identifier (t : List Nat) : List Nat × List Nat × List Nat :=
  let r := identLoop 255 t.tail
  let name := ch t :: r.1
  if name.length = 256 then (name.dropLast, r.2, [240]) else (name, r.2, [])

/-- The keyword tests in `OPS.Get`, src/compiler/OPS.Mod 240-295: dispatch on the first character,
then comparison of the whole name.  `none` stands for the symbol `ident`. -/
def keyword (first : Nat) (name : List Nat) : Option Nat :=
  if first = 65 then (if name = w! "ARRAY" then some 54 else none)
  else if first = 66 then
    if name = w! "BEGIN" then some 57 else if name = w! "BY" then some 29 else none
  else if first = 67 then
    if name = w! "CASE" then some 46 else if name = w! "CONST" then some 58 else none
  else if first = 68 then
    if name = w! "DO" then some 27 else if name = w! "DIV" then some 3 else none
  else if first = 69 then
    if name = w! "END" then some 41 else if name = w! "ELSE" then some 42
    else if name = w! "ELSIF" then some 43 else if name = w! "EXIT" then some 52 else none
  else if first = 70 then (if name = w! "FOR" then some 49 else none)
  else if first = 73 then
    if name = w! "IF" then some 45 else if name = w! "IN" then some 15
    else if name = w! "IS" then some 16 else if name = w! "IMPORT" then some 62 else none
  else if first = 76 then (if name = w! "LOOP" then some 50 else none)
  else if first = 77 then
    if name = w! "MOD" then some 4 else if name = w! "MODULE" then some 63 else none
  else if first = 78 then (if name = w! "NIL" then some 36 else none)
  else if first = 79 then
    if name = w! "OR" then some 8 else if name = w! "OF" then some 25 else none
  else if first = 80 then
    if name = w! "PROCEDURE" then some 61 else if name = w! "POINTER" then some 56 else none
  else if first = 82 then
    if name = w! "RECORD" then some 55 else if name = w! "REPEAT" then some 48
    else if name = w! "RETURN" then some 53 else none
  else if first = 84 then
    if name = w! "THEN" then some 26 else if name = w! "TO" then some 28
    else if name = w! "TYPE" then some 59 else none
  else if first = 85 then (if name = w! "UNTIL" then some 44 else none)
  else if first = 86 then (if name = w! "VAR" then some 60 else none)
  else if first = 87 then
    if name = w! "WHILE" then some 47 else if name = w! "WITH" then some 51 else none
  else none

/-! ## Numbers -/

/-- INTEGER variables of the compiler are 16 bits wide (the compiler is built with `-O2`,
src/tools/make/oberon.mk 117-125); `INC` wraps. -/
def wrap16 (x : Int) : Int := (x + 2 ^ 15) % 2 ^ 16 - 2 ^ 15

/-- The state of the mantissa loop, src/compiler/OPS.Mod 94, 115: the counters `i m d` and the
array `dig`; `n` is the length of `dig`. -/
structure Mant where
  i : Int
  m : Int
  d : Int
  dig : List Nat
  errs : List Nat
  deriving DecidableEq, Repr

/-- `("0" <= ch) & (ch <= "9")`. -/
def isDigit (c : Nat) : Bool := 48 ≤ c ∧ c ≤ 57

/-- `("A" <= ch) & (ch <= "F")`. -/
def isHexLetter (c : Nat) : Bool := 65 ≤ c ∧ c ≤ 70

/-- One mantissa character, src/compiler/OPS.Mod 118-122 (`LEN(dig) = 24`). -/
def mantStep (s : Mant) (c : Nat) : Mant :=
  let s' : Mant :=
    if 0 < s.m ∨ c ≠ 48 then
      { s with dig := if s.dig.length < 24 then s.dig ++ [c] else s.dig, m := wrap16 (s.m + 1) }
    else s
  { s' with i := wrap16 (s.i + 1) }

/-- "read mantissa", src/compiler/OPS.Mod 116-130.  For `..` the current character becomes 7FX. -/
def mantLoop : List Nat → Mant → Mant × List Nat
  | [], s => (s, [])
  | c :: t, s =>
    if isDigit c ∨ (s.d = 0 ∧ isHexLetter c) then mantLoop t (mantStep s c)
    else if c = 46 then
      if ch t = 46 then (s, 127 :: t.tail)
      else if s.d = 0 then mantLoop t { s with d := s.i }
      else mantLoop t { s with errs := s.errs ++ [2] }
    else (s, c :: t)

/-- `Ord`, src/compiler/OPS.Mod 107-112; with its error 2 for a letter outside hexadecimal. -/
def ord (c : Nat) (hex : Bool) : Int × List Nat :=
  if c ≤ 57 then ((c : Int) - 48, []) else if hex then ((c : Int) - 65 + 10, []) else (0, [2])

/-- A 64-bit result, or `none` on overflow. -/
def ck64 (x : Int) : Option Int := if -(2 ^ 63) ≤ x ∧ x < 2 ^ 63 then some x else none

/-- `WHILE i < n DO intval := intval*10H + Ord(dig[i], TRUE); INC(i) END`,
src/compiler/OPS.Mod 135, 142.  `none`: some intermediate value overflows. -/
def hexLoop : List Nat → Int → Option Int
  | [], v => some v
  | c :: t, v => do
    let a ← ck64 (v * 16)
    let b ← ck64 (a + (ord c true).1)
    hexLoop t b

/-- The decimal loop, src/compiler/OPS.Mod 146-150; `DIV` of a non-negative number.
`none`: some intermediate value overflows. -/
def decLoop : List Nat → Int → List Nat → Option (Int × List Nat)
  | [], v, e => some (v, e)
  | c :: t, v, e =>
    let d := (ord c false).1
    let e1 := e ++ (ord c false).2
    if v ≤ (2 ^ 63 - 1 - d) / 10 then do
      let a ← ck64 (v * 10)
      let b ← ck64 (a + d)
      decLoop t b e1
    else decLoop t v (e1 ++ [203])

/-- Digits of an exponent, src/compiler/OPS.Mod 163-167.  `MAX(INTEGER) = 32767`. -/
def expLoop : List Nat → Int → List Nat → Int × List Nat × List Nat
  | [], e, errs => (e, [], errs)
  | c :: t, e, errs =>
    if isDigit c then
      let n := (c : Int) - 48
      if e ≤ (32767 - n) / 10 then expLoop t (e * 10 + n) errs else expLoop t e (errs ++ [203])
    else (e, c :: t, errs)

/-- The integer part of `OPS.Number`, src/compiler/OPS.Mod 131-154.  `none`: overflow. -/
def integerPart (s : Mant) (t : List Nat) : Option Out :=
  if (s.dig.length : Int) = s.m then
    if ch t = 88 then
      if s.dig.length ≤ 2 then do
        let v ← hexLoop s.dig 0
        return (.char v, t.tail, s.errs)
      else some (.char 0, t.tail, s.errs ++ [203])
    else if ch t = 72 then
      if s.dig.length ≤ 16 then do
        let v ← hexLoop s.dig (if s.dig.length = 16 ∧ s.dig.headD 0 > 55 then -1 else 0)
        return (.int v, t.tail, s.errs)
      else some (.int 0, t.tail, s.errs ++ [203])
    else do
      let (v, e) ← decLoop s.dig 0 s.errs
      return (.int v, t, e)
  else some (.bad, t, s.errs ++ [203])

/-- The fraction part of `OPS.Number`, src/compiler/OPS.Mod 155-187, without the value and without
the range test of the exponent (177, 184), which only adds error 203. -/
def fractionPart (s : Mant) (t : List Nat) : Out :=
  if ch t = 69 ∨ ch t = 68 then
    let long := ch t = 68
    let t1 := t.tail
    let t2 := if ch t1 = 45 ∨ ch t1 = 43 then t1.tail else t1
    if isDigit (ch t2) then
      let r := expLoop t2 0 s.errs
      (.real long, r.2.1, r.2.2)
    else (.real long, t2, s.errs ++ [2])
  else (.real false, t, s.errs)

/-- `OPS.Number`, src/compiler/OPS.Mod 92-188. -/
def number (t : List Nat) : Option Out :=
  let r := mantLoop t ⟨0, 0, 0, [], []⟩
  if r.1.d = 0 then integerPart r.1 r.2 else some (fractionPart r.1 r.2)

/-! ## Comments -/

mutual
/-- `Comment`, src/compiler/OPS.Mod 193-207; on entry `ch` is the `*` of the opening bracket.
All four functions return the text after the comment and the errors; `none` only if the fuel,
which bounds the depth of the recursion, is exhausted. -/
def comment : Nat → List Nat → Option (List Nat × List Nat)
  | 0, _ => none
  | f + 1, t => commentInner f t.tail

/-- The WHILE loop, src/compiler/OPS.Mod 197-199. -/
def commentWhile : Nat → List Nat → Option (List Nat × List Nat)
  | 0, _ => none
  | f + 1, t =>
    if ch t = 40 then
      if ch t.tail = 42 then do
        let (t1, e1) ← comment f t.tail
        let (t2, e2) ← commentWhile f t1
        return (t2, e1 ++ e2)
      else commentWhile f t.tail
    else some (t, [])

/-- The inner LOOP, src/compiler/OPS.Mod 196-203, followed by the outer tests. -/
def commentInner : Nat → List Nat → Option (List Nat × List Nat)
  | 0, _ => none
  | f + 1, t => do
    let (t1, e1) ← commentWhile f t
    let (t2, e2) ←
      if ch t1 = 42 then commentOuter f t1.tail
      else if ch t1 = 0 then commentOuter f t1
      else commentInner f t1.tail
    return (t2, e1 ++ e2)

/-- The two tests that end the outer LOOP, src/compiler/OPS.Mod 204-205. -/
def commentOuter : Nat → List Nat → Option (List Nat × List Nat)
  | 0, _ => none
  | f + 1, t =>
    if ch t = 41 then some (t.tail, [])
    else if ch t = 0 then some (t, [5])
    else commentInner f t
end

/-- Fuel sufficient for a comment in a text of the given length (see `comment_fuel`). -/
def commentFuel (t : List Nat) : Nat := 3 * t.length + 6

/-! ## Get -/

/-- The CASE statement of `OPS.Get` for the characters that are not blanks, quotes, digits, letters
or brackets of a comment, src/compiler/OPS.Mod 219-239, 296-304. -/
def operator (t : List Nat) : Out :=
  let c := ch t
  let n := ch t.tail
  let one (k : Nat) : Out := (.sym k, t.tail, [])
  let two (k : Nat) : Out := (.sym k, t.tail.tail, [])
  if c = 35 then one 10        -- #
  else if c = 38 then one 5    -- &
  else if c = 40 then one 30   -- (
  else if c = 41 then one 22   -- )
  else if c = 42 then one 1    -- *
  else if c = 43 then one 6    -- +
  else if c = 44 then one 19   -- ,
  else if c = 45 then one 7    -- -
  else if c = 46 then (if n = 46 then two 21 else one 18)   -- ..  .
  else if c = 47 then one 2    -- /
  else if c = 58 then (if n = 61 then two 34 else one 20)   -- :=  :
  else if c = 59 then one 39   -- ;
  else if c = 60 then (if n = 61 then two 12 else one 11)   -- <=  <
  else if c = 61 then one 9    -- =
  else if c = 62 then (if n = 61 then two 14 else one 13)   -- >=  >
  else if c = 91 then one 31   -- [
  else if c = 93 then one 23   -- ]
  else if c = 94 then one 17   -- ^
  else if c = 123 then one 32  -- {
  else if c = 124 then one 40  -- |
  else if c = 125 then one 24  -- }
  else if c = 126 then one 33  -- ~
  else if c = 127 then one 21  -- 7FX, left behind by a number followed by ..
  else one 0

/-- Letters that start an identifier: the labels `"A"` ... `"Z"`, `"a".."z"`,
src/compiler/OPS.Mod 240-295, 299. -/
def isLetter (c : Nat) : Bool := (65 ≤ c ∧ c ≤ 90) ∨ (97 ≤ c ∧ c ≤ 122)

/-- `WHILE ch <= " " DO ...`, src/compiler/OPS.Mod 211-215: `none` at the end of the text. -/
def skipBlanks : List Nat → List Nat
  | [] => []
  | c :: t => if c ≤ 32 then (if c = 0 then [] else skipBlanks t) else c :: t

/-- `OPS.Get`, src/compiler/OPS.Mod 190-307.  `none` if the fuel, which bounds the number of
comments skipped, is exhausted, or on an overflow in `Number`. -/
def get : Nat → List Nat → Option Out
  | 0, _ => none
  | f + 1, t0 =>
    let t := skipBlanks t0
    match t with
    | [] => some (.eof, [], [])
    | c :: t' =>
      if c = 34 ∨ c = 39 then some (str t)
      else if c = 40 ∧ ch t' = 42 then do
        let (t1, e1) ← comment (commentFuel t') t'
        let (k, t2, e2) ← get f t1
        return (k, t2, e1 ++ e2)
      else if isDigit c then number t
      else if isLetter c then
        let r := identifier t
        match keyword c r.1 with
        | some k => some (.sym k, r.2.1, r.2.2)
        | none => some (.ident r.1, r.2.1, r.2.2)
      else some (operator t)

/-- One call of `OPS.Get`. -/
def scan (t : List Nat) : Option Out := get (t.length + 1) t

/-- Repeated calls of `OPS.Get` up to the end of the text, as the parser makes them (`OPS.Init`,
src/compiler/OPS.Mod 309-311, starts with `ch = " "`): all tokens and all errors. -/
def scanAll : Nat → List Nat → Option (List Tok × List Nat)
  | 0, _ => none
  | f + 1, t => do
    let (k, t1, e1) ← scan t
    if k = .eof then return ([], e1)
    else
      let (ks, e2) ← scanAll f t1
      return (k :: ks, e1 ++ e2)

end Verif.Scanner
