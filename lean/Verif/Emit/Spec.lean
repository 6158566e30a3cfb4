import Verif.Chars
import Verif.Arith.Model

/-!
# How C reads constants

A reader for the part of C's constant expressions and literals that matters here, written from the C
standard (6.4.4, 6.4.5, 5.2.1.1, 6.5.3, 6.5.6), independently of the code that emits them.  Where the
text is not of the supported form, or an operation overflows, the reader gives `none`.
-/
namespace Verif.Emit.CSpec
open Verif.Arith

/-- A C integer value with the width of its type. -/
structure CVal where
  width : Nat
  val : Int
  deriving DecidableEq, Repr

def isDigit (c : Nat) : Bool := 48 ≤ c ∧ c ≤ 57

/-- The value of a sequence of decimal digits. -/
def decVal (ds : List Nat) : Nat := ds.foldl (fun a d => 10 * a + (d - 48)) 0

/-- A decimal integer constant (C99 6.4.4.1): no suffix, or the suffix LL; the type is the first that can hold
it among `int` (32 bits) and `long` or `long long` (64 bits).  A leading 0 would make it octal. -/
def cNumber (s : List Nat) : Option (CVal × List Nat) :=
  let ds := s.takeWhile isDigit
  let r := s.dropWhile isDigit
  let v := decVal ds
  if ds = [] ∨ (ds.head? = some 48 ∧ ds ≠ [48]) then none
  else match r with
    | 76 :: 76 :: r => if v < 2 ^ 63 then some (⟨64, v⟩, r) else none
    | r => if v < 2 ^ 31 then some (⟨32, v⟩, r) else if v < 2 ^ 63 then some (⟨64, v⟩, r) else none

mutual
/-- Unary expressions: minus, cast to `INTn`, parentheses, constants.  `--` is one token. -/
def cUnary : Nat → List Nat → Option (CVal × List Nat)
  | 0, _ => none
  | f + 1, s =>
    match s with
    | 45 :: 45 :: _ => none
    | 45 :: r => do
      let (v, r) ← cUnary f r
      if InRange v.width (-v.val) then some (⟨v.width, -v.val⟩, r) else none
    | 40 :: 73 :: 78 :: 84 :: r =>
      match r.dropWhile isDigit with
      | 41 :: r' => do
        let (v, r'') ← cUnary f r'
        if InRange (decVal (r.takeWhile isDigit)) v.val then
          some (⟨decVal (r.takeWhile isDigit), v.val⟩, r'') else none
      | _ => none
    | 40 :: r => do
      let (v, r) ← cExpr f r
      match r with
      | 41 :: r => some (v, r)
      | _ => none
    | s => cNumber s
/-- Differences of unary expressions, associating to the left. -/
def cExpr : Nat → List Nat → Option (CVal × List Nat)
  | 0, _ => none
  | f + 1, s => do
    let (v, r) ← cUnary f s
    cTail f v r
def cTail : Nat → CVal → List Nat → Option (CVal × List Nat)
  | 0, _, _ => none
  | f + 1, v, s =>
    match s with
    | 45 :: r => do
      let (u, r) ← cUnary f r
      if InRange (max v.width u.width) (v.val - u.val) then
        cTail f ⟨max v.width u.width, v.val - u.val⟩ r else none
    | s => some (v, s)
end

/-- The text is a C expression of this width and value.  (The number 16 bounds the nesting the reader
follows, not the length of the text.) -/
def CDenotes (s : List Nat) (w : Nat) (v : Int) : Prop := cExpr 16 s = some (⟨w, v⟩, [])

/-! ### Literals -/

/-- The nine trigraphs, C99 5.2.1.1. -/
def tri (c : Nat) : Option Nat :=
  if c = 61 then some 35 else if c = 40 then some 91 else if c = 47 then some 92
  else if c = 41 then some 93 else if c = 39 then some 94 else if c = 60 then some 123
  else if c = 33 then some 124 else if c = 62 then some 125 else if c = 45 then some 126 else none

/-- Translation phase 1: replacement of trigraphs. -/
def trigraphs : List Nat → List Nat
  | 63 :: 63 :: c :: r =>
    match tri c with
    | some d => d :: trigraphs r
    | none => 63 :: trigraphs (63 :: c :: r)
  | c :: r => c :: trigraphs r
  | [] => []

def isOct (c : Nat) : Bool := 48 ≤ c ∧ c ≤ 55

/-- Simple escape sequences, C99 6.4.4.4. -/
def simpleEsc (c : Nat) : Option Nat :=
  if c = 39 ∨ c = 34 ∨ c = 63 ∨ c = 92 then some c
  else if c = 97 then some 7 else if c = 98 then some 8 else if c = 102 then some 12
  else if c = 110 then some 10 else if c = 114 then some 13 else if c = 116 then some 9
  else if c = 118 then some 11 else none

/-- One character of a literal delimited by `q`: its value and what follows.  An octal escape takes as many
octal digits as follow, up to three. -/
def cChar (q : Nat) : List Nat → Option (Nat × List Nat)
  | 92 :: a :: b :: c :: r =>
    if isOct a then
      if isOct b then
        if isOct c then
          let v := (a - 48) * 64 + (b - 48) * 8 + (c - 48)
          if v < 256 then some (v, r) else none
        else some ((a - 48) * 8 + (b - 48), c :: r)
      else some (a - 48, b :: c :: r)
    else (simpleEsc a).map fun v => (v, b :: c :: r)
  | 92 :: a :: b :: r =>
    if isOct a then
      if isOct b then some ((a - 48) * 8 + (b - 48), r) else some (a - 48, b :: r)
    else (simpleEsc a).map fun v => (v, b :: r)
  | 92 :: a :: r =>
    if isOct a then some (a - 48, r) else (simpleEsc a).map fun v => (v, r)
  | c :: r => if c = 92 ∨ c = q ∨ c = 10 then none else some (c, r)
  | [] => none

/-- The characters of a string literal up to the closing quote, and what follows.  The fuel is the number of
characters left. -/
def cChars : Nat → List Nat → Option (List Nat × List Nat)
  | 0, _ => none
  | f + 1, s =>
    match s with
    | 34 :: r => some ([], r)
    | s => do
      let (c, r) ← cChar 34 s
      let (cs, r) ← cChars f r
      some (c :: cs, r)

/-- A string literal. -/
def cString (s : List Nat) : Option (List Nat × List Nat) :=
  match s with
  | 34 :: r => cChars (r.length + 1) r
  | _ => none

def hexVal (c : Nat) : Option Nat :=
  if 48 ≤ c ∧ c ≤ 57 then some (c - 48) else if 97 ≤ c ∧ c ≤ 102 then some (c - 87)
  else if 65 ≤ c ∧ c ≤ 70 then some (c - 55) else none

/-- The value of hexadecimal digits. -/
def hexNum : List Nat → Nat → Option Nat
  | [], a => some a
  | c :: cs, a => (hexVal c).bind fun d => hexNum cs (16 * a + d)

/-- A hexadecimal constant: `0x` and at least one digit. -/
def cHex (s : List Nat) : Option Nat :=
  match s with
  | 48 :: 120 :: c :: r => hexNum (c :: r) 0
  | _ => none

/-- A character constant or a hexadecimal constant. -/
def cCharConst (s : List Nat) : Option Nat :=
  match s with
  | 39 :: r =>
    match cChar 39 r with
    | some (v, [39]) => some v
    | _ => none
  | s => cHex s

/-- The keywords of C89 (ISO 9899:1990, 6.1.1). -/
def keywords89 : List (List Nat) := [
  w! "auto", w! "break", w! "case", w! "char", w! "const", w! "continue", w! "default", w! "do",
  w! "double", w! "else", w! "enum", w! "extern", w! "float", w! "for", w! "goto", w! "if", w! "int",
  w! "long", w! "register", w! "return", w! "short", w! "signed", w! "sizeof", w! "static", w! "struct",
  w! "switch", w! "typedef", w! "union", w! "unsigned", w! "void", w! "volatile", w! "while"]

end Verif.Emit.CSpec
