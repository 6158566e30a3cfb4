import Verif.Chars

/-!
# What the scanner is expected to do, stated without reference to its code
-/
namespace Verif.Scanner

/-- The matching close bracket of a comment: reads `t`, the text after the opening bracket of a
comment, counting opening and closing brackets from left to right; `d` is the number of comments
that are open around the one looked at.  Result: the text after the bracket that closes all of
them; `none` if there is no such bracket. -/
def close : Nat → List Nat → Option (List Nat)
  | _, [] => none
  | _, [_] => none
  | d, a :: b :: t =>
    if a = 40 ∧ b = 42 then close (d + 1) t
    else if a = 42 ∧ b = 41 then (if d = 0 then some t else close (d - 1) t)
    else close d (b :: t)

/-- Value of a digit `0`..`9`, `A`..`F`. -/
def digitVal (c : Nat) : Nat := if c ≤ 57 then c - 48 else c - 55

/-- The number that a string of digits denotes in a base. -/
def valOf (base : Nat) (ds : List Nat) : Nat := ds.foldl (fun a c => a * base + digitVal c) 0

/-- A decimal digit. -/
def IsDec (c : Nat) : Prop := 48 ≤ c ∧ c ≤ 57

/-- A hexadecimal digit. -/
def IsHex (c : Nat) : Prop := (48 ≤ c ∧ c ≤ 57) ∨ (65 ≤ c ∧ c ≤ 70)

/-- A letter of the language. -/
def IsLetter (c : Nat) : Prop := (65 ≤ c ∧ c ≤ 90) ∨ (97 ≤ c ∧ c ≤ 122)

/-- The two's complement value of a 64-bit pattern. -/
def signed64 (v : Nat) : Int := if v < 2 ^ 63 then v else (v : Int) - 2 ^ 64

/-- The reserved words and the numbers of their symbols (table in src/compiler/OPS.Mod 11-26). -/
def reserved : List (List Nat × Nat) :=
  [(w! "DIV", 3), (w! "MOD", 4), (w! "OR", 8), (w! "IN", 15), (w! "IS", 16), (w! "OF", 25), (w! "THEN", 26), (w! "DO", 27),
   (w! "TO", 28), (w! "BY", 29), (w! "NIL", 36), (w! "END", 41), (w! "ELSE", 42), (w! "ELSIF", 43), (w! "UNTIL", 44),
   (w! "IF", 45), (w! "CASE", 46), (w! "WHILE", 47), (w! "REPEAT", 48), (w! "FOR", 49), (w! "LOOP", 50), (w! "WITH", 51),
   (w! "EXIT", 52), (w! "RETURN", 53), (w! "ARRAY", 54), (w! "RECORD", 55), (w! "POINTER", 56), (w! "BEGIN", 57),
   (w! "CONST", 58), (w! "TYPE", 59), (w! "VAR", 60), (w! "PROCEDURE", 61), (w! "IMPORT", 62), (w! "MODULE", 63)]

/-- The symbol number of a reserved word, if the spelling is one. -/
def reservedSym (name : List Nat) : Option Nat :=
  (reserved.find? (fun p => p.1 = name)).map Prod.snd

end Verif.Scanner
