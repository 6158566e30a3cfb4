/-!
# Specification for C61: texts as sequences of tokens

What a program that reads a text with a scanner wants to find there: integers, names, strings and other characters, separated by blanks,
tabulators and ends of lines.  Characters are their codes.
-/
namespace Verif.Scan

/-- Blank, tabulator, CR. -/
def Blank (c : Nat) : Prop := c = 32 ∨ c = 9 ∨ c = 13

def Letter (c : Nat) : Prop := 65 ≤ c ∧ c ≤ 90 ∨ 97 ≤ c ∧ c ≤ 122
def Digit (c : Nat) : Prop := 48 ≤ c ∧ c ≤ 57

/-- A token as it is written. -/
inductive Token where
  /-- An integer: its sign and its digits, characters from 0 to 9. -/
  | int (neg : Bool) (digits : List Nat)
  /-- A real number: its sign, the digits before and after the point, and the scale factor if there is one: D or E, its sign and its digits. -/
  | real (neg : Bool) (digits fraction : List Nat) (exp : Option (Bool × Option Bool × List Nat))
  /-- A name. -/
  | name (s : List Nat)
  /-- A string, without its quotes. -/
  | str (s : List Nat)
  /-- Any other character. -/
  | chr (c : Nat)

/-- The value of decimal digits. -/
def decimal (ds : List Nat) : Nat := ds.foldl (fun k d => 10 * k + (d - 48)) 0

/-- What may be written: integers from -(2³¹ − 1) to 2³¹ − 1 with up to 32 digits; real numbers with up to 32 digits and an exponent up to 38, or 308 after D, or down to
-32767; names of letters, digits, `.`, `/` and `_` that begin with a
letter, `.` or `/`; strings of printable characters without quotes; names and strings up to 63 characters. -/
def Valid : Token → Prop
  | .int _ ds => ds ≠ [] ∧ ds.length ≤ 32 ∧ (∀ d ∈ ds, Digit d) ∧ decimal ds ≤ 2147483647
  | .real _ ds fs ex => ds ≠ [] ∧ ds.length + fs.length ≤ 32 ∧ (∀ d ∈ ds ++ fs, Digit d) ∧ ∀ long sign es, ex = some (long, sign, es) →
      (∀ d ∈ es, Digit d) ∧ decimal es ≤ if sign = some true then 32767 else if long then 308 else 38
  | .name s => (∃ c t, s = c :: t ∧ (Letter c ∨ c = 46 ∨ c = 47) ∧ ∀ d ∈ t, Letter d ∨ Digit d ∨ d = 46 ∨ d = 47 ∨ d = 95) ∧ s.length ≤ 63
  | .str s => (∀ c ∈ s, 32 ≤ c ∧ c ≠ 34) ∧ s.length ≤ 63
  | .chr c => ¬ Blank c ∧ ¬ Letter c ∧ ¬ Digit c ∧ c ≠ 34 ∧ c ≠ 46 ∧ c ≠ 47 ∧ c < 128

/-- A scale factor as it is written. -/
def scaleText : Option (Bool × Option Bool × List Nat) → List Nat
  | none => []
  | some (long, sign, es) => (if long then 68 else 69) :: (match sign with | none => [] | some true => [45] | some false => [43]) ++ es

/-- The characters of a token. -/
def Token.text : Token → List Nat
  | .int neg ds => (if neg then [45] else []) ++ ds
  | .real neg ds fs ex => (if neg then [45] else []) ++ ds ++ 46 :: fs ++ scaleText ex
  | .name s => s
  | .str s => [34] ++ s ++ [34]
  | .chr c => [c]

/-- A text: tokens, each followed by blanks, and blanks in front. -/
def render (front : List Nat) (ts : List (Token × List Nat)) : List Nat := front ++ (ts.map fun t => t.1.text ++ t.2).flatten

/-- The ends of lines among characters. -/
def lines (s : List Nat) : Nat := s.count 13

end Verif.Scan
