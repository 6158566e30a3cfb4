import Verif.Console.Model

/-!
# Console output and input: the specification for C29, C30 and C47

Output is a sequence of bytes.  Input is the list of the bytes not read yet.
-/
namespace Verif.Console.Spec

open Verif.Console (Op Out Ev)

/-- The usual decimal representation. -/
def dec (x : Int) : List Nat := (toString x).toList.map Char.toNat

/-- The usual hexadecimal representation, with capital letters. -/
def hexa (u : Nat) : List Nat := (Nat.toDigits 16 u).map fun c => c.toUpper.toNat

/-- `t`, after as many characters `c` as are needed for a width of `n`. -/
def pad (c : Nat) (n : Int) (t : List Nat) : List Nat := List.replicate (n - t.length).toNat c ++ t

/-- The width of a hexadecimal number is between 1 and 16. -/
def clamp (n : Int) : Nat := (max 1 (min n 16)).toNat

/-- What `Hex` writes: for a number that is not negative all digits, at least `n`; for a negative number the last `n` of the
16 digits. -/
def hexText (x n : Int) : List Nat :=
  if 0 ≤ x then pad 48 (clamp n) (hexa x.toNat) else (hexa (x + 2 ^ 64).toNat).drop (16 - clamp n)

/-- What an operation writes. -/
def text : Op → List Nat
  | .char c => [c]
  | .string s => s.takeWhile (· ≠ 0)
  | .int x n => pad 32 n (dec x)
  | .hex x n => hexText x n
  | .ln => [10]
  | _ => []

/-- The bytes delivered. -/
def delivered (ev : List Ev) : List Nat := ev.filterMap fun e => match e with | .out b => some b | .inp _ => none

/-- The bytes received. -/
def received (ev : List Ev) : List Nat := ev.filterMap fun e => match e with | .out _ => none | .inp b => b

/-- A hexadecimal digit, capital or not. -/
def isHex (c : Nat) : Prop := (48 ≤ c ∧ c ≤ 57) ∨ (65 ≤ c ∧ c ≤ 70) ∨ (97 ≤ c ∧ c ≤ 102)

instance (c : Nat) : Decidable (isHex c) := inferInstanceAs (Decidable (_ ∨ _))

def digitVal (c : Nat) : Nat := if c ≤ 57 then c - 48 else if c ≤ 70 then c - 55 else c - 87

/-- The value of a numeral. -/
def value (base : Nat) (ds : List Nat) : Nat := ds.foldl (fun v c => v * base + digitVal c) 0

/-- A number modulo 2^64, as a signed number. -/
def wrap (x : Int) : Int := (x + 2 ^ 63) % 2 ^ 64 - 2 ^ 63

/-- The rest of the input without a character at its begin. -/
def optional (c : Nat) (r : List Nat) : List Nat := if r.head? = some c then r.tail else r

def blank (c : Nat) : Bool := c ≤ 32

/-- What an operation reads from the input `r`, and what is left. -/
def read (r : List Nat) : Op → Out × List Nat
  | .inChar =>
    match r with
    | [] => (.ch false 0, [])
    | c :: t => (.ch true c, t)
  | .line len =>
    let t := (r.takeWhile fun c => c ≠ 13 ∧ c ≠ 10).take (len - 1)
    (.str (r ≠ []) t, optional 10 (optional 13 (r.drop t.length)))
  | .inString len =>
    let u := r.dropWhile blank
    if u.head? = some 34 then
      let t := (u.tail.takeWhile fun c => 32 ≤ c ∧ c ≠ 34).take (len - 1)
      let w := u.tail.drop t.length
      if t.length + 1 < len ∧ w.head? = some 34 then (.str true t, w.tail) else (.str false [], w)
    else (.str false [], u)
  | .huge =>
    let u := r.dropWhile blank
    if u = [] then (.num false none, [])
    else
      let v := optional 45 u
      let ds := v.takeWhile isHex
      let w := v.drop ds.length
      if ds = [] then (.num false (some 0), optional 72 w)
      else
        let x : Int := if w.head? = some 72 ∨ (∃ c ∈ ds, 57 < c) then value 16 ds else value 10 ds
        (.num true (some (wrap (if u.head? = some 45 then -x else x))), optional 72 w)
  | _ => (.none, r)

/-- The results of operations, and what is left of the input. -/
def reads : List Nat → List Op → List Out × List Nat
  | r, [] => ([], r)
  | r, op :: ops => let (o, r) := read r op; let (os, r) := reads r ops; (o :: os, r)

/-- Arrays have at least one element; hexadecimal numbers of 16 digits are excluded (see `C29_hex_undefined`). -/
def Legal : Op → Prop
  | .line len => 1 ≤ len
  | .inString len => 1 ≤ len
  | .int x _ => -2 ^ 63 ≤ x ∧ x < 2 ^ 63
  | .hex x n => -2 ^ 63 ≤ x ∧ x < 2 ^ 60 ∧ n < 16
  | _ => True

end Verif.Console.Spec
