import Verif.TextFiles.Model

/-!
# Specification for C60: what a text is to its reader

A text is a sequence of characters and elements, each with colour and offset.  The only things used from the model are the runs.
-/
namespace Verif.TextFiles

/-- A character or an element with its looks, without the font. -/
inductive Item where
  | char (c : Nat) (col voff : Int)
  | elem (mod proc : Str) (W H : Int) (data : List Nat) (col voff : Int)
deriving DecidableEq, Repr

/-- The characters of plain text: a line ends with LF or CR LF in the file and with CR in the text. -/
def asciiChars : List Nat → List Nat
  | 13 :: 10 :: s => 13 :: asciiChars s
  | 10 :: s => 13 :: asciiChars s
  | c :: s => c :: asciiChars s
  | [] => []

/-- The text to be stored: all of it except elements without a module. -/
def items : List Run → List Item
  | [] => []
  | .piece l bs a :: rest => ((if a then asciiChars bs else bs).map fun c => .char c l.col l.voff) ++ items rest
  | .elem l mod proc W H data :: rest => if mod = [] then items rest else .elem mod proc W H data l.col l.voff :: items rest

/-- No line ends with CR LF. -/
def NoCrLf : List Nat → Prop
  | 13 :: 10 :: _ => False
  | _ :: s => NoCrLf s
  | [] => True

/-- A string that fits an array of `n` characters. -/
def Fits (n : Nat) (s : Str) : Prop := (∀ c ∈ s, c ≠ 0) ∧ s.length < n

def Int8 (x : Int) : Prop := -128 ≤ x ∧ x ≤ 127
def Int32 (x : Int) : Prop := -2147483648 ≤ x ∧ x ≤ 2147483647

/-- A font, one of `F`, and looks in their ranges. -/
def LookOk (names : Nat → Str) (F : List Str) (l : Look) : Prop :=
  (∃ p, l.fnt = some p ∧ names p ∈ F ∧ Fits 32 (names p)) ∧ Int8 l.col ∧ Int8 l.voff

/-- What a run must be to be stored: no empty piece; plain text without CR LF; a font of the fonts `F`; an element of the kinds `K`;
numbers in their ranges.  Nothing is asked of elements without a module. -/
def Storable (names : Nat → Str) (F : List Str) (K : List (Str × Str)) : Run → Prop
  | .piece l bs a => LookOk names F l ∧ bs ≠ [] ∧ (a = true → NoCrLf bs)
  | .elem l mod proc W H data => mod ≠ [] →
    LookOk names F l ∧ (mod, proc) ∈ K ∧ Fits 32 mod ∧ Fits 32 proc ∧ Int32 W ∧ Int32 H ∧ data.length < 2 ^ 31

end Verif.TextFiles
