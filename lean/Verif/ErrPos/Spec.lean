/-!
# Error messages: specification

A source text is a list of bytes.  A line ends with LF, CR, CR LF or 0X.
-/
namespace Verif.ErrPos

/-- The byte at a position; 0X behind the end. -/
def byte (bs : List Nat) (i : Nat) : Nat := bs.getD i 0

/-- A line begins at the position. -/
def isStart (bs : List Nat) (i : Nat) : Bool :=
  i = 0 || byte bs (i - 1) = 0 || byte bs (i - 1) = 10 || (byte bs (i - 1) = 13 && !(byte bs i = 10))

/-- The number of the line with a position, counted from 1. -/
def lineOf (bs : List Nat) (pos : Nat) : Nat := (List.range (pos + 1)).countP (isStart bs)

/-- `s` is the beginning of the line with `pos`. -/
def StartOf (bs : List Nat) (pos s : Nat) : Prop := s ≤ pos ∧ isStart bs s = true ∧ ∀ i, s < i → i ≤ pos → isStart bs i = false

/-- The text of the line that begins with `bs`. -/
def text (bs : List Nat) : List Nat := bs.takeWhile fun c => !(c = 0 || c = 10 || c = 13)

/-- What is shown for an error: the number and the text of the line, and the number of spaces before the arrow. -/
structure Shown where
  num : Nat
  line : List Nat
  column : Nat
deriving DecidableEq, Repr

/-- Reports: the number of the error (a warning if negative) and its position. -/
structure Report where
  n : Int
  pos : Nat
deriving DecidableEq, Repr

end Verif.ErrPos
