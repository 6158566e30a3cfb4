import Mathlib.Data.Nat.Digits.Defs

/-!
# How a program ends: specification

A history lists what can be observed of a program: finalizers registered and started, texts written with `Out`, and the events that end the
program.  The specification says which status and which message belong to a history.
-/
namespace Verif.Ending

/-- What ends a program before the end of its main module. -/
inductive EndBy where
  /-- `HALT(c)`, also with the negative code of a failed check. -/
  | halt (c : Int)
  /-- `ASSERT` failed, with its number. -/
  | assert (c : Int)
  deriving DecidableEq, Repr

/-- What is observed. -/
inductive Obs where
  /-- The `n`-th finalizer is registered. -/
  | reg (n : Nat)
  /-- It is started. -/
  | start (n : Nat)
  /-- The program is ended. -/
  | ending (e : EndBy)
  /-- A character is written with `Out`. -/
  | put (c : Nat)
  /-- The handler of a signal is started. -/
  | got (s : Nat)
  deriving DecidableEq, Repr

/-- How often the `n`-th finalizer was started. -/
def starts (n : Nat) (log : List Obs) : Nat := log.count (.start n)

/-- How often the `n`-th finalizer was registered. -/
def regs (n : Nat) (log : List Obs) : Nat := log.count (.reg n)

/-- The text written with `Out`. -/
def texts (log : List Obs) : List Nat := log.filterMap fun | .put c => some c | _ => none

/-- The finalizers registered, in order. -/
def registered (log : List Obs) : List Nat := log.filterMap fun | .reg n => some n | _ => none

/-- The finalizers started, in order. -/
def started (log : List Obs) : List Nat := log.filterMap fun | .start n => some n | _ => none

/-- What ended the program: the last such event, if there was one. -/
def lastEnding (log : List Obs) : Option EndBy := (log.filterMap fun | .ending e => some e | _ => none).getLast?

/-- The characters of a text. -/
def chars (s : String) : List Nat := s.toList.map Char.toNat

/-- The decimal representation of a number. -/
def decimal (c : Int) : List Nat :=
  (if c < 0 then chars "-" else []) ++ (if c = 0 then chars "0" else ((Nat.digits 10 c.natAbs).reverse.map (48 + ·)))

/-- The status of the process: eight bits of the code; a failed assertion without number counts as -1. -/
def status : Option EndBy → Nat
  | none => 0
  | some (.halt c) => (c % 256).toNat
  | some (.assert c) => if 0 < c then (c % 256).toNat else 255

/-- The explanations of the codes of failed checks. -/
def explanations : List (Int × String) :=
  [(-1, "Assertion failure."), (-2, "Index out of range."), (-3, "Reached end of function without reaching RETURN."),
   (-4, "CASE statement: no matching label and no ELSE."), (-5, "Type guard failed."),
   (-6, "Implicit type guard in record assignment failed."), (-7, "Invalid case in WITH statement."), (-8, "Value out of range."),
   (-9, "Heap interrupted while locked, but lockdepth = 0 at unlock."), (-10, "NIL access."), (-11, "Alignment error."),
   (-12, "Divide by zero."), (-13, "Arithmetic overflow/underflow."), (-14, "Invalid function argument."),
   (-15, "Internal error, e.g. Type descriptor size mismatch."),
   (-20, "Too many, or negative number of, elements in dynamic array.")]

/-- The message at the end of a program. -/
def message : Option EndBy → List Nat
  | none => []
  | some (.halt c) => chars "Terminated by Halt(" ++ decimal c ++ chars "). " ++ chars ((explanations.lookup c).getD "") ++ [10]
  | some (.assert c) => chars "Assertion failure." ++ (if c = 0 then [] else chars " ASSERT code " ++ decimal c ++ chars ".") ++ [10]

end Verif.Ending
