import Mathlib.Data.List.Basic
import Verif.Files.Model

/-!
# Files as byte arrays: the specification for C26

A file is a list of bytes, a rider a file and a position in it.  There are no buffers.  The interface (`Op`, `Out`) is
that of the model.
-/
namespace Verif.Files.Spec

open Verif.Files (Op Out)

structure Rider where
  file : Option Nat
  pos : Nat
  eof : Bool
  res : Nat

structure State where
  nfiles : Nat
  content : Nat → List Nat
  anon : Nat → Bool
  riders : Nat → Rider

def setRider (a : State) (r : Nat) (rd : Rider) : State := { a with riders := fun i => if i = r then rd else a.riders i }

def setContent (a : State) (f : Nat) (l : List Nat) : State := { a with content := fun i => if i = f then l else a.content i }

/-- The bytes `x` replace those from `p` on; the file grows if necessary. -/
def overwrite (l : List Nat) (p : Nat) (x : List Nat) : List Nat := l.take p ++ x ++ l.drop (p + x.length)

/-- The position from which a rider reads or writes: that of the rider, unless the file was purged. -/
def at_ (a : State) (r f : Nat) : Nat := min (a.riders r).pos (a.content f).length

/-- The calls a program must not make: those that use a rider without file, or a file that is NIL, or that pass an array
that is too short. -/
def Illegal (a : State) : Op → Prop
  | .new _ | .old _ | .set _ _ _ | .pos _ => False
  | .read r => (a.riders r).file = none
  | .readBytes r x n => x.length < n ∨ (0 < n ∧ (a.riders r).file = none)
  | .write r _ => (a.riders r).file = none
  | .writeBytes r x n => x.length < n ∨ (0 < n ∧ (a.riders r).file = none)
  | .length f | .close f | .purge f => a.nfiles ≤ f

/-- The effect of a call.  Where `eof` and `res` are not determined, an old value may be kept or replaced by FALSE or 0. -/
inductive Step (a : State) : Op → State → Out → Prop where
  /-- A new file is empty. -/
  | new (anon : Bool) : Step a (.new anon)
      { a with nfiles := a.nfiles + 1, content := fun i => if i = a.nfiles then [] else a.content i,
               anon := fun i => if i = a.nfiles then anon else a.anon i } .none
  /-- An old file has the bytes on the disk. -/
  | old (l : List Nat) : Step a (.old l)
      { a with nfiles := a.nfiles + 1, content := fun i => if i = a.nfiles then l else a.content i,
               anon := fun i => if i = a.nfiles then false else a.anon i } .none
  /-- Set puts a rider at a position between 0 and the length. -/
  | set (r f : Nat) (p : Int) : f < a.nfiles →
      Step a (.set r f p) (setRider a r ⟨some f, (max 0 (min p (a.content f).length)).toNat, false, 0⟩) .none
  | setNil (r f : Nat) (p : Int) : a.nfiles ≤ f → Step a (.set r f p) (setRider a r ⟨none, 0, false, 0⟩) .none
  /-- Read before the end returns the byte at the position and moves to the next. -/
  | read (r f c : Nat) (eof : Bool) (res : Nat) : (a.riders r).file = some f → (a.content f)[at_ a r f]? = some c →
      (eof = false ∨ eof = (a.riders r).eof) → (res = 0 ∨ res = (a.riders r).res) →
      Step a (.read r) (setRider a r ⟨some f, at_ a r f + 1, eof, res⟩) (.byte c eof)
  /-- Read at the end returns 0 and sets `eof`. -/
  | readEnd (r f : Nat) (res : Nat) : (a.riders r).file = some f → at_ a r f = (a.content f).length →
      (res = 0 ∨ res = (a.riders r).res) →
      Step a (.read r) (setRider a r ⟨some f, at_ a r f, true, res⟩) (.byte 0 true)
  /-- ReadBytes reads the bytes there are, at most `n`; `res` is the number of bytes missing, and `eof` is set if there are
  any. -/
  | readBytes (r f : Nat) (x : List Nat) (n : Nat) (got : List Nat) : n ≤ x.length → 0 < n → (a.riders r).file = some f →
      got = ((a.content f).drop (at_ a r f)).take n →
      Step a (.readBytes r x n)
        (setRider a r ⟨some f, at_ a r f + got.length, decide (got.length < n), n - got.length⟩)
        (.bytes (got ++ x.drop got.length) (decide (got.length < n)) (n - got.length))
  | readBytes0 (r : Nat) (x : List Nat) : Step a (.readBytes r x 0)
        (setRider a r { a.riders r with eof := false, res := 0 }) (.bytes x false 0)
  /-- Write replaces the byte at the position, or appends one. -/
  | write (r f c : Nat) (eof : Bool) : (a.riders r).file = some f → (eof = false ∨ eof = (a.riders r).eof) →
      Step a (.write r c)
        (setContent (setRider a r ⟨some f, at_ a r f + 1, eof, 0⟩) f (overwrite (a.content f) (at_ a r f) [c])) .none
  /-- WriteBytes does the same with the first `n` bytes of `x`. -/
  | writeBytes (r f : Nat) (x : List Nat) (n : Nat) (eof : Bool) : n ≤ x.length → 0 < n → (a.riders r).file = some f →
      (eof = false ∨ eof = (a.riders r).eof) →
      Step a (.writeBytes r x n)
        (setContent (setRider a r ⟨some f, at_ a r f + n, eof, 0⟩) f (overwrite (a.content f) (at_ a r f) (x.take n))) .none
  | writeBytes0 (r : Nat) (x : List Nat) : Step a (.writeBytes r x 0) (setRider a r { a.riders r with res := 0 }) .none
  | pos (r : Nat) : Step a (.pos r) a (.num (a.riders r).pos)
  | length (f : Nat) : f < a.nfiles → Step a (.length f) a (.num (a.content f).length)
  /-- After Close the disk has the bytes of the file. -/
  | close (f : Nat) : f < a.nfiles → Step a (.close f) a (.disk (a.content f))
  /-- A file without name need not be on the disk. -/
  | closeAnon (f : Nat) : f < a.nfiles → a.anon f = true → Step a (.close f) a .none
  /-- Purge deletes all bytes; the positions of riders are not changed. -/
  | purge (f : Nat) : f < a.nfiles → Step a (.purge f) (setContent a f []) .none

/-- The histories of byte arrays: `Run a ops outs stopped`. -/
inductive Run : State → List Op → List Out → Bool → Prop where
  | nil (a : State) : Run a [] [] false
  | stop (a : State) (op : Op) (ops : List Op) : Illegal a op → Run a (op :: ops) [] true
  | step (a a' : State) (op : Op) (ops : List Op) (o : Out) (outs : List Out) (b : Bool) :
      Step a op a' o → Run a' ops outs b → Run a (op :: ops) (o :: outs) b

def init : State := ⟨0, fun _ => [], fun _ => false, fun _ => ⟨none, 0, false, 0⟩⟩

end Verif.Files.Spec
