import Mathlib.Data.List.Basic
import Verif.Names.Model

/-!
# The names of files: the specification for C27

A disk gives the bytes visible under each absolute name.  An open file has its bytes, and either a name it is visible under
(`at_`) or a name it gets when it is registered (`pending`), or none.
-/
namespace Verif.Names.Spec

open Verif.Names (Name Op Out full)

structure Handle where
  mem : List Nat
  pending : Option Name
  at_ : Option Name
  alive : Bool

structure State where
  vis : Name → Option (List Nat)
  n : Nat
  handles : Nat → Handle

/-- The names the module makes for itself: the last part begins with `.tmp.`. -/
def Temp (n : Name) : Prop := ∃ d x, n = d ++ [47] ++ [46, 116, 109, 112, 46] ++ x ∧ 47 ∉ x

/-- A name the program may use. -/
def Good (cwd n : Name) : Prop := n ≠ [] ∧ ¬ Temp (full cwd n)

def Live (a : State) (f : Nat) : Prop := f < a.n ∧ (a.handles f).alive = true

/-- The open file that is visible under a name. -/
def OpenAt (a : State) (n : Name) (f : Nat) : Prop := Live a f ∧ (a.handles f).at_ = some n

/-- What is visible under `n` changes. -/
def show_ (a : State) (n : Name) (c : Option (List Nat)) : State := { a with vis := fun m => if m = n then c else a.vis m }

def setHandle (a : State) (f : Nat) (h : Handle) : State := { a with handles := fun i => if i = f then h else a.handles i }

/-- The file visible under `n`, if it is open, loses its name: it keeps its bytes, and gets the name back when it is
registered. -/
def release (a : State) (n : Name) : State :=
  { a with handles := fun i => if i < a.n ∧ (a.handles i).alive = true ∧ (a.handles i).at_ = some n then { a.handles i with at_ := none, pending := some n } else a.handles i }

/-- What is outside the specification: files that are not open, names made by the module itself, and renaming files while
they are open. -/
def Illegal (cwd : Name) (a : State) : Op → Prop
  | .new n => n ≠ [] ∧ ¬ Good cwd n
  | .old n => n ≠ [] ∧ ¬ Good cwd n
  | .write f _ | .swap f _ | .close f | .register f | .drop f | .content f => ¬ Live a f
  | .delete n | .look n => ¬ Good cwd n
  | .rename n m => ¬ Good cwd n ∨ ¬ Good cwd m ∨ (∃ f, OpenAt a (full cwd n) f) ∨ ∃ f, OpenAt a (full cwd m) f

/-- The bytes of `f` get visible, if it has a name. -/
def publish (a : State) (f : Nat) (c : List Nat) : State :=
  match (a.handles f).at_ with
  | none => a
  | some n => show_ a n (some c)

inductive Step (cwd : Name) (a : State) : Op → State → Out → Prop where
  /-- New: an empty file; nothing changes on the disk. -/
  | new (n : Name) : Step cwd a (.new n)
      { a with n := a.n + 1, handles := fun i => if i = a.n then ⟨[], if n = [] then none else some (full cwd n), none, true⟩ else a.handles i }
      (.file (some a.n))
  /-- Old of a name that does not exist. -/
  | oldNil (n : Name) : n = [] ∨ a.vis (full cwd n) = none → Step cwd a (.old n) a (.file none)
  /-- Old of a file that is open: the same file. -/
  | oldOpen (n : Name) (f : Nat) : n ≠ [] → OpenAt a (full cwd n) f → Step cwd a (.old n) a (.file (some f))
  /-- Old of another file: its bytes are those visible. -/
  | old (n : Name) (c : List Nat) : n ≠ [] → a.vis (full cwd n) = some c → (∀ f, ¬ OpenAt a (full cwd n) f) →
      Step cwd a (.old n)
        { a with n := a.n + 1, handles := fun i => if i = a.n then ⟨c, none, some (full cwd n), true⟩ else a.handles i }
        (.file (some a.n))
  /-- Writing: nothing changes on the disk. -/
  | write (f : Nat) (c : List Nat) : Live a f → Step cwd a (.write f c) (setHandle a f { a.handles f with mem := c }) .none
  /-- A buffer is reused: only a file that has a name is concerned. -/
  | swap (f : Nat) (c : List Nat) : Live a f → Step cwd a (.swap f c) (publish a f c) .none
  /-- Close: the bytes become visible if the file has a name; nothing changes on the disk otherwise. -/
  | close (f : Nat) : Live a f → Step cwd a (.close f) (publish a f (a.handles f).mem) .none
  /-- Register: the bytes become visible under the name; the file that had the name loses it.  Other names do not change. -/
  | register (f : Nat) (n : Name) : Live a f → (a.handles f).pending = some n →
      Step cwd a (.register f)
        (show_ (setHandle (release a n) f { a.handles f with pending := none, at_ := some n }) n (some (a.handles f).mem)) .none
  | registerNone (f : Nat) : Live a f → (a.handles f).pending = none → Step cwd a (.register f) (publish a f (a.handles f).mem) .none
  /-- Delete: the name is not visible any more.  Other names do not change. -/
  | delete (n : Name) (r : Nat) : (r = 0 ↔ a.vis (full cwd n) ≠ none ∧ ∀ f, ¬ OpenAt a (full cwd n) f) →
      Step cwd a (.delete n) (show_ (release a (full cwd n)) (full cwd n) none) (.res r)
  /-- Rename. -/
  | renameNone (n m : Name) (r : Nat) : a.vis (full cwd n) = none → r ≠ 0 → Step cwd a (.rename n m) a (.res r)
  | rename (n m : Name) (c : List Nat) : a.vis (full cwd n) = some c →
      Step cwd a (.rename n m) (show_ (show_ a (full cwd n) none) (full cwd m) (some c)) (.res 0)
  /-- A file that is not used any more is forgotten: nothing changes on the disk. -/
  | drop (f : Nat) : Live a f → Step cwd a (.drop f) (setHandle a f { a.handles f with alive := false }) .none
  | content (f : Nat) : Live a f → Step cwd a (.content f) a (.bytes (a.handles f).mem)
  /-- What other programs see. -/
  | look (n : Name) : Step cwd a (.look n) a (.seen (a.vis (full cwd n)))

/-- Histories.  Nothing is said about what happens from the first illegal operation on. -/
inductive Run (cwd : Name) : State → List Op → List Out → Bool → Prop where
  | nil (a : State) : Run cwd a [] [] false
  | illegal (a : State) (op : Op) (ops : List Op) (outs : List Out) (b : Bool) : Illegal cwd a op → Run cwd a (op :: ops) outs b
  | step (a a' : State) (op : Op) (ops : List Op) (o : Out) (outs : List Out) (b : Bool) :
      Step cwd a op a' o → Run cwd a' ops outs b → Run cwd a (op :: ops) (o :: outs) b

def init (dir : Name → Option Nat) (data : Nat → List Nat) : State :=
  ⟨fun n => (dir n).map data, 0, fun _ => ⟨[], none, none, false⟩⟩

end Verif.Names.Spec
