import Verif.Share.Model
import Verif.Names.Spec

/-!
# Programs that use files at the same time: the specification for C88

All processes see the same bytes under the same names.  Each process has its open files; a call does to them, and to what is visible, what the specification of one
process (Verif.Names.Spec) says.  Beginning or stopping a process changes nothing that is visible.  So what one process writes is never seen in a file of another one.
-/
namespace Verif.Share.Spec

open Verif.Names (Name Op Out upd full)
open Verif.Names.Spec (Handle OpenAt Live)

/-- A process: its directory, its number, its open files. -/
structure Proc where
  cwd : Name
  pid : Nat
  n : Nat
  handles : Nat → Handle

structure Sys where
  vis : Name → Option (List Nat)
  procs : Nat → Option Proc

def view (a : Sys) (P : Proc) : Names.Spec.State := ⟨a.vis, P.n, P.handles⟩

/-- A call removes, replaces or changes the file that is visible under the name `m`. -/
def Disturbs (cwd : Name) (a : Names.Spec.State) : Op → Name → Prop
  | .register f, m => (a.handles f).pending = some m ∨ (a.handles f).at_ = some m ∧ a.vis m ≠ some (a.handles f).mem
  | .delete n, m => m = full cwd n
  | .rename n n', m => m = full cwd n ∨ m = full cwd n'
  | .swap f c, m => (a.handles f).at_ = some m ∧ a.vis m ≠ some c
  | .close f, m => (a.handles f).at_ = some m ∧ a.vis m ≠ some (a.handles f).mem
  | _, _ => False

/-- What is outside the specification: numbers of processes that are not different (`num` is what has to be different), directories that are not absolute, what is
outside the specification of one process, and disturbing a file that another process has open. -/
def Illegal (num : Nat → Nat) (a : Sys) : Event → Prop
  | .start p pid cwd =>
    a.procs p ≠ none ∨ ¬ (cwd.head? = some 47 ∧ cwd.getLast? ≠ some 47) ∨ ∃ q Q, a.procs q = some Q ∧ num Q.pid = num pid
  | .kill p => a.procs p = none
  | .call p op => ∀ P, a.procs p = some P → Names.Spec.Illegal P.cwd (view a P) op ∨
      ∃ q Q m f, q ≠ p ∧ a.procs q = some Q ∧ Disturbs P.cwd (view a P) op m ∧ OpenAt (view a Q) m f

inductive Step (a : Sys) : Event → Sys → Out → Prop where
  | start (p pid : Nat) (cwd : Name) :
      Step a (.start p pid cwd) { a with procs := upd a.procs p (some ⟨cwd, pid, 0, fun _ => ⟨[], none, none, false⟩⟩) } .none
  | kill (p : Nat) : Step a (.kill p) { a with procs := upd a.procs p none } .none
  | call (p : Nat) (op : Op) (P : Proc) (b : Names.Spec.State) (o : Out) : a.procs p = some P → Names.Spec.Step P.cwd (view a P) op b o →
      Step a (.call p op) ⟨b.vis, upd a.procs p (some { P with n := b.n, handles := b.handles })⟩ o

/-- Histories.  Nothing is said about what happens from the first illegal event on. -/
inductive Run (num : Nat → Nat) : Sys → List Event → List Out → Bool → Prop where
  | nil (a : Sys) : Run num a [] [] false
  | illegal (a : Sys) (e : Event) (es : List Event) (outs : List Out) (b : Bool) : Illegal num a e → Run num a (e :: es) outs b
  | step (a a' : Sys) (e : Event) (es : List Event) (o : Out) (outs : List Out) (b : Bool) :
      Step a e a' o → Run num a' es outs b → Run num a (e :: es) (o :: outs) b

def init (dir : Name → Option Nat) (data : Nat → List Nat) : Sys := ⟨fun n => (dir n).map data, fun _ => none⟩

/-- The process of an event. -/
def who : Event → Nat
  | .start p _ _ => p
  | .kill p => p
  | .call p _ => p

/-- The files other processes have open are the same after the event: the names they are found under, and their bytes on the disk. -/
def Undisturbed (y y' : Share.Sys) (a : Sys) (e : Event) : Prop :=
  ∀ q Q A f i, q ≠ who e → y.procs q = some Q → a.procs q = some A → Live (view a A) f → (Q.files f).fd = some i →
    y'.procs q = some Q ∧ y'.dir (full Q.cwd (Q.files f).work) = some i ∧ y'.data i = y.data i

/-- As `Run`, with the states of the disk: no event disturbs the files of other processes. -/
inductive Safe (num : Nat → Nat) : Share.Sys → Sys → List Event → Prop where
  | nil (y : Share.Sys) (a : Sys) : Safe num y a []
  | illegal (y : Share.Sys) (a : Sys) (e : Event) (es : List Event) : Illegal num a e → Safe num y a (e :: es)
  | step (y y' : Share.Sys) (a a' : Sys) (e : Event) (es : List Event) (o : Out) :
      Share.step y e = some (y', o) → Step a e a' o → Undisturbed y y' a e → Safe num y' a' es → Safe num y a (e :: es)

end Verif.Share.Spec
