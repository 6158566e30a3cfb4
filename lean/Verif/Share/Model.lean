import Verif.Names.Model

/-!
# Programs that use files at the same time, src/runtime/Files.Mod

Several processes use the module Files with one disk.  Each has its own variables of the module: the counter `tempno`, the list `files`, its open files; and its
number, `Platform.PID`, which is a part of the names of its temporary files.  The procedures are those of Verif.Names.

Processes begin and are stopped at any time (a process that is stopped leaves its temporary files on the disk), and their calls are interleaved in any order.
One call is one step: what another process sees in the middle of a call is not modelled (`C27_register_not_atomic` is about that).  Simplified as in
Verif.Names: one file system, numbers of files are not used again, the search path is not used.
-/
namespace Verif.Share

open Verif.Names

/-- The module Files of one process: its variables, src/runtime/Files.Mod 60-63, and `Platform.CWD`; `pid` is the number the operating system gave to the process. -/
structure Proc where
  cwd : Name
  pid : Nat
  tempno : Int
  nfiles : Nat
  files : Nat → File
  list : List Nat

/-- The disk and the processes. -/
structure Sys where
  dir : Name → Option Nat
  data : Nat → List Nat
  next : Nat
  procs : Nat → Option Proc

/-- `Platform.PID`, as far as it is written to a name: `PID := getpid()` with `(INTEGER)getpid()`, src/runtime/Platformunix.Mod 23, 432, 438.  INTEGER has 16 bits
(option -O2, the default), and `GetTempName` writes nothing for a negative number (src/runtime/Files.Mod 110-111). -/
def stored (pid : Nat) : Nat := if pid % 65536 < 32768 then pid % 65536 else 0

/-- What one process sees: its own variables and the disk. -/
def view (y : Sys) (P : Proc) : State :=
  ⟨P.cwd, stored P.pid, P.tempno, y.dir, y.data, y.next, P.nfiles, P.files, P.list⟩

/-- The disk and the process `p` after a call. -/
def put (y : Sys) (p : Nat) (P : Proc) (s : State) : Sys :=
  ⟨s.dir, s.data, s.next, upd y.procs p (some { P with tempno := s.tempno, nfiles := s.nfiles, files := s.files, list := s.list })⟩

/-- The module body, src/runtime/Files.Mod 754-758: `tempno := -1`, no files. -/
def fresh (cwd : Name) (pid : Nat) : Proc := ⟨cwd, pid, -1, 0, fun _ => ⟨[], [], false, none, .create, []⟩, []⟩

/-- A process begins, is stopped, or calls a procedure of Files. -/
inductive Event where
  | start (p pid : Nat) (cwd : Name)
  | kill (p : Nat)
  | call (p : Nat) (op : Op)

def step (y : Sys) : Event → Option (Sys × Out)
  | .start p pid cwd => some ({ y with procs := upd y.procs p (some (fresh cwd pid)) }, .none)
  | .kill p => some ({ y with procs := upd y.procs p none }, .none)
  | .call p op =>
    match y.procs p with
    | none => some (y, .none)
    | some P => (Names.step (view y P) op).map fun r => (put y p P r.1, r.2)

/-- A history: what was seen, and whether a process was stopped by an error. -/
def run : Sys → List Event → List Out × Bool
  | _, [] => ([], false)
  | y, e :: es =>
    match step y e with
    | none => ([], true)
    | some (y, o) => let (os, b) := run y es; (o :: os, b)

/-- A disk, and no process. -/
def init (dir : Name → Option Nat) (data : Nat → List Nat) (next : Nat) : Sys := ⟨dir, data, next, fun _ => none⟩

end Verif.Share
