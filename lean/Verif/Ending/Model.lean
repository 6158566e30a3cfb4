import Verif.Ending.Spec

/-!
# How a program ends: `Halt` and `AssertFail`, src/runtime/Modules.Mod 268-327; `FINALL` and `RegisterFinalizer`, src/runtime/Heap.Mod
512-519, 594-599; signal handlers, src/runtime/SYSTEM.c 155-185; `__INIT` and `__FINI`, src/runtime/SYSTEM.h 270-273; `Out.Char` and
`Out.Flush`, src/runtime/Out.Mod 13-29

Simplifications.  Of the main program, of the finalizers and of the signal handlers only the sequence of actions they execute is
represented: registering a finalizer, writing with `Out`, setting a signal handler, ending the program, accessing NIL, and a fault for which
there is no handler (as a division by zero).  These sequences are arbitrary.  A signal may arrive between any two steps; the procedures that
change the list of finalizers are divided into their assignments, the others are one step.  The message at the end and `exit` are one step.
The garbage collector, which also calls finalizers, is in Verif.Fin.  Signals are those whose default is to terminate the process.
-/
namespace Verif.Ending

/-- The actions of a program. -/
inductive Act where
  /-- `Out.Char`, `Out.Mod` 24-29 (`Out.String` writes the same text). -/
  | put (c : Nat)
  /-- `Out.Flush`, `Out.Mod` 13-18. -/
  | flush
  /-- `Heap.RegisterFinalizer`, `Heap.Mod` 594-599. -/
  | reg
  /-- `Platform.SetInterruptHandler`, `SetQuitHandler`, `SetBadInstructionHandler`, `Platformunix.Mod` 147-154, with `NIL` or a procedure. -/
  | handler (s : Nat) (h : Option Nat)
  /-- `HALT`, a failed check, or `Modules.Halt`. -/
  | halt (c : Int)
  /-- `ASSERT` with a false condition, or `Modules.AssertFail`. -/
  | assert (c : Int)
  /-- An access to `NIL`. -/
  | nil
  /-- A fault that is reported with a signal that has no handler, as a division by zero. -/
  | fault (s : Nat)
  deriving DecidableEq, Repr

/-- The steps of the program: actions and the single assignments of the procedures that change the list of finalizers. -/
inductive Ins where
  | act (a : Act)
  /-- `fin := f`, the end of `RegisterFinalizer`, `Heap.Mod` 598. -/
  | link (f : Nat)
  /-- `WHILE fin # NIL DO n := fin`, `Heap.Mod` 515-516. -/
  | load
  /-- `fin := fin.next`, `Heap.Mod` 516. -/
  | pop (n : Nat)
  /-- `n.finalize(..)`, `Heap.Mod` 517. -/
  | call (n : Nat)
  /-- The end of the process. -/
  | exit (e : Option EndBy)
  /-- The end of a signal handler. -/
  | sigret (s : Nat)
  deriving DecidableEq, Repr

/-- How a process ended. -/
inductive Result where
  | status (n : Nat)
  | killed (s : Nat)
  /-- Undefined behaviour of C. -/
  | undefined
  deriving DecidableEq, Repr

/-- What happens when a signal arrives. -/
inductive Disp where
  /-- The process is terminated. -/
  | deflt
  /-- `signalHandler` is called and the entry of `handler` is `0`, SYSTEM.c 166. -/
  | ignore
  /-- `signalHandler` calls the handler. -/
  | proc (h : Nat)
  /-- `segfaultHandler`, SYSTEM.c 160-162. -/
  | segv
  deriving DecidableEq, Repr

/-- The state of a process. -/
structure St where
  /-- The head of the list of finalizers; `0` is `NIL`. -/
  fin : Nat
  /-- The field `next` of the nodes. -/
  next : Nat → Nat
  /-- The next node that `NEW` gives. -/
  fresh : Nat
  /-- What is executed next. -/
  code : List Ins
  /-- What was observed. -/
  log : List Obs
  /-- The handlers. -/
  disp : Nat → Disp
  /-- Signals that are blocked. -/
  blocked : List Nat
  /-- Blocked signals that have arrived. -/
  pend : List Nat
  /-- The buffer of `Out`. -/
  buf : List Nat
  /-- What was written to standard output. -/
  out : List Nat
  /-- The number of handlers called so far. -/
  calls : Nat
  /-- The end of the process. -/
  done : Option Result

/-- The finalizers (by node) and the handlers (by procedure and number of the call): what they execute. -/
structure Prog where
  beh : Nat → List Act
  hdl : Nat → Nat → List Act

/-- `FINALL` and what follows it. -/
def ended (e : Option EndBy) : List Ins := [.load, .exit e]

/-- The call of `Halt` (Modules.Mod 311-318) or `AssertFail` (Modules.Mod 320-327): first `FINALL`.  What was being executed is dropped,
since `exit` does not return. -/
def stop (e : EndBy) (s : St) : St := { s with code := ended (some e), log := s.log ++ [.ending e] }

/-- `errint`, Modules.Mod 281-286, for numbers that are not negative; the recursion has at most 10 levels. -/
def errnat : Nat → Nat → List Nat
  | 0, _ => []
  | k + 1, l => (if 10 ≤ l then errnat k (l / 10) else []) ++ [l % 10 + 48]

/-- `errint`, Modules.Mod 281-286; `none`: `-l` overflows. -/
def errint (l : Int) : Option (List Nat) :=
  if l = -2147483648 then none
  else if l < 0 then some ([45] ++ errnat 10 (-l).toNat)
  else some (errnat 10 l.toNat)

/-- `DisplayHaltCode`, Modules.Mod 288-309. -/
def display (code : Int) : List Nat :=
  if code = -1 then chars "Assertion failure."
  else if code = -2 then chars "Index out of range."
  else if code = -3 then chars "Reached end of function without reaching RETURN."
  else if code = -4 then chars "CASE statement: no matching label and no ELSE."
  else if code = -5 then chars "Type guard failed."
  else if code = -6 then chars "Implicit type guard in record assignment failed."
  else if code = -7 then chars "Invalid case in WITH statement."
  else if code = -8 then chars "Value out of range."
  else if code = -9 then chars "Heap interrupted while locked, but lockdepth = 0 at unlock."
  else if code = -10 then chars "NIL access."
  else if code = -11 then chars "Alignment error."
  else if code = -12 then chars "Divide by zero."
  else if code = -13 then chars "Arithmetic overflow/underflow."
  else if code = -14 then chars "Invalid function argument."
  else if code = -15 then chars "Internal error, e.g. Type descriptor size mismatch."
  else if code = -20 then chars "Too many, or negative number of, elements in dynamic array."
  else []

/-- `exit`, of which the system keeps eight bits, Platformunix.Mod 421-423. -/
def exitStatus (c : Int) : Result := .status (c % 256).toNat

/-- The end of the main program (`__FINI`, SYSTEM.h 273), of `Halt` and of `AssertFail` (Modules.Mod 311-327) after `FINALL`. -/
def exit (e : Option EndBy) (s : St) : St :=
  match e with
  | none => { s with code := [], done := some (.status 0) }
  | some (.halt c) =>
    match errint c with
    | none => { s with code := [], done := some .undefined }
    | some d =>
      { s with code := [], done := some (exitStatus c),
               out := s.out ++ chars "Terminated by Halt(" ++ d ++ chars "). " ++ (if c < 0 then display c else []) ++ [10] }
  | some (.assert c) =>
    match errint c with
    | none => { s with code := [], done := some .undefined }
    | some d =>
      { s with code := [], done := some (if 0 < c then exitStatus c else exitStatus (-1)),
               out := s.out ++ chars "Assertion failure." ++ (if c ≠ 0 then chars " ASSERT code " ++ d ++ chars "." else []) ++ [10] }

/-- `Out.Flush`, Out.Mod 13-18. -/
def flush (s : St) : St := { s with out := s.out ++ s.buf, buf := [] }

/-- `Out.Char`, Out.Mod 24-29. -/
def put (c : Nat) (s : St) : St :=
  let s := if 128 ≤ s.buf.length then flush s else s
  let s := { s with buf := s.buf ++ [c], log := s.log ++ [.put c] }
  if c = 10 then flush s else s

/-- `SystemSetHandler`, SYSTEM.c 173-181: after it, `signalHandler` is called for the signal, also if the handler is `NIL`. -/
def setHandler (sig : Nat) (h : Option Nat) (s : St) : St :=
  if 2 ≤ sig ∧ sig ≤ 4 then
    { s with disp := fun x => if x = sig then
        (match h with
         | some h => .proc h
         | none => .ignore) else s.disp x }
  else s

/-- A signal arrives: the system blocks it while its handler is executed (SYSTEM.c 164-171). -/
def deliver (p : Prog) (sig : Nat) (s : St) : St :=
  if sig ∈ s.blocked then { s with pend := if sig ∈ s.pend then s.pend else s.pend ++ [sig] }
  else match s.disp sig with
    | .deflt => { s with code := [], done := some (.killed sig) }
    | .ignore => s
    | .proc h =>
      { s with code := (p.hdl h s.calls).map .act ++ [.sigret sig] ++ s.code, blocked := sig :: s.blocked, calls := s.calls + 1,
               log := s.log ++ [.got sig] }
    | .segv => stop (.halt (-10)) { s with blocked := sig :: s.blocked }

/-- One action. -/
def act (p : Prog) : Act → St → St
  | .put c, s => put c s
  | .flush, s => flush s
  | .reg, s => { s with next := fun x => if x = s.fresh then s.fin else s.next x, fresh := s.fresh + 1, code := .link s.fresh :: s.code }
  | .handler sig h, s => setHandler sig h s
  | .halt c, s => stop (.halt c) s
  | .assert c, s => stop (.assert c) s
  | .nil, s => if 11 ∈ s.blocked then { s with code := [], done := some (.killed 11) } else deliver p 11 s
  | .fault sig, s => { s with code := [], done := some (.killed sig) }

/-- One step of the process. -/
def step (p : Prog) (s : St) : St :=
  if s.done.isSome then s
  else match s.code with
  | [] => s
  | .act a :: r => act p a { s with code := r }
  | .link f :: r => { s with code := r, fin := f, log := s.log ++ [.reg f] }
  | .load :: r => if s.fin = 0 then { s with code := r } else { s with code := .pop s.fin :: r }
  | .pop n :: r => { s with code := .call n :: r, fin := s.next s.fin }
  | .call n :: r => { s with code := (p.beh n).map .act ++ .load :: r, log := s.log ++ [.start n] }
  | .exit e :: _ => exit e s
  | .sigret sig :: r =>
    let s := { s with code := r, blocked := s.blocked.erase sig }
    if sig ∈ s.pend then deliver p sig { s with pend := s.pend.erase sig } else s

/-- What happens next: a step of the program, or a signal. -/
inductive Ev where
  | tick
  | sig (s : Nat)
  deriving DecidableEq, Repr

/-- The effect of an event. -/
def next1 (p : Prog) : Ev → St → St
  | .tick, s => step p s
  | .sig n, s => if s.done.isSome then s else deliver p n s

/-- A schedule. -/
def run (p : Prog) : List Ev → St → St
  | [], s => s
  | e :: r, s => run p r (next1 p e s)

/-- The start of a program with `__INIT`, SYSTEM.h 270, its main module and `__FINI`. -/
def start (main : List Act) : St :=
  { fin := 0, next := fun _ => 0, fresh := 1, code := main.map .act ++ ended none, log := [],
    disp := fun s => if s = 11 then .segv else .deflt, blocked := [], pend := [], buf := [], out := [], calls := 0, done := none }

end Verif.Ending
