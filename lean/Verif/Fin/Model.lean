import Verif.Heap.Model

/-!
# Model of finalization (src/runtime/Heap.Mod)

The nodes of the list `fin` are numbered in the order of their creation, from 1; 0 is NIL.  What a finalizer does is
arbitrary: a function of the number of calls so far and the node gives the calls of the storage manager it makes.
-/
namespace Verif.Fin

/-- `FinDesc`, Heap.Mod 67-72. -/
structure Node where
  next : Nat
  obj : Nat
  marked : Bool
  deriving Repr, DecidableEq

/-- The nodes, the variable `fin`, the number of the next node, and the nodes whose finalizers have been called, the last
first. -/
structure FS where
  node : Nat → Node
  fin : Nat
  fresh : Nat
  log : List Nat

/-- The state at the start of the program, Heap.Mod 629. -/
def init : FS := ⟨fun _ => ⟨0, 0, false⟩, 0, 1, []⟩

/-- What a finalizer does, as far as finalization is concerned: it registers finalizers; it makes the collector run, with
`CheckFin` setting the `marked` fields to the values given. -/
inductive Act where
  | reg (obj : Nat)
  | gc (flags : List Bool)

/-- The behaviour of finalizers. -/
abbrev Beh := Nat → Nat → List Act

def upd (nd : Nat → Node) (n : Nat) (x : Node) : Nat → Node := fun k => if k = n then x else nd k

/-- `RegisterFinalizer(obj, finalize)`, Heap.Mod 594-599. -/
def register (s : FS) (obj : Nat) : FS :=
  { s with node := upd s.node s.fresh ⟨s.fin, obj, true⟩, fin := s.fresh, fresh := s.fresh + 1 }

/-- The objects in the list `fin`, as `CheckFin` visits them, Heap.Mod 487-494. -/
def objs : Nat → FS → Nat → Option (List Nat)
  | 0, _, _ => none
  | f + 1, s, n => if n = 0 then some [] else (objs f s (s.node n).next).map ((s.node n).obj :: ·)

/-- The assignments to `n.marked` in `CheckFin`, Heap.Mod 487-494: `flags` are the values, see `Heap.checkFin`. -/
def setMarked : Nat → FS → Nat → List Bool → Option FS
  | 0, _, _, _ => none
  | f + 1, s, n, flags =>
    if n = 0 then some s
    else match flags with
      | [] => none
      | b :: flags => setMarked f { s with node := upd s.node n { s.node n with marked := b } } (s.node n).next flags

/-- `IF n = fin THEN fin := fin.next ELSE prev.next := n.next END`, Heap.Mod 502; `none` is a store through NIL. -/
def unlink (s : FS) (n prev : Nat) : Option FS :=
  if n = s.fin then some { s with fin := (s.node s.fin).next }
  else if prev = 0 then none
  else some { s with node := upd s.node prev { s.node prev with next := (s.node n).next } }

mutual

/-- The loop of `Finalize`, Heap.Mod 500-509.  `none`: a store through NIL, or more steps than `f`. -/
def finalizeLoop : Nat → Beh → FS → Nat → Nat → Option FS
  | 0, _, _, _, _ => none
  | f + 1, beh, s, n, prev =>
    if n = 0 then some s
    else if (s.node n).marked = false then
      (unlink s n prev).bind fun s1 =>
      (acts f beh { s1 with log := n :: s1.log } (beh s1.log.length n)).bind fun s2 =>
      finalizeLoop f beh s2 (if prev = 0 then s2.fin else (s2.node n).next) prev
    else finalizeLoop f beh s (s.node n).next n

/-- The actions of a finalizer; a collection is `CheckFin` and `Finalize`, Heap.Mod 588-590. -/
def acts : Nat → Beh → FS → List Act → Option FS
  | 0, _, _, _ => none
  | _ + 1, _, s, [] => some s
  | f + 1, beh, s, .reg o :: as => acts f beh (register s o) as
  | f + 1, beh, s, .gc flags :: as =>
    (setMarked f s s.fin flags).bind fun s =>
    (finalizeLoop f beh s s.fin 0).bind fun s => acts f beh s as

end

/-- `Finalize`, Heap.Mod 497-510. -/
def finalize (f : Nat) (beh : Beh) (s : FS) : Option FS := finalizeLoop f beh s s.fin 0

/-- `FINALL`, Heap.Mod 512-519. -/
def finall : Nat → Beh → FS → Option FS
  | 0, _, _ => none
  | f + 1, beh, s =>
    if s.fin = 0 then some s
    else
      let n := s.fin
      let s := { s with fin := (s.node s.fin).next }
      (acts f beh { s with log := n :: s.log } (beh s.log.length n)).bind fun s => finall f beh s

/-- `GC(TRUE)`, Heap.Mod 554-592, with the calls of finalizers.  `roots` and `stack` are the global pointer variables and
the words of the stack. -/
def collect (f : Nat) (beh : Beh) (s : Heap.HS) (roots stack : List Nat) (fs : FS) : Option (Heap.HS × FS) := do
  let m ← Heap.markRoots f s.mem roots
  let m ← Heap.markStack 10000 f s m stack
  let os ← objs f fs fs.fin
  let (m, flags) ← Heap.checkFin f m os
  let fs ← setMarked f fs fs.fin flags
  let s ← Heap.scan f { s with mem := m }
  let fs ← finalize f beh fs
  some (s, fs)

end Verif.Fin
