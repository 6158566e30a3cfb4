import Verif.Registry.Model

/-!
# What the registry should contain (C25), and the order of initialization (C46)
-/
namespace Verif.Registry

/-- What happens to the registry.  Modules are numbered 1, 2, ... in the order of registration. -/
inductive Op where
  /-- A module with this name is registered. -/
  | reg (name : Name)
  /-- Module `m` registers the command `c` under the name. -/
  | cmd (m : Nat) (name : Name) (c : Nat)
  /-- Module `m` is imported. -/
  | imp (m : Nat)
  /-- The module with this name is to be unloaded. -/
  | free (name : Name)
  deriving DecidableEq

/-- A module in the registry, as the user sees it. -/
structure Entry where
  id : Nat
  name : Name
  refs : Nat
  cmds : List (Name × Nat)
  deriving DecidableEq

/-- The number of modules registered in a history. -/
def regs : List Op → Nat
  | [] => 0
  | .reg _ :: h => regs h + 1
  | _ :: h => regs h

/-- The modules in the registry after a history, the last operation first; the last module registered comes first. -/
def spec : List Op → List Entry
  | [] => []
  | .reg n :: h => ⟨regs h + 1, n, 0, []⟩ :: spec h
  | .cmd m n c :: h => (spec h).map fun e => if e.id = m then { e with cmds := (n, c) :: e.cmds } else e
  | .imp m :: h => (spec h).map fun e => if e.id = m then { e with refs := e.refs + 1 } else e
  | .free n :: h =>
    match (spec h).find? (fun e => e.name == n) with
    | some e => if e.refs = 0 then (spec h).filter (fun e' => e'.id ≠ e.id) else spec h
    | none => spec h

/-- The names fit in the arrays provided for them. -/
def Short (h : List Op) : Prop :=
  (∀ n, Op.reg n ∈ h → n.length ≤ 19) ∧ ∀ m n c, Op.cmd m n c ∈ h → n.length ≤ 23

/-- The histories of the code: `Run h s` says that the operations `h`, the last one first, lead to the state `s`. -/
inductive Run : List Op → RS → Prop where
  | init : Run [] init
  | reg {h : List Op} {s : RS} (n : Name) : Run h s → Run (.reg n :: h) (regMod s n).1
  | cmd {h : List Op} {s : RS} {m : Nat} (n : Name) (c : Nat) : Run h s → 1 ≤ m → m ≤ regs h → Run (.cmd m n c :: h) (regCmd s m n c)
  | imp {h : List Op} {s : RS} {m : Nat} : Run h s → 1 ≤ m → m ≤ regs h → Run (.imp m :: h) (incRef s m)
  | free {h : List Op} {s s' : RS} {n : Name} {r : Int} : Run h s →
      (∃ F, ∀ f, F ≤ f → freeModule f s n = some (s', r)) → Run (.free n :: h) s'

/-- Module `j` is needed by module `k`. -/
inductive Needs (prog : Prog) : Nat → Nat → Prop where
  | refl (k : Nat) : Needs prog k k
  | step {k i j : Nat} : i ∈ (prog k).imports → Needs prog i j → Needs prog k j

end Verif.Registry
