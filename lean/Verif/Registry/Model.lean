/-!
# The registry of modules and commands, and the initialization of modules

Heap.Mod 131-190, Modules.Mod 223-264, the macros `__DEFMOD`, `__REGMOD`, `__MODULE_IMPORT` ... of SYSTEM.h 255-275 and the
function `M__init` the compiler generates for each module (OPC.Mod 845-937).

Simplifications.  A `ModuleDesc` and a `CmdDesc` are records of a store, addressed by positive numbers; 0 is NIL.  Fresh
records get fresh addresses: allocation itself is modelled in `Verif.Heap`.  Names are lists of character codes without the
terminator.  The fields `types` and `enumPtrs` and the texts in `resMsg` and `importing` are not modelled.
-/
namespace Verif.Registry

abbrev Name := List Nat

/-- `CmdDesc`, Heap.Mod 57-61. -/
structure Cmd where
  name : Name
  next : Nat
  cmd : Nat

/-- `ModuleDesc`, Heap.Mod 43-52. -/
structure Mod where
  next : Nat
  name : Name
  refcnt : Nat
  cmds : Nat

/-- The registry: `modules` (Heap.Mod 83) and the records; `fm` and `fc` are the next fresh addresses. -/
structure RS where
  mods : Nat → Mod
  cs : Nat → Cmd
  modules : Nat
  fm : Nat
  fc : Nat

def init : RS := ⟨fun _ => ⟨0, [], 0, 0⟩, fun _ => ⟨[], 0, 0⟩, 0, 1, 1⟩

def updM (f : Nat → Mod) (n : Nat) (x : Mod) : Nat → Mod := fun k => if k = n then x else f k
def updC (f : Nat → Cmd) (n : Nat) (x : Cmd) : Nat → Cmd := fun k => if k = n then x else f k

/-- `COPY(name, m.name)` into an array of `n` characters, SYSTEM.h 161-162: at most `n - 1` characters. -/
def copyName (n : Nat) (name : Name) : Name := name.take (n - 1)

/-- `REGMOD`, Heap.Mod 131-147; `ModNameLen` is 20. -/
def regMod (s : RS) (name : Name) : RS × Nat :=
  let m := s.fm
  ({ s with mods := updM s.mods m ⟨s.modules, copyName 20 name, 0, 0⟩, modules := m, fm := m + 1 }, m)

/-- `REGCMD`, Heap.Mod 165-178; `CmdNameLen` is 24. -/
def regCmd (s : RS) (m : Nat) (name : Name) (cmd : Nat) : RS :=
  let c := s.fc
  { s with cs := updC s.cs c ⟨copyName 24 name, (s.mods m).cmds, cmd⟩, mods := updM s.mods m { s.mods m with cmds := c }, fc := c + 1 }

/-- `INCREF`, Heap.Mod 184-186. -/
def incRef (s : RS) (m : Nat) : RS :=
  { s with mods := updM s.mods m { s.mods m with refcnt := (s.mods m).refcnt + 1 } }

/-- The search `WHILE (m # NIL) & (m.name # name) DO p := m; m := m.next END`, Heap.Mod 153 and Modules.Mod 229. -/
def search : Nat → RS → Name → Nat → Nat → Option (Nat × Nat)
  | 0, _, _, _, _ => none
  | f + 1, s, name, m, p =>
    if m ≠ 0 ∧ (s.mods m).name ≠ name then search f s name (s.mods m).next m else some (m, p)

/-- `FreeModule`, Heap.Mod 149-162. -/
def freeModule (f : Nat) (s : RS) (name : Name) : Option (RS × Int) :=
  (search f s name s.modules 0).bind fun (m, p) =>
    if m ≠ 0 ∧ (s.mods m).refcnt = 0 then
      if m = s.modules then some ({ s with modules := (s.mods m).next }, 0)
      else some ({ s with mods := updM s.mods p { s.mods p with next := (s.mods m).next } }, 0)
    else if m = 0 then some (s, -1)
    else some (s, (s.mods m).refcnt)

/-- `ThisMod`, Modules.Mod 226-235: the module, or NIL, and `res`. -/
def thisMod (f : Nat) (s : RS) (name : Name) : Option (Nat × Nat) :=
  (search f s name s.modules 0).bind fun (m, _) => if m ≠ 0 then some (m, 0) else some (0, 1)

/-- The search in the list of commands, Modules.Mod 240. -/
def searchCmd : Nat → RS → Name → Nat → Option Nat
  | 0, _, _, _ => none
  | f + 1, s, name, c => if c ≠ 0 ∧ (s.cs c).name ≠ name then searchCmd f s name (s.cs c).next else some c

/-- `ThisCommand`, Modules.Mod 237-246: the command, or NIL (0), and `res`. -/
def thisCommand (f : Nat) (s : RS) (m : Nat) (name : Name) : Option (Nat × Nat) :=
  (searchCmd f s name (s.mods m).cmds).bind fun c => if c ≠ 0 then some ((s.cs c).cmd, 0) else some (0, 2)

/-- `Free(name, all)`, Modules.Mod 248-264: the value of `res`. -/
def free (f : Nat) (s : RS) (name : Name) (all : Bool) : Option (RS × Nat) :=
  if all then some (s, 1)
  else (freeModule f s name).bind fun (s, refcount) => if refcount = 0 then some (s, 0) else some (s, 1)

/-! ## Initialization of modules -/

/-- What the compiler knows of a module: the modules it imports, in the order of `InitImports` (OPC.Mod 859-870), and the
commands it registers (`RegCmds`, OPC.Mod 845-857). -/
structure ModDef where
  name : Name
  imports : List Nat
  cmds : List (Name × Nat)

/-- A program: its modules. -/
abbrev Prog := Nat → ModDef

/-- The state while the program starts: the registry, the variable `static void *m` of each module (SYSTEM.h 255), and the
modules whose bodies have been executed, the last one first. -/
structure IS where
  reg : RS
  st : Nat → Nat
  log : List Nat

/-- The calls of `__REGCMD` in `M__init`. -/
def regCmds (s : RS) (m : Nat) : List (Name × Nat) → RS
  | [] => s
  | (n, c) :: cs => regCmds (regCmd s m n c) m cs

mutual

/-- `k__init`, OPC.Mod 907-937 with the macros of SYSTEM.h 255-259.  The body of the module does not use the registry
(simplification); that it is executed is recorded in `log`.  `none`: not within `f` steps. -/
def initMod : Nat → Prog → IS → Nat → Option (IS × Nat)
  | 0, _, _, _ => none
  | f + 1, prog, s, k =>
    if s.st k ≠ 0 then some (s, s.st k)
    else (initImports f prog s (prog k).imports).bind fun s =>
      let r := if s.st k ≠ 0 then (s.reg, s.st k) else regMod s.reg (prog k).name
      some (⟨regCmds r.1 r.2 (prog k).cmds, fun j => if j = k then r.2 else s.st j, k :: s.log⟩, r.2)

/-- `__MODULE_IMPORT(i)` for the modules imported, SYSTEM.h 259. -/
def initImports : Nat → Prog → IS → List Nat → Option IS
  | 0, _, _, _ => none
  | _ + 1, _, s, [] => some s
  | f + 1, prog, s, i :: is =>
    (initMod f prog s i).bind fun (s, m) => initImports f prog ⟨incRef s.reg m, s.st, s.log⟩ is

end

/-- The function `main`, SYSTEM.h 270-275: `Modules_Init` initializes the modules Heap and Modules (Modules.Mod 43-45), then
`main` itself is like `M__init`. -/
def main (f : Nat) (prog : Prog) (heap modules k : Nat) : Option IS :=
  (initMod f prog ⟨init, fun _ => 0, []⟩ heap).bind fun r =>
  (initMod f prog r.1 modules).bind fun r =>
  (initImports f prog r.1 (prog k).imports).bind fun s =>
    let r := regMod s.reg (prog k).name
    some ⟨regCmds r.1 r.2 (prog k).cmds, fun j => if j = k then r.2 else s.st j, k :: s.log⟩

end Verif.Registry
