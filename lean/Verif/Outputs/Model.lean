import Verif.Outputs.Spec

/-!
# The files a compilation writes: `Module`, src/compiler/Compiler.Mod 9-44; `Export`, src/compiler/OPT.Mod 1269-1295; `Import`, OPT.Mod
1051-1052; `OpenFiles`, `CloseFiles`, `RegisterNewSym`, `DeleteSym` and `DeleteObj`, src/compiler/OPM.Mod 628-641, 745-777; `Register`,
`Create`, `Deregister` and `Delete`, src/runtime/Files.Mod 125-183, 521-525, 576-587; `FindLocalObjectFiles`, Compiler.Mod 84-112

Simplifications.  The translation is represented by its results and by the stage in which the first error is found.  Files are written in
pieces (the buffers of Files.Mod, see Verif.Files); whether the symbol file has to be replaced is in Verif.SymUpdate, here it is replaced if it
differs from the old one.  The old symbol file is looked for in the current directory first, then elsewhere.  A crash may happen between any two calls of the operating system, which take effect at once and in order.  The C compiler makes an
object file in one step.  The module is not `SYSTEM`.
-/
namespace Verif.Outputs

/-- Calls of the operating system. -/
inductive Sys where
  /-- `unlink`, or `rename` to the name of a temporary file. -/
  | remove (f : F)
  | removeObj
  /-- `open` with `O_CREAT | O_TRUNC`. -/
  | create (f : F)
  | append (f : F) (b : Bytes)
  /-- `rename` from a temporary file with these contents. -/
  | replace (f : F) (b : Bytes)
  deriving DecidableEq, Repr

/-- The effect of a call. -/
def sys (d : Disk) : Sys → Disk
  | .remove f => { d with file := fun x => if x = f then none else d.file x }
  | .removeObj => { d with obj := none }
  | .create f => { d with file := fun x => if x = f then some [] else d.file x }
  | .append f b => { d with file := fun x => if x = f then some ((d.file f).getD [] ++ b) else d.file x }
  | .replace f b => { d with file := fun x => if x = f then some b else d.file x }

/-- `Register`, Files.Mod 576-587: a file of at most four pieces is still in its buffers and is written under its name (`Create` 166-174,
`Flush`); a larger one is in a temporary file, which is renamed.  `isOpen`: the old file is open, and `Deregister` (Files.Mod 125-148) renames
it first. -/
def register (f : F) (pieces : List Bytes) (isOpen : Bool) : List Sys :=
  (if isOpen then [.remove f] else []) ++
  (if pieces.length ≤ 4 then [.remove f, .create f] ++ pieces.map (.append f) else [.replace f pieces.flatten])

/-- The stage in which the first error is found. -/
inductive Stage where
  /-- Reading the text. -/
  | parse
  /-- Computing the sizes of types (`AdrAndSize`, OPV.Mod 71, 117), or reading the old symbol file. -/
  | sizes
  /-- Comparing with the old symbol file, writing the new one. -/
  | export
  /-- Writing the C text. -/
  | gen
  deriving DecidableEq, Repr

/-- A compilation: the first error, the options `-F` and `-m`, the pieces of the files, and the symbol file of a module with this name that is
found elsewhere on the search path. -/
structure Job where
  error : Option Stage
  force : Bool
  main : Bool
  sym : List Bytes
  h : List Bytes
  c : List Bytes
  lib : Option Bytes

/-- What the text is translated to. -/
def Job.out (j : Job) : Out := if j.main then ⟨none, none, j.c.flatten⟩ else ⟨some j.sym.flatten, some j.h.flatten, j.c.flatten⟩

/-- The old symbol file, `OldSym`, OPM.Mod 582-597: in the current directory, or elsewhere on the search path. -/
def old (j : Job) (d : Disk) : Option Bytes := (d.file .sym).or j.lib

/-- The calls of `Module`, Compiler.Mod 9-44, in order. -/
def compile (j : Job) (d : Disk) : List Sys :=
  if j.error = some .parse then []
  else
    (if j.force then [.remove .sym] else []) ++
    (if j.error = some .sizes then []
     else if j.error = some .export then [.remove .sym]
     else
      [.removeObj] ++
      (if j.error = some .gen then [.remove .sym]
       else if j.main then [.remove .sym, .remove .h, .remove .sym] ++ register .c j.c false
       else
        (if j.force ∨ old j d ≠ some j.sym.flatten then register .sym j.sym (!j.force && (d.file .sym).isSome) else []) ++
        register .h j.h false ++ register .c j.c false))

/-- The C compiler makes the object file. -/
def assemble (d : Disk) : Disk := { d with obj := some (d.file .h, d.file .c) }

/-- What happens: a compilation that is interrupted after some calls, or one that ends; after that, if there was no error, the C
compiler is called to make an object file, if the options say so (`cc`; Compiler.Mod 137-152) and it finds no fault. -/
inductive Event where
  | crash (j : Job) (after : Nat)
  | full (j : Job) (cc : Bool)

/-- The effect of an event. -/
def event (d : Disk) : Event → Disk
  | .crash j n => ((compile j d).take n).foldl sys d
  | .full j cc =>
    let d' := (compile j d).foldl sys d
    if j.error = none ∧ cc then assemble d' else d'

/-- A history. -/
def run (d : Disk) (es : List Event) : Disk := es.foldl event d

/-- `FindLocalObjectFiles`, Compiler.Mod 84-112: the object file is linked if there is also a symbol file. -/
def linked (d : Disk) : Bool := (d.file .sym).isSome && d.obj.isSome

end Verif.Outputs
