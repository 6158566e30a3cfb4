import Mathlib.Data.List.Basic

/-!
# What is linked into a program, src/compiler/OPT.Mod 409, 750-762, 1043-1075, 1092-1097, src/compiler/Compiler.Mod 84-157, src/compiler/extTools.Mod

Each symbol file has a list of the modules that must be linked with its module.  When a main program is compiled the lists of its imports are joined, the modules with
a symbol file and an object file in the current directory are named in the command that compiles and links the C file, and the command is given to the shell.

An array of characters is its text; a text as long as the array has no terminator.  Simplified: compilations are successful unless an import is not found or a
name does not fit in its array (the index check stops the compiler); the C compiler writes an object file; options -S, -c and -A are not used; `imports` does not have SYSTEM;
whether the interface has changed (`changed`: `symNew`, `symExtended` or another `reffp`, OPT.Mod 1282-1287; C69 is about that) is given.  Only the compiler changes the
directory.  The search path has the current directory first (OPM.Mod 345-352), as it has unless the variable OBERON is set.
-/
namespace Verif.Linking

abbrev Text := List Char

/-- `Strings.Append(extra, dest)`, src/runtime/Strings.Mod 42-48, for a `dest` of `cap` characters (`append_text` compares it with the model of C31). -/
def app (cap : Nat) (extra dest : Text) : Text := (dest ++ extra).take cap

/-- `COPY(src, dest)`: `__COPY`, src/runtime/SYSTEM.h 161-162. -/
def copy (cap : Nat) (src : Text) : Text := src.take (cap - 1)

/-- `OPM.MakeFileName`, src/compiler/OPM.Mod 400-410, for a `FileName` (OPM.Mod 85); `none`: index out of range. -/
def makeFileName (name ext : Text) : Option Text := if name.length + ext.length + 1 ≤ 32 then some (name ++ ext) else none

/-- `SFext`, src/compiler/OPM.Mod 75. -/
def sfExt : Text := ".sym".toList

/-- The module Configuration, src/tools/make/configure.c 393-413. -/
structure Config where
  name : Text
  objext : Text
  objflag : Text
  linkflags : Text
  libspec : Text
  libext : Text
  os : Text
  compiler : Text
  compile : Text
  staticLink : Text

/-- `OPM.InstallDir`, `OPM.ResourceDir`, `OPM.Model`, src/compiler/OPM.Mod 90, 122-123; the environment variable CFLAGS. -/
structure Env where
  installDir : Text
  resourceDir : Text
  model : Text
  cflags : Text

/-- The current directory: the symbol files (with the list `Links` each has) and the object files. -/
structure Disk where
  sym : Text → Option (List Text)
  obj : Text → Bool

def upd {β : Type} (g : Text → β) (k : Text) (v : β) : Text → β := fun i => if i = k then v else g i

/-- `OPM.OldSym`, src/compiler/OPM.Mod 582-597: in the current directory, or else in the library. -/
def look (lib : Text → Option (List Text)) (d : Disk) (fn : Text) : Option (List Text) :=
  match d.sym fn with
  | some l => some l
  | none => lib fn

/-- `InLinks`, src/compiler/OPT.Mod 750-762. -/
def inLinks : List Text → List Text → List Text
  | links, [] => links
  | links, n :: ns => inLinks (if n ∈ links then links else n :: links) ns

/-- The calls of `Import`, src/compiler/OPT.Mod 1043-1075, as far as `Links`: `none` is error 152. -/
def imports (lib : Text → Option (List Text)) (d : Disk) : List Text → List Text → Option (List Text)
  | links, [] => some links
  | links, i :: is =>
    (makeFileName i sfExt).bind fun fn =>
    (look lib d fn).bind fun l => imports lib d (inLinks links l) is

/-- A compilation: the module, its imports, option -F, whether the interface is not that of the old symbol file. -/
structure Job where
  mod : Text
  imps : List Text
  force : Bool
  changed : Bool

/-- `Links` in `Export`: `OPT.Init` 409, the imports, then `Import("@self", ...)`, src/compiler/OPT.Mod 1273; and whether there was an old symbol file. -/
def collect (lib : Text → Option (List Text)) (d : Disk) (j : Job) : Option (List Text × Bool) :=
  (imports lib d [j.mod] j.imps).bind fun links =>
  (makeFileName j.mod sfExt).map fun fn =>
  if j.force then (links, false)
  else match look lib d fn with
    | some l => (inLinks links l, true)
    | none => (links, false)

/-- Compiling a module that is not a main program: `Compiler.Module` and `Assemble`, src/compiler/Compiler.Mod 9-43, 138-140. -/
def compile (cfg : Config) (lib : Text → Option (List Text)) (d : Disk) (j : Job) : Option Disk :=
  (collect lib d j).bind fun (links, present) =>
  (makeFileName j.mod sfExt).bind fun sf =>
  (makeFileName j.mod cfg.objext).map fun «of» =>
  { sym := if !present || j.changed then upd d.sym sf (some links) else d.sym
    obj := upd d.obj «of» true }

/-- `FindLocalObjectFiles`, src/compiler/Compiler.Mod 84-113 (the warning is not modelled). -/
def findLocal (cfg : Config) (d : Disk) : Text → List Text → Text
  | names, [] => names
  | names, l :: ls =>
    if (d.sym (app 64 sfExt (copy 64 l))).isSome ∧ d.obj (app 64 cfg.objext (copy 64 l)) then
      findLocal cfg d (app 2048 (app 64 cfg.objext (copy 64 l)) (app 2048 [' '] names)) ls
    else findLocal cfg d names ls

/-- Calls of `Strings.Append` to a `CommandString`, src/compiler/extTools.Mod 5. -/
def appends (cmd : Text) : List Text → Text
  | [] => cmd
  | t :: ts => appends (app 4096 t cmd) ts

/-- `InitialiseCompilerCommand`, src/compiler/extTools.Mod 47-58. -/
def initCommand (cfg : Config) (env : Env) (opts : Text) : Text :=
  appends (copy 4096 cfg.compile)
    [" -I \"".toList, env.resourceDir, "/include\" ".toList, opts, [' '], copy 4096 env.cflags, [' ']]

/-- What `execute` gives to the shell, src/compiler/extTools.Mod 10-29; `none`: no terminator. -/
def execute (cfg : Config) (cmd : Text) : Option Text :=
  if cfg.compiler = "MSC".toList then
    let full := appends "cmd /c ".toList [cmd, " >msc-listing || type msc-listing".toList]
    if full.length < 4096 then some full else none
  else some (copy 4096 cmd)

/-- `Assemble`, src/compiler/extTools.Mod 61-70. -/
def assemble (cfg : Config) (env : Env) (mod : Text) : Option Text :=
  execute cfg (appends (initCommand cfg env []) ["-c ".toList, mod, ".c".toList])

/-- `LinkMain`, src/compiler/extTools.Mod 73-121: the commands (the second one only if the first succeeds). -/
def linkMain (cfg : Config) (env : Env) (mod : Text) (statically : Bool) (opts : Text) : List (Option Text) :=
  let darwin := cfg.os = "darwin".toList
  let cmd := appends (initCommand cfg env opts) [mod, ".c ".toList]
  let cmd :=
    if statically then
      if darwin then appends cmd [env.installDir, "/lib/lib".toList, cfg.name, "-O".toList, env.model, ".a".toList]
      else appends cmd [cfg.staticLink]
    else cmd
  let cmd := appends cmd [cfg.objflag, mod]
  let cmd :=
    if !statically ∨ ¬ darwin then
      appends cmd [cfg.linkflags, env.installDir, "/lib\"".toList, cfg.libspec, "-O".toList, env.model, cfg.libext]
    else cmd
  execute cfg cmd ::
    (if darwin ∧ !statically then
      [execute cfg (appends "install_name_tool -change lib".toList
        [cfg.name, "-O".toList, env.model, ".dylib \"".toList, env.installDir, "/lib/lib".toList, cfg.name, "-O".toList, env.model, ".dylib\" ".toList, mod])]
    else [])

/-- Compiling and linking a main program: `Compiler.Module` (`DeleteSym`, `DeleteObj`) and `Translate`, src/compiler/Compiler.Mod 9-43, 133-149.  `modName` has 32 characters
(OPM.Mod 107, 748). -/
def link (cfg : Config) (env : Env) (lib : Text → Option (List Text)) (d : Disk) (j : Job) (statically : Bool) : Option (List (Option Text)) :=
  (collect lib d j).bind fun (links, _) =>
  (makeFileName j.mod sfExt).bind fun sf =>
  (makeFileName j.mod cfg.objext).map fun «of» =>
  linkMain cfg env (copy 32 j.mod) statically (findLocal cfg { sym := upd d.sym sf none, obj := upd d.obj «of» false } [] links)

/-- A history of compilations, beginning in a directory without symbol files and object files. -/
def run (cfg : Config) (lib : Text → Option (List Text)) : Disk → List Job → Option Disk
  | d, [] => some d
  | d, j :: js => (compile cfg lib d j).bind fun d => run cfg lib d js

def empty : Disk := ⟨fun _ => none, fun _ => false⟩

end Verif.Linking
