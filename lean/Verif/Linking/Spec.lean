import Verif.Linking.Model
import Mathlib.Logic.Relation

/-!
# Which object files belong to a program, and the words of a command
-/
namespace Verif.Linking

/-! ## Words, as a shell finds them: separated by blanks, except between quotation marks -/

/-- `q`: between quotation marks; `cur`: the word so far. -/
def lex : Bool → Option Text → Text → List Text
  | _, none, [] => []
  | _, some w, [] => [w]
  | q, cur, c :: cs =>
    if c = '"' then lex (!q) (some (cur.getD [])) cs
    else if c = ' ' ∧ q = false then cur.toList ++ lex q none cs
    else lex q (some (cur.getD [] ++ [c])) cs

def words (t : Text) : List Text := lex false none t

/-- Between quotation marks after `t`? -/
def open_ : Bool → Text → Bool
  | q, [] => q
  | q, c :: cs => open_ (if c = '"' then !q else q) cs

/-- All quotation marks are paired. -/
def Closed (t : Text) : Prop := open_ false t = false

/-- A name: some characters, no blanks, no quotation marks. -/
def Plain (t : Text) : Prop := t ≠ [] ∧ ' ' ∉ t ∧ '"' ∉ t

/-! ## Imports -/

/-- When a module was compiled the last time (the position in the history), and that compilation; the history has the last compilation first. -/
def last : List Job → Text → Option (Nat × Job)
  | [], _ => none
  | j :: js, m => if j.mod = m then some (js.length, j) else last js m

/-- `m` was compiled, and its source imported `i` the last time. -/
def Imports (h : List Job) (m i : Text) : Prop := ∃ t j, last h m = some (t, j) ∧ i ∈ j.imps

/-- The program that imports `imps` needs `n`. -/
def Needs (h : List Job) (imps : List Text) (n : Text) : Prop := ∃ i ∈ imps, Relation.ReflTransGen (Imports h) i n

/-- `m` was compiled in this directory. -/
def Compiled (h : List Job) (m : Text) : Prop := ∃ t j, last h m = some (t, j)

/-- The modules the program needs were compiled in order: each after those it imports. -/
def InOrder (h : List Job) (imps : List Text) : Prop :=
  ∀ m i t j t' j', Needs h imps m → last h m = some (t, j) → i ∈ j.imps → last h i = some (t', j') → t' < t

/-- The last time each of them was compiled it got a new symbol file: it had none, or option -F was given, or its interface changed. -/
def Renewed (h : List Job) (imps : List Text) : Prop :=
  ∀ m t j, Needs h imps m → last h m = some (t, j) → j.force = true ∨ j.changed = true ∨ ∀ k ∈ h.drop (h.length - t), k.mod ≠ m

/-- ... with nothing of an old symbol file: it had none, or option -F was given. -/
def Clean (h : List Job) (imps : List Text) : Prop :=
  ∀ m t j, Needs h imps m → last h m = some (t, j) → j.force = true ∨ ∀ k ∈ h.drop (h.length - t), k.mod ≠ m

/-- The library is apart: the modules compiled here are not in the library, and not in the lists of its symbol files. -/
def Apart (lib : Text → Option (List Text)) (h : List Job) : Prop :=
  (∀ j ∈ h, lib (j.mod ++ sfExt) = none) ∧ ∀ fn l n, lib fn = some l → n ∈ l → ¬ Compiled h n

/-! ## The usual configuration -/

/-- A configuration for Unix other than macOS, src/tools/make/configure.c 46-63, 107, 129, 133-150. -/
structure Unix (cfg : Config) : Prop where
  objext : cfg.objext = ".o".toList
  objflag : cfg.objflag = " -o ".toList
  linkflags : cfg.linkflags = " -L\"".toList
  libspec : cfg.libspec = " -l".toList ++ cfg.name
  libext : cfg.libext = []
  os : cfg.os ≠ "darwin".toList
  compiler : cfg.compiler ≠ "MSC".toList
  name : Plain cfg.name
  compile : Closed cfg.compile
  staticLink : cfg.staticLink = [] ∨ cfg.staticLink = " -static".toList

/-- The directories and the options have no unpaired quotation marks. -/
structure Env.Ok (env : Env) : Prop where
  installDir : '"' ∉ env.installDir
  resourceDir : '"' ∉ env.resourceDir
  model : Plain env.model
  cflags : Closed env.cflags

/-- The words of the command that compiles and links. -/
def linkWords (cfg : Config) (env : Env) (mod : Text) (statically : Bool) (objs : List Text) : List Text :=
  words cfg.compile ++ ["-I".toList, env.resourceDir ++ "/include".toList] ++ objs ++ words env.cflags ++ [mod ++ ".c".toList] ++
    (if statically then words cfg.staticLink else []) ++ ["-o".toList, mod, "-L".toList ++ env.installDir ++ "/lib".toList, "-l".toList ++ cfg.name ++ "-O".toList ++ env.model]

/-- The length of the command. -/
def linkLength (cfg : Config) (env : Env) (mod : Text) (statically : Bool) (objs : List Text) : Nat :=
  cfg.compile.length + env.resourceDir.length + (objs.map fun o => o.length + 1).sum + env.cflags.length + 2 * mod.length +
    (if statically then cfg.staticLink.length else 0) + env.installDir.length + cfg.name.length + env.model.length + 38

end Verif.Linking
