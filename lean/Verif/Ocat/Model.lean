import Mathlib.Data.List.Basic

/-!
# The program ocat: src/tools/ocat/OCatCmd.Mod, with src/library/v4/Console.Mod

Characters are bytes.  `none` is a failing index check.  A file is given as the characters that `Texts.Read` gives for it.
`Platform.Write` takes all bytes.
-/
namespace Verif.Ocat

/-- The variables of Console, Console.Mod 7-8: `line[0]` to `line[pos-1]`; and what was given to the operating system. -/
structure Con where
  line : List Nat
  out : List Nat

/-- `Flush`, Console.Mod 10-15. -/
def flush (s : Con) : Con := ⟨[], s.out ++ s.line⟩

/-- `Char`, Console.Mod 17-22. -/
def char (s : Con) (c : Nat) : Con :=
  let s := if s.line.length = 128 then flush s else s
  let s := ⟨s.line ++ [c], s.out⟩
  if c = 10 then flush s else s

/-- `String`, Console.Mod 24-28: the characters before 0X; a trap if there is no 0X. -/
def string : List Nat → Con → Option Con
  | [], _ => none
  | c :: t, s => if c ≠ 0 then string t (char s c) else some s

/-- The variables `buf` and `bufpos`, OCatCmd.Mod 9, and those of Console. -/
structure State where
  buf : List Nat
  bufpos : Nat
  con : Con

/-- `a[i] := c`. -/
def wr (a : List Nat) (i c : Nat) : Option (List Nat) := if i < a.length then some (a.set i c) else none

/-- `ConsoleChar`, OCatCmd.Mod 11-14. -/
def consoleChar (s : State) (c : Nat) : Option State := do
  let b ← wr s.buf s.bufpos c
  if s.bufpos + 1 = b.length - 1 then do
    let b ← wr b (s.bufpos + 1) 0
    let con ← string b s.con
    pure ⟨b, 0, con⟩
  else pure ⟨b, s.bufpos + 1, s.con⟩

/-- One character of the text, OCatCmd.Mod 27-31. -/
def one (tab : Bool) (s : State) (c : Nat) : Option State :=
  if c ≥ 32 then consoleChar s c
  else if c = 9 then
    if tab then consoleChar s c
    else do
      let s ← consoleChar s 32
      consoleChar s 32
  else if c = 13 then consoleChar s 10
  else some s

/-- The loop over the text, and the rest of the buffer, OCatCmd.Mod 26-34. -/
def body (tab : Bool) : List Nat → State → Option State
  | [], s => do
    let b ← wr s.buf s.bufpos 0
    let con ← string b s.con
    pure ⟨b, s.bufpos, con⟩
  | c :: t, s => do
    let s ← one tab s c
    body tab t s

/-- The literal of OCatCmd.Mod 36, as bytes, with 0X: "ocat: cannot open ". -/
def cannot : List Nat := [111, 99, 97, 116, 58, 32, 99, 97, 110, 110, 111, 116, 32, 111, 112, 101, 110, 32, 0]

/-- One name, OCatCmd.Mod 23-37; `old` is what the search path gives. -/
def file (old : List Nat → Option (List Nat)) (tab : Bool) (path : List Nat) (s : State) : Option State :=
  match old path with
  | some text => body tab text { s with bufpos := 0 }
  | none => do
    let con ← string cannot s.con
    let con ← string (path ++ [0]) con
    pure { s with con := char con 10 }

/-- `Args.Get(n, path)` with the value of `path` before, Args.Mod 17, Modules.Mod 48-56; `args` begins with argument 1.
`path` has room for 127 characters and 0X. -/
def get (args : List (List Nat)) (n : Nat) (path : List Nat) : List Nat :=
  match args[n - 1]? with
  | some a => a.take 127
  | none => path

/-- The loop over the names, OCatCmd.Mod 22-40; the first argument bounds the number of rounds. -/
def loop (old : List Nat → Option (List Nat)) (args : List (List Nat)) (tab : Bool) : Nat → Nat → List Nat → State → Option State
  | 0, _, _, s => some s
  | f + 1, i, path, s =>
    if path ≠ [] then do
      let s ← file old tab path s
      loop old args tab f (i + 1) (get args (i + 1) []) s
    else some s

/-- "-t". -/
def optT : List Nat := [45, 116]

/-- `Cat`, OCatCmd.Mod 7-41. -/
def cat (old : List Nat → Option (List Nat)) (args : List (List Nat)) (s : State) : Option State :=
  let path := get args 1 []
  if path = optT then loop old args true (args.length + 1) 2 (get args 2 path) s
  else loop old args false (args.length + 1) 1 path s

end Verif.Ocat
