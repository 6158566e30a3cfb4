import Verif.Cmdline.Spec

/-!
# The command line of the compiler, src/compiler/OPM.Mod 177-382, src/compiler/Compiler.Mod 116-157, src/compiler/extTools.Mod 10-44

Simplifications.  The position `S` in the arguments is given by the arguments that are left.  There are fewer than 32768 arguments
(`ArgCount` is an INTEGER).  Messages are left out.  The search path set by `InitOptions` and the commands for the C compiler are left
out; what the compiler and the C compiler do with a file is given from outside.  Only Unix.
-/
namespace Verif.Cmdline

/-- `Options` (a SET, as a number), `Model[0]`, `AddressSize`, `Alignment`. -/
structure Settings where
  options : Nat
  model : Char
  address : Int
  alignment : Int
deriving DecidableEq, Repr

/-- The numbers of the options, src/compiler/OPM.Mod 13-26. -/
def Opt.bit : Opt → Nat
  | .inxchk => 0 | .ranchk => 2 | .typchk => 3 | .newsf => 4 | .ptrinit => 5 | .assert => 7 | .extsf => 9 | .mainprog => 10
  | .dontasm => 13 | .dontlink => 14 | .mainlinkstat => 15 | .notcoloroutput => 16 | .forcenewsym => 17 | .verbose => 18

/-- `Options := Options / {o}`. -/
def toggle (o : Opt) (s : Settings) : Settings := { s with options := s.options ^^^ 2 ^ o.bit }

/-- The CASE for options that are on or off, src/compiler/OPM.Mod 184-206; other characters are ignored (222-228). -/
def scanFlag (c : Char) (s : Settings) : Settings :=
  match c with
  | 'p' => toggle .ptrinit s
  | 'a' => toggle .assert s
  | 'r' => toggle .ranchk s
  | 't' => toggle .typchk s
  | 'x' => toggle .inxchk s
  | 'e' => toggle .extsf s
  | 's' => toggle .newsf s
  | 'F' => toggle .forcenewsym s
  | 'm' => toggle .mainprog s
  | 'M' => toggle .mainlinkstat s
  | 'S' => toggle .dontasm s
  | 'c' => toggle .dontlink s
  | 'f' => toggle .notcoloroutput s
  | 'V' => toggle .verbose s
  | _ => s

/-- `ScanOptions`, src/compiler/OPM.Mod 179-231, from position `i` on. -/
def scanFrom (s : Settings) : List Char → Settings
  | [] => s
  | ['O'] => scanFrom s []
  | 'O' :: c :: cs => scanFrom { s with model := c } cs
  | 'A' :: a :: b :: cs => scanFrom { s with address := (a.toNat : Int) - 48, alignment := (b.toNat : Int) - 48 } cs
  | 'A' :: cs => scanFrom s cs
  | c :: cs => scanFrom (scanFlag c s) cs

/-- `i := 1; (* skip - *)`. -/
def scanOptions (s : Settings) (arg : List Char) : Settings := scanFrom s (arg.drop 1)

/-- `s := ""; Modules.GetArg(S, s)` into an ARRAY 256 OF CHAR, src/runtime/Modules.Mod 48-56. -/
def getArg : List (List Char) → List Char
  | [] => []
  | a :: _ => a.take 255

/-- `WHILE s[0] = OptionChar DO ScanOptions(s); INC(S); s:=""; Modules.GetArg(S, s) END`, src/compiler/OPM.Mod 297-301, 321-325. -/
def scanArgs (s : Settings) : List (List Char) → Settings × List (List Char)
  | [] => (s, [])
  | a :: rest => if (getArg (a :: rest)).head? = some '-' then scanArgs (scanOptions s (getArg (a :: rest))) rest else (s, a :: rest)

/-- `{inxchk, typchk, ptrinit, assert}` etc., src/compiler/OPM.Mod 291-294; `host` is the address size and alignment of the compiler. -/
def initial (host : Int × Int) : Settings := ⟨2 ^ 0 + 2 ^ 3 + 2 ^ 5 + 2 ^ 7, '2', host.1, host.2⟩

/-- `OpenPar`, src/compiler/OPM.Mod 289-310: the global settings and what is left. -/
def openPar (host : Int × Int) (args : List (List Char)) : Settings × List (List Char) := scanArgs (initial host) args

/-- `InitOptions`, src/compiler/OPM.Mod 319-327. -/
def initOptions (global : Settings) (args : List (List Char)) : Settings × List (List Char) :=
  let (s, rest) := scanArgs global args
  (if s.options.testBit 15 then { s with options := s.options ||| 2 ^ 10 } else s, rest)

/-- The sizes of SHORTINT, INTEGER, LONGINT and SET, src/compiler/OPM.Mod 330-335. -/
def sizes (model : Char) : Nat × Nat × Nat × Nat :=
  match model with
  | '2' => (1, 2, 4, 4)
  | 'C' => (2, 4, 8, 4)
  | 'V' => (1, 4, 8, 8)
  | _ => (1, 2, 4, 4)

/-- What is done: a module is compiled, its C text is compiled, or compiled and linked. -/
inductive Act where
  | compile (name : List Char) (s : Settings)
  | assemble (name : List Char) (s : Settings)
  | link (name : List Char) (s : Settings) (static : Bool)
deriving DecidableEq, Repr

/-- What is there, by the number of the file: is it found (and not empty); is it compiled; the result of `system` for its C text. -/
structure World where
  found : Nat → Bool
  compiled : Nat → Bool
  system : Nat → Nat

/-- The value of an int as an INTEGER (16 bits). -/
def int16 (w : Nat) : Int := ((w : Int) + 32768) % 65536 - 32768

/-- `execute`, src/compiler/extTools.Mod 29-43: none, or the argument of `Halt`. -/
def execute (w : Nat) : Option Int :=
  let r := int16 w
  let status := r % 128
  let exitcode := r / 256
  let exitcode := if exitcode > 127 then exitcode - 256 else exitcode
  if r ≠ 0 then some (if status ≠ 0 then status else exitcode) else none

/-- What is done with the C text, src/compiler/Compiler.Mod 139-154 (`name` is that of the file; the code uses the name of the module). -/
def toC (name : List Char) (s : Settings) : Option Act :=
  if !s.options.testBit 13 then
    if s.options.testBit 14 then some (.assemble name s)
    else if !s.options.testBit 10 then some (.assemble name s)
    else some (.link name s (s.options.testBit 15))
  else none

/-- One round of the loop in `Translate`, src/compiler/Compiler.Mod 125-154, with `OPM.Init`, src/compiler/OPM.Mod 356-382: what is done,
the exit code if it is the last one (modulo 256, as the shell sees it), and the arguments that are left. -/
def round (w : World) (global : Settings) (n : Nat) (name : List Char) (rest : List (List Char)) : List Act × Option Int × List (List Char) :=
  if !w.found n then ([], some 0, [])
  else
    let p := initOptions global rest
    if !w.compiled n then ([.compile name p.1], some 1, p.2)
    else
      match toC name p.1 with
      | none => ([.compile name p.1], none, p.2)
      | some act => ([.compile name p.1, act], (execute (w.system n)).map (· % 256), p.2)

/-- `Translate`, src/compiler/Compiler.Mod 116-157.  `n` is the number of the file, `fuel` is for recursion. -/
def translate (w : World) (global : Settings) : Nat → Nat → List (List Char) → List Act × Int
  | 0, _, _ => ([], 0)
  | _ + 1, _, [] => ([], 0)
  | fuel + 1, n, a :: rest =>
    match round w global n (getArg (a :: rest)) rest with
    | (as, some e, _) => (as, e)
    | (as, none, rest) =>
      let (bs, e) := translate w global fuel (n + 1) rest
      (as ++ bs, e)

/-- The compiler, given its arguments; without any it shows how to use it (src/compiler/OPM.Mod 239-288). -/
def voc (w : World) (host : Int × Int) (args : List (List Char)) : List Act × Int :=
  if args = [] then ([], 0)
  else
    let (global, rest) := openPar host args
    translate w global args.length 0 rest

end Verif.Cmdline
