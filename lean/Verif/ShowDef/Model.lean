import Mathlib.Data.List.Basic

/-!
# The definition of a module as text: src/tools/browser/BrowserCmd.Mod (the program showdef)

showdef reads the symbol file of a module and writes its interface.  The interface is modelled after import: the types with
a name are written by their names, the others by their structure.  Without the option `x`.  Real constants are not modelled
(they are written by Texts.WriteReal).  The end of a line is written as one character.
-/
namespace Verif.ShowDef

abbrev Name := List Char

mutual
/-- A type, `OPT.Struct`, as `Wtype` sees it.  A type with a name: with a module (`GlbMod[mno]`, or SYSTEM), or without
(predeclared, or of the module itself), or `hidden`: of the module itself and not exported.  Other types: their structure,
with `sysflag`. -/
inductive Ty where
  | named (m : Option Name) (n : Name)
  | hidden (n : Name)
  | pointer (flag : Nat) (b : Ty)
  | proc (flag : Nat) (ps : Pars) (r : Res)
  | arr (flag n : Nat) (b : Ty)
  | dyn (flag : Nat) (b : Ty)
  | record (flag : Nat) (base : Res) (fs : Flds) (ms : Mths)
/-- A type, or none: of results and of base types. -/
inductive Res where
  | none
  | some (t : Ty)
/-- Parameters, `link`. -/
inductive Pars where
  | nil
  | cons (var : Bool) (n : Name) (t : Ty) (ps : Pars)
/-- Fields; `ro`: `externalR`. -/
inductive Flds where
  | nil
  | cons (n : Name) (ro : Bool) (t : Ty) (fs : Flds)
/-- Methods, in the order of their tree, with their receivers. -/
inductive Mths where
  | nil
  | cons (rvar : Bool) (rn : Name) (rt : Ty) (n : Name) (ps : Pars) (r : Res) (ms : Mths)
end

/-- `CHR(i+30H)` and `CHR(i+37H)`, BrowserCmd.Mod 24, Texts.Mod 559. -/
def dig (i : Nat) : Char := if i < 10 then Char.ofNat (i + 48) else Char.ofNat (i + 55)

/-- `Wh`, BrowserCmd.Mod 20-25; the first argument bounds the recursion. -/
def wh : Nat → Nat → List Char
  | 0, _ => []
  | f + 1, i => (if 16 ≤ i then wh f (i / 16) else if 10 ≤ i then ['0'] else []) ++ [dig (i % 16)]

/-- `Wi` of a number that is not negative, BrowserCmd.Mod 17, `Texts.WriteInt`, Texts.Mod 547-564. -/
def wn : Nat → Nat → List Char
  | 0, _ => []
  | f + 1, i => (if 10 ≤ i then wn f (i / 10) else []) ++ [dig (i % 10)]

/-- `SysFlag`, BrowserCmd.Mod 151-153. -/
def sysFlag (flag : Nat) : List Char := if flag ≠ 0 then '[' :: (wh (flag + 1) flag ++ ['H', ']', ' ']) else []

/-- `OPM.HdTProcName`, OPM.Mod 55. -/
def hdTProcName : Name := ['@', 't', 'p', 'r', 'o', 'c']

/-- `Indent(3)`, BrowserCmd.Mod 27-29. -/
def indent (i : Nat) : List Char := List.replicate (2 * i) ' '

/-- `par = NIL`. -/
def Pars.isNil : Pars → Bool
  | .nil => true
  | .cons .. => false

/-- `(result # NIL) & (result # OPT.notyp)`, BrowserCmd.Mod 37. -/
def Res.isSome : Res → Bool
  | .none => false
  | .some _ => true

/-- `Wsign`, BrowserCmd.Mod 34-51: the parentheses, around the parameters, and the result. -/
def sign (paren : Bool) (pars res : List Char) : List Char := (if paren then '(' :: (pars ++ [')']) else []) ++ res

mutual
/-- `Wtype`, BrowserCmd.Mod 194-207, and `Wstruct`, 148-192. -/
def wtype : Ty → List Char
  | .named (some m) n => m ++ '.' :: n
  | .named none n => n
  | .hidden n => '#' :: n
  | .pointer flag b => "POINTER ".toList ++ (sysFlag flag ++ ("TO ".toList ++ wtype b))
  | .proc flag ps r => "PROCEDURE ".toList ++ (sysFlag flag ++ sign (r.isSome || !ps.isNil) (wpars ps) (wres r))
  | .arr flag n b => "ARRAY ".toList ++ (sysFlag flag ++ (wn (n + 1) n ++ (" OF ".toList ++ wtype b)))
  | .dyn flag b => "ARRAY ".toList ++ (sysFlag flag ++ ("OF ".toList ++ wtype b))
  | .record flag base fs ms => "RECORD ".toList ++ (sysFlag flag ++ (wbase base ++ ('\n' :: (wfields fs ++ (wmthd ms ++
      (indent 2 ++ "END".toList))))))
/-- BrowserCmd.Mod 164. -/
def wbase : Res → List Char
  | .none => []
  | .some t => '(' :: (wtype t ++ [')'])
/-- The result in `Wsign`, BrowserCmd.Mod 49. -/
def wres : Res → List Char
  | .none => []
  | .some t => ':' :: ' ' :: wtype t
/-- The loop in `Wsign`, BrowserCmd.Mod 40-47. -/
def wpars : Pars → List Char
  | .nil => []
  | .cons var n t ps => (if var then "VAR ".toList else []) ++ (n ++ (':' :: ' ' :: (wtype t ++
      (if ps.isNil then [] else ';' :: ' ' :: wpars ps))))
/-- The loop in `Wstruct`, BrowserCmd.Mod 166-174: fields with hidden names are not written. -/
def wfields : Flds → List Char
  | .nil => []
  | .cons n ro t fs =>
    (if n.head? ≠ some '@' then
      indent 3 ++ (n ++ ((if ro then ['-'] else []) ++ (':' :: ' ' :: (wtype t ++ [';', '\n'])))) else []) ++ wfields fs
/-- `Wmthd`, BrowserCmd.Mod 126-146. -/
def wmthd : Mths → List Char
  | .nil => []
  | .cons rvar rn rt n ps r ms =>
    (if n ≠ hdTProcName then
      indent 3 ++ ("PROCEDURE (".toList ++ ((if rvar then "VAR ".toList else []) ++ (rn ++ (':' :: ' ' ::
        (wtype rt ++ (')' :: ' ' :: (n ++ (sign (r.isSome || !ps.isNil) (wpars ps) (wres r) ++ [';', '\n']))))))))
    else []) ++ wmthd ms
end

/-- Procedures: `XProc`, `IProc`, and `CProc` with its code. -/
inductive Kind where
  | plain
  | inl
  | code (c : List Char)

/-- An exported object other than a constant; a type that is not exported (`internal`) can be in the list too. -/
inductive Decl where
  | typ (hid : Bool) (n : Name) (t : Ty)
  | var (n : Name) (ro : Bool) (t : Ty)
  | proc (k : Kind) (n : Name) (ps : Pars) (r : Res)

/-- BrowserCmd.Mod 107-109. -/
def wkind : Kind → List Char
  | .plain => []
  | .inl => ['+']
  | .code _ => ['-']

/-- BrowserCmd.Mod 112-116. -/
def wcode : Kind → List Char
  | .code c => ' ' :: ' ' :: '"' :: (c ++ ['"'])
  | _ => []

/-- `Objects` for one object, BrowserCmd.Mod 94-105 and 106-118.  A type with a structure is written by its structure if this
is its own name, and by its name otherwise. -/
def wdecl : Decl → List Char
  | .typ hid n t => indent 2 ++ ((if hid then ['#'] else []) ++ (n ++ (' ' :: '=' :: ' ' :: (wtype t ++ [';', '\n']))))
  | .var n ro t => indent 2 ++ (n ++ ((if ro then ['-'] else []) ++ (':' :: ' ' :: (wtype t ++ [';', '\n']))))
  | .proc k n ps r => indent 1 ++ ("PROCEDURE ".toList ++ (wkind k ++ (n ++
      (sign (r.isSome || !ps.isNil) (wpars ps) (wres r) ++ (wcode k ++ [';', '\n'])))))

/-- The value of a constant.  A set is given by its elements, in increasing order. -/
inductive Value where
  | bool (b : Bool)
  | char (n : Nat)
  | int (i : Int)
  | set (l : List Nat)
  | str (s : List Char)
  | nil

/-- `Wi`, BrowserCmd.Mod 17, `Texts.WriteInt` with width 0, Texts.Mod 547-564. -/
def wi (i : Int) : List Char :=
  if i < 0 then
    if i = -9223372036854775808 then " -9223372036854775808".toList else '-' :: wn (i.natAbs + 1) i.natAbs
  else wn (i.natAbs + 1) i.natAbs

/-- The loop for sets, BrowserCmd.Mod 80-85: `i`, and how many values of `i` remain. -/
def wset : Nat → Nat → List Nat → List Char
  | 0, _, _ => []
  | k + 1, i, l =>
    if i ∈ l then
      wi i ++ ((if l.filter (· ≠ i) ≠ [] then [',', ' '] else []) ++ wset k (i + 1) (l.filter (· ≠ i)))
    else wset k (i + 1) l

/-- The value of a constant, BrowserCmd.Mod 67-91, without real numbers. -/
def wvalue : Value → List Char
  | .bool b => if b then "TRUE".toList else "FALSE".toList
  | .char n => if 32 ≤ n ∧ n ≤ 126 then ['"', Char.ofNat n, '"'] else [dig (n / 16), dig (n % 16), 'X']
  | .int i => wi i
  | .set l => '{' :: (wset 64 0 l ++ ['}'])
  | .str s => '"' :: (s ++ ['"'])
  | .nil => "NIL".toList

/-- A constant, BrowserCmd.Mod 66-93. -/
def wconst (n : Name) (v : Value) : List Char := indent 2 ++ (n ++ (' ' :: '=' :: ' ' :: (wvalue v ++ [';', '\n'])))

end Verif.ShowDef
