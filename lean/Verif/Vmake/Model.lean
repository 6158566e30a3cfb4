import Verif.Vmake.Spec

/-!
# The order of compilation: src/tools/vmake/vmake.Mod

Modules are numbered by their places in the list of names.  Simplifications: the length of names is not limited; the scanner's results are the
input (it takes names, signs and other things in turn, and does not know comments); what is left of a text without a sign ends the text.
-/
namespace Verif.Vmake

/-- `Find`, 68-72. -/
def find (names : List String) (n : String) : Option Nat :=
  match names with
  | [] => none
  | m :: l => if m = n then some 0 else (find l n).map (· + 1)

/-- `REPEAT Texts.Scan(s) UNTIL s.eot OR (s.class = Texts.Name) & (s.s = "IMPORT")`, 86. -/
def toImport : List Tok → Option (List Tok)
  | [] => none
  | .name s :: l => if s = "IMPORT" then some l else toImport l
  | _ :: l => toImport l

/-- `s.s` after another `Texts.Scan`: only a name changes it (a string, here among the other things, would too). -/
def lastName (s : String) : Tok → String
  | .name t => t
  | _ => s

/-- The loop for the import list, 88-101, with the names found; `none` if it does not end, as at the end of the text nothing stops it.  The first
argument bounds the number of steps; it is the length of the list. -/
def scanList : Nat → List Tok → Option (List String)
  | 0, _ => none
  | _ + 1, [] => none
  | f + 1, .name s :: l =>
    match l with
    | [] => none
    | .char ':' :: l =>
      match l with
      | x :: y :: l => if y = .char ';' then some [lastName (lastName s x) y ++ ".Mod"]
          else (scanList f l).map ((lastName (lastName s x) y ++ ".Mod") :: ·)
      | _ => none
    | .char ';' :: _ => some [s ++ ".Mod"]
    | _ :: l => (scanList f l).map ((s ++ ".Mod") :: ·)
  | _ + 1, .char ';' :: _ => some []
  | f + 1, _ :: l => scanList f l

/-- `FindImports`, 80-103: the names of the modules imported. -/
def importsOf (t : List Tok) : Option (List String) :=
  match toImport t with
  | none => some []
  | some l => scanList (l.length + 1) l

/-- All modules, 122. -/
def allImports (src : String → List Tok) : List String → Option (List (List String))
  | [] => some []
  | m :: l => match importsOf (src m) with
    | none => none
    | some i => (allImports src l).map (i :: ·)

/-- `imp.mod` for each import, 94-95: `none` for a module that is not in the list. -/
def targets (names : List String) (imps : List String) : List (Option Nat) := imps.map (find names)

/-- `INC(p.ref)`, 96, for all imports of all modules. -/
def refs (edges : List (List (Option Nat))) (m : Nat) : Int := (edges.map (fun l => (l.count (some m) : Int))).sum

/-- `WHILE imp # NIL DO DEC(imp.mod.ref); imp := imp.next END`, 111. -/
def dec : List (Option Nat) → (Nat → Int) → (Nat → Int)
  | [], r => r
  | none :: l, r => dec l r
  | some m :: l, r => dec l (fun j => if j = m then r j - 1 else r j)

/-- `FindTop`, 74-78: the first module without references. -/
def findTop (r : Nat → Int) : List Nat → Option Nat
  | [] => none
  | m :: l => if r m = 0 then some m else findTop r l

/-- `Print`, 105-115: what is printed; `none` if no module is found (then `m` is `NIL` and `m.next` traps, 110).  The first argument is the length of
the list. -/
def print (edges : List (List (Option Nat))) : Nat → List Nat → (Nat → Int) → Option (List Nat)
  | 0, _, _ => some []
  | n + 1, l, r =>
    match findTop r l with
    | none => none
    | some m => (print edges n (l.erase m) (dec (edges.getD m []) r)).map (· ++ [m])

/-- `Order`, 117-124, with `ReadModuleList`, 55-66, which reverses the names. -/
def order (given : List String) (src : String → List Tok) : Option (List String) :=
  match allImports src given.reverse with
  | none => none
  | some imps =>
    (print (imps.map (targets given.reverse)) given.length (List.range given.length) (refs (imps.map (targets given.reverse)))).map
      (·.map (fun i => given.reverse.getD i ""))

end Verif.Vmake
