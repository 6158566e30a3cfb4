import Verif.PathSearch.Spec

/-!
# The search path for files: `MakeFileName`, `ScanPath`, `HasDir` and `Old`, src/runtime/Files.Mod 87-98, 233-333

Simplifications.  The position in the search path is represented by the rest of the path; the path has at most 32767 characters (the
position is an `INTEGER`).  `Old` ends with the name of the file opened; what follows is in Verif.Names.  The text of warnings is left out.
-/
namespace Verif.PathSearch

/-- The loop of `MakeFileName` that removes slashes at the end of the directory, src/runtime/Files.Mod 90. -/
def stripSlash (dir : Str) : Str := (dir.reverse.dropWhile (· = 47)).reverse

/-- `MakeFileName`, src/runtime/Files.Mod 87-98, for an array of 256 characters; `none`: `Err`. -/
def makeFileName (dir name : Str) : Option Str :=
  let d := stripSlash dir
  if d.length + name.length + 2 > 256 then none
  else some (d ++ (if 0 < d.length then [47] else []) ++ name)

/-- Copying up to the next semicolon, src/runtime/Files.Mod 254; `none`: an index out of range. -/
def copyDir (d : Str) : Str → Option (Str × Str)
  | [] => some (d, [])
  | c :: r => if c = 59 then some (d, c :: r) else if d.length < 256 then copyDir (d ++ [c]) r else none

/-- The home directory for `~`, src/runtime/Files.Mod 247-252: what is in `dir`, and the rest of the path. -/
def tilde (home : Str) : Str → Option (Str × Str)
  | 126 :: r =>
    if home.length ≤ 256 then
      match r with
      | [] => some (home, r)
      | c :: _ => if c ≠ 47 ∧ c ≠ 59 ∧ c ≠ 32 then some (upToSlash home, r) else some (home, r)
    else none
  | r => some ([], r)

/-- `ScanPath` with a search path, src/runtime/Files.Mod 245-257; `none`: an index out of range. -/
def scanPath (home rest : Str) : Option (Str × Str) :=
  match tilde home (rest.dropWhile fun c => c = 32 ∨ c = 59) with
  | none => none
  | some (d, r) =>
    match copyDir d r with
    | none => none
    | some (d, r) => if (trimR d).length < 256 then some (trimR d, r) else none

/-- The search path and the position: without a path (`NIL`), whether the position is 0. -/
inductive Pos where
  | nil (start : Bool)
  | rest (r : Str)
deriving DecidableEq, Repr

/-- `ScanPath`, src/runtime/Files.Mod 233-258. -/
def scan (home : Str) : Pos → Option (Str × Pos)
  | .nil true => some ([46], .nil false)
  | .nil false => some ([], .nil false)
  | .rest r => (scanPath home r).map fun x => (x.1, .rest x.2)

/-- `HasDir`, src/runtime/Files.Mod 260-265. -/
def hasDir (name : Str) : Bool := name.contains 47

/-- How `Old` ends: `NIL`, a file, the program stops; `loop`: not within the steps given. -/
inductive Outcome where
  | nil
  | found (path : Str)
  | stop
  | loop
deriving DecidableEq, Repr

/-- The loop of `Old`, src/runtime/Files.Mod 304-331: `dir` is the next directory. -/
def search (sys : Sys) (home name : Str) : Nat → Str → Pos → Str → Outcome
  | 0, _, _, _ => .loop
  | k + 1, dir, pos, path =>
    let e := sys.rw (resolve path)
    if e = .tooMany then .stop
    else
      let e := if e = .inaccessible then sys.ro (resolve path) else e
      if e = .ok then .found path
      else if dir = [] then .nil
      else
        match makeFileName dir name, scan home pos with
        | some path, some (dir, pos) => search sys home name k dir pos path
        | _, _ => .stop

/-- `Old`, src/runtime/Files.Mod 287-333; a name with a directory is copied to an array of 256 characters. -/
def old (sys : Sys) (home : Str) (path : Option Str) (name : Str) (k : Nat) : Outcome :=
  if name = [] then .nil
  else if hasDir name then search sys home name k [] (.nil false) (name.take 255)
  else
    match scan home (match path with | none => .nil true | some p => .rest p) with
    | none => .stop
    | some (dir, pos) =>
      match makeFileName dir name, scan home pos with
      | some path, some (dir, pos) => search sys home name k dir pos path
      | _, _ => .stop

/-- `SetSearchPath`, src/runtime/Files.Mod 746-754. -/
def setSearchPath (path : Str) : Option Str := if path.length ≠ 0 then some path else none

/-- `Old` returns the file given, or `NIL`. -/
def Returns (o : Outcome) (r : Option (Bool × List Str)) : Prop :=
  match r with
  | none => o = .nil
  | some c => ∃ p, o = .found p ∧ resolve p = c

end Verif.PathSearch
