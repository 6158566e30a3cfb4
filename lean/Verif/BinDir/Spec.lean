/-!
# Names of files and where programs are: specification
-/
namespace Verif.BinDir

/-- The pieces of a string between separators. -/
def split (sep : Char) : List Char → List (List Char)
  | [] => [[]]
  | c :: l => if c = sep then [] :: split sep l else
    match split sep l with
    | [] => [[c]]
    | h :: t => (c :: h) :: t

/-- A file system: a root, and where a name leads from a directory (through links, too; `..` is a name like others, so that nothing is assumed about it). -/
structure FS (Node : Type) where
  root : Node
  step : Node → List Char → Option Node

/-- Empty pieces and `.` stay where they are. -/
def FS.go {Node : Type} (fs : FS Node) (n : Node) (x : List Char) : Option Node := if x = [] ∨ x = ['.'] then some n else fs.step n x

def FS.walk {Node : Type} (fs : FS Node) : Node → List (List Char) → Option Node
  | n, [] => some n
  | n, x :: l => match fs.go n x with
    | none => none
    | some m => fs.walk m l

/-- What a path names for a process whose working directory is `cwd`. -/
def FS.resolve {Node : Type} (fs : FS Node) (cwd : Node) (s : List Char) : Option Node :=
  fs.walk (if s.head? = some '/' then fs.root else cwd) (split '/' s)

/-- The names under which a shell looks for a program: the name itself if it has a slash, otherwise the name in each directory of the search path. -/
def candidates (arg0 path : List Char) : List (List Char) :=
  if '/' ∈ arg0 then [arg0] else if path = [] then [] else (split ':' path).map (fun d => d ++ '/' :: arg0)

/-- The first of some names that exists. -/
def firstPresent {Node : Type} (fs : FS Node) (cwd : Node) : List (List Char) → Option (List Char)
  | [] => none
  | c :: l => if (fs.resolve cwd c).isSome then some c else firstPresent fs cwd l

/-- The number that digits stand for. -/
def decimal (l : List Char) : Nat := l.foldl (fun k c => k * 10 + (c.toNat - '0'.toNat)) 0

end Verif.BinDir
