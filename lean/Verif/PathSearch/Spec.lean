/-!
# The search path for files: specification

A search path is a list of directories separated by semicolons; blanks around them do not count.  A directory that begins with `~` lies in
the home directory of the user, one that begins with `~name` in the home directory of the user of this name, next to that of the user.
-/
namespace Verif.PathSearch

/-- Strings without the final 0. -/
abbrev Str := List Nat

/-- The parts of a string between separators. -/
def split (c : Nat) : Str → List Str
  | [] => [[]]
  | x :: r =>
    if x = c then [] :: split c r
    else match split c r with
      | h :: t => (x :: h) :: t
      | [] => [[x]]

/-- Blanks removed at the end. -/
def trimR (s : Str) : Str := (s.reverse.dropWhile (· = 32)).reverse

/-- Blanks removed at both ends. -/
def trim (s : Str) : Str := trimR (s.dropWhile (· = 32))

/-- The string up to and with its last slash. -/
def upToSlash (s : Str) : Str := (s.reverse.dropWhile (· ≠ 47)).reverse

/-- The meaning of `~` at the beginning of a directory. -/
def expand (home : Str) : Str → Str
  | 126 :: r =>
    match r with
    | [] => home
    | c :: _ => if c = 47 ∨ c = 32 then home ++ r else upToSlash home ++ r
  | e => e

/-- The entries of a search path. -/
def entries (path : Str) : List Str := ((split 59 path).map trim).filter (· ≠ [])

/-- The directories of a search path.  Without one, it is the current directory. -/
def dirs (home : Str) : Option Str → List Str
  | none => [[46]]
  | some path => (entries path).map fun e => trimR (expand home e)

/-- What a name means to the operating system: absolute or relative, and the components.  Several slashes count as one. -/
def resolve (p : Str) : Bool × List Str := (p.head? = some 47, (split 47 p).filter (· ≠ []))

/-- The name of a file in a directory. -/
def inDir (d name : Str) : Bool × List Str := resolve (d ++ [47] ++ name)

/-- The answers of the operating system to opening a file. -/
inductive Err where
  | ok | tooMany | inaccessible | absent | other
deriving DecidableEq, Repr

/-- The operating system: opening for reading and writing, and for reading only. -/
structure Sys where
  rw : Bool × List Str → Err
  ro : Bool × List Str → Err

/-- A file can be opened, at least for reading if it cannot be opened for writing. -/
def Sys.opens (s : Sys) (p : Bool × List Str) : Prop := s.rw p = .ok ∨ (s.rw p = .inaccessible ∧ s.ro p = .ok)

instance (s : Sys) (p : Bool × List Str) : Decidable (s.opens p) := by unfold Sys.opens; infer_instance

/-- The first file that can be opened. -/
def Sys.first (s : Sys) (l : List (Bool × List Str)) : Option (Bool × List Str) := l.find? fun p => decide (s.opens p)

/-- All fits into the arrays: the home directory together with any part of the path. -/
def Fits (home path : Str) : Prop := home.length ≤ 255 ∧ ∀ p ∈ split 59 path, home.length + p.length ≤ 255

end Verif.PathSearch
