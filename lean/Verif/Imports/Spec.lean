/-!
# Consistency of imports: specification

A symbol file names a module and lists the types that its interface mentions, of this and of other modules, each with the fingerprints
of its public and of its private part (C16, C19, C44).  Modules are known by their names.
-/
namespace Verif.Imports

abbrev Name := List Nat

/-- How a symbol file refers to a module: itself, a module named here for the first time, or the `k`-th module named. -/
inductive MRef where
  | self
  | new (n : Name)
  | old (k : Nat)
deriving DecidableEq, Repr

/-- A type in a symbol file; types without a name have the empty one. -/
structure Entry where
  m : MRef
  name : Name
  fp : Int
  pv : Int
deriving DecidableEq, Repr

/-- A symbol file; `links`: all modules it needs, directly or not. -/
structure SymFile where
  name : Name
  links : List Name
  entries : List Entry
deriving DecidableEq, Repr

/-- A version of a type. -/
structure Mention where
  mod : Name
  name : Name
  fp : Int
  pv : Int
deriving DecidableEq, Repr

/-- The module that a reference stands for; `ns` are the modules named so far, beginning with the one of the file. -/
def MRef.module (ns : List Name) : MRef → Option Name
  | .self => ns[0]?
  | .new n => some n
  | .old k => ns[k]?

/-- The modules named after a reference. -/
def MRef.names (ns : List Name) : MRef → List Name
  | .new n => ns ++ [n]
  | _ => ns

/-- The types mentioned; `none`: a reference to a module that has not been named. -/
def mentions : List Name → List Entry → Option (List Mention)
  | _, [] => some []
  | ns, e :: r =>
    match e.m.module ns, mentions (e.m.names ns) r with
    | some m, some l => some (⟨m, e.name, e.fp, e.pv⟩ :: l)
    | _, _ => none

/-- The types mentioned by the files imported. -/
def allMentions : List SymFile → Option (List Mention)
  | [] => some []
  | f :: r =>
    match mentions [f.name] f.entries, allMentions r with
    | some a, some b => some (a ++ b)
    | _, _ => none

/-- The modules named in the files. -/
def allNames (fs : List SymFile) : List Name :=
  fs.flatMap fun f => f.name :: f.entries.flatMap fun e => match e.m with | .new n => [n] | _ => []

/-- All versions of each named type have the same public part. -/
def PublicAgree (ms : List Mention) : Prop :=
  ∀ a ∈ ms, ∀ b ∈ ms, a.name ≠ [] → a.mod = b.mod → a.name = b.name → a.fp = b.fp

/-- All versions of the type have the same private part. -/
def PrivateAgree (ms : List Mention) (m n : Name) : Prop :=
  ∀ a ∈ ms, ∀ b ∈ ms, a.mod = m → b.mod = m → a.name = n → b.name = n → a.pv = b.pv

/-- There are at most `k` different names in the list. -/
def AtMost (k : Nat) (l : List Name) : Prop := ∀ d : List Name, d.Nodup → (∀ n ∈ d, n ∈ l) → d.length ≤ k

end Verif.Imports
