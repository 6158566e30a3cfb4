import Verif.FPrint.Model

/-!
# The interface of a module and its symbol file

Objects and types carry fingerprints (`Verif.FPrint`): numbers computed from what clients can see of them.  Here they are given.
-/
namespace Verif.SymUpdate

/-- An object of a module: the number of the module (0: the one compiled) and its name. -/
abbrev Key := Nat × Nat

/-- The fingerprints of an object: of its public part, and of what else clients depend on (sizes, hidden pointers). -/
structure Fp where
  pb : Int
  pv : Int
deriving DecidableEq, Repr

/-- A type of the program: its name, if it has one, and the types it mentions. -/
structure Ty where
  key : Option Key
  kids : List Nat
deriving DecidableEq, Repr

/-- What a declaration declares: a new named type, or something else that mentions types; `anon` is the type of a variable if that
type has no name. -/
inductive Kind where
  | typ (t : Nat)
  | other (kids : List Nat) (anon : Option Nat)
deriving DecidableEq, Repr

def Kind.kids : Kind → List Nat
  | .typ t => [t]
  | .other l _ => l

structure Decl where
  name : Nat
  exported : Bool
  fp : Fp
  kind : Kind
deriving DecidableEq, Repr

/-- A type of an imported module; `consistent` is false if two imported symbol files disagree about it. -/
structure Foreign where
  key : Key
  fp : Fp
  consistent : Bool
deriving DecidableEq, Repr

/-- A module: its declarations (in the order of their names), the types of imported modules, all types by number. -/
structure Src where
  decls : List Decl
  foreign : List Foreign
  tys : Nat → Ty

/-- What a symbol file contains, in order: descriptions of types (with the name, if there is one), exported objects that are types
(described before), other exported objects (`anon`: the number of the type of a variable if that has no name). -/
inductive Entry where
  | struct (key : Option Key) (fp : Fp)
  | typ (name : Nat)
  | obj (name : Nat) (fp : Fp) (anon : Option Nat)
deriving DecidableEq, Repr

abbrev File := List Entry

/-- The symbol file says that `n` is exported, with these fingerprints. -/
def Exports (f : File) (n : Nat) (fp : Fp) : Prop :=
  (∃ a, .obj n fp a ∈ f) ∨ .typ n ∈ f ∧ .struct (some (0, n)) fp ∈ f

/-- The symbol file describes the type `k`. -/
def Describes (f : File) (k : Key) (fp : Fp) : Prop := .struct (some k) fp ∈ f

/-- The fingerprint of the numbers of those types of variables that have no name. -/
def anonFp (f : File) : FPrint.Word :=
  (f.filterMap fun | .obj _ _ a => a | _ => none).foldl (fun w (r : Nat) => FPrint.fprint w (FPrint.huge (14 + (r : Int)))) 0

/-- The types that the exported objects mention, directly or through other types. -/
inductive Mentioned (s : Src) : Nat → Prop
  | root {d : Decl} {t : Nat} : d ∈ s.decls → d.exported = true → t ∈ d.kind.kids → Mentioned s t
  | kid {t u : Nat} : Mentioned s t → u ∈ (s.tys t).kids → Mentioned s u

/-- The fingerprints of an object in the program. -/
inductive Now (s : Src) : Key → Fp → Prop
  | decl {d : Decl} : d ∈ s.decls → Now s (0, d.name) d.fp
  | foreign {x : Foreign} : x ∈ s.foreign → Now s x.key x.fp

/-- Clients see the object: it is exported, or a type that exported objects mention. -/
inductive Seen (s : Src) : Key → Prop
  | decl {d : Decl} : d ∈ s.decls → d.exported = true → Seen s (0, d.name)
  | typ {t : Nat} {k : Key} : Mentioned s t → (s.tys t).key = some k → Seen s k

/-- A symbol file can be written at all: at most 240 types are mentioned, and imported symbol files agree about them. -/
structure Writable (s : Src) : Prop where
  size : ∃ l : List Nat, l.length ≤ 240 ∧ ∀ t, Mentioned s t → t ∈ l
  consistent : ∀ x ∈ s.foreign, Seen s x.key → x.consistent = true

/-- All that the symbol file exports is still exported, with the same fingerprints; and the types it describes are still there and are
the same if clients still see them. -/
structure Kept (f : File) (s : Src) : Prop where
  objs : ∀ n fp, Exports f n fp → ∃ d ∈ s.decls, d.name = n ∧ d.exported = true ∧ d.fp = fp
  types : ∀ n fp, Describes f (0, n) fp → ∃ d ∈ s.decls, d.name = n
  same : ∀ k fp fp', Describes f k fp → Seen s k → Now s k fp' → fp' = fp

/-- Nothing new is exported. -/
def NothingNew (f : File) (s : Src) : Prop :=
  ∀ d ∈ s.decls, d.exported = true → ∃ fp, Exports f d.name fp

/-- Modules as the front end delivers them: names are declared once; a named type belongs to one declaration or one import. -/
structure Src.Ok (s : Src) : Prop where
  names : (s.decls.map Decl.name).Nodup
  foreign : (s.foreign.map Foreign.key).Nodup
  other : ∀ x ∈ s.foreign, x.key.1 ≠ 0
  own : ∀ d ∈ s.decls, ∀ t, d.kind = .typ t → (s.tys t).key = some (0, d.name)
  key : ∀ t k, (s.tys t).key = some k → (∃ d ∈ s.decls, k = (0, d.name) ∧ d.kind = .typ t) ∨ ∃ x ∈ s.foreign, k = x.key
  inj : ∀ t u k, (s.tys t).key = some k → (s.tys u).key = some k → t = u

/-- Well-formed symbol files (`C69_file` shows that the compiler writes only such). -/
structure FileOk (f : File) : Prop where
  keys : (f.filterMap fun | .struct k _ => k | _ => none).Nodup
  names : (f.filterMap fun | .typ n => some n | .obj n _ _ => some n | _ => none).Nodup
  typ : ∀ pre n post, f = pre ++ .typ n :: post → ∃ fp, .struct (some (0, n)) fp ∈ pre
  obj : ∀ n fp a, .obj n fp a ∈ f → ∀ fp', .struct (some (0, n)) fp' ∉ f

end Verif.SymUpdate
