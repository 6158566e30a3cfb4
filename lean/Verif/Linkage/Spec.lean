/-!
# C files that fit together: specification

What a module of Oberon may refer to, and what C asks of the files of a program: what a file uses is declared in it or in the header files it
includes, has one kind of linkage there, and is defined in exactly one file.

Modules and names are numbers.  Types are those after names have been looked up: a name that is only another name for a type stands for this
type.
-/
namespace Verif.Linkage

/-- A type with a name: the module that declares it, and the name. -/
abbrev Q := Nat × Nat

/-- Export marks: none, `*`, `-`. -/
inductive Vis where
  | internal
  | external
  | readonly
  deriving DecidableEq, Repr

/-- Type expressions: basic types, types with names, open arrays, pointers and arrays, and procedure types (a list of types, as pairs). -/
inductive Ty where
  | basic
  | name (q : Q)
  | openArr (e : Ty)
  | one (t : Ty)
  | two (a b : Ty)
  deriving DecidableEq, Repr

/-- Declarations of types: records with a base type, fields and bound procedures, and all others. -/
inductive TyDef where
  | record (base : Option Q) (fields : List (Vis × Ty)) (methods : Nat → Option (Vis × Ty))
  | other (t : Ty)

/-- The kinds of procedures: local, exported or assigned to a variable, for interrupts (`PROCEDURE+`), code (`PROCEDURE-`). -/
inductive Kind where
  | L
  | X
  | I
  | C
  deriving DecidableEq, Repr

/-- A procedure; `removed`: it was exported when the module was compiled before, and is not any more. -/
structure Proc where
  kind : Kind
  vis : Vis
  sig : Ty
  removed : Bool

/-- A module.  `aliases`: types for which it exports another name.  `old`: procedures of the old symbol file that are not there any more. -/
structure Module where
  main : Bool
  imports : List Nat
  aliases : List Q
  types : Nat → Option (Vis × TyDef)
  vars : Nat → Option (Vis × Ty)
  procs : Nat → Option Proc
  old : Nat → Option Proc

/-- A program. -/
abbrev Program := Nat → Option Module

/-! ## The language -/

/-- The names in a type expression. -/
inductive Occurs : Ty → Q → Prop where
  | name (q : Q) : Occurs (.name q) q
  | openArr {e : Ty} {q : Q} : Occurs e q → Occurs (.openArr e) q
  | one {t : Ty} {q : Q} : Occurs t q → Occurs (.one t) q
  | left {a b : Ty} {q : Q} : Occurs a q → Occurs (.two a b) q
  | right {a b : Ty} {q : Q} : Occurs b q → Occurs (.two a b) q

/-- The declaration of a type. -/
def Decl (P : Program) (q : Q) (v : Vis) (d : TyDef) : Prop := ∃ m, P q.1 = some m ∧ m.types q.2 = some (v, d)

/-- The types that a module exports under some name. -/
def Exports (P : Program) (k : Nat) (q : Q) : Prop :=
  (q.1 = k ∧ ∃ v d, Decl P q v d ∧ v ≠ .internal) ∨ ∃ m, P k = some m ∧ q ∈ m.aliases

/-- The types that the text of a module can name: its own, and those exported by modules it imports. -/
def Named (P : Program) (a : Nat) (q : Q) : Prop :=
  (q.1 = a ∧ ∃ v d, Decl P q v d) ∨ ∃ m, P a = some m ∧ ∃ k ∈ m.imports, Exports P k q

/-- The parts of a declaration; `all` for the module itself, otherwise what is exported. -/
inductive Part (all : Bool) : TyDef → Q → Prop where
  | base {b : Q} {fs : List (Vis × Ty)} {ms : Nat → Option (Vis × Ty)} : Part all (.record (some b) fs ms) b
  | field {b : Option Q} {fs : List (Vis × Ty)} {ms : Nat → Option (Vis × Ty)} {f : Vis × Ty} {q : Q} :
      f ∈ fs → (all = true ∨ f.1 ≠ .internal) → Occurs f.2 q → Part all (.record b fs ms) q
  | method {b : Option Q} {fs : List (Vis × Ty)} {ms : Nat → Option (Vis × Ty)} {n : Nat} {v : Vis} {t : Ty} {q : Q} :
      ms n = some (v, t) → (all = true ∨ v ≠ .internal) → Occurs t q → Part all (.record b fs ms) q
  | other {t : Ty} {q : Q} : Occurs t q → Part all (.other t) q

/-- The types that the statements of a module may involve. -/
inductive Reach (P : Program) (a : Nat) : Q → Prop where
  | named {q : Q} : Named P a q → Reach P a q
  | var {m mk : Module} {k n : Nat} {v : Vis} {t : Ty} {q : Q} : P a = some m → k ∈ m.imports → P k = some mk →
      mk.vars n = some (v, t) → v ≠ .internal → Occurs t q → Reach P a q
  | proc {m mk : Module} {k n : Nat} {p : Proc} {q : Q} : P a = some m → k ∈ m.imports → P k = some mk →
      mk.procs n = some p → p.vis ≠ .internal → p.kind = .X → Occurs p.sig q → Reach P a q
  | part {q r : Q} {v : Vis} {d : TyDef} : Reach P a r → Decl P r v d → Part (decide (r.1 = a)) d q → Reach P a q

/-- The rules of the language that matter here. -/
structure Legal (P : Program) : Prop where
  /-- Imported modules are there, and are no main programs. -/
  imports : ∀ a m, P a = some m → ∀ b ∈ m.imports, b ≠ a ∧ ∃ mb, P b = some mb ∧ mb.main = false
  /-- Types can be named. -/
  vars : ∀ a m n v t, P a = some m → m.vars n = some (v, t) → ∀ q, Occurs t q → Named P a q
  procs : ∀ a m n p, P a = some m → m.procs n = some p → ∀ q, Occurs p.sig q → Named P a q
  types : ∀ a m n v d, P a = some m → m.types n = some (v, d) → ∀ q, Part true d q → Named P a q
  aliases : ∀ a m, P a = some m → ∀ q ∈ m.aliases, Named P a q
  /-- Base types are records. -/
  bases : ∀ a m n v b fs ms, P a = some m → m.types n = some (v, .record (some b) fs ms) → ∃ v' b' fs' ms', Decl P b v' (.record b' fs' ms')
  /-- Local procedures are not exported; what is exported has not been removed; what is gone is marked so. -/
  kinds : ∀ a m n p, P a = some m → m.procs n = some p → (p.kind = .L → p.vis = .internal) ∧ (p.vis ≠ .internal → p.removed = false)
  old : ∀ a m n p, P a = some m → m.old n = some p → p.removed = true ∧ p.kind ≠ .L ∧ m.procs n = none

/-! ## C -/

/-- Names in C: variables, procedures, types, descriptors of record types, the procedures that start modules, bound procedures. -/
inductive CName where
  | var (q : Q)
  | proc (q : Q)
  | typ (q : Q)
  | desc (q : Q)
  | init (m : Nat)
  | bound (q : Q) (p : Nat)
  deriving DecidableEq, Repr

/-- Linkage: none, external (`extern` or nothing), internal (`static`). -/
inductive Link where
  | none
  | ext
  | stat
  deriving DecidableEq, Repr

/-- The module to which a name belongs. -/
def CName.owner : CName → Nat
  | .var q | .proc q | .typ q | .desc q | .bound q _ => q.1
  | .init m => m

/-- What the statements of a module may use: its own, and what imported modules export. -/
inductive MayUse (P : Program) (a : Nat) : CName → Prop where
  | ownVar {m : Module} {n : Nat} {v : Vis} {t : Ty} : P a = some m → m.vars n = some (v, t) → MayUse P a (.var (a, n))
  | var {m mk : Module} {k n : Nat} {v : Vis} {t : Ty} : P a = some m → k ∈ m.imports → P k = some mk → mk.vars n = some (v, t) →
      v ≠ .internal → MayUse P a (.var (k, n))
  | ownProc {m : Module} {n : Nat} {p : Proc} : P a = some m → m.procs n = some p → p.kind ≠ .C → MayUse P a (.proc (a, n))
  | proc {m mk : Module} {k n : Nat} {p : Proc} : P a = some m → k ∈ m.imports → P k = some mk → mk.procs n = some p →
      p.vis ≠ .internal → p.kind ≠ .C → MayUse P a (.proc (k, n))
  | typ {q : Q} {v : Vis} {d : TyDef} : Reach P a q → Decl P q v d → (∀ e, d ≠ .other (.openArr e)) → MayUse P a (.typ q)
  | desc {q : Q} {v : Vis} {b : Option Q} {fs : List (Vis × Ty)} {ms : Nat → Option (Vis × Ty)} : Reach P a q →
      Decl P q v (.record b fs ms) → MayUse P a (.desc q)
  | init {m : Module} {k : Nat} : P a = some m → k ∈ m.imports → MayUse P a (.init k)
  | bound {q : Q} {v : Vis} {b : Option Q} {fs : List (Vis × Ty)} {ms : Nat → Option (Vis × Ty)} {n : Nat} {w : Vis} {t : Ty} :
      Reach P a q → Decl P q v (.record b fs ms) → ms n = some (w, t) → (q.1 = a ∨ w ≠ .internal) → MayUse P a (.bound q n)

end Verif.Linkage
