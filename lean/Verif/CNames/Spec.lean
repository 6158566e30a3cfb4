import Verif.Common

/-!
# The names in the C text: specification

What a module declares, and what C forbids: that two things that are visible together have the same name, or that a name is a keyword
(or one of the names of types that the C text itself uses).  This file does not use the model.
-/
namespace Verif.CNames

abbrev Name := List Char

/-- Identifiers: letters and digits, beginning with a letter; there are no underscores in Oberon. -/
def IsIdent (n : Name) : Prop := '_' ∉ n ∧ ∃ c r, n = c :: r ∧ ¬(48 ≤ c.toNat ∧ c.toNat ≤ 57)

/-- A variable or parameter: the number of its open dimensions, whether its type is passed with it (a VAR parameter of a record type),
whether it is a value parameter of an array type of fixed length. -/
structure Var where
  name : Name
  dims : Nat := 0
  tagged : Bool := false
  copied : Bool := false
deriving DecidableEq, Repr

/-- Declarations: variables and parameters; the hidden variable of a FOR statement; types (of records, or other); procedures with their
parameters and all they declare; and those that are bound to a type. -/
inductive Decl where
  | var (v : Var)
  | loop
  | typ (n : Name) (record : Bool)
  | proc (n : Name) (ds : List Decl)
  | bound (t n : Name) (ds : List Decl)

/-- The name declared in the scope. -/
def Decl.name? : Decl → Option Name
  | .var v => some v.name
  | .typ n _ => some n
  | .proc n _ => some n
  | _ => none

/-- The type and name of a procedure bound to a type. -/
def Decl.bound? : Decl → Option (Name × Name)
  | .bound t n _ => some (t, n)
  | _ => none

mutual
/-- A legal declaration; procedures are bound to types only at the level of the module; dimensions are counted in an INTEGER. -/
def Decl.Ok (lev : Nat) : Decl → Prop
  | .var v => IsIdent v.name ∧ v.dims ≤ 32767
  | .loop => True
  | .typ n _ => IsIdent n
  | .proc n ds => IsIdent n ∧ (ds.filterMap Decl.name?).Nodup ∧ DeclsOk (lev + 1) ds
  | .bound t n ds => lev = 0 ∧ IsIdent t ∧ IsIdent n ∧ (ds.filterMap Decl.name?).Nodup ∧ DeclsOk (lev + 1) ds
def DeclsOk (lev : Nat) : List Decl → Prop
  | [] => True
  | d :: ds => d.Ok lev ∧ DeclsOk lev ds
end

/-- A module: its name, the imported modules with the objects used, its declarations. -/
structure Module where
  name : Name
  imports : List (Name × List Name)
  decls : List Decl

/-- A legal module. -/
structure Module.Ok (m : Module) : Prop where
  name : IsIdent m.name
  imports : ∀ i ∈ m.imports, IsIdent i.1 ∧ i.1 ≠ m.name ∧ i.2.Nodup ∧ ∀ x ∈ i.2, IsIdent x
  modules : (m.imports.map Prod.fst).Nodup
  decls : DeclsOk 0 m.decls
  scope : (m.decls.filterMap Decl.name?).Nodup
  bound : (m.decls.filterMap Decl.bound?).Nodup

mutual
/-- No procedure has a parameter or variable of this name. -/
def Decl.NoLocal (x : Name) : Decl → Prop
  | .proc _ ds => (∀ d ∈ ds, ∀ v, d = .var v → v.name ≠ x) ∧ NoLocals x ds
  | .bound _ _ ds => (∀ d ∈ ds, ∀ v, d = .var v → v.name ≠ x) ∧ NoLocals x ds
  | _ => True
def NoLocals (x : Name) : List Decl → Prop
  | [] => True
  | d :: ds => d.NoLocal x ∧ NoLocals x ds
end

/-- Where a name is declared in the C text: outside of functions; in a function; in the record for its variables (functions are numbered). -/
inductive Place where
  | file
  | «local» (f : Nat)
  | member (f : Nat)
deriving DecidableEq, Repr

/-- Names that must be different: those outside of functions; in a function, also from those outside (which would be hidden); in the same
record. -/
def Together : Place → Place → Prop
  | .member f, .member g => f = g
  | .member _, _ => False
  | _, .member _ => False
  | .local f, .local g => f = g
  | _, _ => True

/-- The keywords of C (ISO C 90). -/
def cKeywords : List Name :=
  ["auto", "break", "case", "char", "const", "continue", "default", "do", "double", "else", "enum", "extern", "float", "for", "goto",
   "if", "int", "long", "register", "return", "short", "signed", "sizeof", "static", "struct", "switch", "typedef", "union", "unsigned",
   "void", "volatile", "while"].map String.toList

/-- The names of types (and pseudo keywords) that the compiler itself writes for integers and sets, src/runtime/SYSTEM.h 43-93. -/
def cTypes : List Name :=
  ["ADDRESS", "INT8", "INT16", "INT32", "INT64", "UINT8", "UINT16", "UINT32", "UINT64", "export", "import"].map String.toList

end Verif.CNames
