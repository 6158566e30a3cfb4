import Verif.Types.Spec

/-!
# What declarations of types mean

Types are numbers with a table (`Types.Tab`) and, for records, the list of the own fields with their types.  `Describes` says that a type is what
a type expression of the source says, given what the names in it stand for.
-/
namespace Verif.Decls
open Verif.Types

/-- A name, or a name of an imported module with a name exported by it. -/
inductive Qual where
  | id (x : Nat)
  | sel (m x : Nat)
deriving DecidableEq, Repr

mutual
/-- Type expressions.  Lengths of arrays are the values of their constant expressions; several lengths are arrays of arrays. -/
inductive TE where
  | name (q : Qual)
  /-- `ARRAY OF e` -/
  | dyn (e : TE)
  /-- `ARRAY n OF e` -/
  | arr (n : Int) (e : TE)
  /-- `RECORD (base) fields END` -/
  | recd (base : Option Qual) (fs : GL)
  /-- `POINTER TO q` -/
  | ptrTo (q : Qual)
  /-- `POINTER TO e` for anything else than a name -/
  | ptr (e : TE)
  /-- `PROCEDURE (pars): res` -/
  | proc (ps : GL) (res : Option Qual)
/-- Lists of fields or of formal parameters: VAR or not, names, type. -/
inductive GL where
  | nil
  | cons (var : Bool) (names : List Nat) (e : TE) (rest : GL)
end

/-- A declaration. -/
inductive Decl where
  | typ (x : Nat) (e : TE)
  | var (xs : List Nat) (e : TE)
  | const (x : Nat)

/-- The names a declaration declares. -/
def Decl.names : Decl → List Nat
  | .typ x _ => [x]
  | .var xs _ => xs
  | .const x => [x]

/-- What names stand for in a declaration: `declared` are the names declared in the section up to and with this declaration, `sec` gives the
types declared in the section, and `outer` the types of names from outside. -/
def visible (outer : Qual → Option Nat) (sec : Nat → Option Nat) (declared : List Nat) : Qual → Option Nat
  | .id x => if x ∈ declared then sec x else outer (.id x)
  | .sel m x => if m ∈ declared then none else outer (.sel m x)

/-- Own fields of a record with their types. -/
abbrev FTab := Nat → List (Nat × Nat)

section
variable (T : Tab) (F : FTab) (env : Qual → Option Nat) (sec : Nat → Option Nat)

mutual
/-- The type `t` is what the expression says.  A pointer may refer to a name that is not visible but declared later in the section. -/
def Describes : TE → Nat → Prop
  | .name q, t => env q = some t
  | .dyn e, t => (T t).form = .comp ∧ (T t).comp = .dyn ∧ ∃ b, (T t).base = some b ∧ Describes e b
  | .arr n e, t => (T t).form = .comp ∧ (T t).comp = .array ∧ 0 < n ∧ ((T t).n : Int) = n ∧ ∃ b, (T t).base = some b ∧ (T b).comp ≠ .dyn ∧ Describes e b
  | .recd q fs, t => (T t).form = .comp ∧ (T t).comp = .record ∧
      (match q with
       | none => (T t).base = none ∧ (T t).extlev = 0
       | some q => ∃ b, env q = some b ∧ (T b).comp = .record ∧ (T t).base = some b ∧ (T t).extlev = (T b).extlev + 1) ∧
      DescribesF fs (F t)
  | .ptrTo q, t => (T t).form = .ptr ∧ (T t).comp = .basic ∧ ∃ b, (T t).base = some b ∧ (T b).comp ≠ .basic ∧
      (env q = some b ∨ env q = none ∧ ∃ x, q = .id x ∧ sec x = some b)
  | .ptr e, t => (T t).form = .ptr ∧ (T t).comp = .basic ∧ ∃ b, (T t).base = some b ∧ (T b).comp ≠ .basic ∧ Describes e b
  | .proc ps res, t => (T t).form = .proc ∧ (T t).comp = .basic ∧ DescribesP ps (T t).params ∧
      match res with
      | none => (T t).base = some notyp
      | some q => ∃ b, env q = some b ∧ (T b).comp = .basic ∧ (T t).base = some b
/-- The fields are those of the list. -/
def DescribesF : GL → List (Nat × Nat) → Prop
  | .nil, l => l = []
  | .cons _ names e rest, l => ∃ t r, l = names.map (·, t) ++ r ∧ (T t).comp ≠ .dyn ∧ Describes e t ∧ DescribesF rest r
/-- The parameters are those of the list. -/
def DescribesP : GL → List Par → Prop
  | .nil, l => l = []
  | .cons v names e rest, l => ∃ t r, l = names.map (fun x => ⟨v, t, x⟩) ++ r ∧ Describes e t ∧ DescribesP rest r
end

/-- Variables of type `u` have a part of type `v`: an element, a field, or what a record extends. -/
def Contains (u v : Nat) : Prop :=
  ((T u).comp = .array ∨ (T u).comp = .dyn ∨ (T u).comp = .record) ∧ (T u).base = some v ∨
  (T u).comp = .record ∧ ∃ x, (x, v) ∈ F u
end

mutual
/-- `ARRAY OF x` occurs in the expression. -/
def DynOf (x : Nat) : TE → Bool
  | .name _ => false
  | .dyn e => (match e with | .name q => decide (q = .id x) | _ => false) || DynOf x e
  | .arr _ e => DynOf x e
  | .recd _ fs => DynOfL x fs
  | .ptrTo _ => false
  | .ptr e => DynOf x e
  | .proc ps _ => DynOfL x ps
def DynOfL (x : Nat) : GL → Bool
  | .nil => false
  | .cons _ _ e rest => DynOf x e || DynOfL x rest
end

mutual
/-- `RECORD (x)` occurs in the expression. -/
def ExtOf (x : Nat) : TE → Bool
  | .name _ => false
  | .dyn e => ExtOf x e
  | .arr _ e => ExtOf x e
  | .recd b fs => decide (b = some (.id x)) || ExtOfL x fs
  | .ptrTo _ => false
  | .ptr e => ExtOf x e
  | .proc ps _ => ExtOfL x ps
def ExtOfL (x : Nat) : GL → Bool
  | .nil => false
  | .cons _ _ e rest => ExtOf x e || ExtOfL x rest
end

/-- No record is extended within its own declaration. -/
def NoInner (ds : List Decl) : Prop := ∀ x e, .typ x e ∈ ds → ExtOf x e = false

/-- A record has a field, its own or of what it extends. -/
inductive HasField (T : Tab) (F : FTab) : Nat → Nat → Prop
  | own {t x v : Nat} : (x, v) ∈ F t → HasField T F t x
  | base {t b x : Nat} : (T t).base = some b → HasField T F b x → HasField T F t x

mutual
/-- All lengths of arrays in the expression are from 1 to `mx`. -/
def Lengths (mx : Int) : TE → Prop
  | .name _ => True
  | .dyn e => Lengths mx e
  | .arr n e => 1 ≤ n ∧ n ≤ mx ∧ Lengths mx e
  | .recd _ fs => LengthsL mx fs
  | .ptrTo _ => True
  | .ptr e => Lengths mx e
  | .proc ps _ => LengthsL mx ps
def LengthsL (mx : Int) : GL → Prop
  | .nil => True
  | .cons _ _ e rest => Lengths mx e ∧ LengthsL mx rest
end

/-- No declared type is an open array of arrays that contains pointers to open arrays of itself. -/
def Plain (ds : List Decl) : Prop := ∀ x e, .typ x e ∈ ds → DynOf x e = false

end Verif.Decls
