/-!
# The rules for types, after the language report

Types are numbers with a table of what is known about each (`Tab`); two types are the same if they have the same number.  The
rules are those of the appendix of the Oberon-2 report; what the compiler accepts beyond them is marked.
-/
namespace Verif.Types

/-- Forms of types, src/compiler/OPT.Mod 93-98. -/
inductive Form where
  | undef | byte | bool | char | int | real | lreal | set | str | nil | no | ptr | proc | comp
deriving DecidableEq, Repr

/-- Composite types, src/compiler/OPT.Mod 102-103. -/
inductive Comp where
  | basic | array | dyn | record
deriving DecidableEq, Repr

/-- A formal parameter: VAR or not, its type and its name. -/
structure Par where
  var : Bool
  typ : Nat
  name : Nat
deriving DecidableEq, Repr

/-- A type, `StrDesc`, src/compiler/OPT.Mod 79-91.  `base`: element type, base record, type pointed to, or result type; `n`: length of
an array, or the number of further open dimensions. -/
structure Ty where
  form : Form
  comp : Comp := .basic
  size : Nat := 1
  n : Nat := 0
  extlev : Nat := 0
  base : Option Nat := some 0
  params : List Par := []
deriving DecidableEq, Repr

abbrev Tab := Nat → Ty

/-! The predeclared types that are named in the compiler, src/compiler/OPT.Mod 1342-1378. -/
def undftyp : Nat := 0
def notyp : Nat := 1
def stringtyp : Nat := 2
def niltyp : Nat := 3
def bytetyp : Nat := 4
def sysptrtyp : Nat := 5
def booltyp : Nat := 6
def chartyp : Nat := 7
def realtyp : Nat := 8
def lrltyp : Nat := 9

/-- A table as the compiler builds it.  Records: src/compiler/OPP.Mod 87-100; arrays: 138-164; pointers: 166-195. -/
structure Wf (T : Tab) : Prop where
  undf : T undftyp = { form := .undef }
  no : T notyp = { form := .no }
  str : T stringtyp = { form := .str }
  nil : T niltyp = { form := .nil }
  byte : T bytetyp = { form := .byte }
  sysptr : (T sysptrtyp).form = .ptr ∧ (T sysptrtyp).base = some undftyp
  bool : T booltyp = { form := .bool }
  char : T chartyp = { form := .char }
  real : (T realtyp).form = .real
  lreal : (T lrltyp).form = .lreal
  comp : ∀ t, (T t).form = .comp ↔ (T t).comp ≠ .basic
  undf' : ∀ t, (T t).form = .undef → t = undftyp
  str' : ∀ t, (T t).form = .str → t = stringtyp
  nil' : ∀ t, (T t).form = .nil → t = niltyp
  byte' : ∀ t, (T t).form = .byte → t = bytetyp
  bool' : ∀ t, (T t).form = .bool → t = booltyp
  char' : ∀ t, (T t).form = .char → t = chartyp
  real' : ∀ t, (T t).form = .real → t = realtyp
  lreal' : ∀ t, (T t).form = .lreal → t = lrltyp
  /-- The base type of a record is a record of the level below. -/
  record : ∀ t b, (T t).comp = .record → (T t).base = some b → (T b).comp = .record ∧ (T t).extlev = (T b).extlev + 1
  /-- Arrays have an element type; open dimensions are counted. -/
  array : ∀ t, (T t).comp = .array → ∃ b, (T t).base = some b ∧ (T b).comp ≠ .dyn
  dyn : ∀ t, (T t).comp = .dyn → ∃ b, (T t).base = some b ∧ ((T b).comp = .dyn → (T t).n = (T b).n + 1)
  ptr : ∀ t, (T t).form = .ptr → ∃ b, (T t).base = some b

/-! ### The report's notions -/

/-- `t` is an extension of `b` (every type is one of itself). -/
inductive Ext (T : Tab) : Nat → Nat → Prop
  | refl (t : Nat) : Ext T t t
  | step {t b u : Nat} : (T t).comp = .record → (T t).base = some b → Ext T b u → Ext T t u

mutual
/-- Equal types: the same; open arrays of equal types; procedure types with matching parameters. -/
inductive Equal (T : Tab) : Nat → Nat → Prop
  | same (t : Nat) : Equal T t t
  | dyn {t u a b : Nat} : (T t).comp = .dyn → (T u).comp = .dyn → (T t).base = some a → (T u).base = some b → Equal T a b → Equal T t u
  | proc {t u : Nat} : (T t).form = .proc → (T u).form = .proc → (T t).base = (T u).base → Match T (T t).params (T u).params → Equal T t u
/-- Matching lists of parameters: as many, of equal types, both VAR or both not. -/
inductive Match (T : Tab) : List Par → List Par → Prop
  | nil : Match T [] []
  | cons {p q : Par} {ps qs : List Par} : p.var = q.var → Equal T p.typ q.typ → Match T ps qs → Match T (p :: ps) (q :: qs)
end

/-- What an expression is. -/
inductive Kind where
  /-- A variable that can be assigned to or handed on as VAR parameter; or one that is read only, or a guard `v(T)`. -/
  | var (readonly guard : Bool)
  /-- A constant; the length of a string with its 0X. -/
  | const (len : Nat)
  /-- The name of a type. -/
  | typ
  /-- The name of a procedure: can it be assigned (not standard, not local to another), its result and its parameters. -/
  | proc (assignable : Bool) (res : Nat) (params : List Par)
  | other
deriving DecidableEq, Repr

/-- An expression with its type. -/
structure Ex where
  kind : Kind
  typ : Nat
deriving DecidableEq, Repr

/-- It has a value. -/
def Ex.value (e : Ex) : Prop := e.kind ≠ .typ ∧ ∀ a r ps, e.kind ≠ .proc a r ps

/-- Numeric types include each other: LONGREAL, REAL, integers by size. -/
def Includes (T : Tab) (x y : Nat) : Prop :=
  (T x).form = .int ∧ (T y).form = .int ∧ (T y).size ≤ (T x).size ∨
  (T x).form = .real ∧ ((T y).form = .int ∨ (T y).form = .real) ∨
  (T x).form = .lreal ∧ ((T y).form = .int ∨ (T y).form = .real ∨ (T y).form = .lreal)

/-- Both are pointers to records. -/
def RecPtr (T : Tab) (x a : Nat) : Prop := (T x).form = .ptr ∧ (T x).base = some a ∧ (T a).comp = .record

/-- Assignment compatible: `x := e` for a variable of type `x`. -/
inductive Compatible (T : Tab) (x : Nat) (e : Ex) : Prop
  /-- The same type; open arrays cannot be assigned. -/
  | same : e.value → e.typ = x → (T x).comp ≠ .dyn → Compatible T x e
  | numeric : e.value → Includes T x e.typ → Compatible T x e
  | record : e.value → (T x).comp = .record → (T e.typ).comp = .record → Ext T e.typ x → Compatible T x e
  | pointer {a b : Nat} : e.value → RecPtr T x a → RecPtr T e.typ b → Ext T b a → Compatible T x e
  | nil : e.value → e.typ = niltyp → (T x).form = .ptr ∨ (T x).form = .proc → Compatible T x e
  /-- A string of `len - 1` characters, with its 0X. -/
  | string {len : Nat} : (T x).comp = .array → (T x).base = some chartyp → e.kind = .const len → e.typ = stringtyp → len ≤ (T x).n →
      Compatible T x e
  /-- A character as a string; `len` is 1 for 0X and 2 for others. -/
  | char {len : Nat} : (T x).comp = .array → (T x).base = some chartyp → e.kind = .const len → e.typ = chartyp → len ≤ (T x).n →
      Compatible T x e
  | proc {r : Nat} {ps : List Par} : (T x).form = .proc → e.kind = .proc true r ps → (T x).base = some r → Match T (T x).params ps →
      Compatible T x e
  /-- Beyond the report: sets by size. -/
  | set : e.value → (T x).form = .set → (T e.typ).form = .set → (T e.typ).size ≤ (T x).size → Compatible T x e
  /-- Beyond the report (SYSTEM): a type of one byte. -/
  | byte : e.value → x = bytetyp → ((T e.typ).form = .byte ∨ (T e.typ).form = .char ∨ (T e.typ).form = .int) → (T e.typ).size = 1 → Compatible T x e
  /-- Beyond the report (SYSTEM): any pointer. -/
  | sysptr : e.value → x = sysptrtyp → (T e.typ).form = .ptr → Compatible T x e
  /-- Beyond the report (Oberon-07): an array with as many or fewer elements of the same type. -/
  | array : e.value → (T x).comp = .array → (T e.typ).comp = .array → (T e.typ).base = (T x).base → (T e.typ).n ≤ (T x).n → Compatible T x e

/-- Array compatible: an actual parameter of type `a` for an open array `f`. -/
inductive ArrayCompatible (T : Tab) (var : Bool) : Nat → Nat → Prop
  /-- Elements of the same type. -/
  | elem {f a fe : Nat} : (T f).comp = .dyn → (T f).base = some fe → (T a).comp = .array ∨ (T a).comp = .dyn → (T a).base = some fe →
      (T fe).comp ≠ .dyn → ArrayCompatible T var f a
  /-- Open elements. -/
  | open {f a fe ae : Nat} : (T f).comp = .dyn → (T f).base = some fe → (T a).comp = .array ∨ (T a).comp = .dyn → (T a).base = some ae →
      ArrayCompatible T var fe ae → ArrayCompatible T var f a
  /-- Beyond the report (SYSTEM): a VAR parameter ARRAY OF BYTE takes any variable. -/
  | bytes {f a : Nat} : var = true → (T f).comp = .dyn → (T f).base = some bytetyp → ArrayCompatible T var f a
  /-- Beyond the report: value parameters with elements that point to extensions. -/
  | pointers {f a fe ae c d : Nat} : var = false → (T f).comp = .dyn → (T f).base = some fe → (T a).comp = .array ∨ (T a).comp = .dyn →
      (T a).base = some ae → RecPtr T fe c → RecPtr T ae d → Ext T d c → ArrayCompatible T var f a

/-- Actual parameters for a VAR parameter of type `f`. -/
inductive VarCompatible (T : Tab) (f : Nat) (e : Ex) : Prop
  /-- The same type.  A guard `p(T)` of a pointer is not a variable of type `T`. -/
  | same {g : Bool} : e.kind = .var false g → e.typ = f → (T f).comp ≠ .dyn → (g = true → (T f).form ≠ .ptr ∨ f = sysptrtyp) → VarCompatible T f e
  | record {g : Bool} : e.kind = .var false g → (T f).comp = .record → (T e.typ).comp = .record → Ext T e.typ f → VarCompatible T f e
  | array {g : Bool} : e.kind = .var false g → ArrayCompatible T true f e.typ → VarCompatible T f e
  /-- Beyond the report (SYSTEM). -/
  | sysptr {g : Bool} : e.kind = .var false g → f = sysptrtyp → (T e.typ).form = .ptr → VarCompatible T f e
  /-- Beyond the report (SYSTEM). -/
  | byte {g : Bool} : e.kind = .var false g → f = bytetyp → ((T e.typ).form = .byte ∨ (T e.typ).form = .bool ∨ (T e.typ).form = .char ∨ (T e.typ).form = .int) →
      (T e.typ).size = 1 → VarCompatible T f e

/-- Actual parameters for a value parameter of type `f`. -/
inductive ValueCompatible (T : Tab) (f : Nat) (e : Ex) : Prop
  | assign : (T f).comp ≠ .dyn → Compatible T f e → ValueCompatible T f e
  /-- Strings, and characters as strings, for ARRAY OF CHAR. -/
  | string {len : Nat} : (T f).comp = .dyn → (T f).base = some chartyp → e.kind = .const len → e.typ = stringtyp ∨ e.typ = chartyp →
      ValueCompatible T f e
  | array {r g : Bool} : e.kind = .var r g → ArrayCompatible T false f e.typ → ValueCompatible T f e

end Verif.Types
