/-!
# Arrays as parameters, after the language report

A value parameter is a local variable that starts with the value of the actual parameter; a VAR parameter is the actual parameter itself.
The lengths of an open array parameter are those of the actual parameter (for `VAR x: ARRAY OF BYTE`: its size).
-/
namespace Verif.Arrays

/-- Types: unstructured ones and records are told apart by a number and have a size in bytes; `BYTE`; arrays of fixed length; open arrays. -/
inductive Ty where
  | simple (id size : Nat)
  | byte
  | record (id size : Nat)
  | arr (n : Nat) (t : Ty)
  | dyn (t : Ty)
deriving DecidableEq, Repr

def char : Ty := .simple 0 1

/-- Open arrays are not elements of arrays of fixed length. -/
def Ty.closed : Ty → Prop
  | .arr _ t => t.closed
  | .dyn _ => False
  | _ => True
def Ty.Ok : Ty → Prop
  | .dyn t => t.Ok
  | t => t.closed

/-- The type of elements of elements of … of an array. -/
def Ty.elem : Ty → Ty
  | .arr _ t => t.elem
  | .dyn t => t.elem
  | t => t

/-- The size of something without elements. -/
def Ty.unit : Ty → Nat
  | .simple _ s => s
  | .record _ s => s
  | _ => 1

/-- The number of dimensions whose lengths are not in the type. -/
def Ty.opens : Ty → Nat
  | .dyn t => t.opens + 1
  | _ => 0

/-- `ls` are the lengths of an array of type `t`, outermost first. -/
def Describes : Ty → List Nat → Prop
  | .arr n t, l :: ls => l = n ∧ Describes t ls
  | .dyn t, _ :: ls => Describes t ls
  | .arr _ _, [] => False
  | .dyn _, [] => False
  | _, [] => True
  | _, _ => False

/-- The number of bytes of an array of type `t` with lengths `ls`. -/
def bytes (t : Ty) (ls : List Nat) : Nat := ls.prod * t.elem.unit

/-- The actual parameter has a type that the formal parameter's type allows: the same, or an array where that is an open array, or anything
for `VAR x: ARRAY OF BYTE`. -/
inductive Compatible (var : Bool) : Ty → Ty → Prop
  | same (t : Ty) : Compatible var t t
  | fixed {f t : Ty} (n : Nat) : Compatible var f t → Compatible var (.dyn f) (.arr n t)
  | opened {f t : Ty} : Compatible var f t → Compatible var (.dyn f) (.dyn t)
  | anything (t : Ty) : var = true → Compatible var (.dyn .byte) t

/-- The lengths of a formal parameter of type `f` if the actual one has type `a` and lengths `ls`: the same; for ARRAY OF BYTE, the size. -/
def parLens : Ty → Ty → List Nat → List Nat
  | .dyn .byte, a, ls => [bytes a ls]
  | .dyn f, .arr _ t, l :: ls => l :: parLens f t ls
  | .dyn f, .dyn t, l :: ls => l :: parLens f t ls
  | _, _, ls => ls

/-- A designator of a variable: a variable or parameter of the procedure itself (or a global one), one of an enclosing procedure, `p^`, an
element, or anything else, which has a type without open arrays.  Variables and pointers are numbers. -/
inductive Desig where
  | own (x : Nat) (t : Ty)
  | outer (x : Nat) (t : Ty)
  | deref (p : Nat) (t : Ty)
  | other (t : Ty)
  | index (d : Desig)
deriving DecidableEq, Repr

def Ty.base : Ty → Ty
  | .arr _ t => t
  | .dyn t => t
  | t => t

def Desig.typ : Desig → Ty
  | .own _ t => t
  | .outer _ t => t
  | .deref _ t => t
  | .other t => t
  | .index d => d.typ.base

/-- The lengths of variables and of what pointers point to, in some state of the program. -/
structure Lens where
  own : Nat → List Nat
  outer : Nat → List Nat
  deref : Nat → List Nat

/-- The lengths in a type without open arrays. -/
def Ty.lens : Ty → List Nat
  | .arr n t => n :: t.lens
  | _ => []

/-- The lengths of what a designator designates. -/
def Desig.lens (E : Lens) : Desig → List Nat
  | .own x _ => E.own x
  | .outer x _ => E.outer x
  | .deref p _ => E.deref p
  | .other t => t.lens
  | .index d => (d.lens E).tail

/-- The designator is correct: lengths are as the types say, what is indexed is an array. -/
def Desig.Ok (E : Lens) : Desig → Prop
  | .own x t => t.Ok ∧ Describes t (E.own x)
  | .outer x t => t.Ok ∧ Describes t (E.outer x)
  | .deref p t => t.Ok ∧ Describes t (E.deref p)
  | .other t => t.closed
  | .index d => d.Ok E ∧ d.lens E ≠ []

/-- A formal parameter: its name, is it a VAR parameter, its type, and is it used by no procedure nested in this one. -/
structure Formal where
  x : Nat
  var : Bool
  ty : Ty
  leaf : Bool
deriving DecidableEq, Repr

/-- An actual parameter: a variable (its address, its type tag if it is a record, its designator), a string constant of `n` characters
including the terminating 0X, or some other value. -/
inductive Act where
  | desig (adr tag : Nat) (d : Desig)
  | str (adr n : Nat)
  | value (w : Nat)
deriving Repr

def Ty.isArray : Ty → Bool
  | .arr _ _ => true
  | .dyn _ => true
  | _ => false

/-- The lengths that the formal parameter `f` has if the actual one is `a`. -/
def Formal.lens (E : Lens) (f : Formal) : Act → List Nat
  | .desig _ _ d => parLens f.ty d.typ (d.lens E)
  | .str _ n => [n]
  | .value _ => []

/-- The size of the actual parameter. -/
def Act.bytes (E : Lens) : Act → Nat
  | .desig _ _ d => Arrays.bytes d.typ (d.lens E)
  | .str _ n => n
  | .value _ => 0

/-- `a` may be passed for `f`.  Not in the report but accepted by the compiler: arrays and strings that are shorter than a value parameter of
fixed length, see `C68_shorter`. -/
def Passes (E : Lens) (f : Formal) : Act → Prop
  | .desig _ _ d => d.Ok E ∧ f.ty.Ok ∧ Compatible f.var f.ty d.typ
  | .str _ n => f.var = false ∧ (f.ty = .dyn char ∨ f.ty = .arr n char)
  | .value _ => f.var = false ∧ f.ty.isArray = false

/-- The address of the actual parameter, or its value. -/
def Act.word : Act → Nat
  | .desig a _ _ => a
  | .str a _ => a
  | .value w => w
end Verif.Arrays
