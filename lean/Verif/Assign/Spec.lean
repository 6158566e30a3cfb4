import Verif.Layout.PropsLayout

/-!
# Assignments: specification

Memory is made of bytes.  The value of a variable is the list of the values of its basic components (the layout is that of C13).  Assigning
`new` to a variable with the value `old` replaces components from the first one on: an extended record gives only the components of its
base type, a shorter array or string leaves the remaining elements as they were.
-/
namespace Verif.Assign
open Verif.Layout Verif.Layout.CSpec

abbrev Mem := Nat → Nat

/-- The bytes at an address. -/
def read (m : Mem) (a n : Nat) : List Nat := (List.range n).map fun i => m (a + i)

/-- The value of a variable of type `t` at address `a`. -/
def value (al : Nat) (t : Typ) (m : Mem) (a : Nat) : Option (List (List Nat)) :=
  (scalars al t).map fun ss => ss.map fun x => read m (a + x.1) x.2

/-- The new value of a variable. -/
def overlay (new old : List (List Nat)) : List (List Nat) := new.take old.length ++ old.drop new.length

/-- Only the `n` bytes at `a` have changed. -/
def Only (a n : Nat) (m m' : Mem) : Prop := ∀ i, i < a ∨ a + n ≤ i → m' i = m i

/-- The number that bytes (lowest first) stand for. -/
def natOf : List Nat → Nat
  | [] => 0
  | b :: r => b + 256 * natOf r

/-- With a sign (two's complement). -/
def intOf (bs : List Nat) : Int := if 2 * natOf bs < 256 ^ bs.length then natOf bs else natOf bs - (256 ^ bs.length : Nat)

/-- Record types: each has a number; `named`: it has a name. -/
inductive Rc where
  | root (id : Nat) (named imp : Bool) (fs : Fields)
  | ext (base : Rc) (id : Nat) (named imp : Bool) (fs : Fields)

def Rc.id : Rc → Nat
  | .root i _ _ _ => i
  | .ext _ i _ _ _ => i

def Rc.named : Rc → Bool
  | .root _ n _ _ => n
  | .ext _ _ n _ _ => n

/-- Its layout. -/
def Rc.lay : Rc → Rec
  | .root _ _ i fs => .root i fs
  | .ext b _ _ i fs => .ext b.lay i fs

/-- The type and those it extends. -/
def Rc.up : Rc → List Rc
  | .root i n p fs => [.root i n p fs]
  | .ext b i n p fs => .ext b i n p fs :: b.up

/-- Basic types: SYSTEM.BYTE, BOOLEAN, CHAR, integers and sets of some size, REAL, LONGREAL, pointers (a number, and those of the record
type they point to and its base types), procedure types. -/
inductive Basic where
  | byte | bool | char
  | int (size : Nat)
  | set (size : Nat)
  | real | lreal
  | ptr (id : Nat) (levels : List Nat)
  | proc (id : Nat)
deriving DecidableEq, Repr

def Basic.size : Basic → Nat
  | .byte | .bool | .char => 1
  | .int s | .set s => s
  | .real => 4
  | .lreal | .ptr _ _ | .proc _ => 8

/-- Types of variables.  The types of elements have numbers; CHAR has the number 0. -/
inductive Ty where
  | simple (b : Basic)
  | array (n elemId : Nat) (elem : Typ)
  | record (r : Rc)

def Ty.lay : Ty → Typ
  | .simple b => .basic b.size
  | .array n _ e => .array n e
  | .record r => .record r.lay

/-- What is on the right side of an assignment: a variable with its address, a string constant, a character constant, the value of an
expression of a basic type, NIL. -/
inductive Rhs where
  | var (t : Ty) (a : Nat)
  | str (cs : List Nat)
  | chr (c : Nat)
  | val (b : Basic) (bs : List Nat)
  | nil

/-- The variable on the left: a variable or component whose type is known; a VAR parameter `v` or the record `p^`, which has the type with
the number `dyn` when the program runs; the same with a type guard, `v(T)` or `p(T)^`, where `static` is the type before the guard. -/
inductive Cls where
  | plain
  | varpar (dyn : Nat)
  | deref (dyn : Nat)
  | guarded (static : Rc) (dyn : Nat)
  | guardedPtr (static : Rc) (dyn : Nat)

structure Lhs where
  cls : Cls
  typ : Ty
  adr : Nat

/-- The type that the variable has when the program runs. -/
def Lhs.dyn (l : Lhs) : Option Nat :=
  match l.cls with
  | .plain => none
  | .varpar d | .deref d | .guarded _ d | .guardedPtr _ d => some d

/-- The new value, as basic components: characters with 0X for strings. -/
def rhsValue (al : Nat) (m : Mem) : Rhs → Option (List (List Nat))
  | .var t a => value al t.lay m a
  | .str cs => some ((cs ++ [0]).map fun c => [c])
  | .chr c => some (((if c = 0 then [] else [c]) ++ [0]).map fun c => [c])
  | .val _ bs => some [bs]
  | .nil => some [List.replicate 8 0]

/-- The bytes of a value of a basic type. -/
def bytesOf (m : Mem) : Rhs → Option (List Nat)
  | .var (.simple b) a => some (read m a b.size)
  | .chr c => some [c]
  | .val _ bs => some bs
  | .nil => some (List.replicate 8 0)
  | _ => none

/-- What a basic variable must hold after the assignment: the same integer, the same set, the same bytes. -/
def Same (t : Basic) (new bs : List Nat) : Prop :=
  match t with
  | .int _ => intOf new = intOf bs
  | .set _ => natOf new = natOf bs
  | _ => new = bs

/-- The variable has been assigned the value, and nothing else has changed. -/
def Assigned (al : Nat) (l : Lhs) (r : Rhs) (m m' : Mem) : Prop :=
  ∃ new old s a, rhsValue al m r = some new ∧ value al l.typ.lay m l.adr = some old ∧ layoutTyp al l.typ.lay = some (s, a) ∧
    value al l.typ.lay m' l.adr = some (overlay new old) ∧ Only l.adr s m m'

end Verif.Assign
