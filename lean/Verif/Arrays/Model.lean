import Verif.Arrays.Spec

/-!
# Array parameters in the C text

What the compiler writes for the lengths of arrays, actual parameters, lists of formal parameters and the first statements of a procedure,
and what these do when run.  C identifiers are `Name`s; numbers in `x__len1` are the second argument, and `x__len` is `len x 0`.
-/
namespace Verif.Arrays

/-- Identifiers: `x`, `x__len…`, `x__typ`, `x__copy`. -/
inductive Name where
  | ptr (x : Nat)
  | len (x d : Nat)
  | tag (x : Nat)
  | cpy (x : Nat)
deriving DecidableEq, Repr

/-- C expressions for a length: a number, `x__len1`, `P_s->x__len1`, `p->len[1]`. -/
inductive LenE where
  | num (n : Nat)
  | own (x d : Nat)
  | outer (x d : Nat)
  | hdr (p d : Nat)
deriving DecidableEq, Repr

/-- OPC.Mod:1221-1222, OPV.Mod:217-218 -/
def bases : Nat → Ty → Ty
  | 0, t => t
  | d + 1, t => bases d t.base

/-- OPC.Mod:1223-1228 Len: `id` is what CompleteIdent writes for the object (OPC.Mod:1089-1107); `none`: there is no object or the type is not
an array, the compiler fails. -/
def opcLen (id : Option (Nat → LenE)) (t : Ty) (dim : Nat) : Option LenE :=
  match bases dim t with
  | .dyn _ => id.map (· dim)
  | .arr n _ => some (.num n)
  | _ => none

/-- OPV.Mod:211-226 Len.  Simplification: pointers are numbers (`design(n^.left, 10)`). -/
def lenText : Desig → Nat → Option LenE
  | .index d, dim =>
    match d.typ.base with
    | .dyn _ => lenText d (dim + 1)
    | t => opcLen none t dim
  | .deref p t, dim =>
    match t with
    | .dyn _ =>
      match bases dim t with
      | .dyn _ => some (.hdr p dim)
      | .arr n _ => some (.num n)
      | _ => none
    | _ => opcLen none t dim
  | .own x t, dim => opcLen (some (.own x)) t dim
  | .outer x t, dim => opcLen (some (.outer x)) t dim
  | .other t, dim => opcLen none t dim

/-- One actual parameter of a call in C. -/
inductive Text where
  | word (w : Nat)
  | len (e : LenE)
  | prod (es : List LenE) (size : Nat)
deriving DecidableEq, Repr

/-- The size in bytes of a type without open arrays (OPV.Mod:TypSize, C13). -/
def Ty.size : Ty → Nat
  | .arr n t => n * t.size
  | .simple _ s => s
  | .record _ s => s
  | .byte => 1
  | .dyn _ => 0

/-- OPV.Mod:451-453: the lengths of an actual parameter for ARRAY OF BYTE. -/
def byteLens : Ty → Desig → Nat → Option (List LenE × Nat)
  | .dyn t, d, dim => do
    let e ← lenText d dim
    let (es, s) ← byteLens t d (dim + 1)
    return (e :: es, s)
  | t, _, _ => some ([], t.size)

/-- OPV.Mod:444-456: the lengths of an actual parameter; `typ`, `aptyp`, `dim` are the variables of the loop. -/
def lenPars : Ty → Ty → Desig → Nat → Option (List Text)
  | .dyn .byte, aptyp, d, dim => do
    let (es, s) ← byteLens aptyp d dim
    return [.prod es s]
  | .dyn t, aptyp, d, dim => do
    let e ← lenText d dim
    let ts ← lenPars t aptyp.base d (dim + 1)
    return .len e :: ts
  | _, _, _, _ => some []

/-- OPV.Mod:404-460 ActualPar, one parameter.  Simplifications: casts are left out, addresses and values are numbers (designators: C38),
a type tag comes with the actual parameter (C36). -/
def actualPar (f : Formal) : Act → Option (List Text)
  | .desig adr tag d =>
    match f.ty with
    | .record _ _ => some (if f.var then [.word adr, .word tag] else [.word adr])
    | .dyn t => (lenPars (.dyn t) d.typ d 0).map (.word adr :: ·)
    | _ => some [.word adr]
  | .str adr n =>
    match f.ty with
    | .dyn _ => some [.word adr, .word n]
    | _ => some [.word adr]
  | .value w => some [.word w]

/-- OPV.Mod:408-458: the loop over the parameters. -/
def actualPars : List Formal → List Act → Option (List Text)
  | f :: fs, a :: as => do
    let ts ← actualPar f a
    let us ← actualPars fs as
    return ts ++ us
  | _, _ => some []

/-- OPC.Mod:335-340 LenList: the loop, from `dim` on. -/
def lenNames (x : Nat) : Ty → Nat → List Name
  | .dyn t, dim => .len x dim :: lenNames x t (dim + 1)
  | _, _ => []

/-- OPC.Mod:676-702 AnsiParamList, one parameter (LenList: OPC.Mod:331-342). -/
def paramNames (f : Formal) : List Name :=
  match f.ty with
  | .dyn t => .ptr f.x :: .len f.x 0 :: lenNames f.x t 1
  | .record _ _ => if f.var then [.ptr f.x, .tag f.x] else [.ptr f.x]
  | _ => [.ptr f.x]

/-- The state when C runs: bytes in memory, the objects allocated in it (start and length), the first address after them, the parameters and
local pointers of the running procedure, its scope record `_s`, the scope records of the procedures around it, the headers of open arrays. -/
structure St where
  mem : Nat → Int
  objs : List (Nat × Nat)
  top : Nat
  word : Name → Option Nat
  scope : Name → Option Nat
  outer : Name → Option Nat
  hdr : Nat → Nat → Option Nat

def LenE.eval (s : St) : LenE → Option Nat
  | .num n => some n
  | .own x d => s.word (.len x d)
  | .outer x d => s.outer (.len x d)
  | .hdr p d => s.hdr p d

/-- `e * e * … * size` -/
def evalProd (s : St) : List LenE → Nat → Option Nat
  | [], size => some size
  | e :: es, size => do return (← e.eval s) * (← evalProd s es size)

def Text.eval (s : St) : Text → Option Nat
  | .word w => some w
  | .len e => e.eval s
  | .prod es size => evalProd s es size

def evalAll (s : St) : List Text → Option (List Nat)
  | [] => some []
  | t :: ts => do return (← t.eval s) :: (← evalAll s ts)

def set (m : Name → Option Nat) (n : Name) (v : Option Nat) : Name → Option Nat := fun k => if k = n then v else m k

/-- C: a call binds parameters to values, in order. -/
def bind : List Name → List Nat → Option (Name → Option Nat)
  | [], [] => some fun _ => none
  | n :: ns, v :: vs => do return set (← bind ns vs) n (some v)
  | _, _ => none

/-- `n` bytes at `p` are in one object. -/
def Inside (objs : List (Nat × Nat)) (p n : Nat) : Prop := ∃ o ∈ objs, o.1 ≤ p ∧ p + n ≤ o.1 + o.2
instance (objs : List (Nat × Nat)) (p n : Nat) : Decidable (Inside objs p n) := inferInstanceAs (Decidable (∃ _ ∈ _, _))

/-- C: memcpy; `none` (undefined) if it reads or writes what is not in an object, or if what it reads and what it writes overlap. -/
def memcpy (s : St) (dst src n : Nat) : Option St :=
  if Inside s.objs dst n ∧ Inside s.objs src n ∧ (dst + n ≤ src ∨ src + n ≤ dst) then
    some { s with mem := fun a => if dst ≤ a ∧ a < dst + n then s.mem (src + (a - dst)) else s.mem a }
  else none

/-- C: a local variable, or alloca. -/
def alloc (s : St) (n : Nat) : St := { s with objs := (s.top, n) :: s.objs, top := s.top + n }

/-- OPC.Mod:976-985: `T x__copy;` for value parameters of fixed length.  Simplification: types have names (else error 200). -/
def declCopies : List Formal → St → St
  | [], s => s
  | f :: fs, s =>
    match f.ty, f.var with
    | .arr n t, false => declCopies fs { alloc s (n * t.size) with word := set s.word (.cpy f.x) (some s.top) }
    | _, _ => declCopies fs s

/-- OPC.Mod:996-1001: `x__len * x__len1 …`, from dimension `dim` on, and the type that remains. -/
def dupLens (x : Nat) : Ty → Nat → List Name × Ty
  | .dyn t, dim => let (ns, u) := dupLens x t (dim + 1); (.len x dim :: ns, u)
  | t, _ => ([], t)

def prodOf (s : St) : List Name → Option Nat
  | [] => some 1
  | n :: ns => do return (← s.word n) * (← prodOf s ns)

/-- OPC.Mod:987-1010: copies of value parameters; SYSTEM.h:163-165 __DUPARR, __DUP.  Simplification: `sysflag` is 0. -/
def dup (f : Formal) (s : St) : Option St :=
  match f.ty, f.var with
  | .arr n t, false => do
    let c ← s.word (.cpy f.x)
    let p ← s.word (.ptr f.x)
    let s' ← memcpy s c p (n * t.size)
    return { s' with word := set s'.word (.ptr f.x) (some c) }
  | .dyn t, false => do
    let (ns, u) := dupLens f.x t 1
    let l ← prodOf s (.len f.x 0 :: ns)
    let p ← s.word (.ptr f.x)
    let c := s.top
    let s' ← memcpy (alloc s (l * u.size)) c p (l * u.size)
    return { s' with word := set s'.word (.ptr f.x) (some c) }
  | _, _ => some s

def dups : List Formal → St → Option St
  | [], s => some s
  | f :: fs, s => do dups fs (← dup f s)

/-- OPC.Mod:1023-1030: the loop that copies lengths into the scope record; `dim` is not changed in it. -/
def scopeLens (x : Nat) (dim : Nat) : Ty → St → St
  | .dyn t, s => scopeLens x dim t { s with scope := set s.scope (.len x dim) (s.word (.len x dim)) }
  | _, s => s

/-- OPC.Mod:1013-1038: addresses of parameters in the scope record.  Simplification: value parameters that are not arrays (C52) are left
out. -/
def scopePar (f : Formal) (s : St) : St :=
  if f.leaf then s
  else
    let s' := { s with scope := set s.scope (.ptr f.x) (s.word (.ptr f.x)) }
    match f.ty, f.var with
    | .dyn t, _ => scopeLens f.x 0 t { s' with scope := set s'.scope (.len f.x 0) (s'.word (.len f.x 0)) }
    | .record _ _, true => { s' with scope := set s'.scope (.tag f.x) (s'.word (.tag f.x)) }
    | .arr _ _, _ => s'
    | _, true => s'
    | _, _ => s

def scopePars : List Formal → St → St
  | [], s => s
  | f :: fs, s => scopePars fs (scopePar f s)

/-- A call of a procedure with parameters `fs`, up to its first statement: OPV.Mod:404-460 ActualPar, OPC.Mod:962-1058 EnterProc.  `leaf`: the
procedure has no scope record.  `none`: the compiler fails, or what C does is undefined. -/
def enter (fs : List Formal) (leaf : Bool) (as : List Act) (s : St) : Option St := do
  let ts ← actualPars fs as
  let vs ← evalAll s ts
  let w ← bind (fs.flatMap paramNames) vs
  let s := declCopies fs { s with word := w, scope := fun _ => none }
  let s ← dups fs s
  return if leaf then s else scopePars fs s

/-- In a procedure nested in the running one, which has parameters `fs`: these are found in the scope record. -/
def nested (fs : List Formal) (s : St) : St :=
  { s with word := fun _ => none, scope := fun _ => none,
           outer := fun n => if n ∈ fs.flatMap paramNames then s.scope n else s.outer n }
end Verif.Arrays
