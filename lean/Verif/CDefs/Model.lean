import Verif.CDefs.Spec

/-!
# The order of definitions in C: what the compiler writes

`DefineType` and what calls it in OPC.Mod, for the body file (in the header file, types and fields that are not exported are skipped).  Types are numbers into a table that
does not change; of the text only what it mentions is kept.  `none` is for recursion deeper than the bound.
-/
namespace Verif.CDefs

/-- `linkadr` of a type with a name, OPC.Mod 14-16; `done` is `3+OPM.currFile`. -/
inductive Mark where
  | undef | processing | predef | done
deriving DecidableEq

structure State where
  mark : Nat → Mark
  err : Bool
  out : List Item

/-- `~Undefined(obj)`, OPC.Mod 209-217; predefined and imported types are always defined. -/
def defined (T : Tab) (mk : Nat → Mark) (i : Nat) : Bool := T.node i = .basic || mk i = .done || mk i = .predef

def setMark (s : State) (i : Nat) (m : Mark) : State := { s with mark := fun j => if j = i then m else s.mark j }

/-- The elements of an open array after all its open dimensions, OPC.Mod 248-249. -/
def elemOf (T : Tab) : Nat → Nat → Option Nat
  | 0, _ => none
  | n + 1, t => match T.node t with
    | .openArr b => elemOf T n b
    | _ => some t

/-- All of the list, in order. -/
def collect (f : Nat → Option (List Mention)) : List Nat → Option (List Mention)
  | [] => some []
  | t :: ts => do
    let a ← f t
    let b ← collect f ts
    some (a ++ b)

mutual
/-- What `DeclareBase` and `DeclareObj` mention for an object of the type, OPC.Mod 165-257: names of types that are defined; types without names, and types not yet defined, are
written out.  `p` tells whether the type is reached directly by a pointer (`prev.form = OPT.Pointer`). -/
def uses (T : Tab) (mk : Nat → Mark) : Nat → Bool → Nat → Option (List Mention)
  | 0, _, _ => none
  | n + 1, p, t =>
    if T.node t = .basic then some []
    else if T.named t && defined T mk t && !(T.node t).isOpen then some [.name t]
    else match T.node t with
      | .basic => some []
      | .pointer b => if (T.node b).isOpen then do let e ← elemOf T n b; uses T mk n false e else uses T mk n true b
      | .array b => uses T mk n false b
      | .openArr b => uses T mk n false b
      | .record _ _ _ => if p then some [.tag t] else if T.named t then bodyOf T mk n t else some [.whole t]
      | .proc res ps => collect (uses T mk n false) (res.toList ++ ps)
/-- The structure with its fields, OPC.Mod 236-246. -/
def bodyOf (T : Tab) (mk : Nat → Mark) : Nat → Nat → Option (List Mention)
  | 0, _ => none
  | n + 1, t => do
    let fs ← fieldsOf T mk n t
    some (.body t :: fs)
/-- `FieldList`, OPC.Mod 585-631: the fields of the base type first. -/
def fieldsOf (T : Tab) (mk : Nat → Mark) : Nat → Nat → Option (List Mention)
  | 0, _ => none
  | n + 1, t => match T.node t with
    | .record base fs _ => do
      let b ← (match base with
        | none => some []
        | some b => fieldsOf T mk n b)
      let l ← collect (uses T mk n false) fs
      some (b ++ l)
    | _ => some []
end

/-- A procedure for each of a list, in order. -/
def each {α : Type} (f : α → State → Option State) : List α → State → Option State
  | [], s => some s
  | a :: as, s => do
    let s' ← f a s
    each f as s'

/-- `DefineType`, OPC.Mod 433-481, with `DeclareTProcs` and `DefineTProcTypes`, OPC.Mod 367-396. -/
def defineType (T : Tab) : Nat → Nat → State → Option State
  | 0, _, _ => none
  | n + 1, i, s =>
    if T.named i && defined T s.mark i then some s
    else do
      let s1 :=
        if T.named i then
          if s.mark i = .processing then (if (T.node i).isPointer then s else setMark { s with err := true } i .predef)
          else setMark s i .processing
        else s
      let s2 ← (match T.node i with
        | .basic => some s1
        | .record base fs _ => each (defineType T n) (base.toList ++ fs) s1
        | .pointer b => if (T.node b).isRecord then some s1 else defineType T n b s1
        | .array b => defineType T n b (if T.named b && decide (s1.mark b = .processing) then setMark { s1 with err := true } b .predef else s1)
        | .openArr b => defineType T n b (if T.named b && decide (s1.mark b = .processing) then setMark { s1 with err := true } b .predef else s1)
        | .proc res ps => each (defineType T n) (res.toList ++ ps) s1)
      if T.named i && !defined T s2.mark i then do
        let u ← uses T (setMark s2 i .processing).mark n false i
        let s3 := setMark { s2 with out := s2.out ++ [.typedef i u] } i .done
        match T.node i with
        | .record _ _ ms => each (fun m s => do
            let s' ← each (defineType T n) (m.1.toList ++ m.1.toList ++ m.2) s
            let u ← collect (uses T s'.mark n false) (m.1.toList ++ m.2)
            some { s' with out := s'.out ++ [.proto u] }) ms s3
        | _ => some s3
      else some s2

/-- `DefAnonRecs`, OPC.Mod 520-533, for a record type of the module. -/
def defAnon (T : Tab) (n : Nat) (a : Nat) (s : State) : Option State :=
  if T.named a then some s
  else do
    let s' ← defineType T n a s
    let u ← bodyOf T s'.mark n a
    some { s' with out := s'.out ++ [.struct a u] }

/-- `IdentList` for the variables of the module, as to what it mentions. -/
def declVar (T : Tab) (n : Nat) (t : Nat) (s : State) : Option State := do
  let u ← uses T s.mark n false t
  some { s with out := s.out ++ [.var u] }

def start : State := { mark := fun _ => .undef, err := false, out := [] }

/-- The beginning of `GenBdy`, OPC.Mod 822-843, and `TypeDefs`, OPC.Mod 510-518: records without names in the order of their declarations, types with names in the order of their
names, variables. -/
def genBody (T : Tab) (n : Nat) (anons names vars : List Nat) : Option State := do
  let s1 ← each (defAnon T n) anons start
  let s2 ← each (defineType T n) names s1
  each (declVar T n) vars s2

end Verif.CDefs
