import Verif.Ptrs.Model

/-!
# Specification: where the pointers are

An offset is the position of a traced pointer in a type if it is 0 and the type is a traced pointer type, or it lies in an
element of an array, in the base type of a record or in one of its fields.
-/
namespace Verif.Ptrs

/-- The field at address `a` has type `t`. -/
inductive HasField : Flds → Nat → Ty → Prop where
  | here (x : Bool) (a : Nat) (t : Ty) (rest : Flds) : HasField (.fld x a t rest) a t
  | fld {x : Bool} {a' a : Nat} {t' t : Ty} {rest : Flds} : HasField rest a t → HasField (.fld x a' t' rest) a t
  | hid {a' a : Nat} {t : Ty} {rest : Flds} : HasField rest a t → HasField (.hid a' rest) a t

/-- There is a hidden pointer at address `a`. -/
inductive HasHidden : Flds → Nat → Prop where
  | here (a : Nat) (rest : Flds) : HasHidden (.hid a rest) a
  | fld {x : Bool} {a' a : Nat} {t' : Ty} {rest : Flds} : HasHidden rest a → HasHidden (.fld x a' t' rest) a
  | hid {a' a : Nat} {rest : Flds} : HasHidden rest a → HasHidden (.hid a' rest) a

/-- `PtrAt t o`: in a variable of type `t` there is a traced pointer at offset `o`. -/
inductive PtrAt : Ty → Nat → Prop where
  | ptr : PtrAt (.ptr true) 0
  | elem {n i : Nat} {e : Ty} {o : Nat} : i < n → PtrAt e o → PtrAt (.arr n e) (i * size e + o)
  | base {s : Nat} {b : Ty} {fs : Flds} {o : Nat} : PtrAt b o → PtrAt (.record s true b fs) o
  | field {s : Nat} {b : Ty} {fs : Flds} {a : Nat} {t : Ty} {o : Nat} : HasField fs a t → PtrAt t o →
      PtrAt (.record s true b fs) (a + o)
  | hidden {s : Nat} {b : Ty} {fs : Flds} {a : Nat} : HasHidden fs a → PtrAt (.record s true b fs) a

/-! ### Types as they are declared and laid out -/

mutual
/-- The type without addresses, for the layout. -/
def erase : Ty → Layout.Typ
  | .nil => .basic 0
  | .basic s => .basic s
  | .ptr _ => .basic 8
  | .arr n e => .array n (erase e)
  | .record _ _ b fs => .record (eraseRec b (eraseFlds fs))
/-- A record with base type `b` and fields `fs`. -/
def eraseRec : Ty → Layout.Fields → Layout.Rec
  | .record _ _ b fs', fs => .ext (eraseRec b (eraseFlds fs')) false fs
  | _, fs => .root false fs
def eraseFlds : Flds → Layout.Fields
  | .nil => .nil
  | .fld x _ t rest => .cons (!x) 0 false (erase t) (eraseFlds rest)
  | .hid _ rest => eraseFlds rest
end

/-- The fields, all declared, with their addresses. -/
def adrs : Flds → Option (List Nat)
  | .nil => some []
  | .fld _ a _ rest => (adrs rest).map (a :: ·)
  | .hid _ _ => none

/-- The type is a record type. -/
def IsRec : Ty → Prop
  | .record .. => True
  | _ => False

mutual
/-- The type is declared in the module and laid out by `TypSize`: sizes and addresses are those of `Layout.layoutRec`; a
base type is a record. -/
def Placed (al : Nat) : Ty → Prop
  | .record s _ b fs => (∃ ls l, Layout.layoutRec al (eraseRec b (eraseFlds fs)) = some (ls, l) ∧ s = l.size ∧
      adrs fs = some (l.fields.map (·.adr))) ∧ (b = .nil ∨ IsRec b) ∧ Placed al b ∧ PlacedFlds al fs
  | .arr _ e => Placed al e
  | _ => True
def PlacedFlds (al : Nat) : Flds → Prop
  | .nil => True
  | .fld _ _ t rest => Placed al t ∧ PlacedFlds al rest
  | .hid _ rest => PlacedFlds al rest
end

end Verif.Ptrs
