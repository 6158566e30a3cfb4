import Verif.Layout.Model

/-!
# Specification: C's rules for the layout of structs

Each member lies at the first offset after the preceding member that is a multiple of its alignment; the
alignment of a struct is the largest one of its members, and its size is the end of the last member rounded
up to it.  A basic type of `s` bytes has alignment `min s al`, where `al` is the alignment of `long long`
(src/tools/make/configure.c 339-350 checks this when the system is built).
-/
namespace Verif.Layout.CSpec
open Verif.Layout

/-- The first multiple of `a` that is not below `off`. -/
def cAlign (off a : Nat) : Nat := (off + a - 1) / a * a

/-- Offsets of members given by size and alignment, and the end of the last one. -/
def cOffsets : List (Nat × Nat) → Nat → List Nat × Nat
  | [], off => ([], off)
  | (s, a) :: ms, off =>
    let o := cAlign off a
    let r := cOffsets ms (o + s)
    (o :: r.1, r.2)

/-- The alignment of a struct. -/
def cStructAlign (ms : List (Nat × Nat)) : Nat := ms.foldl (fun m x => max m x.2) 1

/-- Size and alignment of a struct. -/
def cStruct (ms : List (Nat × Nat)) : Nat × Nat :=
  (cAlign (cOffsets ms 0).2 (cStructAlign ms), cStructAlign ms)

/-- Size and alignment of a member; `cs` are those of the fields. -/
def cMember (al : Nat) (cs : List (Nat × Nat)) : Member → Nat × Nat
  | .fld k => cs.getD k (0, 1)
  | .int s => (s, min s al)
  | .chars n => (n, 1)

mutual
/-- Size and alignment, by C's rules, of the C type emitted for a type.  The struct of an imported record is
the one in the header file of its module. -/
def cTyp (al : Nat) (file : File) : Typ → Option (Nat × Nat)
  | .basic s => some (s, min s al)
  | .array n e => do
    let (s, a) ← cTyp al file e
    some (n * s, a)
  | .record r => do
    let (ls, l) ← layoutRec al r
    let f := if r.imported then .header else file
    let cs ← cRec al f r
    some (cStruct ((fieldList f ls l).map (cMember al cs)))
/-- The fields of a record and its base types. -/
def cRec (al : Nat) (file : File) : Rec → Option (List (Nat × Nat))
  | .root _ fs => cFields al file fs
  | .ext b _ fs => do
    let x ← cRec al file b
    let y ← cFields al file fs
    some (x ++ y)
def cFields (al : Nat) (file : File) : Fields → Option (List (Nat × Nat))
  | .nil => some []
  | .cons _ _ _ t rest => do
    let x ← cTyp al file t
    let y ← cFields al file rest
    some (x :: y)
end

end Verif.Layout.CSpec

namespace Verif.Layout.CSpec
open Verif.Layout

def Fields.types : Fields → List Typ
  | .nil => []
  | .cons _ _ _ t rest => t :: Fields.types rest

/-- The types of the fields of a record, those of its base types first. -/
def recTypes : Rec → List Typ
  | .root _ fs => Fields.types fs
  | .ext b _ fs => recTypes b ++ Fields.types fs

def shift (d : Nat) (ss : List (Nat × Nat)) : List (Nat × Nat) := ss.map fun x => (x.1 + d, x.2)

mutual
/-- Offset and size of every basic component of a type. -/
def scalars (al : Nat) : Typ → Option (List (Nat × Nat))
  | .basic s => some [(0, s)]
  | .array n e => do
    let ss ← scalars al e
    let (s, _) ← layoutTyp al e
    some ((List.range n).flatMap fun i => shift (i * s) ss)
  | .record r => recScalars al r
def recScalars (al : Nat) : Rec → Option (List (Nat × Nat))
  | .root imp fs => do
    let (_, l) ← layoutRec al (.root imp fs)
    fieldScalars al fs l.fields
  | .ext b imp fs => do
    let x ← recScalars al b
    let (_, l) ← layoutRec al (.ext b imp fs)
    let y ← fieldScalars al fs l.fields
    some (x ++ y)
def fieldScalars (al : Nat) : Fields → List PF → Option (List (Nat × Nat))
  | .cons _ _ _ t rest, f :: pfs => do
    let x ← scalars al t
    let y ← fieldScalars al rest pfs
    some (shift f.adr x ++ y)
  | .nil, [] => some []
  | _, _ => none
end

end Verif.Layout.CSpec

namespace Verif.Layout.CSpec
open Verif.Layout

/-- The fields that are members of a struct, with their offsets by C's rules. -/
def fieldOffsets (al : Nat) (cs : List (Nat × Nat)) (ms : List Member) : List (Nat × Nat) :=
  (ms.zip (cOffsets (ms.map (cMember al cs)) 0).1).filterMap fun x =>
    match x.1 with
    | .fld k => some (k, x.2)
    | _ => none

/-- The fields of each level with the flag telling whether the level is imported. -/
def flagged (p : List Level × Level) : List (Bool × PF) :=
  (p.1 ++ [p.2]).flatMap fun l => l.fields.map fun f => (l.imported, f)

end Verif.Layout.CSpec

namespace Verif.Layout.CSpec
open Verif.Layout

/-- Type objects and types of fields. -/
def Fields.objs : Fields → List (Nat × Typ)
  | .nil => []
  | .cons _ tid _ t rest => (tid, t) :: Fields.objs rest

mutual
/-- Each type object stands for one type, throughout a type. -/
def typObjs : Typ → Prop
  | .basic _ => True
  | .array _ e => typObjs e
  | .record r => recObjs r
def recObjs : Rec → Prop
  | .root _ fs => fieldsObjs fs ∧ ∀ x ∈ Fields.objs fs, ∀ y ∈ Fields.objs fs, x.1 = y.1 → x.2 = y.2
  | .ext b _ fs => recObjs b ∧ fieldsObjs fs ∧ ∀ x ∈ Fields.objs fs, ∀ y ∈ Fields.objs fs, x.1 = y.1 → x.2 = y.2
def fieldsObjs : Fields → Prop
  | .nil => True
  | .cons _ _ _ t rest => typObjs t ∧ fieldsObjs rest
end

mutual
/-- No field is hidden anywhere inside the type, when it is used in a file of the given kind: in a header
file no field may be private, in a body file no field of an imported record. -/
def openTyp (file : File) : Typ → Prop
  | .basic _ => True
  | .array _ e => openTyp file e
  | .record r => openRec (if r.imported then .header else file) r
def openRec (file : File) : Rec → Prop
  | .root i fs => openFields file i fs
  | .ext b i fs => openRec file b ∧ openFields file i fs
def openFields (file : File) (imp : Bool) : Fields → Prop
  | .nil => True
  | .cons priv _ _ t rest => (priv = true → file = .body ∧ imp = false) ∧ openTyp file t ∧ openFields file imp rest
end

end Verif.Layout.CSpec
