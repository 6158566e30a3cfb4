import Verif.Safe.Model

/-!
# What type safety means
-/
namespace Verif.Safe
open Verif.Types

variable (T : Tab) (F : Flds)

/-- Simple types: integers and pointers to records. -/
def Simple (t : Nat) : Prop := (T t).form = .int ∨ ∃ b, RecPtr T t b

/-- A value fits a type: for a pointer to records of type `b` it is NIL or points to a record in use whose type is `b` or an
extension of `b`. -/
def Fits (st : St) (t : Nat) (v : Val) : Prop :=
  (T t).form = .int ∧ ((∃ n, v = .int n) ∨ v = .junk) ∨
  ∃ b, RecPtr T t b ∧ (v = .nil ∨ ∃ o, v = .ref o ∧ o < st.no ∧ Ext T (st.objs o).typ b)

/-- Every field of the record `o`, also those of the types its type extends, fits its type. -/
def FieldsFit (st : St) (o : Nat) : Prop :=
  ∀ t f u, Ext T (st.objs o).typ t → F t f = some u → Fits T st u ((st.objs o).val t f)

/-- A record type without pointers, in itself or the types it extends. -/
def NoPointers (t : Nat) : Prop := ∀ b f u, Ext T t b → F b f = some u → (T u).form = .int

/-- The programs of the modelled language: types are integers, pointers to records, and records; local variables that are records
have no pointers in them. -/
structure Okay (p : Prog) : Prop where
  fields : ∀ t f u, F t f = some u → Simple T u
  globs : ∀ t ∈ p.globs, Simple T t ∨ (T t).comp = .record
  pars : ∀ q ∈ p.procs, ∀ d ∈ q.pars, Simple T d.typ ∨ (T d.typ).comp = .record
  locs : ∀ q ∈ p.procs, ∀ t ∈ q.locs, Simple T t ∨ (T t).comp = .record ∧ NoPointers T F t

end Verif.Safe
