import Mathlib.Tactic.Common

/-!
# Layout of record types

`TypSize` of src/compiler/OPT.Mod, which assigns sizes, alignments and field addresses, and `FieldList` and
`FillGap` of src/compiler/OPC.Mod, which write the members of the C struct.

Simplifications.  Types are trees: pointers and procedure types are basic types of the size of an address,
and the type a pointer points to is laid out on its own.  The test `typ.size = -1`, which computes each size
once, is left out.  The number of an anonymous record, kept in the upper half of `align`, is left out; every
use except src/compiler/OPT.Mod 322 takes `MOD 10000H`, and the base type used there has a name, hence no
number (src/compiler/OPP.Mod 96).  All quantities are nonnegative, so LONGINT (32 bits in the compiler) is
modelled by natural numbers with overflow as `none`.
-/
namespace Verif.Layout

mutual
/-- Types: everything that is neither array nor record is `basic` with its size. -/
inductive Typ where
  | basic (size : Nat)
  | array (n : Nat) (elem : Typ)
  | record (r : Rec)
/-- Records: without and with base type.  `imported` is `typ.mno # 0`. -/
inductive Rec where
  | root (imported : Bool) (fs : Fields)
  | ext (base : Rec) (imported : Bool) (fs : Fields)
/-- Fields: `priv` is `vis = internal`; `tid` identifies the type object, `named` tells whether it has a
name. -/
inductive Fields where
  | nil
  | cons (priv : Bool) (tid : Nat) (named : Bool) (t : Typ) (rest : Fields)
end

/-- LONGINT in the compiler has 32 bits; `none` is overflow, which is undefined behaviour in C. -/
def ck (n : Nat) : Option Nat := if n < 2 ^ 31 then some n else none

/-- `Align`, src/compiler/OPT.Mod 272-281. -/
def align (adr base : Nat) : Nat :=
  match base with
  | 2 => adr + adr % 2
  | 4 => adr + ((-(adr : Int)) % 4).toNat
  | 8 => adr + ((-(adr : Int)) % 8).toNat
  | 16 => adr + ((-(adr : Int)) % 16).toNat
  | _ => adr

/-- The loop of `SizeAlignment`, src/compiler/OPT.Mod 288. -/
def roundUp (size : Nat) : Nat → Nat → Nat
  | 0, a => a
  | fuel + 1, a => if a < size then roundUp size fuel (a * 2) else a

/-- `SizeAlignment`, src/compiler/OPT.Mod 283-293; `al` is `OPM.Alignment`. -/
def sizeAlignment (al size : Nat) : Nat := if size < al then roundUp size 32 1 else al

/-- A field with its address; `align` is `BaseAlignment` of its type. -/
structure PF where
  priv : Bool
  tid : Nat
  named : Bool
  adr : Nat
  size : Nat
  align : Nat
  deriving DecidableEq, Repr

/-- A record type after `TypSize`, without its base types; `gap` is `sysflag DIV 100H`. -/
structure Level where
  imported : Bool
  size : Nat
  align : Nat
  gap : Nat
  fields : List PF
  deriving DecidableEq, Repr

/-- The end of the record branch of `TypSize`, src/compiler/OPT.Mod 334-342. -/
def close (imported : Bool) (offset base : Nat) (fs : List PF) : Option Level := do
  let o ← ck (align (if offset = 0 then 1 else offset) base)
  some { imported, size := o, align := base, gap := o - offset, fields := fs }

mutual
/-- `TypSize`, src/compiler/OPT.Mod 310-360, and `BaseAlignment`, 295-308: size and alignment of a type. -/
def layoutTyp (al : Nat) : Typ → Option (Nat × Nat)
  | .basic size => some (size, sizeAlignment al size)
  | .array n e => do
    let (s, a) ← layoutTyp al e
    let s' ← ck (n * s)
    some (s', a)
  | .record r => do
    let (_, l) ← layoutRec al r
    some (l.size, l.align)
/-- The record branch of `TypSize`, src/compiler/OPT.Mod 319-342: the base types, outermost first, and
the record itself. -/
def layoutRec (al : Nat) : Rec → Option (List Level × Level)
  | .root imp fs => do
    let (off, base, pfs) ← layoutFields al fs 0 1
    let l ← close imp off base pfs
    some ([], l)
  | .ext b imp fs => do
    let (ls, lb) ← layoutRec al b
    let (off, base, pfs) ← layoutFields al fs (lb.size - lb.gap) lb.align
    let l ← close imp off base pfs
    some (ls ++ [lb], l)
/-- The loop over the fields, src/compiler/OPT.Mod 325-333: offset, alignment so far, placed fields. -/
def layoutFields (al : Nat) : Fields → Nat → Nat → Option (Nat × Nat × List PF)
  | .nil, off, base => some (off, base, [])
  | .cons priv tid named t rest, off, base => do
    let (size, fbase) ← layoutTyp al t
    let adr ← ck (align off fbase)
    let off' ← ck (adr + size)
    let (o, b, pfs) ← layoutFields al rest off' (if fbase > base then fbase else base)
    some (o, b, { priv, tid, named, adr, size, align := fbase } :: pfs)
end

/-! ### The members of the C struct -/

/-- Members of an emitted struct: the `k`-th field of the record, counting those of the base types first;
a filler of type `INT16`, `INT32` or `INT64`, given by its size; a filler `char x[n]`. -/
inductive Member where
  | fld (k : Nat)
  | int (size : Nat)
  | chars (n : Nat)
  deriving DecidableEq, Repr

/-- `FillGap`, src/compiler/OPC.Mod 562-584: members and new `curAlign`.  The numbers of the fillers are
not modelled. -/
def fillGap (gap off al curAlign : Nat) : List Member × Nat :=
  let adr := align off al
  if curAlign < al ∧ gap ≥ (adr - off) + al then
    let gap := gap - ((adr - off) + al)
    ((if al = 2 ∨ al = 4 ∨ al = 8 then [.int al] else []) ++ (if gap > 0 then [.chars gap] else []), al)
  else (if gap > 0 then [.chars gap] else [], curAlign)

/-- The file being written: `OPM.currFile`. -/
inductive File where
  | header | body
  deriving DecidableEq, Repr

/-- Is the field skipped, src/compiler/OPC.Mod 599-600? -/
def skipped (file : File) (imported : Bool) (f : PF) : Bool :=
  match file with
  | .header => f.priv
  | .body => f.priv && imported

/-- State of `FieldList`: offset and largest alignment so far. -/
structure FS where
  off : Nat
  curAlign : Nat
  deriving DecidableEq, Repr

/-- The loop of `FieldList`, src/compiler/OPC.Mod 598-625.  The two nested loops are one: `prev` is
the type object of the member just written (`base`), if the inner loop 616-622 is running.  `k` is the
number of the next field. -/
def fieldLoop (file : File) (imported : Bool) (al : Nat) : List PF → Nat → Option Nat → FS → List Member × FS
  | [], _, _, st => ([], st)
  | f :: fs, k, prev, st =>
    if prev = some f.tid ∧ f.adr = st.off ∧ (file = .body ∨ ¬ f.priv ∨ ¬ f.named) then
      let r := fieldLoop file imported al fs (k + 1) prev { st with off := f.adr + f.size }
      (.fld k :: r.1, r.2)
    else if skipped file imported f then fieldLoop file imported al fs (k + 1) none st
    else
      let adr := align st.off f.align
      let gap := f.adr - adr
      let cur := if f.align > st.curAlign then f.align else st.curAlign
      let g := if gap > 0 then fillGap gap st.off al cur else ([], cur)
      let r := fieldLoop file imported al fs (k + 1) (some f.tid) ⟨f.adr + f.size, g.2⟩
      (g.1 ++ .fld k :: r.1, r.2)

/-- `FieldList` for the base types and the record, src/compiler/OPC.Mod 586-625. -/
def levelsLoop (file : File) : List Level → Nat → FS → List Member × FS
  | [], _, st => ([], st)
  | l :: ls, k, st =>
    let r := fieldLoop file l.imported l.align l.fields k none st
    let r' := levelsLoop file ls (k + l.fields.length) r.2
    (r.1 ++ r'.1, r'.2)

/-- `FieldList` with `last = TRUE`, src/compiler/OPC.Mod 586-631. -/
def fieldList (file : File) (ls : List Level) (l : Level) : List Member :=
  let r := levelsLoop file (ls ++ [l]) 0 ⟨0, 1⟩
  let adr := l.size - l.gap
  let gap := if adr = 0 then 1 else adr - r.2.off
  r.1 ++ if gap > 0 then (fillGap gap r.2.off l.align r.2.curAlign).1 else []

/-- Is the record type imported? -/
def Rec.imported : Rec → Bool
  | .root i _ => i
  | .ext _ i _ => i

end Verif.Layout
