import Verif.Imports.Spec

/-!
# Consistency of imports: `InMod`, `InStruct`, `Import` and `OutStr`, src/compiler/OPT.Mod 723-748, 852-974, 1041-1075, 1170-1190

Simplifications.  Of each type read only the fingerprints are kept: `fprint` of its object and `pvfp` of its structure, which are computed from
what is read (C16, C19).  Types read in a group are compared one by one.  The trees of objects are tables.  `err(249)` is reported
only as the first error (`FPrintErr`, src/compiler/OPT.Mod 666-688).  Files that are not there (error 152) are left out.
-/
namespace Verif.Imports

/-- A type in the table of a module: the fingerprint of its first version, the private one of the last, `history = inconsistent`. -/
structure Obj where
  fp : Int
  pv : Int
  inc : Bool
deriving DecidableEq, Repr

/-- `GlbMod` with the names of the modules, number 0 is the module compiled; their types; the errors reported. -/
structure St where
  glb : List Name
  tab : Nat → Name → Option Obj
  errs : List Nat

/-- `maxImps`, src/compiler/OPT.Mod 148. -/
def maxImps : Nat := 64

/-- `Init`, src/compiler/OPT.Mod 400-408. -/
def St.init (self : Name) : St := ⟨[self], fun _ _ => none, []⟩

/-- Find a module by its name, src/compiler/OPT.Mod 732-733. -/
def find (l : List Name) (n : Name) : Nat := l.idxOf n

/-- `InMod`, src/compiler/OPT.Mod 723-748: `loc` is `glbmno`.  `none`: an index out of range (after error 227 the module has the number 64). -/
def inMod (st : St) (loc : List Nat) (r : MRef) : Option (St × List Nat × Nat) :=
  match r with
  | .self => (loc[0]?).map fun i => (st, loc, i)
  | .old k => (loc[k]?).map fun i => (st, loc, i)
  | .new n =>
    let st := if st.glb[0]? = some n then { st with errs := st.errs ++ [154] } else st
    let i := find st.glb n
    if i < st.glb.length then some (st, loc ++ [i], i)
    else if st.glb.length < maxImps then some ({ st with glb := st.glb ++ [n] }, loc ++ [st.glb.length], st.glb.length)
    else none

/-- Enter a version of a type: `InStruct`, src/compiler/OPT.Mod 861-875, 926-968. -/
def enter (st : St) (i : Nat) (e : Entry) : St :=
  if e.name = [] then st
  else
    match st.tab i e.name with
    | none => { st with tab := fun j n => if j = i ∧ n = e.name then some ⟨e.fp, e.pv, false⟩ else st.tab j n }
    | some o =>
      let o' : Obj := ⟨o.fp, e.pv, o.inc || decide (o.pv ≠ e.pv)⟩
      let errs := if o.fp ≠ e.fp ∧ st.errs = [] then st.errs ++ [249] else st.errs
      { st with tab := fun j n => if j = i ∧ n = e.name then some o' else st.tab j n, errs := errs }

/-- The types of a symbol file. -/
def inEntries : St → List Nat → List Entry → Option St
  | st, _, [] => some st
  | st, loc, e :: r =>
    match inMod st loc e.m with
    | some (st1, loc1, i) => inEntries (enter st1 i e) loc1 r
    | none => none

/-- `Import`, src/compiler/OPT.Mod 1041-1075.  `InLinks` only collects names. -/
def importFile (st : St) (f : SymFile) : Option St :=
  match inMod st [] (.new f.name) with
  | some (st1, loc, _) => inEntries st1 loc f.entries
  | none => none

/-- All imports of a module. -/
def imports : St → List SymFile → Option St
  | st, [] => some st
  | st, f :: r =>
    match importFile st f with
    | some st1 => imports st1 r
    | none => none

/-- `OutStr`, src/compiler/OPT.Mod 1180-1186, for the named types of other modules that the interface of the module mentions. -/
def outTypes (st : St) : List (Nat × Name) → St
  | [] => st
  | (i, n) :: r =>
    match st.tab i n with
    | some o => if o.inc ∧ st.errs = [] then outTypes { st with errs := st.errs ++ [249] } r else outTypes st r
    | none => outTypes st r

end Verif.Imports
