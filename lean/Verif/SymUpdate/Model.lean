import Verif.SymUpdate.Spec

/-!
# Comparing a module with its old symbol file, src/compiler/OPT.Mod 667-1296, and replacing the file, src/compiler/Compiler.Mod 9-43

Simplifications.  The trees of objects are lists: the declarations in the order of their names (in which `OutObj` visits them), then what
the old symbol file adds.  The contents of descriptions of types are in their fingerprints.  In the file a type exported under its name
(`Stype`) is given by that name, not by the number of its description.  `FPrintErr` has no influence on what is written, so its
error codes are collected in order and treated afterwards.  After error 228 (too many types) the type is not written; there is an
error anyway.  Fingerprints read from the file are those computed from its contents, which are those of the declarations that were
written.  An old file with a wrong tag or version counts as absent (src/compiler/OPM.Mod 592-597).  The option `findpc` cannot be set.
Module SYSTEM (never registered) is left out.
-/
namespace Verif.SymUpdate
open Verif.FPrint

/-- `history`, src/compiler/OPT.Mod 61. -/
inductive Hist where
  | inserted | same | pbmodified | pvmodified | removed | inconsistent
deriving DecidableEq, Repr

/-- What matters of an `Object`: where it is declared, `vis # internal`, fingerprints, `history`, and what is written for it (none: it
comes from a symbol file). -/
structure Rec where
  key : Key
  exported : Bool
  fp : Fp
  hist : Hist
  kind : Option Kind
deriving DecidableEq, Repr

/-- The objects known before the old symbol file is read: declarations have history 0 (`NEW` in src/compiler/OPT.Mod 368-371); imported
types are `same`, or `inconsistent` if imports differ (src/compiler/OPT.Mod 955-969). -/
def Src.scope (s : Src) : List Rec :=
  (s.decls.map fun d => ⟨(0, d.name), d.exported, d.fp, .inserted, some d.kind⟩) ++
    s.foreign.map fun x => ⟨x.key, false, x.fp, if x.consistent then .same else .inconsistent, none⟩

/-- `InsertImport`, src/compiler/OPT.Mod 691-712: the object with this name, treated by `g`; if there is none, `new` is inserted. -/
def update (k : Key) (g : Rec → Rec) (new : Rec) (S : List Rec) : List Rec :=
  if S.any (fun r => r.key = k) then S.map (fun r => if r.key = k then g r else r) else S ++ [new]

/-- The object found for a type in the old symbol file, src/compiler/OPT.Mod 935-954. -/
def cmpStruct (fp : Fp) (r : Rec) : Rec :=
  if r.key.1 ≠ 0 then
    if r.hist ≠ .inconsistent then
      if r.fp.pb ≠ fp.pb then { r with hist := .pbmodified }
      else if r.fp.pv ≠ fp.pv then { r with hist := .pvmodified }
      else r
    else r
  else if r.fp.pb ≠ fp.pb then { r with hist := .pbmodified }
  else if r.fp.pv ≠ fp.pv then { r with hist := .pvmodified }
  else if !r.exported then { r with hist := .same }
  else { r with hist := .inserted }

/-- The object found for an exported type, src/compiler/OPT.Mod 1032-1038. -/
def cmpTyp (r : Rec) : Rec :=
  if !r.exported then { r with hist := .removed }
  else if r.hist = .inserted then { r with hist := .same }
  else r

/-- The object found for another object, src/compiler/OPT.Mod 1019-1027. -/
def cmpObj (fp : Fp) (r : Rec) : Rec :=
  if !r.exported then { r with hist := .removed }
  else if fp.pb ≠ r.fp.pb then { r with hist := .pbmodified }
  else if fp.pv ≠ r.fp.pv then { r with hist := .pvmodified }
  else { r with hist := .same }

/-- One entry of the old symbol file: `InStruct` and `InObj` with `impCtxt.self`, src/compiler/OPT.Mod 850-1041. -/
def readEntry (S : List Rec) : Entry → List Rec
  | .struct none _ => S
  | .struct (some k) fp => update k (cmpStruct fp) ⟨k, false, fp, .removed, none⟩ S
  | .typ n => update (0, n) cmpTyp ⟨(0, n), false, ⟨0, 0⟩, .removed, none⟩ S
  | .obj n fp _ => update (0, n) (cmpObj fp) ⟨(0, n), true, fp, .removed, none⟩ S

/-- `impCtxt.reffp`, src/compiler/OPT.Mod 1013-1016. -/
def readFp (w : Word) : Entry → Word
  | .obj _ _ (some r) => fprint w (huge (14 + (r : Int)))
  | _ => w

/-- What is written: the types in order (`expCtxt.ref` is 14 plus their number), the file, the calls of `FPrintErr` (and error 228),
`expCtxt.reffp`. -/
structure W where
  refs : List Nat := []
  file : File := []
  codes : List Nat := []
  reffp : Word := 0

/-- The object with this name. -/
def find (S : List Rec) (k : Key) : Option Rec := S.find? fun r => r.key = k

/-- The CASE of `OutStr` on `strobj^.history`, src/compiler/OPT.Mod 1182-1188. -/
def tyCodes (S : List Rec) : Option Key → List Nat
  | none => []
  | some k => match find S k with
    | some r => match r.hist with
      | .pbmodified => [252]
      | .pvmodified => [251]
      | .inconsistent => [249]
      | _ => []
    | none => []

/-- What is written for a type. -/
def tyEntry (S : List Rec) : Option Key → Entry
  | none => .struct none ⟨0, 0⟩
  | some k => .struct (some k) (match find S k with | some r => r.fp | none => ⟨0, 0⟩)

/-- `OutStr`, src/compiler/OPT.Mod 1170-1210. -/
def outTy (S : List Rec) (tys : Nat → Ty) : Nat → Nat → W → W
  | 0, _, w => { w with codes := w.codes ++ [228] }
  | fuel + 1, t, w =>
    if t ∈ w.refs then w
    else if 14 + w.refs.length + 1 ≥ 255 then { w with codes := w.codes ++ [228] }
    else (tys t).kids.foldl (fun w u => outTy S tys fuel u w)
      { w with
        refs := w.refs ++ [t]
        file := w.file ++ [tyEntry S (tys t).key]
        codes := w.codes ++ tyCodes S (tys t).key }

def outTys (S : List Rec) (tys : Nat → Ty) (l : List Nat) (w : W) : W := l.foldl (fun w u => outTy S tys 255 u w) w

/-- The check at the start of `OutObj`, src/compiler/OPT.Mod 1235-1243. -/
def objCodes (r : Rec) : List Nat :=
  if r.hist = .removed then [250]
  else if r.exported then match r.hist with
    | .inserted => [253]
    | .pbmodified => [252]
    | .pvmodified => [251]
    | _ => []
  else []

/-- `OutObj` for one object, src/compiler/OPT.Mod 1234-1264. -/
def outObj (S : List Rec) (tys : Nat → Ty) (w : W) (r : Rec) : W :=
  let w := { w with codes := w.codes ++ objCodes r }
  if r.hist ≠ .removed ∧ r.exported then
    match r.kind with
    | some (.typ t) =>
      let w := outTys S tys [t] w
      { w with file := w.file ++ [.typ r.key.2] }
    | some (.other kids anon) =>
      let w := outTys S tys kids w
      match anon with
      | some t =>
        { w with
          file := w.file ++ [.obj r.key.2 r.fp (some (w.refs.idxOf t))]
          reffp := fprint w.reffp (huge (14 + (w.refs.idxOf t : Int))) }
      | none => { w with file := w.file ++ [.obj r.key.2 r.fp none] }
    | none => w
  else w

/-- `OutObj(topScope^.right)`: the objects of this module. -/
def outAll (S : List Rec) (tys : Nat → Ty) : W :=
  (S.filter fun r => r.key.1 = 0).foldl (outObj S tys) {}

/-- What `FPrintErr` keeps: `symNew`, `symExtended`, `OPM.noerr`. -/
structure Rep where
  symNew : Bool := false
  symExtended : Bool := false
  noerr : Bool := true

/-- `FPrintErr`, src/compiler/OPT.Mod 678-687 (and error 228). -/
def fprintErr (newsf extsf : Bool) (p : Rep) (code : Nat) : Rep :=
  if code = 228 then { p with noerr := false }
  else if code = 249 then { p with noerr := false }
  else if code = 253 then
    { p with noerr := p.noerr && (p.symNew || p.symExtended || extsf), symExtended := true }
  else { p with noerr := p.noerr && (p.symNew || newsf), symNew := true }

/-- The options `-s`, `-e`, `-F`, `-m`. -/
structure Opts where
  newsf : Bool := false
  extsf : Bool := false
  force : Bool := false
  main : Bool := false
deriving DecidableEq, Repr

/-- What `Export` delivers: no error, `ext`, `new`, the file written (not yet registered). -/
structure Result where
  noerr : Bool
  ext : Bool
  new : Bool
  file : File

/-- `Export`, src/compiler/OPT.Mod 1269-1296, with `Import("@self")`, 1052-1072, and `Init`, 408; `disk` is the old symbol file. -/
def «export» (o : Opts) (s : Src) (disk : Option File) : Result :=
  match if o.force then none else disk with
  | none =>
    let w := outAll s.scope s.tys
    let p := w.codes.foldl (fprintErr true true) {}
    ⟨p.noerr, false, true, w.file⟩
  | some f =>
    let S := f.foldl readEntry s.scope
    let w := outAll S s.tys
    let extsf := o.newsf || o.extsf
    let p := w.codes.foldl (fprintErr o.newsf extsf) {}
    if p.noerr && f.foldl readFp 0 ≠ w.reffp then ⟨p.noerr && extsf, p.symExtended, true, w.file⟩
    else ⟨p.noerr, p.symExtended, p.symNew, w.file⟩

/-- What happens apart from the symbol file: the module is correct so far; C text can be written. -/
structure Rest where
  parse : Bool := true
  code : Bool := true
deriving DecidableEq, Repr

/-- `Module`, src/compiler/Compiler.Mod 9-43: is it compiled, and which symbol file is there afterwards. -/
def compile (o : Opts) (s : Src) (b : Rest) (disk : Option File) : Bool × Option File :=
  if !b.parse then (false, disk)
  else
    let r := «export» o s disk
    if !r.noerr then (false, none)
    else if !b.code then (false, none)
    else if o.main then (true, none)
    else if r.new || r.ext then (true, some r.file)
    else (true, disk)

end Verif.SymUpdate
