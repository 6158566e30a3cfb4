import Verif.SymFile.Model
import Verif.Arith.Model

/-!
# Specification of the symbol file round trip

Which interfaces the exporter is given (`WF...`), and what "the same interface" means: the types are the
same up to numbering (`ren...`), modules are identified by name.
-/
namespace Verif.SymFile
open Verif.Arith

/-- A name: no 0X inside, and room for the terminator in 256 characters. -/
def WFName (n : Name) : Prop := (∀ c ∈ n, c ≠ 0) ∧ n.length < 256

/-- Type references that exist: basic types, integers of 1, 2, 4, 8 bytes, sets of 4 or 8 bytes. -/
def WFT : TRef → Prop
  | .basic f => f ≤ 11 ∧ f ≠ 4 ∧ f ≠ 7
  | .int n => n = 1 ∨ n = 2 ∨ n = 4 ∨ n = 8
  | .set n => n = 4 ∨ n = 8
  | .str _ => True

def WFPar (p : Par) : Prop := WFT p.typ ∧ InRange 32 p.adr ∧ WFName p.name

def WFFld : Fld → Prop
  | .visible _ t name adr => WFT t ∧ WFName name ∧ InRange 32 adr
  | .hdptr adr => InRange 32 adr

def WFTProc (p : TProc) : Prop :=
  WFT p.res ∧ (∀ q ∈ p.pars, WFPar q) ∧ WFName p.name ∧ InRange 32 p.num

def WFBody : Body → Prop
  | .ptr b => WFT b
  | .arr b n => WFT b ∧ InRange 32 n
  | .darr b => WFT b
  | .record b size align n flds procs =>
    (∀ t, b = some t → WFT t ∧ t ≠ .basic 10) ∧ InRange 32 size ∧ InRange 32 align ∧ InRange 32 n ∧
    (∀ f ∈ flds, WFFld f) ∧ (∀ p ∈ procs, WFTProc p)
  | .proc res ps => WFT res ∧ ∀ q ∈ ps, WFPar q

def WFDesc (d : Desc Nat) : Prop := WFName d.name ∧ InRange 32 d.sysflag ∧ WFBody d.body

def WFEnv (env : Env) : Prop := (∀ id, WFDesc (env.typ id)) ∧ ∀ m, WFName (env.modName m)

/-- Constants: the integers are limited to 32 bits, see `C19_int_const_truncated`. -/
def WFConst : CVal → Prop
  | .bool _ => True
  | .char _ => True
  | .int v n => InRange 32 v ∧ (n = 1 ∨ n = 2 ∨ n = 4 ∨ n = 8)
  | .set v n => InRange 64 v ∧ (n = 4 ∨ n = 8)
  | .real b => b.length = 4
  | .lreal b => b.length = 8
  | .string s => WFName s
  | .nil => True

def WFObj : Obj → Prop
  | .con v name => WFConst v ∧ WFName name
  | .typ t => WFT t
  | .alias t name => WFT t ∧ WFName name
  | .var _ t name => WFT t ∧ WFName name
  | .xproc res ps name => WFT res ∧ (∀ q ∈ ps, WFPar q) ∧ WFName name
  | .iproc res ps name => WFT res ∧ (∀ q ∈ ps, WFPar q) ∧ WFName name
  | .cproc res ps code name => WFT res ∧ (∀ q ∈ ps, WFPar q) ∧ code.length < 256 ∧ WFName name

/-- Renaming of types: type `id` becomes its position in the list `R` of exported types. -/
def renT (R : List Nat) : TRef → TRef
  | .str id => .str (R.idxOf id)
  | t => t

def renPar (R : List Nat) (p : Par) : Par := { p with typ := renT R p.typ }

def renFld (R : List Nat) : Fld → Fld
  | .visible ro t name adr => .visible ro (renT R t) name adr
  | .hdptr adr => .hdptr adr

def renTProc (R : List Nat) (p : TProc) : TProc :=
  { p with res := renT R p.res, pars := p.pars.map (renPar R) }

def renBody (R : List Nat) : Body → Body
  | .ptr b => .ptr (renT R b)
  | .arr b n => .arr (renT R b) n
  | .darr b => .darr (renT R b)
  | .record b size align n flds procs =>
    .record (b.map (renT R)) size align n (flds.map (renFld R)) (procs.map (renTProc R))
  | .proc res ps => .proc (renT R res) (ps.map (renPar R))

def renDesc (env : Env) (R : List Nat) (d : Desc Nat) : Desc Name :=
  { mod := env.modName d.mod, name := d.name, sysflag := d.sysflag, body := renBody R d.body }

def renObj (R : List Nat) : Obj → Obj
  | .con v name => .con v name
  | .typ t => .typ (renT R t)
  | .alias t name => .alias (renT R t) name
  | .var ro t name => .var ro (renT R t) name
  | .xproc res ps name => .xproc (renT R res) (ps.map (renPar R)) name
  | .iproc res ps name => .iproc (renT R res) (ps.map (renPar R)) name
  | .cproc res ps code name => .cproc (renT R res) (ps.map (renPar R)) code name

/-! The types mentioned, to say that the export is complete. -/

def idsT : TRef → List Nat
  | .str id => [id]
  | _ => []

def idsPars (ps : List Par) : List Nat := ps.flatMap fun p => idsT p.typ

def idsFld : Fld → List Nat
  | .visible _ t _ _ => idsT t
  | .hdptr _ => []

def idsBody : Body → List Nat
  | .ptr b => idsT b
  | .arr b _ => idsT b
  | .darr b => idsT b
  | .record b _ _ _ flds procs =>
    (match b with | none => [] | some t => idsT t) ++ flds.flatMap idsFld ++
      procs.flatMap fun p => idsT p.res ++ idsPars p.pars
  | .proc res ps => idsT res ++ idsPars ps

def idsObj : Obj → List Nat
  | .con _ _ => []
  | .typ t => idsT t
  | .alias t _ => idsT t
  | .var _ t _ => idsT t
  | .xproc res ps _ => idsT res ++ idsPars ps
  | .iproc res ps _ => idsT res ++ idsPars ps
  | .cproc res ps _ _ => idsT res ++ idsPars ps

end Verif.SymFile
