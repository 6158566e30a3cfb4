import Verif.Linkage.Spec

/-!
# C files that fit together: `GenHdr`, `GenHdrIncludes`, `GenBdy` and what they call, src/compiler/OPC.Mod 221-257, 374-396, 433-481, 490-533,
585-675, 704-778, 809-843, 907-930, 961-963; `OutStr`, `OutObj`, src/compiler/OPT.Mod 1104-1263; SYSTEM.h 64-65

The files are described by the names that they mention, declare and define; C names are in Verif.CNames and Verif.Emit, the order of
definitions within a file in Verif.CDefs.  All includes come first in every file (OPC.Mod 817-818, 836-837), so that what they declare is
declared before the rest.

Simplifications.  All records have names.  Types declared in procedures and procedures within procedures are left out.  The macros of code
procedures and of calls of bound procedures are not modelled.
-/
namespace Verif.Linkage

/-- The names that `DeclareBase` and `DeclareObj`, OPC.Mod 165-198, 221-257, write for an object of a type: names of types end the search, except
that open arrays are always taken apart (`typ^.comp = OPT.DynArr`, OPC.Mod 225). -/
inductive Mention (P : Program) : Ty → Q → Prop where
  | name {q : Q} {v : Vis} {d : TyDef} : Decl P q v d → (∀ e, d ≠ .other (.openArr e)) → Mention P (.name q) q
  | nameOpen {q x : Q} {v : Vis} {e : Ty} : Decl P q v (.other (.openArr e)) → Mention P e x → Mention P (.name q) x
  | openArr {e : Ty} {x : Q} : Mention P e x → Mention P (.openArr e) x
  | one {t : Ty} {x : Q} : Mention P t x → Mention P (.one t) x
  | left {a b : Ty} {x : Q} : Mention P a x → Mention P (.two a b) x
  | right {a b : Ty} {x : Q} : Mention P b x → Mention P (.two a b) x

/-- The types of a module that are written to its symbol file (`ref < MaxStruct`): those exported, and what they and other exported objects
consist of; `OutObj`, OPT.Mod 1234-1263, `OutStr`, `OutFlds`, `OutSign`, `OutTProcs`, OPT.Mod 1104-1222. -/
inductive Needed (P : Program) (a : Nat) : Nat → Prop where
  | exported {n : Nat} : Exports P a (a, n) → Needed P a n
  | var {m : Module} {n k : Nat} {v : Vis} {t : Ty} : P a = some m → m.vars k = some (v, t) → v ≠ .internal → Occurs t (a, n) → Needed P a n
  | proc {m : Module} {n k : Nat} {p : Proc} : P a = some m → m.procs k = some p → p.vis ≠ .internal → Occurs p.sig (a, n) → Needed P a n
  | part {n k : Nat} {v : Vis} {d : TyDef} : Needed P a k → Decl P (a, k) v d → Part false d (a, n) → Needed P a n

/-- The fields written for a record in a header file, with those inherited (`FieldList`, OPC.Mod 585-631). -/
inductive HdrField (P : Program) : Q → Ty → Prop where
  | own {r : Q} {v : Vis} {b : Option Q} {fs : List (Vis × Ty)} {ms : Nat → Option (Vis × Ty)} {f : Vis × Ty} :
      Decl P r v (.record b fs ms) → f ∈ fs → f.1 ≠ .internal → HdrField P r f.2
  | inherited {r b : Q} {v : Vis} {fs : List (Vis × Ty)} {ms : Nat → Option (Vis × Ty)} {t : Ty} :
      Decl P r v (.record (some b) fs ms) → HdrField P b t → HdrField P r t

/-- The types that the header file of a module mentions, `GenHdr`, OPC.Mod 764-778. -/
inductive HdrMention (P : Program) (a : Nat) : Q → Prop where
  /-- `IdentList(…, 1)`, OPC.Mod 633-675. -/
  | var {m : Module} {k : Nat} {v : Vis} {t : Ty} {x : Q} : P a = some m → m.vars k = some (v, t) → v ≠ .internal → Mention P t x →
      HdrMention P a x
  /-- `ProcPredefs(…, 1)`, OPC.Mod 713-727. -/
  | proc {m : Module} {k : Nat} {p : Proc} {x : Q} : P a = some m → m.procs k = some p → (p.kind = .L ∨ p.kind = .X) → p.vis ≠ .internal →
      (p.removed = false ∨ p.kind = .L) → Mention P p.sig x → HdrMention P a x
  /-- The comment with the name of the base type, OPC.Mod 240-241. -/
  | base {n : Nat} {v w : Vis} {b : Q} {fs : List (Vis × Ty)} {ms : Nat → Option (Vis × Ty)} {d : TyDef} : Needed P a n →
      Decl P (a, n) v (.record (some b) fs ms) → Decl P b w d → (w ≠ .internal ∨ b.1 = a) → HdrMention P a b
  | field {n : Nat} {t : Ty} {x : Q} : Needed P a n → HdrField P (a, n) t → Mention P t x → HdrMention P a x
  /-- `DeclareTProcs`, OPC.Mod 374-396. -/
  | method {n k : Nat} {v : Vis} {b : Option Q} {fs : List (Vis × Ty)} {ms : Nat → Option (Vis × Ty)} {t : Ty} {x : Q} : Needed P a n →
      Decl P (a, n) v (.record b fs ms) → ms k = some (.external, t) → Mention P t x → HdrMention P a x
  | other {n : Nat} {v : Vis} {t : Ty} {x : Q} : Needed P a n → Decl P (a, n) v (.other t) → Mention P t x → HdrMention P a x

/-- `IncludeImports(…, 1)`, OPC.Mod 735-744: of the modules imported, those of which a name has been written to the header file (`Ident`, OPC.Mod
125). -/
def HdrIncl (P : Program) (a b : Nat) : Prop := ∃ m, P a = some m ∧ b ∈ m.imports ∧ ∃ n, HdrMention P a (b, n)

/-- The header files in a C file: those of all modules imported (`IncludeImports(…, 0)`, OPC.Mod 837), and those included there. -/
inductive InUnit (P : Program) (a : Nat) : Nat → Prop where
  | direct {m : Module} {k : Nat} : P a = some m → k ∈ m.imports → InUnit P a k
  | nested {h k : Nat} : InUnit P a h → HdrIncl P h k → InUnit P a k

/-- The table of procedures of a module has those of the old symbol file, too (`InsertImport`, OPT.Mod 1017, 1029). -/
def Tree (m : Module) (n : Nat) (p : Proc) : Prop := m.procs n = some p ∨ m.old n = some p

/-- The declarations in a header file; all are `extern`. -/
inductive HdrDecl (P : Program) (a : Nat) : CName → Prop where
  /-- OPC.Mod 639, 645. -/
  | var {m : Module} {n : Nat} {v : Vis} {t : Ty} : P a = some m → m.main = false → m.vars n = some (v, t) → v ≠ .internal →
      HdrDecl P a (.var (a, n))
  /-- OPC.Mod 716-719. -/
  | proc {m : Module} {n : Nat} {p : Proc} : P a = some m → m.main = false → Tree m n p → (p.kind = .L ∨ p.kind = .X) → p.vis ≠ .internal →
      (p.removed = false ∨ p.kind = .L) → HdrDecl P a (.proc (a, n))
  /-- OPC.Mod 437, 466-474. -/
  | typ {m : Module} {n : Nat} : P a = some m → m.main = false → Needed P a n → HdrDecl P a (.typ (a, n))
  /-- OPC.Mod 751-753. -/
  | desc {m : Module} {n : Nat} {v : Vis} {b : Option Q} {fs : List (Vis × Ty)} {ms : Nat → Option (Vis × Ty)} : P a = some m →
      m.main = false → Needed P a n → Decl P (a, n) v (.record b fs ms) → HdrDecl P a (.desc (a, n))
  /-- OPC.Mod 773-775. -/
  | init {m : Module} : P a = some m → m.main = false → HdrDecl P a (.init a)
  /-- OPC.Mod 380-385. -/
  | bound {m : Module} {n k : Nat} {v : Vis} {b : Option Q} {fs : List (Vis × Ty)} {ms : Nat → Option (Vis × Ty)} {t : Ty} : P a = some m →
      m.main = false → Needed P a n → Decl P (a, n) v (.record b fs ms) → ms k = some (.external, t) → HdrDecl P a (.bound (a, n) k)

/-- `static` for what is not exported. -/
def linkOf (v : Vis) : Link := if v = .internal then .stat else .ext

/-- The declarations at the beginning of a C file, `GenBdy`, OPC.Mod 822-843. -/
inductive BodyDecl (P : Program) (a : Nat) : CName → Link → Prop where
  /-- OPC.Mod 646-650. -/
  | var {m : Module} {n : Nat} {v : Vis} {t : Ty} : P a = some m → m.vars n = some (v, t) → BodyDecl P a (.var (a, n)) (linkOf v)
  /-- OPC.Mod 716-722. -/
  | proc {m : Module} {n : Nat} {p : Proc} : P a = some m → Tree m n p → (p.kind = .L ∨ p.kind = .X) → (p.removed = false ∨ p.kind = .L) →
      BodyDecl P a (.proc (a, n)) (linkOf p.vis)
  | typ {n : Nat} {v : Vis} {d : TyDef} : Decl P (a, n) v d → BodyDecl P a (.typ (a, n)) .none
  /-- OPC.Mod 754-756. -/
  | desc {n : Nat} {v : Vis} {b : Option Q} {fs : List (Vis × Ty)} {ms : Nat → Option (Vis × Ty)} : Decl P (a, n) v (.record b fs ms) →
      BodyDecl P a (.desc (a, n)) .ext
  /-- OPC.Mod 386-391. -/
  | bound {n k : Nat} {v : Vis} {b : Option Q} {fs : List (Vis × Ty)} {ms : Nat → Option (Vis × Ty)} {w : Vis} {t : Ty} :
      Decl P (a, n) v (.record b fs ms) → ms k = some (w, t) → BodyDecl P a (.bound (a, n) k) (linkOf w)

/-- What a C file defines: variables and descriptors where they are declared, procedures in `EnterProc`, OPC.Mod 961-964, the start of the
module in `EnterBody`, OPC.Mod 907-915. -/
inductive Defines (P : Program) (a : Nat) : CName → Link → Prop where
  | var {m : Module} {n : Nat} {v : Vis} {t : Ty} : P a = some m → m.vars n = some (v, t) → Defines P a (.var (a, n)) (linkOf v)
  | proc {m : Module} {n : Nat} {p : Proc} : P a = some m → m.procs n = some p → p.kind ≠ .C →
      Defines P a (.proc (a, n)) (if p.vis ≠ .external then .stat else .ext)
  | typ {n : Nat} {v : Vis} {d : TyDef} : Decl P (a, n) v d → Defines P a (.typ (a, n)) .none
  | desc {n : Nat} {v : Vis} {b : Option Q} {fs : List (Vis × Ty)} {ms : Nat → Option (Vis × Ty)} : Decl P (a, n) v (.record b fs ms) →
      Defines P a (.desc (a, n)) .ext
  | init {m : Module} : P a = some m → m.main = false → Defines P a (.init a) .ext
  | bound {n k : Nat} {v : Vis} {b : Option Q} {fs : List (Vis × Ty)} {ms : Nat → Option (Vis × Ty)} {w : Vis} {t : Ty} :
      Decl P (a, n) v (.record b fs ms) → ms k = some (w, t) → Defines P a (.bound (a, n) k) (if w ≠ .external then .stat else .ext)

/-- A name is declared in the C file before the procedures, there or in an included header file. -/
def Declared (P : Program) (a : Nat) (x : CName) : Prop := (∃ l, BodyDecl P a x l) ∨ ∃ h, InUnit P a h ∧ HdrDecl P h x

/-- The header files that a header file includes, and itself. -/
inductive InHdr (P : Program) (a : Nat) : Nat → Prop where
  | self : InHdr P a a
  | step {h k : Nat} : InHdr P a h → HdrIncl P h k → InHdr P a k

/-- The linkage by a declaration in a header file: `extern` (`import`, SYSTEM.h 64), but types have none. -/
def hdrLink : CName → Link
  | .typ _ => .none
  | _ => .ext

/-- The linkages that a name is given in a C file. -/
def Linkage (P : Program) (a : Nat) (x : CName) (l : Link) : Prop :=
  BodyDecl P a x l ∨ Defines P a x l ∨ (l = hdrLink x ∧ ∃ h, InUnit P a h ∧ HdrDecl P h x)

end Verif.Linkage
