import Verif.Types.Model

/-!
# Pointers and records: what the compiler accepts and what the generated C does

The language has variables of integer, pointer and record types, procedures with value and VAR parameters, NEW, assignments
(also of records), type guards, type tests and WITH.  `comp` follows OPP.Mod and OPB.Mod: it gives the nodes, or nothing if an
error is reported (or the compiler needs more than `K` steps in one of its loops).  `exec` is the C that OPV.Mod writes for the nodes; it does not look at static types, and an access outside
of the object at hand is the outcome `wild`.  Arrays, records within records, functions and nested procedures are left out.
-/
namespace Verif.Safe
open Verif.Types

/-- Names: the index of a global variable, a parameter or a local variable. -/
inductive Name where
  | glob (i : Nat) | par (i : Nat) | loc (i : Nat)
deriving DecidableEq, Repr

/-- A variable or parameter (`mode` and `typ` of `ObjDesc`, src/compiler/OPT.Mod 27-46). -/
structure Decl where
  varpar : Bool
  typ : Nat
deriving DecidableEq, Repr

abbrev Ctx := Name → Option Decl

/-- The fields declared in a record type itself, by name; the type of the field. -/
abbrev Flds := Nat → Nat → Option Nat

/-! ### Source -/

inductive Des where
  | var (x : Name)
  | fld (d : Des) (f : Nat)
  | deref (d : Des)
  | guard (d : Des) (t : Nat)
deriving DecidableEq, Repr

inductive Exp where
  | nil
  /-- A number with its type. -/
  | int (n : Int) (t : Nat)
  | des (d : Des)
deriving DecidableEq, Repr

inductive Cond where
  | is (d : Des) (t : Nat)
  | isNil (d : Des)
deriving DecidableEq, Repr

inductive Stmt where
  | skip
  | halt
  | seq (s u : Stmt)
  | assign (d : Des) (e : Exp)
  | new (d : Des)
  | ite (c : Cond) (s u : Stmt)
  | while (c : Cond) (s : Stmt)
  | call (p : Nat) (as : List Exp)
  /-- `WITH x: t DO s ELSE u END`; without ELSE `u` is `halt`. -/
  | with (x : Name) (t : Nat) (s u : Stmt)
deriving Repr

structure Proc where
  pars : List Decl
  locs : List Nat
  body : Stmt
deriving Repr

structure Prog where
  globs : List Nat
  procs : List Proc
  body : Stmt
deriving Repr

/-! ### Nodes -/

/-- Classes of designators, src/compiler/OPT.Mod 122. -/
inductive Cls where
  | nvar | nvarpar | nfield | nderef | nguard
deriving DecidableEq, Repr

/-- Designator nodes; a field with the record type that declares it; a guard with its record type. -/
inductive Node where
  | var (x : Name)
  | fld (n : Node) (t f : Nat)
  | deref (n : Node)
  | guardP (n : Node) (t : Nat)
  | guardR (n : Node) (t : Nat)
deriving DecidableEq, Repr

inductive CE where
  | nil | int (n : Int) | load (n : Node)
deriving DecidableEq, Repr

inductive CC where
  | tt | isP (n : Node) (t : Nat) | isR (n : Node) (t : Nat) | isNil (n : Node)
deriving DecidableEq, Repr

/-- Actual parameters: an address, a value, or a record to be copied as one of type `t`. -/
inductive CA where
  | ref (n : Node) | val (e : CE) | record (n : Node) (t : Nat)
deriving DecidableEq, Repr

inductive CStmt where
  | skip
  | halt
  | seq (s u : CStmt)
  | set (n : Node) (e : CE)
  /-- Copy a record of type `t`; with `eq` after a test that the target is of exactly this type. -/
  | copy (eq : Bool) (n : Node) (t : Nat) (m : Node)
  | new (n : Node) (t : Nat)
  | ite (c : CC) (s u : CStmt)
  | while (c : CC) (s : CStmt)
  | call (p : Nat) (as : List CA)
deriving Repr

/-! ### Checks -/

variable (T : Tab) (F : Flds)

/-- `FindField`, src/compiler/OPT.Mod 455-468: the record type that declares the field, and the type of the field.  The number bounds
the steps; `extlev + 1` is enough. -/
def findField (f : Nat) : Nat → Option Nat → Option (Nat × Nat)
  | 0, _ => none
  | _ + 1, none => none
  | k + 1, some t => match F t f with
    | some u => some (t, u)
    | none => findField f k (T t).base

/-- `WHILE (t # NIL) & (t # p) & (t # undftyp) DO t := t^.BaseTyp END`, src/compiler/OPB.Mod 205, 207; `none` if more steps are
needed. -/
def walk (p : Nat) : Nat → Option Nat → Option (Option Nat)
  | 0, _ => none
  | _ + 1, none => some none
  | k + 1, some q => if q = p ∨ q = undftyp then some (some q) else walk p k (T q).base

/-- `GTT`, src/compiler/OPB.Mod 202-223: `none` error 85 (or more than `K` steps); otherwise whether a node for a test is needed. -/
def gtt (K : Nat) (t0 t1 : Nat) : Option Bool :=
  (walk T t1 K (some t0)).bind fun a =>
    if a = some t1 then if t0 = t1 then some false else none
    else (walk T t0 K (some t1)).bind fun b => if b = some t0 ∨ (T t0).form = .undef then some true else none

/-- `TypTest`, src/compiler/OPB.Mod 225-236, for a variable of class `c` and type `x`, and type `t`: is a test needed, and is it one
of a pointer or of a record; and the record type to test for. -/
def typTest (K : Nat) (c : Cls) (x t : Nat) : Option (Bool × Bool × Nat) :=
  if (T x).form = .ptr then
    match (T x).base, (T t).base with
    | some b, some u =>
      if (T b).comp ≠ .record ∧ x ≠ sysptrtyp then none
      else if (T t).form = .ptr then (gtt T K b u).map fun g => (g, true, u)
      else none
    | _, _ => none
  else if (T x).comp = .record ∧ c = .nvarpar ∧ (T t).comp = .record then (gtt T K x t).map fun g => (g, false, t)
  else none

/-- A test on a node. -/
def guardNode (n : Node) (p : Bool) (u : Nat) : Node := if p then .guardP n u else .guardR n u

/-- A field of a record node, `Field`, src/compiler/OPB.Mod 190-198, with `FindField` before it, src/compiler/OPP.Mod 307-308. -/
def fieldOf (f : Nat) (r : Node × Cls × Nat) : Option (Node × Cls × Nat) :=
  if (T r.2.2).comp = .record then
    (findField T F f ((T r.2.2).extlev + 1) (some r.2.2)).map fun q => (.fld r.1 q.1 f, .nfield, q.2)
  else none

/-- `DeRef`, src/compiler/OPB.Mod 159-172. -/
def derefOf (r : Node × Cls × Nat) : Option (Node × Cls × Nat) :=
  if (T r.2.2).form = .ptr ∧ r.2.2 ≠ sysptrtyp then (T r.2.2).base.map fun b => (.deref r.1, .nderef, b) else none

/-- Designators, `selector`, src/compiler/OPP.Mod 292-347: node, class and type. -/
def nodeOf (K : Nat) (G : Ctx) : Des → Option (Node × Cls × Nat)
  | .var x => (G x).map fun d => (.var x, if d.varpar then .nvarpar else .nvar, d.typ)
  | .fld d f => (nodeOf K G d).bind fun r =>
    if (T r.2.2).form = .ptr then (derefOf T r).bind (fieldOf T F f) else fieldOf T F f r
  | .deref d => (nodeOf K G d).bind (derefOf T)
  | .guard d t => (nodeOf K G d).bind fun r =>
    (typTest T K r.2.1 r.2.2 t).map fun q => if q.1 then (guardNode r.1 q.2.1 q.2.2, .nguard, t) else (r.1, r.2.1, t)

/-- The expression as the checks of OPB.Mod see it. -/
def asVar (c : Cls) (t : Nat) : Ex := ⟨.var false (c = .nguard), t⟩

/-- Expressions. -/
def elabE (K : Nat) (G : Ctx) : Exp → Option (CE × Ex)
  | .nil => some (.nil, ⟨.const 0, niltyp⟩)
  | .int n t => if (T t).form = .int then some (.int n, ⟨.const 0, t⟩) else none
  | .des d => (nodeOf T F K G d).map fun r => (.load r.1, asVar r.2.1 r.2.2)

/-- Conditions; the test of `IS` is dropped if it cannot fail, src/compiler/OPB.Mod 215-221. -/
def elabC (K : Nat) (G : Ctx) : Cond → Option CC
  | .is d t => (nodeOf T F K G d).bind fun r => (typTest T K r.2.1 r.2.2 t).map fun q =>
    if q.1 ∨ r.2.1 = .nguard then if q.2.1 then .isP r.1 q.2.2 else .isR r.1 q.2.2 else .tt
  | .isNil d => (nodeOf T F K G d).bind fun r => if (T r.2.2).form = .ptr then some (.isNil r.1) else none

/-- The target of an assignment to a record without its guards, src/compiler/OPB.Mod 1487-1490. -/
def unguard (n : Node) : Node :=
  let z := match n with
    | .guardR m _ => m
    | m => m
  match z with
  | .deref (.guardP m _) => .deref m
  | m => m

/-- `Assign` for records, src/compiler/OPB.Mod 1486-1493; all record types are taken to have names. -/
def compCopy (l : Node × Cls × Nat) (m : Node) : CStmt :=
  match unguard l.1, l.2.1 with
  | .deref z, _ => .copy true (.deref z) l.2.2 m
  | z, .nvarpar => .copy true z l.2.2 m
  | z, .nguard => .copy true z l.2.2 m
  | _, _ => .copy false l.1 l.2.2 m

/-- `Assign`, src/compiler/OPB.Mod 1480-1501. -/
def compAssign (l : Node × Cls × Nat) (r : CE × Ex) : Option CStmt :=
  if checkAssign T 0 l.2.2 r.2 = some [] then
    if (T l.2.2).comp = .record then match r.1 with
      | .load m => some (compCopy l m)
      | _ => none
    else some (.set l.1 r.1)
  else none

/-- `Param`, src/compiler/OPB.Mod 1403-1434. -/
def compArg (K : Nat) (G : Ctx) (d : Decl) (e : Exp) : Option CA :=
  (elabE T F K G e).bind fun r =>
    if d.varpar then
      if paramVar T d.typ r.2 = [] then match r.1 with
        | .load n => some (.ref n)
        | _ => none
      else none
    else if paramVal T 0 d.typ r.2 = some [] then
      if (T d.typ).comp = .record then match r.1 with
        | .load n => some (.record n d.typ)
        | _ => none
      else some (.val r.1)
    else none

/-- `ActualParameters`, src/compiler/OPP.Mod 349-366. -/
def compArgs (K : Nat) (G : Ctx) : List Decl → List Exp → Option (List CA)
  | [], [] => some []
  | d :: ds, e :: es => (compArg T F K G d e).bind fun a => (compArgs K G ds es).map fun as => a :: as
  | _, _ => none

/-- The names with one of another type. -/
def narrow (G : Ctx) (x : Name) (d : Decl) : Ctx := fun y => if y = x then some d else G y

/-- May WITH be used?  Not on a pointer that is a VAR parameter or that procedures of other levels use (error 245),
src/compiler/OPP.Mod 852-854. -/
def withOk (leaf : Name → Bool) (x : Name) (d : Decl) : Bool := !((T d.typ).form = .ptr && (d.varpar || !leaf x))

/-- Statements, `StatSeq`, src/compiler/OPP.Mod 765-895; WITH: 847-876.  The test before a WITH is that of `IS`. -/
def comp (K : Nat) (procs : List Proc) (leaf : Name → Bool) : Ctx → Stmt → Option CStmt
  | _, .skip => some .skip
  | _, .halt => some .halt
  | G, .seq s u => (comp K procs leaf G s).bind fun a => (comp K procs leaf G u).map fun b => .seq a b
  | G, .assign d e => (nodeOf T F K G d).bind fun l => (elabE T F K G e).bind fun r => compAssign T l r
  | G, .new d => (nodeOf T F K G d).bind fun l =>
    if (T l.2.2).form = .ptr ∧ l.2.2 ≠ sysptrtyp then (T l.2.2).base.bind fun b => if (T b).comp = .record then some (.new l.1 b) else none
    else none
  | G, .ite c s u => (elabC T F K G c).bind fun c' => (comp K procs leaf G s).bind fun a => (comp K procs leaf G u).map fun b => .ite c' a b
  | G, .while c s => (elabC T F K G c).bind fun c' => (comp K procs leaf G s).map fun a => .while c' a
  | G, .call p as => (procs[p]?).bind fun pr => (compArgs T F K G pr.pars as).map fun cs => .call p cs
  | G, .with x t s u => (G x).bind fun d =>
    if withOk T leaf x d then
      (elabC T F K G (.is (.var x) t)).bind fun c => (comp K procs leaf (narrow G x ⟨d.varpar, t⟩) s).bind fun a =>
        (comp K procs leaf G u).map fun b => .ite c a b
    else none

/-! Which global variables do procedures use?  `qualident` clears `leaf` of a variable used at another level,
src/compiler/OPP.Mod 46-49; that exported variables are no leaves (958) only forbids more. -/

def Des.uses (i : Nat) : Des → Bool
  | .var x => x = .glob i
  | .fld d _ => d.uses i
  | .deref d => d.uses i
  | .guard d _ => d.uses i

def Exp.uses (i : Nat) : Exp → Bool
  | .des d => d.uses i
  | _ => false

def Cond.uses (i : Nat) : Cond → Bool
  | .is d _ => d.uses i
  | .isNil d => d.uses i

def Stmt.uses (i : Nat) : Stmt → Bool
  | .skip => false
  | .halt => false
  | .seq s u => s.uses i || u.uses i
  | .assign d e => d.uses i || e.uses i
  | .new d => d.uses i
  | .ite c s u => c.uses i || s.uses i || u.uses i
  | .while c s => c.uses i || s.uses i
  | .call _ as => as.any fun e => e.uses i
  | .with x _ s u => decide (x = .glob i) || s.uses i || u.uses i

/-- A global variable that a procedure uses. -/
def Prog.shared (p : Prog) (i : Nat) : Bool := p.procs.any fun pr => pr.body.uses i

/-- The names in a procedure. -/
def Prog.procCtx (p : Prog) (pr : Proc) : Ctx
  | .glob i => (p.globs[i]?).map fun t => ⟨false, t⟩
  | .par i => pr.pars[i]?
  | .loc i => (pr.locs[i]?).map fun t => ⟨false, t⟩

/-- The names in the module body. -/
def Prog.mainCtx (p : Prog) : Ctx
  | .glob i => (p.globs[i]?).map fun t => ⟨false, t⟩
  | _ => none

/-- Leaves in a procedure: its own variables and parameters. -/
def procLeaf : Name → Bool
  | .glob _ => false
  | _ => true

/-- Leaves in the module body. -/
def Prog.mainLeaf (p : Prog) : Name → Bool
  | .glob i => !p.shared i
  | _ => true

/-- A compiled procedure. -/
structure CProc where
  locs : List Nat
  body : CStmt
deriving Repr

structure CProg where
  globs : List Nat
  procs : List CProc
  body : CStmt
deriving Repr

def compProc (K : Nat) (p : Prog) (pr : Proc) : Option CProc :=
  (comp T F K p.procs procLeaf (p.procCtx pr) pr.body).map fun b => ⟨pr.locs, b⟩

/-- A module. -/
def compProg (K : Nat) (p : Prog) : Option CProg :=
  (p.procs.mapM (compProc T F K p)).bind fun ps => (comp T F K p.procs p.mainLeaf p.mainCtx p.body).map fun b => ⟨p.globs, ps, b⟩

/-! ### The generated C -/

inductive Val where
  | nil | ref (o : Nat) | int (n : Int)
  /-- What happens to be in memory. -/
  | junk
deriving DecidableEq, Repr

/-- A record in memory: the type in its tag, and the fields by declaring record type and name. -/
structure Obj where
  typ : Nat
  val : Nat → Nat → Val

/-- Simple variables and records; `nv`, `no` are the numbers of those in use. -/
structure St where
  vars : Nat → Val
  nv : Nat
  objs : Nat → Obj
  no : Nat

/-- Addresses; that of a record with the tag that goes with it (`__typ` parameters, src/compiler/OPV.Mod 280-299). -/
inductive Ref where
  | var (a : Nat) | fld (o t f : Nat) | obj (o tag : Nat)
deriving DecidableEq, Repr

abbrev Env := Name → Ref

inductive Res (α : Type) where
  | ok (a : α) | trap | wild | more

def Res.bind {α β : Type} (r : Res α) (f : α → Res β) : Res β :=
  match r with
  | .ok a => f a
  | .trap => .trap
  | .wild => .wild
  | .more => .more

/-- `__IS`, src/runtime/SYSTEM.h 235; that the comparison of tags is this test is C36. -/
def isExt (d t : Nat) : Bool := (climb T t ((T d).extlev + 1) (some d)).isSome

def load (st : St) : Ref → Res Val
  | .var a => .ok (st.vars a)
  | .fld o t f => .ok ((st.objs o).val t f)
  | .obj _ _ => .wild

def store (st : St) (v : Val) : Ref → Res St
  | .var a => .ok { st with vars := fun b => if b = a then v else st.vars b }
  | .fld o t f => .ok { st with objs := fun q => if q = o then ⟨(st.objs o).typ, fun t' f' => if t' = t ∧ f' = f then v else (st.objs o).val t' f'⟩ else st.objs q }
  | .obj _ _ => .wild

/-- The address of a field: it lies in the record only if the type of the record is one that has the field. -/
def fieldRef (st : St) (t f : Nat) : Ref → Res Ref
  | .obj o _ => if isExt T (st.objs o).typ t then .ok (.fld o t f) else .wild
  | _ => .wild

def derefVal (st : St) : Val → Res Ref
  | .ref o => .ok (.obj o (st.objs o).typ)
  | .nil => .trap
  | _ => .wild

/-- `__ISP`, src/runtime/SYSTEM.h 237. -/
def testP (st : St) (t : Nat) : Val → Res Bool
  | .ref o => .ok (isExt T (st.objs o).typ t)
  | .nil => .trap
  | _ => .wild

def testR (t : Nat) : Ref → Res Bool
  | .obj _ tag => .ok (isExt T tag t)
  | _ => .wild

/-- `design`, src/compiler/OPV.Mod 314-399, with `__GUARDP` and `__GUARDR`, src/runtime/SYSTEM.h 240-241. -/
def loc (env : Env) (st : St) : Node → Res Ref
  | .var x => .ok (env x)
  | .fld n t f => (loc env st n).bind (fieldRef T st t f)
  | .deref n => (loc env st n).bind fun r => (load st r).bind (derefVal st)
  | .guardP n t => (loc env st n).bind fun r => (load st r).bind fun v => (testP T st t v).bind fun b => if b then .ok r else .trap
  | .guardR n t => (loc env st n).bind fun r => (testR T t r).bind fun b => if b then .ok r else .trap

def evalE (env : Env) (st : St) : CE → Res Val
  | .nil => .ok .nil
  | .int n => .ok (.int n)
  | .load n => (loc T env st n).bind (load st)

def isNilVal : Val → Res Bool
  | .nil => .ok true
  | .ref _ => .ok false
  | _ => .wild

def evalC (env : Env) (st : St) : CC → Res Bool
  | .tt => .ok true
  | .isP n t => (loc T env st n).bind fun r => (load st r).bind (testP T st t)
  | .isR n t => (loc T env st n).bind (testR T t)
  | .isNil n => (loc T env st n).bind fun r => (load st r).bind isNilVal

/-- The fields of a record of type `t`, from `o`, over those of `old`. -/
def copied (st : St) (t o : Nat) (old : Nat → Nat → Val) : Nat → Nat → Val :=
  fun t0 f => if isExt T t t0 then (st.objs o).val t0 f else old t0 f

/-- Assignment of a record; `__GUARDEQR` and `__GUARDEQP`, src/runtime/SYSTEM.h 243-244. -/
def copyTo (st : St) (eq : Bool) (t : Nat) : Ref → Ref → Res St
  | .obj o tag, .obj q _ =>
    if eq = true ∧ tag ≠ t then .trap
    else if isExt T (st.objs o).typ t ∧ isExt T (st.objs q).typ t then
      .ok { st with objs := fun i => if i = o then ⟨(st.objs o).typ, copied T st t q (st.objs o).val⟩ else st.objs i }
    else .wild
  | _, _ => .wild

/-- Memory filled with zeros. -/
def zero : Nat → Nat → Val := fun t f => match F t f with
  | some u => if (T u).form = .ptr then .nil else .int 0
  | none => .junk

/-- What a new name stands for: another variable, a value, a record. -/
inductive Slot where
  | ref (r : Ref) | val (v : Val) | obj (b : Obj)

def evalArg (env : Env) (st : St) : CA → Res Slot
  | .ref n => (loc T env st n).bind fun r => .ok (.ref r)
  | .val e => (evalE T env st e).bind fun v => .ok (.val v)
  | .record n t => (loc T env st n).bind fun r => match r with
    | .obj q _ => if isExt T (st.objs q).typ t then .ok (.obj ⟨t, copied T st t q fun _ _ => .junk⟩) else .wild
    | _ => .wild

def evalArgs (env : Env) (st : St) : List CA → Res (List Slot)
  | [] => .ok []
  | a :: as => (evalArg T env st a).bind fun s => (evalArgs env st as).bind fun ss => .ok (s :: ss)

/-- Room for variables.  Places are not used again after a procedure has ended. -/
def alloc1 (st : St) : Slot → Ref × St
  | .ref r => (r, st)
  | .val v => (.var st.nv, { st with vars := fun b => if b = st.nv then v else st.vars b, nv := st.nv + 1 })
  | .obj b => (.obj st.no b.typ, { st with objs := fun q => if q = st.no then b else st.objs q, no := st.no + 1 })

def alloc : St → List Slot → List Ref × St
  | st, [] => ([], st)
  | st, s :: ss => ((alloc1 st s).1 :: (alloc (alloc1 st s).2 ss).1, (alloc (alloc1 st s).2 ss).2)

/-- Local variables: pointers are set to NIL, src/compiler/OPC.Mod 667-668; nothing else is. -/
def localSlot (t : Nat) : Slot :=
  if (T t).comp = .record then .obj ⟨t, fun _ _ => .junk⟩ else if (T t).form = .ptr then .val .nil else .val .junk

/-- Global variables are static in C. -/
def globalSlot (t : Nat) : Slot :=
  if (T t).comp = .record then .obj ⟨t, zero T F⟩ else if (T t).form = .ptr then .val .nil else .val (.int 0)

/-- The names in a procedure. -/
def procEnv (env : Env) (ps ls : List Ref) : Env
  | .glob i => env (.glob i)
  | .par i => ps.getD i (.var 0)
  | .loc i => ls.getD i (.var 0)

/-- The statements, `stat`, src/compiler/OPV.Mod 765-925; the number bounds the steps. -/
def exec (procs : List CProc) : Nat → Env → CStmt → St → Res St
  | 0, _, _, _ => .more
  | _ + 1, _, .skip, st => .ok st
  | _ + 1, _, .halt, _ => .trap
  | k + 1, env, .seq s u, st => (exec procs k env s st).bind fun st' => exec procs k env u st'
  | _ + 1, env, .set n e, st => (loc T env st n).bind fun r => (evalE T env st e).bind fun v => store st v r
  | _ + 1, env, .copy eq n t m, st => (loc T env st n).bind fun r => (loc T env st m).bind fun q => copyTo T st eq t r q
  | _ + 1, env, .new n t, st =>
    (loc T env st n).bind fun r => store (alloc1 st (.obj ⟨t, zero T F⟩)).2 (.ref st.no) r
  | k + 1, env, .ite c s u, st => (evalC T env st c).bind fun b => if b then exec procs k env s st else exec procs k env u st
  | k + 1, env, .while c s, st =>
    (evalC T env st c).bind fun b => if b then (exec procs k env s st).bind fun st' => exec procs k env (.while c s) st' else .ok st
  | k + 1, env, .call p as, st =>
    match procs[p]? with
    | none => .wild
    | some pr => (evalArgs T env st as).bind fun ss =>
      let a := alloc st ss
      let b := alloc a.2 (pr.locs.map (localSlot T))
      exec procs k (procEnv env a.1 b.1) pr.body b.2

/-- Before the module body. -/
def start : St := ⟨fun _ => .junk, 0, fun _ => ⟨0, fun _ _ => .junk⟩, 0⟩

def mainEnv (gs : List Ref) : Env
  | .glob i => gs.getD i (.var 0)
  | _ => .var 0

/-- Run a module. -/
def run (c : CProg) (k : Nat) : Res St :=
  let a := alloc start (c.globs.map (globalSlot T F))
  exec T F c.procs k (mainEnv a.1) c.body a.2

end Verif.Safe
