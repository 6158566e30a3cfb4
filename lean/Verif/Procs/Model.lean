import Verif.Procs.Spec

/-!
# How the compiler declares procedures

src/compiler/OPP.Mod 502-690 (`Receiver`, `Extends`, `ProcedureDeclaration`), and the checks made when all is read, src/compiler/OPV.Mod
63-75, 97-127.  The parser's own errors (a symbol is missing), the types of parameters, statements, and the contents of code procedures
are not modelled.  Scopes are lists, searched from the front: C15 shows that the trees of the compiler are searched like them.
-/
namespace Verif.Procs
open Verif.Types

/-- Modes of objects, src/compiler/OPT.Mod 73-75; `other`: constants, types, variables, modules. -/
inductive Mode where
  | lproc | xproc | iproc | cproc | sproc | tproc | fld | other
deriving DecidableEq, Repr

/-- Objects, src/compiler/OPT.Mod 36-60: name, mode, `mnolev`, export, `link` (parameters), result, and the bits `hasBody` and `isRedef` of
`conval^.setval`. -/
structure Obj where
  name : Nat
  mode : Mode
  lev : Int
  vis : Vis := .internal
  pars : List Par := []
  res : Nat := notyp
  hasBody : Bool := false
  isRedef : Bool := false
deriving DecidableEq, Repr

/-- What the parser works on: the scope of this block, the members of all records, the errors so far, those that are found when all is
read, and the headings of the procedures for which statements are compiled in this block. -/
structure St where
  top : List Obj
  recs : List (Nat × Obj)
  errs : List Nat := []
  errs2 : List Nat := []
  code : List Head := []

/-- `OPT.Find`, src/compiler/OPT.Mod 437-453. -/
def find (n : Nat) : List (List Obj) → Option Obj
  | [] => .none
  | s :: ss => match s.find? (fun o => o.name == n) with
    | some o => some o
    | .none => find n ss

/-- `OPT.Insert`, src/compiler/OPT.Mod 470-487: the object is entered even if the name is taken (error 1). -/
def insert (s : List Obj) (o : Obj) : List Obj × List Nat :=
  (s ++ [o], if s.any (fun p => p.name == o.name) then [1] else [])

def insertAll : List Obj → List Obj → List Obj × List Nat
  | s, [] => (s, [])
  | s, o :: os => ((insertAll (insert s o).1 os).1, (insert s o).2 ++ (insertAll (insert s o).1 os).2)

/-- A parameter as an object, src/compiler/OPP.Mod 208-209. -/
def parObj (lev : Nat) (p : Par) : Obj := { name := p.name, mode := .other, lev := lev }

/-- The object found first under a name is changed. -/
def modify (n : Nat) (g : Obj → Obj) : List Obj → List Obj
  | [] => []
  | o :: os => if o.name == n then g o :: os else o :: modify n g os

/-- The same for a member of a record. -/
def modifyRec (r n : Nat) (g : Obj → Obj) : List (Nat × Obj) → List (Nat × Obj)
  | [] => []
  | x :: xs => if x.1 == r && x.2.name == n then (x.1, g x.2) :: xs else x :: modifyRec r n g xs

/-- `OPT.FindField`, src/compiler/OPT.Mod 455-468; the number bounds the steps, `extlev + 1` is enough. -/
def findField (T : Tab) (recs : List (Nat × Obj)) (n : Nat) : Nat → Option Nat → Option (Nat × Obj)
  | 0, _ => .none
  | _ + 1, .none => .none
  | f + 1, some r => match recs.find? (fun x => x.1 == r && x.2.name == n) with
    | some x => some x
    | .none => findField T recs n f (T r).base

/-- `FindField` from a type upwards. -/
def fieldOf (T : Tab) (recs : List (Nat × Obj)) (n : Nat) : Option Nat → Option (Nat × Obj)
  | .none => .none
  | some r => findField T recs n ((T r).extlev + 1) (some r)

/-- `REPEAT x := x^.BaseTyp UNTIL (x = NIL) OR (x = b)`, src/compiler/OPP.Mod 528. -/
def ascend (T : Tab) (b : Nat) : Nat → Nat → Option Nat
  | 0, _ => .none
  | f + 1, x => match (T x).base with
    | .none => .none
    | some y => if y = b then some y else ascend T b f y

/-- `Extends`, src/compiler/OPP.Mod 523-531. -/
def extends_ (T : Tab) (x b : Nat) : Bool :=
  let p := if (T b).form = .ptr ∧ (T x).form = .ptr then ((T x).base.getD undftyp, (T b).base.getD undftyp) else (x, b)
  if (T p.2).comp = .record ∧ (T p.1).comp = .record then ascend T p.2 ((T p.1).extlev + 1) p.1 == some p.2 else p.1 == p.2

/-- `Receiver`, src/compiler/OPP.Mod 502-521: errors and the record; `none`: a new record without members. -/
def receiver (E : Env) (lev : Nat) (rc : Recv) : List Nat × Option Nat :=
  match rc.typ with
  | .nothing => ([0], .none)
  | .noType => ([72], .none)
  | .type t =>
    let r := if (E.T t).form = .ptr then (E.T t).base.getD undftyp else t
    if ¬ (rc.var = false ∧ (E.T t).form = .ptr ∧ (E.T r).comp = .record ∨ rc.var = true ∧ (E.T t).comp = .record) then ([70], .none)
    else if E.mno r ≠ lev then ([72], .none)
    else ([], some r)

/-- What a heading leaves: the state, and the scope for the block of the procedure. -/
structure Headed where
  st : St
  scope : List Obj

/-- The modes, src/compiler/OPP.Mod 641-645, 653. -/
def modeOf (h : Head) : Mode :=
  match h.mark with
  | .plus => .iproc
  | .minus => .cproc
  | _ => if h.vis ≠ .internal then .xproc else .lproc

/-- Errors 135 (a mark needs SYSTEM, src/compiler/OPP.Mod 647) and 47 (export of a local name, src/compiler/OPP.Mod 65). -/
def markErrs (E : Env) (lev : Nat) (h : Head) : List Nat :=
  (if (h.mark = .plus ∨ h.mark = .minus) ∧ E.sys = false then [135] else []) ++
  (if h.vis ≠ .internal ∧ lev > 0 then [47] else [])

/-- A forward declaration that waits for its procedure, src/compiler/OPP.Mod 655. -/
def waiting (o : Obj) : Bool := (o.mode = .lproc ∨ o.mode = .xproc) ∧ o.hasBody = false

/-- An ordinary procedure up to its parameters, src/compiler/OPP.Mod 651-668 with `GetParams`, 569-583; `hasBody` is set at 547, 586. -/
def plainHead (E : Env) (lev : Nat) (outer : List (List Obj)) (s : St) (h : Head) : Headed :=
  let fwd1 := (find h.name (s.top :: outer)).filter fun o => o.lev = (lev : Int) ∧ o.mode ≠ .sproc
  let fwd := fwd1.filter waiting
  let mode := modeOf h
  let ps := insertAll [] (h.pars.map (parObj (lev + 1)))
  let e73 := if mode ≠ .lproc ∧ lev > 0 then [73] else []
  match fwd with
  | .none =>
    let i := insert s.top { name := h.name, mode, lev, vis := h.vis, pars := h.pars, res := h.res, hasBody := h.mark ≠ .arrow }
    { st := { s with
        top := i.1
        errs := s.errs ++ (markErrs E lev h ++ ((if fwd1.isSome then [1] else []) ++ i.2) ++ e73 ++ ps.2) }
      scope := ps.1 }
  | some o =>
    { st := { s with
        top := modify h.name (fun o => { o with
          mode := if h.mark = .plus then .iproc else o.mode
          hasBody := o.hasBody || h.mark ≠ .arrow }) s.top
        errs := s.errs ++ (markErrs E lev h ++ (if o.vis ≠ h.vis then [118] else []) ++ e73 ++ ps.2 ++
          (E.chk true h.pars o.pars ++ if h.res ≠ o.res then [117] else [])) }
      scope := (insertAll [] (o.pars.map (parObj (lev + 1)))).1 }

/-- The comparison with the procedure that is redefined, src/compiler/OPP.Mod 620-628; `o`: the procedure (or its forward declaration). -/
def redefErrs (E : Env) (rc : Recv) (r : Option Nat) (o b : Obj) : List Nat :=
  (if rc.var ≠ (b.pars.headD ⟨false, undftyp, 0⟩).var ∨ extends_ E.T rc.par.typ (b.pars.headD ⟨false, undftyp, 0⟩).typ = false then [115] else []) ++
  E.chk false o.pars.tail b.pars.tail ++
  (if o.res ≠ b.res then [117] else []) ++
  (if b.vis = .external ∧ o.vis = .internal ∧ (r.bind E.strvis) = some .external then [109] else [])

/-- A procedure bound to a type up to its parameters, `TProcDecl`, src/compiler/OPP.Mod 600-629. -/
def methodHead (E : Env) (lev : Nat) (s : St) (rc : Recv) (h : Head) : Headed :=
  let r := receiver E lev rc
  let base := ((fieldOf E.T s.recs h.name (r.2.bind fun r => (E.T r).base)).filter fun x => x.2.mode = .tproc)
  let fwd1 := ((fieldOf E.T s.recs h.name r.2).filter fun x => base.map Prod.fst ≠ some x.1).filter fun x => x.2.lev = (lev : Int)
  let fwd := fwd1.filter fun x => x.2.mode = .tproc ∧ x.2.hasBody = false
  let ps := insertAll [] (h.all.map (parObj (lev + 1)))
  let es := markErrs E lev h ++ (if lev > 0 then [73] else []) ++ r.1
  match fwd with
  | .none =>
    let o : Obj := { name := h.name, mode := .tproc, lev := 0, vis := h.vis, pars := h.all, res := h.res,
                     hasBody := h.mark ≠ .arrow, isRedef := base.isSome }
    let dup := match r.2 with | some r => s.recs.any (fun x => x.1 == r && x.2.name == h.name) | .none => false
    { st := { s with
        recs := match r.2 with | some r => s.recs ++ [(r, o)] | .none => s.recs
        errs := s.errs ++ (es ++ ((if fwd1.isSome then [1] else []) ++ (if dup then [1] else [])) ++ ps.2 ++
          (match base with | some b => redefErrs E rc r.2 o b.2 | .none => [])) }
      scope := ps.1 }
  | some x =>
    { st := { s with
        recs := modifyRec x.1 h.name (fun o => { o with
          hasBody := o.hasBody || h.mark ≠ .arrow
          isRedef := o.isRedef || base.isSome }) s.recs
        errs := s.errs ++ (es ++ (if x.2.vis ≠ h.vis then [118] else []) ++ ps.2 ++
          (E.chk true h.all x.2.pars ++ if h.res ≠ x.2.res then [117] else []) ++
          (match base with | some b => redefErrs E rc r.2 x.2 b.2 | .none => [])) }
      scope := (insertAll [] (x.2.pars.map (parObj (lev + 1)))).1 }

def heading (E : Env) (lev : Nat) (outer : List (List Obj)) (s : St) (h : Head) : Headed :=
  match h.recv with
  | .none => plainHead E lev outer s h
  | some rc => methodHead E lev s rc h

/-- Error 129 for the procedures of a scope that have no body, src/compiler/OPV.Mod 116-117. -/
def unfinished (s : List Obj) : List Nat :=
  s.flatMap fun o => if (o.mode = .lproc ∨ o.mode = .xproc ∨ o.mode = .iproc ∨ o.mode = .cproc) ∧ o.hasBody = false ∧ o.isRedef = false then [129] else []

mutual
/-- `ProcedureDeclaration`, src/compiler/OPP.Mod 533-678: heading, block (`Body`, 585-598), END.  The scope of the block is looked through
for missing bodies when it is closed; the compiler does this later, when nothing has changed in it. -/
def runDecl (E : Env) (lev : Nat) (outer : List (List Obj)) (s : St) : Decl → St
  | .mk h locals body =>
    let p := heading E lev outer s h
    if h.hasBlock then
      let i := insertAll p.scope (locals.map fun n => { name := n, mode := .other, lev := (lev : Int) + 1 })
      let q := runDecls E (lev + 1) (p.st.top :: outer) { top := i.1, recs := p.st.recs, errs := i.2 } body
      { top := p.st.top
        recs := q.recs
        errs := p.st.errs ++ (q.errs ++ if h.endName ≠ h.name then [4] else [])
        errs2 := p.st.errs2 ++ (q.errs2 ++ unfinished q.top)
        code := p.st.code ++ [h] }
    else p.st
/-- The procedures of a block, src/compiler/OPP.Mod 986-993. -/
def runDecls (E : Env) (lev : Nat) (outer : List (List Obj)) (s : St) : Decls → St
  | .nil => s
  | .cons d ds => runDecls E lev outer (runDecl E lev outer s d) ds
end

/-- Members of records as objects. -/
def memObj (E : Env) (x : Nat × Nat × Mem) : Nat × Obj :=
  (x.1, match x.2.2 with
    | .field => { name := x.2.1, mode := .fld, lev := E.mno x.1 }
    | .method s => { name := x.2.1, mode := .tproc, lev := E.mno x.1, vis := s.vis, pars := s.recv :: s.pars, res := s.res, hasBody := true })

/-- The checks of procedures bound to types when all is read: `GetTProcNum`, src/compiler/OPV.Mod 63-75 (119), and 117 (129).  All types
that procedures can be bound to have a name, by which `Traverse` finds them. -/
def methodErrs (E : Env) (recs : List (Nat × Obj)) : List Nat :=
  recs.flatMap fun x =>
    if x.2.mode = .tproc ∧ E.mno x.1 = 0 then
      (if (fieldOf E.T recs x.2.name (E.T x.1).base).isSome ∧ x.2.isRedef = false then [119] else []) ++
      (if x.2.hasBody = false ∧ x.2.isRedef = false then [129] else [])
    else []

/-- The predeclared names, src/compiler/OPT.Mod 1220-1340. -/
def univObj (x : Nat × Bool) : Obj := { name := x.1, mode := if x.2 then .sproc else .other, lev := 0 }

/-- The start of a module: the names it declares, with `mnolev` (0, or the number of an imported module, negative). -/
def start (E : Env) (names : List (Nat × Int)) : St :=
  let i := insertAll [] (names.map fun x => { name := x.1, mode := .other, lev := x.2 })
  { top := i.1, recs := E.init.map (memObj E), errs := i.2 }

def compile (E : Env) (names : List (Nat × Int)) (ds : Decls) : St :=
  runDecls E 0 [E.univ.map univObj] (start E names) ds

/-- All errors; those found when all is read are looked for only if there are no others, src/compiler/Compiler.Mod 12-16. -/
def errors (E : Env) (names : List (Nat × Int)) (ds : Decls) : List Nat :=
  let s := compile E names ds
  if s.errs = [] then s.errs2 ++ unfinished s.top ++ methodErrs E s.recs else s.errs
end Verif.Procs
