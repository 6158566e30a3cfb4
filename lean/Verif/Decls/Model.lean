import Verif.Decls.Spec

/-!
# Declarations of types in the compiler

src/compiler/OPP.Mod 37-58, 87-278, 895-973 (`qualident`, `RecordType`, `ArrayType`, `PointerType`, `FormalParameters`, `TypeDecl`, `Type`, and the
sections CONST, TYPE and VAR of `Block`), with `NewStr`, `OpenScope`, `Find`, `FindField` and `Insert` of OPT.Mod 373-490.

Left out: system flags, export marks, source positions, constant expressions (their values are given), and the words of the syntax (C50, C51).  Scopes
are lists of names with objects; the search trees are those of C15.  Warnings (-309, -310) are no errors.  `extlev` is not bounded.
-/
namespace Verif.Decls
open Verif.Types

/-- `obj^.mode`: `Typ`, `Mod`, or another (OPT.Mod 50-52). -/
inductive Mode where
  | typ | mod | other
deriving DecidableEq, Repr

/-- `mode` and `typ` of an object (OPT.Mod 34-48). -/
structure Obj where
  mode : Mode := .other
  typ : Nat := undftyp
deriving DecidableEq, Repr

/-- The variables of the compiler.  Structures and objects are numbers below `next` and `nobj`.  `fields` is `typ^.link` of records, `named` says
`strobj # NIL`, `scopes` are the scopes from `topScope` on, each with its names in the order in which they were entered, `imports` what `FindImport`
finds in the object of a module, and `fwd` is `FwdPtr`, with the name of `typ^.link` unless it is empty. -/
structure St where
  tab : Tab
  fields : FTab
  named : Nat → Bool
  next : Nat
  objs : Nat → Obj
  nobj : Nat
  scopes : List (List (Nat × Nat))
  imports : Nat → Nat → Option Obj
  fwd : List (Nat × Option Nat)
  errs : List Nat

/-- `f` with another value at `i`. -/
def upd {α : Type} (f : Nat → α) (i : Nat) (a : α) : Nat → α := fun j => if j = i then a else f j

/-- `err(n)`. -/
def err (s : St) (n : Nat) : St := { s with errs := s.errs ++ [n] }

/-- A variable of type `Struct` that is handed on as VAR parameter: `obj^.typ`, `typ^.BaseTyp`, or a local variable. -/
inductive Loc where
  | obj (o : Nat)
  | base (t : Nat)
  | tmp
deriving DecidableEq, Repr

/-- An assignment to such a variable. -/
def setLoc (s : St) (t : Nat) : Loc → St
  | .obj o => { s with objs := upd s.objs o { s.objs o with typ := t } }
  | .base p => { s with tab := upd s.tab p { s.tab p with base := some t } }
  | .tmp => s

/-- `NewStr`, OPT.Mod 373-379. -/
def newStr (s : St) (y : Ty) : St := { s with tab := upd s.tab s.next y, next := s.next + 1 }

/-- `typ := OPT.undftyp` at the beginning of `TypeDecl` and then `typ := OPT.NewStr(…)`: the new structure is `s.next`. -/
def new (s : St) (loc : Loc) (y : Ty) : St := setLoc (newStr (setLoc s undftyp loc) y) s.next loc

/-- `Find`, OPT.Mod 437-453. -/
def findIn (x : Nat) : List (List (Nat × Nat)) → Option Nat
  | [] => none
  | f :: fs => match f.lookup x with
    | some o => some o
    | none => findIn x fs

/-- `Insert`, OPT.Mod 470-490, with `mode` and `typ` assigned afterwards: the new object is `s.nobj`.  Of two objects with the same name the first is
found. -/
def insert (s : St) (x : Nat) (ob : Obj) : St :=
  match s.scopes with
  | [] => s
  | f :: fs =>
    let s := if (f.lookup x).isSome then err s 1 else s
    { s with scopes := (f ++ [(x, s.nobj)]) :: fs, objs := upd s.objs s.nobj ob, nobj := s.nobj + 1 }

/-- `OpenScope`, OPT.Mod 390-396. -/
def openScope (s : St) : St := { s with scopes := [] :: s.scopes }

/-- `CloseScope`, OPT.Mod 398-400. -/
def closeScope (s : St) : St := { s with scopes := s.scopes.tail }

/-- `qualident`, OPP.Mod 37-58; `none` with error 0.  A name followed by a period and a name, where the first is no module, ends in a syntax error, which
is taken for error 0 here. -/
def qualident (s : St) : Qual → Option Obj
  | .id x => (findIn x s.scopes).map s.objs
  | .sel m x => match findIn m s.scopes with
    | some o => if (s.objs o).mode = .mod then s.imports o x else none
    | none => none

/-- The value of `banned`: `obj^.typ` of the declared object, or `notyp`. -/
def bannedTyp (s : St) : Option Nat → Nat
  | some o => (s.objs o).typ
  | none => notyp

/-- `FindField(name, typ, fld); fld # NIL`, OPT.Mod 455-468.  The number bounds the steps; it is one more than the level of `typ`. -/
def findField (s : St) (x : Nat) : Nat → Nat → Bool
  | 0, _ => false
  | f + 1, t => (s.fields t).any (fun p => p.1 = x) || match (s.tab t).base with
    | some b => findField s x f b
    | none => false

/-- The base type in `RecordType`, OPP.Mod 92-106. -/
def recBase (s : St) (t : Nat) (banned : Option Nat) : Option Qual → St
  | none => s
  | some q => match qualident s q with
    | none => err (err s 0) 52
    | some ob =>
      if ob.mode = .typ ∧ (s.tab ob.typ).comp = .record then
        if ob.typ = bannedTyp s banned then err s 58
        else { s with tab := upd s.tab t { s.tab t with base := some ob.typ, extlev := (s.tab ob.typ).extlev + 1 } }
      else err s 52

/-- The names of a list of fields, OPP.Mod 112-128. -/
def addFields (s : St) (t : Nat) : List Nat → St
  | [] => s
  | x :: xs =>
    let s := match (s.tab t).base with
      | some b => if findField s x ((s.tab b).extlev + 1) b then err s 1 else s
      | none => s
    let s := insert s x {}
    addFields { s with fields := upd s.fields t (s.fields t ++ [(x, undftyp)]) } t xs

/-- `WHILE first # NIL DO first^.typ := ftyp …`, OPP.Mod 132-134, for the last fields. -/
def setFields (s : St) (t : Nat) (xs : List Nat) (ft : Nat) : St :=
  { s with fields := upd s.fields t ((s.fields t).take ((s.fields t).length - xs.length) ++ xs.map (·, ft)) }

/-- The names of a list of parameters, OPP.Mod 205-219, or of variables, 937-951. -/
def addObjs (s : St) : List Nat → St
  | [] => s
  | x :: xs => addObjs (insert s x {}) xs

/-- `Type` after `TypeDecl`, OPP.Mod 275-278. -/
def typeCheck (r : St × Nat) : St × Nat :=
  (if (r.1.tab r.2).form = .ptr ∧ (r.1.tab r.2).base = some undftyp ∧ r.1.named r.2 = false then err r.1 0 else r.1, r.2)

/-- `ArrayType` after the type of the elements of an open array, OPP.Mod 145-148. -/
def endDyn (r : St × Nat) (t : Nat) : St :=
  { r.1 with tab := upd r.1.tab t { r.1.tab t with n := if (r.1.tab r.2).comp = .dyn then (r.1.tab r.2).n + 1 else 0 } }

/-- `ArrayType` after the type of the elements of an array, OPP.Mod 162. -/
def endArr (r : St × Nat) (t : Nat) : St :=
  if (r.1.tab r.2).comp = .dyn then err (setLoc r.1 undftyp (.base t)) 88 else r.1

/-- The end of `PointerType`, OPP.Mod 187-189. -/
def endPtr (r : St × Nat) (t : Nat) : St :=
  if (r.1.tab r.2).comp = .basic then err (setLoc r.1 undftyp (.base t)) 57 else r.1

/-- `PointerType` for a name, OPP.Mod 170-185; `t` is the new pointer. -/
def ptrName (s : St) (t : Nat) (q : Qual) : St :=
  let fwd (x : Nat) := if s.fwd.length < 64 then { s with fwd := s.fwd ++ [(t, some x)] } else err s 224
  match q, findIn (match q with | .id x => x | .sel m _ => m) s.scopes with
  | .id x, none => fwd x
  | .sel m _, none => err (fwd m) 0
  | q, some _ => match qualident s q with
    | none => err (err s 0) 52
    | some ob =>
      if ob.mode = .typ then
        if (s.tab ob.typ).comp ≠ .basic then setLoc s ob.typ (.base t) else err s 57
      else err s 52

/-- The result type in `FormalParameters`, OPP.Mod 237-249: `resTyp`. -/
def resType (s : St) : Option Qual → St × Nat
  | none => (s, notyp)
  | some q => match qualident s q with
    | none => (err (err s 0) 52, undftyp)
    | some ob =>
      if ob.mode = .typ then if (s.tab ob.typ).form ≠ .comp then (s, ob.typ) else (err s 54, undftyp)
      else (err s 52, undftyp)

/-- The end of a procedure type. -/
def endProc (s : St) (t : Nat) (ps : List Par) (res : Option Qual) : St :=
  let r := resType s res
  let s := closeScope r.1
  { s with tab := upd s.tab t { s.tab t with base := some r.2, params := ps } }

/-- The type of a list of fields or of variables, OPP.Mod 130-131 and 953-955. -/
def noDyn (r : St × Nat) : St × Nat := if (r.1.tab r.2).comp = .dyn then (err r.1 88, undftyp) else r

mutual
/-- `TypeDecl`, OPP.Mod 253-273, with `RecordType`, `ArrayType` and `PointerType`, OPP.Mod 87-195: the value of `typ` too. -/
def typeDecl (mx : Int) (s : St) (loc : Loc) (banned : Option Nat) : TE → St × Nat
  | .name q =>
    let s := setLoc s undftyp loc
    match qualident s q with
    | none => (err (err s 0) 52, undftyp)
    | some ob =>
      if ob.mode = .typ then
        if ob.typ = bannedTyp s banned then (err s 58, undftyp) else (setLoc s ob.typ loc, ob.typ)
      else (err s 52, undftyp)
  | .dyn e =>
    let t := s.next
    let s := new s loc { form := .comp, comp := .dyn }
    (endDyn (typeCheck (typeDecl mx s (.base t) banned e)) t, t)
  | .arr n e =>
    let t := s.next
    let s := new s loc { form := .comp, comp := .array, n := if n ≤ 0 ∨ n > mx then 1 else n.toNat }
    let s := if n ≤ 0 ∨ n > mx then err s 63 else s
    (endArr (typeCheck (typeDecl mx s (.base t) banned e)) t, t)
  | .recd b fs =>
    let t := s.next
    let s := recBase (new s loc { form := .comp, comp := .record, base := none }) t banned b
    (closeScope (fieldList mx (openScope s) t banned fs), t)
  | .ptrTo q =>
    let t := s.next
    (ptrName (new s loc { form := .ptr }) t q, t)
  | .ptr e =>
    let t := s.next
    (endPtr (typeCheck (typeDecl mx (new s loc { form := .ptr }) (.base t) none e)) t, t)
  | .proc ps res =>
    let t := s.next
    let r := parList mx (openScope (new s loc { form := .proc })) ps
    (endProc r.1 t r.2 res, t)
/-- The fields in `RecordType`, OPP.Mod 110-140. -/
def fieldList (mx : Int) (s : St) (t : Nat) (banned : Option Nat) : GL → St
  | .nil => s
  | .cons _ xs e rest =>
    let r := noDyn (typeCheck (typeDecl mx (addFields s t xs) .tmp banned e))
    fieldList mx (setFields r.1 t xs r.2) t banned rest
/-- The parameters in `FormalParameters`, OPP.Mod 200-235.  The list is entered in the structure at the end (`endProc`): nothing looks at it before. -/
def parList (mx : Int) (s : St) : GL → St × List Par
  | .nil => (s, [])
  | .cons v xs e rest =>
    let r := typeCheck (typeDecl mx (addObjs s xs) .tmp none e)
    let p := parList mx r.1 rest
    (p.1, xs.map (fun x => ⟨v, r.2, x⟩) ++ p.2)
end

/-- `typ^.BaseTyp := obj^.typ; typ^.link^.name := ""` for all forward pointers to `x`, OPP.Mod 927-930. -/
def resolve (s : St) (x t : Nat) : St :=
  { s with
    tab := fun p => if (p, some x) ∈ s.fwd then { s.tab p with base := some t } else s.tab p
    fwd := s.fwd.map fun p => if p.2 = some x then (p.1, none) else p }

/-- A declaration in CONST, TYPE or VAR, OPP.Mod 898-958. -/
def declare (mx : Int) (s : St) : Decl → St
  | .const x => insert s x {}
  | .typ x e =>
    let o := s.nobj
    let r := typeDecl mx (insert s x { mode := .typ }) (.obj o) (some o) e
    let s : St := { r.1 with named := upd r.1.named r.2 true }
    if (s.tab r.2).comp ≠ .basic then resolve s x r.2 else s
  | .var xs e =>
    let o := s.nobj
    let r := noDyn (typeCheck (typeDecl mx (addObjs s xs) .tmp none e))
    { r.1 with objs := fun i => if o ≤ i ∧ i < o + xs.length then { r.1.objs i with typ := r.2 } else r.1.objs i }

/-- All declarations one after the other. -/
def declares (mx : Int) : List Decl → St → St
  | [], s => s
  | d :: ds, s => declares mx ds (declare mx s d)

/-- Error 128 for every forward pointer that is left, OPP.Mod 961-966. -/
def leftErr (s : St) : St := { s with errs := s.errs ++ (s.fwd.filter fun p => p.2.isSome).map fun _ => 128 }

/-- The declarations of a block: sections CONST, TYPE and VAR, OPP.Mod 895-966. -/
def block (mx : Int) (s : St) (ds : List Decl) : St := leftErr (declares mx ds { s with fwd := [] })

/-- The type a name of the innermost scope stands for. -/
def secType (s : St) (x : Nat) : Option Nat :=
  match s.scopes with
  | [] => none
  | f :: _ => match f.lookup x with
    | some o => if (s.objs o).mode = .typ then some (s.objs o).typ else none
    | none => none

/-- The type of a variable, constant or field of the innermost scope. -/
def objType (s : St) (x : Nat) : Option Nat :=
  match s.scopes with
  | [] => none
  | f :: _ => match f.lookup x with
    | some o => if (s.objs o).mode = .other then some (s.objs o).typ else none
    | none => none

/-- The type a name stands for. -/
def typeOf (s : St) (q : Qual) : Option Nat :=
  match qualident s q with
  | some ob => if ob.mode = .typ then some ob.typ else none
  | none => none

end Verif.Decls
