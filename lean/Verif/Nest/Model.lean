import Verif.Nest.Spec

/-!
# Access to variables of enclosing procedures in the generated C program

src/compiler/OPC.Mod 939-1107 and src/compiler/OPV.Mod 97-131, 309-322, 722-726, 777-790, 895-918.  For each procedure that has procedures
declared in it there is a record type, with the addresses of its variables used there and a link, and a global pointer `P_s` to such
a record.  A call makes a record of its own, `_s`, saves the pointer in `_s.lnk` and sets the pointer to its record; on return the
pointer is set back.
-/
namespace Verif.Nest

/-! ### The C program -/

/-- Names of variables in the generated C program. -/
inductive L where
  /-- A global variable. -/
  | glob (x : Nat)
  /-- A local variable or value parameter, `x`. -/
  | loc (x : Nat)
  /-- A VAR parameter, `*x`. -/
  | dloc (x : Nat)
  /-- A variable of an enclosing procedure, `*P_s->x`. -/
  | inter (p x : Nat)
deriving DecidableEq, Repr

mutual
inductive CE where
  | int (n : Int)
  | lv (l : L)
  | bin (f : Int → Int → Int) (a b : CE)
  | call (p : Nat) (as : List CArg)
  | callv (e : CE) (as : List CArg)
inductive CArg where
  | val (e : CE)
  /-- `&l`. -/
  | adr (l : L)
end

/-- Statements about the records. -/
inductive Sc where
  /-- `_s.x = &x;`, 1043-1051. -/
  | bindV (x : Nat)
  /-- `_s.x = x;`, 1011-1021. -/
  | bindP (x : Nat)
  /-- `_s.lnk = P_s;`, 1053-1054. -/
  | save (p : Nat)
  /-- `P_s = &_s;`, 1055-1056. -/
  | top (p : Nat)
  /-- `P_s = _s.lnk;`, 1067-1071. -/
  | unlink (p : Nat)
deriving DecidableEq, Repr

inductive CS where
  | skip
  | assign (l : L) (e : CE)
  | seq (a b : CS)
  | ifs (e : CE) (a b : CS)
  | whiles (e : CE) (a : CS)
  | call (e : CE)
  /-- `...; return e;` -/
  | ret1 (x : List Sc) (e : Option CE)
  /-- `__retval = e; ...; return __retval;` -/
  | ret2 (e : CE) (x : List Sc)

/-- A function. -/
structure CProc where
  params : List Bool
  /-- Is it a procedure of the module? -/
  global : Bool
  enter : List Sc
  body : CS
  /-- What is at the end: nothing; `__RETCHK`; what undoes `enter`. -/
  exit : Option (Option (List Sc))

/-! ### Its meaning -/

/-- The store: variables; pointers in VAR parameters; fields and links of records `_s`; the global pointers.  `none`: not set. -/
structure CSt where
  v : Addr → Int
  p : Nat → Nat → Option Addr
  sc : Nat → Nat → Option Addr
  lnk : Nat → Option Nat
  top : Nat → Option Nat
  next : Nat

/-- The place of a variable in activation `k`. -/
def L.addr (t : CSt) (k : Nat) : L → Option Addr
  | .glob x => some (.glob x)
  | .loc x => some (.loc k x)
  | .dloc x => t.p k x
  | .inter p x => (t.top p).bind fun j => t.sc j x

def CSt.put (t : CSt) (a : Addr) (n : Int) : CSt := { t with v := upd t.v a n }

def Sc.run (k : Nat) (t : CSt) : Sc → CSt
  | .bindV x => { t with sc := upd t.sc k (upd (t.sc k) x (some (.loc k x))) }
  | .bindP x => { t with sc := upd t.sc k (upd (t.sc k) x (t.p k x)) }
  | .save p => { t with lnk := upd t.lnk k (t.top p) }
  | .top p => { t with top := upd t.top p (some k) }
  | .unlink p => { t with top := upd t.top p (t.lnk k) }

def runs (k : Nat) (x : List Sc) (t : CSt) : CSt := x.foldl (Sc.run k) t

/-- Parameters of activation `k`. -/
def cstore (k : Nat) : Nat → List (Int ⊕ Addr) → CSt → CSt
  | _, [], t => t
  | x, .inl n :: as, t => cstore k (x + 1) as (t.put (.loc k x) n)
  | x, .inr a :: as, t => cstore k (x + 1) as { t with p := upd t.p k (upd (t.p k) x (some a)) }

def CArg.isRef : CArg → Bool
  | .val _ => false
  | .adr _ => true

mutual
def ceval (pr : List CProc) : Nat → Nat → CE → CSt → Option (Res × CSt)
  | 0, _, _, _ => none
  | f + 1, k, e, t => match e with
    | .int n => some (some (some n), t)
    | .lv l => (l.addr t k).map fun a => (some (some (t.v a)), t)
    | .bin g a b => match ceval pr f k a t with
      | some (some (some x), t) => match ceval pr f k b t with
        | some (some (some y), t) => some (some (some (g x y)), t)
        | some (none, t) => some (none, t)
        | _ => none
      | some (none, t) => some (none, t)
      | _ => none
    | .call p as => ccall pr f k p as t
    | .callv e as => match ceval pr f k e t with
      | some (some (some n), t) => if (pr[n.toNat]?.any fun q => q.global && q.params == as.map CArg.isRef) then ccall pr f k n.toNat as t else none
      | some (none, t) => some (none, t)
      | _ => none
def cargs (pr : List CProc) : Nat → Nat → List CArg → CSt → Option (Option (List (Int ⊕ Addr)) × CSt)
  | 0, _, _, _ => none
  | _ + 1, _, [], t => some (some [], t)
  | f + 1, k, .val e :: as, t => match ceval pr f k e t with
    | some (some (some n), t) => match cargs pr f k as t with
      | some (some vs, t) => some (some (.inl n :: vs), t)
      | r => r
    | some (none, t) => some (none, t)
    | _ => none
  | f + 1, k, .adr l :: as, t => match l.addr t k with
    | some a => match cargs pr f k as t with
      | some (some vs, t) => some (some (.inr a :: vs), t)
      | r => r
    | none => none
def ccall (pr : List CProc) : Nat → Nat → Nat → List CArg → CSt → Option (Res × CSt)
  | 0, _, _, _, _ => none
  | f + 1, k, p, as, t => match pr[p]? with
    | none => none
    | some q => match cargs pr f k as t with
      | some (some vs, t) =>
        match cexec pr f t.next q.body (runs t.next q.enter (cstore t.next 0 vs { t with next := t.next + 1 })) with
        | some (.norm, t') => match q.exit with
          | some (some x) => some (some none, runs t.next x t')
          | some none => some (none, t')
          | none => some (some none, t')
        | some (.ret v, t) => some (some v, t)
        | some (.trap, t) => some (none, t)
        | none => none
      | some (none, t) => some (none, t)
      | none => none
def cexec (pr : List CProc) : Nat → Nat → CS → CSt → Option (Out × CSt)
  | 0, _, _, _ => none
  | f + 1, k, c, t => match c with
    | .skip => some (.norm, t)
    | .assign l e => match ceval pr f k e t with
      | some (some (some n), t) => (l.addr t k).map fun a => (.norm, t.put a n)
      | some (none, t) => some (.trap, t)
      | _ => none
    | .seq a b => match cexec pr f k a t with
      | some (.norm, t) => cexec pr f k b t
      | r => r
    | .ifs e a b => match ceval pr f k e t with
      | some (some (some n), t) => cexec pr f k (if n ≠ 0 then a else b) t
      | some (none, t) => some (.trap, t)
      | _ => none
    | .whiles e a => match ceval pr f k e t with
      | some (some (some n), t) => if n = 0 then some (.norm, t) else match cexec pr f k a t with
        | some (.norm, t) => cexec pr f k (.whiles e a) t
        | r => r
      | some (none, t) => some (.trap, t)
      | _ => none
    | .call e => match ceval pr f k e t with
      | some (some _, t) => some (.norm, t)
      | some (none, t) => some (.trap, t)
      | none => none
    | .ret1 x none => some (.ret none, runs k x t)
    | .ret1 x (some e) => match ceval pr f k e (runs k x t) with
      | some (some (some n), t) => some (.ret (some n), t)
      | some (none, t) => some (.trap, t)
      | _ => none
    | .ret2 e x => match ceval pr f k e t with
      | some (some (some n), t) => some (.ret (some n), runs k x t)
      | some (none, t) => some (.trap, t)
      | _ => none
end

/-! ### The translation -/

mutual
/-- The variables in an expression. -/
def varsE : E → List Var
  | .int _ => []
  | .var v => [v]
  | .bin _ a b => varsE a ++ varsE b
  | .call _ as => varsAs as
  | .callv e as => varsE e ++ varsAs as
@[inherit_doc varsE]
def varsA : Arg → List Var
  | .val e => varsE e
  | .ref v => [v]
@[inherit_doc varsE]
def varsAs : List Arg → List Var
  | [] => []
  | a :: as => varsA a ++ varsAs as
end

@[inherit_doc varsE]
def varsS : S → List Var
  | .skip => []
  | .assign v e => v :: varsE e
  | .seq a b => varsS a ++ varsS b
  | .ifs e a b => varsE e ++ varsS a ++ varsS b
  | .whiles e a => varsE e ++ varsS a
  | .call e => varsE e
  | .ret none => []
  | .ret (some e) => varsE e

/-- `obj^.leaf`: the variable is not used in another procedure, src/compiler/OPP.Mod 46-49.  (A type test or guard by WITH is not
modelled.) -/
def varLeaf (pr : Prog) (p x : Nat) : Bool := !(pr.zipIdx.any fun q => q.2 != p && (varsS q.1.body).contains ⟨some p, x⟩)

/-- `scope^.leaf`: there are no procedures in it, src/compiler/OPV.Mod 119-122. -/
def scopeLeaf (pr : Prog) (p : Nat) : Bool := !(pr.any fun q => q.parent == some p)

/-- A VAR parameter, `obj^.mode = VarPar`. -/
def isVarPar (pr : Prog) (p x : Nat) : Bool := (pr[p]?.bind fun q => q.params[x]?).getD false

/-- `CompleteIdent` with the `*` of `design`, src/compiler/OPC.Mod 1099-1105 and src/compiler/OPV.Mod 321-322. -/
def compV (pr : Prog) (cur : Option Nat) (v : Var) : L :=
  match v.owner with
  | none => .glob v.idx
  | some p => if cur = some p then if isVarPar pr p v.idx then .dloc v.idx else .loc v.idx else .inter p v.idx

mutual
def compE (pr : Prog) (cur : Option Nat) : E → CE
  | .int n => .int n
  | .var v => .lv (compV pr cur v)
  | .bin f a b => .bin f (compE pr cur a) (compE pr cur b)
  | .call p as => .call p (compAs pr cur as)
  | .callv e as => .callv (compE pr cur e) (compAs pr cur as)
/-- `ActualPar`, src/compiler/OPV.Mod 402-420. -/
def compA (pr : Prog) (cur : Option Nat) : Arg → CArg
  | .val e => .val (compE pr cur e)
  | .ref v => .adr (compV pr cur v)
def compAs (pr : Prog) (cur : Option Nat) : List Arg → List CArg
  | [] => []
  | a :: as => compA pr cur a :: compAs pr cur as
end

/-- `ExitProc` before a return, src/compiler/OPC.Mod 1066-1072. -/
def exits (pr : Prog) (p : Nat) : List Sc := if scopeLeaf pr p then [] else [.unlink p]

/-- `stat`; RETURN: src/compiler/OPV.Mod 895-918 with `NeedsRetval`, src/compiler/OPC.Mod 956-959. -/
def compS (pr : Prog) (cur : Option Nat) : S → CS
  | .skip => .skip
  | .assign v e => .assign (compV pr cur v) (compE pr cur e)
  | .seq a b => .seq (compS pr cur a) (compS pr cur b)
  | .ifs e a b => .ifs (compE pr cur e) (compS pr cur a) (compS pr cur b)
  | .whiles e a => .whiles (compE pr cur e) (compS pr cur a)
  | .call e => .call (compE pr cur e)
  | .ret none => .ret1 ((cur.map (exits pr)).getD []) none
  | .ret (some e) =>
    if cur.any (fun p => !scopeLeaf pr p) then .ret2 (compE pr cur e) ((cur.map (exits pr)).getD [])
    else .ret1 ((cur.map (exits pr)).getD []) (some (compE pr cur e))

/-- `EnterProc`, src/compiler/OPC.Mod 1009-1057; arrays, with their copies and lengths, and records, with their tags, are not
modelled. -/
def enter (pr : Prog) (p : Nat) (q : Proc) : List Sc :=
  if scopeLeaf pr p then []
  else ((List.range q.params.length).filter fun x => !varLeaf pr p x).map (fun x => if isVarPar pr p x then .bindP x else .bindV x) ++
    ((List.range q.vars).filter fun x => !varLeaf pr p (q.params.length + x)).map (fun x => .bindV (q.params.length + x)) ++
    [.save p, .top p]

/-- There is a RETURN among the statements, not inside another one: no `ImplicitReturn`, src/compiler/OPV.Mod 722-726. -/
def hasRet : S → Bool
  | .ret _ => true
  | .seq a b => hasRet a || hasRet b
  | _ => false

/-- A procedure, src/compiler/OPV.Mod 782-790. -/
def compP (pr : Prog) (p : Nat) (q : Proc) : CProc where
  params := q.params
  global := q.parent.isNone
  enter := enter pr p q
  body := compS pr (some p) q.body
  exit := if hasRet q.body then none else if q.fn then some none else some (some (exits pr p))

/-- The program. -/
def comp (pr : Prog) : List CProc := pr.mapIdx fun p q => compP pr p q

/-! ### The names of the pointers -/

/-- The name under which the global pointer of a scope is declared, saved, set and used by `CompleteIdent`, src/compiler/OPC.Mod 26,
951, 1054-1055, 1070, 1102. -/
def pointerName (scope : List Char) : List Char := scope ++ ['_', 's']

/-- The name a type guard on a VAR record parameter of an enclosing procedure uses, src/compiler/OPV.Mod 364-366. -/
def guardPointerName (scope : List Char) : List Char := scope ++ ['_', '_', 'c', 'u', 'r', 'r']

/-! ### Programs after the scope rules -/

/-- The procedure `p` is `cur` or one around it. -/
inductive In (pr : Prog) : Option Nat → Nat → Prop
  | self {p : Nat} : In pr (some p) p
  | up {p r : Nat} {q : Proc} : pr[p]? = some q → In pr q.parent r → In pr (some p) r

/-- A variable visible in `cur`. -/
def okV (pr : Prog) (cur : Option Nat) (v : Var) : Prop :=
  ∀ p, v.owner = some p → In pr cur p ∧ ∃ q, pr[p]? = some q ∧ v.idx < q.params.length + q.vars

mutual
/-- Variables and procedures are visible, and there are actual parameters of the right kind. -/
def okE (pr : Prog) (cur : Option Nat) : E → Prop
  | .int _ => True
  | .var v => okV pr cur v
  | .bin _ a b => okE pr cur a ∧ okE pr cur b
  | .call p as => (∃ q, pr[p]? = some q ∧ (∀ r, q.parent = some r → In pr cur r) ∧ q.params = as.map Arg.isRef) ∧ okAs pr cur as
  | .callv e as => okE pr cur e ∧ okAs pr cur as
@[inherit_doc okE]
def okA (pr : Prog) (cur : Option Nat) : Arg → Prop
  | .val e => okE pr cur e
  | .ref v => okV pr cur v
@[inherit_doc okE]
def okAs (pr : Prog) (cur : Option Nat) : List Arg → Prop
  | [] => True
  | a :: as => okA pr cur a ∧ okAs pr cur as
end

/-- RETURN has a value in a function only, and is not in the module body. -/
def okS (pr : Prog) (cur : Option Nat) (fn : Bool) : S → Prop
  | .skip => True
  | .assign v e => okV pr cur v ∧ okE pr cur e
  | .seq a b => okS pr cur fn a ∧ okS pr cur fn b
  | .ifs e a b => okE pr cur e ∧ okS pr cur fn a ∧ okS pr cur fn b
  | .whiles e a => okE pr cur e ∧ okS pr cur fn a
  | .call e => okE pr cur e
  | .ret e => cur ≠ none ∧ e.isSome = fn ∧ ∀ x, e = some x → okE pr cur x

/-- A program after the scope rules; procedures are numbered in the order of their declaration. -/
def okProg (pr : Prog) : Prop :=
  ∀ p q, pr[p]? = some q → (∀ r, q.parent = some r → r < p) ∧ okS pr (some p) q.fn q.body

end Verif.Nest
