/-!
# Programs with nested procedures

A small language with procedures declared inside procedures, variables of enclosing procedures, recursion, value and VAR
parameters, procedure variables and RETURN, and its meaning: a procedure is called in the environment of its declaration.
-/
namespace Verif.Nest

/-- A variable, after the scope rules (C15): the module (`none`) or the procedure that declares it, and its number there.
Parameters come first. -/
structure Var where
  owner : Option Nat
  idx : Nat
deriving DecidableEq, Repr

mutual
/-- Expressions.  The operations do not matter here. -/
inductive E where
  | int (n : Int)
  | var (v : Var)
  | bin (f : Int → Int → Int) (a b : E)
  /-- A call of procedure number `p`. -/
  | call (p : Nat) (as : List Arg)
  /-- A call of a procedure variable; its value is the number of a procedure of the module, with such parameters
  (`CheckProc`, src/compiler/OPB.Mod 406-416). -/
  | callv (e : E) (as : List Arg)
/-- Actual parameters: a value, or a variable for a VAR parameter. -/
inductive Arg where
  | val (e : E)
  | ref (v : Var)
end

/-- Statements. -/
inductive S where
  | skip
  | assign (v : Var) (e : E)
  | seq (a b : S)
  | ifs (e : E) (a b : S)
  | whiles (e : E) (a : S)
  /-- A call as a statement. -/
  | call (e : E)
  | ret (e : Option E)

/-- Is it a variable for a VAR parameter? -/
def Arg.isRef : Arg → Bool
  | .val _ => false
  | .ref _ => true

/-- A procedure. -/
structure Proc where
  /-- The procedure in which it is declared; `none`: the module. -/
  parent : Option Nat
  /-- Its parameters: is it a VAR parameter? -/
  params : List Bool
  /-- The number of its variables. -/
  vars : Nat
  /-- Has it a result? -/
  fn : Bool
  body : S

/-- A program: the procedures by number. -/
abbrev Prog := List Proc

/-! ### Meaning -/

/-- A place: a global variable, or a variable of the activation with this number. -/
inductive Addr where
  | glob (x : Nat)
  | loc (k x : Nat)
deriving DecidableEq, Repr

/-- What is stored, and the number of activations so far. -/
structure St where
  mem : Addr → Int
  next : Nat

def upd {α : Type} [DecidableEq α] {β : Type} (m : α → β) (a : α) (v : β) : α → β := fun b => if b = a then v else m b

def St.put (s : St) (a : Addr) (v : Int) : St := { s with mem := upd s.mem a v }

/-- The environment of a procedure: from the inside outwards, the procedures around, each with the places of its variables. -/
abbrev Env := List (Nat × (Nat → Addr))

/-- The place a variable denotes. -/
def place (env : Env) (v : Var) : Option Addr :=
  match v.owner with
  | none => some (.glob v.idx)
  | some p => (env.find? (·.1 == p)).map fun b => b.2 v.idx

/-- The environment in which a procedure visible here was declared. -/
def outside (env : Env) : Option Nat → Env
  | none => []
  | some q => env.dropWhile (·.1 != q)

/-- The places of the parameters and variables of activation `k`: those of VAR parameters are the actual parameters'. -/
def bindings (k : Nat) (as : List (Int ⊕ Addr)) (x : Nat) : Addr :=
  match as[x]? with
  | some (.inr a) => a
  | _ => .loc k x

/-- Value parameters get their values. -/
def store (k : Nat) : Nat → List (Int ⊕ Addr) → St → St
  | _, [], s => s
  | x, .inl v :: as, s => store k (x + 1) as (s.put (.loc k x) v)
  | x, .inr _ :: as, s => store k (x + 1) as s

/-- How a statement ends. -/
inductive Out where
  | norm
  | ret (v : Option Int)
  /-- A function without RETURN stops the program. -/
  | trap
deriving DecidableEq

/-- What an expression gives: a value (none for a proper procedure), or a stop. -/
abbrev Res := Option (Option Int)

mutual
/-- The value of an expression; the first number bounds the steps.  `none`: more steps are needed, or the program is wrong. -/
def eval (pr : Prog) : Nat → Env → E → St → Option (Res × St)
  | 0, _, _, _ => none
  | f + 1, env, e, s => match e with
    | .int n => some (some (some n), s)
    | .var v => (place env v).map fun a => (some (some (s.mem a)), s)
    | .bin g a b => match eval pr f env a s with
      | some (some (some x), s) => match eval pr f env b s with
        | some (some (some y), s) => some (some (some (g x y)), s)
        | some (none, s) => some (none, s)
        | _ => none
      | some (none, s) => some (none, s)
      | _ => none
    | .call p as => call pr f env p as s
    | .callv e as => match eval pr f env e s with
      | some (some (some n), s) => if (pr[n.toNat]?.any fun q => q.parent.isNone && q.params == as.map Arg.isRef) then call pr f env n.toNat as s else none
      | some (none, s) => some (none, s)
      | _ => none
/-- The actual parameters. -/
def args (pr : Prog) : Nat → Env → List Arg → St → Option (Option (List (Int ⊕ Addr)) × St)
  | 0, _, _, _ => none
  | _ + 1, _, [], s => some (some [], s)
  | f + 1, env, .val e :: as, s => match eval pr f env e s with
    | some (some (some n), s) => match args pr f env as s with
      | some (some vs, s) => some (some (.inl n :: vs), s)
      | r => r
    | some (none, s) => some (none, s)
    | _ => none
  | f + 1, env, .ref v :: as, s => match place env v with
    | some a => match args pr f env as s with
      | some (some vs, s) => some (some (.inr a :: vs), s)
      | r => r
    | none => none
/-- A call: a new activation, in the environment of the declaration. -/
def call (pr : Prog) : Nat → Env → Nat → List Arg → St → Option (Res × St)
  | 0, _, _, _, _ => none
  | f + 1, env, p, as, s => match pr[p]? with
    | none => none
    | some q => match args pr f env as s with
      | some (some vs, s) =>
        let k := s.next
        match exec pr f ((p, bindings k vs) :: outside env q.parent) q.body (store k 0 vs { s with next := k + 1 }) with
        | some (.norm, s) => if q.fn then some (none, s) else some (some none, s)
        | some (.ret v, s) => some (some v, s)
        | some (.trap, s) => some (none, s)
        | none => none
      | some (none, s) => some (none, s)
      | none => none
/-- A statement. -/
def exec (pr : Prog) : Nat → Env → S → St → Option (Out × St)
  | 0, _, _, _ => none
  | f + 1, env, c, s => match c with
    | .skip => some (.norm, s)
    | .assign v e => match eval pr f env e s with
      | some (some (some n), s) => (place env v).map fun a => (.norm, s.put a n)
      | some (none, s) => some (.trap, s)
      | _ => none
    | .seq a b => match exec pr f env a s with
      | some (.norm, s) => exec pr f env b s
      | r => r
    | .ifs e a b => match eval pr f env e s with
      | some (some (some n), s) => exec pr f env (if n ≠ 0 then a else b) s
      | some (none, s) => some (.trap, s)
      | _ => none
    | .whiles e a => match eval pr f env e s with
      | some (some (some n), s) => if n = 0 then some (.norm, s) else match exec pr f env a s with
        | some (.norm, s) => exec pr f env (.whiles e a) s
        | r => r
      | some (none, s) => some (.trap, s)
      | _ => none
    | .call e => match eval pr f env e s with
      | some (some _, s) => some (.norm, s)
      | some (none, s) => some (.trap, s)
      | none => none
    | .ret none => some (.ret none, s)
    | .ret (some e) => match eval pr f env e s with
      | some (some (some n), s) => some (.ret (some n), s)
      | some (none, s) => some (.trap, s)
      | _ => none
end

end Verif.Nest
