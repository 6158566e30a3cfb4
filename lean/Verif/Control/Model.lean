/-!
# Statements: src/compiler/OPP.Mod (StatSeq, CaseLabelList, CasePart), OPB.Mod (OptIf), OPV.Mod (stat, IfStat, CaseStat)

Statement sequences as written, the tree built by the parser, and the C statements generated from it.  Assignments, calls and
expressions are arbitrary functions on a state `σ`; `none`: the program does not come back from them.  Errors in types, in
declarations and in the syntax are not modelled.
-/
namespace Verif.Control

/-- How a statement ends: at its end, by EXIT, by RETURN, by a trap or HALT. -/
inductive Res (σ : Type) where
  | norm (s : σ)
  | exit (s : σ)
  | ret (s : σ)
  | halt (n : Int) (s : σ)

/-- A condition in IF: a constant, or something to be evaluated. -/
inductive Cond (σ : Type) where
  | const (b : Bool)
  | dyn (f : σ → Option (Bool × σ))

def Cond.eval {σ : Type} : Cond σ → σ → Option (Bool × σ)
  | .const b, s => some (b, s)
  | .dyn f, s => f s

/-- The bound in FOR: a constant, or something to be evaluated. -/
inductive Expr (σ : Type) where
  | const (x : Int)
  | dyn (f : σ → Option (Int × σ))

def Expr.eval {σ : Type} : Expr σ → σ → Option (Int × σ)
  | .const x, s => some (x, s)
  | .dyn f, s => f s

/-- An integer variable.  `arith`: what C gives for an operation on its type with the exact result. -/
structure Var (σ : Type) where
  get : σ → Int
  set : Int → σ → σ
  arith : Int → Option Int

/-! Statements.  The same type is used for the statements as written and for the nodes of the tree (OPT.Mod: Nassign and Ncall
`act`, Nifelse, Nwith, Ncase, Nwhile, Nrepeat, Nloop, Nexit, Nreturn, Ntrap); the tree has no FOR.  A CASE label is a range of
numbers; in the tree `intval` and `intval2`.  The flag in CASE and WITH: there is an ELSE. -/
mutual
inductive St (σ : Type) where
  | act (f : σ → Option σ)
  | ifelse (c : Ifs σ) (els : Ss σ)
  | wth (c : Ifs σ) (e : Bool) (els : Ss σ)
  | case (x : σ → Option (Int × σ)) (cs : Cases σ) (e : Bool) (els : Ss σ)
  | whileDo (c : σ → Option (Bool × σ)) (b : Ss σ)
  | repeatUntil (b : Ss σ) (c : σ → Option (Bool × σ))
  | loop (b : Ss σ)
  | exit
  | ret (f : σ → Option σ)
  | halt (n : Int)
  | forTo (v : Var σ) (a : σ → Option (Int × σ)) (b : Expr σ) (step : Int) (body : Ss σ)
inductive Ss (σ : Type) where
  | nil
  | cons (s : St σ) (t : Ss σ)
inductive Ifs (σ : Type) where
  | nil
  | cons (c : Cond σ) (b : Ss σ) (t : Ifs σ)
inductive Cases (σ : Type) where
  | nil
  | cons (l : List (Int × Int)) (b : Ss σ) (t : Cases σ)
end

def Ss.append {σ : Type} : Ss σ → Ss σ → Ss σ
  | .nil, b => b
  | .cons s t, b => .cons s (t.append b)

/-! ## The parser -/

def upd {α : Type} (f : Nat → α) (i : Nat) (x : α) : Nat → α := fun j => if j = i then x else f j

/-- `OPM.Longint`, OPM.Mod 171: the low 32 bits. -/
def longint (x : Int) : Int := (x + 2 ^ 31) % 2 ^ 32 - 2 ^ 31

/-- The inner loop of `CaseLabelList`, OPP.Mod 693-700: the table, the place for the range `x..y`, and whether error 62 is
reported. -/
def shift (tab : Nat → Int × Int) (x y : Int) : Nat → (Nat → Int × Int) × Nat × Bool
  | 0 => (tab, 0, false)
  | i + 1 =>
    if (tab i).1 ≤ y then (tab, i + 1, decide (x ≤ (tab i).2))
    else shift (upd tab (i + 1) (tab i)) x y i

/-- Entering a range in the table, OPP.Mod 691-704.  The last component: the errors reported. -/
def enter (tab : Nat → Int × Int) (n : Nat) (x y : Int) : (Nat → Int × Int) × Nat × List Nat :=
  if n < 128 then
    let (tab, i, dup) := shift tab x y n
    (upd tab i (x, y), n + 1, if dup then [62] else [])
  else (tab, n, [213])

/-- `CaseLabelList`, OPP.Mod 673-710, without the checks of types: the label nodes, the table and the errors. -/
def labelList : List (Int × Int) → (Nat → Int × Int) → Nat → List (Int × Int) × (Nat → Int × Int) × Nat × List Nat
  | [], tab, n => ([], tab, n, [])
  | (l, h) :: t, tab, n =>
    let xval := longint l
    let (yval, e1) := if longint h < xval then (xval, [63]) else (longint h, [])
    let (tab, n, e2) := enter tab n xval yval
    let (ls, tab, n, e3) := labelList t tab n
    ((l, yval) :: ls, tab, n, e1 ++ e2 ++ e3)

/-- The check of the range, OPP.Mod 733-736; LONGINT arithmetic in the compiler wraps. -/
def caseRange (tab : Nat → Int × Int) (n : Nat) : List Nat :=
  if 0 < n then (if 512 < longint ((tab (n - 1)).2 - (tab 0).1) then [209] else []) else []

/-- The second loop of `OptIf`, OPB.Mod 80-89. -/
def optRest {σ : Type} : Ifs σ → Ss σ → Ifs σ × Ss σ
  | .nil, els => (.nil, els)
  | .cons c b t, els =>
    match c with
    | .const true => (.nil, b)
    | .const false => optRest t els
    | .dyn f => let (t, els) := optRest t els; (.cons (.dyn f) b t, els)

/-- `OptIf`, OPB.Mod 70-90; the first loop.  The result is a sequence: `x` may become a branch. -/
def optIf {σ : Type} : Ifs σ → Ss σ → Ss σ
  | .nil, els => els
  | .cons c b t, els =>
    match c with
    | .const true => b
    | .const false => optIf t els
    | .dyn f => let (t, els) := optRest t els; .cons (.ifelse (.cons (.dyn f) b t) els) .nil

/-- The state of the generated program: the variables of the source and the variables `@for`. -/
abbrev T (σ : Type) := σ × (Nat → Int)

def liftA {σ : Type} (f : σ → Option σ) (s : T σ) : Option (T σ) := (f s.1).map fun x => (x, s.2)

def liftE {σ α : Type} (f : σ → Option (α × σ)) (s : T σ) : Option (α × T σ) := (f s.1).map fun x => (x.1, (x.2, s.2))

def liftC {σ : Type} : Cond σ → Cond (T σ)
  | .const b => .const b
  | .dyn f => .dyn (liftE f)

/-- The condition `v <= e` or `v >= e`, OPP.Mod 829-832. -/
def forCond {σ : Type} (v : Var σ) (step : Int) (e : T σ → Int) (s : T σ) : Option (Bool × T σ) :=
  some (if 0 < step then decide (v.get s.1 ≤ e s) else decide (e s ≤ v.get s.1), s)

/-- `v := a`, OPP.Mod 811-812. -/
def assignV {σ : Type} (v : Var σ) (a : σ → Option (Int × σ)) (s : T σ) : Option (T σ) := (a s.1).map fun x => (v.set x.1 x.2, s.2)

/-- `@for := b`, OPP.Mod 823. -/
def assignT {σ : Type} (k : Nat) (b : σ → Option (Int × σ)) (s : T σ) : Option (T σ) := (b s.1).map fun x => (x.2, upd s.2 k x.1)

/-- INC(v, step), OPP.Mod 835. -/
def incV {σ : Type} (v : Var σ) (step : Int) (s : T σ) : Option (T σ) := (v.arith (v.get s.1 + step)).map fun x => (v.set x s.1, s.2)

/-! The parser, OPP.Mod 712-894: `d` is LoopLevel, `k` the number of variables `@for` made so far.  The results: the tree, the
new number, the errors. -/
mutual
/-- A statement: `x` in the loop of `StatSeq`. -/
def parse {σ : Type} (d k : Nat) : St σ → Ss (T σ) × Nat × List Nat
  | .act f => (.cons (.act (liftA f)) .nil, k, [])
  | .ifelse c els =>
    -- 788-797
    let (c, k, e1) := parseIfs d k c
    let (els, k, e2) := parses d k els
    (optIf c els, k, e1 ++ e2)
  | .wth c e els =>
    -- 846-875
    let (c, k, e1) := parseIfs d k c
    let (els, k, e2) := parses d k els
    (.cons (.wth c e els) .nil, k, e1 ++ e2)
  | .case x cs e els =>
    -- CasePart, 716-747
    let (cs, tab, n, k, e1) := parseCases d k (fun _ => (0, 0)) 0 cs
    let (els, k, e2) := parses d k els
    (.cons (.case (liftE x) cs e els) .nil, k, e1 ++ caseRange tab n ++ e2)
  | .whileDo c b =>
    -- 799-801
    let (b, k, e) := parses d k b
    (.cons (.whileDo (liftE c) b) .nil, k, e)
  | .repeatUntil b c =>
    -- 801-806
    let (b, k, e) := parses d k b
    (.cons (.repeatUntil b (liftE c)) .nil, k, e)
  | .loop b =>
    -- 843-845
    let (b, k, e) := parses (d + 1) k b
    (.cons (.loop b) .nil, k, e)
  | .exit => (.cons .exit .nil, k, if d = 0 then [46] else []) -- 876-880
  | .ret f => (.cons (.ret (liftA f)) .nil, k, [])
  | .halt n => (.cons (.halt n) .nil, k, [])
  | .forTo v a b step body =>
    -- 807-842
    match b with
    | .const e =>
      let (body, k, es) := parses d k body
      (.cons (.act (assignV v a)) (.cons (.whileDo (forCond v step fun _ => e) (body.append (.cons (.act (incV v step)) .nil))) .nil),
        k, (if step = 0 then [63] else []) ++ es)
    | .dyn f =>
      let (body, k', es) := parses d (k + 1) body
      (.cons (.act (assignT k f)) (.cons (.act (assignV v a))
        (.cons (.whileDo (forCond v step fun s => s.2 k) (body.append (.cons (.act (incV v step)) .nil))) .nil)),
        k', (if step = 0 then [63] else []) ++ es)
/-- `StatSeq`, 712-894. -/
def parses {σ : Type} (d k : Nat) : Ss σ → Ss (T σ) × Nat × List Nat
  | .nil => (.nil, k, [])
  | .cons s t =>
    let (s, k, e1) := parse d k s
    let (t, k, e2) := parses d k t
    (s.append t, k, e1 ++ e2)
def parseIfs {σ : Type} (d k : Nat) : Ifs σ → Ifs (T σ) × Nat × List Nat
  | .nil => (.nil, k, [])
  | .cons c b t =>
    let (b, k, e1) := parses d k b
    let (t, k, e2) := parseIfs d k t
    (.cons (liftC c) b t, k, e1 ++ e2)
/-- The loop of `CasePart`, 725-732. -/
def parseCases {σ : Type} (d k : Nat) (tab : Nat → Int × Int) (n : Nat) : Cases σ → Cases (T σ) × (Nat → Int × Int) × Nat × Nat × List Nat
  | .nil => (.nil, tab, n, k, [])
  | .cons l b t =>
    let (l, tab, n, e0) := labelList l tab n
    let (b, k, e1) := parses d k b
    let (t, tab, n, k, e2) := parseCases d k tab n t
    (.cons l b t, tab, n, k, e0 ++ e1 ++ e2)
end

/-! ## C -/

/-- How a C statement ends. -/
inductive CRes (σ : Type) where
  | norm (s : σ)
  | brk (s : σ)
  | goto (n : Nat) (s : σ)
  | ret (s : σ)
  | halt (n : Int) (s : σ)

/-! C statements, as generated: `if` chains with a last block, `switch` with groups of labels and the group of `default` at
the end, `while`, `do while (!c)`, `for (;;)`, `break`, `goto`, labels, `return`, and __HALT. -/
mutual
inductive CS (σ : Type) where
  | act (f : σ → Option σ)
  | ifs (c : CIfs σ) (els : Css σ)
  | switch (x : σ → Option (Int × σ)) (g : CGs σ) (dflt : Css σ)
  | while (c : σ → Option (Bool × σ)) (b : Css σ)
  | doWhileNot (b : Css σ) (c : σ → Option (Bool × σ))
  | forever (b : Css σ)
  | brk
  | goto (n : Nat)
  | label (n : Nat)
  | ret (f : σ → Option σ)
  | halt (n : Int)
inductive Css (σ : Type) where
  | nil
  | cons (s : CS σ) (t : Css σ)
inductive CIfs (σ : Type) where
  | nil
  | cons (c : Cond σ) (b : Css σ) (t : CIfs σ)
inductive CGs (σ : Type) where
  | nil
  | cons (l : List Int) (b : Css σ) (t : CGs σ)
end

def Css.append {σ : Type} : Css σ → Css σ → Css σ
  | .nil, b => b
  | .cons s t, b => .cons s (t.append b)

/-- The labels generated for a range, OPV.Mod 697-704. -/
def expand (l : Int × Int) : List Int := (List.range (l.2 - l.1 + 1).toNat).map fun (i : Nat) => l.1 + i

/-! Code generation, OPV.Mod 649-720 and 770-926: `lv` and `lab` are `exit.level` and `exit.label` (`none`: -1), `nof` is
`nofExitLabels`.  The results: the C statements, the new label, the new number. -/
mutual
/-- A pass of the loop in `stat`.  A RETURN is one C statement here; FOR is an unhandled case. -/
def emit {σ : Type} (lv : Nat) (lab : Option Nat) (nof : Nat) : St σ → Css σ × Option Nat × Nat
  | .act f => (.cons (.act f) .nil, lab, nof)
  | .ifelse c els =>
    -- IfStat(n, FALSE), 649-681
    let (c, lab, nof) := emitIfs lv lab nof c
    let (els, lab, nof) := emits lv lab nof els
    (.cons (.ifs c els) .nil, lab, nof)
  | .wth c e els =>
    -- IfStat(n, n^.subcl = 0), 649-681; 231-232 of SYSTEM.h
    let (c, lab, nof) := emitIfs lv lab nof c
    if e then
      let (els, lab, nof) := emits lv lab nof els
      (.cons (.ifs c els) .nil, lab, nof)
    else (.cons (.ifs c (.cons (.halt (-7)) .nil)) .nil, lab, nof)
  | .case x cs e els =>
    -- 877 and CaseStat, 683-720
    let (g, lab, nof) := emitCases (lv + 1) lab nof cs
    if e then
      let (els, lab, nof) := emits (lv + 1) lab nof els
      (.cons (.switch x g (els.append (.cons .brk .nil))) .nil, lab, nof)
    else (.cons (.switch x g (.cons (.halt (-4)) .nil)) .nil, lab, nof)
  | .whileDo c b =>
    -- 878-880
    let (b, lab, nof) := emits (lv + 1) lab nof b
    (.cons (.while c b) .nil, lab, nof)
  | .repeatUntil b c =>
    -- 881-883
    let (b, lab, nof) := emits (lv + 1) lab nof b
    (.cons (.doWhileNot b c) .nil, lab, nof)
  | .loop b =>
    -- 884-889
    let (b, l, nof) := emits 0 none nof b
    (.cons (.forever b) (match l with | some n => .cons (.label n) .nil | none => .nil), lab, nof)
  | .exit =>
    -- 890-894
    if lv = 0 then (.cons .brk .nil, lab, nof)
    else
      match lab with
      | some n => (.cons (.goto n) .nil, lab, nof)
      | none => (.cons (.goto nof) .nil, some nof, nof + 1)
  | .ret f => (.cons (.ret f) .nil, lab, nof)
  | .halt n => (.cons (.halt n) .nil, lab, nof)
  | .forTo _ _ _ _ _ => (.nil, lab, nof)
def emits {σ : Type} (lv : Nat) (lab : Option Nat) (nof : Nat) : Ss σ → Css σ × Option Nat × Nat
  | .nil => (.nil, lab, nof)
  | .cons s t =>
    let (s, lab, nof) := emit lv lab nof s
    let (t, lab, nof) := emits lv lab nof t
    (s.append t, lab, nof)
def emitIfs {σ : Type} (lv : Nat) (lab : Option Nat) (nof : Nat) : Ifs σ → CIfs σ × Option Nat × Nat
  | .nil => (.nil, lab, nof)
  | .cons c b t =>
    let (b, lab, nof) := emits lv lab nof b
    let (t, lab, nof) := emitIfs lv lab nof t
    (.cons c b t, lab, nof)
/-- The loop in `CaseStat`, 690-711. -/
def emitCases {σ : Type} (lv : Nat) (lab : Option Nat) (nof : Nat) : Cases σ → CGs σ × Option Nat × Nat
  | .nil => (.nil, lab, nof)
  | .cons l b t =>
    let (b, lab, nof) := emits lv lab nof b
    let (t, lab, nof) := emitCases lv lab nof t
    (.cons (l.flatMap expand) (b.append (.cons .brk .nil)) t, lab, nof)
end

/-- A body: what the parser and the code generator make of a statement sequence. -/
def compile {σ : Type} (s : Ss σ) : Css (T σ) × List Nat :=
  let (t, _, e) := parses 0 0 s
  ((emits 0 none 0 t).1, e)

end Verif.Control
