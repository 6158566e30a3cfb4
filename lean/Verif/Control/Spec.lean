import Verif.Control.Model

/-!
# Statements: the meaning of Oberon statements and of C statements

`F` bounds the number of iterations of each loop; `none`: a loop goes on after `F` iterations, or an action does not come back.
A statement ends with a result exactly if it does for some `F`, and then for all greater ones.
-/
namespace Verif.Control.Spec

open Verif.Control

variable {σ : Type}

/-! ## Oberon -/

/-- WHILE: `f` iterations at most. -/
def while' (c : σ → Option (Bool × σ)) (b : σ → Option (Res σ)) : Nat → σ → Option (Res σ)
  | 0, _ => none
  | f + 1, s =>
    (c s).bind fun (v, s) =>
      if v then (b s).bind fun r => match r with | .norm s => while' c b f s | r => some r
      else some (.norm s)

/-- REPEAT. -/
def repeat' (b : σ → Option (Res σ)) (c : σ → Option (Bool × σ)) : Nat → σ → Option (Res σ)
  | 0, _ => none
  | f + 1, s =>
    (b s).bind fun r => match r with
      | .norm s => (c s).bind fun (v, s) => if v then some (.norm s) else repeat' b c f s
      | r => some r

/-- LOOP: EXIT ends it. -/
def loop' (b : σ → Option (Res σ)) : Nat → σ → Option (Res σ)
  | 0, _ => none
  | f + 1, s => (b s).bind fun r => match r with
      | .norm s => loop' b f s
      | .exit s => some (.norm s)
      | r => some r

/-- FOR with the bound `e`, after `v := a`. -/
def for' (v : Var σ) (e step : Int) (b : σ → Option (Res σ)) : Nat → σ → Option (Res σ)
  | 0, _ => none
  | f + 1, s =>
    if (0 < step ∧ v.get s ≤ e) ∨ (step < 0 ∧ e ≤ v.get s) then
      (b s).bind fun r => match r with
        | .norm s => (v.arith (v.get s + step)).bind fun x => for' v e step b f (v.set x s)
        | r => some r
    else some (.norm s)

mutual
/-- The meaning of a statement. -/
def exec (F : Nat) : St σ → σ → Option (Res σ)
  | .act f, s => (f s).map .norm
  | .ifelse c els, s => execIfs F c (fun s => execs F els s) s
  | .wth c e els, s => execIfs F c (fun s => if e then execs F els s else some (.halt (-7) s)) s
  | .case x cs e els, s => (x s).bind fun (v, s) => execCases F v cs (fun s => if e then execs F els s else some (.halt (-4) s)) s
  | .whileDo c b, s => while' c (fun s => execs F b s) F s
  | .repeatUntil b c, s => repeat' (fun s => execs F b s) c F s
  | .loop b, s => loop' (fun s => execs F b s) F s
  | .exit, s => some (.exit s)
  | .ret f, s => (f s).map .ret
  | .halt n, s => some (.halt n s)
  | .forTo v a b step body, s =>
    (b.eval s).bind fun (e, s) => (a s).bind fun (x, s) => for' v e step (fun s => execs F body s) F (v.set x s)
/-- Statements one after the other. -/
def execs (F : Nat) : Ss σ → σ → Option (Res σ)
  | .nil, s => some (.norm s)
  | .cons x t, s => (exec F x s).bind fun r => match r with | .norm s => execs F t s | r => some r
/-- The first branch whose condition is true, or else `k`. -/
def execIfs (F : Nat) : Ifs σ → (σ → Option (Res σ)) → σ → Option (Res σ)
  | .nil, k, s => k s
  | .cons c b t, k, s => (c.eval s).bind fun (v, s) => if v then execs F b s else execIfs F t k s
/-- The branch with a label range that has `v`, or else `k`. -/
def execCases (F : Nat) (v : Int) : Cases σ → (σ → Option (Res σ)) → σ → Option (Res σ)
  | .nil, k, s => k s
  | .cons l b t, k, s => if ∃ r ∈ l, r.1 ≤ v ∧ v ≤ r.2 then execs F b s else execCases F v t k s
end

/-! ## C -/

def cwhile (c : σ → Option (Bool × σ)) (b : σ → Option (CRes σ)) : Nat → σ → Option (CRes σ)
  | 0, _ => none
  | f + 1, s =>
    (c s).bind fun (v, s) =>
      if v then (b s).bind fun r => match r with
        | .norm s => cwhile c b f s
        | .brk s => some (.norm s)
        | r => some r
      else some (.norm s)

/-- do b while (!c) -/
def cdo (b : σ → Option (CRes σ)) (c : σ → Option (Bool × σ)) : Nat → σ → Option (CRes σ)
  | 0, _ => none
  | f + 1, s =>
    (b s).bind fun r => match r with
      | .norm s => (c s).bind fun (v, s) => if v then some (.norm s) else cdo b c f s
      | .brk s => some (.norm s)
      | r => some r

/-- for (;;) b -/
def cforever (b : σ → Option (CRes σ)) : Nat → σ → Option (CRes σ)
  | 0, _ => none
  | f + 1, s => (b s).bind fun r => match r with
      | .norm s => cforever b f s
      | .brk s => some (.norm s)
      | r => some r

/-- `break` ends a switch. -/
def unbreak : CRes σ → CRes σ
  | .brk s => .norm s
  | r => r

/-! A `goto` goes to a label behind it in a block around it; labels in a function are different (`C48_labels`), so there is
no other meaning when it is found there.  In `csems`, `m = some n`: looking for the label `n`. -/
mutual
def csem (F : Nat) : CS σ → σ → Option (CRes σ)
  | .act f, s => (f s).map .norm
  | .ifs c els, s => csemIfs F c (fun s => csems F none els s) s
  | .switch x g d, s => (x s).bind fun (v, s) => (csemGs F v false g (fun s => csems F none d s) s).map unbreak
  | .while c b, s => cwhile c (fun s => csems F none b s) F s
  | .doWhileNot b c, s => cdo (fun s => csems F none b s) c F s
  | .forever b, s => cforever (fun s => csems F none b s) F s
  | .brk, s => some (.brk s)
  | .goto n, s => some (.goto n s)
  | .label _, s => some (.norm s)
  | .ret f, s => (f s).map .ret
  | .halt n, s => some (.halt n s)
def csems (F : Nat) (m : Option Nat) : Css σ → σ → Option (CRes σ)
  | .nil, s => match m with | none => some (.norm s) | some n => some (.goto n s)
  | .cons x t, s =>
    match m with
    | none =>
      (csem F x s).bind fun r => match r with
        | .norm s => csems F none t s
        | .goto n s => csems F (some n) t s
        | r => some r
    | some n =>
      match x with
      | .label k => csems F (if k = n then none else some n) t s
      | _ => csems F (some n) t s
def csemIfs (F : Nat) : CIfs σ → (σ → Option (CRes σ)) → σ → Option (CRes σ)
  | .nil, k, s => k s
  | .cons c b t, k, s => (c.eval s).bind fun (v, s) => if v then csems F none b s else csemIfs F t k s
/-- The groups of a switch: from the one with the label `v` on, falling through to the next ones; at the end `default`. -/
def csemGs (F : Nat) (v : Int) (hit : Bool) : CGs σ → (σ → Option (CRes σ)) → σ → Option (CRes σ)
  | .nil, k, s => k s
  | .cons l b t, k, s =>
    if hit ∨ v ∈ l then
      (csems F none b s).bind fun r => match r with
        | .norm s => csemGs F v true t k s
        | r => some r
    else csemGs F v hit t k s
end

/-! The labels in a C function. -/
mutual
def labels : CS σ → List Nat
  | .label n => [n]
  | .ifs c els => labelsIfs c ++ labelss els
  | .switch _ g d => labelsGs g ++ labelss d
  | .while _ b => labelss b
  | .doWhileNot b _ => labelss b
  | .forever b => labelss b
  | _ => []
def labelss : Css σ → List Nat
  | .nil => []
  | .cons x t => labels x ++ labelss t
def labelsIfs : CIfs σ → List Nat
  | .nil => []
  | .cons _ b t => labelss b ++ labelsIfs t
def labelsGs : CGs σ → List Nat
  | .nil => []
  | .cons _ b t => labelss b ++ labelsGs t
end

/-! CASE labels that fit in 32 bits, with the limits in order. -/
mutual
def Fits : St σ → Prop
  | .ifelse c els => FitsIfs c ∧ Fitss els
  | .wth c _ els => FitsIfs c ∧ Fitss els
  | .case _ cs _ els => FitsCases cs ∧ Fitss els
  | .whileDo _ b => Fitss b
  | .repeatUntil b _ => Fitss b
  | .loop b => Fitss b
  | .forTo _ _ _ _ b => Fitss b
  | _ => True
def Fitss : Ss σ → Prop
  | .nil => True
  | .cons x t => Fits x ∧ Fitss t
def FitsIfs : Ifs σ → Prop
  | .nil => True
  | .cons _ b t => Fitss b ∧ FitsIfs t
def FitsCases : Cases σ → Prop
  | .nil => True
  | .cons l b t => (∀ r ∈ l, -2 ^ 31 ≤ r.1 ∧ r.1 < 2 ^ 31 ∧ -2 ^ 31 ≤ r.2 ∧ r.2 < 2 ^ 31) ∧ Fitss b ∧ FitsCases t
end

/-- The result of a C function body in terms of Oberon; a `break` or `goto` that leaves it has none. -/
def result : CRes (T σ) → Option (Res σ)
  | .norm s => some (.norm s.1)
  | .ret s => some (.ret s.1)
  | .halt n s => some (.halt n s.1)
  | _ => none

/-- Two ranges share a number. -/
def Share (a b : Int × Int) : Prop := ∃ v, (a.1 ≤ v ∧ v ≤ a.2) ∧ (b.1 ≤ v ∧ v ≤ b.2)

/-! The `goto` statements in a C function. -/
mutual
def gotos : CS σ → List Nat
  | .goto n => [n]
  | .ifs c els => gotosIfs c ++ gotoss els
  | .switch _ g d => gotosGs g ++ gotoss d
  | .while _ b => gotoss b
  | .doWhileNot b _ => gotoss b
  | .forever b => gotoss b
  | _ => []
def gotoss : Css σ → List Nat
  | .nil => []
  | .cons x t => gotos x ++ gotoss t
def gotosIfs : CIfs σ → List Nat
  | .nil => []
  | .cons _ b t => gotoss b ++ gotosIfs t
def gotosGs : CGs σ → List Nat
  | .nil => []
  | .cons _ b t => gotoss b ++ gotosGs t
end

/-! There is a `break` that is not in a loop or a switch. -/
mutual
def freeBreak : CS σ → Prop
  | .brk => True
  | .ifs c els => freeBreakIfs c ∨ freeBreaks els
  | _ => False
def freeBreaks : Css σ → Prop
  | .nil => False
  | .cons x t => freeBreak x ∨ freeBreaks t
def freeBreakIfs : CIfs σ → Prop
  | .nil => False
  | .cons _ b t => freeBreaks b ∨ freeBreakIfs t
end

/-- The label ranges of a CASE statement as written. -/
def ranges : Cases σ → List (Int × Int)
  | .nil => []
  | .cons l _ t => l ++ ranges t

/-- The labels of a C switch. -/
def switchLabels : CGs σ → List Int
  | .nil => []
  | .cons l _ t => l ++ switchLabels t

/-- No branch of a CASE statement, taken alone, has an error. -/
def BranchesOk (d : Nat) : Cases σ → Prop
  | .nil => True
  | .cons _ b t => (∀ k, (parses d k b).2.2 = []) ∧ BranchesOk d t

/-- All numbers in the ranges are 32-bit numbers. -/
def In32 (rs : List (Int × Int)) : Prop := ∀ r ∈ rs, -2 ^ 31 ≤ r.1 ∧ r.1 < 2 ^ 31 ∧ -2 ^ 31 ≤ r.2 ∧ r.2 < 2 ^ 31

/-- Label ranges a CASE statement may have: in order, without common numbers, at most 128, and spanning at most 512 numbers. -/
structure Legal (rs : List (Int × Int)) : Prop where
  ordered : ∀ r ∈ rs, r.1 ≤ r.2
  disjoint : rs.Pairwise fun a b => ¬ Share a b
  count : rs.length ≤ 128
  span : ∀ a ∈ rs, ∀ b ∈ rs, a.2 - b.1 ≤ 512

/-- How often FOR executes its body. -/
def forCount (a b step : Int) : Nat :=
  if 0 < step then ((b - a) / step + 1).toNat else ((a - b) / (-step) + 1).toNat

/-- FOR with a body that does `g`: the state after it. -/
def forEnd (v : Var σ) (a step : Int) (g : σ → σ) (n : Nat) (s : σ) : σ :=
  (List.range n).foldl (fun s (i : Nat) => v.set (a + (i + 1) * step) (g s)) (v.set a s)

/-- No condition is a constant. -/
def AllDyn : Ifs σ → Prop
  | .nil => True
  | .cons c _ t => (∃ f, c = .dyn f) ∧ AllDyn t

/-- The branches of an IF. -/
def branches : Ifs σ → List (Ss σ)
  | .nil => []
  | .cons _ b t => b :: branches t

end Verif.Control.Spec
