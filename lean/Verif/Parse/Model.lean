import Verif.Parse.Syntax

/-!
# The parser

src/compiler/OPP.Mod, with its recovery from errors.  Types of operands, scopes and other semantic checks are left out, and
with them their error messages; where the parser asks the symbol table how to go on, the answer is part of the input: with an
identifier, whether it denotes a module, and with an opening parenthesis, whether the designator before it denotes a variable
not of a procedure type.  The input is the list of symbols that `OPS.Get` delivers (C43).
-/
namespace Verif.Parse
open Verif.Scanner (Tok)

/-- A symbol with what the symbol table says there. -/
abbrev T := Tok × Bool

/-- The number of a symbol, src/compiler/OPS.Mod 28-40; `OPS.Get` delivers identifiers, numbers and strings with their
attributes. -/
def code : Tok → Nat
  | .sym n => if n = 35 ∨ n = 37 ∨ n = 38 ∨ n = 64 then 0 else n
  | .ident _ => 38
  | .string _ => 37
  | .char _ | .int _ | .real _ | .bad => 35
  | .eof => 64

/-- `sym`: the current symbol. -/
def cur (i : List T) : Nat := (i.head?.map fun t => code t.1).getD 64

/-- A part of the parser: what it returns, the input left, the errors reported.  `none`: it needs more steps than given. -/
def P (α : Type) := List T → Option (α × List T × List Nat)

def P.pure {α : Type} (a : α) : P α := fun i => some (a, i, [])

def P.bind {α β : Type} (p : P α) (g : α → P β) : P β := fun i =>
  match p i with
  | none => none
  | some (a, j, e) => match g a j with
    | none => none
    | some (b, k, e') => some (b, k, e ++ e')

instance : Monad P where
  pure := P.pure
  bind := P.bind

/-- The current symbol. -/
def sy : P Nat := fun i => some (cur i, i, [])

/-- `OPS.Get(sym)`: the next symbol; after the last one, always the end of the text. -/
def get : P Unit := fun i => some ((), i.tail, [])

/-- `err(n)`. -/
def err (n : Nat) : P Unit := fun i => some ((), i, [n])

/-- Out of steps. -/
def stop {α : Type} : P α := fun _ => none

/-- The name of the current identifier, `OPS.name`. -/
def curName (i : List T) : Name :=
  match i with
  | (.ident x, _) :: _ => x
  | _ => []
@[inherit_doc curName]
def name : P Name := fun i => some (curName i, i, [])

/-- The current symbol with its attributes. -/
def tok : P Tok := fun i => some ((i.head?.map (·.1)).getD .eof, i, [])

/-- What the symbol table says. -/
def ask : P Bool := fun i => some ((i.head?.map (·.2)).getD false, i, [])

/-- `REPEAT OPS.Get(sym) UNTIL sym >= n`, after a test that `sym < n`. -/
def skip (n : Nat) : P Unit := fun i => some ((), i.dropWhile (fun t => code t.1 < n), [])

/-- `IF sym < n THEN err(e); REPEAT OPS.Get(sym) UNTIL sym >= n END`, src/compiler/OPP.Mod 254-256, 421-423, 765-767. -/
def sync (n e : Nat) : P Unit := do
  if (← sy) < n then
    err e
    skip n
  else return ()

/-- `IF OPS.name # name THEN err(4) END`, src/compiler/OPP.Mod 589, 1036. -/
def sameName (x n : Name) : P Unit := if x = n then return () else err 4

/-- `CheckSym`, src/compiler/OPP.Mod 28-31. -/
def checkSym (s : Nat) : P Unit := do if (← sy) = s then get else err s

/-- `qualident`, src/compiler/OPP.Mod 33-53.  A module's name alone is an error wherever it occurs (127, 52). -/
def qualident : P Qual := do
  let x ← name
  let m ← ask
  get
  if m then
    if (← sy) = 18 then
      get
      if (← sy) = 38 then
        let y ← name
        get
        return ⟨some x, y⟩
      else
        err 38
        return ⟨some x, []⟩
    else
      err 127
      return ⟨none, x⟩
  else return ⟨none, x⟩

/-- The frequent `LOOP item; IF sym = comma THEN Get ELSIF again(sym) THEN err(comma) ELSE EXIT END END`. -/
def commas {α : Type} (item : P α) (again : Nat → Bool) : Nat → P (List α)
  | 0 => stop
  | f + 1 => do
    let a ← item
    let s ← sy
    if s = 19 then
      get
      let as ← commas item again f
      return a :: as
    else if again s then
      err 19
      let as ← commas item again f
      return a :: as
    else return [a]

/-- `(OPS.lparen <= sym) & (sym <= OPS.ident)`: the start of an expression, and `:=`. -/
def startsEx (s : Nat) : Bool := 30 ≤ s && s ≤ 38

mutual
/-- `Expression`, src/compiler/OPP.Mod 482-500. -/
def expression : Nat → P Ex
  | 0 => stop
  | f + 1 => do
    let x ← simple f
    let s ← sy
    if 9 ≤ s ∧ s ≤ 15 then
      get
      let y ← simple f
      return .bin s x y
    else if s = 16 then
      get
      if (← sy) = 38 then
        let q ← qualident
        return .isT x q
      else
        err 38
        return x
    else return x
/-- `SimpleExpression`, src/compiler/OPP.Mod 469-480. -/
def simple : Nat → P Ex
  | 0 => stop
  | f + 1 => do
    let s ← sy
    if s = 7 ∨ s = 6 then
      get
      let x ← term f
      adds f (.sign s x)
    else
      let x ← term f
      adds f x
/-- The loop of `SimpleExpression`, 476-479. -/
def adds : Nat → Ex → P Ex
  | 0, _ => stop
  | f + 1, x => do
    let s ← sy
    if 6 ≤ s ∧ s ≤ 8 then
      get
      let y ← term f
      adds f (.bin s x y)
    else return x
/-- `Term`, src/compiler/OPP.Mod 460-467. -/
def term : Nat → P Ex
  | 0 => stop
  | f + 1 => do
    let x ← factor f
    muls f x
/-- The loop of `Term`, 463-466. -/
def muls : Nat → Ex → P Ex
  | 0, _ => stop
  | f + 1, x => do
    let s ← sy
    if 1 ≤ s ∧ s ≤ 5 then
      get
      let y ← factor f
      muls f (.bin s x y)
    else return x
/-- `Factor`, src/compiler/OPP.Mod 418-458. -/
def factor : Nat → P Ex
  | 0 => stop
  | f + 1 => do
    sync 30 13
    let s ← sy
    if s = 38 then
      let q ← qualident
      let ss ← selector f
      if (← sy) = 30 then
        get
        let as ← actuals f
        checkSym 22
        return .call q ss as
      else return .des q ss
    else if s = 35 ∨ s = 37 then
      let t ← tok
      get
      return .lit t
    else if s = 36 then
      get
      return .nil
    else if s = 30 then
      get
      let x ← expression f
      checkSym 22
      return .paren x
    else if s = 31 then
      get
      err 30
      let x ← expression f
      checkSym 22
      return .paren x
    else if s = 32 then
      get
      let es ← sets f
      checkSym 24
      return .set es
    else if s = 33 then
      get
      let x ← factor f
      return .not x
    else
      err 13
      get
      return .bad
/-- `selector`, src/compiler/OPP.Mod 292-347; the designator is made of its parts afterwards. -/
def selector : Nat → P (List Sel)
  | 0 => stop
  | f + 1 => do
    let s ← sy
    if s = 31 then
      get
      let es ← commas (expression f) (fun _ => false) f
      checkSym 23
      let ss ← selector f
      return .idx es :: ss
    else if s = 18 then
      get
      if (← sy) = 38 then
        let x ← name
        get
        let ss ← selector f
        return .dot x :: ss
      else
        err 38
        selector f
    else if s = 17 then
      get
      let ss ← selector f
      return .deref :: ss
    else if s = 30 ∧ (← ask) = true then
      get
      if (← sy) = 38 then
        let q ← qualident
        checkSym 22
        let ss ← selector f
        return .guard q :: ss
      else
        err 38
        checkSym 22
        selector f
    else return []
/-- `ActualParameters`, src/compiler/OPP.Mod 349-366, and the loop of `StandProcCall`, 368-390. -/
def actuals : Nat → P (List Ex)
  | 0 => stop
  | f + 1 => do
    if (← sy) = 22 then return [] else commas (expression f) startsEx f
/-- `Element`, src/compiler/OPP.Mod 392-399. -/
def element : Nat → P El
  | 0 => stop
  | f + 1 => do
    let x ← expression f
    if (← sy) = 21 then
      get
      let y ← expression f
      return .range x y
    else return .one x
/-- `Sets`, src/compiler/OPP.Mod 401-416, without the closing brace. -/
def sets : Nat → P (List El)
  | 0 => stop
  | f + 1 => do
    if (← sy) = 24 then return [] else commas (element f) startsEx f
end

/-- `CheckMark`, src/compiler/OPP.Mod 62-70, after the name. -/
def defn : P Def := do
  let x ← name
  get
  let s ← sy
  if s = 1 ∨ s = 7 then
    get
    return ⟨x, some s⟩
  else return ⟨x, none⟩

/-- `CheckSysFlag`, src/compiler/OPP.Mod 72-85. -/
def sysFlag (f : Nat) : P (Option Ex) := do
  if (← sy) = 31 then
    get
    let x ← expression f
    checkSym 23
    return some x
  else return none

/-- One name of a list of names with marks, src/compiler/OPP.Mod 112-122, 948-954. -/
def defItem : P Def := do if (← sy) = 38 then defn else do err 38; return ⟨[], none⟩

/-- One name of a list of parameters. -/
def nameItem : P Name := do
  if (← sy) = 38 then
    let x ← name
    get
    return x
  else
    err 38
    return []

/-- The loop over the names of parameters, src/compiler/OPP.Mod 206-221. -/
def parNames : Nat → P (List Name)
  | 0 => stop
  | f + 1 => do
    let x ← nameItem
    let s ← sy
    if s = 19 then
      get
      let xs ← parNames f
      return x :: xs
    else if s = 38 then
      err 19
      let xs ← parNames f
      return x :: xs
    else if s = 60 then
      err 19
      get
      let xs ← parNames f
      return x :: xs
    else return [x]

/-- `LOOP ... END` at the end of `TypeDecl`, src/compiler/OPP.Mod 280-284. -/
def resync : Nat → P Unit
  | 0 => stop
  | f + 1 => do
    let s ← sy
    if 39 ≤ s ∧ s ≤ 42 ∨ s = 22 ∨ s = 64 then return ()
    else
      err 15
      if s = 38 then return ()
      else
        get
        resync f

/-- The result of a procedure, src/compiler/OPP.Mod 236-247. -/
def result : P (Option Qual) := do
  if (← sy) = 20 then
    get
    if (← sy) = 38 then
      let q ← qualident
      return some q
    else
      err 38
      return none
  else return none

/-- `IF sym = OPS.var THEN OPS.Get(sym); mode := OPM.VarPar ELSE mode := OPM.Var END`, src/compiler/OPP.Mod 205, 506. -/
def varMark : P Bool := do
  if (← sy) = 60 then
    get
    return true
  else return false

/-- An open array. -/
def Arr.isOpen : Arr → Bool
  | .opn _ _ => true
  | _ => false

mutual
/-- `TypeDecl` and `Type`, src/compiler/OPP.Mod 251-290. -/
def type : Nat → P Ty
  | 0 => stop
  | f + 1 => do
    sync 30 12
    let s ← sy
    let t ←
      if s = 38 then do
        let q ← qualident
        pure (Ty.name q)
      else if s = 54 then do
        get
        let a ← array f
        pure (Ty.array a)
      else if s = 55 then do
        get
        let t ← record f
        checkSym 41
        pure t
      else if s = 56 then do
        get
        pointer f
      else if s = 61 then do
        get
        let fl ← sysFlag f
        if (← sy) = 30 then do
          get
          let p ← pars f
          pure (Ty.proc fl (some p))
        else pure (Ty.proc fl none)
      else do
        err 12
        pure Ty.bad
    resync f
    return t
/-- `ArrayType`, src/compiler/OPP.Mod 144-170. -/
def array : Nat → P Arr
  | 0 => stop
  | f + 1 => do
    let fl ← sysFlag f
    if (← sy) = 25 then
      get
      let t ← type f
      return .opn fl t
    else
      let x ← expression f
      let s ← sy
      if s = 25 then
        get
        let t ← type f
        return .last fl x t
      else if s = 19 then
        get
        if (← sy) = 25 then return .bad
        else
          let a ← array f
          if a.isOpen then
            err 88
            return .bad
          else return .dim fl x a
      else
        err 35
        return .bad
/-- `RecordType`, src/compiler/OPP.Mod 87-142. -/
def record : Nat → P Ty
  | 0 => stop
  | f + 1 => do
    let fl ← sysFlag f
    if (← sy) = 30 then
      get
      if (← sy) = 38 then
        let q ← qualident
        checkSym 22
        let fs ← fields f
        return .record fl (some q) fs
      else
        err 38
        checkSym 22
        let fs ← fields f
        return .record fl none fs
    else
      let fs ← fields f
      return .record fl none fs
/-- The loop of `RecordType`, 109-139. -/
def fields : Nat → P (List Fl)
  | 0 => stop
  | f + 1 => do
    let fl ←
      if (← sy) = 38 then do
        let ds ← commas defItem (fun s => s == 38) f
        checkSym 20
        let t ← type f
        pure (Fl.some ds t)
      else pure Fl.none
    let s ← sy
    if s = 39 then
      get
      let fs ← fields f
      return fl :: fs
    else if s = 38 then
      err 39
      let fs ← fields f
      return fl :: fs
    else return [fl]
/-- `PointerType`, src/compiler/OPP.Mod 172-197. -/
def pointer : Nat → P Ty
  | 0 => stop
  | f + 1 => do
    let fl ← sysFlag f
    checkSym 28
    if (← sy) = 38 then
      let q ← qualident
      return .pointer fl (.name q)
    else
      let t ← type f
      return .pointer fl t
/-- `FormalParameters`, src/compiler/OPP.Mod 199-249. -/
def pars : Nat → P Pars
  | 0 => stop
  | f + 1 => do
    let s ← sy
    let ps ← if s = 38 ∨ s = 60 then secs f else pure []
    checkSym 22
    let r ← result
    return .mk ps r
/-- The loop of `FormalParameters`, 203-233. -/
def secs : Nat → P (List Sec)
  | 0 => stop
  | f + 1 => do
    let v ← varMark
    let ns ← parNames f
    checkSym 20
    let t ← type f
    let s ← sy
    if s = 39 then
      get
      let ps ← secs f
      return .mk v ns t :: ps
    else if s = 38 then
      err 39
      let ps ← secs f
      return .mk v ns t :: ps
    else return [.mk v ns t]
end

/-- One label of a case, src/compiler/OPP.Mod 676-688. -/
def label (f : Nat) : P El := do
  let x ← expression f
  if (← sy) = 21 then
    get
    let y ← expression f
    return .range x y
  else return .one x

/-- `Guard`, in src/compiler/OPP.Mod 852-868. -/
def guard : P (Qual × Qual) := do
  if (← sy) = 38 then
    let v ← qualident
    checkSym 20
    if (← sy) = 38 then
      let t ← qualident
      return (v, t)
    else
      err 38
      return (v, ⟨none, []⟩)
  else
    err 38
    return (⟨none, []⟩, ⟨none, []⟩)

/-- `BY` of FOR, src/compiler/OPP.Mod 828. -/
def step (f : Nat) : P (Option Ex) := do
  if (← sy) = 29 then
    get
    let z ← expression f
    return some z
  else return none

mutual
/-- `StatSeq`, src/compiler/OPP.Mod 712-895. -/
def statSeq : Nat → P (List St)
  | 0 => stop
  | f + 1 => do
    sync 38 14
    let x ← stat f
    let s ← sy
    if s = 39 then
      get
      let xs ← statSeq f
      return x :: xs
    else if s ≤ 38 ∨ 45 ≤ s ∧ s ≤ 53 then
      err 39
      let xs ← statSeq f
      return x :: xs
    else return [x]
/-- One statement. -/
def stat : Nat → P St
  | 0 => stop
  | f + 1 => do
    let s ← sy
    if s = 38 then
      let q ← qualident
      let ss ← selector f
      let s ← sy
      if s = 34 then
        get
        let e ← expression f
        return .assign q ss e
      else if s = 9 then
        err 34
        get
        let e ← expression f
        return .assign q ss e
      else if s = 30 then
        get
        let as ← actuals f
        checkSym 22
        return .call q ss (some as)
      else return .call q ss none
    else if s = 45 then
      get
      let e ← expression f
      checkSym 26
      let b ← statSeq f
      let es ← elsifs f
      let el ← els f
      checkSym 41
      return .ifs e b es el
    else if s = 46 then
      get
      let e ← expression f
      checkSym 25
      let cs ← cases f
      let el ← els f
      checkSym 41
      return .cases e cs el
    else if s = 47 then
      get
      let e ← expression f
      checkSym 27
      let b ← statSeq f
      checkSym 41
      return .whiles e b
    else if s = 48 then
      get
      let b ← statSeq f
      if (← sy) = 44 then
        get
        let e ← expression f
        return .repeats b e
      else
        err 44
        return .empty
    else if s = 49 then
      get
      if (← sy) = 38 then
        let q ← qualident
        checkSym 34
        let a ← expression f
        checkSym 28
        let b ← expression f
        let y ← step f
        checkSym 27
        let ss ← statSeq f
        checkSym 41
        return .fors q a b y ss
      else
        err 38
        return .empty
    else if s = 50 then
      get
      let b ← statSeq f
      checkSym 41
      return .loop b
    else if s = 51 then
      get
      let gs ← guards f
      let el ← els f
      checkSym 41
      return .withs gs el
    else if s = 52 then
      get
      return .exit
    else if s = 53 then
      get
      if (← sy) < 39 then
        let e ← expression f
        return .ret (some e)
      else return .ret none
    else return .empty
/-- `WHILE sym = OPS.elsif DO`, 785-788. -/
def elsifs : Nat → P (List Elsif)
  | 0 => stop
  | f + 1 => do
    if (← sy) = 43 then
      get
      let e ← expression f
      checkSym 26
      let b ← statSeq f
      let es ← elsifs f
      return .mk e b :: es
    else return []
/-- `IF sym = OPS.else THEN`. -/
def els : Nat → P Els
  | 0 => stop
  | f + 1 => do
    if (← sy) = 42 then
      get
      let b ← statSeq f
      return .some b
    else return .none
/-- The loop of `CasePart`, 725-732. -/
def cases : Nat → P (List Case)
  | 0 => stop
  | f + 1 => do
    let c ←
      if (← sy) < 40 then do
        let ls ← commas (label f) (fun s => s == 35 || s == 38) f
        checkSym 20
        let b ← statSeq f
        pure (Case.some ls b)
      else pure Case.none
    if (← sy) = 40 then
      get
      let cs ← cases f
      return c :: cs
    else return [c]
/-- The loop of WITH, 850-873. -/
def guards : Nat → P (List Guard)
  | 0 => stop
  | f + 1 => do
    let g ← guard
    checkSym 27
    let b ← statSeq f
    if (← sy) = 40 then
      get
      let gs ← guards f
      return .mk g.1 g.2 b :: gs
    else return [.mk g.1 g.2 b]
end

/-- `WHILE sym = OPS.ident DO` of CONST, src/compiler/OPP.Mod 907-919. -/
def consts : Nat → P (List (Def × Ex))
  | 0 => stop
  | f + 1 => do
    if (← sy) = 38 then
      let d ← defn
      let s ← sy
      let x ←
        if s = 9 then do { get; expression f }
        else if s = 34 then do { err 9; get; expression f }
        else do { err 9; pure Ex.bad }
      checkSym 39
      let ds ← consts f
      return (d, x) :: ds
    else return []

/-- `WHILE sym = OPS.ident DO` of TYPE, src/compiler/OPP.Mod 923-949. -/
def types : Nat → P (List (Def × Ty))
  | 0 => stop
  | f + 1 => do
    if (← sy) = 38 then
      let d ← defn
      let s ← sy
      let t ←
        if s = 9 then do { get; type f }
        else if s = 34 ∨ s = 20 then do { err 9; get; type f }
        else do { err 9; pure Ty.bad }
      checkSym 39
      let ds ← types f
      return (d, t) :: ds
    else return []

/-- `WHILE sym = OPS.ident DO` of VAR, src/compiler/OPP.Mod 953-972. -/
def vars : Nat → P (List (List Def × Ty))
  | 0 => stop
  | f + 1 => do
    if (← sy) = 38 then
      let ds ← commas defItem (fun s => s == 38) f
      checkSym 20
      let t ← type f
      checkSym 39
      let vs ← vars f
      return (ds, t) :: vs
    else return []

/-- One of the three parts of the loop. -/
def group {α : Type} (n : Nat) (p : P α) (c : α → Sect) : P (List Sect) := do
  if (← sy) = n then
    get
    let ds ← p
    return [c ds]
  else return []

/-- The first loop of `Block`, src/compiler/OPP.Mod 904-975. -/
def sects : Nat → P (List Sect)
  | 0 => stop
  | f + 1 => do
    let c ← group 58 (consts f) .const
    let t ← group 59 (types f) .type
    let v ← group 60 (vars f) .var
    let s ← sy
    if s < 58 ∨ s > 60 then return c ++ t ++ v
    else
      let ss ← sects f
      return c ++ t ++ v ++ ss

/-- `Receiver`, src/compiler/OPP.Mod 502-520. -/
def receiver : P Rcv := do
  let v ← varMark
  let x ← name
  checkSym 38
  checkSym 20
  let t ←
    if (← sy) = 38 then do { let t ← name; get; pure t }
    else do { err 38; pure [] }
  checkSym 22
  return ⟨v, x, t⟩

/-- The loop of `GetCode`, src/compiler/OPP.Mod 549-560. -/
def codes : Nat → P (List (Option Tok))
  | 0 => stop
  | f + 1 => do
    let c ← if (← sy) = 35 then do { let t ← tok; get; pure (some t) } else pure none
    let s ← sy
    if s = 19 then
      get
      let cs ← codes f
      return c :: cs
    else if s = 35 then
      err 19
      let cs ← codes f
      return c :: cs
    else return [c]

/-- `GetCode`, src/compiler/OPP.Mod 537-563. -/
def getCode (f : Nat) : P Body := do
  if (← sy) = 37 then
    let t ← tok
    get
    return .text t
  else
    let cs ← codes f
    return .code cs

/-- `GetParams`, src/compiler/OPP.Mod 565-578. -/
def getParams (f : Nat) : P (Option Pars) := do
  if (← sy) = 30 then
    get
    let p ← pars f
    return some p
  else return none

/-- The symbol after PROCEDURE, src/compiler/OPP.Mod 628-637. -/
def procMark : P (Option Nat) := do
  let s ← sy
  if s = 38 ∨ s = 30 then return none
  else if s = 1 ∨ s = 17 ∨ s = 6 ∨ s = 7 then
    get
    return some s
  else
    err 38
    get
    return some s

mutual
/-- `Block`, src/compiler/OPP.Mod 897-1001. -/
def block : Nat → P Block
  | 0 => stop
  | f + 1 => do
    let ds ← sects f
    let ps ← procs f
    let b ← if (← sy) = 57 then do { get; let b ← statSeq f; pure (some b) } else pure none
    checkSym 41
    return .mk ds ps b
/-- `WHILE sym = OPS.procedure DO`, 984-991. -/
def procs : Nat → P (List Proc)
  | 0 => stop
  | f + 1 => do
    if (← sy) = 61 then
      get
      let p ← proc f
      checkSym 39
      let ps ← procs f
      return p :: ps
    else return []
/-- `ProcedureDeclaration`, src/compiler/OPP.Mod 531-671, with `TProcDecl`. -/
def proc : Nat → P Proc
  | 0 => stop
  | f + 1 => do
    let mark ← procMark
    let s ← sy
    if s = 30 then
      get
      let r ← receiver
      if (← sy) = 38 then
        let d ← defn
        let p ← getParams f
        if mark = some 17 then return .mk mark (some r) d p .none
        else
          let b ← body f d.name
          return .mk mark (some r) d p b
      else
        err 38
        return .bad
    else if s = 38 then
      let d ← defn
      let p ← getParams f
      if mark = some 7 then
        let b ← getCode f
        return .mk mark none d p b
      else if mark = some 17 then return .mk mark none d p .none
      else
        let b ← body f d.name
        return .mk mark none d p b
    else
      err 38
      return .bad
/-- `Body`, src/compiler/OPP.Mod 580-593. -/
def body : Nat → Name → P Body
  | 0, _ => stop
  | f + 1, n => do
    checkSym 39
    let b ← block f
    if (← sy) = 38 then
      let x ← name
      sameName x n
      get
      return .block b x
    else
      err 38
      return .block b []
end

/-- One import, src/compiler/OPP.Mod 1013-1021. -/
def importItem : P (Name × Option Name) := do
  if (← sy) = 38 then
    let x ← name
    get
    if (← sy) = 34 then
      get
      if (← sy) = 38 then
        let y ← name
        get
        return (x, some y)
      else
        err 38
        return (x, none)
    else return (x, none)
  else
    err 38
    return ([], none)

/-- The list of imports, src/compiler/OPP.Mod 1011-1028. -/
def importList (f : Nat) : P (List (Name × Option Name)) := do
  if (← sy) = 62 then
    get
    let is ← commas importItem (fun s => s == 38) f
    checkSym 39
    return is
  else return []

/-- The beginning of a module, src/compiler/OPP.Mod 1007-1028. -/
def header (f : Nat) : P (Option (Name × List (Name × Option Name))) := do
  do if (← sy) = 63 then get else err 16
  if (← sy) = 38 then
    let x ← name
    get
    checkSym 39
    let is ← importList f
    return some (x, is)
  else
    err 38
    return none

/-- The rest of a module, src/compiler/OPP.Mod 1030-1040. -/
def rest (f : Nat) (x : Name) (is : List (Name × Option Name)) : P (Option Mod) := do
  let b ← block f
  let y ← name
  if (← sy) = 38 then
    sameName y x
    get
    if (← sy) = 18 then return some ⟨x, is, b, y⟩
    else
      err 18
      return some ⟨x, is, b, y⟩
  else
    err 38
    if (← sy) = 18 then return some ⟨x, is, b, y⟩
    else
      err 18
      return some ⟨x, is, b, y⟩

/-- `Module`, src/compiler/OPP.Mod 1003-1046: after an error up to there, declarations and statements are not read. -/
def parse (f : Nat) : P (Option Mod) := fun i =>
  match header f i with
  | none => none
  | some (none, j, e) => some (none, j, e)
  | some (some (x, is), j, e) =>
    if e = [] then rest f x is j else some (none, j, e)

end Verif.Parse
