import Mathlib.Data.List.Forall2
import Verif.Parse.Syntax

/-!
# The language

The symbols of which a syntax tree is made, after the productions of the report's appendix B, and what the productions say
about how trees may be put together.  With an identifier and a parenthesis comes, where it matters, what the symbol table must
say: the first part of a qualified identifier denotes a module, an identifier alone does not; a type guard follows a variable
that is not of a procedure type, and a parameter list does not.
-/
namespace Verif.Parse
open Verif.Scanner (Tok)

/-- A symbol of a text, and the answer of the symbol table that it needs. -/
abbrev Y := Tok × Option Bool

/-- A symbol without attributes, src/compiler/OPS.Mod 28-40. -/
def sm (n : Nat) : Y := (.sym n, none)

/-- An identifier that is declared, or a field's, or in any other place where nothing is looked up to go on. -/
def idn (x : Name) : Y := (.ident x, none)

/-- `x {sep x}`. -/
def sep (c : Y) : List (List Y) → List Y
  | [] => []
  | [a] => a
  | a :: b :: r => a ++ c :: sep c (b :: r)

/-- `Qualident = [ident "."] ident`. -/
def yQual : Qual → List Y
  | ⟨none, x⟩ => [(.ident x, some false)]
  | ⟨some m, x⟩ => [(.ident m, some true), sm 18, idn x]

/-- `IdentDef = ident ["*" | "-"]`. -/
def yDef : Def → List Y
  | ⟨x, none⟩ => [idn x]
  | ⟨x, some m⟩ => [idn x, sm m]

mutual
/-- `Expr`, `SimpleExpr`, `Term`, `Factor`. -/
def yEx : Ex → List Y
  | .lit t => [(t, none)]
  | .nil => [sm 36]
  | .set es => sm 32 :: sep (sm 19) (yEls es) ++ [sm 24]
  | .des q ss => yQual q ++ (ySels ss).flatten
  | .call q ss as => yQual q ++ (ySels ss).flatten ++ (.sym 30, some false) :: sep (sm 19) (yExs as) ++ [sm 22]
  | .paren e => sm 30 :: yEx e ++ [sm 22]
  | .not e => sm 33 :: yEx e
  | .sign o e => sm o :: yEx e
  | .bin o l r => yEx l ++ sm o :: yEx r
  | .isT e q => yEx e ++ sm 16 :: yQual q
  | .bad => []
/-- `Element`. -/
def yEl : El → List Y
  | .one e => yEx e
  | .range a b => yEx a ++ sm 21 :: yEx b
/-- The parts of a designator. -/
def ySel : Sel → List Y
  | .dot f => [sm 18, idn f]
  | .idx es => sm 31 :: sep (sm 19) (yExs es) ++ [sm 23]
  | .deref => [sm 17]
  | .guard q => (.sym 30, some true) :: yQual q ++ [sm 22]
/-- Lists of these. -/
def yExs : List Ex → List (List Y)
  | [] => []
  | e :: es => yEx e :: yExs es
@[inherit_doc yExs]
def yEls : List El → List (List Y)
  | [] => []
  | e :: es => yEl e :: yEls es
@[inherit_doc yExs]
def ySels : List Sel → List (List Y)
  | [] => []
  | e :: es => ySel e :: ySels es
end

/-- Which production an expression is of: 0 for `Expr`, 1 for `SimpleExpr`, 2 for `Term`, 3 for `Factor`. -/
def lev : Ex → Nat
  | .bin o _ _ => if 9 ≤ o then 0 else if 6 ≤ o then 1 else 2
  | .isT _ _ => 0
  | .sign _ _ => 1
  | _ => 3

/-- A number, character or string. -/
def isLit : Tok → Bool
  | .string _ | .char _ | .int _ | .real _ | .bad => true
  | _ => false

mutual
/-- What the productions say.  `Expr = SimpleExpr [Relation SimpleExpr]`, `SimpleExpr = ["+" | "-"] Term {AddOp Term}`,
`Term = Factor {MulOp Factor}`: operators of the same kind are applied from left to right, and those of `Term` first. -/
def okEx : Ex → Prop
  | .lit t => isLit t = true
  | .nil => True
  | .set es => okEls es
  | .des _ ss => okSels ss
  | .call _ ss as => okSels ss ∧ okExs as
  | .paren e => okEx e
  | .not e => okEx e ∧ lev e = 3
  | .sign o e => (o = 6 ∨ o = 7) ∧ okEx e ∧ 2 ≤ lev e
  | .bin o l r => okEx l ∧ okEx r ∧
      (9 ≤ o ∧ o ≤ 15 ∧ 1 ≤ lev l ∧ 1 ≤ lev r ∨ 6 ≤ o ∧ o ≤ 8 ∧ 1 ≤ lev l ∧ 2 ≤ lev r ∨ 1 ≤ o ∧ o ≤ 5 ∧ 2 ≤ lev l ∧ 3 ≤ lev r)
  | .isT e _ => okEx e ∧ 1 ≤ lev e
  | .bad => False
@[inherit_doc okEx]
def okEl : El → Prop
  | .one e => okEx e
  | .range a b => okEx a ∧ okEx b
@[inherit_doc okEx]
def okSel : Sel → Prop
  | .idx es => es ≠ [] ∧ okExs es
  | _ => True
@[inherit_doc okEx]
def okExs : List Ex → Prop
  | [] => True
  | e :: es => okEx e ∧ okExs es
@[inherit_doc okEx]
def okEls : List El → Prop
  | [] => True
  | e :: es => okEl e ∧ okEls es
@[inherit_doc okEx]
def okSels : List Sel → Prop
  | [] => True
  | e :: es => okSel e ∧ okSels es
end

/-- An export mark. -/
def okDef (d : Def) : Prop := d.mark = none ∨ d.mark = some 1 ∨ d.mark = some 7

/-- Extension: a system flag, `["[" ConstExpr "]"]`. -/
def yFlag : Option Ex → List Y
  | none => []
  | some e => sm 31 :: yEx e ++ [sm 23]
@[inherit_doc yFlag]
def okFlag : Option Ex → Prop
  | none => True
  | some e => okEx e

/-- `[":" Qualident]`. -/
def yRes : Option Qual → List Y
  | none => []
  | some q => sm 20 :: yQual q

/-- `["(" Qualident ")"]`. -/
def yBase : Option Qual → List Y
  | none => []
  | some q => sm 30 :: yQual q ++ [sm 22]

mutual
/-- `Type = Qualident | ARRAY [ConstExpr {"," ConstExpr}] OF Type | RECORD ["(" Qualident ")"] FieldList {";" FieldList} END |
POINTER TO Type | PROCEDURE [FormalPars]`. -/
def yTy : Ty → List Y
  | .name q => yQual q
  | .array a => sm 54 :: yArr a
  | .record fl b fs => sm 55 :: yFlag fl ++ yBase b ++ sep (sm 39) (yFls fs) ++ [sm 41]
  | .pointer fl t => sm 56 :: yFlag fl ++ sm 28 :: yTy t
  | .proc fl none => sm 61 :: yFlag fl
  | .proc fl (some p) => sm 61 :: yFlag fl ++ yPars p
  | .bad => []
@[inherit_doc yTy]
def yArr : Arr → List Y
  | .opn fl t => yFlag fl ++ sm 25 :: yTy t
  | .last fl n t => yFlag fl ++ yEx n ++ sm 25 :: yTy t
  | .dim fl n a => yFlag fl ++ yEx n ++ sm 19 :: yArr a
  | .bad => []
/-- `FieldList = [IdentList ":" Type]`. -/
def yFl : Fl → List Y
  | .none => []
  | .some ds t => sep (sm 19) (ds.map yDef) ++ sm 20 :: yTy t
@[inherit_doc yFl]
def yFls : List Fl → List (List Y)
  | [] => []
  | f :: fs => yFl f :: yFls fs
/-- `FormalPars = "(" [FPSection {";" FPSection}] ")" [":" Qualident]`. -/
def yPars : Pars → List Y
  | .mk ps r => sm 30 :: sep (sm 39) (ySecs ps) ++ sm 22 :: yRes r
/-- `FPSection = [VAR] ident {"," ident} ":" Type`. -/
def ySec : Sec → List Y
  | .mk v ns t => (if v then [sm 60] else []) ++ sep (sm 19) (ns.map fun n => [idn n]) ++ sm 20 :: yTy t
@[inherit_doc ySec]
def ySecs : List Sec → List (List Y)
  | [] => []
  | f :: fs => ySec f :: ySecs fs
end

mutual
/-- Lists have elements where the productions say so. -/
def okTy : Ty → Prop
  | .name _ => True
  | .array a => okArr a
  | .record fl _ fs => okFlag fl ∧ fs ≠ [] ∧ okFls fs
  | .pointer fl t => okFlag fl ∧ okTy t
  | .proc fl none => okFlag fl
  | .proc fl (some p) => okFlag fl ∧ okPars p
  | .bad => False
/-- Only the only dimension may have no length. -/
def okArr : Arr → Prop
  | .opn fl t => okFlag fl ∧ okTy t
  | .last fl n t => okFlag fl ∧ okEx n ∧ okTy t
  | .dim _ _ (.opn _ _) => False
  | .dim fl n a => okFlag fl ∧ okEx n ∧ okArr a
  | .bad => False
@[inherit_doc okTy]
def okFl : Fl → Prop
  | .none => True
  | .some ds t => ds ≠ [] ∧ (∀ d ∈ ds, okDef d) ∧ okTy t
@[inherit_doc okTy]
def okFls : List Fl → Prop
  | [] => True
  | f :: fs => okFl f ∧ okFls fs
@[inherit_doc okTy]
def okPars : Pars → Prop
  | .mk ps _ => okSecs ps
@[inherit_doc okTy]
def okSec : Sec → Prop
  | .mk _ ns t => ns ≠ [] ∧ okTy t
@[inherit_doc okTy]
def okSecs : List Sec → Prop
  | [] => True
  | f :: fs => okSec f ∧ okSecs fs
end

/-- `["(" [ExprList] ")"]`. -/
def yArgs : Option (List Ex) → List Y
  | none => []
  | some as => (.sym 30, some false) :: sep (sm 19) (yExs as) ++ [sm 22]
@[inherit_doc yArgs]
def okArgs : Option (List Ex) → Prop
  | none => True
  | some as => okExs as

/-- `[BY ConstExpr]`. -/
def yBy : Option Ex → List Y
  | none => []
  | some e => sm 29 :: yEx e

/-- `[Expr]`. -/
def yOpt : Option Ex → List Y
  | none => []
  | some e => yEx e

mutual
/-- `Statement`. -/
def ySt : St → List Y
  | .empty => []
  | .assign q ss e => yQual q ++ (ySels ss).flatten ++ sm 34 :: yEx e
  | .call q ss as => yQual q ++ (ySels ss).flatten ++ yArgs as
  | .ifs e b es el => sm 45 :: yEx e ++ sm 26 :: sep (sm 39) (ySts b) ++ (yElsifs es).flatten ++ yElse el ++ [sm 41]
  | .cases e cs el => sm 46 :: yEx e ++ sm 25 :: sep (sm 40) (yCases cs) ++ yElse el ++ [sm 41]
  | .whiles e b => sm 47 :: yEx e ++ sm 27 :: sep (sm 39) (ySts b) ++ [sm 41]
  | .repeats b e => sm 48 :: sep (sm 39) (ySts b) ++ sm 44 :: yEx e
  | .fors q a b y ss => sm 49 :: yQual q ++ sm 34 :: yEx a ++ sm 28 :: yEx b ++ yBy y ++ sm 27 :: sep (sm 39) (ySts ss) ++ [sm 41]
  | .loop b => sm 50 :: sep (sm 39) (ySts b) ++ [sm 41]
  | .withs gs el => sm 51 :: sep (sm 40) (yGuards gs) ++ yElse el ++ [sm 41]
  | .exit => [sm 52]
  | .ret e => sm 53 :: yOpt e
/-- `ELSIF Expr THEN StatementSeq`. -/
def yElsif : Elsif → List Y
  | .mk e b => sm 43 :: yEx e ++ sm 26 :: sep (sm 39) (ySts b)
/-- `[ELSE StatementSeq]`. -/
def yElse : Els → List Y
  | .none => []
  | .some b => sm 42 :: sep (sm 39) (ySts b)
/-- `Case = [CaseLabels {"," CaseLabels} ":" StatementSeq]`, `CaseLabels = ConstExpr [".." ConstExpr]`. -/
def yCase : Case → List Y
  | .none => []
  | .some ls b => sep (sm 19) (yEls ls) ++ sm 20 :: sep (sm 39) (ySts b)
/-- `Guard DO StatementSeq`, `Guard = Qualident ":" Qualident`. -/
def yGuard : Guard → List Y
  | .mk v t b => yQual v ++ sm 20 :: yQual t ++ sm 27 :: sep (sm 39) (ySts b)
/-- Lists of these. -/
def ySts : List St → List (List Y)
  | [] => []
  | f :: fs => ySt f :: ySts fs
@[inherit_doc ySts]
def yElsifs : List Elsif → List (List Y)
  | [] => []
  | f :: fs => yElsif f :: yElsifs fs
@[inherit_doc ySts]
def yCases : List Case → List (List Y)
  | [] => []
  | f :: fs => yCase f :: yCases fs
@[inherit_doc ySts]
def yGuards : List Guard → List (List Y)
  | [] => []
  | f :: fs => yGuard f :: yGuards fs
end

mutual
/-- Lists have elements where the productions say so. -/
def okSt : St → Prop
  | .empty => True
  | .assign _ ss e => okSels ss ∧ okEx e
  | .call _ ss as => okSels ss ∧ okArgs as
  | .ifs e b es el => okEx e ∧ b ≠ [] ∧ okSts b ∧ okElsifs es ∧ okElse el
  | .cases e cs el => okEx e ∧ cs ≠ [] ∧ okCases cs ∧ okElse el
  | .whiles e b => okEx e ∧ b ≠ [] ∧ okSts b
  | .repeats b e => b ≠ [] ∧ okSts b ∧ okEx e
  | .fors _ a b y ss => okEx a ∧ okEx b ∧ okFlag y ∧ ss ≠ [] ∧ okSts ss
  | .loop b => b ≠ [] ∧ okSts b
  | .withs gs el => gs ≠ [] ∧ okGuards gs ∧ okElse el
  | .exit => True
  | .ret e => okFlag e
@[inherit_doc okSt]
def okElsif : Elsif → Prop
  | .mk e b => okEx e ∧ b ≠ [] ∧ okSts b
@[inherit_doc okSt]
def okElse : Els → Prop
  | .none => True
  | .some b => b ≠ [] ∧ okSts b
@[inherit_doc okSt]
def okCase : Case → Prop
  | .none => True
  | .some ls b => ls ≠ [] ∧ okEls ls ∧ b ≠ [] ∧ okSts b
@[inherit_doc okSt]
def okGuard : Guard → Prop
  | .mk _ _ b => b ≠ [] ∧ okSts b
@[inherit_doc okSt]
def okSts : List St → Prop
  | [] => True
  | f :: fs => okSt f ∧ okSts fs
@[inherit_doc okSt]
def okElsifs : List Elsif → Prop
  | [] => True
  | f :: fs => okElsif f ∧ okElsifs fs
@[inherit_doc okSt]
def okCases : List Case → Prop
  | [] => True
  | f :: fs => okCase f ∧ okCases fs
@[inherit_doc okSt]
def okGuards : List Guard → Prop
  | [] => True
  | f :: fs => okGuard f ∧ okGuards fs
end

/-- `CONST {ConstDecl ";"} | TYPE {TypeDecl ";"} | VAR {VarDecl ";"}`, `ConstDecl = IdentDef "=" ConstExpr`,
`TypeDecl = IdentDef "=" Type`, `VarDecl = IdentList ":" Type`. -/
def ySect : Sect → List Y
  | .const ds => sm 58 :: (ds.map fun d => yDef d.1 ++ sm 9 :: yEx d.2 ++ [sm 39]).flatten
  | .type ds => sm 59 :: (ds.map fun d => yDef d.1 ++ sm 9 :: yTy d.2 ++ [sm 39]).flatten
  | .var ds => sm 60 :: (ds.map fun d => sep (sm 19) (d.1.map yDef) ++ sm 20 :: yTy d.2 ++ [sm 39]).flatten
@[inherit_doc okSt]
def okSect : Sect → Prop
  | .const ds => ∀ d ∈ ds, okDef d.1 ∧ okEx d.2
  | .type ds => ∀ d ∈ ds, okDef d.1 ∧ okTy d.2
  | .var ds => ∀ d ∈ ds, d.1 ≠ [] ∧ (∀ x ∈ d.1, okDef x) ∧ okTy d.2

/-- `[Receiver]`, `Receiver = "(" [VAR] ident ":" ident ")"`. -/
def yRcv : Option Rcv → List Y
  | none => []
  | some ⟨v, x, t⟩ => sm 30 :: (if v then [sm 60] else []) ++ [idn x, sm 20, idn t, sm 22]

/-- `[FormalPars]`. -/
def yParsO : Option Pars → List Y
  | none => []
  | some p => yPars p
@[inherit_doc yParsO]
def okParsO : Option Pars → Prop
  | none => True
  | some p => okPars p

/-- The symbol after PROCEDURE. -/
def yMark : Option Nat → List Y
  | none => []
  | some m => [sm m]

/-- `[BEGIN StatementSeq]`. -/
def yBegin : Option (List St) → List Y
  | none => []
  | some b => sm 57 :: sep (sm 39) (ySts b)
@[inherit_doc yBegin]
def okBegin : Option (List St) → Prop
  | none => True
  | some b => b ≠ [] ∧ okSts b

/-- Extension: `[number]`. -/
def yNum : Option Tok → List Y
  | none => []
  | some t => [(t, none)]

/-- A string. -/
def isStr : Tok → Bool
  | .string _ => true
  | _ => false
@[inherit_doc isStr]
def isNum (t : Tok) : Bool := isLit t && !isStr t

mutual
/-- `DeclSeq [BEGIN StatementSeq] END`. -/
def yBlock : Block → List Y
  | .mk ds ps b => (ds.map ySect).flatten ++ (yProcs ps).flatten ++ yBegin b ++ [sm 41]
/-- `PROCEDURE [Receiver] IdentDef [FormalPars] ";" DeclSeq [BEGIN StatementSeq] END ident ";"`,
`PROCEDURE "^" [Receiver] IdentDef [FormalPars] ";"`; extension: `PROCEDURE "-" IdentDef [FormalPars] (string | [number]
{"," [number]}) ";"`. -/
def yProc : Proc → List Y
  | .mk m r d p b => sm 61 :: yMark m ++ yRcv r ++ yDef d ++ yParsO p ++ yBody b ++ [sm 39]
  | .bad => []
@[inherit_doc yProc]
def yBody : Body → List Y
  | .none => []
  | .text t => [(t, none)]
  | .code ns => sep (sm 19) (ns.map yNum)
  | .block b x => sm 39 :: yBlock b ++ [idn x]
@[inherit_doc yProc]
def yProcs : List Proc → List (List Y)
  | [] => []
  | f :: fs => yProc f :: yProcs fs
end

/-- What kind of body a procedure has: none for `^`; text or numbers for `-` without a receiver; otherwise a block. -/
def kindOk (m : Option Nat) (r : Option Rcv) : Body → Prop
  | .none => m = some 17
  | .text _ | .code _ => m = some 7 ∧ r.isNone = true
  | .block _ _ => m ≠ some 17 ∧ ¬ (m = some 7 ∧ r.isNone = true)

mutual
/-- The name at the end of a procedure is that at its beginning. -/
def okBlock : Block → Prop
  | .mk ds ps b => (∀ d ∈ ds, okSect d) ∧ okProcs ps ∧ okBegin b
@[inherit_doc okBlock]
def okProc : Proc → Prop
  | .mk m r d p b => (m = none ∨ m = some 1 ∨ m = some 6 ∨ m = some 7 ∨ m = some 17) ∧ okDef d ∧ okParsO p ∧ kindOk m r b ∧
      okBody d.name b
  | .bad => False
@[inherit_doc okBlock]
def okBody (n : Name) : Body → Prop
  | .none => True
  | .text t => isStr t = true
  | .code ns => ns ≠ [] ∧ ∀ t, some t ∈ ns → isNum t = true
  | .block b x => okBlock b ∧ x = n
@[inherit_doc okBlock]
def okProcs : List Proc → Prop
  | [] => True
  | f :: fs => okProc f ∧ okProcs fs
end

/-- `[ident ":="] ident`. -/
def yImport : Name × Option Name → List Y
  | (x, none) => [idn x]
  | (x, some m) => [idn x, sm 34, idn m]

/-- `[IMPORT [ident ":="] ident {"," [ident ":="] ident} ";"]`. -/
def yImports (is : List (Name × Option Name)) : List Y :=
  if is = [] then [] else sm 62 :: sep (sm 19) (is.map yImport) ++ [sm 39]

/-- `Module = MODULE ident ";" [ImportList] DeclSeq [BEGIN StatementSeq] END ident "."`. -/
def yMod (m : Mod) : List Y := [sm 63, idn m.name, sm 39] ++ yImports m.imports ++ yBlock m.block ++ [idn m.endName, sm 18]
@[inherit_doc yMod]
def okMod (m : Mod) : Prop := okBlock m.block ∧ m.endName = m.name

/-- The symbols are those of a list, and the symbol table gives the answers that are needed. -/
def Fits (y : List Y) (i : List (Tok × Bool)) : Prop :=
  List.Forall₂ (fun a b => a.1 = b.1 ∧ ∀ v, a.2 = some v → b.2 = v) y i

end Verif.Parse
