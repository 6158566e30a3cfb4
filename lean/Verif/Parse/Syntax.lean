import Verif.Scanner.Model

/-!
# Syntax trees

The productions of the report's appendix B as types, with the extensions of the compiler (doc/Features.md and
src/compiler/OPP.Mod) marked.  An operator is the number of its symbol, src/compiler/OPS.Mod 28-40.
-/
namespace Verif.Parse
open Verif.Scanner (Tok)

abbrev Name := List Nat

/-- `Qualident = [ident "."] ident`. -/
structure Qual where
  mod : Option Name
  name : Name
deriving DecidableEq, Repr

/-- `IdentDef = ident ["*" | "-"]`; the mark is the number of its symbol. -/
structure Def where
  name : Name
  mark : Option Nat
deriving DecidableEq, Repr

mutual
/-- Expressions.  `bad` is what the compiler goes on with after an error. -/
inductive Ex where
  /-- A number, character or string. -/
  | lit (t : Tok)
  | nil
  | set (els : List El)
  | des (q : Qual) (s : List Sel)
  | call (q : Qual) (s : List Sel) (as : List Ex)
  | paren (e : Ex)
  | not (e : Ex)
  /-- A term with a sign. -/
  | sign (op : Nat) (e : Ex)
  | bin (op : Nat) (l r : Ex)
  | isT (e : Ex) (q : Qual)
  | bad
/-- `Element = Expr [".." Expr]`. -/
inductive El where
  | one (e : Ex)
  | range (a b : Ex)
/-- The parts of a designator after its name. -/
inductive Sel where
  | dot (f : Name)
  | idx (es : List Ex)
  | deref
  | guard (q : Qual)
end

mutual
/-- Types.  Extension: a system flag `[n]`. -/
inductive Ty where
  | name (q : Qual)
  | array (a : Arr)
  | record (flag : Option Ex) (base : Option Qual) (fs : List Fl)
  | pointer (flag : Option Ex) (t : Ty)
  | proc (flag : Option Ex) (p : Option Pars)
  | bad
/-- What follows ARRAY. -/
inductive Arr where
  | opn (flag : Option Ex) (t : Ty)
  | last (flag : Option Ex) (n : Ex) (t : Ty)
  | dim (flag : Option Ex) (n : Ex) (a : Arr)
  | bad
/-- `FieldList = [IdentList ":" Type]`. -/
inductive Fl where
  | none
  | some (ds : List Def) (t : Ty)
/-- `FormalPars`. -/
inductive Pars where
  | mk (ps : List Sec) (res : Option Qual)
/-- `FPSection = [VAR] ident {"," ident} ":" Type`. -/
inductive Sec where
  | mk (var : Bool) (ns : List Name) (t : Ty)
end

mutual
/-- Statements. -/
inductive St where
  | empty
  | assign (q : Qual) (s : List Sel) (e : Ex)
  | call (q : Qual) (s : List Sel) (as : Option (List Ex))
  | ifs (e : Ex) (b : List St) (es : List Elsif) (els : Els)
  | cases (e : Ex) (cs : List Case) (els : Els)
  | whiles (e : Ex) (b : List St)
  | repeats (b : List St) (e : Ex)
  /-- Extension: the variable may be qualified. -/
  | fors (q : Qual) (a b : Ex) (by_ : Option Ex) (s : List St)
  | loop (b : List St)
  | withs (gs : List Guard) (els : Els)
  | exit
  | ret (e : Option Ex)
/-- `ELSIF Expr THEN StatementSeq`. -/
inductive Elsif where
  | mk (e : Ex) (b : List St)
/-- `[ELSE StatementSeq]`. -/
inductive Els where
  | none
  | some (b : List St)
/-- `Case = [CaseLabels {"," CaseLabels} ":" StatementSeq]`. -/
inductive Case where
  | none
  | some (ls : List El) (b : List St)
/-- `Guard DO StatementSeq`. -/
inductive Guard where
  | mk (v t : Qual) (b : List St)
end

/-- Declarations of one kind after CONST, TYPE or VAR. -/
inductive Sect where
  | const (ds : List (Def × Ex))
  | type (ds : List (Def × Ty))
  | var (ds : List (List Def × Ty))

/-- `Receiver = "(" [VAR] ident ":" ident ")"`. -/
structure Rcv where
  var : Bool
  name : Name
  type : Name

mutual
/-- Declarations and statements up to END. -/
inductive Block where
  | mk (ds : List Sect) (ps : List Proc) (b : Option (List St))
/-- Procedures.  The mark is the symbol after PROCEDURE: `^`; extensions: `*`, `+`, `-`. -/
inductive Proc where
  | mk (mark : Option Nat) (rcv : Option Rcv) (d : Def) (p : Option Pars) (b : Body)
  | bad
inductive Body where
  /-- A forward declaration. -/
  | none
  /-- Extension, for `-`: text to be copied into the C program, or a list of numbers. -/
  | text (t : Tok)
  | code (ns : List (Option Tok))
  | block (b : Block) (name : Name)
end

/-- A module. -/
structure Mod where
  name : Name
  imports : List (Name × Option Name)
  block : Block
  endName : Name

end Verif.Parse
