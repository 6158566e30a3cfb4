import Verif.CDecl.Spec

/-!
# Declarations in C: what the compiler writes

The declarations of variables, fields, parameters and procedures of OPC.Mod, as tokens.  All types with names have been defined in the C text before (`Undefined` is
false for them), and imported types without names (`strobj^.name = ""`) are as types without names.  The order of the definitions and the fields of records with
names are not part of this model.
-/
namespace Verif.CDecl

/-- `Stars`, OPC.Mod 137-161: what is written, and `openClause`.  The loop over pointers to pointers is written as a recursion. -/
def stars : OT → List Tok × Bool
  | .array _ e => ((stars e).1, true)
  | .openArr e => ((stars e).1, false)
  | .proc _ _ => ([.lpar, .star], false)
  | .pointer b => ((if b.isOpen then [] else (stars b).1 ++ if (stars b).2 then [.lpar] else []) ++ [.star], false)
  | _ => ([], false)

/-- The name of a parameter, if it is shown. -/
def nameTok (named : Bool) (x : Nm) : List Tok := if named then [.id x] else []

/-- `LenList` for the further dimensions, OPC.Mod 332-342. -/
def lenList (named : Bool) (x : Nat) : Nat → Nat → List Tok
  | 0, _ => []
  | k + 1, i => [.comma, .address] ++ nameTok named (.lenOf x i) ++ lenList named x k (i + 1)

/-- `DeclareObj` up to its loop, OPC.Mod 170-179, with the name `x`; `var` stands for `dcl^.mode = OPT.VarPar`. -/
def declHead (var scopeDef : Bool) (t : OT) (x : List Tok) : List Tok :=
  let varPar := (var && !t.isArray) || t.isOpen || scopeDef
  (stars t).1 ++ (if varPar then (if (stars t).2 then [.lpar] else []) ++ [.star] else []) ++ x ++ (if varPar && (stars t).2 then [.rpar] else [])

mutual
/-- `DeclareBase`, OPC.Mod 221-257. -/
def base : OT → List Tok
  | .named n _ => [.ty n]
  | .namedOpen _ e => base e
  | .record tag => [.struct, .tag tag]
  | .none => [.void]
  | .pointer b => if b.isOpen then [.struct, .lbrace, .address, .id .len, .lbrack, .num b.dims, .rbrack, .semi] ++ dataDecl b ++ [.semi, .rbrace] else base b
  | .array _ e => base e
  | .openArr e => base e
  | .proc _ r => base r
/-- The field `data`, OPC.Mod 247-255: an array of length 1 of the elements of the open array. -/
def dataDecl : OT → List Tok
  | .openArr e => if e.isOpen then dataDecl e else base e ++ (stars e).1 ++ [.id .data, .lbrack, .num 1, .rbrack] ++ tail false e
  | .namedOpen _ e => if e.isOpen then dataDecl e else base e ++ (stars e).1 ++ [.id .data, .lbrack, .num 1, .rbrack] ++ tail false e
  | _ => []
/-- The loop in `DeclareObj`, OPC.Mod 180-198, with the value of `openClause`. -/
def tail (openClause : Bool) : OT → List Tok
  | .pointer b => if b.isOpen then [] else tail true b
  | .array n e => (if openClause then [.rpar] else []) ++ [.lbrack, .num n, .rbrack] ++ tail false e
  | .openArr e => (if openClause then [.rpar] else []) ++ tail false e
  | .proc ps _ => (if openClause then [.rpar] else []) ++ [.rpar, .lpar] ++ params false true ps
  | _ => []
/-- `AnsiParamList`, OPC.Mod 676-702, after the opening parenthesis: `first` tells whether there is no parameter before. -/
def params (named first : Bool) : OL → List Tok
  | .nil => (if first then [.void] else []) ++ [.rpar]
  | .cons var x t rest => (if first then [] else [.comma]) ++ base t ++ declHead var false t (nameTok named (.obj x)) ++ tail false t ++
    (if t.isOpen then lenList named x t.dims 0 else if var && t.isRecord then [.comma, .address, .star] ++ nameTok named (.tagOf x) else []) ++
    params named false rest
end

/-- `DeclareObj`, OPC.Mod 165-199. -/
def declareObj (var scopeDef : Bool) (t : OT) (x : List Tok) : List Tok := declHead var scopeDef t x ++ tail false t

/-- `IdentList` for variables, OPC.Mod 633-674 with `vis` 0 (or 3: `scopeDef`): variables of the same type (and visibility) are listed together; the storage classes
and `= NIL` are left out.  The types are given with numbers, by which they are compared. -/
def identList (scopeDef : Bool) : Option Nat → List (Nat × Nat × OT) → List Tok
  | none, [] => []
  | some _, [] => [.semi]
  | b, (x, k, t) :: rest =>
    (if b = some k then [.comma] else (if b.isSome then [.semi] else []) ++ base t) ++ declareObj false scopeDef t [.id (.obj x)] ++ identList scopeDef (some k) rest

/-- `ProcHeader`, OPC.Mod 704-711, with a semicolon. -/
def procHeader (x : Nat) (ps : OL) (r : OT) : List Tok := base r ++ [.id (.obj x), .lpar] ++ params true true ps ++ [.semi]

end Verif.CDecl
