import Verif.CNames.Spec

/-!
# The names in the C text: `OPC.Ident`, src/compiler/OPC.Mod 97-135, `OPV.Stamp` and `OPV.Traverse`, src/compiler/OPV.Mod 84-130

Simplifications.  A scope is the list of its declarations in the order of the tree.  `Traverse` visits the module twice and the procedures
bound to a type when it meets the type; here each is visited once, in order (numbers are given in another order).  Constants, fields
and procedures without bodies are left out.  Parameters of procedures bound to a type are taken to have names of at most 31
characters (longer ones are cut, see `cut`).  The record for the variables of a procedure (`DefineInter`) is always written, and a
variable for a WITH statement for every tagged variable.
-/
namespace Verif.CNames

/-- The keywords that are entered, src/compiler/OPC.Mod 1274-1321. -/
def entered : List Name :=
  ["ADDRESS", "INT16", "INT32", "INT64", "INT8", "UINT16", "UINT32", "UINT64", "UINT8", "asm", "auto", "break", "case", "char", "const",
   "continue", "default", "do", "double", "else", "enum", "extern", "export", "float", "for", "fortran", "goto", "if", "import", "int",
   "long", "register", "return", "short", "signed", "sizeof", "size_t", "static", "struct", "switch", "typedef", "union", "unsigned",
   "void", "volatile", "while"].map String.toList

/-- `h` in `PerfectHash`, src/compiler/OPC.Mod 100. -/
def hashSum (s : Name) : Nat := (s.take 5).foldl (fun h c => 3 * h + c.toNat) 0

/-- `PerfectHash`, src/compiler/OPC.Mod 97-102. -/
def perfectHash (s : Name) : Nat := hashSum s % 105

/-- `Enter`, src/compiler/OPC.Mod 1265-1268: `hashtab[h] := n; COPY(s, keytab[n])`; the table gives the keyword directly. -/
def enter (t : Nat → Option Name) (s : Name) : Nat → Option Name := fun h => if h = perfectHash s then some s else t h

/-- `InitKeywords`, src/compiler/OPC.Mod 1262-1321. -/
def table : Nat → Option Name := entered.foldl enter fun _ => none

/-- `Ident` for variables, parameters and local procedures and types, src/compiler/OPC.Mod 108-113. -/
def ident (n : Name) : Name := if table (perfectHash n) = some n then n ++ ['_'] else n

/-- The digits of the number in `Stamp`, src/compiler/OPV.Mod 92-93 (an INTEGER has at most 5). -/
def decs : Nat → Nat → List Char
  | 0, _ => []
  | f + 1, j => (if j / 10 = 0 then [] else decs f (j / 10)) ++ [Char.ofNat (j % 10 + 48)]

def dec (k : Nat) : List Char := decs 5 k

/-- `Stamp`, src/compiler/OPV.Mod 84-95; `k` is `stamp` after INC. -/
def stampName (k : Nat) (s : Name) : Name := s.take 25 ++ ['_', '_'] ++ dec k

/-- An object of a module: src/compiler/OPC.Mod 121-132. -/
def qual (m x : Name) : Name := m ++ ['_'] ++ x

/-- `LenExt` etc., src/compiler/OPC.Mod 25-31, 979, 1095. -/
def lenExt : Name := "__len".toList
def typExt : Name := "__typ".toList
def copyExt : Name := "__copy".toList
def withExt : Name := "__".toList
def scopeExt : Name := "_s".toList
def linkName : Name := "lnk".toList

/-- `LenList`, src/compiler/OPC.Mod 332-342. -/
def lens (v : Var) : List Name :=
  if v.dims = 0 then []
  else (ident v.name ++ lenExt) :: (List.range (v.dims - 1)).map fun i => ident v.name ++ lenExt ++ dec (i + 1)

/-- `IdentList` and `AnsiParamList`, src/compiler/OPC.Mod 633-702: what is declared for a variable or parameter. -/
def memberNames (v : Var) : List Name :=
  [ident v.name] ++ lens v ++ (if v.tagged then [ident v.name ++ typExt] else [])

/-- In a function, besides: a copy (src/compiler/OPC.Mod 979), the variable of a WITH statement (1095, src/compiler/OPV.Mod 690-696). -/
def localNames (v : Var) : List Name :=
  memberNames v ++ (if v.tagged then [ident v.name ++ withExt] else []) ++ (if v.copied then [ident v.name ++ copyExt] else [])

/-- A name declared in the C text. -/
structure Entry where
  place : Place
  name : Name
deriving DecidableEq, Repr

/-- What is declared for a variable in function `f`. -/
def varEntries (f : Nat) (v : Var) : List Entry :=
  (localNames v).map (⟨.local f, ·⟩) ++ (memberNames v).map (⟨.member f, ·⟩)

/-- What else is declared for a procedure with scope name `sc` and number `f`: its record, the variable that points to it (src/compiler/OPC.Mod
938-953), the record in the function and the variable for the result (970-973), the link (948-949). -/
def procEntries (f : Nat) (sc : Name) : List Entry :=
  [⟨.file, sc⟩, ⟨.file, sc ++ scopeExt⟩, ⟨.local f, scopeExt⟩, ⟨.local f, "__retval".toList⟩, ⟨.member f, linkName⟩]

mutual
/-- `Traverse` for one object, src/compiler/OPV.Mod 97-130, and the names that are then declared for it.  `m` is the module, `f` the number
of the procedure it is in (if `lev > 0`), `k` is `stamp`. -/
def declEntries (m : Name) (lev f : Nat) : Decl → Nat → List Entry × Nat
  | .var v, k => if lev = 0 then ([⟨.file, qual m v.name⟩], k) else (varEntries f v, k)
  | .loop, k =>
    let n := stampName (k + 1) "_for".toList
    (if lev = 0 then [⟨.file, qual m n⟩] else [⟨.local f, n⟩, ⟨.member f, n⟩], k + 1)
  | .typ n record, k =>
    if lev = 0 then (⟨.file, qual m n⟩ :: (if record then [⟨.file, qual m n ++ typExt⟩] else []), k)
    else
      let n := ident (stampName (k + 1) n)
      (⟨.file, n⟩ :: (if record then [⟨.file, n ++ typExt⟩] else []), k + 1)
  | .proc n ds, k =>
    let (name, n, k) := if lev = 0 then (qual m n, n, k) else (ident (stampName (k + 1) n), stampName (k + 1) n, k + 1)
    let (es, k') := declsEntries m (lev + 1) (k + 1) ds (k + 1)
    (⟨.file, name⟩ :: procEntries (k + 1) (stampName (k + 1) n) ++ es, k')
  | .bound t n ds, k =>
    let (es, k') := declsEntries m (lev + 1) (k + 1) ds (k + 1)
    (⟨.file, qual (qual m t) n⟩ :: procEntries (k + 1) (stampName (k + 1) n) ++ es, k')
def declsEntries (m : Name) (lev f : Nat) : List Decl → Nat → List Entry × Nat
  | [], k => ([], k)
  | d :: ds, k =>
    let (es, k) := declEntries m lev f d k
    let (es', k) := declsEntries m lev f ds k
    (es ++ es', k)
end

/-- The body of a module, src/compiler/OPC.Mod 50, 907-915. -/
def initName (m : Name) : Name := m ++ "__init".toList

/-- The names in the C text of a module, and the last number used. -/
def moduleEntries (m : Module) : List Entry × Nat :=
  let (es, k) := declsEntries m.name 0 0 m.decls 0
  (⟨.file, initName m.name⟩ ::
    (m.imports.map fun i => ⟨.file, initName i.1⟩ :: i.2.map fun x => ⟨.file, qual i.1 x⟩).flatten ++ es, k)

/-- `Andent` for records without a name, src/compiler/OPC.Mod 200-207; `n` is the number of the record (src/compiler/OPT.Mod 338). -/
def andent (m : Name) (n : Nat) : Name := m ++ "__".toList ++ dec n

/-- The parameters in a macro, `DeclareParams` with `macro`, src/compiler/OPC.Mod 344-362. -/
def macroParams (ps : List Var) : List Name :=
  (ps.map fun v => v.name :: (if v.dims ≠ 0 then lens v else if v.tagged then [v.name ++ typExt] else [])).flatten

/-- What `AnsiParamList(…, FALSE)` leaves of the names (an ARRAY 32 OF CHAR), src/compiler/OPC.Mod 677, 687. -/
def cut (v : Var) : Var := { v with name := v.name.take 31 }

/-- The macro for a procedure bound to a type, `DefineTProcMacros`, src/compiler/OPC.Mod 407-433: its parameters, and the names in its body.
The first parameter is the receiver. -/
def macroNames (r : Var) (ps : List Var) : List Name × List Name :=
  (macroParams (r :: ps),
    (if r.tagged then ident r.name ++ typExt else ident r.name) :: macroParams ((r :: ps).map cut))

end Verif.CNames
