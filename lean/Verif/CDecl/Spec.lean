/-!
# Declarations in C: specification

How C reads a declaration (ISO C, 6.7: declaration specifiers, then a declarator that is read from the name outwards), which types there are in Oberon, and which
type of C stands for a type of Oberon.
-/
namespace Verif.CDecl

/-- Names of objects in the C text: of variables, fields and parameters, the fields of the structure behind a pointer to an open array, and the lengths and tags
handed over with parameters. -/
inductive Nm where
  | obj (x : Nat)
  | len
  | data
  | lenOf (x dim : Nat)
  | tagOf (x : Nat)
deriving DecidableEq, Repr

/-- Tokens.  C tells the names of types from other names by their declarations: `ty` is the name of a type. -/
inductive Tok where
  | ty (n : Nat)
  | address
  | void
  | struct
  | tag (n : Nat)
  | id (x : Nm)
  | num (n : Nat)
  | star | lpar | rpar | lbrack | rbrack | lbrace | rbrace | comma | semi
deriving DecidableEq, Repr

mutual
/-- Types of C: `anon` is a structure without a tag. -/
inductive CT where
  | void
  | address
  | name (n : Nat)
  | struct (tag : Nat)
  | anon (ms : CL)
  | ptr (t : CT)
  | array (n : Nat) (t : CT)
  | func (ps : CL) (res : CT)
/-- Members of a structure, or parameters: names may be missing. -/
inductive CL where
  | nil
  | cons (x : Option Nm) (t : CT) (rest : CL)
end

deriving instance DecidableEq for CT, CL

/-! ### How C reads -/

mutual
/-- The specifier: the type at the beginning of a declaration. -/
def readSpec : Nat → List Tok → Option (CT × List Tok)
  | 0, _ => none
  | n + 1, ts => match ts with
    | .ty k :: r => some (.name k, r)
    | .address :: r => some (.address, r)
    | .void :: r => some (.void, r)
    | .struct :: .tag k :: r => some (.struct k, r)
    | .struct :: .lbrace :: r => (readMembers n r).map fun m => (.anon m.1, m.2)
    | _ => none
/-- The members of a structure up to the brace. -/
def readMembers : Nat → List Tok → Option (CL × List Tok)
  | 0, _ => none
  | n + 1, ts => match ts with
    | .rbrace :: r => some (.nil, r)
    | ts => do
      let s ← readSpec n ts
      let d ← readDeclarator n s.2
      match d.2.2 with
      | .semi :: r => do
        let m ← readMembers n r
        some (.cons d.1 (d.2.1 s.1) m.1, m.2)
      | _ => none
/-- A declarator: the name, if there is one, and what becomes of the type of the specifier.  A star applies to the type before what follows. -/
def readDeclarator : Nat → List Tok → Option (Option Nm × (CT → CT) × List Tok)
  | 0, _ => none
  | n + 1, ts => match ts with
    | .star :: r => (readDeclarator n r).map fun d => (d.1, fun t => d.2.1 (.ptr t), d.2.2)
    | ts => readDirect n ts
/-- A declarator without stars.  A parenthesis before a star, a name or another parenthesis encloses a declarator. -/
def readDirect : Nat → List Tok → Option (Option Nm × (CT → CT) × List Tok)
  | 0, _ => none
  | n + 1, ts => match ts with
    | .id x :: r => (readSuffix n r).map fun s => (some x, s)
    | .lpar :: .star :: r => readParen n (.star :: r)
    | .lpar :: .lpar :: r => readParen n (.lpar :: r)
    | .lpar :: .id x :: r => readParen n (.id x :: r)
    | ts => (readSuffix n ts).map fun s => (none, s)
/-- A declarator in parentheses, and what comes after. -/
def readParen : Nat → List Tok → Option (Option Nm × (CT → CT) × List Tok)
  | 0, _ => none
  | n + 1, ts => do
    let d ← readDeclarator n ts
    match d.2.2 with
    | .rpar :: r => (readSuffix n r).map fun s => (d.1, fun t => d.2.1 (s.1 t), s.2)
    | _ => none
/-- The lengths of arrays and the parameters of functions after a name. -/
def readSuffix : Nat → List Tok → Option ((CT → CT) × List Tok)
  | 0, _ => none
  | n + 1, ts => match ts with
    | .lbrack :: .num k :: .rbrack :: r => (readSuffix n r).map fun s => (fun t => .array k (s.1 t), s.2)
    | .lpar :: r => do
      let p ← readParams n r
      (readSuffix n p.2).map fun s => (fun t => .func p.1 (s.1 t), s.2)
    | ts => some (fun t => t, ts)
/-- Parameters up to the closing parenthesis; `void` alone stands for none. -/
def readParams : Nat → List Tok → Option (CL × List Tok)
  | 0, _ => none
  | n + 1, ts => match ts with
    | .void :: .rpar :: r => some (.nil, r)
    | ts => do
      let s ← readSpec n ts
      let d ← readDeclarator n s.2
      match d.2.2 with
      | .rpar :: r => some (.cons d.1 (d.2.1 s.1) .nil, r)
      | .comma :: r => do
        let p ← readParams n r
        some (.cons d.1 (d.2.1 s.1) p.1, p.2)
      | _ => none
end

/-- Further declarators of a declaration, up to the semicolon: each begins with the type of the specifier. -/
def readMore : Nat → CT → List Tok → Option (List (Option Nm × CT) × List Tok)
  | 0, _, _ => none
  | n + 1, s, ts => do
    let d ← readDeclarator n ts
    match d.2.2 with
    | .semi :: r => some ([(d.1, d.2.1 s)], r)
    | .comma :: r => do
      let l ← readMore n s r
      some ((d.1, d.2.1 s) :: l.1, l.2)
    | _ => none

/-- A declaration: a specifier, declarators and a semicolon. -/
def readDecl (n : Nat) (ts : List Tok) : Option (List (Option Nm × CT) × List Tok) := do
  let s ← readSpec n ts
  readMore n s.1 s.2

/-- Declarations one after the other. -/
def readDecls : Nat → List Tok → Option (List (Option Nm × CT))
  | 0, _ => none
  | n + 1, ts => match ts with
    | [] => some []
    | ts => do
      let d ← readDecl n ts
      let r ← readDecls n d.2
      some (d.1 ++ r)

/-- What the tokens are read as; the number above only bounds the depth of the reading. -/
def Reads {α : Type} (f : Nat → Option α) (a : α) : Prop := ∃ n0, ∀ n, n0 ≤ n → f n = some a

/-! ### Types of Oberon -/

/-- What is known of a type with a name. -/
inductive Kind where
  | record | array | other
deriving DecidableEq, Repr

mutual
/-- Types: with a name (declared before in the C text under this name), open arrays with a name, and types without a name: records, which have a tag, pointers,
arrays, open arrays and procedure types.  `none` is the result of a proper procedure. -/
inductive OT where
  | named (n : Nat) (k : Kind)
  | namedOpen (n : Nat) (elem : OT)
  | record (tag : Nat)
  | none
  | pointer (base : OT)
  | array (n : Nat) (elem : OT)
  | openArr (elem : OT)
  | proc (ps : OL) (res : OT)
/-- Parameters: whether it is a variable parameter, its name and its type. -/
inductive OL where
  | nil
  | cons (var : Bool) (x : Nat) (t : OT) (rest : OL)
end

def OT.isOpen : OT → Bool
  | .openArr _ => true
  | .namedOpen _ _ => true
  | _ => false

def OT.isArray : OT → Bool
  | .array _ _ => true
  | .named _ .array => true
  | _ => false

def OT.isRecord : OT → Bool
  | .record _ => true
  | .named _ .record => true
  | _ => false

/-- A type with a name, or a record. -/
def OT.isPlain : OT → Bool
  | .named _ _ => true
  | .record _ => true
  | _ => false

/-- The number of open dimensions. -/
def OT.dims : OT → Nat
  | .openArr e => e.dims + 1
  | .namedOpen _ e => e.dims + 1
  | _ => 0

mutual
/-- What the language allows: pointers are to records and arrays, elements of arrays are no open arrays, results have a name. -/
def Legal : OT → Prop
  | .named _ _ => True
  | .namedOpen _ e => Legal e
  | .record _ => True
  | .none => False
  | .pointer b => (b.isRecord ∨ b.isArray ∨ b.isOpen) ∧ Legal b
  | .array _ e => e.isOpen = false ∧ Legal e
  | .openArr e => Legal e
  | .proc ps r => LegalL ps ∧ (r = .none ∨ ∃ n k, r = .named n k)
def LegalL : OL → Prop
  | .nil => True
  | .cons _ _ t rest => Legal t ∧ LegalL rest
end

/-- The type of C for lengths of open arrays: `ADDRESS len[n]`. -/
def lenMember (dims : Nat) (rest : CL) : CL := .cons (some .len) (.array dims .address) rest

/-- The parameters with the lengths of an open array of the name `x` (`Nm.lenOf`), from dimension `i` on. -/
def lenParams (named : Bool) (x : Nat) : Nat → Nat → CL → CL
  | 0, _, rest => rest
  | k + 1, i, rest => .cons (if named then some (.lenOf x i) else .none) .address (lenParams named x k (i + 1) rest)

mutual
/-- The type of C for a type of Oberon: arrays and pointers are arrays and pointers, except for pointers to open arrays, which are to a structure with the lengths and the
elements; procedures are pointers to functions.  For an open array it is the type of its elements. -/
def ctype : OT → CT
  | .named n _ => .name n
  | .namedOpen _ e => ctype e
  | .record tag => .struct tag
  | .none => .void
  | .pointer b => if b.isOpen then .ptr (.anon (lenMember b.dims (.cons (some .data) (.array 1 (ctype b)) .nil))) else .ptr (ctype b)
  | .array n e => .array n (ctype e)
  | .openArr e => ctype e
  | .proc ps r => .ptr (.func (cparams false ps) (ctype r))
/-- The parameters of a function: variable parameters that are no arrays and open arrays are handed over by pointers; open arrays are followed by their lengths, and
records handed over by pointers by their tags. -/
def cparams (named : Bool) : OL → CL
  | .nil => .nil
  | .cons var x t rest =>
    .cons (if named then some (.obj x) else .none) (if (var && !t.isArray) || t.isOpen then .ptr (ctype t) else ctype t)
      (if t.isOpen then lenParams named x t.dims 0 (cparams named rest)
       else if var && t.isRecord then .cons (if named then some (.tagOf x) else .none) (.ptr .address) (cparams named rest)
       else cparams named rest)
end

/-! ### Where the compiler errs -/

/-- The elements of an open array: no array without a name; and if one of the open arrays has a name, the elements have a name or are records. -/
def OpenOk : OT → Prop
  | .namedOpen _ e => Plain e
  | .openArr e => OpenOk e
  | .array _ _ => False
  | _ => True
where
  /-- A type with a name or a record, after open arrays. -/
  Plain : OT → Prop
  | .named _ _ => True
  | .record _ => True
  | .namedOpen _ e => Plain e
  | .openArr e => Plain e
  | _ => False

mutual
/-- All open arrays that are parameters, here and in procedure types within, are as in `OpenOk`. -/
def Calm : OT → Prop
  | .named _ _ => True
  | .namedOpen _ e => Calm e
  | .record _ => True
  | .none => True
  | .pointer b => Calm b
  | .array _ e => Calm e
  | .openArr e => Calm e
  | .proc ps _ => CalmL ps
def CalmL : OL → Prop
  | .nil => True
  | .cons _ _ t rest => (t.isOpen → OpenOk t) ∧ Calm t ∧ CalmL rest
end

end Verif.CDecl
