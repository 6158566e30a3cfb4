import Verif.ShowDef.Model

/-!
# Specification: how a definition is read
-/
namespace Verif.ShowDef

/-- The characters of identifiers. -/
def isId (c : Char) : Bool := ('a' ≤ c && c ≤ 'z') || ('A' ≤ c && c ≤ 'Z') || ('0' ≤ c && c ≤ '9') || c == '_'

/-- The words of the language that can be at the place of an identifier in a definition. -/
def reserved : List Name :=
  ["POINTER", "PROCEDURE", "ARRAY", "RECORD", "END", "VAR", "OF", "TO", "CONST", "TYPE", "IMPORT"].map String.toList

/-- An identifier. -/
def Ident (n : Name) : Prop := n ≠ [] ∧ (∀ c ∈ n, isId c) ∧ n ∉ reserved

/-- Takes a text away that must be there. -/
def skip : List Char → List Char → Option (List Char)
  | [], s => some s
  | c :: p, d :: s => if c = d then skip p s else none
  | _ :: _, [] => none

/-- The longest word at the beginning, and the rest. -/
def word (s : List Char) : List Char × List Char := (s.takeWhile isId, s.dropWhile isId)

/-- The value of a digit and of a number. -/
def dv (c : Char) : Nat := if c.toNat ≤ 57 then c.toNat - 48 else c.toNat - 55
def val (b : Nat) (s : List Char) : Nat := s.foldl (fun a c => a * b + dv c) 0

def isDigit (c : Char) : Bool := '0' ≤ c && c ≤ '9'

/-- `[` number `H] `, or nothing. -/
def readFlag : List Char → Option (Nat × List Char)
  | '[' :: s => (skip "H] ".toList (s.dropWhile (· ≠ 'H'))).map fun r => (val 16 (s.takeWhile (· ≠ 'H')), r)
  | s => some (0, s)

/-- `VAR` and an identifier, or an identifier. -/
def readVar (s : List Char) : Option (Bool × Name × List Char) :=
  let (w, r) := word s
  if w = "VAR".toList then (skip [' '] r).map fun r => (true, (word r).1, (word r).2) else some (false, w, r)

/-- `-` or nothing. -/
def readMark : List Char → Bool × List Char
  | '-' :: s => (true, s)
  | s => (false, s)

def blanks (s : List Char) : List Char := s.dropWhile (· = ' ')

mutual
/-- A type.  The first argument bounds the recursion. -/
def readTy : Nat → List Char → Option (Ty × List Char)
  | 0, _ => none
  | f + 1, s =>
    if s.head? = some '#' then
      let (w, r) := word s.tail
      some (.hidden w, r)
    else
      let (w, r) := word s
      if w = "POINTER".toList then do
        let r ← skip [' '] r
        let (flag, r) ← readFlag r
        let r ← skip "TO ".toList r
        let (b, r) ← readTy f r
        pure (.pointer flag b, r)
      else if w = "PROCEDURE".toList then do
        let r ← skip [' '] r
        let (flag, r) ← readFlag r
        let (ps, t, r) ← readSign f r
        pure (.proc flag ps t, r)
      else if w = "ARRAY".toList then do
        let r ← skip [' '] r
        let (flag, r) ← readFlag r
        if r.head? = some 'O' then
          let r ← skip "OF ".toList r
          let (b, r) ← readTy f r
          pure (.dyn flag b, r)
        else
          let n := val 10 (r.takeWhile isDigit)
          let r ← skip " OF ".toList (r.dropWhile isDigit)
          let (b, r) ← readTy f r
          pure (.arr flag n b, r)
      else if w = "RECORD".toList then do
        let r ← skip [' '] r
        let (flag, r) ← readFlag r
        let (base, r) ← readBase f r
        let r ← skip ['\n'] r
        let (fs, r) ← readFlds f r
        let (ms, r) ← readMths f r
        pure (.record flag base fs ms, r)
      else if r.head? = some '.' then
        some (.named (some w) (word r.tail).1, (word r.tail).2)
      else some (.named none w, r)
/-- The base type of a record. -/
def readBase : Nat → List Char → Option (Res × List Char)
  | 0, _ => none
  | f + 1, s =>
    if s.head? = some '(' then do
      let (t, r) ← readTy f s.tail
      let r ← skip [')'] r
      pure (.some t, r)
    else some (.none, s)
/-- Parameters and result. -/
def readSign : Nat → List Char → Option (Pars × Res × List Char)
  | 0, _ => none
  | f + 1, s =>
    if s.head? = some '(' then do
      let (ps, r) ← readPars0 f s.tail
      let r ← skip [')'] r
      if r.head? = some ':' then
        let r ← skip [':', ' '] r
        let (t, r) ← readTy f r
        pure (ps, .some t, r)
      else pure (ps, .none, r)
    else some (.nil, .none, s)
/-- Parameters. -/
def readPars0 : Nat → List Char → Option (Pars × List Char)
  | 0, _ => none
  | f + 1, s => if s.head? = some ')' then some (.nil, s) else readPars f s
/-- At least one parameter. -/
def readPars : Nat → List Char → Option (Pars × List Char)
  | 0, _ => none
  | f + 1, s => do
    let (var, n, r) ← readVar s
    let r ← skip [':', ' '] r
    let (t, r) ← readTy f r
    if r.head? = some ';' then
      let r ← skip [';', ' '] r
      let (ps, r) ← readPars f r
      pure (.cons var n t ps, r)
    else pure (.cons var n t .nil, r)
/-- Fields, until a procedure or the end. -/
def readFlds : Nat → List Char → Option (Flds × List Char)
  | 0, _ => none
  | f + 1, s =>
    let (w, r) := word (blanks s)
    if w = "END".toList ∨ w = "PROCEDURE".toList then some (.nil, s)
    else do
      let (ro, r) := readMark r
      let r ← skip [':', ' '] r
      let (t, r) ← readTy f r
      let r ← skip [';', '\n'] r
      let (fs, r) ← readFlds f r
      pure (.cons w ro t fs, r)
/-- Methods, until the end. -/
def readMths : Nat → List Char → Option (Mths × List Char)
  | 0, _ => none
  | f + 1, s =>
    let (w, r) := word (blanks s)
    if w = "END".toList then some (.nil, r)
    else do
      let r ← skip [' ', '('] r
      let (rvar, rn, r) ← readVar r
      let r ← skip [':', ' '] r
      let (rt, r) ← readTy f r
      let r ← skip [')', ' '] r
      let (n, r) := word r
      let (ps, t, r) ← readSign f r
      let r ← skip [';', '\n'] r
      let (ms, r) ← readMths f r
      pure (.cons rvar rn rt n ps t ms, r)
end

/-- `+` or `-` before the name of a procedure. -/
def readKind : List Char → Kind × List Char
  | '+' :: s => (.inl, s)
  | '-' :: s => (.code [], s)
  | s => (.plain, s)

/-- The code of a code procedure. -/
def readCode : Kind → List Char → Option (Kind × List Char)
  | .code _, s => do
    let r ← skip [' ', ' ', '"'] s
    let q ← skip ['"'] (r.dropWhile (· ≠ '"'))
    pure (.code (r.takeWhile (· ≠ '"')), q)
  | k, s => some (k, s)

/-- A declaration of a type, a variable or a procedure. -/
def readDecl (f : Nat) (s : List Char) : Option (Decl × List Char) :=
  if (blanks s).head? = some '#' then do
    let (w, r) := word (blanks s).tail
    let r ← skip [' ', '=', ' '] r
    let (t, r) ← readTy f r
    let r ← skip [';', '\n'] r
    pure (.typ true w t, r)
  else
    let (w, r) := word (blanks s)
    if w = "PROCEDURE".toList then do
      let r ← skip [' '] r
      let (k, r) := readKind r
      let (n, r) := word r
      let (ps, t, r) ← readSign f r
      let (k, r) ← readCode k r
      let r ← skip [';', '\n'] r
      pure (.proc k n ps t, r)
    else if r.head? = some ' ' then do
      let r ← skip [' ', '=', ' '] r
      let (t, r) ← readTy f r
      let r ← skip [';', '\n'] r
      pure (.typ false w t, r)
    else do
      let (ro, r) := readMark r
      let r ← skip [':', ' '] r
      let (t, r) ← readTy f r
      let r ← skip [';', '\n'] r
      pure (.var w ro t, r)

/-- The elements of a set, until `}`. -/
def readElems : Nat → List Char → Option (List Nat × List Char)
  | 0, _ => none
  | f + 1, s =>
    if s.head? = some '}' then some ([], s.tail)
    else if (s.dropWhile isDigit).head? = some ',' then do
      let r ← skip [',', ' '] (s.dropWhile isDigit)
      let (l, r) ← readElems f r
      pure (val 10 (s.takeWhile isDigit) :: l, r)
    else do
      let r ← skip ['}'] (s.dropWhile isDigit)
      pure ([val 10 (s.takeWhile isDigit)], r)

/-- The value of a text in quotes. -/
def quoted : List Char → Value
  | [c] => .char c.toNat
  | t => .str t

/-- A value.  A text of one character in quotes is a character.  A number begins with a digit; with `X` at its end it is the
number of a character, in hexadecimal. -/
def readValue (f : Nat) (s : List Char) : Option (Value × List Char) :=
  if s.head? = some '"' then do
    let t := s.tail.takeWhile (· ≠ '"')
    let r ← skip ['"'] (s.tail.dropWhile (· ≠ '"'))
    pure (quoted t, r)
  else if s.head? = some '{' then (readElems f s.tail).map fun (l, r) => (.set l, r)
  else if s.head? = some '-' then
    some (.int (-(val 10 (s.tail.takeWhile isDigit) : Nat)), s.tail.dropWhile isDigit)
  else
    let (w, r) := word s
    if w = "TRUE".toList then some (.bool true, r)
    else if w = "FALSE".toList then some (.bool false, r)
    else if w = "NIL".toList then some (.nil, r)
    else if (w.head?.map isDigit).getD false then
      if w.getLast? = some 'X' then some (.char (val 16 w.dropLast), r) else some (.int (val 10 w), r)
    else none

/-- A constant. -/
def readConst (f : Nat) (s : List Char) : Option (Name × Value × List Char) := do
  let (w, r) := word (blanks s)
  let r ← skip [' ', '=', ' '] r
  let (v, r) ← readValue f (blanks r)
  let r ← skip [';', '\n'] r
  pure (w, v, r)

/-! ## What a client can use -/

mutual
/-- The names are identifiers. -/
def Ty.Ok : Ty → Prop
  | .named none n => Ident n
  | .named (some m) n => Ident m ∧ Ident n
  | .hidden n => Ident n
  | .pointer _ b => b.Ok
  | .proc _ ps r => ps.Ok ∧ r.Ok
  | .arr _ _ b => b.Ok
  | .dyn _ b => b.Ok
  | .record _ base fs ms => base.Ok ∧ fs.Ok ∧ ms.Ok
def Res.Ok : Res → Prop
  | .none => True
  | .some t => t.Ok
def Pars.Ok : Pars → Prop
  | .nil => True
  | .cons _ n t ps => Ident n ∧ t.Ok ∧ ps.Ok
/-- A field that is not exported has a name that begins with `@`. -/
def Flds.Ok : Flds → Prop
  | .nil => True
  | .cons n _ t fs => (Ident n ∧ t.Ok ∨ n.head? = some '@') ∧ fs.Ok
/-- A method that is not exported has the name `@tproc`. -/
def Mths.Ok : Mths → Prop
  | .nil => True
  | .cons _ rn rt n ps r ms => (Ident rn ∧ rt.Ok ∧ Ident n ∧ ps.Ok ∧ r.Ok ∨ n = "@tproc".toList) ∧ ms.Ok
end

mutual
/-- The type without what is not exported. -/
def Ty.visible : Ty → Ty
  | .named m n => .named m n
  | .hidden n => .hidden n
  | .pointer fl b => .pointer fl b.visible
  | .proc fl ps r => .proc fl ps.visible r.visible
  | .arr fl n b => .arr fl n b.visible
  | .dyn fl b => .dyn fl b.visible
  | .record fl base fs ms => .record fl base.visible fs.visible ms.visible
def Res.visible : Res → Res
  | .none => .none
  | .some t => .some t.visible
def Pars.visible : Pars → Pars
  | .nil => .nil
  | .cons v n t ps => .cons v n t.visible ps.visible
def Flds.visible : Flds → Flds
  | .nil => .nil
  | .cons n ro t fs => if n.head? = some '@' then fs.visible else .cons n ro t.visible fs.visible
def Mths.visible : Mths → Mths
  | .nil => .nil
  | .cons rv rn rt n ps r ms =>
    if n = "@tproc".toList then ms.visible else .cons rv rn rt.visible n ps.visible r.visible ms.visible
end

/-- The code of a code procedure has no quote. -/
def Kind.Ok : Kind → Prop
  | .code c => '"' ∉ c
  | _ => True

def Decl.Ok : Decl → Prop
  | .typ _ n t => Ident n ∧ t.Ok
  | .var n _ t => Ident n ∧ t.Ok
  | .proc k n ps r => k.Ok ∧ Ident n ∧ ps.Ok ∧ r.Ok

def Decl.visible : Decl → Decl
  | .typ h n t => .typ h n t.visible
  | .var n ro t => .var n ro t.visible
  | .proc k n ps r => .proc k n ps.visible r.visible

/-- Characters from 0 to 9FX other than the quote, all 64-bit integers, sets of numbers to 63, strings without quotes that are
not one character (such a string is a character). -/
def Value.Ok : Value → Prop
  | .char n => n < 160 ∧ n ≠ 34
  | .int i => -2 ^ 63 ≤ i ∧ i < 2 ^ 63
  | .set l => l.Pairwise (· < ·) ∧ ∀ x ∈ l, x < 64
  | .str s => '"' ∉ s ∧ s.length ≠ 1
  | _ => True

/-- The text after a type. -/
def Follow (s : List Char) : Prop := s.head? = some ';' ∨ s.head? = some ')' ∨ s.head? = some ' '

end Verif.ShowDef
