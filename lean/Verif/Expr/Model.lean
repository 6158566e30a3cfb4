/-!
# The C text of expressions

`Precedence`, `expr`, `design`, `Index`, `Len`, `Convert`, `ActualPar` of src/compiler/OPV.Mod with `CompleteIdent` of
src/compiler/OPC.Mod.

The text is modelled as a sequence of C tokens; an operator records whether it is written between blanks.  The nodes of the
syntax tree carry what the procedures look at: whether a node is an array, a set, at an intermediate level and so on, instead
of types and objects.

Left out: `Neguard` (only as the left side of an assignment), open arrays of SYSTEM.BYTE as parameters, and the texts of type
tags and of the lengths of arrays, which are identifiers or numbers (see C45), except for those of arrays on the heap.
-/
namespace Verif.Expr

/-- Operators of C. -/
inductive COp where
  | star | amp | minus | tilde | bang | plus | slash | caret | bar | andand | oror | eq | ne | lt | le | gt | ge
deriving DecidableEq, Repr

/-- Tokens of C.  `ty` is a type name. -/
inductive Tok where
  | lp | rp | lb | rb | comma | dot | arrow
  | num (n : Nat)
  | lit (s : String)
  | id (s : String)
  | ty (s : String)
  | op (o : COp) (spaced : Bool)
deriving DecidableEq, Repr

/-- Relations. -/
inductive Rel where
  | eql | neq | lss | leq | gtr | geq
deriving DecidableEq, Repr

/-- Other operators written between their operands. -/
inductive Bop where
  | times | slash | plus | minus | and | or
deriving DecidableEq, Repr

/-- Operators written as functions. -/
inductive Fop where
  | div | mod | isin | ash | msk | bit | lsh | rot
deriving DecidableEq, Repr

/-- Where a variable is: in the current procedure or global; in an enclosing procedure, with the name of its scope, and
whether the pointer to it is dereferenced; or a WITH-variable of pointer type, with the type. -/
inductive Loc where
  | here
  | outer (scope : String) (deref : Bool)
  | withPtr (ty : String)
deriving DecidableEq, Repr

/-- A length: a number, a name, or a word of an array on the heap. -/
inductive Ln where
  | num (n : Nat)
  | name (scope : Option String) (s : String)
  | heap (dim : Nat)
deriving DecidableEq, Repr

/-- The cases of `Convert`, src/compiler/OPV.Mod 258-278, and `SizeCast`, 245-256. -/
inductive Conv where
  | setOf (bits : Nat)
  | short (ub : Nat)
  | size (cast : Option String)
  | chr
  | chrCast
  | other
deriving DecidableEq, Repr

/-- What `ActualPar` writes before an argument, src/compiler/OPV.Mod 411-429. -/
inductive Pre where
  | none
  | void
  | addr
  | voidAddr
  | chars
  | val (ty : String) (void addr : Bool)
deriving DecidableEq, Repr

mutual
/-- Nodes of the syntax tree. -/
inductive Nd where
  | int (v : Int)
  | lit (s : String)
  /-- A real constant with an integer value. -/
  | rint (tn : String) (v : Int)
  | rlit (neg : Bool) (s : String)
  | upto (bits : Nat) (l r : Nd)
  | var (x : String) (loc : Loc)
  | varpar (x : String) (loc : Loc) (arr : Bool)
  | proc (x : String)
  | field (l : Nd) (f : String)
  | deref (dyn : Bool) (l : Nd)
  | index (l i : Nd) (chk : Bool) (len : Ln)
  /-- An element, or with `open_` a part, of an open array: the indices, last one first, and the lengths of the remaining
  dimensions. -/
  | hindex (open_ : Bool) (d : Nd) (ix : Ixs) (rem : List Ln)
  | guardp (chk anon : Bool) (tn : String) (lev : Nat) (l : Nd)
  | guardr (chk : Bool) (tn : String) (lev : Nat) (x : String) (loc : Loc)
  | not (l : Nd)
  | neg (set : Bool) (l : Nd)
  | isp (l : Nd) (tn : String) (lev : Nat)
  | isr (x : String) (loc : Loc) (tn : String) (lev : Nat)
  | conv (c : Conv) (real : Bool) (l : Nd)
  | abs (real small : Bool) (l : Nd)
  | cap (l : Nd)
  | odd (l : Nd)
  | adr (amp : Bool) (l : Nd)
  /-- SYSTEM.VAL, as a cast or by the macro `__VAL`. -/
  | val (tn : String) (addr cast : Bool) (l : Nd)
  | len (l : Nd) (len : Ln)
  | fop (o : Fop) (small : Bool) (bits : Nat) (l r : Nd)
  | strcmp (r : Rel) (a b : Nd)
  | rel (o : Rel) (void : Bool) (l r : Nd)
  /-- `cast` is the type a divisor is converted to. -/
  | bop (o : Bop) (set : Bool) (cast : Option String) (l r : Nd)
  | callp (f : String) (as : Args)
  | callv (l : Nd) (as : Args)
/-- Indices of an open array, last one first, whether they are checked, with the length of their dimension. -/
inductive Ixs where
  | one (i : Nd) (chk : Bool) (len : Ln)
  | more (i : Nd) (chk : Bool) (len : Ln) (rest : Ixs)
/-- Arguments, each followed by lengths or a type tag. -/
inductive Args where
  | nil
  | cons (pre : Pre) (n : Nd) (ext : List Ln) (rest : Args)
end

mutual
/-- `SideEffects`, src/compiler/OPV.Mod 230-235: does the expression contain a call?  The arguments of a call play no part. -/
def sideEff : Nd → Bool
  | .callp _ _ | .callv _ _ => true
  | .upto _ l r | .index l r _ _ | .fop _ _ _ l r | .strcmp _ l r | .rel _ _ l r | .bop _ _ _ l r => sideEff l || sideEff r
  | .hindex _ d ix _ => sideEff d || sideEffs ix
  | .field l _ | .deref _ l | .guardp _ _ _ _ l | .not l | .neg _ l | .isp l _ _ | .conv _ _ l | .abs _ _ l | .cap l
  | .odd l | .adr _ l | .val _ _ _ l | .len l _ => sideEff l
  | _ => false
def sideEffs : Ixs → Bool
  | .one i _ _ => sideEff i
  | .more i _ _ r => sideEff i || sideEffs r
end

/-- Precedence of relations, src/compiler/OPV.Mod 189-194. -/
def relPrec : Rel → Int
  | .eql | .neq => 5
  | _ => 6

/-- Precedence of operators, src/compiler/OPV.Mod 182-196. -/
def bopPrec : Bop → Bool → Int
  | .times, set => if set then 4 else 8
  | .slash, set => if set then 3 else 8
  | .plus, set => if set then 2 else 7
  | .minus, set => if set then 4 else 7
  | .and, _ => 1
  | .or, _ => 0

/-- `OPC.Cmp`, src/compiler/OPC.Mod 1126-1137. -/
def relTok : Rel → Tok
  | .eql => .op .eq true
  | .neq => .op .ne true
  | .lss => .op .lt true
  | .leq => .op .le true
  | .gtr => .op .gt true
  | .geq => .op .ge true

/-- A type in parentheses. -/
def castTok (t : String) (stars : Nat) : List Tok :=
  .lp :: .ty t :: List.replicate stars (.op .star false) ++ [.rp]

/-- The operator as written by `expr`, src/compiler/OPV.Mod 592-613. -/
def bopTok (o : Bop) (set : Bool) (cast : Option String) : List Tok :=
  match o with
  | .times => if set then [.op .amp true] else [.op .star true]
  | .slash => if set then [.op .caret true] else .op .slash true :: (match cast with | some t => castTok t 0 | none => [])
  | .and => [.op .andand true]
  | .plus => if set then [.op .bar true] else [.op .plus true]
  | .minus => if set then [.op .amp true, .op .tilde false] else [.op .minus true]
  | .or => [.op .oror true]

/-- `OPM.WriteInt`, see `Verif.Emit`. -/
def intTok (v : Int) : List Tok :=
  if v = -(2 ^ 15) ∨ v = -(2 ^ 31) ∨ v = -(2 ^ 63) then
    [.lp, .op .minus false, .num (v.natAbs - 1), .op .minus false, .num 1, .rp]
  else if v < 0 then [.op .minus false, .num v.natAbs]
  else [.num v.natAbs]

/-- Parentheses. -/
def par (b : Bool) (ts : List Tok) : List Tok := if b then .lp :: ts ++ [.rp] else ts

/-- `CompleteIdent`, src/compiler/OPC.Mod 1089-1107. -/
def complete (x : String) : Loc → List Tok
  | .here => [.id x]
  | .outer s star => (if star then [.op .star false] else []) ++ [.id (s ++ "_s"), .arrow, .id x]
  | .withPtr t => [.lp, .op .star false, .lp, .ty t, .op .star false, .rp, .op .amp false, .id x, .rp]

/-- The precedence of a variable, src/compiler/OPV.Mod 316. -/
def varPrec (loc : Loc) (p : Int) : Int :=
  match loc with
  | .outer _ _ => if p = 10 then 9 else 10
  | _ => 10

/-- The deref of a called procedure variable, src/compiler/OPV.Mod 318. -/
def pv (p : Int) : List Tok := if p = 11 then [.op .star false] else []

/-- The name of the macro or function for an operator written as a function, src/compiler/OPV.Mod 539-574. -/
def fopName (o : Fop) (constR : Option Int) (se seR : Bool) : String :=
  match o with
  | .isin => "__IN"
  | .ash => match constR with
    | some v => if 0 ≤ v then "__ASHL" else "__ASHR"
    | none => if seR then "__ASHF" else "__ASH"
  | .msk => "__MASK"
  | .bit => "__BIT"
  | .lsh => match constR with
    | some v => if 0 ≤ v then "__LSHL" else "__LSHR"
    | none => "__LSH"
  | .rot => match constR with
    | some v => if 0 ≤ v then "__ROTL" else "__ROTR"
    | none => "__ROT"
  | .div => if se then "__DIVF" else "__DIV"
  | .mod => if se then "__MODF" else "__MOD"

/-- The cast before it, src/compiler/OPV.Mod 565-571; `small` is `n.typ.size <= OPM.CIntSize`. -/
def fopCast (o : Fop) (small se : Bool) : List Tok :=
  match o with
  | .div => if se && small then castTok "int" 0 else []
  | .mod => if small then castTok "int" 0 else []
  | _ => []

/-- A constant. -/
def constOf : Nd → Option Int
  | .int v => some v
  | _ => none

/-- The cast of `__ABSF`, src/compiler/OPV.Mod 499-506. -/
def absName (real small se : Bool) : List Tok :=
  if se then if real then [.id "__ABSFD"] else (if small then castTok "int" 0 else []) ++ [.id "__ABSF"]
  else [.id "__ABS"]

/-- The second operand, src/compiler/OPV.Mod 583-586. -/
def fopArg (o : Fop) (k : Option Int) (r : List Tok) : List Tok :=
  match o, k with
  | .ash, some v | .lsh, some v | .rot, some v => if v < 0 then intTok (-v) else r
  | _, _ => r

/-- The size of the operand, src/compiler/OPV.Mod 587-590. -/
def fopBits (o : Fop) (bits : Nat) : List Tok :=
  match o with
  | .isin | .lsh | .rot => [.comma, .num bits]
  | _ => []

/-- `Entier`, src/compiler/OPV.Mod 236-242: `a` is the text of the operand alone, `q` the one otherwise used. -/
def entierTok (real : Bool) (a q : List Tok) : List Tok :=
  if real then .id "__ENTIER" :: .lp :: a ++ [.rp] else q

/-- `Convert` and `SizeCast`, src/compiler/OPV.Mod 244-278: `a` and `b` are the texts of the operand alone and as operand
of a cast. -/
def convTok (c : Conv) (real se : Bool) (a b : List Tok) : List Tok :=
  match c with
  | .setOf bits => .id "__SETOF" :: .lp :: entierTok real a a ++ [.comma, .num bits, .rp]
  | .short ub => .id (if se then "__SHORTF" else "__SHORT") :: .lp :: entierTok real a a ++ [.comma, .num ub, .rp]
  | .size none => entierTok real a b
  | .size (some t) => castTok t 0 ++ entierTok real a b
  | .chr => .id (if se then "__CHRF" else "__CHR") :: .lp :: entierTok real a a ++ [.rp]
  | .chrCast => castTok "CHAR" 0 ++ entierTok real a b
  | .other => b

/-- The type tag of a VAR parameter, `OPC.TypeOf`, src/compiler/OPC.Mod 1113-1119. -/
def tagTok (x : String) : Loc → List Tok
  | .outer s _ => [.id (s ++ "_s"), .arrow, .id (x ++ "__typ")]
  | _ => [.id (x ++ "__typ")]

/-- The record parameter in a type guard, src/compiler/OPV.Mod 364-368. -/
def currTok (x : String) : Loc → List Tok
  | .outer s _ => [.id (s ++ "__curr"), .arrow, .id x]
  | _ => [.id x]

/-- A length that is no word of an array on the heap; those are written with the text `q` of the pointer to the array,
src/compiler/OPV.Mod 211-227 (`design(n^.left, 10); OPM.WriteString("->len[")`); `OPC.Len`, src/compiler/OPC.Mod 1217-1229. -/
def lenTok (q : List Tok) : Ln → List Tok
  | .num n => [.num n]
  | .name none s => [.id s]
  | .name (some sc) s => [.id (sc ++ "_s"), .arrow, .id s]
  | .heap dim => q ++ [.arrow, .id "len", .lb, .num dim, .rb]

/-- Further arguments. -/
def extTok (q : List Tok) : List Ln → List Tok
  | [] => []
  | l :: ls => .comma :: lenTok q l ++ extTok q ls

/-- The lengths of the remaining dimensions, src/compiler/OPV.Mod 349-352. -/
def remTok (q : List Tok) : List Ln → List Tok
  | [] => []
  | l :: ls => .op .star true :: lenTok q l ++ remTok q ls

/-- An argument without lengths, src/compiler/OPV.Mod 410-434, from the texts with parameter `prec` -1, 9 and 10. -/
def preTok (pre : Pre) (a b c : List Tok) : List Tok :=
  match pre with
  | .none => a
  | .void => castTok "void" 1 ++ a
  | .addr => .op .amp false :: b
  | .voidAddr => castTok "void" 1 ++ .op .amp false :: b
  | .chars => castTok "CHAR" 1 ++ a
  | .val t void addr =>
    castTok t 1 ++ (if void then castTok "void" 1 else []) ++ if addr then .op .amp false :: b else c

/-- The separator after an argument, src/compiler/OPV.Mod 457. -/
def sepTok (last : Bool) (ts : List Tok) : List Tok := if last then ts else .comma :: ts

/-- The last argument? -/
def isNil : Args → Bool
  | .nil => true
  | .cons _ _ _ _ => false

mutual
/-- `expr` and `design`, src/compiler/OPV.Mod 309-396 and 470-645, with their parameter `prec`; `d` tells that `design` is
called.  `expr` calls `design` for designators.  Real constants are written by `OPM.WriteReal`, src/compiler/OPM.Mod 706-727.
`design` is not modelled for SYSTEM.VAL. -/
def emit (d : Bool) : Nd → Int → List Tok
  | .int v, p => par (10 ≤ p) (intTok v)
  | .lit s, p => par (10 ≤ p) [.lit s]
  | .rint tn v, p => par (10 ≤ p) (castTok tn 0 ++ intTok v)
  | .rlit ng s, p => par (10 ≤ p) ((if ng then [.op .minus false] else []) ++ [.lit s])
  | .upto bits l r, p =>
    par (10 ≤ p) (.id "__SETRNG" :: .lp :: emit false l (-1) ++ .comma :: emit false r (-1) ++ [.comma, .num bits, .rp])
  | .var x loc, p =>
    par (p > varPrec loc p) (pv p ++ complete x loc)
  | .varpar x loc arr, p => par (p > if arr then 10 else 9) (pv p ++ (if arr then [] else [.op .star false]) ++ complete x loc)
  | .proc x, p => par (p > 10) (pv p ++ [.id x])
  | .field l f, p =>
    par (p > 10) (pv p ++ (match l with
      | .deref _ q => emit true q 10 ++ [.arrow]
      | l => emit true l 10 ++ [.dot]) ++ [.id f])
  | .deref dyn l, p =>
    par (p > 9) (pv p ++ if dyn then emit true l 10 ++ [.arrow, .id "data"] else .op .star false :: emit true l 9)
  | .index l i chk len, p =>
    par (p > 10) (pv p ++ (emit true l 10 ++ .lb :: (if chk then
      .id (if sideEff i then "__XF" else "__X") :: .lp :: emit false i (-1) ++ .comma :: lenTok (heapPtr l) len ++ [.rp]
      else emit false i (-1)) ++ [.rb]))
  | .hindex op a ix rem, p =>
    par (p > 10) (pv p ++ (if op then
      .op .amp false :: emit true a 10 ++ .lb :: .lp :: horner (heapPtr a) ix ++ .rp :: remTok (heapPtr a) rem ++ [.rb]
      else emit true a 10 ++ .lb :: horner (heapPtr a) ix ++ [.rb]))
  | .guardp chk anon tn lev l, p =>
    let dp := if chk then 10 else 9
    par (!d && decide (dp ≤ p)) (par (p > dp) (pv p ++ if chk then
      .id (if anon then "__GUARDA" else "__GUARDP") :: .lp :: emit false l (-1) ++ [.comma, .id tn, .comma, .num lev, .rp]
      else castTok tn 0 ++ emit false l 9))
  | .guardr chk tn lev x loc, p =>
    let dp := if chk then 10 else 9
    par (!d && decide (dp ≤ p)) (par (p > dp) (pv p ++ if chk then
      .id "__GUARDR" :: .lp :: currTok x loc ++ [.comma, .id tn, .comma, .num lev, .rp]
      else .op .star false :: castTok tn 1 ++ complete x loc))
  | .not l, p => par (9 ≤ p) (.op .bang false :: emit false l 9)
  | .neg set l, p => par (9 ≤ p) (.op (if set then .tilde else .minus) false :: emit false l 9)
  | .isp l tn lev, p => par (10 ≤ p) (.id "__ISP" :: .lp :: emit false l (-1) ++ [.comma, .id tn, .comma, .num lev, .rp])
  | .isr x loc tn lev, p => par (10 ≤ p) (.id "__IS" :: .lp :: tagTok x loc ++ [.comma, .id tn, .comma, .num lev, .rp])
  | .conv c real l, p =>
    par (9 ≤ p) (convTok c real (sideEff l) (emit false l (-1)) (emit false l 9))
  | .abs real small l, p => par (10 ≤ p) (absName real small (sideEff l) ++ .lp :: emit false l (-1) ++ [.rp])
  | .cap l, p => par (10 ≤ p) (.id "__CAP" :: .lp :: emit false l (-1) ++ [.rp])
  | .odd l, p => par (10 ≤ p) (.id "__ODD" :: .lp :: emit false l (-1) ++ [.rp])
  | .adr amp l, p => par (9 ≤ p) (castTok "ADDRESS" 0 ++ match l with
      | .varpar x loc _ => complete x loc
      | l => (if amp then [.op .amp false] else []) ++ emit false l 9)
  | .val tn addr cast l, p =>
    par (9 ≤ p) (if cast then castTok tn 0 ++ (if addr then castTok "ADDRESS" 0 else []) ++ emit false l 9
      else .id "__VAL" :: .lp :: .ty tn :: .comma :: emit false l (-1) ++ [.rp])
  | .len l ln, p => par (10 ≤ p) (lenTok (heapPtr l) ln)
  | .fop o small bits l r, p =>
    let se := sideEff l || sideEff r
    par (10 ≤ p) (fopCast o small se ++ .id (fopName o (constOf r) se (sideEff r)) :: .lp :: emit false l (-1) ++ .comma ::
      fopArg o (constOf r) (emit false r (-1)) ++ fopBits o bits ++ [.rp])
  | .strcmp o l r, p =>
    par (relPrec o ≤ p) (.id "__STRCMP" :: .lp :: emit false l (-1) ++ .comma :: emit false r (-1) ++ [.rp, relTok o, .num 0])
  | .rel o void l r, p =>
    let q := relPrec o
    par (q ≤ p) (emit false l q ++ relTok o :: (if void then castTok "void" 1 else []) ++ emit false r q)
  | .bop o set cast l r, p =>
    let q := bopPrec o set
    par (q ≤ p) (par (o == .and || set && (o == .times || o == .minus))
      (emit false l q ++ bopTok o set cast ++ emit false r q))
  | .callp f as, p => par (10 ≤ p) (.id f :: .lp :: emitArgs as ++ [.rp])
  | .callv l as, p => par (10 ≤ p) (emit true l 11 ++ .lp :: emitArgs as ++ [.rp])
/-- The text of the pointer to an array on the heap, of which the array is an element or which it is. -/
def heapPtr : Nd → List Tok
  | .deref _ q => emit true q 10
  | .hindex _ a _ _ => heapPtr a
  | _ => []
/-- The loop over the indices, src/compiler/OPV.Mod 339-345, with the closing parentheses; `q` is the text for lengths on
the heap. -/
def horner (q : List Tok) : Ixs → List Tok
  | .one i chk len => if chk then
      .id (if sideEff i then "__XF" else "__X") :: .lp :: emit false i (-1) ++ .comma :: lenTok q len ++ [.rp]
      else emit false i (-1)
  | .more i chk len rest => (if chk then
      .id (if sideEff i then "__XF" else "__X") :: .lp :: emit false i (-1) ++ .comma :: lenTok q len ++ [.rp]
      else emit false i 7) ++ .op .plus true :: lenTok q len ++ .op .star true :: .lp :: horner q rest ++ [.rp]
/-- `ActualPar`, src/compiler/OPV.Mod 404-460. -/
def emitArgs : Args → List Tok
  | .nil => []
  | .cons pre n ext rest =>
    preTok pre (emit false n (-1)) (emit false n 9) (emit false n 10) ++
    extTok (heapPtr n) ext ++
    sepTok (isNil rest) (emitArgs rest)
end

end Verif.Expr
