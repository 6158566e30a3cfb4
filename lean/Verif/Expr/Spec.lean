import Verif.Expr.Model

/-!
# Reading C expressions

The grammar of expressions of the C standard (ISO/IEC 9899, 6.5), as a reader of sequences of tokens with fuel, and the
tree that is meant by an expression of Oberon.  `ct` knows nothing about precedence.
-/
namespace Verif.Expr

mutual
/-- Expressions of C. -/
inductive CE where
  | num (n : Nat)
  | lit (s : String)
  | id (s : String)
  | un (o : COp) (e : CE)
  | bin (o : COp) (a b : CE)
  | idx (a i : CE)
  | dot (a : CE) (f : String)
  | arrow (a : CE) (f : String)
  /-- A cast to a type, or to a pointer to it. -/
  | cast (t : String) (stars : Nat) (e : CE)
  | call (f : CE) (as : CEs)
/-- Arguments of a function or macro. -/
inductive CEs where
  | nil
  | cons (e : CE) (as : CEs)
  | ty (t : String) (as : CEs)
end

/-- Binary operators with their rank in the grammar: 6.5.14 logical or, 6.5.13 logical and, 6.5.12 or, 6.5.11 exclusive or,
6.5.10 and, 6.5.9 equality, 6.5.8 relations, 6.5.6 sums, 6.5.5 products. -/
def rank : COp → Option Nat
  | .oror => some 0
  | .andand => some 1
  | .bar => some 2
  | .caret => some 3
  | .amp => some 4
  | .eq | .ne => some 5
  | .lt | .le | .gt | .ge => some 6
  | .plus | .minus => some 7
  | .star | .slash => some 8
  | .tilde | .bang => none

/-- Unary operators, 6.5.3. -/
def isUn : COp → Bool
  | .star | .amp | .minus | .plus | .tilde | .bang => true
  | _ => false

/-- The stars of a pointer type. -/
def stars : List Tok → Nat × List Tok
  | .op .star _ :: ts => ((stars ts).1 + 1, (stars ts).2)
  | ts => (0, ts)

mutual
/-- 6.5.5 to 6.5.14: operands of rank `k + 1` joined by operators of rank `k` from left to right; rank 9 is 6.5.4. -/
def level : Nat → Nat → List Tok → Option (CE × List Tok)
  | 0, _, _ => none
  | f + 1, k, ts =>
    if 9 ≤ k then unary f ts else (level f (k + 1) ts).bind fun x => chain f k x.1 x.2
def chain : Nat → Nat → CE → List Tok → Option (CE × List Tok)
  | 0, _, _, _ => none
  | f + 1, k, e, ts => match ts with
    | .op o _ :: r =>
      if rank o = some k then (level f (k + 1) r).bind fun x => chain f k (.bin o e x.1) x.2 else some (e, ts)
    | _ => some (e, ts)
/-- 6.5.3 and 6.5.4: unary operators and casts; 6.5.1: names, constants and expressions in parentheses. -/
def unary : Nat → List Tok → Option (CE × List Tok)
  | 0, _ => none
  | f + 1, ts => match ts with
    | .op o _ :: r => if isUn o then (unary f r).map fun x => (.un o x.1, x.2) else none
    | .lp :: .ty t :: r => match stars r with
      | (n, .rp :: r) => (unary f r).map fun x => (.cast t n x.1, x.2)
      | _ => none
    | .lp :: r => (level f 0 r).bind fun x => match x with
      | (e, .rp :: r) => suffix f e r
      | _ => none
    | .num n :: r => suffix f (.num n) r
    | .lit s :: r => suffix f (.lit s) r
    | .id s :: r => suffix f (.id s) r
    | _ => none
/-- 6.5.2: indices, calls, components. -/
def suffix : Nat → CE → List Tok → Option (CE × List Tok)
  | 0, _, _ => none
  | f + 1, e, ts => match ts with
    | .lb :: r => (level f 0 r).bind fun x => match x with
      | (i, .rb :: r) => suffix f (.idx e i) r
      | _ => none
    | .lp :: .rp :: r => suffix f (.call e .nil) r
    | .lp :: r => (items f r).bind fun x => suffix f (.call e x.1) x.2
    | .dot :: .id s :: r => suffix f (.dot e s) r
    | .arrow :: .id s :: r => suffix f (.arrow e s) r
    | ts => some (e, ts)
/-- Arguments up to and with the closing parenthesis; a macro may take a type. -/
def items : Nat → List Tok → Option (CEs × List Tok)
  | 0, _ => none
  | f + 1, ts => match ts with
    | .ty t :: .comma :: r => (items f r).map fun x => (.ty t x.1, x.2)
    | .ty t :: .rp :: r => some (.ty t .nil, r)
    | ts => (level f 0 ts).bind fun x => match x with
      | (e, .comma :: r) => (items f r).map fun x => (.cons e x.1, x.2)
      | (e, .rp :: r) => some (.cons e .nil, r)
      | _ => none
end

/-- The tokens are an expression of C with the given tree. -/
def Reads (ts : List Tok) (e : CE) : Prop := ∃ F, ∀ f, F ≤ f → level f 0 ts = some (e, [])

/-! ### Tokens that run together -/

/-- The text of an operator. -/
def sym : COp → String
  | .star => "*"
  | .amp => "&"
  | .minus => "-"
  | .tilde => "~"
  | .bang => "!"
  | .plus => "+"
  | .slash => "/"
  | .caret => "^"
  | .bar => "|"
  | .andand => "&&"
  | .oror => "||"
  | .eq => "=="
  | .ne => "!="
  | .lt => "<"
  | .le => "<="
  | .gt => ">"
  | .ge => ">="

/-- The text of a token other than a name or constant, and whether it stands between blanks. -/
def pun : Tok → Option (String × Bool)
  | .lp => some ("(", false)
  | .rp => some (")", false)
  | .lb => some ("[", false)
  | .rb => some ("]", false)
  | .comma => some (",", false)
  | .dot => some (".", false)
  | .arrow => some ("->", false)
  | .op o sp => some (sym o, sp)
  | _ => none

/-- Punctuators of C of more than one character (6.4.6) and the beginnings of comments. -/
def puncts : List String :=
  ["->", "++", "--", "<<", ">>", "<=", ">=", "==", "!=", "&&", "||", "...", "*=", "/=", "%=", "+=", "-=", "<<=", ">>=", "&=",
    "^=", "|=", "##", "<:", ":>", "<%", "%>", "%:", "%:%:", "//", "/*"]

/-- The two tokens, written one after the other, could be taken for others: two words; a number and a point; a constant and a
sign; or the beginning of a longer punctuator. -/
def glue (a b : Tok) : Bool :=
  match pun a, pun b with
  | none, none => true
  | none, some _ => match a, b with
    | .num _, .dot => true
    | .lit _, .dot => true
    | .lit _, .op .minus false => true
    | .lit _, .op .plus false => true
    | _, _ => false
  | some _, none => match a, b with
    | .dot, .num _ => true
    | .dot, .lit _ => true
    | _, _ => false
  | some (x, sx), some (y, sy) => !sx && !sy && puncts.any fun p =>
    decide (x.toList.length < p.toList.length) && x.toList.isPrefixOf p.toList &&
      (p.toList.isPrefixOf (x.toList ++ y.toList) || (x.toList ++ y.toList).isPrefixOf p.toList)

/-- No two neighbours run together. -/
def Apart : List Tok → Prop
  | a :: b :: r => glue a b = false ∧ Apart (b :: r)
  | _ => True

/-! ### The tree that is meant -/

/-- An integer. -/
def cint (v : Int) : CE :=
  if v = -(2 ^ 15) ∨ v = -(2 ^ 31) ∨ v = -(2 ^ 63) then .bin .minus (.un .minus (.num (v.natAbs - 1))) (.num 1)
  else if v < 0 then .un .minus (.num v.natAbs) else .num v.natAbs

/-- A variable. -/
def cloc (x : String) : Loc → CE
  | .here => .id x
  | .outer s star => if star then .un .star (.arrow (.id (s ++ "_s")) x) else .arrow (.id (s ++ "_s")) x
  | .withPtr t => .un .star (.cast t 1 (.un .amp (.id x)))

/-- A type tag. -/
def ctag (x : String) : Loc → CE
  | .outer s _ => .arrow (.id (s ++ "_s")) (x ++ "__typ")
  | _ => .id (x ++ "__typ")

/-- A record parameter in a type guard, as the compiler names it. -/
def ccurr (x : String) : Loc → CE
  | .outer s _ => .arrow (.id (s ++ "__curr")) x
  | _ => .id x

/-- A length; `q` is the pointer to the array. -/
def clen (q : CE) : Ln → CE
  | .num n => .num n
  | .name none s => .id s
  | .name (some sc) s => .arrow (.id (sc ++ "_s")) s
  | .heap dim => .idx (.arrow q "len") (.num dim)

/-- Arguments. -/
def clens (q : CE) : List Ln → CEs → CEs
  | [], as => as
  | l :: ls, as => .cons (clen q l) (clens q ls as)

/-- A product. -/
def cprod (q e : CE) : List Ln → CE
  | [] => e
  | l :: ls => cprod q (.bin .star e (clen q l)) ls

/-- A call of a function or macro with one, two or three arguments. -/
def c1 (f : String) (a : CE) : CE := .call (.id f) (.cons a .nil)
def c2 (f : String) (a b : CE) : CE := .call (.id f) (.cons a (.cons b .nil))
def c3 (f : String) (a b c : CE) : CE := .call (.id f) (.cons a (.cons b (.cons c .nil)))

/-- The operator of a relation. -/
def crel : Rel → COp
  | .eql => .eq
  | .neq => .ne
  | .lss => .lt
  | .leq => .le
  | .gtr => .gt
  | .geq => .ge

/-- An operator: sets are joined by bitwise operators, and `a - b` is `a & ~b` for sets. -/
def cbop (o : Bop) (set : Bool) (cast : Option String) (a b : CE) : CE :=
  match o, set with
  | .times, true => .bin .amp a b
  | .times, false => .bin .star a b
  | .slash, true => .bin .caret a b
  | .slash, false => .bin .slash a (match cast with | some t => .cast t 0 b | none => b)
  | .plus, true => .bin .bar a b
  | .plus, false => .bin .plus a b
  | .minus, true => .bin .amp a (.un .tilde b)
  | .minus, false => .bin .minus a b
  | .and, _ => .bin .andand a b
  | .or, _ => .bin .oror a b

/-- An operator written as a function. -/
def cfop (o : Fop) (small : Bool) (bits : Nat) (k : Option Int) (se seR : Bool) (a b : CE) : CE :=
  let b := match o, k with
    | .ash, some v | .lsh, some v | .rot, some v => if v < 0 then cint (-v) else b
    | _, _ => b
  let c := match o with
    | .isin | .lsh | .rot => c3 (fopName o k se seR) a b (.num bits)
    | _ => c2 (fopName o k se seR) a b
  match o with
  | .div => if se && small then .cast "int" 0 c else c
  | .mod => if small then .cast "int" 0 c else c
  | _ => c

/-- The name of the check of an index. -/
def xName (i : Nd) : String := if sideEff i then "__XF" else "__X"

/-- A conversion of `a`; `e` is `a` as a whole number. -/
def cconv (c : Conv) (se : Bool) (a e : CE) : CE :=
  match c with
  | .setOf bits => c2 "__SETOF" e (.num bits)
  | .short ub => c2 (if se then "__SHORTF" else "__SHORT") e (.num ub)
  | .size none => e
  | .size (some t) => .cast t 0 e
  | .chr => c1 (if se then "__CHRF" else "__CHR") e
  | .chrCast => .cast "CHAR" 0 e
  | .other => a

/-- An argument: by value, as a pointer, by reference, as characters, or by reference with a change of type. -/
def cpre (pre : Pre) (e : CE) : CE :=
  match pre with
  | .none => e
  | .void => .cast "void" 1 e
  | .addr => .un .amp e
  | .voidAddr => .cast "void" 1 (.un .amp e)
  | .chars => .cast "CHAR" 1 e
  | .val t void addr =>
    let e := if addr then .un .amp e else e
    .cast t 1 (if void then .cast "void" 1 e else e)

mutual
/-- The C expression that is meant by an expression. -/
def ct : Nd → CE
  | .int v => cint v
  | .lit s => .lit s
  | .rint tn v => .cast tn 0 (cint v)
  | .rlit ng s => if ng then .un .minus (.lit s) else .lit s
  | .upto bits l r => c3 "__SETRNG" (ct l) (ct r) (.num bits)
  | .var x loc => cloc x loc
  | .varpar x loc arr => if arr then cloc x loc else .un .star (cloc x loc)
  | .proc x => .id x
  | .field (.deref _ q) f => .arrow (ct q) f
  | .field l f => .dot (ct l) f
  | .deref dyn l => if dyn then .arrow (ct l) "data" else .un .star (ct l)
  | .index l i chk len => .idx (ct l) (if chk then c2 (xName i) (ct i) (clen (ctPtr l) len) else ct i)
  | .hindex op a ix rem =>
    if op then .un .amp (.idx (ct a) (cprod (ctPtr a) (ctIxs (ctPtr a) ix) rem)) else .idx (ct a) (ctIxs (ctPtr a) ix)
  | .guardp chk anon tn lev l =>
    if chk then c3 (if anon then "__GUARDA" else "__GUARDP") (ct l) (.id tn) (.num lev) else .cast tn 0 (ct l)
  | .guardr chk tn lev x loc =>
    if chk then c3 "__GUARDR" (ccurr x loc) (.id tn) (.num lev)
    else .un .star (.cast tn 1 (cloc x loc))
  | .not l => .un .bang (ct l)
  | .neg set l => .un (if set then .tilde else .minus) (ct l)
  | .isp l tn lev => c3 "__ISP" (ct l) (.id tn) (.num lev)
  | .isr x loc tn lev => c3 "__IS" (ctag x loc) (.id tn) (.num lev)
  | .conv c real l =>
    cconv c (sideEff l) (ct l) (if real then c1 "__ENTIER" (ct l) else ct l)
  | .abs real small l =>
    if sideEff l then
      if real then c1 "__ABSFD" (ct l) else if small then .cast "int" 0 (c1 "__ABSF" (ct l)) else c1 "__ABSF" (ct l)
    else c1 "__ABS" (ct l)
  | .cap l => c1 "__CAP" (ct l)
  | .odd l => c1 "__ODD" (ct l)
  | .adr _ (.varpar x loc _) => .cast "ADDRESS" 0 (cloc x loc)
  | .adr amp l => .cast "ADDRESS" 0 (if amp then .un .amp (ct l) else ct l)
  | .val tn addr cast l =>
    if cast then .cast tn 0 (if addr then .cast "ADDRESS" 0 (ct l) else ct l)
    else .call (.id "__VAL") (.ty tn (.cons (ct l) .nil))
  | .len l ln => clen (ctPtr l) ln
  | .fop o small bits l r =>
    cfop o small bits (constOf r) (sideEff l || sideEff r) (sideEff r) (ct l) (ct r)
  | .strcmp o l r => .bin (crel o) (c2 "__STRCMP" (ct l) (ct r)) (.num 0)
  | .rel o void l r => .bin (crel o) (ct l) (if void then .cast "void" 1 (ct r) else ct r)
  | .bop o set cast l r => cbop o set cast (ct l) (ct r)
  | .callp f as => .call (.id f) (ctArgs as)
  | .callv l as => .call (.un .star (ct l)) (ctArgs as)
/-- The pointer to the array on the heap that an expression denotes or denotes an element of. -/
def ctPtr : Nd → CE
  | .deref _ q => ct q
  | .hindex _ a _ _ => ctPtr a
  | _ => .num 0
/-- The index of an element of an open array: `i1` for one index, `i + len * (rest)` for more. -/
def ctIxs (q : CE) : Ixs → CE
  | .one i chk len => if chk then c2 (xName i) (ct i) (clen q len) else ct i
  | .more i chk len rest =>
    .bin .plus (if chk then c2 (xName i) (ct i) (clen q len) else ct i) (.bin .star (clen q len) (ctIxs q rest))
/-- Arguments. -/
def ctArgs : Args → CEs
  | .nil => .nil
  | .cons pre n ext rest =>
    .cons (cpre pre (ct n)) (clens (ctPtr n) ext (ctArgs rest))
end

/-! ### What the compiler's front end makes sure of -/

/-- Designators, other than SYSTEM.VAL. -/
def isDes : Nd → Bool
  | .var .. | .varpar .. | .proc .. | .field .. | .deref .. | .index .. | .hindex .. | .guardp .. | .guardr .. => true
  | _ => false

/-- A part of an open array that is itself an open array. -/
def isOpen : Nd → Bool
  | .hindex op _ _ _ => op
  | _ => false

/-- Neither relation nor operator written between operands; true of pointers, arrays and strings. -/
def atomic : Nd → Bool
  | .strcmp .. | .rel .. | .bop .. => false
  | _ => true

/-- No relation or operator on numbers or truth values; true of sets. -/
def setLike : Nd → Bool
  | .strcmp .. | .rel .. => false
  | .bop _ set _ _ _ => set
  | _ => true

/-- A constant: the negation of a constant is evaluated by the compiler. -/
def isConst : Nd → Bool
  | .int _ | .lit _ | .rint _ _ | .rlit _ _ => true
  | _ => false

/-- An array on the heap, or a part of one. -/
def onHeap : Nd → Bool
  | .deref _ _ => true
  | .hindex _ a _ _ => onHeap a
  | _ => false

/-- Lengths on the heap are only used for arrays on the heap. -/
def lenOk (n : Nd) : Ln → Bool
  | .heap _ => onHeap n
  | _ => true

/-- A VAR parameter of an enclosing procedure is reached without a further dereference. -/
def locOk : Loc → Bool
  | .outer _ star => !star
  | _ => true

mutual
/-- Expressions the front end can produce, as far as it matters. -/
def wf : Nd → Bool
  | .int _ | .lit _ | .rint _ _ | .rlit _ _ | .var _ _ | .proc _ | .isr _ _ _ _ => true
  | .upto _ l r => wf l && wf r
  | .varpar _ loc _ => locOk loc
  | .field l _ | .deref _ l => wf l && isDes l && !isOpen l
  | .index l i _ len => wf l && isDes l && !isOpen l && wf i && lenOk l len
  | .hindex _ a ix rem => wf a && isDes a && !isOpen a && wfIxs a ix && rem.all (lenOk a)
  | .guardp _ _ _ _ l => wf l && atomic l
  | .guardr _ _ _ _ loc => locOk loc
  | .not l | .isp l _ _ | .conv _ _ l | .abs _ _ l | .cap l | .odd l => wf l
  | .neg _ l => wf l && !isConst l
  | .adr amp l => wf l && !(amp && isOpen l)
  | .val _ _ _ l => wf l
  | .len l ln => wf l && lenOk l ln
  | .fop _ _ _ l r => wf l && wf r
  | .strcmp _ l r => wf l && wf r
  | .rel _ void l r => wf l && wf r && (!void || atomic r)
  | .bop o set _ l r => wf l && wf r && (!(set && (o == .minus)) || setLike r)
  | .callp _ as => wfArgs as
  | .callv l as => wf l && isDes l && !isOpen l && wfArgs as
def wfIxs (a : Nd) : Ixs → Bool
  | .one i _ len => wf i && lenOk a len
  | .more i _ len rest => wf i && lenOk a len && wfIxs a rest
def wfArgs : Args → Bool
  | .nil => true
  | .cons pre n ext rest =>
    wf n && ext.all (lenOk n) && (match pre with
      | .none => true
      | .void => atomic n
      | .chars => isConst n
      | .addr | .voidAddr => !isOpen n
      | .val _ _ addr => !(addr && isOpen n)) && wfArgs rest
end

end Verif.Expr
