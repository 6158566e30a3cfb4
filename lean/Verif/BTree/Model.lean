import Verif.BTree.Spec

/-!
# B-trees: src/library/s3/ethBTrees.Mod 78-562 (keys that are numbers) and 590-1076 (keys that are strings)

Both halves of the module are the same text with other types of keys; strings are cut to 63 characters first.  The model is for any type of keys
with an order, and for any number `N` of entries that a page has at least; it is 84 for numbers and 14 for strings.

Simplifications.  Pages refer to other pages by their position in the file and are read through a cache (`ReadLIntPage`, 154-191, `NewLIntPage`,
126-151): here pages contain the pages they refer to, and `NIL` stands for a position that is negative.  Changes of a page in place are changes
of the page within the one that refers to it.  Indices of arrays are not checked.  The parameter `f` is the number of nested calls allowed.
-/
namespace Verif.BTree

/-- `LIntEntry`, `StrEntry`, 51-58, 65-67. -/
structure Entry (K T : Type) where
  key : K
  org : Int
  p : T

/-- Pages, 30-38, 59-62, 68-71. -/
inductive Tree (K : Type) where
  | nil
  | page (p0 : Tree K) (m : Nat) (e : Nat → Entry K (Tree K))

variable {K : Type} [LinearOrder K] [Inhabited K]

abbrev Ent (K : Type) := Entry K (Tree K)

/-- Assignment to an element of an array. -/
def upd {α : Type} (e : Nat → α) (i : Nat) (x : α) : Nat → α := fun j => if j = i then x else e j

/-- An array that has not been assigned to. -/
def fresh : Nat → Ent K := fun _ => ⟨default, 0, .nil⟩

/-- Binary search, 202-210, 233-241, 412-420; the first argument bounds the number of steps. -/
def bsearch (key : K) (e : Nat → Ent K) : Nat → Nat → Nat → Nat
  | 0, _, R => R
  | f + 1, L, R => if L < R then (if key ≤ (e ((L + R) / 2)).key then bsearch key e f L ((L + R) / 2) else bsearch key e f ((L + R) / 2 + 1) R) else R

/-- The page before entry `R`, 215-219, 246-250, 421-425. -/
def child (p0 : Tree K) (e : Nat → Ent K) (R : Nat) : Tree K := if R = 0 then p0 else (e (R - 1)).p

/-- A change of this page. -/
def setP0 (p0 : Tree K) (R : Nat) (t : Tree K) : Tree K := if R = 0 then t else p0

/-- A change of this page. -/
def setE (e : Nat → Ent K) (R : Nat) (t : Tree K) : Nat → Ent K := if R = 0 then e else upd e (R - 1) { e (R - 1) with p := t }

/-- `WHILE i > R DO DEC(i); e[i+d] := e[i] END`, 263-265, 272-274, 371-373. -/
def shiftUp (e : Nat → Ent K) (R d : Nat) : Nat → (Nat → Ent K)
  | 0 => e
  | i + 1 => if R < i + 1 then shiftUp (upd e (i + d) (e i)) R d i else e

/-- `WHILE i < n DO e[i] := e[i+k]; INC(i) END`, 343-345, 353-355, 431-433; the last argument is `n - i`. -/
def shiftDown (e : Nat → Ent K) (k i : Nat) : Nat → (Nat → Ent K)
  | 0 => e
  | c + 1 => shiftDown (upd e i (e (i + k))) k (i + 1) c

/-- `WHILE i < n DO d[i+x] := s[i+y]; INC(i) END`, 277-279, 287-289, 292-294, 337-339, 349-351, 384-386; the last argument is `n - i`. -/
def copy (d s : Nat → Ent K) (x y i : Nat) : Nat → (Nat → Ent K)
  | 0 => d
  | c + 1 => copy (upd d (i + x) (s (i + y))) s x y (i + 1) c

/-- `WHILE i > 0 DO DEC(i); d[i] := s[i+y] END`, 376-378. -/
def copyDown (d s : Nat → Ent K) (y : Nat) : Nat → (Nat → Ent K)
  | 0 => d
  | i + 1 => copyDown (upd d i (s (i + y))) s y i

/-- `SearchLInt`, 194-225. -/
def search (key : K) : Nat → Tree K → Option (Option Int)
  | 0, _ => none
  | _ + 1, .nil => some none
  | f + 1, .page p0 m e =>
    if bsearch key e m 0 m < m ∧ (e (bsearch key e m 0 m)).key = key then some (some (e (bsearch key e m 0 m)).org)
    else search key f (child p0 e (bsearch key e m 0 m))

/-- What `insertLInt` returns: the page, `h`, `v`, and whether an entry was changed. -/
structure Res (K : Type) where
  a : Tree K
  h : Bool
  v : Ent K
  changed : Bool

/-- Splitting a full page, 268-297: the entries of `a`, those of the new page `b`, and `v` without `b`. -/
def split (N : Nat) (e : Nat → Ent K) (R : Nat) (u : Ent K) : (Nat → Ent K) × (Nat → Ent K) × Ent K :=
  if R < N then
    (upd (shiftUp e R 1 (N - 1)) R u, copy fresh (upd (shiftUp e R 1 (N - 1)) R u) 0 N 0 N, e (N - 1))
  else if R - N = 0 then (e, copy fresh e 0 N 0 N, u)
  else (e, copy (upd (copy fresh e 0 (N + 1) 0 (R - N - 1)) (R - N - 1) u) e 0 N (R - N) (2 * N - R), e N)

/-- Putting `u` on a page, 258-299. -/
def put (N : Nat) (p0 : Tree K) (m : Nat) (e : Nat → Ent K) (R : Nat) (u : Ent K) (ch : Bool) : Res K :=
  if m < 2 * N then ⟨.page p0 (m + 1) (upd (shiftUp e R 1 m) R u), false, u, ch⟩
  else ⟨.page p0 N (split N e R u).1, true,
    { (split N e R u).2.2 with p := .page (split N e R u).2.2.p N (split N e R u).2.1 }, ch⟩

/-- `insertLInt`, 227-301; a page that is not there is treated by its caller, 251-254. -/
def ins (N : Nat) (key : K) (org : Int) : Nat → Tree K → Option (Res K)
  | 0, _ => none
  | _ + 1, .nil => some ⟨.nil, true, ⟨key, org, .nil⟩, false⟩
  | f + 1, .page p0 m e =>
    if bsearch key e m 0 m < m ∧ (e (bsearch key e m 0 m)).key = key then
      some ⟨.page p0 m (upd e (bsearch key e m 0 m) { e (bsearch key e m 0 m) with org := org }), false, e (bsearch key e m 0 m), true⟩
    else match ins N key org f (child p0 e (bsearch key e m 0 m)) with
      | none => none
      | some r =>
        if r.h then some (put N (setP0 p0 (bsearch key e m 0 m) r.a) m (setE e (bsearch key e m 0 m) r.a) (bsearch key e m 0 m) r.v r.changed)
        else some ⟨.page (setP0 p0 (bsearch key e m 0 m) r.a) m (setE e (bsearch key e m 0 m) r.a), false, r.v, r.changed⟩

/-- `InsertLInt`, 304-322. -/
def insert (N f : Nat) (key : K) (org : Int) (root : Tree K) : Option (Tree K × Bool) :=
  match ins N key org f root with
  | none => none
  | some r => if r.h then some (.page r.a 1 (upd fresh 0 r.v), r.changed) else some (r.a, r.changed)

/-- `underflowLInt`, 324-390, with the page to the right, 329-357: `c` is the page `p0`, `m`, `e`, and `a` is in place `s`. -/
def underflowRight (N : Nat) (p0 : Tree K) (m : Nat) (e : Nat → Ent K) (s : Nat) (ap0 : Tree K) (ae : Nat → Ent K) (bp0 : Tree K) (bm : Nat)
    (be : Nat → Ent K) : Tree K × Bool :=
  let ae := upd ae (N - 1) { e s with p := bp0 }
  let k := (bm + 1 - N) / 2
  if 0 < k then
    let ae := copy ae be N 0 0 (k - 1)
    let b := Tree.page (be (k - 1)).p (bm - k) (shiftDown be k 0 (bm - k))
    let e := upd e s { be (k - 1) with p := b }
    let a := Tree.page ap0 (N - 1 + k) ae
    (.page (setP0 p0 s a) m (setE e s a), false)
  else
    let a := Tree.page ap0 (2 * N) (copy ae be N 0 0 N)
    (.page (setP0 p0 s a) (m - 1) (shiftDown (setE e s a) 1 s (m - 1 - s)), decide (m - 1 < N))

/-- The same with the page to the left, 358-389; `s` is one less than before. -/
def underflowLeft (N : Nat) (p0 : Tree K) (m : Nat) (e : Nat → Ent K) (s : Nat) (ap0 : Tree K) (ae : Nat → Ent K) (bp0 : Tree K) (bm : Nat)
    (be : Nat → Ent K) : Tree K × Bool :=
  let k := (bm + 1 - N) / 2
  if 0 < k then
    let ae := upd (shiftUp ae 0 k (N - 1)) (k - 1) { e s with p := ap0 }
    let ae := copyDown ae be (bm - k + 1) (k - 1)
    let a := Tree.page (be (bm - k)).p (N - 1 + k) ae
    let b := Tree.page bp0 (bm - k) be
    (.page (setP0 p0 s b) m (setE (upd e s { be (bm - k) with p := a }) s b), false)
  else
    let be := copy (upd be N { e s with p := ap0 }) ae (N + 1) 0 0 (N - 1)
    let b := Tree.page bp0 (2 * N) be
    (.page (setP0 p0 s b) (m - 1) (setE e s b), decide (m - 1 < N))

/-- `underflowLInt`, 324-390. -/
def underflow (N : Nat) (p0 : Tree K) (m : Nat) (e : Nat → Ent K) (s : Nat) : Option (Tree K × Bool) :=
  match child p0 e s with
  | .nil => none
  | .page ap0 _ ae =>
    if s < m then
      match (e s).p with
      | .nil => none
      | .page bp0 bm be => some (underflowRight N p0 m e s ap0 ae bp0 bm be)
    else
      match child p0 e (s - 1) with
      | .nil => none
      | .page bp0 bm be => some (underflowLeft N p0 m e (s - 1) ap0 ae bp0 bm be)

/-- `del`, 396-410: takes the last entry out of a page and those below it.  The result is the page, `h` and this entry. -/
def del (N : Nat) : Nat → Tree K → Option (Tree K × Bool × Ent K)
  | 0, _ => none
  | _ + 1, .nil => none
  | f + 1, .page p0 m e =>
    match (e (m - 1)).p with
    | .nil => some (.page p0 (m - 1) e, decide (m - 1 < N), e (m - 1))
    | .page q0 qm qe =>
      match del N f (.page q0 qm qe) with
      | none => none
      | some (q, h, x) =>
        if h then
          match underflow N p0 m (upd e (m - 1) { e (m - 1) with p := q }) m with
          | none => none
          | some (c, h) => some (c, h, x)
        else some (.page p0 m (upd e (m - 1) { e (m - 1) with p := q }), h, x)

/-- After a change of the page in place `R`, 436, 440. -/
def repair (N : Nat) (p0 : Tree K) (m : Nat) (e : Nat → Ent K) (R : Nat) (q : Tree K) (h : Bool) : Option (Tree K × Bool) :=
  if h then underflow N (setP0 p0 R q) m (setE e R q) R else some (.page (setP0 p0 R q) m (setE e R q), h)

/-- `deleteLInt`, 392-442: the page, `h`, and whether the key was found.  `h` is not changed when it was not. -/
def delete (N : Nat) (key : K) : Nat → Bool → Tree K → Option (Tree K × Bool × Bool)
  | 0, _, _ => none
  | _ + 1, _, .nil => none
  | f + 1, h, .page p0 m e =>
    if bsearch key e m 0 m < m ∧ (e (bsearch key e m 0 m)).key = key then
      match child p0 e (bsearch key e m 0 m) with
      | .nil => some (.page p0 (m - 1) (shiftDown e 1 (bsearch key e m 0 m) (m - 1 - bsearch key e m 0 m)), decide (m - 1 < N), true)
      | .page q0 qm qe =>
        match del N f (.page q0 qm qe) with
        | none => none
        | some (q, h, x) =>
          (repair N p0 m (upd e (bsearch key e m 0 m) { x with p := (e (bsearch key e m 0 m)).p }) (bsearch key e m 0 m) q h).map
            (fun r => (r.1, r.2, true))
    else
      match child p0 e (bsearch key e m 0 m) with
      | .nil => some (.page p0 m e, h, false)
      | .page q0 qm qe =>
        match delete N key f h (.page q0 qm qe) with
        | none => none
        | some (q, h, found) => (repair N p0 m e (bsearch key e m 0 m) q h).map (fun r => (r.1, r.2, found))

/-- `DeleteLInt`, 445-473; `h` is the value that the variable happens to have, as it is not initialized. -/
def deleteKey (N f : Nat) (key : K) (h : Bool) (root : Tree K) : Option (Tree K × Bool) :=
  match delete N key f h root with
  | none => none
  | some (.nil, _, found) => some (.nil, found)
  | some (.page p0 m e, h, found) =>
    if found ∧ h ∧ m = 0 then
      match p0 with
      | .nil => some (.page p0 m e, found)
      | .page q0 qm qe => some (.page q0 qm qe, found)
    else some (.page p0 m e, found)

/-- The calls made so far and `cont`. -/
abbrev Calls (K : Type) := List (K × Int) × Bool

/-- A call of the procedure, 493-495. -/
def call (more : List (K × Int) → Bool) (key : K) (org : Int) (max : K) (s : Calls K) : Calls K :=
  if s.2 ∧ key ≤ max then (s.1 ++ [(key, org)], more (s.1 ++ [(key, org)])) else s

/-- The loop of `enumerateLInt`, 482-498, from entry `i` on; `sub` is the call of itself.  The last argument is the number of steps left.  The
result has `lkey`. -/
def enumLoop (sub : Tree K → Calls K → Option (Calls K)) (more : List (K × Int) → Bool) (p0 : Tree K) (e : Nat → Ent K) (min max : K) (i : Nat)
    (lkey : K) (s : Calls K) : Nat → Option (K × Calls K)
  | 0 => some (lkey, s)
  | c + 1 =>
    if lkey < max then
      if min ≤ (e i).key then
        if min < (e i).key then
          match sub (child p0 e i) s with
          | none => none
          | some s => enumLoop sub more p0 e min max (i + 1) (e i).key (call more (e i).key (e i).org max s) c
        else enumLoop sub more p0 e min max (i + 1) (e i).key (call more (e i).key (e i).org max s) c
      else enumLoop sub more p0 e min max (i + 1) (e i).key s c
    else some (lkey, s)

/-- `enumerateLInt`, 475-504; `bot` is `MIN(LONGINT)` or the empty string. -/
def enumerate (bot min max : K) (more : List (K × Int) → Bool) : Nat → Tree K → Calls K → Option (Calls K)
  | 0, _, _ => none
  | _ + 1, .nil, s => some s
  | f + 1, .page p0 m e, s =>
    match enumLoop (enumerate bot min max more f) more p0 e min max 0 bot s m with
    | none => none
    | some (lkey, s) => if s.2 ∧ lkey < max then enumerate bot min max more f (e (m - 1)).p s else some s

/-- `EnumLInt`, 507-518. -/
def enum (bot min max : K) (more : List (K × Int) → Bool) (f : Nat) : Tree K → Option (List (K × Int))
  | .nil => some []
  | .page p0 m e => if 0 < m then (enumerate bot min max more f (.page p0 m e) ([], true)).map (·.1) else some []

/-- `minLIntKey`, 520-527. -/
def minKey : Nat → Tree K → K → Option K
  | 0, _, _ => none
  | _ + 1, .nil, k => some k
  | f + 1, .page p0 _ e, _ => minKey f p0 (e 0).key

/-- `maxLIntKey`, 542-549. -/
def maxKey : Nat → Tree K → K → Option K
  | 0, _, _ => none
  | _ + 1, .nil, k => some k
  | f + 1, .page _ m e, k => if 0 < m then maxKey f (e (m - 1)).p (e (m - 1)).key else some k

/-- `MinLIntKey`, `MaxLIntKey`, 530-540, 552-562. -/
def extreme (g : Nat → Tree K → K → Option K) (f : Nat) : Tree K → Option (Option K)
  | .nil => none
  | .page p0 m e => if 0 < m then (g f (.page p0 m e) default).map some else some none

/-- `NewLInt`, 566-587: a page without entries. -/
def new : Tree K := .page .nil 0 fresh

/-- A call; `h` as in `deleteKey`. -/
def exec (N f : Nat) (bot : K) (h : Bool) (t : Tree K) : Op K → Option (Tree K × Out K)
  | .insert k v => (insert N f k v t).map (fun r => (r.1, .inserted r.2))
  | .delete k => (deleteKey N f k h t).map (fun r => (r.1, .deleted r.2))
  | .search k => (search k f t).map (fun r => (t, .found r))
  | .enum min max more => (enum bot min max more f t).map (fun r => (t, .calls r))
  | .minKey => (extreme minKey f t).map (fun r => (t, .key r))
  | .maxKey => (extreme maxKey f t).map (fun r => (t, .key r))

/-- A sequence of calls. -/
def run (N f : Nat) (bot : K) (h : Bool) : Tree K → List (Op K) → Option (Tree K × List (Out K))
  | t, [] => some (t, [])
  | t, op :: ops =>
    match exec N f bot h t op with
    | none => none
    | some (t', o) => match run N f bot h t' ops with
      | none => none
      | some (t'', os) => some (t'', o :: os)

end Verif.BTree
