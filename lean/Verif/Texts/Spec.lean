import Verif.Texts.Model

/-!
# Texts as sequences of characters

A text or buffer is a list of characters and elements with their looks; an operation is what the list functions say.
Operations outside the conditions given here are not part of the contract.
-/
namespace Verif.Texts

/-- A character or an element, with its look. -/
inductive Item where
  | ch (c : Nat) (l : Look)
  | el (tag : Nat) (l : Look)
deriving DecidableEq

/-- A reader: its text and position, whether it has been at the end, and the position of the element just read. -/
structure Rd where
  t : Nat
  pos : Nat
  eot : Bool
  last : Option Nat

/-- Contents of texts and buffers; which buffers belong to writers; the buffer with what was deleted; writers; readers. -/
structure Abs where
  txt : Nat → Option (List Item)
  buf : Nat → Option (List Item)
  own : Nat → Bool
  nbuf : Nat
  del : Option Nat
  wr : Nat → Option (Nat × Look)
  rd : Nat → Option Rd

/-- At the beginning. -/
def Abs.init : Abs := ⟨fun _ => none, fun _ => none, fun _ => false, 0, none, fun _ => none, fun _ => none⟩

/-- Text `t` changes: readers on it must be opened again. -/
def Abs.setTxt (a : Abs) (t : Nat) (x : List Item) : Abs :=
  { a with txt := upd a.txt t (some x), rd := fun r => (a.rd r).bind fun d => if d.t = t then none else some d }

/-- Buffer `b` changes. -/
def Abs.setBuf (a : Abs) (b : Nat) (x : List Item) : Abs := { a with buf := upd a.buf b (some x) }

/-- A new buffer. -/
def Abs.newBuf (a : Abs) (x : List Item) (own : Bool) : Abs :=
  { a with buf := upd a.buf a.nbuf (some x), own := upd a.own a.nbuf own, nbuf := a.nbuf + 1 }

/-- No line ends with CR LF. -/
def noCRLF : List Nat → Bool
  | a :: b :: r => !(a == 13 && b == 10) && noCRLF (b :: r)
  | _ => true

/-- The character for a byte of a text file: lines end with CR. -/
def fileItem (c : Nat) : Item := .ch (if c = 10 then 13 else c) stdLook

/-- The look of an item changed in the selected respects. -/
def Item.relook (sel : Nat → Bool) (n : Look) (i : Item) : Item :=
  let f (l : Look) : Look :=
    ⟨match sel 0, n.fnt with
      | true, some x => some x
      | _, _ => l.fnt, bif sel 1 then n.col else l.col, bif sel 2 then n.voff else l.voff⟩
  match i with
  | .ch c l => .ch c (f l)
  | .el g l => .el g (f l)

/-- An element with its position. -/
def isEl : Item × Nat → Option (Nat × Nat × Look)
  | (.el g l, i) => some (i, g, l)
  | _ => none

/-- The first element from position `p` on. -/
def nextEl (x : List Item) (p : Nat) : Option (Nat × Nat × Look) := (x.zipIdx.drop p).findSome? isEl

/-- The last element before position `p`. -/
def prevEl (x : List Item) (p : Nat) : Option (Nat × Nat × Look) := (x.zipIdx.take p).reverse.findSome? isEl

/-- One call. -/
def astep (a : Abs) : Op → Option (Abs × Out)
  | .open_ t bytes => if noCRLF bytes then some (a.setTxt t (bytes.map fileItem), .none) else none
  | .newBuf => some (a.newBuf [] false, .buf (some a.nbuf))
  | .openWriter w =>
    some ({ a.newBuf [] true with wr := upd a.wr w (some (a.nbuf, stdLook)) }, .buf (some a.nbuf))
  | .setLook w l => (a.wr w).bind fun W =>
    if l.fnt.isSome then some ({ a with wr := upd a.wr w (some (W.1, l)) }, .none) else none
  | .write w c => (a.wr w).bind fun W => (a.buf W.1).map fun x => (a.setBuf W.1 (x ++ [.ch c W.2]), .none)
  | .writeElem w g => (a.wr w).bind fun W => (a.buf W.1).map fun x => (a.setBuf W.1 (x ++ [.el g W.2]), .none)
  | .insert t pos b => (a.txt t).bind fun x => (a.buf b).map fun y =>
    let p := min pos x.length
    ((a.setTxt t (x.take p ++ y ++ x.drop p)).setBuf b [], .notify 1 p (p + y.length))
  | .append t b => (a.txt t).bind fun x => (a.buf b).map fun y =>
    ((a.setTxt t (x ++ y)).setBuf b [], .notify 1 x.length (x.length + y.length))
  | .delete t beg end_ => (a.txt t).bind fun x =>
    let p := min beg x.length
    let q := min end_ x.length
    if beg ≤ end_ then
      some ({ (a.setTxt t (x.take p ++ x.drop q)).newBuf ((x.take q).drop p) false with del := some a.nbuf }, .notify 2 p q)
    else none
  | .changeLooks t beg end_ sel l => (a.txt t).bind fun x =>
    let p := min beg x.length
    let q := min end_ x.length
    if beg ≤ end_ then
      some (a.setTxt t (x.take p ++ ((x.take q).drop p).map (Item.relook sel l) ++ x.drop q), .notify 0 p q)
    else none
  | .save t beg end_ b => (a.txt t).bind fun x => (a.buf b).bind fun y =>
    if (beg < end_ ∨ beg = end_ ∧ x.length ≤ beg) ∧ a.own b = false then
      some (a.setBuf b (y ++ (x.take end_).drop beg), .none)
    else none
  | .copy sb db => (a.buf sb).bind fun x => (a.buf db).bind fun y =>
    if sb ≠ db ∧ a.own db = false then some (a.setBuf db (y ++ x), .none) else none
  | .recall => some ({ a with del := none }, .buf a.del)
  | .len t => (a.txt t).map fun x => (a, .num x.length)
  | .bufLen b => (a.buf b).map fun x => (a, .num x.length)
  | .openReader r t pos => (a.txt t).map fun x =>
    ({ a with rd := upd a.rd r (some ⟨t, min pos x.length, false, none⟩) }, .none)
  | .read r => (a.rd r).bind fun d => (a.txt d.t).bind fun x =>
    match x[d.pos]? with
    | some (.ch c l) => some ({ a with rd := upd a.rd r (some { d with pos := d.pos + 1, last := none }) }, .read c (some l) none d.eot)
    | some (.el g l) =>
      some ({ a with rd := upd a.rd r (some { d with pos := d.pos + 1, last := some d.pos }) }, .read 28 (some l) (some g) d.eot)
    | none =>
      if d.pos + 1 < x.length + maxLen then
        some ({ a with rd := upd a.rd r (some { d with pos := d.pos + 1, eot := true, last := none }) }, .read 0 none none true)
      else none
  | .readElem r => (a.rd r).bind fun d => (a.txt d.t).map fun x =>
    match nextEl x d.pos with
    | some (i, g, l) => ({ a with rd := upd a.rd r (some { d with pos := i + 1, last := some i }) }, .elem (some (g, l)))
    | none => ({ a with rd := upd a.rd r none }, .elem none)
  | .readPrevElem r => (a.rd r).bind fun d => (a.txt d.t).map fun x =>
    match prevEl x d.pos with
    | some (i, g, l) => ({ a with rd := upd a.rd r (some { d with pos := i, last := some i }) }, .elem (some (g, l)))
    | none => ({ a with rd := upd a.rd r none }, .elem none)
  | .pos r => (a.rd r).map fun d => (a, .num d.pos)
  | .elemPos r => (a.rd r).bind fun d => d.last.map fun i => (a, .elemAt (some d.t) i)

/-- A sequence of calls. -/
def aruns : Abs → List Op → Option (Abs × List Out)
  | a, [] => some (a, [])
  | a, o :: os => (astep a o).bind fun x => (aruns x.1 os).map fun y => (y.1, x.2 :: y.2)

end Verif.Texts
