/-!
# Texts

The piece lists of src/runtime/Texts.Mod: runs in rings with sentinels, linked in both directions, at addresses of a heap;
`Find` with its cache, `Split`, `Merge`, `Splice`, and the procedures on buffers, texts, readers and writers.

Files are sequences of bytes; riders are positions in them (see `Verif.Files`).  A font is its name, and `none` is NIL.
Positions are natural numbers: negative ones are not considered.  Numbers do not overflow.

Left out: files in the format of `Store`, which `Open` recognizes by their first bytes; the handlers of elements, except that
copying an element yields a new one with the same contents; scanning and formatted output.
-/
namespace Verif.Texts

/-- `fnt`, `col`, `voff` of a run, src/runtime/Texts.Mod 30-31. -/
structure Look where
  fnt : Option Nat
  col : Int
  voff : Int
deriving DecidableEq, Repr

/-- The sentinel, a `Piece` (lines 35-39) or an `Elem` (lines 48-52) with what the client stores in it and `base`. -/
inductive Kind where
  | head
  | piece (file org : Nat) (ascii : Bool)
  | elem (tag : Nat) (base : Option Nat)
deriving DecidableEq, Repr

/-- `RunDesc`, src/runtime/Texts.Mod 27-33, without the links. -/
structure Run where
  len : Nat
  look : Look
  kind : Kind
deriving DecidableEq, Repr

/-- Runs by address, their links, and the first unused address. -/
structure Hp where
  nxt : Nat → Nat
  prv : Nat → Nat
  run : Nat → Run
  free : Nat

/-- `TextDesc`, src/runtime/Texts.Mod 76-81. -/
structure Text where
  len : Nat
  head : Nat
  cache : Nat
  corg : Nat
deriving DecidableEq, Repr

/-- `BufDesc`, src/runtime/Texts.Mod 70-73. -/
structure Buf where
  len : Nat
  head : Nat
deriving DecidableEq, Repr

/-- Assignment to one element. -/
def upd {α : Type} (f : Nat → α) (a : Nat) (x : α) : Nat → α := fun b => if b = a then x else f b

/-- `a.next := b`. -/
def Hp.setNxt (h : Hp) (a b : Nat) : Hp := { h with nxt := upd h.nxt a b }
/-- `b.prev := a`. -/
def Hp.setPrv (h : Hp) (b a : Nat) : Hp := { h with prv := upd h.prv b a }
/-- Assignment to the other fields of a run. -/
def Hp.setRun (h : Hp) (a : Nat) (r : Run) : Hp := { h with run := upd h.run a r }
/-- `NEW`. -/
def Hp.new (h : Hp) : Hp := { h with free := h.free + 1 }

/-! ### Runs -/

/-- The loop forward in `Find`, src/runtime/Texts.Mod 137. -/
def fwd (h : Hp) : Nat → Int → Nat → Option (Int × Nat)
  | 0, _, _ => none
  | f + 1, m, v => if m ≥ (h.run v).len then fwd h f (m - (h.run v).len) (h.nxt v) else some (m, v)

/-- The loop backward in `Find`, src/runtime/Texts.Mod 139. -/
def bwd (h : Hp) : Nat → Int → Nat → Option (Int × Nat)
  | 0, _, _ => none
  | f + 1, m, v => if m < 0 then bwd h f (m + (h.run (h.prv v)).len) (h.prv v) else some (m, v)

/-- The results of `Find`. -/
structure Found where
  pos : Nat
  u : Nat
  org : Nat
  off : Nat
  T : Text

/-- `Find`, src/runtime/Texts.Mod 131-143. -/
def find (h : Hp) (T : Text) (pos : Nat) : Option Found :=
  if pos ≥ T.len then some ⟨T.len, T.head, T.len, 0, { T with cache := T.head, corg := 0 }⟩
  else
    (if pos ≥ T.corg then fwd h (h.free + 1) ((pos : Int) - T.corg) (h.nxt T.cache)
      else bwd h (h.free + 1) ((pos : Int) - T.corg) (h.nxt T.cache)).map fun x =>
    ⟨pos, x.2, pos - x.1.toNat, x.1.toNat, { T with cache := h.prv x.2, corg := pos - x.1.toNat }⟩

/-- `Split`, src/runtime/Texts.Mod 145-154; the results are `u` and `un`. -/
def split (h : Hp) (off u : Nat) : Option (Hp × Nat × Nat) :=
  if off = 0 then some (h, h.prv u, u)
  else if off ≥ (h.run u).len then some (h, u, h.nxt u)
  else match (h.run u).kind with
    | .piece f o a =>
      let p := h.free
      let r := h.run u
      let h := (h.new.setRun p { r with len := r.len - off, kind := .piece f (o + off) a }).setRun u
        { r with len := r.len - (r.len - off) }
      let h := (h.setPrv p u).setNxt p (h.nxt u)
      let h := (h.setPrv (h.nxt p) p).setNxt u p
      some (h, u, p)
    | _ => none

/-- `Merge`, src/runtime/Texts.Mod 156-169. -/
def merge (h : Hp) (T : Text) (u v : Nat) : Option (Hp × Text × Nat) :=
  match (h.run u).kind, (h.run v).kind with
  | .piece f o a, .piece f' o' a' =>
    match (h.run u).look.fnt, (h.run v).look.fnt with
    | some n, some n' =>
      if n = n' ∧ (h.run u).look.col = (h.run v).look.col ∧ (h.run u).look.voff = (h.run v).look.voff ∧ a = a' then
        if f = f' ∧ o + (h.run u).len = o' then
          let T := if T.cache = u then { T with corg := T.corg + (h.run v).len }
            else if T.cache = v then { T with cache := T.head, corg := 0 } else T
          some (h.setRun u { h.run u with len := (h.run u).len + (h.run v).len }, T, h.nxt v)
        else some (h, T, v)
      else some (h, T, v)
    | _, _ => none
  | _, _ => some (h, T, v)

/-- The loop in `Splice`, src/runtime/Texts.Mod 176-179. -/
def setBase (h : Hp) (base : Option Nat) (un : Nat) : Nat → Nat → Option Hp
  | 0, _ => none
  | f + 1, v =>
    let h := match (h.run v).kind with
      | .elem tag _ => h.setRun v { h.run v with kind := .elem tag base }
      | _ => h
    if h.nxt v = un then some h else setBase h base un f (h.nxt v)

/-- `Splice`, src/runtime/Texts.Mod 171-181. -/
def splice (h : Hp) (un v w : Nat) (base : Option Nat) : Option Hp :=
  if v ≠ h.nxt w then
    let u := h.prv un
    let h := (((h.setNxt u v).setPrv v u).setPrv un w).setNxt w un
    setBase h base un (h.free + 1) v
  else some h

/-- `ClonePiece` and `CloneElem`, src/runtime/Texts.Mod 183-191, without the links: those of the copy are assigned later. -/
def clone (r : Run) : Run :=
  match r.kind with
  | .elem tag _ => { r with kind := .elem tag none }
  | _ => r

/-! ### Buffers and texts -/

/-- `OpenBuf`, src/runtime/Texts.Mod 239-242. -/
def openBuf (h : Hp) : Hp × Buf :=
  let u := h.free
  (((h.new.setRun u ⟨0, ⟨none, 0, 0⟩, .head⟩).setNxt u u).setPrv u u, ⟨0, u⟩)

/-- The loop in `Copy`, src/runtime/Texts.Mod 247-250. -/
def copyLoop (h : Hp) (stop : Nat) : Nat → Nat → Nat → Option (Hp × Nat)
  | 0, _, _ => none
  | f + 1, u, v =>
    if u = stop then some (h, v)
    else
      let vn := h.free
      let h := ((h.new.setRun vn (clone (h.run u))).setNxt v vn).setPrv vn v
      copyLoop h stop f (h.nxt u) vn

/-- `Copy`, src/runtime/Texts.Mod 244-253. -/
def copy (h : Hp) (SB DB : Buf) : Option (Hp × Buf) :=
  (copyLoop h SB.head (h.free + 1) (h.nxt SB.head) (h.prv DB.head)).map fun x =>
    ((x.1.setNxt x.2 DB.head).setPrv DB.head x.2, { DB with len := DB.len + SB.len })

/-- The copy of a part of a run: the first `d` characters left out. -/
def clonePart (r : Run) (d : Nat) : Run :=
  match r.kind with
  | .piece f o a => { r with len := r.len - d, kind := .piece f (o + d) a }
  | .elem tag _ => { r with kind := .elem tag none }
  | .head => r

/-- The loop in `Save`, src/runtime/Texts.Mod 266-271. -/
def saveLoop (h : Hp) (stop : Nat) : Nat → Nat → Nat → Nat → Option (Hp × Nat × Nat)
  | 0, _, _, _ => none
  | f + 1, u, w, ud =>
    if u = stop then some (h, w, ud)
    else
      let wn := h.free
      let h := ((h.new.setRun wn (clonePart (h.run u) ud)).setNxt w wn).setPrv wn w
      saveLoop h stop f (h.nxt u) wn 0

/-- `Save`, src/runtime/Texts.Mod 262-277. -/
def save (h : Hp) (T : Text) (beg end_ : Nat) (B : Buf) : Option (Hp × Text × Buf) :=
  (find h T beg).bind fun x =>
  (find h x.T end_).bind fun y =>
  (saveLoop h y.u (h.free + 1) x.u (h.prv B.head) x.off).bind fun z =>
  let h := z.1
  let w := z.2.1
  let ud := z.2.2
  (if y.off > 0 then
    match (h.run y.u).kind with
    | .piece f o a =>
      let wn := h.free
      some (((h.new.setRun wn { h.run y.u with len := y.off - ud, kind := .piece f (o + ud) a }).setNxt w wn).setPrv wn w, wn)
    | _ => none
  else some (h, w)).map fun q =>
    ((q.1.setNxt q.2 B.head).setPrv B.head q.2, y.T, { B with len := B.len + (y.pos - x.pos) })

/-- `Insert`, src/runtime/Texts.Mod 279-286; the last result is the position. -/
def insert (h : Hp) (T : Text) (pos : Nat) (B : Buf) (self : Nat) : Option (Hp × Text × Buf × Nat) :=
  (find h T pos).bind fun x =>
  (split h x.off x.u).bind fun y =>
  (merge y.1 x.T y.2.1 (y.1.nxt B.head)).bind fun z =>
  (splice z.1 y.2.2 z.2.2 (z.1.prv B.head) (some self)).map fun h =>
  ((h.setNxt B.head B.head).setPrv B.head B.head, { z.2.1 with len := z.2.1.len + B.len }, { B with len := 0 }, x.pos)

/-- `Append`, src/runtime/Texts.Mod 288-294. -/
def append (h : Hp) (T : Text) (B : Buf) (self : Nat) : Option (Hp × Text × Buf) :=
  (merge h T (h.prv T.head) (h.nxt B.head)).bind fun z =>
  (splice z.1 z.2.1.head z.2.2 (z.1.prv B.head) (some self)).map fun h =>
  ((h.setNxt B.head B.head).setPrv B.head B.head, { z.2.1 with len := z.2.1.len + B.len }, { B with len := 0 })

/-- `Delete`, src/runtime/Texts.Mod 296-306; the results are also the buffer `del` and the positions. -/
def delete (h : Hp) (T : Text) (beg end_ : Nat) : Option (Hp × Text × Buf × Nat × Nat) :=
  (find h T beg).bind fun x =>
  (split h x.off x.u).bind fun y =>
  (find y.1 x.T end_).bind fun x' =>
  (split y.1 x'.off x'.u).bind fun y' =>
  let T := { x'.T with cache := x.T.cache, corg := x.T.corg }
  let d := openBuf y'.1
  (splice d.1 d.2.head y.2.2 y'.2.1 none).bind fun h =>
  (merge h T y.2.1 y'.2.2).map fun z =>
  ((z.1.setNxt y.2.1 z.2.2).setPrv z.2.2 y.2.1, { z.2.1 with len := z.2.1.len - (x'.pos - x.pos) },
    { d.2 with len := x'.pos - x.pos }, x.pos, x'.pos)

/-- The new look of a run, src/runtime/Texts.Mod 313-315. -/
def relook (l : Look) (sel : Nat → Bool) (n : Look) : Look :=
  ⟨if sel 0 && n.fnt.isSome then n.fnt else l.fnt, if sel 1 then n.col else l.col, if sel 2 then n.voff else l.voff⟩

/-- The loop in `ChangeLooks`, src/runtime/Texts.Mod 312-318, and the statement after it. -/
def looksLoop (sel : Nat → Bool) (n : Look) (vn : Nat) : Nat → Hp → Text → Nat → Nat → Option (Hp × Text)
  | 0, _, _, _, _ => none
  | f + 1, h, T, u, un =>
    if un = vn then
      (merge h T u un).map fun z => ((z.1.setNxt u z.2.2).setPrv z.2.2 u, z.2.1)
    else
      let h := h.setRun un { h.run un with look := relook (h.run un).look sel n }
      (merge h T u un).bind fun z =>
        if z.1.nxt u = z.2.2 then looksLoop sel n vn f z.1 z.2.1 z.2.2 (z.1.nxt z.2.2)
        else looksLoop sel n vn f ((z.1.setNxt u z.2.2).setPrv z.2.2 u) z.2.1 u z.2.2

/-- `ChangeLooks`, src/runtime/Texts.Mod 308-321. -/
def changeLooks (h : Hp) (T : Text) (beg end_ : Nat) (sel : Nat → Bool) (n : Look) : Option (Hp × Text × Nat × Nat) :=
  (find h T beg).bind fun x =>
  (split h x.off x.u).bind fun y =>
  (find y.1 x.T end_).bind fun x' =>
  (split y.1 x'.off x'.u).bind fun y' =>
  (looksLoop sel n y'.2.2 (y'.1.free + 1) y'.1 { x'.T with cache := x.T.cache, corg := x.T.corg } y.2.1 y.2.2).map fun z =>
  (z.1, z.2, x.pos, x'.pos)

/-! ### Readers and writers -/

/-- `Reader`, src/runtime/Texts.Mod 83-91. -/
structure Reader where
  eot : Bool
  look : Look
  elem : Option Nat
  file : Nat
  fpos : Nat
  run : Nat
  org : Nat
  off : Nat

/-- `Files.Set(R.rider, u.file, u.org + d)` if `u` is a piece. -/
def seek (h : Hp) (R : Reader) (u d : Nat) : Reader :=
  match (h.run u).kind with
  | .piece f o _ => { R with file := f, fpos := o + d }
  | _ => R

/-- `OpenReader`, src/runtime/Texts.Mod 326-334. -/
def openReader (h : Hp) (T : Text) (R : Reader) (pos : Nat) : Option (Reader × Text) :=
  (find h T (if pos ≥ T.len then T.len else pos)).map fun x =>
  (seek h { R with run := x.u, org := x.org, off := x.off, eot := false } x.u x.off, x.T)

/-- `Files.Read`: zero at the end. -/
def fread (b : List Nat) (p : Nat) : Nat := b.getD p 0

/-- The end of `Read`, src/runtime/Texts.Mod 347-353. -/
def readNext (h : Hp) (R : Reader) : Reader :=
  let u := R.run
  if R.off = (h.run u).len then
    let un := h.nxt u
    { seek h R un 0 with org := R.org + (h.run u).len, run := un, off := 0 }
  else R

/-- `Read`, src/runtime/Texts.Mod 336-354. -/
def read (h : Hp) (files : Nat → List Nat) (R : Reader) : Reader × Nat :=
  let u := R.run
  let R := { R with look := (h.run u).look, off := R.off + 1 }
  match (h.run u).kind with
  | .piece f _ a =>
    let ch := fread (files R.file) R.fpos
    let R := { R with fpos := R.fpos + 1, elem := none }
    if ch = 10 ∧ a then (readNext h R, 13)
    else if ch = 13 ∧ a then
      if fread (files R.file) R.fpos = 10 then (readNext h { R with off := R.off + 1, fpos := R.fpos + 1 }, ch)
      else (readNext h { R with file := f }, ch)
    else (readNext h R, ch)
  | .elem _ _ => (readNext h { R with elem := some u }, 28)
  | .head => (readNext h { R with elem := none, eot := true }, 0)

/-- The loop in `ReadElem`, src/runtime/Texts.Mod 359: the run and the length of the pieces skipped. -/
def skip (h : Hp) : Nat → Nat → Nat → Option (Nat × Nat)
  | 0, _, _ => none
  | f + 1, u, org => match (h.run u).kind with
    | .piece _ _ _ => skip h f (h.nxt u) (org + (h.run u).len)
    | _ => some (u, org)

/-- `ReadElem`, src/runtime/Texts.Mod 356-367. -/
def readElem (h : Hp) (R : Reader) : Option Reader :=
  (skip h (h.free + 1) R.run R.org).map fun x =>
  match (h.run x.1).kind with
  | .elem _ _ => seek h { R with org := x.2 + 1, run := h.nxt x.1, off := 0, look := (h.run x.1).look, elem := some x.1 } (h.nxt x.1) 0
  | _ => { R with org := x.2, eot := true, elem := none }

/-- The loop in `ReadPrevElem`, src/runtime/Texts.Mod 372. -/
def skipBack (h : Hp) : Nat → Nat → Nat → Option (Nat × Nat)
  | 0, _, _ => none
  | f + 1, u, org => match (h.run u).kind with
    | .piece _ _ _ => skipBack h f (h.prv u) (org - (h.run u).len)
    | _ => some (u, org)

/-- `ReadPrevElem`, src/runtime/Texts.Mod 369-377. -/
def readPrevElem (h : Hp) (R : Reader) : Option Reader :=
  (skipBack h (h.free + 1) (h.prv R.run) R.org).map fun x =>
  match (h.run x.1).kind with
  | .elem _ _ => { R with org := x.2 - 1, run := x.1, off := 0, look := (h.run x.1).look, elem := some x.1 }
  | _ => { R with org := x.2, eot := true, elem := none }

/-- `ElemPos`, src/runtime/Texts.Mod 205-210, from the first run of the text. -/
def elemPos (h : Hp) (e : Nat) : Nat → Nat → Nat → Option Nat
  | 0, _, _ => none
  | f + 1, u, pos => if u = e then some pos else elemPos h e f (h.nxt u) (pos + (h.run u).len)

/-- `Writer`, src/runtime/Texts.Mod 103-109; `buf` is the number of the buffer. -/
structure Writer where
  buf : Nat
  look : Look
  file : Nat

/-- The condition of `Write`, src/runtime/Texts.Mod 520-521; `none`: a font is NIL. -/
def extends_ (r : Run) (W : Writer) : Option Bool :=
  match r.kind with
  | .piece f _ a =>
    if f = W.file then
      match r.look.fnt, W.look.fnt with
      | some n, some n' => some (decide (n = n' ∧ r.look.col = W.look.col ∧ r.look.voff = W.look.voff ∧ a = false))
      | _, _ => none
    else some false
  | _ => some false

/-- `Write`, src/runtime/Texts.Mod 517-527, after the character has been written: `length` is the new length of the file. -/
def write (h : Hp) (B : Buf) (W : Writer) (length : Nat) : Option (Hp × Buf) :=
  let un := B.head
  let u := h.prv un
  (extends_ (h.run u) W).map fun e =>
  if e then (h.setRun u { h.run u with len := (h.run u).len + 1 }, { B with len := B.len + 1 })
  else
    let p := h.free
    let h := ((((h.new.setNxt u p).setPrv p u).setNxt p un).setPrv un p).setRun p ⟨1, W.look, .piece W.file (length - 1) false⟩
    (h, { B with len := B.len + 1 })

/-- `WriteElem`, src/runtime/Texts.Mod 529-535, for a new element. -/
def writeElem (h : Hp) (B : Buf) (W : Writer) (tag : Nat) : Hp × Buf :=
  let e := h.free
  let un := B.head
  let u := h.prv un
  (((((h.new.setRun e ⟨1, W.look, .elem tag none⟩).setNxt u e).setPrv e u).setNxt e un).setPrv un e, { B with len := B.len + 1 })

/-- `FontsDefault`, `Displaywhite`, src/runtime/Texts.Mod 10, 119. -/
def stdLook : Look := ⟨some 0, 15, 0⟩

/-- The value of `len` in the sentinel of a text, src/runtime/Texts.Mod 785; `MAX(LONGINT)`. -/
def maxLen : Nat := 2 ^ 31 - 1

/-- `Open`, src/runtime/Texts.Mod 778-801, for a file without a tag. -/
def openText (h : Hp) (file length : Nat) : Hp × Text :=
  let u := h.free
  let h := h.new.setRun u ⟨maxLen, ⟨none, 15, 0⟩, .head⟩
  if length > 0 then
    let p := h.free
    let h := h.new.setRun p ⟨length, stdLook, .piece file 0 true⟩
    ((((h.setNxt u p).setPrv u p).setNxt p u).setPrv p u, ⟨length, u, u, 0⟩)
  else ((h.setNxt u u).setPrv u u, ⟨0, u, u, 0⟩)

/-! ### The module -/

/-- Texts, buffers, readers and writers by number, and the variable `del`. -/
structure St where
  h : Hp
  files : Nat → List Nat
  nfile : Nat
  txt : Nat → Text
  buf : Nat → Buf
  nbuf : Nat
  del : Option Nat
  wr : Nat → Writer
  rd : Nat → Reader

/-- Calls.  `open_` is the opening of a file with the given bytes. -/
inductive Op where
  | open_ (t : Nat) (bytes : List Nat)
  | newBuf
  | openWriter (w : Nat)
  | setLook (w : Nat) (l : Look)
  | write (w ch : Nat)
  | writeElem (w tag : Nat)
  | insert (t pos b : Nat)
  | append (t b : Nat)
  | delete (t beg end_ : Nat)
  | changeLooks (t beg end_ : Nat) (sel : Nat → Bool) (l : Look)
  | save (t beg end_ b : Nat)
  | copy (sb db : Nat)
  | recall
  | len (t : Nat)
  | bufLen (b : Nat)
  | openReader (r t pos : Nat)
  | read (r : Nat)
  | readElem (r : Nat)
  | readPrevElem (r : Nat)
  | pos (r : Nat)
  | elemPos (r : Nat)

/-- What the client sees: the arguments of the notifier, a new buffer, the character read with its look, the contents of the
element and `eot`, and so on. -/
inductive Out where
  | none
  | notify (op beg end_ : Nat)
  | buf (b : Option Nat)
  | num (n : Nat)
  | read (ch : Nat) (look : Option Look) (elem : Option Nat) (eot : Bool)
  | elem (e : Option (Nat × Look))
  | elemAt (base : Option Nat) (pos : Nat)
deriving DecidableEq

/-- What is stored in an element. -/
def tagOf (h : Hp) (e : Nat) : Option Nat :=
  match (h.run e).kind with
  | .elem tag _ => some tag
  | _ => none

/-- What the client sees of a reader after `ReadElem`. -/
def elemOut (h : Hp) (R : Reader) : Option (Nat × Look) :=
  R.elem.bind fun e => (tagOf h e).map fun t => (t, R.look)

/-- One call. -/
def step (s : St) : Op → Option (St × Out)
  | .open_ t bytes =>
    let x := openText s.h s.nfile bytes.length
    some ({ s with h := x.1, txt := upd s.txt t x.2, files := upd s.files s.nfile bytes, nfile := s.nfile + 1 }, .none)
  | .newBuf =>
    let x := openBuf s.h
    some ({ s with h := x.1, buf := upd s.buf s.nbuf x.2, nbuf := s.nbuf + 1 }, .buf (some s.nbuf))
  | .openWriter w =>
    let x := openBuf s.h
    let s' := { s with h := x.1, buf := upd s.buf s.nbuf x.2, nbuf := s.nbuf + 1 }
    some ({ s' with files := upd s.files s.nfile [], nfile := s.nfile + 1, wr := upd s.wr w ⟨s.nbuf, stdLook, s.nfile⟩ },
      .buf (some s.nbuf))
  | .setLook w l => some ({ s with wr := upd s.wr w { s.wr w with look := l } }, .none)
  | .write w ch =>
    let W := s.wr w
    let bytes := s.files W.file ++ [ch]
    (write s.h (s.buf W.buf) W bytes.length).map fun x =>
      ({ s with h := x.1, buf := upd s.buf W.buf x.2, files := upd s.files W.file bytes }, .none)
  | .writeElem w tag =>
    let W := s.wr w
    let x := writeElem s.h (s.buf W.buf) W tag
    some ({ s with h := x.1, buf := upd s.buf W.buf x.2 }, .none)
  | .insert t pos b =>
    (insert s.h (s.txt t) pos (s.buf b) t).map fun x =>
      ({ s with h := x.1, txt := upd s.txt t x.2.1, buf := upd s.buf b x.2.2.1 },
        .notify 1 x.2.2.2 (x.2.2.2 + (s.buf b).len))
  | .append t b =>
    (append s.h (s.txt t) (s.buf b) t).map fun x =>
      ({ s with h := x.1, txt := upd s.txt t x.2.1, buf := upd s.buf b x.2.2 },
        .notify 1 (s.txt t).len ((s.txt t).len + (s.buf b).len))
  | .delete t beg end_ =>
    (delete s.h (s.txt t) beg end_).map fun x =>
      ({ s with h := x.1, txt := upd s.txt t x.2.1, buf := upd s.buf s.nbuf x.2.2.1, nbuf := s.nbuf + 1, del := some s.nbuf },
        .notify 2 x.2.2.2.1 x.2.2.2.2)
  | .changeLooks t beg end_ sel l =>
    (changeLooks s.h (s.txt t) beg end_ sel l).map fun x =>
      ({ s with h := x.1, txt := upd s.txt t x.2.1 }, .notify 0 x.2.2.1 x.2.2.2)
  | .save t beg end_ b =>
    (save s.h (s.txt t) beg end_ (s.buf b)).map fun x =>
      ({ s with h := x.1, txt := upd s.txt t x.2.1, buf := upd s.buf b x.2.2 }, .none)
  | .copy sb db =>
    (copy s.h (s.buf sb) (s.buf db)).map fun x => ({ s with h := x.1, buf := upd s.buf db x.2 }, .none)
  | .recall => some ({ s with del := none }, .buf s.del)
  | .len t => some (s, .num (s.txt t).len)
  | .bufLen b => some (s, .num (s.buf b).len)
  | .openReader r t pos =>
    (openReader s.h (s.txt t) (s.rd r) pos).map fun x =>
      ({ s with rd := upd s.rd r x.1, txt := upd s.txt t x.2 }, .none)
  | .read r =>
    let x := read s.h s.files (s.rd r)
    some ({ s with rd := upd s.rd r x.1 },
      .read x.2 (if (s.h.run (s.rd r).run).kind = .head then none else some x.1.look) (x.1.elem.bind (tagOf s.h)) x.1.eot)
  | .readElem r =>
    (readElem s.h (s.rd r)).map fun R => ({ s with rd := upd s.rd r R }, .elem (elemOut s.h R))
  | .readPrevElem r =>
    (readPrevElem s.h (s.rd r)).map fun R => ({ s with rd := upd s.rd r R }, .elem (elemOut s.h R))
  | .pos r => some (s, .num ((s.rd r).org + (s.rd r).off))
  | .elemPos r =>
    (s.rd r).elem.bind fun e => match (s.h.run e).kind with
      | .elem _ (some t) =>
        (elemPos s.h e (s.h.free + 1) (s.h.nxt (s.txt t).head) 0).map fun p => (s, .elemAt (some t) p)
      | _ => none

/-- A sequence of calls. -/
def runs : St → List Op → Option (St × List Out)
  | s, [] => some (s, [])
  | s, o :: os => (step s o).bind fun x => (runs x.1 os).map fun y => (y.1, x.2 :: y.2)

/-- After the initialization of the module, src/runtime/Texts.Mod 879. -/
def init : St :=
  { h := ⟨fun _ => 0, fun _ => 0, fun _ => ⟨0, ⟨none, 0, 0⟩, .head⟩, 0⟩,
    files := fun _ => [], nfile := 0, txt := fun _ => ⟨0, 0, 0, 0⟩, buf := fun _ => ⟨0, 0⟩, nbuf := 0, del := none,
    wr := fun _ => ⟨0, stdLook, 0⟩, rd := fun _ => ⟨false, stdLook, none, 0, 0, 0, 0, 0⟩ }

end Verif.Texts
