import Verif.FileNum.Model

/-!
# Model of storing and loading texts

`Load0`, `Load`, `Open`, `Store` and `Close` of /repo/src/runtime/Texts.Mod.

A text is the list of its runs in order (C28 is about the rings that hold them).  A piece is its bytes: the file it refers to is not
changed as long as the text lives.  An element is what its handler tells and writes: the names of its module and procedure, its size,
and the bytes it stores; an element whose handler names no module has the empty name.  `Store` appends to the file at the rider, whose
position is counted from where it started; the rider for the corrections of slots, which `Store` opens a second time, is `patch`.
`Load0` gets the whole file and a position.  `none` is a trap: a NIL font, an index out of range, or something not initialised.
Positions do not overflow.  Bytes are numbers below 256 and strings are lists of characters without the final 0X.
-/
namespace Verif.TextFiles
open Verif.FileNum

abbrev Str := List Nat

/-- `fnt`, a reference to a font or NIL, `col` and `voff` (Texts.Mod 31-32). -/
structure Look where
  fnt : Option Nat
  col : Int
  voff : Int
deriving DecidableEq, Repr

/-- `Piece` and `Elem` (Texts.Mod 27-53). -/
inductive Run where
  | piece (look : Look) (bytes : List Nat) (ascii : Bool)
  | elem (look : Look) (mod proc : Str) (W H : Int) (data : List Nat)
deriving DecidableEq, Repr

def Run.look : Run → Look
  | .piece l _ _ => l
  | .elem l _ _ _ _ _ => l

/-! ### Store -/

/-- `Files.Write(r, x)` for an INT8 (Files.Mod 447-464). -/
def byteOf (x : Int) : Nat := (x % 256).toNat

/-- `Files.WriteLInt(r, x)`. -/
def lint (x : Int) : List Nat := (writeLInt false x).getD []

/-- Writing with a second rider over bytes that are there already. -/
def patch (out : List Nat) (p : Nat) (bs : List Nat) : List Nat := out.take p ++ bs ++ out.drop (p + bs.length)

/-- A search with a sentinel: `i := 1; WHILE a[i] # x DO INC(i) END`, where `a[1]`, … are `l` and `x` follows. -/
def seek {α : Type} [DecidableEq α] (x : α) : List α → Nat
  | [] => 1
  | y :: l => if y = x then 1 else seek x l + 1

/-- The variables of `Store`: what is written, `fnts` without the sentinel (its length is `fcnt - 1`), `mods` and `procs` without the
sentinel (their length is `ecnt - 1`), and `delta` (Texts.Mod 803-808). -/
structure St where
  out : List Nat
  fnts : List Str
  kinds : List (Str × Str)
  delta : Nat

/-- The inner WHILE of `Store` (Texts.Mod 835-837): the length of the following pieces that look the same, and the runs after them. -/
def same (l : Look) : List Run → Nat × List Run
  | .piece l' bs a :: rest =>
    if l' = l then let r := same l rest; (bs.length + r.1, r.2) else (0, .piece l' bs a :: rest)
  | rest => (0, rest)

/-- The number of the font, and the font if new, the colour and the offset (Texts.Mod 827-833).  `names` is the name of each font. -/
def storeLook (names : Nat → Str) (l : Look) (s : St) : Option St :=
  if s.fnts.length + 1 < 32 then
    match l.fnt with
    | none => none
    | some p =>
      let fno := seek (names p) s.fnts
      let s := { s with out := s.out ++ [fno] }
      let s := if fno = s.fnts.length + 1 then { s with fnts := s.fnts ++ [names p], out := s.out ++ names p ++ [0] } else s
      some { s with out := s.out ++ [byteOf l.col, byteOf l.voff] }
  else none

/-- `StoreElem` (Texts.Mod 810-820). -/
def storeElem (mod proc : Str) (W H : Int) (data : List Nat) (s : St) : Option St :=
  if s.kinds.length + 1 < 64 then
    let eno := seek (mod, proc) s.kinds
    let r1 := s.out.length
    let s := { s with out := s.out ++ lint 0 ++ lint 0 ++ lint 0 ++ [eno] }
    let s := if eno = s.kinds.length + 1 then { s with kinds := s.kinds ++ [(mod, proc)], out := s.out ++ mod ++ [0] ++ proc ++ [0] } else s
    let org := s.out.length
    let s := { s with out := s.out ++ data }
    let span := s.out.length - org
    some { s with out := patch s.out r1 (lint (-(span : Int)) ++ lint W ++ lint H) }
  else none

/-- The first loop of `Store` (Texts.Mod 825-842).  The first argument bounds the number of rounds. -/
def header (names : Nat → Str) : Nat → List Run → St → Option St
  | 0, _, _ => none
  | _ + 1, [], s => some s
  | f + 1, .piece l bs _ :: rest, s =>
    match storeLook names l s with
    | none => none
    | some s =>
      let r := same l rest
      header names f r.2 { s with out := s.out ++ lint ((bs.length + r.1 : Nat) : Int) }
  | f + 1, .elem l mod proc W H data :: rest, s =>
    if mod ≠ [] then
      match storeLook names l s with
      | none => none
      | some s =>
        match storeElem mod proc W H data s with
        | none => none
        | some s => header names f rest s
    else header names f rest { s with delta := s.delta + 1 }

/-- `T.len`: the sum of the lengths of the runs. -/
def textLen : List Run → Nat
  | [] => 0
  | .piece _ bs _ :: rest => bs.length + textLen rest
  | .elem _ _ _ _ _ _ :: rest => 1 + textLen rest

/-- The second loop of `Store` (Texts.Mod 847-865).  `ElemChar` is 1CX (Texts.Mod 10). -/
def body : List Run → List Nat
  | [] => []
  | .piece _ bs a :: rest => (if a then bs.map fun c => if c = 10 then 13 else c else bs) ++ body rest
  | .elem _ mod _ _ _ _ :: rest => (if mod ≠ [] then [28] else []) ++ body rest

/-- `Store` (Texts.Mod 802-868): the bytes appended to the file. -/
def store (names : Nat → Str) (T : List Run) : Option (List Nat) :=
  match header names (T.length + 1) T ⟨lint 0, [], [], 0⟩ with
  | none => none
  | some s =>
    let out := s.out ++ [0] ++ lint ((textLen T : Int) - s.delta)
    let hlen := out.length + 2
    some (patch out 0 (lint (hlen : Nat)) ++ body T)

/-- `Close` (Texts.Mod 870-877): the contents of the file it registers.  `textTag` is 0F0X and `version` 01X (Texts.Mod 19).  Not: the
name of the backup. -/
def close (names : Nat → Str) (T : List Run) : Option (List Nat) := (store names T).map ([0xF0, 1] ++ ·)

/-! ### Load -/

/-- `Files.Read(r, x)` for an INT8 or CHAR (Files.Mod 398-414): at the end of the file it gives 0. -/
def readByte : List Nat → Nat × List Nat
  | [] => (0, [])
  | b :: s => (b, s)

/-- A byte as an INT8. -/
def int8 (b : Nat) : Int := if b < 128 then b else (b : Int) - 256

/-- The string in an array of characters. -/
def strOf (x : List Nat) : Str := x.takeWhile (· ≠ 0)

/-- `Files.ReadString` into an array of 32 characters. -/
def readStr (m : Sizes) (s : List Nat) : Option (Str × List Nat) :=
  (readString m.int (List.replicate 32 0) s).map fun p => (strOf p.1, p.2)

/-- What modules there are for elements: for the names of a module and a procedure and the bytes that follow, the number of bytes that
the handler of the new element reads, or `none` if there is no such element (Texts.Mod 734-740). -/
abbrev Env := Str → Str → List Nat → Option Nat

/-- `LoadElem` (Texts.Mod 728-749).  The bytes of the element are those between `org` and `org + span`, either read by its handler or
kept by an alien.  `kinds` is `mods` and `procs` as far as they are initialised. -/
def loadElem (m : Sizes) (env : Env) (span : Int) (ecnt : Int) (kinds : List (Int × Str × Str)) (s : List Nat) :
    Option ((Str × Str × Int × Int × List Nat) × Int × List (Int × Str × Str) × List Nat) := do
  let (ew, s) ← readLInt m s
  let (eh, s) ← readLInt m s
  let (b, s) := readByte s
  let eno := int8 b
  let (ecnt, kinds, s) ← (if ecnt < eno then
      if eno < 64 then do
        let (mod, s) ← readStr m s
        let (proc, s) ← readStr m s
        some (eno, (eno, mod, proc) :: kinds, s)
      else none
    else some (ecnt, kinds, s))
  match kinds.lookup eno with
  | none => none
  | some (mod, proc) =>
    let read := s.drop ((env mod proc s).getD 0)
    let s' := if (env mod proc s).isSome ∧ read.length + span = s.length then read else s.drop span.toNat
    some ((mod, proc, ew, eh, s.take (s.length - s'.length)), ecnt, kinds, s')

/-- The font, if its number is new, the looks and the length of a run (Texts.Mod 757-758): `fcnt`, the looks, `plen`, and what is left. -/
def loadLook (m : Sizes) (fno fcnt : Int) (s : List Nat) : Option (Int × Look × Int × List Nat) :=
  let rest (fcnt : Int) (s : List Nat) : Option (Int × Look × Int × List Nat) :=
    let c := readByte s
    let v := readByte c.2
    (readLInt m v.2).map fun r => (fcnt, ⟨none, int8 c.1, int8 v.1⟩, r.1, r.2)
  if fcnt < fno then
    if fno < 32 then (readStr m s).bind fun r => rest fno r.2 else none
  else rest fcnt s

/-- The loop of `Load0` (Texts.Mod 756-764).  `f` is the file, `s` what is left of it at the rider, `pos` where the next run is.  The first
argument bounds the number of rounds. -/
def loadLoop (m : Sizes) (env : Env) (f : List Nat) : Nat → Int → Int → Int → List (Int × Str × Str) → List Nat → Option (List Run × List Nat)
  | 0, _, _, _, _, _ => none
  | g + 1, pos, fcnt, ecnt, kinds, s =>
    let b := readByte s
    if int8 b.1 = 0 then some ([], b.2)
    else
      (loadLook m (int8 b.1) fcnt b.2).bind fun r =>
      if 0 < r.2.2.1 then
        (loadLoop m env f g (pos + r.2.2.1) r.1 ecnt kinds r.2.2.2).map fun t =>
          (.piece r.2.1 ((f.drop pos.toNat).take r.2.2.1.toNat) false :: t.1, t.2)
      else
        (loadElem m env (-r.2.2.1) ecnt kinds r.2.2.2).bind fun e =>
        (loadLoop m env f g (pos + 1) r.1 e.2.1 e.2.2.1 e.2.2.2).map fun t =>
          (.elem r.2.1 e.1.1 e.1.2.1 e.1.2.2.1 e.1.2.2.2.1 e.1.2.2.2.2 :: t.1, t.2)

/-- `Load0` (Texts.Mod 718-767) with the rider at `p`: the runs, `T.len`, and the new position of the rider. -/
def load0 (m : Sizes) (env : Env) (f : List Nat) (p : Nat) : Option (List Run × Int × Int) := do
  let (hlen, s) ← readLInt m (f.drop p)
  let org : Int := p - 2 + hlen
  let (rs, s) ← loadLoop m env f (s.length + 1) org 0 0 [] s
  let (len, s) ← readLInt m s
  some (rs, len, ((f.length - s.length : Nat) : Int) + len)

/-- `Load` (Texts.Mod 769-776). -/
def load (m : Sizes) (env : Env) (f : List Nat) (p : Nat) : Option (List Run × Int × Int) := do
  let (tag, _) ← readInt m (f.drop p)
  if tag ≠ -4095 then load0 m env f p else load0 m env f (p + 2)

/-- `Open` (Texts.Mod 778-800) of a file with these contents: the runs and `T.len`.  Not: documents of System 3.  `fontsDefault` is the
reference to the default font. -/
def «open» (m : Sizes) (env : Env) (fontsDefault : Nat) (f : List Nat) : Option (List Run × Int) :=
  let (tag, s) := readByte f
  let (version, _) := readByte s
  if tag = 0xF0 ∨ tag = 1 ∧ version = 0xF0 then (load0 m env f 2).map fun r => (r.1, r.2.1)
  else if 0 < f.length then some ([.piece ⟨some fontsDefault, 15, 0⟩ f true], f.length)
  else some ([], 0)

end Verif.TextFiles
