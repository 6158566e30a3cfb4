import Verif.ErrPos.Spec

/-!
# Error messages: `FindLine`, `ShowLine` and `Mark`, src/compiler/OPM.Mod 436-520

Simplifications.  Files are lists of bytes (C26): `Files.Read` behind the end gives 0X and sets `eof`.  Of what is written only the number and text
of the line and the column of the arrow are kept.  Positions are not negative and fit LONGINT; columns fit INTEGER.
-/
namespace Verif.ErrPos

/-- `ErrorLineStartPos`, `ErrorLineLimitPos`, `ErrorLineNumber`, src/compiler/OPM.Mod 110, 381. -/
structure St where
  start : Nat
  limit : Nat
  num : Nat
deriving DecidableEq, Repr

def St.init : St := ⟨0, 0, 0⟩

/-- The rider and the last character read: what follows it, and `eof`. -/
structure Rd where
  ch : Nat
  rest : List Nat
  eof : Bool

/-- `Files.Read`, src/runtime/Files.Mod 398-416. -/
def Rd.next (r : Rd) : Rd :=
  match r.rest with
  | [] => ⟨0, [], true⟩
  | c :: t => ⟨c, t, r.eof⟩

/-- The ends of lines, src/compiler/OPM.Mod 456, 480. -/
def eol (c : Nat) : Bool := c = 0 || c = 13 || c = 10

/-- The inner loop of `FindLine`, src/compiler/OPM.Mod 456-458. -/
def skip (eof : Bool) (ch : Nat) (rest : List Nat) (limit : Nat) : Rd × Nat :=
  if eol ch then (⟨ch, rest, eof⟩, limit)
  else
    match rest with
    | [] => (⟨0, [], true⟩, limit + 1)
    | c :: t => skip eof c t (limit + 1)

/-- One line, src/compiler/OPM.Mod 454-462. -/
def line (r : Rd) (limit : Nat) : Rd × Nat :=
  let (r1, l1) := skip r.eof r.ch r.rest limit
  let r2 := r1.next
  if r1.ch = 13 ∧ r2.ch = 10 then (r2.next, l1 + 2) else (r2, l1 + 1)

/-- The outer loop, src/compiler/OPM.Mod 453-463.  There are at most as many lines as bytes: the first argument is never used up (`C73_line`). -/
def lines (pos : Nat) : Nat → Rd → St → St
  | 0, _, st => st
  | f + 1, r, st =>
    if st.limit < pos ∧ r.eof = false then
      let (r', l') := line r st.limit
      lines pos f r' ⟨st.limit, l', st.num + 1⟩
    else st

/-- `FindLine`, src/compiler/OPM.Mod 436-465. -/
def findLine (bs : List Nat) (st : St) (pos : Nat) : St :=
  let st := if pos < st.start then St.init else st
  if pos < st.limit then st
  else
    let r : Rd := (⟨0, bs.drop st.limit, false⟩ : Rd).next
    lines pos (bs.length + 1) r st

/-- `ShowLine`, src/compiler/OPM.Mod 468-494: `LEN(line) - 1` is 1022. -/
def showLine (bs : List Nat) (st : St) (pos : Nat) : St × Shown :=
  let st := findLine bs st pos
  let line := (bs.drop st.start).takeWhile fun c => !eol c
  let p : Int := if st.limit ≤ pos then (st.limit : Int) - 1 else pos
  (st, ⟨st.num, line.take 1022, (p - st.start).toNat⟩)

/-- The state of `Mark`: `noerr`, `lasterrpos`. -/
structure MSt where
  noerr : Bool
  last : Int
  st : St

/-- `Init`, src/compiler/OPM.Mod 380-381. -/
def MSt.init : MSt := ⟨true, -10, St.init⟩

/-- `Mark`, src/compiler/OPM.Mod 497-520: the new state and what is shown. -/
def mark (bs : List Nat) (m : MSt) (r : Report) : MSt × Option Shown :=
  if 0 ≤ r.n then
    if (r.pos : Int) < m.last ∨ m.last + 9 < r.pos then
      let (st, sh) := showLine bs m.st r.pos
      (⟨false, r.pos, st⟩, some sh)
    else (⟨false, m.last, m.st⟩, none)
  else
    let (st, sh) := showLine bs m.st r.pos
    (⟨m.noerr, m.last, st⟩, some sh)

/-- All reports of a compilation. -/
def marks (bs : List Nat) : MSt → List Report → MSt × List (Option Shown)
  | m, [] => (m, [])
  | m, r :: t =>
    let (m1, s) := mark bs m r
    let (m2, ss) := marks bs m1 t
    (m2, s :: ss)

end Verif.ErrPos
