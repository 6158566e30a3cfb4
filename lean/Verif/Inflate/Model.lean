import Verif.Common

/-!
# The window of the decompressor, src/library/s3/ethZlibInflate.Mod

`Inflate` decodes the symbols of a compressed stream (bytes, and references back to earlier output) into a window of 32768 bytes, and copies from the window
to the buffers its caller provides, as much as they have room for.  A call ends when the input or the room runs out, and the next call goes on.

Modelled: `Flush`, `NeedOut`, what `InflateFast` and `InflateCodes` do with the window, the stored blocks and the order of blocks in `InflateBlocks`,
`ResetBlocks`, `SetDictionary`.

Simplified: the decoding of the bits.  A stream is given as its blocks, each with its symbols or its stored bytes.  The input of a call is a list of tokens: one
token for each symbol, for the end of a block, for the header of a block, and for each stored byte that is in the input buffer.  A token is `true` when at least
ten bytes are left in the input buffer when it is decoded, the condition of the fast path (line 598 and line 580).  All lists of tokens are allowed, so every way of
cutting the input is one of them: a symbol of which a part is missing is a symbol whose token comes with the next call.  Not modelled: `Need`, `Dump`, the Huffman
tables, check sums, messages, the header and trailer of a stream, `Sync`.  LONGINT is taken as unbounded: all numbers here are at most 65536.
-/
namespace Verif.Inflate

abbrev Byte := UInt8

/-- `WindowSize`, src/library/s3/ethZlibInflate.Mod 39. -/
scoped notation "W" => 32768

/-- A decoded symbol of a block: a literal byte, or a copy of `len` bytes from `dist` bytes back. -/
inductive Sym where
  | lit (b : Byte)
  | copy (len dist : Nat)
deriving DecidableEq, Repr

/-- A block: compressed (types 1 and 2), or stored (type 0), src/library/s3/ethZlibInflate.Mod 756-779. -/
inductive Block where
  | codes (syms : List Sym)
  | stored (bytes : List Byte)
deriving DecidableEq, Repr

/-- The window and the output buffer, src/library/s3/ethZlibInflate.Mod 110-111 and `s.out`: `avail` is the room left, `out` everything written to output buffers so far.
`bad` is set by a failed index check or ASSERT, and by a memory copy (`memcpy`, src/runtime/SYSTEM.h 189) between overlapping areas. -/
structure S where
  window : Nat → Byte
  read : Nat
  write : Nat
  avail : Nat
  out : List Byte
  bad : Bool

/-- `n` bytes of the window from `r`. -/
def piece (w : Nat → Byte) (r n : Nat) : List Byte := (List.range n).map fun i => w (r + i)

/-- `ZlibBuffers.WriteBytes(s.out, s.window^, s.read, n); INC(s.read, n)` if `n > 0`, src/library/s3/ethZlibInflate.Mod 406-415, 424-433, with the ASSERT of
src/library/s3/ethZlibBuffers.Mod `WriteBytes` 67-72. -/
def deliver (s : S) (n : Nat) : S :=
  if n > 0 then
    { s with out := s.out ++ piece s.window s.read n, avail := s.avail - n, read := s.read + n,
             bad := s.bad || !decide (s.read + n ≤ W ∧ n ≤ s.avail) }
  else s

/-- The number of bytes to copy: `IF n > s.out.avail THEN n := s.out.avail END`, src/library/s3/ethZlibInflate.Mod 405, 423. -/
def limit (n avail : Nat) : Nat := if n > avail then avail else n

/-- `s.read := 0; IF s.write = WindowSize THEN s.write := 0 END`, src/library/s3/ethZlibInflate.Mod 418-419. -/
def rewind (s : S) : S := { s with read := 0, write := if s.write = W then 0 else s.write }

/-- The end of `Flush`, src/library/s3/ethZlibInflate.Mod 417-434. -/
def flushEnd (s : S) : S := if s.read = W then deliver (rewind s) (limit ((rewind s).write - (rewind s).read) (rewind s).avail) else s

/-- `Flush`, src/library/s3/ethZlibInflate.Mod 398-435. -/
def flush (s : S) : S := flushEnd (deliver s (limit (if s.read ≤ s.write then s.write - s.read else W - s.read) s.avail))

/-- `IF (s.write = WindowSize) & (s.read # 0) THEN s.write := 0; wavail := s.read-1 END`, src/library/s3/ethZlibInflate.Mod 460-462, 465-467. -/
def wrap (s : S) (wa : Nat) : S × Nat :=
  if s.write = W ∧ s.read ≠ 0 then ({ s with write := 0 }, s.read - 1) else (s, wa)

/-- `NeedOut`, src/library/s3/ethZlibInflate.Mod 457-474. -/
def needOut (s : S) (wa : Nat) : Bool × S × Nat :=
  if wa = 0 then
    let (s, wa) := wrap s wa
    if wa = 0 then
      let s := flush s
      let (s, wa) := wrap s wa
      if wa = 0 then (false, s, wa) else (true, s, wa)
    else (true, s, wa)
  else (true, s, wa)

/-- The start of `InflateCodes` and `InflateBlocks`, src/library/s3/ethZlibInflate.Mod 592-594, 747-749: the room in the window. -/
def room (s : S) : Nat := if s.write < s.read then s.read - s.write - 1 else W - s.write

/-- `s.window[s.write] := b; INC(s.write)`, src/library/s3/ethZlibInflate.Mod 510, 545, 559, 672, 680, with the index check. -/
def push (s : S) (b : Byte) : S :=
  { s with window := Function.update s.window s.write b, write := s.write + 1, bad := s.bad || !decide (s.write < W) }

/-- `s.window[s.write] := s.window[index]; INC(s.write)`. -/
def pushFrom (s : S) (index : Nat) : S := { push s (s.window index) with bad := (push s 0).bad || !decide (index < W) }

/-- `REPEAT s.window[s.write] := s.window[index]; INC(s.write); INC(index) … UNTIL`, `n` rounds, src/library/s3/ethZlibInflate.Mod 544-546, 558-561. -/
def bytewise : Nat → S → Nat → S
  | 0, s, _ => s
  | n + 1, s, index => bytewise n (pushFrom s index) (index + 1)

/-- `SYSTEM.MOVE(SYSTEM.ADR(s.window[index]), SYSTEM.ADR(s.window[s.write]), n)` and the change of `s.write`, src/library/s3/ethZlibInflate.Mod 540-541, 555-556. -/
def move (s : S) (index n : Nat) : S :=
  { s with window := fun k => if s.write ≤ k ∧ k < s.write + n then s.window (index + (k - s.write)) else s.window k,
           write := s.write + n,
           bad := s.bad || !decide (index + n ≤ W ∧ s.write + n ≤ W ∧ (index + n ≤ s.write ∨ s.write + n ≤ index)) }

/-- The copy of `InflateFast` when the index is not negative, src/library/s3/ethZlibInflate.Mod 553-563. -/
def fastTail (s : S) (index len : Nat) : S :=
  if len > 0 then
    if index + len ≤ s.write then move s index len else bytewise len s index
  else s

/-- The copy of `InflateFast`, src/library/s3/ethZlibInflate.Mod 535-563; `back` is `-index`. -/
def fastCopy (s : S) (len dist : Nat) : S :=
  if s.write < dist then
    let back := dist - s.write
    if back < len then
      let s' := if s.write + back ≤ W - back then move s (W - back) back else bytewise back s (W - back)
      fastTail s' 0 (len - back)
    else fastTail s (W - back) len
  else fastTail s (s.write - dist) len

/-- One round of `InflateFast` for a literal or a copy, src/library/s3/ethZlibInflate.Mod 509-510, 534-563: the new value of `wavail`. -/
def fast (s : S) (wa : Nat) : Sym → S × Nat
  | .lit b => (push s b, wa - 1)
  | .copy len dist => (fastCopy s len dist, wa - len)

/-- The loop of the state CodeCopy, src/library/s3/ethZlibInflate.Mod 670-675: whether it came to its end, and what is left of `s.decode.len`. -/
def copyLoop : Nat → S → Nat → Nat → Bool × S × Nat × Nat
  | 0, s, _, wa => (true, s, 0, wa)
  | len + 1, s, index, wa =>
    match needOut s wa with
    | (false, s, wa) => (false, s, len + 1, wa)
    | (true, s, wa) => copyLoop len (pushFrom s index) ((index + 1) % W) (wa - 1)

/-- The states of `InflateCodes` that matter for the window, src/library/s3/ethZlibInflate.Mod 42-43: CodeStart (also CodeLen, CodeLenExt, CodeDist and CodeDistExt,
which wait for input), CodeCopy, CodeLit, CodeWash (also CodeEnd). -/
inductive Cur where
  | start
  | copy (len dist : Nat)
  | lit (b : Byte)
  | wash
deriving DecidableEq, Repr

/-- The state after a symbol is decoded, src/library/s3/ethZlibInflate.Mod 616-618, 662-666. -/
def Sym.cur : Sym → Cur
  | .lit b => .lit b
  | .copy len dist => .copy len dist

/-- The states CodeCopy and CodeLit, src/library/s3/ethZlibInflate.Mod 668-681: `false` for EXIT. -/
def emit (s : S) (wa : Nat) : Cur → Bool × S × Cur × Nat
  | .start => (true, s, .start, wa)
  | .wash => (true, s, .wash, wa)
  | .lit b =>
    match needOut s wa with
    | (false, s, wa) => (false, s, .lit b, wa)
    | (true, s, wa) => (true, push s b, .start, wa - 1)
  | .copy len dist =>
    match copyLoop len s (((s.write : Int) - dist) % W).toNat wa with
    | (false, s, len, wa) => (false, s, .copy len dist, wa)
    | (true, s, _, wa) => (true, s, .start, wa)

/-- What `InflateCodes` leaves: `fin` when `s.res.code = StreamEnd`. -/
structure CodesResult where
  s : S
  cur : Cur
  syms : List Sym
  toks : List Bool
  fin : Bool

/-- The states CodeWash and CodeEnd, src/library/s3/ethZlibInflate.Mod 689-696. -/
def wash (s : S) (toks : List Bool) : CodesResult :=
  let s := flush s
  ⟨s, .wash, [], toks, decide (s.read = s.write)⟩

/-- The loop of `InflateCodes`, src/library/s3/ethZlibInflate.Mod 595-706, with `InflateFast`, 493-587: a symbol is taken by the fast path when 258 bytes of room and ten bytes
of input are left.  At the end of a block the fast path leaves at once with StreamEnd (575-578, 600-604); the other path empties the window first. -/
def codes : List Bool → S → Cur → List Sym → Nat → CodesResult
  | toks, s, cur, syms, wa =>
    match emit s wa cur with
    | (false, s, cur, _) => ⟨s, cur, syms, toks, false⟩
    | (true, s, .wash, _) => wash s toks
    | (true, s, _, wa) =>
      match toks with
      | [] => ⟨flush s, .start, syms, [], false⟩
      | f :: toks =>
        match syms with
        | [] => if f ∧ 258 ≤ wa then ⟨s, .wash, [], toks, true⟩ else wash s toks
        | x :: syms =>
          if f ∧ 258 ≤ wa then codes toks (fast s wa x).1 .start syms (fast s wa x).2
          else codes toks s x.cur syms wa

/-- `ZlibBuffers.ReadBytes(s.in, s.window^, s.write, t); INC(s.write, t)`, src/library/s3/ethZlibInflate.Mod 808, 813, with the ASSERT of
src/library/s3/ethZlibBuffers.Mod `ReadBytes` 51-56. -/
def load (s : S) (bytes : List Byte) : S :=
  { s with window := fun k => if s.write ≤ k ∧ k < s.write + bytes.length then bytes.getD (k - s.write) 0 else s.window k,
           write := s.write + bytes.length,
           bad := s.bad || !decide (0 < bytes.length ∧ s.write + bytes.length ≤ W) }

/-- What the state BlkStored leaves: `fin` when no bytes of the block are left. -/
structure StoredResult where
  s : S
  bytes : List Byte
  toks : List Bool
  wa : Nat
  fin : Bool

/-- The number of bytes to take, src/library/s3/ethZlibInflate.Mod 803-806. -/
def amount (left inAvail wa write : Nat) : Nat :=
  let t := if left > inAvail then inAvail else left
  let t := if t > wa then wa else t
  if write + t > W then W - write else t

/-- The state BlkStored, src/library/s3/ethZlibInflate.Mod 797-819, until it ends or leaves. -/
def stored (toks : List Bool) (s : S) (bytes : List Byte) (wa : Nat) : StoredResult :=
  if toks.length = 0 then ⟨flush s, bytes, toks, wa, false⟩
  else
    match needOut s wa with
    | (false, s, wa) => ⟨s, bytes, toks, wa, false⟩
    | (true, s, wa) =>
      if 0 < amount bytes.length toks.length wa s.write ∧ 0 < bytes.length then
        if (bytes.drop (amount bytes.length toks.length wa s.write)).length = 0 then
          ⟨load s (bytes.take (amount bytes.length toks.length wa s.write)), [], toks.drop (amount bytes.length toks.length wa s.write),
            wa - amount bytes.length toks.length wa s.write, true⟩
        else
          stored (toks.drop (amount bytes.length toks.length wa s.write)) (load s (bytes.take (amount bytes.length toks.length wa s.write)))
            (bytes.drop (amount bytes.length toks.length wa s.write)) (wa - amount bytes.length toks.length wa s.write)
      else ⟨flush s, bytes, toks, wa, false⟩
  termination_by bytes.length
  decreasing_by simp only [List.length_drop]; omega

/-- The states of `InflateBlocks` that matter for the window, src/library/s3/ethZlibInflate.Mod 46-47: BlkType (also BlkLens, BlkTable, BlkBTree and BlkDTree, which wait for
input), BlkCodes, BlkStored, BlkDry, BlkDone. -/
inductive Blk where
  | type
  | codes (cur : Cur) (syms : List Sym)
  | stored (bytes : List Byte)
  | dry
  | done

/-- A decompressor: the window, the state of the block, the blocks that follow. -/
structure D where
  s : S
  blk : Blk
  rest : List Block

/-- `InflateBlocks` from a block's start, src/library/s3/ethZlibInflate.Mod 750-969.  `wa` is the variable `wavail` of `InflateBlocks`, which `InflateCodes` does not change. -/
def blocks : List Block → List Bool → S → Nat → D
  | [], _, s, _ =>
    let s := flush s
    if s.read ≠ s.write then ⟨s, .dry, []⟩ else ⟨s, .done, []⟩
  | b :: bs, [], s, _ => ⟨flush s, .type, b :: bs⟩
  | .codes syms :: bs, _ :: toks, s, wa =>
    let r := codes toks s .start syms (room s)
    if r.fin then blocks bs r.toks r.s wa else ⟨flush r.s, .codes r.cur r.syms, bs⟩
  | .stored bytes :: bs, _ :: toks, s, wa =>
    if bytes.length = 0 then blocks bs toks s wa
    else
      let r := stored toks s bytes wa
      if r.fin then blocks bs r.toks r.s r.wa else ⟨r.s, .stored r.bytes, bs⟩

/-- A call: `room` bytes of output buffer, and the input. -/
structure Call where
  room : Nat
  toks : List Bool

/-- `Inflate` in the state InfBlocks, that is `InflateBlocks`, src/library/s3/ethZlibInflate.Mod 742-970, 1077-1092. -/
def inflate (d : D) (c : Call) : D :=
  let s := { d.s with avail := c.room }
  match d.blk with
  | .type => blocks d.rest c.toks s (room s)
  | .codes cur syms =>
    let r := codes c.toks s cur syms (room s)
    if r.fin then blocks d.rest r.toks r.s (room s) else ⟨flush r.s, .codes r.cur r.syms, d.rest⟩
  | .stored bytes =>
    let r := stored c.toks s bytes (room s)
    if r.fin then blocks d.rest r.toks r.s r.wa else ⟨r.s, .stored r.bytes, d.rest⟩
  | .dry => blocks [] c.toks s (room s)
  | .done => d

/-- The calls of a client, one after the other. -/
def run (d : D) (cs : List Call) : D := cs.foldl inflate d

/-- The result of a call is StreamEnd, src/library/s3/ethZlibInflate.Mod 945-947. -/
def D.isDone (d : D) : Bool := match d.blk with | .done => true | _ => false

/-- `Open` or `Reset`, src/library/s3/ethZlibInflate.Mod 712-721, 988-1022: `Reset` leaves the window as it is; `Open` makes a new one, of zeros. -/
def start (window : Nat → Byte) (stream : List Block) : D := ⟨⟨window, 0, 0, 0, [], false⟩, .type, stream⟩

/-- `SetDictionary` with `SetBlockDict`, src/library/s3/ethZlibInflate.Mod 973-978, 1137-1156, when the check sum agrees: `len` bytes are moved from `dict[0]`; the offset `idx` is not used. -/
def setDictionary (d : D) (dict : List Byte) : D :=
  let len := if dict.length ≥ W then W - 1 else dict.length
  { d with s := { d.s with window := fun k => if k < len then dict.getD k 0 else d.s.window k, read := len, write := len } }

/-- `Uncompress` (to memory) after the header, src/library/s3/ethZlibInflate.Mod 1205-1225: one call with all the input and the whole destination; only StreamEnd is a success
(the result is BufError otherwise, 1039-1041 and 1090). -/
def uncompress (stream : List Block) (room : Nat) (toks : List Bool) : Option (List Byte) :=
  let d := inflate (start (fun _ => 0) stream) ⟨room, toks⟩
  if d.isDone then some d.s.out else none

end Verif.Inflate
