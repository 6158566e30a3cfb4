import Mathlib.Data.List.Basic

/-!
# The buffers of the module Files, src/runtime/Files.Mod

`B` is `BufSize` (4096 in the code) and `N` is `NumBufs` (4 in the code); the model is written for all values.

Files and buffers are numbered in the order of their creation; buffer 0 is NIL.  Each `File` record contains its own
operating system file: `os` (bytes), `osLen`, and the position `osPos` of its descriptor.  The operating system is
assumed to read and seek without error, and to write without error; `lim` is the largest length a file can have on
the disk: a write that goes beyond it writes fewer bytes than asked for (a short write, which Platform.Write,
Platformunix.Mod 350-355, does not report), and is an error (HALT in `Err`) if it cannot write a single byte.  `none`:
no limit.

Names are modelled in Verif.Names; here `anon` tells whether the file was created with the empty name.  LONGINT
values are not bounded.  The model returns `none` where the program stops: NIL pointers, failing assertions.
-/
namespace Verif.Files

def upd {α : Type} (g : Nat → α) (k : Nat) (v : α) : Nat → α := fun i => if i = k then v else g i

/-- `BufDesc`, Files.Mod 40-46.  `org = none` is -1. -/
structure Buf where
  f : Nat
  chg : Bool
  org : Option Nat
  size : Nat
  data : Nat → Nat

/-- `FileDesc`, Files.Mod 27-38, with the operating system file.  `created`: `fd # NoDesc`; `state = create` otherwise. -/
structure File where
  created : Bool
  anon : Bool
  os : Nat → Nat
  osLen : Nat
  osPos : Nat
  len : Nat
  pos : Nat
  bufs : Nat → Nat
  swapper : Int

/-- `Rider`, Files.Mod 48-54. -/
structure Rider where
  buf : Nat
  org : Nat
  offset : Nat
  eof : Bool
  res : Nat

/-- All files, buffers and riders of the program.  Files are numbered below `nfiles`; other numbers are NIL. -/
structure State where
  nfiles : Nat
  files : Nat → File
  next : Nat
  bufs : Nat → Buf
  riders : Nat → Rider

/-- The file system part of `Create`, Files.Mod 151-191: an empty file is made, the descriptor is at 0. -/
def create (s : State) (f : Nat) : State :=
  if (s.files f).created then s
  else { s with files := upd s.files f { s.files f with created := true, os := fun _ => 0, osLen := 0, osPos := 0, pos := 0 } }

/-- `Platform.Seek(f.fd, org, SeekSet)`. -/
def seek (s : State) (f : Nat) (org : Nat) : State := { s with files := upd s.files f { s.files f with osPos := org } }

/-- How many of `n` bytes at `p` the operating system writes. -/
def written (lim : Option Nat) (p n : Nat) : Nat :=
  match lim with
  | none => n
  | some l => min n (l - p)

/-- `Platform.Write(f.fd, adr, n)`; bytes between the end of the file and the position become 0. -/
def osWrite (lim : Option Nat) (s : State) (f : Nat) (data : Nat → Nat) (n : Nat) : Option State :=
  let F := s.files f
  let w := written lim F.osPos n
  if 0 < n ∧ w = 0 then none
  else if w = 0 then some s
  else some { s with files := upd s.files f { F with
    os := fun i => if F.osPos ≤ i ∧ i < F.osPos + w then data (i - F.osPos) else if i < F.osLen then F.os i else 0
    osLen := max F.osLen (F.osPos + w)
    osPos := F.osPos + w } }

/-- `Flush`, Files.Mod 193-210.  (The file identity is not modelled.) -/
def flush (lim : Option Nat) (s : State) (b : Nat) : Option State :=
  if (s.bufs b).chg then
    (s.bufs b).org.bind fun org =>
    let f := (s.bufs b).f
    let s := create s f
    let s := if org ≠ (s.files f).pos then seek s f org else s
    (osWrite lim s f (s.bufs b).data (s.bufs b).size).map fun s =>
    let s := { s with files := upd s.files f { s.files f with pos := org + (s.bufs b).size } }
    { s with bufs := upd s.bufs b { s.bufs b with chg := false } }
  else some s

/-- The loop `WHILE (i < NumBufs) & (f.bufs[i] # NIL) DO Flush(f.bufs[i]); INC(i) END` of `Close`, Files.Mod 218; `k` is
`NumBufs - i`. -/
def flushAll (lim : Option Nat) (f : Nat) : Nat → Nat → State → Option State
  | 0, _, s => some s
  | k + 1, i, s =>
    if (s.files f).bufs i ≠ 0 then (flush lim s ((s.files f).bufs i)).bind fun s => flushAll lim f k (i + 1) s else some s

/-- `Close`, Files.Mod 212-220. -/
def close (N : Nat) (lim : Option Nat) (s : State) (f : Nat) : Option State :=
  if (s.files f).created = true ∨ (s.files f).anon = false then flushAll lim f N 0 (create s f) else some s

/-- `New`, Files.Mod 225-231. -/
def newFile (s : State) (anon : Bool) : State :=
  { s with
    nfiles := s.nfiles + 1
    files := upd s.files s.nfiles ⟨false, anon, fun _ => 0, 0, 0, 0, 0, fun _ => 0, -1⟩ }

/-- The part of `Old` for a file that is not yet in the list of files, Files.Mod 317-323. -/
def oldFile (s : State) (content : List Nat) : State :=
  { s with
    nfiles := s.nfiles + 1
    files := upd s.files s.nfiles ⟨true, false, fun i => content.getD i 0, content.length, 0, content.length, 0, fun _ => 0, -1⟩ }

/-- The loop of `Purge`, Files.Mod 338-341; `k` is `NumBufs - i`. -/
def dropBufs (f : Nat) : Nat → Nat → State → State
  | 0, _, s => s
  | k + 1, i, s =>
    let b := (s.files f).bufs i
    let s := if b ≠ 0 then
        { s with
          bufs := upd s.bufs b { s.bufs b with org := none }
          files := upd s.files f { s.files f with bufs := upd (s.files f).bufs i 0 } }
      else s
    dropBufs f k (i + 1) s

/-- `Purge`, Files.Mod 335-348. -/
def purge (N : Nat) (s : State) (f : Nat) : State :=
  let s := dropBufs f N 0 s
  let s := if (s.files f).created then { s with files := upd s.files f { s.files f with osLen := 0, osPos := 0 } } else s
  { s with files := upd s.files f { s.files f with pos := 0, len := 0, swapper := -1 } }

/-- The loop of `Set`, Files.Mod 370; `k` is `NumBufs - i`. -/
def search (s : State) (f org : Nat) : Nat → Nat → Nat
  | 0, i => i
  | k + 1, i =>
    if (s.files f).bufs i ≠ 0 ∧ some org ≠ (s.bufs ((s.files f).bufs i)).org then search s f org k (i + 1) else i

/-- Files.Mod 371-380: the buffer for the block at `org`. -/
def getBuf (N : Nat) (lim : Option Nat) (s : State) (f org : Nat) : Option (State × Nat) :=
  let i := search s f org N 0
  if i < N then
    if (s.files f).bufs i = 0 then
      some ({ s with
        next := s.next + 1
        bufs := upd s.bufs s.next ⟨f, false, none, 0, fun _ => 0⟩
        files := upd s.files f { s.files f with bufs := upd (s.files f).bufs i s.next } }, s.next)
    else some (s, (s.files f).bufs i)
  else
    let sw := ((s.files f).swapper + 1) % N
    let s := { s with files := upd s.files f { s.files f with swapper := sw } }
    let b := (s.files f).bufs sw.toNat
    (flush lim s b).map fun s => (s, b)

/-- Files.Mod 381-391: fill the buffer.  `Platform.ReadBuf` reads the bytes there are, at most `BufSize`. -/
def loadBuf (B : Nat) (s : State) (f b org : Nat) : State :=
  if (s.bufs b).org ≠ some org then
    let s :=
      if org = (s.files f).len then { s with bufs := upd s.bufs b { s.bufs b with size := 0 } }
      else
        let s := create s f
        let s := if (s.files f).pos ≠ org then seek s f org else s
        let F := s.files f
        let n := min B (F.osLen - F.osPos)
        { s with
          bufs := upd s.bufs b { s.bufs b with
            data := fun i => if i < n then F.os (F.osPos + i) else (s.bufs b).data i
            size := n }
          files := upd s.files f { F with osPos := F.osPos + n, pos := org + n } }
    { s with bufs := upd s.bufs b { s.bufs b with org := some org, chg := false } }
  else s

/-- `Set`, Files.Mod 364-396, for a file that is not NIL. -/
def set (B N : Nat) (lim : Option Nat) (s : State) (f : Nat) (pos : Int) : Option (State × Rider) :=
  let pos := if (s.files f).len < pos then (s.files f).len else if pos < 0 then 0 else pos.toNat
  let offset := pos % B
  let org := pos - offset
  (getBuf N lim s f org).bind fun (s, b) =>
  let s := loadBuf B s f b org
  if offset ≤ B then some (s, ⟨b, org, offset, false, 0⟩) else none

/-- `Pos`, Files.Mod 358-362. -/
def pos (B : Nat) (r : Rider) : Option Nat := if r.offset ≤ B then some (r.org + r.offset) else none

/-- `Read`, Files.Mod 398-414: the byte. -/
def read (B N : Nat) (lim : Option Nat) (s : State) (r : Rider) : Option (State × Rider × Nat) :=
  if r.buf = 0 then none
  else (if some r.org ≠ (s.bufs r.buf).org then set B N lim s (s.bufs r.buf).f (r.org + r.offset : Nat) else some (s, r)).bind fun (s, r) =>
    let buf := s.bufs r.buf
    if r.offset ≤ buf.size then
      if r.offset < buf.size then some (s, { r with offset := r.offset + 1 }, buf.data r.offset)
      else if r.org + r.offset < (s.files buf.f).len then
        (set B N lim s buf.f (r.org + r.offset : Nat)).bind fun (s, r) =>
        some (s, { r with offset := 1 }, (s.bufs r.buf).data 0)
      else some (s, { r with eof := true }, 0)
    else none

/-- `SYSTEM.MOVE` of `n` bytes: those of the buffer from `offset` on. -/
def bytesAt (data : Nat → Nat) (offset n : Nat) : List Nat := (List.range n).map fun i => data (offset + i)

/-- The loop of `ReadBytes`, Files.Mod 429-439; `got` are the bytes moved so far. -/
def readLoop (B N : Nat) (lim : Option Nat) : Nat → State → Rider → Nat → List Nat → Option (State × Rider × List Nat)
  | 0, _, _, _, _ => none
  | fuel + 1, s, r, n, got =>
    if 0 < n then
      (if some r.org ≠ (s.bufs r.buf).org ∨ B ≤ r.offset then set B N lim s (s.bufs r.buf).f (r.org + r.offset : Nat)
        else some (s, r)).bind fun (s, r) =>
      let buf := s.bufs r.buf
      if buf.size - r.offset = 0 then some (s, { r with res := n, eof := true }, got)
      else
        let m := if n > buf.size - r.offset then buf.size - r.offset else n
        if r.offset + m ≤ B then
          readLoop B N lim fuel s { r with offset := r.offset + m } (n - m) (got ++ bytesAt buf.data r.offset m)
        else none
    else some (s, { r with res := 0, eof := false }, got)

/-- `ReadBytes`, Files.Mod 422-441: the array after the call.  The index check is on `n > LEN(x)`. -/
def readBytes (B N : Nat) (lim : Option Nat) (s : State) (r : Rider) (x : List Nat) (n : Nat) : Option (State × Rider × List Nat) :=
  if n > x.length then none
  else if r.buf = 0 then (if 0 < n then none else some (s, { r with res := 0, eof := false }, x))
  else (readLoop B N lim (n + 1) s r n []).map fun (s, r, got) => (s, r, got ++ x.drop got.length)

/-- `Write`, Files.Mod 447-463. -/
def write (B N : Nat) (lim : Option Nat) (s : State) (r : Rider) (c : Nat) : Option (State × Rider) :=
  if r.buf = 0 ∨ ¬ r.offset ≤ B then none
  else (if some r.org ≠ (s.bufs r.buf).org ∨ B ≤ r.offset then set B N lim s (s.bufs r.buf).f (r.org + r.offset : Nat)
      else some (s, r)).bind fun (s, r) =>
    if r.offset < B then
      let buf := s.bufs r.buf
      let s := { s with bufs := upd s.bufs r.buf { buf with data := upd buf.data r.offset c, chg := true } }
      let s := if r.offset = buf.size then
          { s with
            bufs := upd s.bufs r.buf { s.bufs r.buf with size := buf.size + 1 }
            files := upd s.files buf.f { s.files buf.f with len := (s.files buf.f).len + 1 } }
        else s
      some (s, { r with offset := r.offset + 1, res := 0 })
    else none

/-- The loop of `WriteBytes`, Files.Mod 470-484; `x` are the bytes still to be written. -/
def writeLoop (B N : Nat) (lim : Option Nat) : Nat → State → Rider → List Nat → Option (State × Rider)
  | 0, _, _, _ => none
  | fuel + 1, s, r, x =>
    if 0 < x.length then
      if r.offset ≤ B then
        (if some r.org ≠ (s.bufs r.buf).org ∨ B ≤ r.offset then set B N lim s (s.bufs r.buf).f (r.org + r.offset : Nat)
          else some (s, r)).bind fun (s, r) =>
        if r.offset ≤ B then
          let m := if x.length > B - r.offset then B - r.offset else x.length
          let buf := s.bufs r.buf
          let s := { s with bufs := upd s.bufs r.buf { buf with
            data := fun i => if r.offset ≤ i ∧ i < r.offset + m then x.getD (i - r.offset) 0 else buf.data i } }
          let offset := r.offset + m
          if offset ≤ B then
            let s := if offset > buf.size then
                { s with
                  files := upd s.files buf.f { s.files buf.f with len := (s.files buf.f).len + (offset - buf.size) }
                  bufs := upd s.bufs r.buf { s.bufs r.buf with size := offset } }
              else s
            let s := { s with bufs := upd s.bufs r.buf { s.bufs r.buf with chg := true } }
            writeLoop B N lim fuel s { r with offset := offset } (x.drop m)
          else none
        else none
      else none
    else some (s, { r with res := 0 })

/-- `WriteBytes`, Files.Mod 465-486. -/
def writeBytes (B N : Nat) (lim : Option Nat) (s : State) (r : Rider) (x : List Nat) (n : Nat) : Option (State × Rider) :=
  if n > x.length then none
  else if r.buf = 0 then (if 0 < n then none else some (s, { r with res := 0 }))
  else writeLoop B N lim (n + 1) s r (x.take n)

/-! ## Histories -/

/-- A call of the interface.  A negative `n` of `ReadBytes` and `WriteBytes` has the effect of 0. -/
inductive Op where
  | new (anon : Bool)
  | old (content : List Nat)
  | set (r f : Nat) (pos : Int)
  | read (r : Nat)
  | readBytes (r : Nat) (x : List Nat) (n : Nat)
  | write (r c : Nat)
  | writeBytes (r : Nat) (x : List Nat) (n : Nat)
  | pos (r : Nat)
  | length (f : Nat)
  | close (f : Nat)
  | purge (f : Nat)

/-- What the caller sees.  `disk`: the bytes another program finds in the file after the call. -/
inductive Out where
  | none
  | byte (c : Nat) (eof : Bool)
  | bytes (x : List Nat) (eof : Bool) (res : Nat)
  | num (n : Nat)
  | disk (content : List Nat)
  deriving DecidableEq

/-- One call; `none`: the program stops. -/
def step (B N : Nat) (lim : Option Nat) (s : State) : Op → Option (State × Out)
  | .new anon => some (newFile s anon, .none)
  | .old content => some (oldFile s content, .none)
  | .set r f p =>
    if f < s.nfiles then (set B N lim s f p).map fun (s, rd) => ({ s with riders := upd s.riders r rd }, .none)
    else some ({ s with riders := upd s.riders r ⟨0, 0, 0, false, 0⟩ }, .none)
  | .read r => (read B N lim s (s.riders r)).map fun (s, rd, c) => ({ s with riders := upd s.riders r rd }, .byte c rd.eof)
  | .readBytes r x n =>
    (readBytes B N lim s (s.riders r) x n).map fun (s, rd, x) => ({ s with riders := upd s.riders r rd }, .bytes x rd.eof rd.res)
  | .write r c => (write B N lim s (s.riders r) c).map fun (s, rd) => ({ s with riders := upd s.riders r rd }, .none)
  | .writeBytes r x n => (writeBytes B N lim s (s.riders r) x n).map fun (s, rd) => ({ s with riders := upd s.riders r rd }, .none)
  | .pos r => (pos B (s.riders r)).map fun n => (s, .num n)
  | .length f => if f < s.nfiles then some (s, .num (s.files f).len) else none
  | .close f =>
    if f < s.nfiles then (close N lim s f).map fun s =>
      (s, if (s.files f).created then .disk (bytesAt (s.files f).os 0 (s.files f).osLen) else .none)
    else none
  | .purge f => if f < s.nfiles then some (purge N s f, .none) else none

/-- A history: what was seen, and whether the program was stopped by a call. -/
def run (B N : Nat) (lim : Option Nat) : State → List Op → List Out × Bool
  | _, [] => ([], false)
  | s, op :: ops =>
    match step B N lim s op with
    | none => ([], true)
    | some (s, o) => let (os, b) := run B N lim s ops; (o :: os, b)

/-- At the beginning there are no files; all riders are cleared. -/
def init : State := ⟨0, fun _ => ⟨false, false, fun _ => 0, 0, 0, 0, 0, fun _ => 0, -1⟩, 1, fun _ => ⟨0, false, none, 0, fun _ => 0⟩,
  fun _ => ⟨0, 0, 0, false, 0⟩⟩

end Verif.Files
