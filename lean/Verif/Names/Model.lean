import Mathlib.Data.List.Basic

/-!
# The names of files in the module Files, src/runtime/Files.Mod

The buffers are modelled in Verif.Files; here each open file has its bytes `mem` as riders see them.  Bytes get to the
disk when a buffer is reused (`swap`, at any time, any bytes), and completely in `Close` (that is C26).

The disk: `dir` gives the inode of an absolute name, `data` its bytes; inodes are numbered in the order of their creation.
Only this program changes the disk.  The operating system does not fail, except that a name does not exist.  Two absolute
names that differ as strings are different names; a relative name is looked up in the directory `cwd`; the search path is
not used.  Names fit in their arrays.  The model returns `none` where the program stops: failing assertions, `Err`.
-/
namespace Verif.Names

abbrev Name := List Nat

def upd {α β : Type} [DecidableEq α] (g : α → β) (k : α) (v : β) : α → β := fun i => if i = k then v else g i

/-- The values of `FileDesc.state`, Files.Mod 17-19. -/
inductive St where
  | opn | create | close
  deriving DecidableEq

/-- `FileDesc`, Files.Mod 26-38, without buffers.  `fd`: the inode the descriptor is for, `none`: `NoDesc`. -/
structure File where
  work : Name
  reg : Name
  temp : Bool
  fd : Option Nat
  st : St
  mem : List Nat

/-- The program and the disk.  `list` is the list `files`. -/
structure State where
  cwd : Name
  pid : Nat
  tempno : Int
  dir : Name → Option Nat
  data : Nat → List Nat
  next : Nat
  nfiles : Nat
  files : Nat → File
  list : List Nat

/-- How the operating system looks up a name. -/
def full (cwd n : Name) : Name := if n.head? = some 47 then n else cwd ++ [47] ++ n

/-- The index `ld` after the loop in `MakeFileName`, Files.Mod 90. -/
def stripEnd (dir : Name) : Nat → Nat
  | 0 => 0
  | ld + 1 => if dir[ld]? = some 47 then stripEnd dir ld else ld + 1

/-- `MakeFileName`, Files.Mod 87-98. -/
def makeFileName (dir name : Name) : Name :=
  let ld := stripEnd dir dir.length
  dir.take ld ++ (if 0 < ld then [47] else []) ++ name

/-- The loop of `GetTempName`, Files.Mod 105. -/
def lastSlash (name : Name) : Nat → Nat
  | 0 => 0
  | i + 1 => if name[i + 1]? ≠ some 47 then lastSlash name i else i + 1

/-- The loops that write a number, Files.Mod 109 and 111; the last digit first.  Nothing is written for `n <= 0`. -/
def digits : Nat → Nat → Name
  | 0, _ => []
  | f + 1, n => if 0 < n then (n % 10 + 48) :: digits f (n / 10) else []

/-- `INC(tempno)` for an INTEGER. -/
def inc16 (n : Int) : Int := if n = 32767 then -32768 else n + 1

/-- `GetTempName`, Files.Mod 100-113. -/
def getTempName (s : State) (final : Name) : State × Name :=
  let name := if final.head? = some 47 then final else makeFileName s.cwd final
  let i := lastSlash name (name.length - 1)
  let n := inc16 s.tempno
  ({ s with tempno := n },
    name.take (i + 1) ++ [46, 116, 109, 112, 46] ++ digits (n.toNat + 1) n.toNat ++ [46] ++ digits (s.pid + 1) s.pid)

/-- The part of a `FileIdentity` that `SameFile` compares: `(LONGINT)s.st_ino`, Platformunix.Mod 276-314, LONGINT having 32
bits.  There is one volume. -/
def ident (i : Nat) : Nat := i % 2 ^ 32

/-- The search in the list `files` for an inode, Files.Mod 134 and CacheEntry 267-285.  (No other program changes files, so
`SameFileTime` holds.) -/
def find (s : State) (i : Nat) : Option Nat :=
  s.list.find? fun f => (s.files f).fd.map ident == some (ident i)

/-- `Platform.Rename`; `none`: error. -/
def osRename (s : State) (a b : Name) : Option State :=
  (s.dir (full s.cwd a)).map fun i =>
  if s.dir (full s.cwd b) = some i then s
  else { s with dir := upd (upd s.dir (full s.cwd a) none) (full s.cwd b) (some i) }

/-- `Deregister`, Files.Mod 124-148. -/
def deregister (s : State) (name : Name) : Option State :=
  match s.dir (full s.cwd name) with
  | none => some s
  | some i =>
    match find s i with
    | none => some s
    | some f =>
      let F := s.files f
      if F.temp ∨ F.fd = none then none
      else
        let (s, w) := getTempName s F.work
        let s := { s with files := upd s.files f { F with reg := F.work, work := w, temp := true, st := .opn } }
        osRename s F.work w

/-- `Create`, Files.Mod 151-191. -/
def create (s : State) (f : Nat) : Option State :=
  if (s.files f).fd = none then
    (if (s.files f).st = .create then
      let (s, w) := getTempName s (s.files f).reg
      some { s with files := upd s.files f { s.files f with work := w, temp := true } }
    else if (s.files f).st = .close then
      (deregister s (s.files f).reg).map fun s =>
      { s with files := upd s.files f { s.files f with work := (s.files f).reg, reg := [], temp := false } }
    else none).map fun s =>
    let n := full s.cwd (s.files f).work
    { s with
      dir := upd s.dir n (some s.next)
      data := upd s.data s.next []
      next := s.next + 1
      list := f :: s.list
      files := upd s.files f { s.files f with fd := some s.next, st := .opn } }
  else some s

/-- The bytes of `f` on the disk become `c`: `Flush`, Files.Mod 193-210. -/
def store (s : State) (f : Nat) (c : List Nat) : Option State :=
  (create s f).bind fun s => (s.files f).fd.map fun i => { s with data := upd s.data i c }

/-- `Close`, Files.Mod 212-220. -/
def close (s : State) (f : Nat) : Option State :=
  if (s.files f).st ≠ .create ∨ (s.files f).reg ≠ [] then store s f (s.files f).mem else some s

/-- `New`, Files.Mod 225-231. -/
def newFile (s : State) (name : Name) : State :=
  { s with nfiles := s.nfiles + 1, files := upd s.files s.nfiles ⟨[], name, false, none, .create, []⟩ }

/-- `Old`, Files.Mod 287-333. -/
def old (s : State) (name : Name) : State × Option Nat :=
  if name = [] then (s, none)
  else
    match s.dir (full s.cwd name) with
    | none => (s, none)
    | some i =>
      match find s i with
      | some f => (s, some f)
      | none =>
        ({ s with
          nfiles := s.nfiles + 1
          files := upd s.files s.nfiles ⟨name, [], false, some i, .opn, s.data i⟩
          list := s.nfiles :: s.list }, some s.nfiles)

/-- `Platform.Unlink`: the error code, 2 is ENOENT. -/
def unlink (s : State) (name : Name) : State × Nat :=
  match s.dir (full s.cwd name) with
  | none => (s, 2)
  | some _ => ({ s with dir := upd s.dir (full s.cwd name) none }, 0)

/-- `Delete`, Files.Mod 521-525. -/
def delete (s : State) (name : Name) : Option (State × Nat) :=
  (deregister s name).map fun s => unlink s name

/-- `Rename`, Files.Mod 527-574, within one file system.  `Delete(new)` is called only if `new` does not exist, and has
no effect then. -/
def rename (s : State) (a b : Name) : State × Nat :=
  match s.dir (full s.cwd a) with
  | none => (s, 2)
  | some _ =>
    match osRename s a b with
    | none => (s, 2)
    | some s => (s, 0)

/-- `Register`, Files.Mod 576-587. -/
def register (s : State) (f : Nat) : Option State :=
  let s := if (s.files f).st = .create ∧ (s.files f).reg ≠ [] then
      { s with files := upd s.files f { s.files f with st := .close } } else s
  (close s f).bind fun s =>
  if (s.files f).reg ≠ [] then
    (deregister s (s.files f).reg).bind fun s =>
    match rename s (s.files f).work (s.files f).reg with
    | (s, 0) => some { s with files := upd s.files f { s.files f with work := (s.files f).reg, reg := [], temp := false } }
    | _ => none
  else some s

/-- `Finalize`, Files.Mod 736-744, with `CloseOSFile` 722-734: the collector has found that `f` is not used any more. -/
def finalize (s : State) (f : Nat) : State :=
  match (s.files f).fd with
  | none => s
  | some _ =>
    let s := { s with
      list := s.list.filter (· ≠ f)
      files := upd s.files f { s.files f with fd := none, st := .create } }
    if (s.files f).temp then (unlink s (s.files f).work).1 else s

/-! ## Histories -/

/-- A call, or an event.  `write`: riders have changed the bytes to `c`.  `swap`: buffers were written, the file on the disk
has now the bytes `c`.  `look`: another program looks at a name.  `content`: riders read all bytes. -/
inductive Op where
  | new (name : Name)
  | old (name : Name)
  | write (f : Nat) (c : List Nat)
  | swap (f : Nat) (c : List Nat)
  | close (f : Nat)
  | register (f : Nat)
  | delete (name : Name)
  | rename (a b : Name)
  | drop (f : Nat)
  | content (f : Nat)
  | look (name : Name)

inductive Out where
  | none
  | file (f : Option Nat)
  | res (n : Nat)
  | bytes (c : List Nat)
  | seen (c : Option (List Nat))
  deriving DecidableEq

def step (s : State) : Op → Option (State × Out)
  | .new name => some (newFile s name, .file (some s.nfiles))
  | .old name => let (s, r) := old s name; some (s, .file r)
  | .write f c => some ({ s with files := upd s.files f { s.files f with mem := c } }, .none)
  | .swap f c => (store s f c).map fun s => (s, .none)
  | .close f => (close s f).map fun s => (s, .none)
  | .register f => (register s f).map fun s => (s, .none)
  | .delete name => (delete s name).map fun (s, r) => (s, .res r)
  | .rename a b => let (s, r) := rename s a b; some (s, .res r)
  | .drop f => some (finalize s f, .none)
  | .content f => some (s, .bytes (s.files f).mem)
  | .look name => some (s, .seen ((s.dir (full s.cwd name)).map s.data))

/-- A history: what was seen, and whether the program was stopped. -/
def run : State → List Op → List Out × Bool
  | _, [] => ([], false)
  | s, op :: ops =>
    match step s op with
    | none => ([], true)
    | some (s, o) => let (os, b) := run s ops; (o :: os, b)

/-- A program that begins with the given disk. -/
def init (cwd : Name) (pid : Nat) (dir : Name → Option Nat) (data : Nat → List Nat) (next : Nat) : State :=
  ⟨cwd, pid, -1, dir, data, next, 0, fun _ => ⟨[], [], false, none, .create, []⟩, []⟩

end Verif.Names
