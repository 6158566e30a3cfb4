import Verif.FileNum.Model

/-!
# Symbol files: export and import of a module's interface, src/compiler/OPT.Mod 690-1290

Types form a graph: a type is identified by a number, `Env.typ` gives its description.  The exporter
(`out...`) walks the graph and numbers the types in the order in which it meets them; the importer
(`in...`) reads the bytes back and builds a table of type descriptions.

Simplifications.  Fields of a record are those `OutFlds` writes: visible fields, and hidden pointers with
their offsets (the flattening of hidden fields in `OutHdFld` is not part of this model).  Methods and
objects are in the order in which the name trees are traversed.  Fingerprints, `history` and the
comparison with an old symbol file are not modelled: the import is that of a client (`~impCtxt.self`) that
has not seen the module's types before.  Errors reported by the exporter (no symbol file is then kept,
OPT.Mod 1284-1286) and traps of the importer are `none`.
-/
namespace Verif.SymFile
open Verif.FileNum

abbrev Name := List Nat
abbrev Stream := List Nat

/-- A reference to a type.  Basic types other than integers and sets are identified by their form
(src/compiler/OPT.Mod 93-98); integers and sets by their size in bytes; others by a number. -/
inductive TRef where
  | basic (form : Nat)
  | int (size : Nat)
  | set (size : Nat)
  | str (id : Nat)
  deriving DecidableEq, Repr

/-- A formal parameter: `Object` with mode `Var` or `VarPar`. -/
structure Par where
  isVar : Bool
  typ : TRef
  adr : Int
  name : Name
  deriving DecidableEq, Repr

/-- A field as it appears in a symbol file: a visible field (`readOnly`: exported with `-`), or a hidden
pointer. -/
inductive Fld where
  | visible (readOnly : Bool) (typ : TRef) (name : Name) (adr : Int)
  | hdptr (adr : Int)
  deriving DecidableEq, Repr

/-- An exported type-bound procedure; `num` is its method number. -/
structure TProc where
  res : TRef
  pars : List Par
  name : Name
  num : Int
  deriving DecidableEq, Repr

/-- The structure of a type. -/
inductive Body where
  | ptr (base : TRef)
  | arr (base : TRef) (n : Int)
  | darr (base : TRef)
  | record (base : Option TRef) (size align n : Int) (flds : List Fld) (procs : List TProc)
  | proc (res : TRef) (pars : List Par)
  deriving DecidableEq, Repr

/-- A type description; `M` identifies modules. -/
structure Desc (M : Type) where
  mod : M
  name : Name
  sysflag : Int
  body : Body
  deriving DecidableEq, Repr

/-- Values of exported constants.  `real` and `lreal` hold the bytes as `Files.WriteReal` writes them. -/
inductive CVal where
  | bool (c : Nat)
  | char (c : Nat)
  | int (v : Int) (size : Nat)
  | set (v : Int) (size : Nat)
  | real (b : List Nat)
  | lreal (b : List Nat)
  | string (s : Name)
  | nil
  deriving DecidableEq, Repr

/-- An exported object. -/
inductive Obj where
  | con (v : CVal) (name : Name)
  | typ (t : TRef)
  | alias (t : TRef) (name : Name)
  | var (readOnly : Bool) (t : TRef) (name : Name)
  | xproc (res : TRef) (pars : List Par) (name : Name)
  | iproc (res : TRef) (pars : List Par) (name : Name)
  | cproc (res : TRef) (pars : List Par) (code : List Nat) (name : Name)
  deriving DecidableEq, Repr

/-- What the exporter finds: the types, and the names of the modules by number (0: this module). -/
structure Env where
  typ : Nat → Desc Nat
  modName : Nat → Name

/-! ### Export -/

/-- `expCtxt`: the types written so far, in order (the reference number of a type is `FirstRef = 14` plus
its position), and the modules mentioned so far (`locmno`). -/
structure ES where
  refs : List Nat
  mods : List Nat
  deriving DecidableEq, Repr

/-- `FirstRef`, src/compiler/OPT.Mod 153. -/
def firstRef : Nat := 14

/-- `OutName`, src/compiler/OPT.Mod 1076-1080. -/
def outName (n : Name) : List Nat := n ++ [0]

/-- `OutMod`, src/compiler/OPT.Mod 1082-1090; `locmno` has `maxImps = 64` elements. -/
def outMod (env : Env) (mno : Nat) (s : ES) : Option (List Nat × ES) :=
  if mno < 64 then
    if mno ∈ s.mods then some (writeNum (-(s.mods.idxOf mno : Int)), s)
    else some (writeNum 16 ++ outName (env.modName mno), { s with mods := s.mods ++ [mno] })
  else none

/-- The loop over the parameters in `OutSign`, src/compiler/OPT.Mod 1138-1144; `out` is `OutStr`. -/
def outPars (out : TRef → ES → Option (List Nat × ES)) : List Par → ES → Option (List Nat × ES)
  | [], s => some (writeNum 18, s)
  | p :: ps, s => do
    let (b1, s1) ← out p.typ s
    let (b2, s2) ← outPars out ps s1
    some (writeNum (if p.isVar then 24 else 23) ++ b1 ++ writeNum p.adr ++ outName p.name ++ b2, s2)

/-- `OutSign`, src/compiler/OPT.Mod 1135-1145. -/
def outSign (out : TRef → ES → Option (List Nat × ES)) (res : TRef) (ps : List Par) (s : ES) :
    Option (List Nat × ES) := do
  let (b1, s1) ← out res s
  let (b2, s2) ← outPars out ps s1
  some (b1 ++ b2, s2)

/-- `OutFlds`, src/compiler/OPT.Mod 1122-1133, and the hidden pointers of `OutHdFld` (1113-1114). -/
def outFlds (out : TRef → ES → Option (List Nat × ES)) : List Fld → ES → Option (List Nat × ES)
  | [], s => some ([], s)
  | .visible ro t name adr :: fs, s => do
    let (b1, s1) ← out t s
    let (b2, s2) ← outFlds out fs s1
    some (writeNum (if ro then 26 else 25) ++ b1 ++ outName name ++ writeNum adr ++ b2, s2)
  | .hdptr adr :: fs, s => do
    let (b2, s2) ← outFlds out fs s
    some (writeNum 27 ++ writeNum adr ++ b2, s2)

/-- `OutTProcs`, src/compiler/OPT.Mod 1147-1168, and the final `Send` of a record (1203). -/
def outTProcs (out : TRef → ES → Option (List Nat × ES)) : List TProc → ES → Option (List Nat × ES)
  | [], s => some (writeNum 18, s)
  | p :: ps, s => do
    let (b1, s1) ← outSign out p.res p.pars s
    let (b2, s2) ← outTProcs out ps s1
    some (writeNum 29 ++ b1 ++ outName p.name ++ writeNum p.num ++ b2, s2)

/-- The CASE of `OutStr`, src/compiler/OPT.Mod 1190-1208. -/
def outBody (out : TRef → ES → Option (List Nat × ES)) (b : Body) (s : ES) : Option (List Nat × ES) :=
  match b with
  | .ptr base => do
    let (b1, s1) ← out base s
    some (writeNum 36 ++ b1, s1)
  | .proc res ps => do
    let (b1, s1) ← outSign out res ps s
    some (writeNum 40 ++ b1, s1)
  | .arr base n => do
    let (b1, s1) ← out base s
    some (writeNum 37 ++ b1 ++ writeNum n, s1)
  | .darr base => do
    let (b1, s1) ← out base s
    some (writeNum 38 ++ b1, s1)
  | .record base size align n flds procs => do
    let (b1, s1) ← out (match base with | none => .basic 10 | some t => t) s
    let (b2, s2) ← outFlds out flds s1
    let (b3, s3) ← outTProcs out procs s2
    some (writeNum 39 ++ b1 ++ writeNum size ++ writeNum align ++ writeNum n ++ b2 ++ b3, s3)

/-- `OutStr`, src/compiler/OPT.Mod 1170-1210.  The number bounds the depth of the recursion; see
`outStr_depth` for why 255 is enough. -/
def outStr (env : Env) : Nat → TRef → ES → Option (List Nat × ES)
  | _, .basic f, s => some (writeNum (-(f : Int)), s)
  | _, .int size, s => some (writeNum (-4) ++ writeNum size, s)
  | _, .set size, s => some (writeNum (-7) ++ writeNum size, s)
  | 0, .str _, _ => none
  | depth + 1, .str id, s =>
    if id ∈ s.refs then some (writeNum (-((firstRef + s.refs.idxOf id : Nat) : Int)), s)
    else
      let d := env.typ id
      let s1 : ES := { s with refs := s.refs ++ [id] }
      if firstRef + s1.refs.length ≥ 255 then none
      else do
        let (bm, s2) ← outMod env d.mod s1
        let (bb, s3) ← outBody (outStr env depth) d.body s2
        some (writeNum 34 ++ bm ++ outName d.name ++
          (if d.sysflag ≠ 0 then writeNum 35 ++ writeNum d.sysflag else []) ++ bb, s3)

/-- The depth `OutStr` can reach. -/
def maxDepth : Nat := 255

/-- `OutConstant`, src/compiler/OPT.Mod 1212-1227. -/
def outConst : CVal → List Nat
  | .bool c => writeNum 2 ++ [c]
  | .char c => writeNum 3 ++ [c]
  | .int v size => writeNum 4 ++ writeNum v ++ writeNum size
  | .set v size => writeNum 7 ++ writeNum v ++ writeNum size
  | .real b => writeNum 5 ++ b
  | .lreal b => writeNum 6 ++ b
  | .string s => writeNum 8 ++ outName s
  | .nil => writeNum 9

/-- The CASE of `OutObj`, src/compiler/OPT.Mod 1243-1261. -/
def outObj (env : Env) (o : Obj) (s : ES) : Option (List Nat × ES) :=
  let out := outStr env maxDepth
  match o with
  | .con v name => some (outConst v ++ outName name, s)
  | .typ t => do
    let (b, s1) ← out t s
    some (writeNum 19 ++ b, s1)
  | .alias t name => do
    let (b, s1) ← out t s
    some (writeNum 20 ++ b ++ outName name, s1)
  | .var ro t name => do
    let (b, s1) ← out t s
    some (writeNum (if ro then 22 else 21) ++ b ++ outName name, s1)
  | .xproc res ps name => do
    let (b, s1) ← outSign out res ps s
    some (writeNum 31 ++ b ++ outName name, s1)
  | .iproc res ps name => do
    let (b, s1) ← outSign out res ps s
    some (writeNum 32 ++ b ++ outName name, s1)
  | .cproc res ps code name => do
    let (b, s1) ← outSign out res ps s
    some (writeNum 33 ++ b ++ writeNum code.length ++ code ++ outName name, s1)

/-- `OutObj` on all exported objects. -/
def outObjs (env : Env) : List Obj → ES → Option (List Nat × ES)
  | [], s => some ([], s)
  | o :: os, s => do
    let (b1, s1) ← outObj env o s
    let (b2, s2) ← outObjs env os s1
    some (b1 ++ b2, s2)

/-- `OutLinks`, src/compiler/OPT.Mod 1092-1097. -/
def outLinks : List Name → List Nat
  | [] => [0]
  | l :: ls => outName l ++ outLinks ls

/-- `Export`, src/compiler/OPT.Mod 1276-1280: what follows the tag and version bytes. -/
def export_ (env : Env) (links : List Name) (objs : List Obj) : Option (List Nat × ES) := do
  let (b, s) ← outObjs env objs { refs := [], mods := [0] }
  some (writeNum 16 ++ outName (env.modName 0) ++ outLinks links ++ b, s)

/-! ### Import -/

/-- `impCtxt`: the table of types read so far (`ref`, without the predefined types; `none` while the type
is being read) and the modules met (`glbmno`, by name). -/
structure IS where
  tbl : List (Option (Desc Name))
  mods : List Name
  deriving DecidableEq, Repr

/-- `OPM.SymRInt`, src/compiler/OPM.Mod 557-560: LONGINT has 4 bytes. -/
def inNum (s : Stream) : Option (Int × Stream) := readNum 4 s

/-- `OPM.SymRCh`; 0X at the end of the file. -/
def inCh : Stream → Nat × Stream
  | [] => (0, [])
  | c :: s => (c, s)

/-- `InName` into an array of `n` characters, src/compiler/OPT.Mod 715-721. -/
def inNameLoop : Nat → Stream → Option (Name × Stream)
  | 0, _ => none
  | _ + 1, [] => some ([], [])
  | n + 1, c :: s =>
    if c = 0 then some ([], s) else (inNameLoop n s).map fun p => (c :: p.1, p.2)

/-- `OPS.Name` has 256 characters, src/compiler/OPS.Mod. -/
def inName (s : Stream) : Option (Name × Stream) := inNameLoop 256 s

/-- `InMod`, src/compiler/OPT.Mod 723-748. -/
def inMod (i : IS) (s : Stream) : Option (Name × IS × Stream) := do
  let (mn, s) ← inNum s
  if mn = 0 then
    match i.mods[0]? with
    | some m => some (m, i, s)
    | none => none
  else if mn = 16 then do
    let (name, s) ← inName s
    some (name, { i with mods := i.mods ++ [name] }, s)
  else if mn < 0 then
    match i.mods[(-mn).toNat]? with
    | some m => some (m, i, s)
    | none => none
  else none

/-- `InTyp`, src/compiler/OPT.Mod 841-847, with `IntType` (237-244) and `SetType` (246-250). -/
def inTyp (tag : Int) (i : IS) (s : Stream) : Option (TRef × IS × Stream) :=
  if tag = 4 then do
    let (n, s) ← inNum s
    some (.int (if n ≤ 1 then 1 else if n ≤ 2 then 2 else if n ≤ 4 then 4 else 8), i, s)
  else if tag = 7 then do
    let (n, s) ← inNum s
    some (.set (if n = 4 then 4 else 8), i, s)
  else if 0 ≤ tag ∧ tag ≤ 11 then some (.basic tag.toNat, i, s)
  else if 14 ≤ tag ∧ tag.toNat - firstRef < i.tbl.length then
    some (.str (tag.toNat - firstRef), i, s)
  else none

abbrev Reader := IS → Stream → Option (TRef × IS × Stream)

/-- The loop of `InSign`, src/compiler/OPT.Mod 795-802; the number bounds the rounds of the loop. -/
def inPars (inn : Reader) : Nat → IS → Stream → Option (List Par × IS × Stream)
  | 0, _, _ => none
  | n + 1, i, s => do
    let (tag, s) ← inNum s
    if tag = 18 then some ([], i, s)
    else do
      let (t, i, s) ← inn i s
      let (adr, s) ← inNum s
      let (name, s) ← inName s
      let (ps, i, s) ← inPars inn n i s
      some ({ isVar := decide (tag ≠ 23), typ := t, adr := adr, name := name } :: ps, i, s)

/-- `InSign`, src/compiler/OPT.Mod 790-803. -/
def inSign (inn : Reader) (n : Nat) (i : IS) (s : Stream) : Option ((TRef × List Par) × IS × Stream) := do
  let (res, i, s) ← inn i s
  let (ps, i, s) ← inPars inn n i s
  some ((res, ps), i, s)

/-- The loop over the fields in `InStruct`, src/compiler/OPT.Mod 916-922, with `InFld` (805-821).  `tag` is
`impCtxt.nextTag`; the result contains the tag that ended the loop. -/
def inFlds (inn : Reader) : Nat → Int → IS → Stream → Option ((List Fld × Int) × IS × Stream)
  | 0, _, _, _ => none
  | n + 1, tag, i, s =>
    if 25 ≤ tag ∧ tag ≤ 28 then
      if tag ≤ 26 then do
        let (t, i, s) ← inn i s
        let (name, s) ← inName s
        let (adr, s) ← inNum s
        let (tag', s) ← inNum s
        let ((fs, tg), i, s) ← inFlds inn n tag' i s
        some ((.visible (decide (tag = 26)) t name adr :: fs, tg), i, s)
      else if tag = 27 then do
        let (adr, s) ← inNum s
        let (tag', s) ← inNum s
        let ((fs, tg), i, s) ← inFlds inn n tag' i s
        some ((.hdptr adr :: fs, tg), i, s)
      else none
    else some (([], tag), i, s)

/-- The loop over the methods in `InStruct`, src/compiler/OPT.Mod 923-927, with `InTProc` (823-838).
(Hidden methods, `Shdtpro`, are never written, since `OPM.ExpHdTProc` is FALSE.) -/
def inTProcs (inn : Reader) : Nat → Int → IS → Stream → Option (List TProc × IS × Stream)
  | 0, _, _, _ => none
  | n + 1, tag, i, s =>
    if tag = 18 then some ([], i, s)
    else if tag = 29 then do
      let ((res, ps), i, s) ← inSign inn n i s
      let (name, s) ← inName s
      let (num, s) ← inNum s
      let (tag', s) ← inNum s
      let (procs, i, s) ← inTProcs inn n tag' i s
      some ({ res := res, pars := ps, name := name, num := num } :: procs, i, s)
    else none

/-- The CASE of `InStruct`, src/compiler/OPT.Mod 890-931. -/
def inBody (inn : Reader) (n : Nat) (tag : Int) (i : IS) (s : Stream) : Option (Body × IS × Stream) :=
  if tag = 36 then do
    let (t, i, s) ← inn i s
    some (.ptr t, i, s)
  else if tag = 37 then do
    let (t, i, s) ← inn i s
    let (k, s) ← inNum s
    some (.arr t k, i, s)
  else if tag = 38 then do
    let (t, i, s) ← inn i s
    some (.darr t, i, s)
  else if tag = 39 then do
    let (t, i, s) ← inn i s
    let (size, s) ← inNum s
    let (align, s) ← inNum s
    let (k, s) ← inNum s
    let (tag', s) ← inNum s
    let ((fs, tg), i, s) ← inFlds inn n tag' i s
    let (procs, i, s) ← inTProcs inn n tg i s
    some (.record (if t = .basic 10 then none else some t) size align k fs procs, i, s)
  else if tag = 40 then do
    let ((res, ps), i, s) ← inSign inn n i s
    some (.proc res ps, i, s)
  else none

/-- `InStruct`, src/compiler/OPT.Mod 850-932; the number bounds recursion and loops. -/
def inStr : Nat → Reader
  | 0, _, _ => none
  | n + 1, i, s => do
    let (tag, s) ← inNum s
    if tag ≠ 34 then inTyp (-tag) i s
    else do
      let ref := i.tbl.length
      let (m, i, s) ← inMod { i with tbl := i.tbl ++ [none] } s
      let (name, s) ← inName s
      let (tag, s) ← inNum s
      let (flag, tag, s) ← (if tag = 35 then do
          let (f, s) ← inNum s
          let (t, s) ← inNum s
          some (f, t, s)
        else some (0, tag, s))
      let (b, i, s) ← inBody (inStr n) n tag i s
      some (.str ref, { i with tbl := i.tbl.set ref (some ⟨m, name, flag, b⟩) }, s)

/-- `n` bytes, as read by `Files.ReadReal` and `Files.ReadLReal`. -/
def inBytes (n : Nat) (s : Stream) : Option (List Nat × Stream) := readBytes n s

/-- `InConstant`, src/compiler/OPT.Mod 764-786, followed by `obj^.typ := InTyp(tag)` (987).  Integer values
are read with `SymRInt`: 32 bits. -/
def inConst (tag : Int) (i : IS) (s : Stream) : Option (CVal × IS × Stream) :=
  if tag = 2 then let (c, s) := inCh s; some (.bool c, i, s)
  else if tag = 3 then let (c, s) := inCh s; some (.char c, i, s)
  else if tag = 4 then do
    let (v, s) ← inNum s
    let (t, i, s) ← inTyp 4 i s
    match t with
    | .int size => some (.int v size, i, s)
    | _ => none
  else if tag = 7 then do
    let (v, s) ← readNum 8 s
    let (t, i, s) ← inTyp 7 i s
    match t with
    | .set size => some (.set v size, i, s)
    | _ => none
  else if tag = 5 then do
    let (b, s) ← inBytes 4 s
    some (.real b, i, s)
  else if tag = 6 then do
    let (b, s) ← inBytes 8 s
    some (.lreal b, i, s)
  else if tag = 8 then do
    let (n, s) ← inName s
    some (.string n, i, s)
  else if tag = 9 then some (.nil, i, s)
  else none

/-- `InObj`, src/compiler/OPT.Mod 976-1011; `tag` is `impCtxt.nextTag`, `n` bounds recursion and loops. -/
def inObj (n : Nat) (tag : Int) (i : IS) (s : Stream) : Option (Obj × IS × Stream) :=
  if tag = 19 then do
    let (t, i, s) ← inStr n i s
    some (.typ t, i, s)
  else if tag ≤ 11 then do
    let (v, i, s) ← inConst tag i s
    let (name, s) ← inName s
    some (.con v name, i, s)
  else if tag ≥ 31 then do
    let ((res, ps), i, s) ← inSign (inStr n) n i s
    if tag = 31 then do
      let (name, s) ← inName s
      some (.xproc res ps name, i, s)
    else if tag = 32 then do
      let (name, s) ← inName s
      some (.iproc res ps name, i, s)
    else if tag = 33 then do
      let (k, s) ← inNum s
      let (code, s) ← readBytes k.toNat s
      let (name, s) ← inName s
      some (.cproc res ps code name, i, s)
    else none
  else if tag = 20 then do
    let (t, i, s) ← inStr n i s
    let (name, s) ← inName s
    some (.alias t name, i, s)
  else do
    let (t, i, s) ← inStr n i s
    let (name, s) ← inName s
    some (.var (decide (tag = 22)) t name, i, s)

/-- The loop of `Import`, src/compiler/OPT.Mod 1059-1062: it ends when reading a tag meets the end of the
file. -/
def inObjs : Nat → IS → Stream → Option (List Obj × IS)
  | 0, _, _ => none
  | n + 1, i, s =>
    if s = [] then some ([], i)
    else do
      let (tag, s) ← inNum s
      let (o, i, s) ← inObj n tag i s
      let (os, i) ← inObjs n i s
      some (o :: os, i)

/-- `InLinks`, src/compiler/OPT.Mod 750-762 (the list of names read; duplicates are dropped when they are
entered in `Links`). -/
def inLinks : Nat → Stream → Option (List Name × Stream)
  | 0, _ => none
  | n + 1, s => do
    let (l, s) ← inName s
    if l = [] then some ([], s)
    else do
      let (ls, s) ← inLinks n s
      some (l :: ls, s)

/-- What an import delivers. -/
structure Interface where
  mod : Name
  links : List Name
  objs : List Obj
  types : List (Option (Desc Name))
  deriving DecidableEq, Repr

/-- `Import`, src/compiler/OPT.Mod 1058-1062.  The bounds on recursion and loops are the length of the
file. -/
def import_ (s : Stream) : Option Interface := do
  let n := s.length + 1
  let (m, i, s) ← inMod { tbl := [], mods := [] } s
  let (ls, s) ← inLinks n s
  let (os, i) ← inObjs n i s
  some ⟨m, ls, os, i.tbl⟩

end Verif.SymFile
