/-!
Record types, their descriptors, type tests and method calls: the compile-time part (`OPV.GetTProcNum`,
`TraverseRecord`, `OPC.BaseTProc`, `InitTDesc`, `OPB.TypTest`, `OPT.FindField`) and the run-time part (`__INITYP`,
`SYSTEM_INHERIT`, `__INITBP`, `__IS`, `__SEND` of `SYSTEM.h`/`SYSTEM.c`).

Record types are numbered in the order in which their descriptors are initialised, imported modules first (C46).
A base has a smaller number than its extensions: inside a module this is C83_order_partial, except for records that
are extended within their own declaration (C83_inner).  Memory is addressed in words, and a stored address is
the word address itself.
-/
namespace Verif.Dispatch

/-- A type-bound procedure in the name tree `typ^.link` (`OPP.TProcDecl`, `src/compiler/OPP.Mod` 595-636): its
name, whether it is exported, and the address of its C function.  Names are numbers. -/
structure Meth where
  name : Nat
  exported : Bool
  proc : Int
deriving Repr, DecidableEq

/-- A record type (`OPP.RecordType`, `src/compiler/OPP.Mod` 87-142): base type, module, type-bound procedures in
the order of the name tree; `size` is the size the compiler computed (`typ^.size`) and `csize` the C compiler's
`sizeof(struct t)`.  Fields are not modelled here (C13, C14). -/
structure TDecl where
  base : Option Nat
  mod : Nat
  meths : List Meth
  size : Int := 8
  csize : Int := 8
deriving Repr

/-- All record types of the program; types outside the program are never looked at. -/
abbrev Prog := Nat → TDecl

/-- The name comparison of `FindField`: a method that is not exported is not in the symbol file (`OPM.ExpHdTProc`
is FALSE, `OPT.Mod` 1156), so module `m` finds only its own methods and exported ones. -/
def seen (p : Prog) (m i : Nat) (name : Nat) (x : Meth) : Bool :=
  x.name == name && ((p i).mod == m || x.exported)

/-- `OPT.FindField` (`src/compiler/OPT.Mod` 455-467), as seen by module `m`, for methods: the search moves to the
base type until the name is found.  The binary tree of one record is searched here as a list.  The first argument
bounds the number of types visited (`i + 1` is enough). -/
def findField (p : Prog) (m : Nat) (name : Nat) : Nat → Option Nat → Option (Nat × Nat)
  | 0, _ => none
  | _ + 1, none => none
  | f + 1, some i =>
    match (p i).meths.findIdx? (seen p m i name) with
    | some k => some (i, k)
    | none => findField p m name f (p i).base

/-- `typ^.extlev` (`src/compiler/OPP.Mod` 99; `OPT.InStruct`, `src/compiler/OPT.Mod` 905-909). -/
def extlev (p : Prog) : Nat → Nat → Nat
  | 0, _ => 0
  | f + 1, i => match (p i).base with
    | some b => extlev p f b + 1
    | none => 0

def upd {α : Type} (g : Nat → α) (i : Nat) (v : α) : Nat → α := fun j => if j = i then v else g j

/-- Compile-time attributes of record types and methods: `typ^.n`, `obj^.adr DIV 10000H`, `typ^.allocated`. -/
structure CState where
  n : Nat → Nat
  num : Nat → Nat → Nat
  allocated : Nat → Bool

def CState.init : CState := ⟨fun _ => 0, fun _ _ => 0, fun _ => false⟩

/-- `OPV.GetTProcNum` (`src/compiler/OPV.Mod` 62-75) for method `k` of type `i`: a redefinition takes the number of
the method it redefines, a new method takes the next number.  Error 119 (a name that is a field in a base type)
is not modelled. -/
def getTProcNum (p : Prog) (i : Nat) (s : CState) (k : Nat) : CState :=
  match (p i).meths[k]? with
  | none => s
  | some x =>
    match findField p (p i).mod x.name (i + 1) (p i).base with
    | some (b, kb) => { s with num := upd s.num i (upd (s.num i) k (s.num b kb)) }
    | none => { s with num := upd s.num i (upd (s.num i) k (s.n i)), n := upd s.n i (s.n i + 1) }

/-- `OPV.TraverseRecord` (`src/compiler/OPV.Mod` 77-83) with `Traverse(typ^.link, …)`, which calls `GetTProcNum`
for every method in the order of the name tree. -/
def traverseRecord (p : Prog) : Nat → Nat → CState → CState
  | 0, _, s => s
  | f + 1, i, s =>
    if s.allocated i then s
    else
      let s := match (p i).base with
        | some b => let s := traverseRecord p f b s; { s with n := upd s.n i (s.n b) }
        | none => s
      let s := { s with allocated := upd s.allocated i true }
      (List.range (p i).meths.length).foldl (getTProcNum p i) s

/-- `OPV.Traverse` over the record types of the program in any order (exported objects come first, then the others;
`src/compiler/OPV.Mod` 98-167); the types of imported modules have been numbered when those were compiled. -/
def traverse (p : Prog) (order : List Nat) : CState :=
  order.foldl (fun s i => traverseRecord p (i + 1) i s) CState.init

/-- `OPC.BaseTProc` (`src/compiler/OPC.Mod` 398-406), called by module `m` for method `k` of type `i`: climbs to the
type that introduces the number and looks the name up there.  `none` is the NIL object. -/
def climb (s : CState) (p : Prog) (mno : Nat) : Nat → Nat → Nat
  | 0, i => i
  | f + 1, i => match (p i).base with
    | some b => if mno < s.n b then climb s p mno f b else i
    | none => i

def baseTProc (s : CState) (p : Prog) (m i k : Nat) : Option (Nat × Nat) :=
  match (p i).meths[k]? with
  | none => none
  | some x =>
    let t := climb s p (s.num i k) (i + 1) i
    findField p m x.name (t + 1) (some t)

/-- `OPV.SuperProc` (`src/compiler/OPV.Mod` 462-468) in module `m`. -/
def superProc (p : Prog) (m i name : Nat) : Option (Nat × Nat) :=
  findField p m name (i + 1) (p i).base

/-! ### Run time -/

abbrev Mem := Int → Int

def set (m : Mem) (a v : Int) : Mem := fun b => if b = a then v else m b

/-- `__MAXEXT`, `__BASEOFF`, `__TPROC0OFF`, `__EOM` (`src/runtime/SYSTEM.h` 300-302; `__MAXEXT` = 16); `ws` is
`sizeof(ADDRESS)`. -/
def maxExt : Nat := 16
def baseOff : Int := 17
def tproc0Off (ws : Int) : Int := baseOff + 24 / ws + 5
def eom : Int := 1

/-- `memcpy` of `k` words. -/
def memcpy (m : Mem) (dst src : Int) : Nat → Mem
  | 0 => m
  | k + 1 => let m' := memcpy m dst src k; set m' (dst + k) (m (src + k))

/-- The loop of `SYSTEM_INHERIT` (`src/runtime/SYSTEM.c` 62-67).  `none`: more words copied than `f`. -/
def inheritLoop : Nat → Mem → Int → Int → Option Mem
  | 0, _, _, _ => none
  | f + 1, m, t, t0 => if m t0 = eom then some m else inheritLoop f (set m t (m t0)) (t - 1) (t0 - 1)

/-- Result of initialisation: the memory, or `__HALT(n)`. -/
inductive Out where
  | run (m : Mem)
  | halt (n : Int)

/-- `__INITYP(t, t0, level)` (`src/runtime/SYSTEM.h` 316-324) with `Heap.REGTYP` (`src/runtime/Heap.Mod` 180-182)
storing `next` in the `next` field.  `t`, `t0` are the addresses of the `blksz` words; the other fields of `__TDESC`
lie below it (`reserved` at -1, `basep[k]` at `k-17`, `name`, `module`, `level`, `next`, `tag`, `tproc`).  The
outer `none`: the loop of `SYSTEM_INHERIT` copies more than `f` words. -/
def initTyp (ws : Int) (f : Nat) (m : Mem) (t t0 : Int) (level : Nat) (modl next csize : Int) : Option Out :=
  let m := memcpy m (t - baseOff) (t0 - baseOff) level
  let m := set m (t - baseOff + level) t
  let m := set m (t - (baseOff + 24 / ws + 1)) modl
  if m t ≠ csize then some (.halt (-15))
  else
    let m := set m t ((m t + 5 * ws - 1) / (4 * ws) * (4 * ws))
    let m := set m (t - (baseOff + 24 / ws + 3)) next
    (inheritLoop f m (t - tproc0Off ws) (t0 - tproc0Off ws)).map .run

/-- `__INITBP` (`src/runtime/SYSTEM.h` 327). -/
def initBP (ws : Int) (m : Mem) (t proc : Int) (num : Nat) : Mem := set m (t - (tproc0Off ws + num)) proc

/-- Where descriptors are: the address of the `blksz` word of every type, and the values the two registration
stores write. -/
structure Place where
  typ : Nat → Int
  modl : Nat → Int
  next : Nat → Int

/-- The code `OPC.InitTDesc` and `InitTProcs` write for type `i` (`src/compiler/OPC.Mod` 309-322, 550-558). -/
def initType (ws : Int) (f : Nat) (p : Prog) (s : CState) (pl : Place) (m : Mem) (i : Nat) : Option Out :=
  let t0 := match (p i).base with
    | some b => pl.typ b
    | none => pl.typ i
  match initTyp ws f m (pl.typ i) t0 (extlev p (i + 1) i) (pl.modl i) (pl.next i) (p i).csize with
  | some (.run m) => some (.run ((List.range (p i).meths.length).foldl
      (fun m k => initBP ws m (pl.typ i) ((p i).meths[k]?.getD ⟨0, false, 0⟩).proc (s.num i k)) m))
  | r => r

/-- All descriptors, in order. -/
def initAll (ws : Int) (f : Nat) (p : Prog) (s : CState) (pl : Place) (m : Mem) : Nat → Option Out
  | 0 => some (.run m)
  | n + 1 => match initAll ws f p s pl m n with
    | some (.run m) => initType ws f p s pl m n
    | r => r

/-- `__IS(tag, typ, level)` (`src/runtime/SYSTEM.h` 235): `tag` is the descriptor address of the dynamic type. -/
def isTest (m : Mem) (tag typ : Int) (level : Nat) : Bool := m (tag - (baseOff - level)) == typ

/-- `__GUARDP`, `__GUARDR`, `__GUARDA` (`src/runtime/SYSTEM.h` 240-242): `none` is `__HALT(-5)`. -/
def guard (m : Mem) (tag typ : Int) (level : Nat) : Option Unit :=
  if isTest m tag typ level then some () else none

/-- `__GUARDEQR`, `__GUARDEQP` (`src/runtime/SYSTEM.h` 243-244): `none` is `__HALT(-6)`. -/
def guardEq (tag typ : Int) : Option Unit := if tag ≠ typ then none else some ()

/-- `__SEND` (`src/runtime/SYSTEM.h` 328): the address called. -/
def send (ws : Int) (m : Mem) (tag : Int) (num : Nat) : Int := m (tag - (tproc0Off ws + num))

/-- What `TypTest` makes of a test or guard. -/
inductive Code where
  /-- the expression is `TRUE` -/
  | true_
  /-- the guard is dropped: the expression is unchanged -/
  | same
  /-- a test or guard node, evaluated at run time -/
  | runtime
deriving Repr, DecidableEq

/-- The loop `WHILE (t # NIL) & (t # t1) DO t := t^.BaseTyp END` of `GTT`. -/
def walk (p : Prog) : Nat → Option Nat → Nat → Option Nat
  | 0, t, _ => t
  | _ + 1, none, _ => none
  | f + 1, some i, t1 => if i = t1 then some i else walk p f (p i).base t1

/-- `GTT` inside `OPB.TypTest` (`src/compiler/OPB.Mod` 202-222), without `SYSTEM.PTR` and undefined types: `t0` is
the static record type, `t1` the tested one, `isGuard` distinguishes a guard from a test and `onGuard` says
that the operand is itself a guard.  `none` is error 85. -/
def typTest (p : Prog) (t0 t1 : Nat) (isGuard onGuard : Bool) : Option Code :=
  if walk p (t0 + 1) (some t0) t1 ≠ some t1 then
    if walk p (t1 + 1) (some t1) t0 = some t0 then some .runtime else none
  else if t0 ≠ t1 then none
  else if isGuard then some .same
  else if onGuard then some .runtime
  else some .true_

/-- The value of an accepted test on an object with dynamic type `d`. -/
def evalTest (p : Prog) (pl : Place) (m : Mem) (c : Code) (d t1 : Nat) : Bool :=
  match c with
  | .runtime => isTest m (pl.typ d) (pl.typ t1) (extlev p (t1 + 1) t1)
  | _ => true

end Verif.Dispatch
