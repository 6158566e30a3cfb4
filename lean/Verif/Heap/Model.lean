import Mathlib.Data.List.Basic

/-!
# The storage manager, src/runtime/Heap.Mod

The model is for a 64-bit target: `SZA = 8`, `Unit = 32`, `ldUnit = 5` (Heap.Mod 9-11, 619).

Memory maps the address of a word to its contents.  Addresses are natural numbers, contents are integers; an
address loaded from memory is converted with `Int.toNat`.  Every access of Heap.Mod is to a whole word at a
multiple of 8 (the theorems say so where it matters), so two accesses either coincide or are independent.
Address arithmetic does not wrap around in the model: the operating system is assumed to place chunks below
2^64.

Loops whose end depends on the contents of memory take fuel; `none` means that the fuel is used up (or that the
program is stopped by an assertion or an index check).  The theorems show that enough fuel exists.
-/
namespace Verif.Heap

/-- Word-addressed memory, as accessed by `SYSTEM.GET` and `SYSTEM.PUT`. -/
abbrev Mem := Nat → Int

/-- `SYSTEM.PUT(a, v)`; also the assignment to an element of the array `freeList`. -/
def put {α : Type} (m : Nat → α) (a : Nat) (v : α) : Nat → α := fun x => if x = a then v else m x

/-- `ODD(x)`. -/
def odd (x : Int) : Bool := x % 2 == 1

/-! ## Mark, Heap.Mod 351-387 -/

/-- The variables of `Mark` at the start of an iteration of its loop. -/
structure MS where
  mem : Mem
  p : Nat
  q : Nat
  tag : Nat

/-- One iteration of the loop of `Mark`, Heap.Mod 360-384; `Sum.inr` is `EXIT`. -/
def markStep (s : MS) : MS ⊕ Mem :=
  let offset := s.mem s.tag
  if offset < 0 then
    let mem := put s.mem (s.q - 8) (s.tag + offset + 1)
    if s.p = 0 then .inr mem
    else
      let n := s.q
      let q := s.p
      let tag := (mem (q - 8) - 1).toNat
      let offset := mem tag
      let fld := (q + offset).toNat
      let p := (mem fld).toNat
      .inl { mem := put mem fld n, p := p, q := q, tag := tag + 8 }
  else
    let fld := (s.q + offset).toNat
    let n := (s.mem fld).toNat
    if n ≠ 0 then
      let tagbits := s.mem (n - 8)
      if odd tagbits then .inl { s with tag := s.tag + 8 }
      else
        let mem := put s.mem (n - 8) (tagbits + 1)
        let mem := put mem (s.q - 8) (s.tag + 1)
        let mem := put mem fld s.p
        .inl { mem := mem, p := s.q, q := n, tag := tagbits.toNat + 8 }
    else .inl { s with tag := s.tag + 8 }

/-- The loop of `Mark`, Heap.Mod 360-384. -/
def markLoop : Nat → MS → Option Mem
  | 0, _ => none
  | f + 1, s => match markStep s with
    | .inr m => some m
    | .inl s' => markLoop f s'

/-- `Mark(q)`, Heap.Mod 351-387. -/
def mark (f : Nat) (m : Mem) (q : Nat) : Option Mem :=
  if q ≠ 0 then
    let tagbits := m (q - 8)
    if odd tagbits then some m
    else markLoop f { mem := put m (q - 8) (tagbits + 1), p := 0, q := q, tag := tagbits.toNat + 8 }
  else some m

/-! ## The state of the module -/

/-- The variables of the module that the storage manager uses, Heap.Mod 73-99, and `regions`, which is not a
variable: the regions (address, size) obtained from the operating system so far. -/
structure HS where
  mem : Mem
  freeList : Nat → Nat
  bigBlocks : Nat
  allocated : Nat
  firstTry : Bool
  heap : Nat
  heapMin : Nat
  heapMax : Nat
  heapsize : Nat
  heapMinExpand : Nat
  regions : List (Nat × Nat)

/-- `SYSTEM.PUT` on the state. -/
def HS.put (s : HS) (a : Nat) (v : Int) : HS := { s with mem := Heap.put s.mem a v }

/-! ## Scan, Heap.Mod 394-440 -/

/-- Collecting a free run that ends at `adr`, Heap.Mod 405-415 and 427-437 (the same text twice). -/
def collect (s : HS) (adr freesize : Nat) : HS :=
  if freesize ≠ 0 then
    let start := adr - freesize
    let s := s.put start (start + 8)
    let s := s.put (start + 8) freesize
    let s := s.put (start + 16) (-8)
    let i := freesize / 32
    if i < 9 then
      let s := s.put (start + 24) (s.freeList i)
      { s with freeList := put s.freeList i start }
    else
      let s := s.put (start + 24) s.bigBlocks
      { s with bigBlocks := start }
  else s

/-- The loop over the blocks of a chunk, Heap.Mod 402-426: the new state and the final `adr` and `freesize`. -/
def scanBlocks : Nat → HS → Nat → Nat → Nat → Option (HS × Nat × Nat)
  | 0, _, _, _, _ => none
  | f + 1, s, adr, end_, freesize =>
    if adr < end_ then
      let tag := s.mem adr
      if odd tag then
        let s := collect s adr freesize
        let tag := tag - 1
        let s := s.put adr tag
        let size := (s.mem tag.toNat).toNat
        scanBlocks f { s with allocated := s.allocated + size } (adr + size) end_ 0
      else
        let size := (s.mem tag.toNat).toNat
        scanBlocks f s (adr + size) end_ (freesize + size)
    else some (s, adr, freesize)

/-- The loop over the chunks, Heap.Mod 399-439. -/
def scanChunks : Nat → HS → Nat → Option HS
  | 0, _, _ => none
  | f + 1, s, chnk =>
    if chnk ≠ 0 then do
      let (s, adr, freesize) ← scanBlocks f s (chnk + 24) (s.mem (chnk + 8)).toNat 0
      let s := collect s adr freesize
      scanChunks f s (s.mem chnk).toNat
    else some s

/-- `Scan`, Heap.Mod 394-440. -/
def scan (f : Nat) (s : HS) : Option HS :=
  scanChunks f { s with
    bigBlocks := 0
    freeList := fun i => if 1 ≤ i ∧ i < 9 then 0 else s.freeList i
    allocated := 0 } s.heap

/-! ## HeapSort, Heap.Mod 442-458 -/

/-- The loop of `Sift`, Heap.Mod 445-450: `i` and `j` are the values after `i := j; j := 2*j + 1`. -/
def siftLoop (r x : Nat) : Nat → (Nat → Nat) → Nat → Option (Nat → Nat)
  | 0, _, _ => none
  | f + 1, a, i =>
    let j := 2 * i + 1
    let j := if j < r ∧ a j < a (j + 1) then j + 1 else j
    if r < j ∨ a j ≤ x then some (put a i x)
    else siftLoop r x f (put a i (a j)) j

/-- `Sift(l, r, a)`, Heap.Mod 442-451.  The array is a function of the index. -/
def sift (l r : Nat) (a : Nat → Nat) : Option (Nat → Nat) := siftLoop r (a l) (r + 2) a l

/-- The first loop of `HeapSort`, Heap.Mod 456. -/
def buildHeap (r : Nat) : Nat → (Nat → Nat) → Option (Nat → Nat)
  | 0, a => some a
  | l + 1, a => do buildHeap r l (← sift l r a)

/-- The second loop of `HeapSort`, Heap.Mod 457; `l` is 0 there. -/
def sortDown : Nat → (Nat → Nat) → Option (Nat → Nat)
  | 0, a => some a
  | r + 1, a => do sortDown r (← sift 0 r (put (put a 0 (a (r + 1))) (r + 1) (a 0)))

/-- `HeapSort(n, a)`, Heap.Mod 453-458, for `n > 0`. -/
def heapSort (n : Nat) (a : Nat → Nat) : Option (Nat → Nat) := do
  sortDown (n - 1) (← buildHeap (n - 1) (n / 2) a)

/-! ## MarkCandidates and MarkStack, Heap.Mod 460-482 and 524-550 -/

/-- `WHILE uLT(cand[i], ptr) DO INC(i); IF i = n THEN RETURN END END`, Heap.Mod 472 and 475.  The candidates from
`cand[i]` to `cand[n-1]` are a list; `none` is `RETURN`. -/
def skipCand (ptr : Nat) : List Nat → Option (List Nat)
  | [] => none
  | c :: cs => if c < ptr then skipCand ptr cs else some (c :: cs)

/-- The outcome of a loop that may execute `RETURN`. -/
inductive Cand where
  | returned (m : Mem)
  | go (m : Mem) (cs : List Nat)

/-- The loop over the blocks of a chunk, Heap.Mod 468-479. -/
def candBlocks : Nat → Mem → Nat → Nat → List Nat → Option Cand
  | 0, _, _, _, _ => none
  | f + 1, m, adr, end_, cs =>
    if adr < end_ then
      let tag := m adr
      if odd tag then
        let size := (m (tag - 1).toNat).toNat
        let adr := adr + size
        let ptr := adr + 8
        match skipCand ptr cs with
        | none => some (.returned m)
        | some [] => none
        | some (c :: cs) => candBlocks f m (if end_ ≤ c then end_ else adr) end_ (c :: cs)
      else
        let size := (m tag.toNat).toNat
        let ptr := adr + 8
        let adr := adr + size
        match skipCand ptr cs with
        | none => some (.returned m)
        | some [] => none
        | some (c :: cs) => do
          let m ← if c < adr then mark f m ptr else some m
          candBlocks f m (if end_ ≤ c then end_ else adr) end_ (c :: cs)
    else some (.go m cs)

/-- The loop over the chunks, Heap.Mod 465-481. -/
def candChunks : Nat → Mem → Nat → List Nat → Option Mem
  | 0, _, _, _ => none
  | f + 1, m, chnk, cs =>
    if chnk ≠ 0 then do
      match ← candBlocks f m (chnk + 24) (m (chnk + 8)).toNat cs with
      | .returned m => some m
      | .go m cs => candChunks f m (m chnk).toNat cs
    else some m

/-- The elements `a[0]` to `a[n-1]`. -/
def elems (n : Nat) (a : Nat → Nat) : List Nat := (List.range n).map a

/-- `HeapSort(nofcand, cand); MarkCandidates(nofcand, cand)`, Heap.Mod 543 and 548.  `MarkCandidates` begins with
`ASSERT(n > 0)`. -/
def sortAndMark (f : Nat) (s : HS) (m : Mem) (n : Nat) (a : Nat → Nat) : Option Mem :=
  if n = 0 then none
  else do
    let a ← heapSort n a
    candChunks f m s.heap (elems n a)

/-- The loop of `MarkStack`, Heap.Mod 540-548.  The list is that of the words between `sp` and `stack0`; `cap` is
`LEN(cand)`, 10000 in Heap.Mod 559. -/
def stackLoop (cap f : Nat) (s : HS) : Mem → Nat → (Nat → Nat) → List Nat → Option Mem
  | m, nofcand, cand, [] => if 0 < nofcand then sortAndMark f s m nofcand cand else some m
  | m, nofcand, cand, p :: ws =>
    if s.heapMin ≤ p ∧ p < s.heapMax then
      if nofcand = cap then do
        let m ← sortAndMark f s m nofcand cand
        stackLoop cap f s m 1 (put cand 0 p) ws
      else stackLoop cap f s m (nofcand + 1) (put cand nofcand p) ws
    else stackLoop cap f s m nofcand cand ws

/-- `MarkStack`, Heap.Mod 524-550.  The recursion that flushes register windows is not modelled; the words of the
stack are a parameter. -/
def markStack (cap f : Nat) (s : HS) (m : Mem) (words : List Nat) : Option Mem :=
  stackLoop cap f s m 0 (fun _ => 0) words

/-! ## GC, Heap.Mod 554-592 -/

/-- Marking from the global variables of all the modules, Heap.Mod 562-566; `roots` are the values to which
`enumPtrs` applies `MarkP`. -/
def markRoots (f : Nat) : Mem → List Nat → Option Mem
  | m, [] => some m
  | m, r :: rs => do markRoots f (← mark f m r) rs

/-- `CheckFin`, Heap.Mod 484-495, on the `obj` fields of the nodes of the list `fin`: the memory and the
`marked` fields.  The nodes themselves are not kept in the model's memory. -/
def checkFin (f : Nat) : Mem → List Nat → Option (Mem × List Bool)
  | m, [] => some (m, [])
  | m, obj :: objs =>
    if odd (m (obj - 8)) then do
      let (m, l) ← checkFin f m objs
      some (m, true :: l)
    else do
      let (m, l) ← checkFin f (← mark f m obj) objs
      some (m, false :: l)

/-- What the storage manager sees of the running program: the global pointer variables, the words on the stack
and the objects with a finalizer. -/
structure Env where
  roots : List Nat
  stack : List Nat
  finObjs : List Nat

/-- `GC(TRUE)`, Heap.Mod 554-592, without the calls of finalizers (`Finalize`), see Fin.lean. -/
def gc (f : Nat) (s : HS) (e : Env) : Option HS := do
  let m ← markRoots f s.mem e.roots
  let m ← markStack 10000 f s m e.stack
  let (m, _) ← checkFin f m e.finObjs
  scan f { s with mem := m }

/-! ## NewChunk and ExtendHeap, Heap.Mod 192-240 -/

/-- The operating system: the address of a new region of the given size, or 0, given the regions handed out so
far. -/
abbrev OS := List (Nat × Nat) → Nat → Nat

/-- `NewChunk(blksz)`, Heap.Mod 192-211. -/
def newChunk (os : OS) (s : HS) (blksz : Nat) : HS × Nat :=
  let chnk := os s.regions (blksz + 24)
  if chnk ≠ 0 then
    let s := { s with regions := (chnk, blksz + 24) :: s.regions }
    let blk := chnk + 24
    let end_ := blk + blksz
    let s := s.put (chnk + 8) end_
    let s := s.put blk (blk + 8)
    let s := s.put (blk + 8) blksz
    let s := s.put (blk + 16) (-8)
    let s := s.put (blk + 24) s.bigBlocks
    let s := { s with bigBlocks := blk, heapsize := s.heapsize + blksz }
    let s := if blk + 8 < s.heapMin then { s with heapMin := blk + 8 } else s
    let s := if s.heapMax < end_ then { s with heapMax := end_ } else s
    (s, chnk)
  else (s, 0)

/-- The search for the place of a new chunk, Heap.Mod 226-230: `j` and `next`. -/
def findChunk : Nat → Mem → Nat → Nat → Option (Nat × Nat)
  | 0, _, _, _ => none
  | f + 1, m, j, chnk =>
    let next := (m j).toNat
    if next ≠ 0 ∧ next < chnk then findChunk f m next chnk else some (j, next)

/-- `ExtendHeap(blksz)`, Heap.Mod 213-240. -/
def extendHeap (os : OS) (f : Nat) (s : HS) (blksz : Nat) : Option HS :=
  if blksz % 32 ≠ 0 then none
  else
    let size := if s.heapMinExpand < blksz then blksz else s.heapMinExpand
    let (s, chnk) := newChunk os s size
    if chnk ≠ 0 then
      if chnk < s.heap then
        let s := s.put chnk s.heap
        some { s with heap := chnk }
      else do
        let (j, next) ← findChunk f s.mem s.heap chnk
        let s := s.put chnk next
        some (s.put j chnk)
    else if !s.firstTry then some { s with heapMinExpand := 32 }
    else some s

/-! ## NEWREC and NEWBLK, Heap.Mod 244-349 -/

/-- `WHILE adr = 0 DO INC(i); adr := freeList[i] END`, Heap.Mod 257-258; `none` is an index out of range. -/
def findFree (fl : Nat → Nat) : Nat → Nat → Option (Nat × Nat)
  | 0, _ => none
  | f + 1, i => if i > 9 then none else if fl i ≠ 0 then some (i, fl i) else findFree fl f (i + 1)

/-- The search in `bigBlocks`, Heap.Mod 274-298: `none` is "nothing free", otherwise `adr`, `prev` and `t`. -/
def findBig : Nat → Mem → Nat → Nat → Nat → Option (Option (Nat × Nat × Nat))
  | 0, _, _, _, _ => none
  | f + 1, m, blksz, adr, prev =>
    if adr = 0 then some none
    else
      let t := (m (adr + 8)).toNat
      if blksz ≤ t then some (some (adr, prev, t))
      else findBig f m blksz (m (adr + 24)).toNat adr

/-- Heap.Mod 260-272: takes a block out of `freeList[i]` and splits it. -/
def takeSmall (s : HS) (i i0 adr blksz : Nat) : HS × Nat :=
  let next := (s.mem (adr + 24)).toNat
  let s := { s with freeList := put s.freeList i next }
  if i ≠ i0 then
    let di := i - i0
    let restsize := di * 32
    let end_ := adr + restsize
    let s := s.put (end_ + 8) blksz
    let s := s.put (end_ + 16) (-8)
    let s := s.put end_ (end_ + 8)
    let s := s.put (adr + 8) restsize
    let s := s.put (adr + 24) (s.freeList di)
    ({ s with freeList := put s.freeList di adr }, adr + restsize)
  else (s, adr)

/-- Heap.Mod 299-317: takes a block out of `bigBlocks`. -/
def takeBig (s : HS) (adr prev t blksz : Nat) : HS × Nat :=
  let restsize := t - blksz
  let end_ := adr + restsize
  let s := s.put (end_ + 8) blksz
  let s := s.put (end_ + 16) (-8)
  let s := s.put end_ (end_ + 8)
  if 9 * 32 < restsize then (s.put (adr + 8) restsize, adr + restsize)
  else
    let next := (s.mem (adr + 24)).toNat
    let s := if prev = 0 then { s with bigBlocks := next } else s.put (prev + 24) next
    let s :=
      if restsize ≠ 0 then
        let di := restsize / 32
        let s := s.put (adr + 8) restsize
        let s := s.put (adr + 24) (s.freeList di)
        { s with freeList := put s.freeList di adr }
      else s
    (s, adr + restsize)

/-- The loop that clears the new block, Heap.Mod 320-326. -/
def clear : Nat → Mem → Nat → Nat → Option Mem
  | 0, _, _, _ => none
  | f + 1, m, i, end_ =>
    if i < end_ then
      clear f (put (put (put (put m i 0) (i + 8) 0) (i + 16) 0) (i + 24) 0) (i + 32) end_
    else some m

/-- Heap.Mod 319-333: clears the block at `adr`, stores its tag and returns the pointer. -/
def finish (f : Nat) (s : HS) (adr blksz tag : Nat) : Option (HS × Nat) := do
  let m ← clear f s.mem (adr + 32) (adr + blksz)
  let m := put m (adr + 24) 0
  let m := put m adr tag
  let m := put m (adr + 8) 0
  let m := put m (adr + 16) 0
  some ({ s with mem := m, allocated := s.allocated + blksz }, adr + 8)

/-- `NEWREC(tag)` up to the point where nothing free is found, Heap.Mod 249-276 and 295-333: `none` inside is
"nothing free". -/
def tryAlloc (f : Nat) (s : HS) (tag : Nat) : Option (Option (HS × Nat)) :=
  let blksz := (s.mem tag).toNat
  if blksz % 32 ≠ 0 then none
  else do
    let i0 := blksz / 32
    let (i, adr) ← if i0 < 9 then findFree s.freeList 10 i0 else some (i0, 0)
    if i < 9 then
      let (s, adr) := takeSmall s i i0 adr blksz
      let r ← finish f s adr blksz tag
      some (some r)
    else
      match ← findBig f s.mem blksz s.bigBlocks 0 with
      | none => some none
      | some (adr, prev, t) =>
        let (s, adr) := takeBig s adr prev t blksz
        let r ← finish f s adr blksz tag
        some (some r)

/-- `NEWREC(tag)`, Heap.Mod 244-334: the state and the pointer, 0 for `NIL`.  The recursive calls, which find
`firstTry` false, are `tryAlloc`. -/
def newRec (os : OS) (f : Nat) (e : Env) (s : HS) (tag : Nat) : Option (HS × Nat) := do
  match ← tryAlloc f s tag with
  | some r => some r
  | none =>
    if s.firstTry then
      let s ← gc f s e
      let blksz := (s.mem tag).toNat + 32
      let t := (s.allocated + blksz) / 128 * 160
      let s ← if s.heapsize < t then extendHeap os f s (t - s.heapsize) else some s
      let s := { s with firstTry := false }
      match ← tryAlloc f s tag with
      | some (s, p) => some ({ s with firstTry := true }, p)
      | none =>
        let s ← extendHeap os f s blksz
        match ← tryAlloc f s tag with
        | some (s, p) => some ({ s with firstTry := true }, p)
        | none => some ({ s with firstTry := true }, 0)
    else some (s, 0)

/-- `NEWBLK(size)`, Heap.Mod 336-349.  `slot` is the address of its variable `blksz`. -/
def newBlk (os : OS) (f : Nat) (e : Env) (s : HS) (slot size : Nat) : Option (HS × Nat) := do
  let blksz := (size + (4 * 8 + 32 - 1)) / 32 * 32
  let s := s.put slot blksz
  let (s, p) ← newRec os f e s slot
  if p = 0 then none    -- stores through NIL
  else
    let tag := p + blksz - 24
    let s := s.put (tag - 8) 0
    let s := s.put tag blksz
    let s := s.put (tag + 8) (-8)
    some (s.put (p - 8) tag, p)

/-- `InitHeap`, Heap.Mod 605-633, on the memory `m`; `freeList` is a global variable, initially 0. -/
def initHeap (os : OS) (m : Mem) : HS :=
  let s : HS := {
    mem := m, freeList := fun _ => 0, bigBlocks := 0, allocated := 0, firstTry := true, heap := 0
    heapMin := 2 ^ 64 - 1, heapMax := 0, heapsize := 0, heapMinExpand := 8000 * 32, regions := [] }
  let (s, chnk) := newChunk os s (8000 * 32)
  let s := { s with heap := chnk }
  let s := s.put chnk 0
  { s with firstTry := true, freeList := put s.freeList 9 1 }

end Verif.Heap
