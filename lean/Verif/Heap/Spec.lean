import Verif.Heap.Model

/-!
# The heap as seen from outside: blocks, pointers and reachability
-/
namespace Verif.Heap

/-- A block of the heap: its address, its size in bytes, the address of its type tag (the word there holds the
size and is followed by the table of pointer offsets), the offsets of its pointer fields from the first word after
the tag word, and whether it is free. -/
structure Blk where
  adr : Nat
  size : Nat
  tag : Nat
  offs : List Nat
  free : Bool
  deriving Repr, DecidableEq

/-- The value of a pointer to the block. -/
def Blk.ptr (b : Blk) : Nat := b.adr + 8

/-- The addresses of the pointer fields of the block. -/
def Blk.flds (b : Blk) : List Nat := b.offs.map (b.ptr + ·)

/-- The addresses of the words the tag refers to: the size, an offset for each pointer field and a sentinel. -/
def Blk.table (b : Blk) : List Nat := (List.range (b.offs.length + 2)).map (fun i => b.tag + 8 * i)

/-- The block carries the mark. -/
def Marked (m : Mem) (b : Blk) : Prop := odd (m b.adr) = true

instance (m : Mem) (b : Blk) : Decidable (Marked m b) := by unfold Marked; infer_instance

/-- Some pointer field of `b` contains a pointer to `c`. -/
def Edge (m : Mem) (b c : Blk) : Prop := ∃ a ∈ b.flds, m a = c.ptr

/-- `c` can be reached from `b` through pointer fields. -/
inductive Reach (bs : List Blk) (m : Mem) : Blk → Blk → Prop where
  | refl (b : Blk) : Reach bs m b b
  | step {b c d : Blk} : Edge m b c → c ∈ bs → Reach bs m c d → Reach bs m b d

/-- The words that matter for tracing pointers do not overlap: the tag words, pointer fields and pointer tables
of the blocks are different words, except that blocks may share a pointer table. -/
structure Sep (bs : List Blk) : Prop where
  tagEven : ∀ b ∈ bs, b.tag % 8 = 0
  adrInj : ∀ b ∈ bs, ∀ c ∈ bs, b.adr = c.adr → b = c
  offsNodup : ∀ b ∈ bs, b.offs.Nodup
  adrFld : ∀ b ∈ bs, ∀ c ∈ bs, b.adr ∉ c.flds
  adrTable : ∀ b ∈ bs, ∀ c ∈ bs, b.adr ∉ c.table
  fldTable : ∀ b ∈ bs, ∀ c ∈ bs, ∀ a ∈ b.flds, a ∉ c.table
  fldFld : ∀ b ∈ bs, ∀ c ∈ bs, ∀ a ∈ b.flds, a ∈ c.flds → b = c

/-- The words the tag of `b` refers to are in place: the size, the offsets followed by `-8 * (number of offsets + 1)`. -/
def TableOK (m : Mem) (b : Blk) : Prop :=
  m b.tag = b.size ∧
  (∀ i o, b.offs[i]? = some o → m (b.tag + 8 + 8 * i) = (o : Nat)) ∧
  m (b.tag + 8 + 8 * b.offs.length) = -(8 * ((b.offs.length : Int) + 1))

/-- The pointer fields of `b` contain `NIL` or pointers to blocks. -/
def FieldsOK (bs : List Blk) (m : Mem) (b : Blk) : Prop :=
  ∀ a ∈ b.flds, m a = 0 ∨ ∃ c ∈ bs, m a = c.ptr

/-- The heap is in order for tracing: pointer tables are in place, the tag words hold the tag, plus 1 for a
marked block, and pointer fields contain pointers. -/
structure Traceable (bs : List Blk) (m : Mem) : Prop where
  tables : ∀ b ∈ bs, TableOK m b
  tags : ∀ b ∈ bs, m b.adr = b.tag ∨ m b.adr = b.tag + 1
  fields : ∀ b ∈ bs, FieldsOK bs m b

/-! ## Chunks -/

/-- A chunk of the heap: its address and its blocks. -/
structure Chunk where
  adr : Nat
  blks : List Blk
  deriving Repr

/-- The total size of blocks. -/
def sizes (bs : List Blk) : Nat := (bs.map (·.size)).sum

/-- The end of a chunk. -/
def Chunk.end_ (c : Chunk) : Nat := c.adr + 24 + sizes c.blks

/-- The blocks lie one after the other from address `a` on, without gaps. -/
def Tile : Nat → List Blk → Prop
  | _, [] => True
  | a, b :: bs => b.adr = a ∧ Tile (a + b.size) bs

/-- A block in itself.  `St` is the set of addresses of words outside the heap that never change: the type
descriptors.  The words the tag refers to are such words, or they lie in the block behind its pointer fields. -/
structure BlkOK (St : Nat → Prop) (b : Blk) : Prop where
  adr8 : b.adr % 8 = 0
  size32 : b.size % 32 = 0
  sizePos : 0 < b.size
  tag8 : b.tag % 8 = 0
  offsNodup : b.offs.Nodup
  offs : ∀ o ∈ b.offs, o % 8 = 0 ∧ o + 16 ≤ b.size
  table : (∀ a ∈ b.table, St a) ∨
    (b.adr + 8 ≤ b.tag ∧ b.tag + 8 * (b.offs.length + 2) ≤ b.adr + b.size ∧ ∀ o ∈ b.offs, b.adr + 8 + o < b.tag)

/-- All the blocks of the heap. -/
def blocks (cs : List Chunk) : List Blk := cs.flatMap (·.blks)

/-- The chunks are linked in memory from address `a` on. -/
def Linked (m : Mem) : Nat → List Chunk → Prop
  | a, [] => a = 0
  | a, c :: cs => a = c.adr ∧ a ≠ 0 ∧ ∃ n : Nat, m a = n ∧ Linked m n cs

/-- The chunks in themselves: aligned, in ascending order without overlap, tiled by their blocks, outside the
unchanging words. -/
structure ChunksOK (St : Nat → Prop) (cs : List Chunk) : Prop where
  adr8 : ∀ c ∈ cs, c.adr % 8 = 0
  tile : ∀ c ∈ cs, Tile (c.adr + 24) c.blks
  blk : ∀ b ∈ blocks cs, BlkOK St b
  sorted : cs.Pairwise (fun c d => c.end_ ≤ d.adr)
  static : ∀ c ∈ cs, ∀ a, St a → a + 8 ≤ c.adr ∨ c.end_ ≤ a

/-- The chunks in memory. -/
structure ChunksIn (m : Mem) (heap : Nat) (cs : List Chunk) : Prop where
  linked : Linked m heap cs
  ends : ∀ c ∈ cs, m (c.adr + 8) = c.end_

/-- The word `w` is an address in block `b`: behind its tag word and before its end. -/
def Hits (w : Nat) (b : Blk) : Prop := b.ptr ≤ w ∧ w < b.adr + b.size

/-! ## Free blocks -/

/-- A free block: it describes itself. -/
def freeBlk (a n : Nat) : Blk := ⟨a, n, a + 8, [], true⟩

/-- The addresses `xs` are linked in memory from `a` on, by the words at offset 24. -/
def Chain (m : Mem) : Nat → List Nat → Prop
  | a, [] => a = 0
  | a, x :: xs => a = x ∧ x ≠ 0 ∧ ∃ n : Nat, m (x + 24) = n ∧ Chain m n xs

/-- The addresses of the free blocks of `i` units, the last first. -/
def smallFree (i : Nat) (bs : List Blk) : List Nat :=
  ((bs.filter fun b => b.free && b.size / 32 == i).map (·.adr)).reverse

/-- The addresses of the free blocks of nine or more units, the last first. -/
def bigFree (bs : List Blk) : List Nat :=
  ((bs.filter fun b => b.free && decide (9 ≤ b.size / 32)).map (·.adr)).reverse

/-- No free block is followed immediately by a free block. -/
def NoAdjacentFree : List Blk → Prop
  | [] => True
  | [_] => True
  | b :: c :: bs => ¬ (b.free = true ∧ c.free = true) ∧ NoAdjacentFree (c :: bs)

end Verif.Heap
