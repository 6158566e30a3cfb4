import Verif.Heap.LemmasCand

/-!
# Candidates from the stack (C23)
-/
namespace Verif.Heap

/-- C23: sorting neither loses nor duplicates a candidate, and puts them in ascending order. -/
theorem C23_sort (n : Nat) (hn : 0 < n) (a : Nat → Nat) :
    ∃ a', heapSort n a = some a' ∧ (elems n a').Pairwise (· ≤ ·) ∧ (elems n a').Perm (elems n a) :=
  heapSort_ok n hn a

/-- C23: scanning the words of the stack, of any number and in any order, terminates; it marks exactly the blocks that
can be reached from a block into which some word of the stack points (behind its tag word and before its end);
nothing but marks is changed.  `cap` is the length of the buffer for candidates, 10000 in the program. -/
theorem C23_stack (St : Nat → Prop) (cks : List Chunk) (ok : ChunksOK St cks) (s : HS) (hin : ChunksIn s.mem s.heap cks)
    (hmin : ∀ c ∈ cks, s.heapMin ≤ c.adr + 32) (hmax : ∀ c ∈ cks, c.end_ ≤ s.heapMax)
    (tr : Traceable (blocks cks) s.mem) (cl : Closed (blocks cks) s.mem) (cap : Nat) (hcap : 0 < cap)
    (words : List Nat) :
    ∃ m', (∃ F, ∀ f, F ≤ f → markStack cap f s s.mem words = some m') ∧
      (∀ c ∈ blocks cks, Marked m' c ↔
        Marked s.mem c ∨ ∃ b ∈ blocks cks, (∃ w ∈ words, b.ptr ≤ w ∧ w < b.adr + b.size) ∧ Reach (blocks cks) s.mem b c) ∧
      (∀ a, (∀ c ∈ blocks cks, a ≠ c.adr) → m' a = s.mem a) ∧
      Traceable (blocks cks) m' ∧ Closed (blocks cks) m' := by
  obtain ⟨m', hev, hm⟩ := stackLoop_ok ok cap hcap hmin hmax words s.mem 0 (fun _ => 0) hin tr cl
  refine ⟨m', hev, ?_, hm.frame, hm.traceable, hm.closed⟩
  intro c hc
  rw [hm.marks c hc]
  simp [elems, Hits]

/-! Two chunks; a record that points to another one, an array and a free block. -/

private def ex1 : Chunk := ⟨1000, [⟨1024, 32, 400, [0], false⟩, ⟨1056, 64, 1096, [], false⟩, ⟨1120, 32, 400, [0], false⟩]⟩
private def ex2 : Chunk := ⟨2000, [⟨2024, 96, 2032, [], true⟩, ⟨2120, 32, 400, [0], false⟩]⟩

private def exM : Mem := fun a =>
  if a = 400 then 32 else if a = 408 then 0 else if a = 416 then -16
  else if a = 1000 then 2000 else if a = 1008 then 1152
  else if a = 1024 then 400 else if a = 1032 then 2128
  else if a = 1056 then 1096 else if a = 1096 then 64 else if a = 1104 then -8
  else if a = 1120 then 400 else if a = 1128 then 0
  else if a = 2000 then 0 else if a = 2008 then 2152
  else if a = 2024 then 2032 else if a = 2032 then 96 else if a = 2040 then -8
  else if a = 2120 then 400 else if a = 2128 then 0
  else 0

private def exS : HS :=
  { mem := exM, freeList := fun _ => 0, bigBlocks := 0, allocated := 160, firstTry := true, heap := 1000,
    heapMin := 1032, heapMax := 2152, heapsize := 256, heapMinExpand := 32, regions := [] }

private abbrev exSt : Nat → Prop := fun a => a = 400 ∨ a = 408 ∨ a = 416

private theorem exOK : ChunksOK exSt [ex1, ex2] := by
  refine ⟨by decide, ?_, ?_, by decide, ?_⟩
  · intro c hc
    simp only [List.mem_cons, List.not_mem_nil, or_false] at hc
    rcases hc with rfl | rfl <;> simp [Tile, ex1, ex2]
  · intro b hb
    have hb' : b ∈ ex1.blks ++ ex2.blks := by simpa [blocks] using hb
    simp only [ex1, ex2, List.cons_append, List.nil_append, List.mem_cons, List.not_mem_nil, or_false] at hb'
    rcases hb' with rfl | rfl | rfl | rfl | rfl <;> constructor <;> decide
  · intro c hc a ha
    simp only [List.mem_cons, List.not_mem_nil, or_false] at hc
    left
    rcases hc with rfl | rfl <;> rcases ha with rfl | rfl | rfl <;> simp [ex1, ex2]

private theorem exTr : Traceable (blocks [ex1, ex2]) exM := by
  refine ⟨?_, by decide, by unfold FieldsOK; decide⟩
  intro b hb
  have hb' : b ∈ ex1.blks ++ ex2.blks := by simpa [blocks] using hb
  simp only [ex1, ex2, List.cons_append, List.nil_append, List.mem_cons, List.not_mem_nil, or_false] at hb'
  have one : ∀ (i o : Nat), ([0] : List Nat)[i]? = some o → i = 0 ∧ o = 0 := by
    intro i o h
    match i, h with
    | 0, h => simp at h; omega
    | n + 1, h => simp at h
  rcases hb' with rfl | rfl | rfl | rfl | rfl
  · exact ⟨by decide, fun i o h => by obtain ⟨rfl, rfl⟩ := one i o h; decide, by decide⟩
  · exact ⟨by decide, fun i o h => by simp at h, by decide⟩
  · exact ⟨by decide, fun i o h => by obtain ⟨rfl, rfl⟩ := one i o h; decide, by decide⟩
  · exact ⟨by decide, fun i o h => by simp at h, by decide⟩
  · exact ⟨by decide, fun i o h => by obtain ⟨rfl, rfl⟩ := one i o h; decide, by decide⟩

example : ChunksOK exSt [ex1, ex2] ∧ ChunksIn exS.mem exS.heap [ex1, ex2] ∧ Traceable (blocks [ex1, ex2]) exS.mem ∧
    Closed (blocks [ex1, ex2]) exS.mem := by
  refine ⟨exOK, ⟨?_, by decide⟩, exTr, ?_⟩
  · exact ⟨rfl, by decide, 2000, by decide, rfl, by decide, 0, by decide, rfl⟩
  · intro b hb hm
    exact absurd hm (by revert b; decide)

/-- With a buffer of two, the words in descending order: an interior address of the array, a pointer to the first record
and three numbers, one of them the address of a tag word.  The array, the first record and what it points to are
marked. -/
example : (markStack 2 30 exS exM [1119, 1120, 5000, 1032, 7]).map (fun m => (blocks [ex1, ex2]).map fun b => m b.adr) =
    some [401, 1097, 400, 2032, 401] := by decide

example : (heapSort 5 (fun i => [3, 1, 4, 1, 5].getD i 0)).map (elems 5) = some [1, 1, 3, 4, 5] := by decide

end Verif.Heap
