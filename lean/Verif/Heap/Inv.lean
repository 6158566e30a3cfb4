import Verif.Heap.PropsScan
import Verif.Heap.PropsMark
import Verif.Heap.PropsStack

/-!
# The invariant of the storage manager
-/
namespace Verif.Heap

/-- The lists of free blocks: `F i` are the addresses in `freeList[i]`, `G` those in `bigBlocks`.  Every free block is in
one of them, except that blocks of nine units (288 bytes) may be missing, see `C20_lost`. -/
structure Lists (m : Mem) (fl : Nat → Nat) (big : Nat) (bs : List Blk) (F : Nat → List Nat) (G : List Nat) : Prop where
  small : ∀ i, 1 ≤ i → i < 9 → Chain m (fl i) (F i)
  big : Chain m big G
  smallIn : ∀ i, 1 ≤ i → i < 9 → ∀ x ∈ F i, freeBlk x (32 * i) ∈ bs
  bigIn : ∀ x ∈ G, ∃ n, freeBlk x n ∈ bs
  nodupF : ∀ i, 1 ≤ i → i < 9 → (F i).Nodup
  nodupG : G.Nodup
  disj : ∀ i, 1 ≤ i → i < 9 → ∀ x ∈ F i, x ∉ G
  all : ∀ b ∈ bs, b.free = true → b.size ≠ 288 → (b.size / 32 < 9 ∧ b.adr ∈ F (b.size / 32)) ∨ b.adr ∈ G

/-- The invariant.  `St` are the words of the type descriptors, `Sl` other words outside the heap, `ex` the addresses of
blocks whose tag is not in place yet. -/
structure Inv (St Sl : Nat → Prop) (ex : Nat → Prop) (s : HS) (cks : List Chunk) : Prop where
  ok : ChunksOK St cks
  inMem : ChunksIn s.mem s.heap cks
  tables : ∀ b ∈ blocks cks, ¬ ex b.adr → TableOK s.mem b
  tags : ∀ b ∈ blocks cks, ¬ ex b.adr → s.mem b.adr = b.tag
  fields : ∀ b ∈ blocks cks, ¬ ex b.adr → ∀ a ∈ b.flds, s.mem a = 0 ∨
    ∃ c ∈ blocks cks, c.free = false ∧ s.mem a = c.ptr
  shape : ∀ b ∈ blocks cks, b.free = true → b = freeBlk b.adr b.size
  lists : ∃ F G, Lists s.mem s.freeList s.bigBlocks (blocks cks) F G
  fl9 : s.freeList 9 ≠ 0
  alloc : s.allocated = used (blocks cks)
  hsize : s.heapsize = sizes (blocks cks)
  regs : ∀ c ∈ cks, (c.adr, c.end_ - c.adr) ∈ s.regions
  regsOut : ∀ r ∈ s.regions, ∀ a, St a ∨ Sl a → a + 8 ≤ r.1 ∨ r.1 + r.2 ≤ a
  hmin : ∀ c ∈ cks, s.heapMin ≤ c.adr + 32
  hmax : ∀ c ∈ cks, c.end_ ≤ s.heapMax
  nonempty : cks ≠ []
  expand : s.heapMinExpand % 32 = 0 ∧ 0 < s.heapMinExpand

/-- Nothing is excluded. -/
abbrev noEx : Nat → Prop := fun _ => False

/-! ## The order of the blocks -/

theorem tile_ordered {a : Nat} {bs : List Blk} (h : Tile a bs) : bs.Pairwise (fun b c => b.adr + b.size ≤ c.adr) := by
  induction bs generalizing a with
  | nil => exact List.Pairwise.nil
  | cons b bs ih =>
    refine List.pairwise_cons.2 ⟨fun c hc => ?_, ih h.2⟩
    have := (tile_bounds h.2 hc).1
    have := h.1
    omega

theorem blocks_ordered {St : Nat → Prop} {cs : List Chunk} (ok : ChunksOK St cs) :
    (blocks cs).Pairwise (fun b c => b.adr + b.size ≤ c.adr) := by
  unfold blocks
  rw [List.pairwise_flatMap]
  refine ⟨fun c hc => tile_ordered (ok.tile c hc), ?_⟩
  refine ok.sorted.imp_of_mem ?_
  intro c d hc hd h b hb b' hb'
  have := blk_bounds ok hc hb
  have := blk_bounds ok hd hb'
  omega

theorem adrs_nodup {St : Nat → Prop} {cs : List Chunk} (ok : ChunksOK St cs) (p : Blk → Bool) :
    (((blocks cs).filter p).map (·.adr)).Nodup := by
  unfold List.Nodup
  rw [List.pairwise_map]
  refine ((blocks_ordered ok).filter p).imp_of_mem ?_
  intro b c hb _ h
  have := (ok.blk b (List.mem_filter.1 hb).1).sizePos
  omega

/-! ## The shape of the chunks -/

/-- Where the chunks are. -/
def skel (cs : List Chunk) : List (Nat × Nat) := cs.map (fun c => (c.adr, c.end_))

theorem skel_mem {cs cs' : List Chunk} (h : skel cs' = skel cs) {c : Chunk} (hc : c ∈ cs') :
    ∃ d ∈ cs, d.adr = c.adr ∧ d.end_ = c.end_ := by
  have : (c.adr, c.end_) ∈ skel cs' := List.mem_map.2 ⟨c, hc, rfl⟩
  rw [h] at this
  obtain ⟨d, hd, e⟩ := List.mem_map.1 this
  simp only [Prod.mk.injEq] at e
  exact ⟨d, hd, e.1, e.2⟩

theorem skel_sorted {cs : List Chunk} : cs.Pairwise (fun c d => c.end_ ≤ d.adr) ↔
    (skel cs).Pairwise (fun p q => p.2 ≤ q.1) := by
  unfold skel; rw [List.pairwise_map]

theorem skel_linked {m : Mem} : ∀ {cs cs' : List Chunk}, skel cs' = skel cs → ∀ {a : Nat}, Linked m a cs → Linked m a cs'
  | [], [], _, _, h => h
  | [], _ :: _, e, _, _ => by simp [skel] at e
  | _ :: _, [], e, _, _ => by simp [skel] at e
  | c :: cs, c' :: cs', e, a, ⟨h1, h2, n, h3, h4⟩ => by
    simp only [skel, List.map_cons, List.cons.injEq, Prod.mk.injEq] at e
    exact ⟨by rw [e.1.1]; exact h1, h2, n, h3, skel_linked e.2 h4⟩

theorem skel_in {m : Mem} {heap : Nat} {cs cs' : List Chunk} (e : skel cs' = skel cs) (h : ChunksIn m heap cs) :
    ChunksIn m heap cs' := by
  refine ⟨skel_linked e h.linked, ?_⟩
  intro c hc
  obtain ⟨d, hd, h1, h2⟩ := skel_mem e hc
  rw [← h1, ← h2]; exact h.ends d hd

theorem skel_ok {St : Nat → Prop} {cs cs' : List Chunk} (ok : ChunksOK St cs) (e : skel cs' = skel cs)
    (tile : ∀ c ∈ cs', Tile (c.adr + 24) c.blks) (blk : ∀ b ∈ blocks cs', BlkOK St b) : ChunksOK St cs' := by
  refine ⟨?_, tile, blk, ?_, ?_⟩
  · intro c hc
    obtain ⟨d, hd, h1, _⟩ := skel_mem e hc
    rw [← h1]; exact ok.adr8 d hd
  · rw [skel_sorted, e, ← skel_sorted]; exact ok.sorted
  · intro c hc
    obtain ⟨d, hd, h1, h2⟩ := skel_mem e hc
    rw [← h1, ← h2]; exact ok.static d hd

theorem blocks_append (as bs : List Chunk) : blocks (as ++ bs) = blocks as ++ blocks bs := by simp [blocks]

/-- A block is replaced by blocks that fill the same place. -/
theorem carve_ok {St : Nat → Prop} {cks : List Chunk} (ok : ChunksOK St cks) {old : Blk} (h : old ∈ blocks cks)
    {new : List Blk} (hnew : Tile old.adr new) (hs : sizes new = old.size) (hok : ∀ b ∈ new, BlkOK St b) :
    ∃ cks' L R, blocks cks = L ++ old :: R ∧ blocks cks' = L ++ (new ++ R) ∧ ChunksOK St cks' ∧ skel cks' = skel cks := by
  obtain ⟨c, hc, hcb⟩ := mem_blocks.1 h
  obtain ⟨A, B, rfl⟩ := List.append_of_mem hc
  obtain ⟨P, Q, hPQ⟩ := List.append_of_mem hcb
  obtain ⟨cadr, cblks⟩ := c
  simp only at hPQ hcb
  subst hPQ
  have ht := ok.tile _ hc
  simp only [tile_append, Tile] at ht
  refine ⟨A ++ ⟨cadr, P ++ (new ++ Q)⟩ :: B, blocks A ++ P, Q ++ blocks B, ?_, ?_, ?_, ?_⟩
  · rw [blocks_append, blocks_cons]; simp
  · rw [blocks_append, blocks_cons]; simp
  · apply skel_ok ok
    · simp [skel, Chunk.end_, sizes_append, sizes_cons, hs]
    · intro d hd
      rcases List.mem_append.1 hd with hd | hd
      · exact ok.tile d (List.mem_append_left _ hd)
      rcases List.mem_cons.1 hd with rfl | hd
      · simp only [tile_append]
        refine ⟨ht.1, ?_, ?_⟩
        · rw [← ht.2.1]; exact hnew
        · rw [hs]; exact ht.2.2
      · exact ok.tile d (List.mem_append_right _ (List.mem_cons_of_mem _ hd))
    · intro b hb
      rw [blocks_append, blocks_cons] at hb
      have hold : ∀ b, b ∈ blocks A ∨ b ∈ P ∨ b ∈ Q ∨ b ∈ blocks B → BlkOK St b := by
        intro b hb
        apply ok.blk
        rw [blocks_append, blocks_cons]
        simp only [List.mem_append, List.mem_cons]
        tauto
      simp only [List.mem_append] at hb
      rcases hb with hb | (hb | hb | hb) | hb
      · exact hold b (by tauto)
      · exact hold b (by tauto)
      · exact hok b hb
      · exact hold b (by tauto)
      · exact hold b (by tauto)
  · simp [skel, Chunk.end_, sizes_append, sizes_cons, hs]

theorem carve_sides {St : Nat → Prop} {cks : List Chunk} (ok : ChunksOK St cks) {old : Blk} {L R : List Blk}
    (h : blocks cks = L ++ old :: R) :
    (∀ c ∈ L, c ∈ blocks cks ∧ c.adr + c.size ≤ old.adr) ∧ (∀ c ∈ R, c ∈ blocks cks ∧ old.adr + old.size ≤ c.adr) := by
  have := blocks_ordered ok
  rw [h] at this
  rw [List.pairwise_append, List.pairwise_cons] at this
  constructor
  · intro c hc
    exact ⟨by rw [h]; exact List.mem_append_left _ hc, this.2.2 c hc old (List.mem_cons_self ..)⟩
  · intro c hc
    exact ⟨by rw [h]; exact List.mem_append_right _ (List.mem_cons_of_mem _ hc), this.2.1.1 c hc⟩

theorem freeBlk_adr (a n : Nat) : (freeBlk a n).adr = a := rfl
theorem freeBlk_size (a n : Nat) : (freeBlk a n).size = n := rfl

/-- The part of a free block behind its first `rest` bytes becomes the block `b`. -/
theorem carve_inv {St Sl : Nat → Prop} {s s' : HS} {cks : List Chunk} (inv : Inv St Sl noEx s cks) {adr t rest : Nat}
    (hold : freeBlk adr t ∈ blocks cks) {b : Blk} (hb : BlkOK St b) (hadr : b.adr = adr + rest) (hsz : rest + b.size = t)
    (hrest : rest % 32 = 0) (hfree : b.free = false)
    (hm : ∀ a, (a < adr ∨ adr + t ≤ a) → (∀ c ∈ blocks cks, c.free = true → a ≠ c.adr + 24) → s'.mem a = s.mem a)
    (hr : rest ≠ 0 → s'.mem adr = (adr + 8 : Nat) ∧ s'.mem (adr + 8) = rest ∧ s'.mem (adr + 16) = -8)
    (vheap : s'.heap = s.heap) (vmin : s'.heapMin = s.heapMin) (vmax : s'.heapMax = s.heapMax)
    (vsize : s'.heapsize = s.heapsize) (vexp : s'.heapMinExpand = s.heapMinExpand) (vreg : s'.regions = s.regions)
    (v9 : s'.freeList 9 ≠ 0) (valloc : s'.allocated = s.allocated + b.size)
    (lists : ∀ bs', (∀ c, c ∈ bs' ↔ c = b ∨ (rest ≠ 0 ∧ c = freeBlk adr rest) ∨
        (c ∈ blocks cks ∧ (c.adr + c.size ≤ adr ∨ adr + t ≤ c.adr))) →
      ∃ F G, Lists s'.mem s'.freeList s'.bigBlocks bs' F G) :
    ∃ cks', Inv St Sl (· = b.adr) s' cks' ∧ skel cks' = skel cks ∧
      (∀ c, c ∈ blocks cks' ↔ c = b ∨ (rest ≠ 0 ∧ c = freeBlk adr rest) ∨
        (c ∈ blocks cks ∧ (c.adr + c.size ≤ adr ∨ adr + t ≤ c.adr))) := by
  have ok := inv.ok
  have hadr8 := (ok.blk _ hold).adr8
  simp only [freeBlk_adr] at hadr8
  obtain ⟨new, hnew⟩ : ∃ new : List Blk, new = (if rest = 0 then [] else [freeBlk adr rest]) ++ [b] := ⟨_, rfl⟩
  have hnewmem : ∀ c, c ∈ new ↔ c = b ∨ (rest ≠ 0 ∧ c = freeBlk adr rest) := by
    intro c; rw [hnew]
    by_cases h0 : rest = 0 <;> simp [h0]; tauto
  obtain ⟨cks', L, R, e1, e2, ok', sk⟩ := carve_ok (new := new) ok hold (by
      rw [hnew]
      by_cases h0 : rest = 0
      · simp [h0, Tile, hadr, freeBlk_adr]
      · simp [h0, Tile, hadr, freeBlk_adr, freeBlk_size])
    (by
      rw [hnew]
      by_cases h0 : rest = 0
      · simp [h0, sizes, freeBlk_size]; omega
      · simp [h0, sizes, freeBlk_size]; omega)
    (by
      intro c hc
      rcases (hnewmem c).1 hc with rfl | ⟨h0, rfl⟩
      · exact hb
      · exact freeBlk_ok hadr8 hrest (by omega))
  obtain ⟨hL, hR⟩ := carve_sides ok e1
  simp only [freeBlk_adr, freeBlk_size] at hL hR
  have hpos := hb.sizePos
  have hmem : ∀ c, c ∈ blocks cks' ↔ c = b ∨ (rest ≠ 0 ∧ c = freeBlk adr rest) ∨
        (c ∈ blocks cks ∧ (c.adr + c.size ≤ adr ∨ adr + t ≤ c.adr)) := by
    intro c
    rw [e2, List.mem_append, List.mem_append, hnewmem]
    constructor
    · rintro (h | (h | h) | h)
      · exact Or.inr (Or.inr ⟨(hL c h).1, Or.inl (hL c h).2⟩)
      · exact Or.inl h
      · exact Or.inr (Or.inl h)
      · exact Or.inr (Or.inr ⟨(hR c h).1, Or.inr (hR c h).2⟩)
    · rintro (h | h | ⟨h, h'⟩)
      · exact Or.inr (Or.inl (Or.inl h))
      · exact Or.inr (Or.inl (Or.inr h))
      · rw [e1] at h
        rcases List.mem_append.1 h with h | h
        · exact Or.inl h
        rcases List.mem_cons.1 h with rfl | h
        · simp only [freeBlk_adr, freeBlk_size] at h'; omega
        · exact Or.inr (Or.inr h)
  -- words outside the free blocks and outside the block that is split
  have hframe : ∀ c ∈ blocks cks, c.free = false → ∀ a, c.adr ≤ a → a < c.adr + c.size → s'.mem a = s.mem a := by
    intro c hc hf a h1 h2
    apply hm
    · rcases blocks_disjoint ok hc hold with rfl | h | h
      · simp [freeBlk] at hf
      · simp only [freeBlk_adr] at h; omega
      · simp only [freeBlk_adr, freeBlk_size] at h; omega
    · intro d hd hdf e
      have h3 := (ok.blk d hd).sizePos
      have h4 := (ok.blk d hd).size32
      rcases blocks_disjoint ok hc hd with rfl | h | h
      · rw [hf] at hdf; simp at hdf
      · omega
      · omega
  have hfreeW : ∀ c ∈ blocks cks, c.free = true → (c.adr + c.size ≤ adr ∨ adr + t ≤ c.adr) → ∀ a, c.adr ≤ a →
      a < c.adr + 24 → s'.mem a = s.mem a := by
    intro c hc hf hside a h1 h2
    have h5 := (ok.blk c hc).sizePos
    have h6 := (ok.blk c hc).size32
    apply hm
    · omega
    · intro d hd hdf e
      have h3 := (ok.blk d hd).sizePos
      have h4 := (ok.blk d hd).size32
      rcases blocks_disjoint ok hc hd with rfl | h | h
      · omega
      · omega
      · omega
  have hout : ∀ a, (∀ c ∈ cks, a < c.adr + 24 ∨ c.end_ ≤ a) → s'.mem a = s.mem a := by
    intro a ha
    have key : ∀ d ∈ blocks cks, a < d.adr ∨ d.adr + d.size ≤ a := by
      intro d hd
      obtain ⟨c, hc, hdc⟩ := mem_blocks.1 hd
      have := blk_bounds ok hc hdc
      have := ha c hc
      omega
    apply hm
    · exact key _ hold
    · intro d hd _ e
      have h3 := (ok.blk d hd).sizePos
      have h4 := (ok.blk d hd).size32
      have := key d hd
      omega
  have hSt : ∀ a, St a → s'.mem a = s.mem a := by
    intro a ha
    apply hout
    intro c hc
    have := ok.static c hc a ha
    omega
  have hhead : ∀ c ∈ cks, ∀ a, c.adr ≤ a → a < c.adr + 24 → s'.mem a = s.mem a := by
    intro c hc a h1 h2
    apply hout
    intro d hd
    have he : c.adr + 24 ≤ c.end_ := by unfold Chunk.end_; omega
    have he' : d.adr + 24 ≤ d.end_ := by unfold Chunk.end_; omega
    rcases chunk_disjoint ok hc hd with rfl | h | h <;> omega
  have hin : ChunksIn s'.mem s'.heap cks := by
    rw [vheap]
    refine ⟨linked_congr (fun c hc => hhead c hc _ (by omega) (by omega)) inv.inMem.linked, ?_⟩
    intro c hc
    rw [hhead c hc _ (by omega) (by omega)]; exact inv.inMem.ends c hc
  have htab : ∀ c ∈ blocks cks, c.free = false → TableOK s'.mem c := by
    intro c hc hf
    refine tableOK_congr ?_ (inv.tables c hc (fun h => h))
    intro a ha
    rcases table_bounds (ok.blk c hc) ha with h | h
    · exact hSt a h
    · exact hframe c hc hf a (by omega) (by omega)
  have htabF : ∀ c ∈ blocks cks, c.free = true → (c.adr + c.size ≤ adr ∨ adr + t ≤ c.adr) → TableOK s'.mem c := by
    intro c hc hf hside
    have e := inv.shape c hc hf
    refine tableOK_congr ?_ (inv.tables c hc (fun h => h))
    intro a ha
    apply hfreeW c hc hf hside
    · rw [e] at ha
      obtain ⟨i, hi, rfl⟩ := table_mem ha
      simp only [freeBlk]; omega
    · rw [e] at ha
      obtain ⟨i, hi, rfl⟩ := table_mem ha
      simp only [freeBlk, List.length_nil] at hi ⊢; omega
  have hnf : ∀ c ∈ blocks cks, c.free = false → (c.adr + c.size ≤ adr ∨ adr + t ≤ c.adr) := by
    intro c hc hf
    rcases blocks_disjoint ok hc hold with rfl | h | h
    · simp [freeBlk] at hf
    · simp only [freeBlk_adr] at h; omega
    · simp only [freeBlk_adr, freeBlk_size] at h; omega
  refine ⟨cks', ?_, sk, hmem⟩
  refine ⟨ok', skel_in sk hin, ?_, ?_, ?_, ?_, lists _ hmem, v9, ?_, ?_, ?_, ?_, ?_, ?_, ?_, ?_⟩
  · intro c hc hex
    rcases (hmem c).1 hc with rfl | ⟨h0, rfl⟩ | ⟨hc', hside⟩
    · exact absurd rfl hex
    · obtain ⟨h1, h2, h3⟩ := hr h0
      refine ⟨h2, ?_, ?_⟩
      · intro i o h; simp [freeBlk] at h
      · simpa [freeBlk] using h3
    · cases hf : c.free with
      | false => exact htab c hc' hf
      | true => exact htabF c hc' hf hside
  · intro c hc hex
    rcases (hmem c).1 hc with rfl | ⟨h0, rfl⟩ | ⟨hc', hside⟩
    · exact absurd rfl hex
    · exact (hr h0).1
    · have hp := (ok.blk c hc').sizePos
      rw [← inv.tags c hc' (fun h => h)]
      cases hf : c.free with
      | false => exact hframe c hc' hf _ (by omega) (by omega)
      | true => exact hfreeW c hc' hf hside _ (by omega) (by omega)
  · intro c hc hex a ha
    rcases (hmem c).1 hc with rfl | ⟨h0, rfl⟩ | ⟨hc', hside⟩
    · exact absurd rfl hex
    · simp [Blk.flds, freeBlk] at ha
    · cases hf : c.free with
      | true =>
        rw [inv.shape c hc' hf] at ha
        simp [Blk.flds, freeBlk] at ha
      | false =>
        have hfb := fld_bounds (ok.blk c hc') ha
        rw [hframe c hc' hf a (by omega) (by omega)]
        rcases inv.fields c hc' (fun h => h) a ha with h | ⟨d, hd, hdf, h⟩
        · exact Or.inl h
        · exact Or.inr ⟨d, (hmem d).2 (Or.inr (Or.inr ⟨hd, hnf d hd hdf⟩)), hdf, h⟩
  · intro c hc hf
    rcases (hmem c).1 hc with rfl | ⟨h0, rfl⟩ | ⟨hc', hside⟩
    · rw [hfree] at hf; simp at hf
    · rfl
    · exact inv.shape c hc' hf
  · rw [valloc, inv.alloc, e1, e2, used_append, used_append, used_append]
    have h1 : used (freeBlk adr t :: R) = used R := by simp [used, freeBlk]
    have h2 : used new = b.size := by
      rw [hnew, used_append]
      by_cases h0 : rest = 0
      · simp [h0, used, hfree, sizes]
      · simp [h0, used, hfree, sizes, freeBlk]
    rw [h1, h2]; omega
  · rw [vsize, inv.hsize, e1, e2, sizes_append, sizes_append, sizes_append, sizes_cons, freeBlk_size]
    have h2 : sizes new = t := by
      rw [hnew, sizes_append]
      by_cases h0 : rest = 0
      · simp [h0, sizes]; omega
      · simp [h0, sizes, freeBlk]; omega
    rw [h2]
  · intro c hc
    obtain ⟨d, hd, h1, h2⟩ := skel_mem sk hc
    rw [vreg, ← h1, ← h2]; exact inv.regs d hd
  · rw [vreg]; exact inv.regsOut
  · intro c hc
    obtain ⟨d, hd, h1, h2⟩ := skel_mem sk hc
    rw [vmin, ← h1]; exact inv.hmin d hd
  · intro c hc
    obtain ⟨d, hd, h1, h2⟩ := skel_mem sk hc
    rw [vmax, ← h2]; exact inv.hmax d hd
  · intro h
    apply inv.nonempty
    have := congrArg List.length sk
    rw [h] at this
    simp [skel] at this
    exact List.eq_nil_of_length_eq_zero (by omega)
  · rw [vexp]; exact inv.expand

end Verif.Heap
