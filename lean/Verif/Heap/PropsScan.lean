import Verif.Heap.LemmasScan

/-!
# Sweeping (C22)
-/
namespace Verif.Heap

theorem freeBlk_ok {St : Nat → Prop} {a n : Nat} (ha : a % 8 = 0) (hn : n % 32 = 0) (hp : 0 < n) : BlkOK St (freeBlk a n) := by
  refine ⟨ha, hn, hp, by simp only [freeBlk]; omega, by simp [freeBlk], by simp [freeBlk], Or.inr ?_⟩
  simp only [freeBlk, List.length_nil, List.not_mem_nil, false_imp_iff, implies_true, and_true]
  omega

theorem unfree_ok {St : Nat → Prop} {b : Blk} (h : BlkOK St b) : BlkOK St { b with free := false } :=
  ⟨h.adr8, h.size32, h.sizePos, h.tag8, h.offsNodup, h.offs, h.table⟩

theorem sweep_tile (mk : Blk → Bool) : ∀ (bs : List Blk) (adr fs : Nat), Tile adr bs → fs ≤ adr →
    Tile (adr - fs) (sweep mk adr fs bs) ∧ sizes (sweep mk adr fs bs) = fs + sizes bs
  | [], adr, fs, _, h => by
    simp only [sweep]
    by_cases h0 : fs = 0
    · rw [if_pos h0, h0]; exact ⟨trivial, rfl⟩
    · rw [if_neg h0]; exact ⟨⟨rfl, trivial⟩, by simp [sizes, freeBlk]⟩
  | b :: bs, adr, fs, ⟨ha, ht⟩, h => by
    simp only [sweep]
    by_cases hm : mk b = true
    · rw [if_pos hm]
      obtain ⟨h1, h2⟩ := sweep_tile mk bs (adr + b.size) 0 ht (Nat.zero_le _)
      rw [sizes_append, sizes_cons, h2, sizes_cons, tile_append]
      by_cases h0 : fs = 0
      · rw [if_pos h0]
        refine ⟨⟨trivial, ?_, ?_⟩, ?_⟩
        · simp only [sizes, List.map_nil, List.sum_nil]; omega
        · simp only [sizes, List.map_nil, List.sum_nil]
          have e : adr - fs + 0 + b.size = adr + b.size - 0 := by omega
          rw [e]; exact h1
        · simp [sizes]; omega
      · rw [if_neg h0]
        refine ⟨⟨⟨rfl, trivial⟩, ?_, ?_⟩, ?_⟩
        · simp only [sizes, freeBlk, List.map_cons, List.map_nil, List.sum_cons, List.sum_nil]; omega
        · simp only [sizes, freeBlk, List.map_cons, List.map_nil, List.sum_cons, List.sum_nil]
          have e : adr - fs + (fs + 0) + b.size = adr + b.size - 0 := by omega
          rw [e]; exact h1
        · simp [sizes, freeBlk]
    · rw [if_neg hm]
      obtain ⟨h1, h2⟩ := sweep_tile mk bs (adr + b.size) (fs + b.size) ht (by omega)
      rw [h2, sizes_cons]
      have e : adr - fs = adr + b.size - (fs + b.size) := by omega
      rw [e]
      exact ⟨h1, by omega⟩

theorem sweep_mem (mk : Blk → Bool) : ∀ (bs : List Blk) (adr fs : Nat), adr % 8 = 0 → fs % 32 = 0 → fs ≤ adr →
    (∀ b ∈ bs, b.size % 32 = 0) → ∀ b ∈ sweep mk adr fs bs,
      (∃ c ∈ bs, mk c = true ∧ b = { c with free := false }) ∨
      (∃ a n, b = freeBlk a n ∧ a % 8 = 0 ∧ n % 32 = 0 ∧ 0 < n)
  | [], adr, fs, ha, hfs, hle, _, b, hb => by
    simp only [sweep] at hb
    by_cases h0 : fs = 0
    · rw [if_pos h0] at hb; simp at hb
    · rw [if_neg h0] at hb
      simp only [List.mem_singleton] at hb
      exact Or.inr ⟨_, _, hb, by omega, hfs, by omega⟩
  | c :: bs, adr, fs, ha, hfs, hle, hs, b, hb => by
    have hc := hs c (List.mem_cons_self ..)
    have hs' := fun d hd => hs d (List.mem_cons_of_mem _ hd)
    simp only [sweep] at hb
    by_cases hm : mk c = true
    · rw [if_pos hm] at hb
      rcases List.mem_append.1 hb with hb | hb
      · by_cases h0 : fs = 0
        · rw [if_pos h0] at hb; simp at hb
        · rw [if_neg h0] at hb
          simp only [List.mem_singleton] at hb
          exact Or.inr ⟨_, _, hb, by omega, hfs, by omega⟩
      · rcases List.mem_cons.1 hb with hb | hb
        · exact Or.inl ⟨c, List.mem_cons_self .., hm, hb⟩
        · rcases sweep_mem mk bs (adr + c.size) 0 (by omega) rfl (Nat.zero_le _) hs' b hb with ⟨d, hd, h1, h2⟩ | h
          · exact Or.inl ⟨d, List.mem_cons_of_mem _ hd, h1, h2⟩
          · exact Or.inr h
    · rw [if_neg hm] at hb
      rcases sweep_mem mk bs (adr + c.size) (fs + c.size) (by omega) (by omega) (by omega) hs' b hb with ⟨d, hd, h1, h2⟩ | h
      · exact Or.inl ⟨d, List.mem_cons_of_mem _ hd, h1, h2⟩
      · exact Or.inr h

theorem sweep_keeps (mk : Blk → Bool) : ∀ (bs : List Blk) (adr fs : Nat), ∀ c ∈ bs, mk c = true →
    { c with free := false } ∈ sweep mk adr fs bs
  | [], _, _, c, hc, _ => by simp at hc
  | b :: bs, adr, fs, c, hc, hm => by
    simp only [sweep]
    rcases List.mem_cons.1 hc with rfl | hc
    · rw [if_pos hm]; exact List.mem_append_right _ (List.mem_cons_self ..)
    · split
      · exact List.mem_append_right _ (List.mem_cons_of_mem _ (sweep_keeps mk bs _ _ c hc hm))
      · exact sweep_keeps mk bs _ _ c hc hm

theorem noAdj_cons {b : Blk} {bs : List Blk} (hb : b.free = false) (h : NoAdjacentFree bs) : NoAdjacentFree (b :: bs) := by
  match bs, h with
  | [], _ => trivial
  | c :: bs, h => exact ⟨by simp [hb], h⟩

theorem sweep_noAdj (mk : Blk → Bool) : ∀ (bs : List Blk) (adr fs : Nat), NoAdjacentFree (sweep mk adr fs bs)
  | [], adr, fs => by
    simp only [sweep]
    split <;> trivial
  | b :: bs, adr, fs => by
    simp only [sweep]
    split
    · have h := noAdj_cons (b := { b with free := false }) rfl (sweep_noAdj mk bs (adr + b.size) 0)
      split
      · exact h
      · exact ⟨by simp, h⟩
    · exact sweep_noAdj mk bs _ _

theorem sweepChunk_end (mk : Blk → Bool) (c : Chunk) (h : Tile (c.adr + 24) c.blks) : (sweepChunk mk c).end_ = c.end_ := by
  have := (sweep_tile mk c.blks (c.adr + 24) 0 h (Nat.zero_le _)).2
  simp only [Chunk.end_, sweepChunk, this]; omega

theorem sweep_chunksOK {St : Nat → Prop} {cs : List Chunk} (ok : ChunksOK St cs) (mk : Blk → Bool) :
    ChunksOK St (cs.map (sweepChunk mk)) := by
  refine ⟨?_, ?_, ?_, ?_, ?_⟩
  · intro c hc
    obtain ⟨d, hd, rfl⟩ := List.mem_map.1 hc
    exact ok.adr8 d hd
  · intro c hc
    obtain ⟨d, hd, rfl⟩ := List.mem_map.1 hc
    exact (sweep_tile mk d.blks (d.adr + 24) 0 (ok.tile d hd) (Nat.zero_le _)).1
  · intro b hb
    obtain ⟨c, hc, hbc⟩ := mem_blocks.1 hb
    obtain ⟨d, hd, rfl⟩ := List.mem_map.1 hc
    have h8 := ok.adr8 d hd
    rcases sweep_mem mk d.blks (d.adr + 24) 0 (by omega) rfl (Nat.zero_le _)
      (fun b hb => (ok.blk b (mem_blocks.2 ⟨d, hd, hb⟩)).size32) b hbc with ⟨e, he, _, rfl⟩ | ⟨a, n, rfl, h1, h2, h3⟩
    · exact unfree_ok (ok.blk e (mem_blocks.2 ⟨d, hd, he⟩))
    · exact freeBlk_ok h1 h2 h3
  · rw [List.pairwise_map]
    refine ok.sorted.imp_of_mem ?_
    intro c d hc _ h
    rw [sweepChunk_end mk c (ok.tile c hc)]; exact h
  · intro c hc
    obtain ⟨d, hd, rfl⟩ := List.mem_map.1 hc
    rw [sweepChunk_end mk d (ok.tile d hd)]
    exact ok.static d hd

theorem inBlocks_of {St : Nat → Prop} {cs : List Chunk} (ok : ChunksOK St cs) {b : Blk} (hb : b ∈ blocks cs) {a : Nat}
    (h1 : b.adr ≤ a) (h2 : a < b.adr + b.size) : InBlocks cs a := by
  obtain ⟨c, hc, hbc⟩ := mem_blocks.1 hb
  have := blk_bounds ok hc hbc
  exact ⟨c, hc, by omega, by omega⟩

theorem not_inBlocks_header {St : Nat → Prop} {cs : List Chunk} (ok : ChunksOK St cs) {c : Chunk} (hc : c ∈ cs) {a : Nat}
    (h1 : c.adr ≤ a) (h2 : a < c.adr + 24) : ¬ InBlocks cs a := by
  rintro ⟨d, hd, h3, h4⟩
  have he : c.adr + 24 ≤ c.end_ := by unfold Chunk.end_; omega
  rcases chunk_disjoint ok hc hd with rfl | h | h
  · omega
  · omega
  · omega

/-- The result of the sweep. -/
structure ScanResult (St : Nat → Prop) (s : HS) (cs : List Chunk) (s' : HS) (cs' : List Chunk) : Prop where
  vars : SameVars s s'
  chunks : cs'.map (fun c => (c.adr, c.end_)) = cs.map (fun c => (c.adr, c.end_))
  ok : ChunksOK St cs'
  inMem : ChunksIn s'.mem s'.heap cs'
  live : ∀ b, (b ∈ blocks cs' ∧ b.free = false) ↔ ∃ c ∈ blocks cs, Marked s.mem c ∧ b = { c with free := false }
  freed : ∀ b ∈ blocks cs', b.free = true → b = freeBlk b.adr b.size
  contents : ∀ c ∈ blocks cs, Marked s.mem c → ∀ a, c.adr < a → a < c.adr + c.size → s'.mem a = s.mem a
  outside : ∀ a, ¬ InBlocks cs a → s'.mem a = s.mem a
  tags : ∀ b ∈ blocks cs', s'.mem b.adr = b.tag ∧ TableOK s'.mem b
  merged : ∀ c ∈ cs', NoAdjacentFree c.blks
  small : ∀ i, 1 ≤ i → i < 9 → Chain s'.mem (s'.freeList i) (smallFree i (blocks cs'))
  big : Chain s'.mem s'.bigBlocks (bigFree (blocks cs'))
  alloc : s'.allocated = used (blocks cs')

theorem scan_ok {St : Nat → Prop} {cs : List Chunk} (ok : ChunksOK St cs) {s : HS} (hin : ChunksIn s.mem s.heap cs)
    (tr : Traceable (blocks cs) s.mem) :
    ∃ s', Ev (fun f => scan f s) s' ∧ ScanResult St s cs s' (cs.map (sweepChunk (fun b => odd (s.mem b.adr)))) := by
  have sep := sep_of_chunks ok
  obtain ⟨s0, hs0⟩ : ∃ s0 : HS, s0 = { s with
    bigBlocks := 0
    freeList := fun i => if 1 ≤ i ∧ i < 9 then 0 else s.freeList i
    allocated := 0 } := ⟨_, rfl⟩
  have hm0 : s0.mem = s.mem := by rw [hs0]
  have hh0 : s0.heap = s.heap := by rw [hs0]
  obtain ⟨mk, hmk⟩ : ∃ mk : Blk → Bool, mk = fun b => odd (s.mem b.adr) := ⟨_, rfl⟩
  obtain ⟨s', hev, hsw⟩ := scanChunks_ok (St := St) cs s0 s.heap ok.tile ok.sorted ok.static (by
      intro c hc b hb
      have hb' := mem_blocks.2 ⟨c, hc, hb⟩
      rw [hm0]
      exact ⟨ok.blk b hb', (tr.tables b hb').1, tr.tags b hb'⟩)
    (by rw [hm0]; exact hin.linked) (by rw [hm0]; exact hin.ends)
  rw [hm0, ← hmk] at hsw
  rw [← hmk]
  have hok' := sweep_chunksOK ok mk
  have hframe : ∀ a, ¬ InBlocks cs a → s'.mem a = s.mem a := fun a ha => by rw [hsw.frame a ha, hm0]
  have hmark : ∀ c ∈ blocks cs, mk c = true → s.mem c.adr = c.tag + 1 := by
    intro c hc h
    rcases traceable_tag sep tr hc with ⟨_, h'⟩ | ⟨h', _⟩
    · exact h'
    · exact absurd (by rw [hmk] at h; exact h) h'
  have hlive : ∀ b, (b ∈ blocks (cs.map (sweepChunk mk)) ∧ b.free = false) ↔
      ∃ c ∈ blocks cs, Marked s.mem c ∧ b = { c with free := false } := by
    intro b
    constructor
    · rintro ⟨hb, hf⟩
      obtain ⟨c, hc, hbc⟩ := mem_blocks.1 hb
      obtain ⟨d, hd, rfl⟩ := List.mem_map.1 hc
      have h8 := ok.adr8 d hd
      rcases sweep_mem mk d.blks (d.adr + 24) 0 (by omega) rfl (Nat.zero_le _)
        (fun b hb => (ok.blk b (mem_blocks.2 ⟨d, hd, hb⟩)).size32) b hbc with ⟨e, he, h1, rfl⟩ | ⟨a, n, rfl, h1, h2, h3⟩
      · exact ⟨e, mem_blocks.2 ⟨d, hd, he⟩, by rw [hmk] at h1; exact h1, rfl⟩
      · simp [freeBlk] at hf
    · rintro ⟨c, hc, hm, rfl⟩
      obtain ⟨d, hd, hcd⟩ := mem_blocks.1 hc
      refine ⟨mem_blocks.2 ⟨sweepChunk mk d, List.mem_map.2 ⟨d, hd, rfl⟩, ?_⟩, rfl⟩
      exact sweep_keeps mk d.blks _ _ c hcd (by rw [hmk]; exact hm)
  have hcont : ∀ c ∈ blocks cs, Marked s.mem c → s'.mem c.adr = c.tag ∧
      ∀ a, c.adr < a → a < c.adr + c.size → s'.mem a = s.mem a := by
    intro c hc hm
    have h1 := (hlive { c with free := false }).2 ⟨c, hc, hm, rfl⟩
    obtain ⟨h2, h3⟩ := hsw.kept _ h1.1 rfl
    refine ⟨?_, fun a ha ha' => by rw [h3 a ha ha', hm0]⟩
    simp only [hm0] at h2
    rw [h2, hmark c hc (by rw [hmk]; exact hm)]; omega
  refine ⟨s', ?_, ?_⟩
  · obtain ⟨F, hF⟩ := hev
    refine ⟨F, fun f hf => ?_⟩
    have := hF f hf
    rw [hs0] at this
    simpa [scan] using this
  · refine ⟨?_, ?_, hok', ?_, hlive, ?_, fun c hc hm => (hcont c hc hm).2, hframe, ?_, ?_, ?_, ?_, ?_⟩
    · have h := hsw.vars
      rw [hs0] at h
      refine ⟨h.heap, h.heapMin, h.heapMax, h.heapsize, h.heapMinExpand, h.firstTry, h.regions, ?_⟩
      intro i hi
      rw [h.free0 i hi]
      simp only
      rw [if_neg (by omega)]
    · rw [List.map_map]
      apply List.map_congr_left
      intro c hc
      simp only [Function.comp]
      rw [sweepChunk_end mk c (ok.tile c hc)]; rfl
    · have hheap : s'.heap = s.heap := by rw [hsw.vars.heap, hh0]
      rw [hheap]
      refine ⟨?_, ?_⟩
      · have hgen : ∀ (ds : List Chunk) (a : Nat), (∀ c ∈ ds, c ∈ cs) → Linked s.mem a ds →
            Linked s'.mem a (ds.map (sweepChunk mk)) := by
          intro ds
          induction ds with
          | nil => intro a _ h; exact h
          | cons d ds ih =>
            intro a hsub ⟨h1, h2, n, h3, h4⟩
            refine ⟨h1, h2, n, ?_, ih n (fun c hc => hsub c (List.mem_cons_of_mem _ hc)) h4⟩
            rw [hframe]; · exact h3
            rw [h1]
            exact not_inBlocks_header ok (hsub d (List.mem_cons_self ..)) (Nat.le_refl _) (by omega)
        exact hgen cs s.heap (fun _ h => h) hin.linked
      · intro c hc
        obtain ⟨d, hd, rfl⟩ := List.mem_map.1 hc
        rw [sweepChunk_end mk d (ok.tile d hd)]
        show s'.mem (d.adr + 8) = d.end_
        rw [hframe _ (not_inBlocks_header ok hd (by omega) (by omega))]
        exact hin.ends d hd
    · intro b hb hf; exact (hsw.freed b hb hf).1
    · intro b hb
      cases hf : b.free with
      | true =>
        obtain ⟨h1, h2, h3, h4, h5⟩ := hsw.freed b hb hf
        rw [h1]
        simp only [freeBlk]
        refine ⟨h3, h4, ?_, ?_⟩
        · intro i o h; simp at h
        · simpa using h5
      | false =>
        obtain ⟨c, hc, hm, rfl⟩ := (hlive b).1 ⟨hb, hf⟩
        obtain ⟨h1, h2⟩ := hcont c hc hm
        refine ⟨h1, ?_⟩
        have := tableOK_congr (m := s.mem) (m' := s'.mem) (b := c) (by
          intro a ha
          rcases table_bounds (ok.blk c hc) ha with h' | h'
          · apply hframe
            rintro ⟨d, hd, hd1, hd2⟩
            have := ok.static d hd a h'
            omega
          · exact h2 a (by omega) (by omega)) (tr.tables c hc)
        exact this
    · intro c hc
      obtain ⟨d, hd, rfl⟩ := List.mem_map.1 hc
      exact sweep_noAdj mk _ _ _
    · intro i hi hi'
      have h := hsw.small i hi hi' [] (by simp) (by
        rw [hs0]; simp only [Chain]; rw [if_pos ⟨hi, hi'⟩])
      simpa using h
    · have h := hsw.big [] (by simp) (by rw [hs0]; rfl)
      simpa using h
    · have h := hsw.alloc
      rw [h, hs0]; simp

/-- C22: the sweep terminates; it leaves the chunks where they are (`chunks`) and the blocks tile them again; the live
blocks are exactly the marked ones (`live`), with their contents as before (`contents`) and without the mark; all
other storage is free, no two free blocks are adjacent (`NoAdjacentFree`), and each free block is in the list for its
size, once; the count of allocated bytes is the size of the marked blocks; no word outside the blocks has changed. -/
theorem C22_scan (St : Nat → Prop) (cs : List Chunk) (ok : ChunksOK St cs) (s : HS) (hin : ChunksIn s.mem s.heap cs)
    (tr : Traceable (blocks cs) s.mem) :
    ∃ s' cs', (∃ F, ∀ f, F ≤ f → scan f s = some s') ∧
      cs'.map (fun c => (c.adr, c.end_)) = cs.map (fun c => (c.adr, c.end_)) ∧
      ChunksOK St cs' ∧ ChunksIn s'.mem s'.heap cs' ∧
      (∀ b, (b ∈ blocks cs' ∧ b.free = false) ↔ ∃ c ∈ blocks cs, Marked s.mem c ∧ b = { c with free := false }) ∧
      (∀ c ∈ blocks cs, Marked s.mem c → ∀ a, c.adr < a → a < c.adr + c.size → s'.mem a = s.mem a) ∧
      (∀ b ∈ blocks cs', ¬ Marked s'.mem b ∧ s'.mem b.adr = b.tag ∧ TableOK s'.mem b) ∧
      (∀ c ∈ cs', NoAdjacentFree c.blks) ∧
      (∀ i, 1 ≤ i → i < 9 → Chain s'.mem (s'.freeList i)
        (((blocks cs').filter fun b => b.free && b.size / 32 == i).map (·.adr)).reverse) ∧
      Chain s'.mem s'.bigBlocks (((blocks cs').filter fun b => b.free && decide (9 ≤ b.size / 32)).map (·.adr)).reverse ∧
      s'.allocated = sizes ((blocks cs).filter fun b => decide (Marked s.mem b)) ∧
      (∀ a, (∀ c ∈ cs, a < c.adr + 24 ∨ c.end_ ≤ a) → s'.mem a = s.mem a) := by
  obtain ⟨s', hev, r⟩ := scan_ok ok hin tr
  refine ⟨s', _, hev, r.chunks, r.ok, r.inMem, r.live, r.contents, ?_, r.merged, r.small, r.big, ?_, ?_⟩
  · intro b hb
    obtain ⟨h1, h2⟩ := r.tags b hb
    refine ⟨?_, h1, h2⟩
    have := (r.ok.blk b hb).tag8
    unfold Marked; rw [h1]; simp [odd]; omega
  · rw [r.alloc]
    unfold used
    have hone : ∀ (bs : List Blk) (adr fs : Nat),
        sizes ((sweep (fun b => odd (s.mem b.adr)) adr fs bs).filter fun b => !b.free) =
          sizes (bs.filter fun b => decide (Marked s.mem b)) := by
      intro bs
      induction bs with
      | nil => intro adr fs; simp only [sweep]; split <;> simp [freeBlk, sizes]
      | cons b bs ih =>
        intro adr fs
        simp only [sweep]
        by_cases hb : odd (s.mem b.adr) = true
        · have h1 : ∀ l : List Blk, ({ b with free := false } :: l).filter (fun b => !b.free) =
              { b with free := false } :: l.filter (fun b => !b.free) := fun l => by simp
          rw [if_pos hb, List.filter_append, sizes_append, h1, sizes_cons, ih,
            List.filter_cons, if_pos (decide_eq_true (show Marked s.mem b from hb)), sizes_cons]
          split <;> simp [freeBlk, sizes]
        · rw [if_neg hb, ih, List.filter_cons_of_neg (by simp [Marked, hb])]
    clear r hev tr hin ok
    induction cs with
    | nil => rfl
    | cons c cs ih =>
      rw [List.map_cons, blocks_cons, blocks_cons, List.filter_append, List.filter_append, sizes_append, sizes_append, ih]
      congr 1
      exact hone _ _ _
  · intro a ha
    apply r.outside
    rintro ⟨c, hc, h1, h2⟩
    have := ha c hc
    omega

/-! Two chunks: in the first a free block, a marked record, an unmarked array and an unmarked record; in the second a
marked record and a free block of ten units. -/

private def ex1 : Chunk :=
  ⟨1000, [⟨1024, 32, 1032, [], true⟩, ⟨1056, 32, 400, [0], false⟩, ⟨1088, 64, 1128, [], false⟩, ⟨1152, 32, 400, [0], false⟩]⟩
private def ex2 : Chunk := ⟨2000, [⟨2024, 32, 400, [0], false⟩, ⟨2056, 320, 2064, [], true⟩]⟩

private def exM : Mem := fun a =>
  if a = 400 then 32 else if a = 408 then 0 else if a = 416 then -16
  else if a = 1000 then 2000 else if a = 1008 then 1184
  else if a = 1024 then 1032 else if a = 1032 then 32 else if a = 1040 then -8
  else if a = 1056 then 401 else if a = 1064 then 2032
  else if a = 1088 then 1128 else if a = 1128 then 64 else if a = 1136 then -8
  else if a = 1152 then 400 else if a = 1160 then 1064
  else if a = 2000 then 0 else if a = 2008 then 2376
  else if a = 2024 then 401 else if a = 2032 then 0
  else if a = 2056 then 2064 else if a = 2064 then 320 else if a = 2072 then -8
  else 0

private def exS : HS :=
  { mem := exM, freeList := fun i => if i = 1 then 1024 else if i = 9 then 1 else 0, bigBlocks := 2056, allocated := 160,
    firstTry := true, heap := 1000, heapMin := 1032, heapMax := 2376, heapsize := 512, heapMinExpand := 32, regions := [] }

private abbrev exSt : Nat → Prop := fun a => a = 400 ∨ a = 408 ∨ a = 416

private theorem exOK : ChunksOK exSt [ex1, ex2] := by
  refine ⟨by decide, ?_, ?_, by decide, ?_⟩
  · intro c hc
    simp only [List.mem_cons, List.not_mem_nil, or_false] at hc
    rcases hc with rfl | rfl <;> simp [Tile, ex1, ex2]
  · intro b hb
    have hb' : b ∈ ex1.blks ++ ex2.blks := by simpa [blocks] using hb
    simp only [ex1, ex2, List.cons_append, List.nil_append, List.mem_cons, List.not_mem_nil, or_false] at hb'
    rcases hb' with rfl | rfl | rfl | rfl | rfl | rfl <;> constructor <;> decide
  · intro c hc a ha
    simp only [List.mem_cons, List.not_mem_nil, or_false] at hc
    left
    rcases hc with rfl | rfl <;> rcases ha with rfl | rfl | rfl <;> simp [ex1, ex2]

private theorem exTr : Traceable (blocks [ex1, ex2]) exM := by
  refine ⟨?_, by decide, by unfold FieldsOK; decide⟩
  intro b hb
  have hb' : b ∈ ex1.blks ++ ex2.blks := by simpa [blocks] using hb
  simp only [ex1, ex2, List.cons_append, List.nil_append, List.mem_cons, List.not_mem_nil, or_false] at hb'
  have one : ∀ (i o : Nat), ([0] : List Nat)[i]? = some o → i = 0 ∧ o = 0 := by
    intro i o h
    match i, h with
    | 0, h => simp at h; omega
    | n + 1, h => simp at h
  rcases hb' with rfl | rfl | rfl | rfl | rfl | rfl
  · exact ⟨by decide, fun i o h => by simp at h, by decide⟩
  · exact ⟨by decide, fun i o h => by obtain ⟨rfl, rfl⟩ := one i o h; decide, by decide⟩
  · exact ⟨by decide, fun i o h => by simp at h, by decide⟩
  · exact ⟨by decide, fun i o h => by obtain ⟨rfl, rfl⟩ := one i o h; decide, by decide⟩
  · exact ⟨by decide, fun i o h => by obtain ⟨rfl, rfl⟩ := one i o h; decide, by decide⟩
  · exact ⟨by decide, fun i o h => by simp at h, by decide⟩

/-- The hypotheses of `C22_scan` hold here. -/
example : ChunksOK exSt [ex1, ex2] ∧ ChunksIn exS.mem exS.heap [ex1, ex2] ∧ Traceable (blocks [ex1, ex2]) exS.mem :=
  ⟨exOK, ⟨⟨rfl, by decide, 2000, by decide, rfl, by decide, 0, by decide, rfl⟩, by decide⟩, exTr⟩

/-- The array and the record behind it become one free block of three units; the tags are unmarked. -/
example : (scan 20 exS).map (fun s => (s.freeList 1, s.freeList 3, s.bigBlocks, s.allocated)) = some (1024, 1088, 2056, 64) ∧
    (scan 20 exS).map (fun s => (s.mem 1056, s.mem 1064, s.mem 1088, s.mem 1096, s.mem 2024)) =
      some (400, 2032, 1096, 96, 400) := by decide

end Verif.Heap
