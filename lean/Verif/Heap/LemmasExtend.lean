import Verif.Heap.LemmasGC

/-!
# Extending the heap
-/
namespace Verif.Heap

/-- What is assumed of the operating system: a region it hands out is aligned, and disjoint from the regions handed out
before and from the words in `P`. -/
def OSOK (os : OS) (P : Nat → Prop) : Prop := ∀ regs n, os regs n = 0 ∨
  (os regs n % 8 = 0 ∧ (∀ r ∈ regs, os regs n + n ≤ r.1 ∨ r.1 + r.2 ≤ os regs n) ∧
    ∀ a, P a → a + 8 ≤ os regs n ∨ os regs n + n ≤ a)

theorem sizes_mod {St : Nat → Prop} {cks : List Chunk} (ok : ChunksOK St cks) : sizes (blocks cks) % 32 = 0 := by
  have : ∀ bs : List Blk, (∀ b ∈ bs, b.size % 32 = 0) → sizes bs % 32 = 0 := by
    intro bs
    induction bs with
    | nil => intro _; rfl
    | cons b bs ih =>
      intro h
      rw [sizes_cons]
      have := h b (List.mem_cons_self ..)
      have := ih (fun c hc => h c (List.mem_cons_of_mem _ hc))
      omega
  exact this _ (fun b hb => (ok.blk b hb).size32)

theorem findChunk_ok {m : Mem} {chnk : Nat} : ∀ (cs : List Chunk) (d : Chunk) (a : Nat), Linked m a (d :: cs) →
    ∃ A e B n, d :: cs = A ++ e :: B ∧ Ev (fun f => findChunk f m d.adr chnk) (e.adr, n) ∧ m e.adr = (n : Nat) ∧
      Linked m n B ∧ (∀ b B', B = b :: B' → chnk ≤ b.adr) ∧ (e.adr = d.adr ∨ e.adr < chnk)
  | [], d, a, ⟨h1, h2, n, h3, h4⟩ => by
    have hn : n = 0 := h4
    rw [h1] at h3
    refine ⟨[], d, [], n, rfl, ⟨1, fun f hf => ?_⟩, h3, h4, by simp, Or.inl rfl⟩
    obtain ⟨g, rfl⟩ : ∃ g, f = g + 1 := ⟨f - 1, by omega⟩
    simp [findChunk, h3, hn]
  | c :: cs, d, a, ⟨h1, h2, n, h3, h4⟩ => by
    have hc := h4
    obtain ⟨hn, hn0, n', h5, h6⟩ := hc
    rw [h1] at h3
    by_cases hlt : n < chnk
    · obtain ⟨A, e, B, k, e1, ⟨F, hF⟩, e3, e4, e5, e6⟩ := findChunk_ok (chnk := chnk) cs c n h4
      refine ⟨d :: A, e, B, k, by rw [e1]; rfl, ⟨F + 1, fun f hf => ?_⟩, e3, e4, e5, ?_⟩
      · obtain ⟨g, rfl⟩ : ∃ g, f = g + 1 := ⟨f - 1, by omega⟩
        simp only [findChunk, h3, Int.toNat_natCast]
        rw [if_pos ⟨hn0, hlt⟩, hn]
        exact hF g (by omega)
      · right
        rcases e6 with h | h <;> omega
    · refine ⟨[], d, c :: cs, n, rfl, ⟨1, fun f hf => ?_⟩, h3, h4, ?_, Or.inl rfl⟩
      · obtain ⟨g, rfl⟩ : ∃ g, f = g + 1 := ⟨f - 1, by omega⟩
        simp only [findChunk, h3, Int.toNat_natCast]
        rw [if_neg (by omega)]
      · intro b B' e
        simp only [List.cons.injEq] at e
        rw [← e.1]; omega

/-- A chunk is linked in behind the chunk `e`. -/
theorem linked_insert {m m' : Mem} {x : Chunk} {e : Chunk} {B : List Chunk} {n : Nat} (hx0 : x.adr ≠ 0) : ∀ {A : List Chunk} {a : Nat},
    Linked m a (A ++ e :: B) → Linked m n B → m' e.adr = (x.adr : Nat) → m' x.adr = (n : Nat) →
    (∀ c ∈ A ++ B, m' c.adr = m c.adr) → Linked m' a (A ++ e :: x :: B)
  | [], a, ⟨h1, h2, _, _, _⟩, hB, he, hx, hfr => by
    refine ⟨h1, h2, x.adr, by rw [h1]; exact he, rfl, hx0, n, hx, ?_⟩
    exact linked_congr (fun c hc => hfr c hc) hB
  | c :: A, a, ⟨h1, h2, k, h3, h4⟩, hB, he, hx, hfr => by
    refine ⟨h1, h2, k, ?_, linked_insert hx0 h4 hB he hx (fun d hd => hfr d (List.mem_cons_of_mem _ hd))⟩
    rw [h1, hfr c (List.mem_cons_self ..), ← h1]; exact h3

theorem used_perm {as bs : List Blk} (h : as.Perm bs) : used as = used bs := by
  unfold used sizes
  exact ((h.filter _).map _).sum_eq
theorem sizes_perm {as bs : List Blk} (h : as.Perm bs) : sizes as = sizes bs := by
  unfold sizes
  exact (h.map _).sum_eq

/-- The state with a new chunk. -/
theorem chunk_inv {St Sl : Nat → Prop} {s s' : HS} {A B : List Chunk} (inv : Inv St Sl noEx s (A ++ B)) {chnk n : Nat}
    (h0 : chnk ≠ 0) (h8 : chnk % 8 = 0) (hn : n % 32 = 0) (hn0 : 0 < n)
    (hdisj : ∀ r ∈ s.regions, chnk + (n + 24) ≤ r.1 ∨ r.1 + r.2 ≤ chnk)
    (hprot : ∀ a, St a ∨ Sl a → a + 8 ≤ chnk ∨ chnk + (n + 24) ≤ a)
    (hA : ∀ c ∈ A, c.end_ ≤ chnk) (hB : ∀ c ∈ B, chnk + (n + 24) ≤ c.adr)
    (hm : ∀ a, (a < chnk ∨ chnk + (n + 24) ≤ a) → (∀ c ∈ A ++ B, a ≠ c.adr) → s'.mem a = s.mem a)
    (hlink : Linked s'.mem s'.heap (A ++ ⟨chnk, [freeBlk (chnk + 24) n]⟩ :: B))
    (w8 : s'.mem (chnk + 8) = (chnk + 24 + n : Nat)) (w24 : s'.mem (chnk + 24) = (chnk + 32 : Nat))
    (w32 : s'.mem (chnk + 32) = n) (w40 : s'.mem (chnk + 40) = -8) (w48 : s'.mem (chnk + 48) = (s.bigBlocks : Nat))
    (vfl : s'.freeList = s.freeList) (vbig : s'.bigBlocks = chnk + 24) (valloc : s'.allocated = s.allocated)
    (vsize : s'.heapsize = s.heapsize + n) (vreg : s'.regions = (chnk, n + 24) :: s.regions)
    (vmin : s'.heapMin ≤ s.heapMin ∧ s'.heapMin ≤ chnk + 32) (vmax : s.heapMax ≤ s'.heapMax ∧ chnk + 24 + n ≤ s'.heapMax)
    (vexp : s'.heapMinExpand % 32 = 0 ∧ 0 < s'.heapMinExpand) :
    Inv St Sl noEx s' (A ++ ⟨chnk, [freeBlk (chnk + 24) n]⟩ :: B) := by
  have ok := inv.ok
  obtain ⟨x, hx⟩ : ∃ x : Chunk, x = ⟨chnk, [freeBlk (chnk + 24) n]⟩ := ⟨_, rfl⟩
  rw [← hx] at hlink ⊢
  have hxadr : x.adr = chnk := by rw [hx]
  have hxend : x.end_ = chnk + 24 + n := by rw [hx]; simp [Chunk.end_, sizes, freeBlk]
  have hxb : x.blks = [freeBlk (chnk + 24) n] := by rw [hx]
  have hcm : ∀ c, c ∈ A ++ x :: B ↔ c = x ∨ c ∈ A ++ B := by
    intro c; simp only [List.mem_append, List.mem_cons]; tauto
  have hbm : ∀ b, b ∈ blocks (A ++ x :: B) ↔ b = freeBlk (chnk + 24) n ∨ b ∈ blocks (A ++ B) := by
    intro b
    rw [mem_blocks, mem_blocks]
    constructor
    · rintro ⟨c, hc, hb⟩
      rcases (hcm c).1 hc with rfl | hc
      · left; rw [hxb] at hb; simpa using hb
      · exact Or.inr ⟨c, hc, hb⟩
    · rintro (rfl | ⟨c, hc, hb⟩)
      · exact ⟨x, (hcm x).2 (Or.inl rfl), by rw [hxb]; simp⟩
      · exact ⟨c, (hcm c).2 (Or.inr hc), hb⟩
  have hperm : (blocks (A ++ x :: B)).Perm (freeBlk (chnk + 24) n :: blocks (A ++ B)) := by
    rw [blocks_append, blocks_cons, blocks_append, hxb]
    exact List.perm_middle
  have hcd : ∀ c ∈ A ++ B, c.end_ ≤ chnk ∨ chnk + (n + 24) ≤ c.adr := by
    intro c hc
    rcases List.mem_append.1 hc with hc | hc
    · exact Or.inl (hA c hc)
    · exact Or.inr (hB c hc)
  have hbd : ∀ b ∈ blocks (A ++ B), b.adr + b.size ≤ chnk ∨ chnk + (n + 24) ≤ b.adr := by
    intro b hb
    obtain ⟨c, hc, hbc⟩ := mem_blocks.1 hb
    have := blk_bounds ok hc hbc
    have := hcd c hc
    omega
  have ok' : ChunksOK St (A ++ x :: B) := by
    have hsort := ok.sorted
    rw [List.pairwise_append] at hsort
    refine ⟨?_, ?_, ?_, ?_, ?_⟩
    · intro c hc
      rcases (hcm c).1 hc with rfl | hc
      · rw [hxadr]; exact h8
      · exact ok.adr8 c hc
    · intro c hc
      rcases (hcm c).1 hc with rfl | hc
      · rw [hxadr, hxb]; exact ⟨rfl, trivial⟩
      · exact ok.tile c hc
    · intro b hb
      rcases (hbm b).1 hb with rfl | hb
      · exact freeBlk_ok (by omega) hn hn0
      · exact ok.blk b hb
    · rw [List.pairwise_append, List.pairwise_cons]
      refine ⟨hsort.1, ⟨?_, hsort.2.1⟩, ?_⟩
      · intro c hc; rw [hxend]; have := hB c hc; omega
      · intro c hc d hd
        rcases List.mem_cons.1 hd with rfl | hd
        · rw [hxadr]; exact hA c hc
        · exact hsort.2.2 c hc d hd
    · intro c hc a ha
      rcases (hcm c).1 hc with rfl | hc
      · rw [hxadr, hxend]; have := hprot a (Or.inl ha); omega
      · exact ok.static c hc a ha
  have hblkmem : ∀ b ∈ blocks (A ++ B), ∀ a, b.adr ≤ a → a < b.adr + b.size → s'.mem a = s.mem a := by
    intro b hb a h1 h2
    have := hbd b hb
    refine hm a (by omega) ?_
    intro c hc e
    obtain ⟨d, hd, hbd'⟩ := mem_blocks.1 hb
    have hb1 := blk_bounds ok hd hbd'
    have he : c.adr + 24 ≤ c.end_ := by unfold Chunk.end_; omega
    rcases chunk_disjoint ok hc hd with rfl | h | h <;> omega
  have hStm : ∀ a, St a → s'.mem a = s.mem a := by
    intro a ha
    have := hprot a (Or.inl ha)
    refine hm a (by omega) ?_
    intro c hc e
    have := ok.static c hc a ha
    have he : c.adr + 24 ≤ c.end_ := by unfold Chunk.end_; omega
    omega
  refine ⟨ok', ⟨hlink, ?_⟩, ?_, ?_, ?_, ?_, ?_, ?_, ?_, ?_, ?_, ?_, ?_, ?_, by simp, vexp⟩
  · intro c hc
    rcases (hcm c).1 hc with rfl | hc
    · rw [hxadr, hxend]; exact w8
    · rw [hm, inv.inMem.ends c hc]
      · have := hcd c hc
        have he : c.adr + 24 ≤ c.end_ := by unfold Chunk.end_; omega
        omega
      · intro d hd e
        have he : c.adr + 24 ≤ c.end_ := by unfold Chunk.end_; omega
        have he' : d.adr + 24 ≤ d.end_ := by unfold Chunk.end_; omega
        rcases chunk_disjoint ok hc hd with rfl | h | h <;> omega
  · intro b hb _
    rcases (hbm b).1 hb with rfl | hb
    · refine ⟨w32, ?_, ?_⟩
      · intro i o h; simp [freeBlk] at h
      · simpa [freeBlk] using w40
    · refine tableOK_congr ?_ (inv.tables b hb (fun h => h))
      intro a ha
      rcases table_bounds (ok.blk b hb) ha with h | h
      · exact hStm a h
      · exact hblkmem b hb a (by omega) (by omega)
  · intro b hb _
    rcases (hbm b).1 hb with rfl | hb
    · exact w24
    · have hp := (ok.blk b hb).sizePos
      rw [hblkmem b hb _ (by omega) (by omega)]; exact inv.tags b hb (fun h => h)
  · intro b hb _ a ha
    rcases (hbm b).1 hb with rfl | hb
    · simp [Blk.flds, freeBlk] at ha
    · have hfb := fld_bounds (ok.blk b hb) ha
      rw [hblkmem b hb a (by omega) (by omega)]
      rcases inv.fields b hb (fun h => h) a ha with h | ⟨c, hc, hf, h⟩
      · exact Or.inl h
      · exact Or.inr ⟨c, (hbm c).2 (Or.inr hc), hf, h⟩
  · intro b hb hf
    rcases (hbm b).1 hb with rfl | hb
    · rfl
    · exact inv.shape b hb hf
  · obtain ⟨F, G, L⟩ := inv.lists
    have hne : ∀ b ∈ blocks (A ++ B), b.adr ≠ chnk + 24 := by
      intro b hb e
      have hp := (ok.blk b hb).sizePos
      have := hbd b hb
      omega
    have L' := lists_mem (m' := s'.mem) L (by
      intro c hc hf
      have hp := (ok.blk c hc).sizePos
      have h32 := (ok.blk c hc).size32
      exact hblkmem c hc _ (by omega) (by omega))
    refine ⟨F, (chnk + 24) :: G, ?_, ?_, ?_, ?_, L.nodupF, ?_, ?_, ?_⟩
    · rw [vfl]; exact L'.small
    · rw [vbig]; exact ⟨rfl, by omega, s.bigBlocks, w48, L'.big⟩
    · intro i h1 h9 y hy; exact (hbm _).2 (Or.inr (L.smallIn i h1 h9 y hy))
    · intro y hy
      rcases List.mem_cons.1 hy with rfl | hy
      · exact ⟨n, (hbm _).2 (Or.inl rfl)⟩
      · obtain ⟨k, hk⟩ := L.bigIn y hy
        exact ⟨k, (hbm _).2 (Or.inr hk)⟩
    · refine List.nodup_cons.2 ⟨?_, L.nodupG⟩
      intro h
      obtain ⟨k, hk⟩ := L.bigIn _ h
      exact hne _ hk rfl
    · intro i h1 h9 y hy h
      rcases List.mem_cons.1 h with rfl | h
      · exact hne _ (L.smallIn i h1 h9 _ hy) rfl
      · exact L.disj i h1 h9 y hy h
    · intro b hb hf h288
      rcases (hbm b).1 hb with rfl | hb
      · exact Or.inr (List.mem_cons_self ..)
      · rcases L.all b hb hf h288 with h | h
        · exact Or.inl h
        · exact Or.inr (List.mem_cons_of_mem _ h)
  · rw [vfl]; exact inv.fl9
  · rw [valloc, inv.alloc, used_perm hperm]
    simp [used, freeBlk]
  · rw [vsize, inv.hsize, sizes_perm hperm, sizes_cons, freeBlk_size]; omega
  · intro c hc
    rw [vreg]
    rcases (hcm c).1 hc with rfl | hc
    · rw [hxadr, hxend]
      have : chnk + 24 + n - chnk = n + 24 := by omega
      rw [this]; exact List.mem_cons_self ..
    · exact List.mem_cons_of_mem _ (inv.regs c hc)
  · intro r hr a ha
    rw [vreg] at hr
    rcases List.mem_cons.1 hr with rfl | hr
    · exact hprot a ha
    · exact inv.regsOut r hr a ha
  · intro c hc
    rcases (hcm c).1 hc with rfl | hc
    · rw [hxadr]; exact vmin.2
    · have := inv.hmin c hc; omega
  · intro c hc
    rcases (hcm c).1 hc with rfl | hc
    · rw [hxend]; exact vmax.2
    · have := inv.hmax c hc; omega

theorem newChunk_ok (os : OS) (s : HS) (n : Nat) (h : os s.regions (n + 24) ≠ 0) :
    ∃ s1 chnk, newChunk os s n = (s1, chnk) ∧ chnk = os s.regions (n + 24) ∧
      (∀ a, (a < chnk ∨ chnk + (n + 24) ≤ a) → n % 32 = 0 → 0 < n → s1.mem a = s.mem a) ∧
      s1.mem (chnk + 8) = (chnk + 24 + n : Nat) ∧ s1.mem (chnk + 24) = (chnk + 32 : Nat) ∧ s1.mem (chnk + 32) = n ∧
      s1.mem (chnk + 40) = -8 ∧ s1.mem (chnk + 48) = (s.bigBlocks : Nat) ∧
      s1.freeList = s.freeList ∧ s1.bigBlocks = chnk + 24 ∧ s1.allocated = s.allocated ∧ s1.heapsize = s.heapsize + n ∧
      s1.regions = (chnk, n + 24) :: s.regions ∧ (s1.heapMin ≤ s.heapMin ∧ s1.heapMin ≤ chnk + 32) ∧
      (s.heapMax ≤ s1.heapMax ∧ chnk + 24 + n ≤ s1.heapMax) ∧ s1.heapMinExpand = s.heapMinExpand ∧ s1.heap = s.heap ∧
      s1.firstTry = s.firstTry := by
  obtain ⟨chnk, hc⟩ : ∃ chnk, chnk = os s.regions (n + 24) := ⟨_, rfl⟩
  rw [← hc] at h
  obtain ⟨s1, hs1⟩ : ∃ s1, s1 = (newChunk os s n).1 := ⟨_, rfl⟩
  have hm : s1.mem = put (put (put (put (put s.mem (chnk + 8) ((chnk + 24 + n : Nat) : Int)) (chnk + 24)
      (((chnk + 24 : Nat) : Int) + 8)) (chnk + 24 + 8) (n : Int)) (chnk + 24 + 16) (-8)) (chnk + 24 + 24) ((s.bigBlocks : Nat) : Int) := by
    rw [hs1]; simp only [newChunk, ← hc, if_pos h, HS.put]
    split <;> split <;> rfl
  refine ⟨s1, chnk, ?_, hc, ?_, ?_, ?_, ?_, ?_, ?_, ?_, ?_, ?_, ?_, ?_, ?_, ?_, ?_, ?_, ?_⟩
  · rw [hs1]; simp only [newChunk, ← hc, if_pos h]
  · intro a ha hn hn0
    rw [hm]; simp only [put]
    rw [if_neg (by omega), if_neg (by omega), if_neg (by omega), if_neg (by omega), if_neg (by omega)]
  · rw [hm]; simp only [put]
    rw [if_neg (by omega), if_neg (by omega), if_neg (by omega), if_neg (by omega), if_pos (by first | trivial | omega)]
  · rw [hm]; simp only [put]
    rw [if_neg (by omega), if_neg (by omega), if_neg (by omega), if_pos (by first | trivial | omega)]
    omega
  · rw [hm]; simp only [put]
    rw [if_neg (by omega), if_neg (by omega), if_pos (by first | trivial | omega)]
  · rw [hm]; simp only [put]
    rw [if_neg (by omega), if_pos (by first | trivial | omega)]
  · rw [hm]; simp only [put]
    rw [if_pos (by first | trivial | omega)]
  all_goals
    rw [hs1]
    simp only [newChunk, ← hc, if_pos h, HS.put]
    try (split <;> split <;> first | rfl | (simp only at *; omega))

theorem prot_outside {St Sl : Nat → Prop} {ex : Nat → Prop} {s : HS} {cks : List Chunk} (inv : Inv St Sl ex s cks) {a : Nat}
    (ha : St a ∨ Sl a) : Outside cks a := by
  intro c hc
  have := inv.regsOut _ (inv.regs c hc) a ha
  have he : c.adr + 24 ≤ c.end_ := by unfold Chunk.end_; omega
  simp only at this
  omega

theorem extend_ok {St Sl : Nat → Prop} {s : HS} {cks : List Chunk} (inv : Inv St Sl noEx s cks) {os : OS}
    (hos : OSOK os (fun a => St a ∨ Sl a)) {n : Nat} (hn : n % 32 = 0) (hn0 : 0 < n) :
    ∃ s' cks', Ev (fun f => extendHeap os f s n) s' ∧ Inv St Sl noEx s' cks' ∧ s'.firstTry = s.firstTry ∧
      (∀ c ∈ cks, c ∈ cks') ∧ s'.freeList = s.freeList ∧ s'.allocated = s.allocated ∧
      (∀ c, (c ∈ blocks cks' ∧ c.free = false) ↔ (c ∈ blocks cks ∧ c.free = false)) ∧
      (∀ c ∈ blocks cks, ∀ a, c.adr ≤ a → a < c.adr + c.size → s'.mem a = s.mem a) ∧
      (∀ a, St a ∨ Sl a → s'.mem a = s.mem a) ∧
      ((s'.regions = s.regions ∧ ∃ k, n ≤ k ∧ os s'.regions (k + 24) = 0) ∨
        ∃ x k G, Chain s'.mem s'.bigBlocks (x :: G) ∧ freeBlk x k ∈ blocks cks' ∧ n ≤ k) := by
  obtain ⟨size, hsize⟩ : ∃ size, size = if s.heapMinExpand < n then n else s.heapMinExpand := ⟨_, rfl⟩
  have hexp := inv.expand
  have hs32 : size % 32 = 0 := by rw [hsize]; split <;> omega
  have hs0 : 0 < size := by rw [hsize]; split <;> omega
  have hsn : n ≤ size := by rw [hsize]; split <;> omega
  by_cases h0 : os s.regions (size + 24) = 0
  · have hnc : newChunk os s size = (s, 0) := by simp [newChunk, h0]
    obtain ⟨s', hs'⟩ : ∃ s' : HS, s' = if !s.firstTry then { s with heapMinExpand := 32 } else s := ⟨_, rfl⟩
    refine ⟨s', cks, ⟨0, fun f _ => ?_⟩, ?_, ?_, fun _ h => h, ?_, ?_, fun _ => Iff.rfl, ?_, ?_, Or.inl ⟨?_, size, hsn, ?_⟩⟩
    · simp only [extendHeap, ← hsize, hnc]
      rw [if_neg (by simpa using hn), if_neg (by simp), hs']
      split <;> rfl
    · rw [hs']
      split
      · exact { inv with expand := ⟨by show 32 % 32 = 0; rfl, by show 0 < 32; omega⟩ }
      · exact inv
    all_goals
      rw [hs']
      split <;> simp [h0]
  · obtain ⟨s1, chnk, hnc, hch, hm, w8, w24, w32, w40, w48, vfl, vbig, valloc, vsize, vreg, vmin, vmax, vexp, vheap, vft⟩ :=
      newChunk_ok os s size h0
    have hm := fun a ha => hm a ha hs32 hs0
    have hcne : chnk ≠ 0 := by rw [hch]; exact h0
    obtain ⟨h8, hdisj, hprot⟩ := (hos s.regions (size + 24)).resolve_left h0
    rw [← hch] at h8 hdisj hprot
    have hcd : ∀ c ∈ cks, c.end_ ≤ chnk ∨ chnk + (size + 24) ≤ c.adr := by
      intro c hc
      have := hdisj _ (inv.regs c hc)
      have he : c.adr + 24 ≤ c.end_ := by unfold Chunk.end_; omega
      simp only at this
      omega
    have ok := inv.ok
    -- common consequences of the invariant of the new state
    have fin : ∀ (s' : HS) (A B : List Chunk), cks = A ++ B → (∀ c ∈ A, c.end_ ≤ chnk) →
        (∀ c ∈ B, chnk + (size + 24) ≤ c.adr) →
        (∀ a, (a < chnk ∨ chnk + (size + 24) ≤ a) → (∀ c ∈ A ++ B, a ≠ c.adr) → s'.mem a = s.mem a) →
        (∀ a, chnk < a → a < chnk + (size + 24) → s'.mem a = s1.mem a) →
        Linked s'.mem s'.heap (A ++ ⟨chnk, [freeBlk (chnk + 24) size]⟩ :: B) →
        s' = { s1 with mem := s'.mem, heap := s'.heap } → Ev (fun f => extendHeap os f s n) s' →
        ∃ s' cks', Ev (fun f => extendHeap os f s n) s' ∧ Inv St Sl noEx s' cks' ∧ s'.firstTry = s.firstTry ∧
          (∀ c ∈ cks, c ∈ cks') ∧ s'.freeList = s.freeList ∧ s'.allocated = s.allocated ∧
          (∀ c, (c ∈ blocks cks' ∧ c.free = false) ↔ (c ∈ blocks cks ∧ c.free = false)) ∧
          (∀ c ∈ blocks cks, ∀ a, c.adr ≤ a → a < c.adr + c.size → s'.mem a = s.mem a) ∧
          (∀ a, St a ∨ Sl a → s'.mem a = s.mem a) ∧
          ((s'.regions = s.regions ∧ ∃ k, n ≤ k ∧ os s'.regions (k + 24) = 0) ∨
            ∃ x k G, Chain s'.mem s'.bigBlocks (x :: G) ∧ freeBlk x k ∈ blocks cks' ∧ n ≤ k) := by
      intro s' A B hAB hA hB hmo hmi hlk hv hev
      subst hAB
      have hinv := chunk_inv (s' := s') inv hcne h8 hs32 hs0 hdisj hprot hA hB hmo hlk
        (by rw [hmi _ (by omega) (by omega)]; exact w8) (by rw [hmi _ (by omega) (by omega)]; exact w24)
        (by rw [hmi _ (by omega) (by omega)]; exact w32) (by rw [hmi _ (by omega) (by omega)]; exact w40)
        (by rw [hmi _ (by omega) (by omega)]; exact w48) (by rw [hv]; exact vfl) (by rw [hv]; exact vbig)
        (by rw [hv]; exact valloc) (by rw [hv]; exact vsize) (by rw [hv]; exact vreg) (by rw [hv]; exact vmin)
        (by rw [hv]; exact vmax) (by rw [hv]; simp only [vexp]; exact hexp)
      have hbm : ∀ b, b ∈ blocks (A ++ ⟨chnk, [freeBlk (chnk + 24) size]⟩ :: B) ↔
          b = freeBlk (chnk + 24) size ∨ b ∈ blocks (A ++ B) := by
        intro b
        rw [blocks_append, blocks_cons, blocks_append]
        simp only [List.mem_append, List.mem_cons, List.not_mem_nil, or_false]
        tauto
      refine ⟨s', _, hev, hinv, ?_, ?_, ?_, ?_, ?_, ?_, ?_, Or.inr ?_⟩
      · rw [hv]; exact vft
      · intro c hc
        simp only [List.mem_append, List.mem_cons] at hc ⊢
        tauto
      · rw [hv]; exact vfl
      · rw [hv]; exact valloc
      · intro c
        rw [hbm c]
        constructor
        · rintro ⟨rfl | h, hf⟩
          · simp [freeBlk] at hf
          · exact ⟨h, hf⟩
        · rintro ⟨h, hf⟩; exact ⟨Or.inr h, hf⟩
      · intro b hb a h1 h2
        obtain ⟨c, hc, hbc⟩ := mem_blocks.1 hb
        have hb1 := blk_bounds ok hc hbc
        have hb2 := hcd c hc
        refine hmo a (by omega) ?_
        intro d hd e
        have he : d.adr + 24 ≤ d.end_ := by unfold Chunk.end_; omega
        rcases chunk_disjoint ok hc hd with rfl | h | h <;> omega
      · intro a ha
        have := hprot a ha
        refine hmo a (by omega) ?_
        intro d hd e
        have := inv.regsOut _ (inv.regs d hd) a ha
        have he : d.adr + 24 ≤ d.end_ := by unfold Chunk.end_; omega
        simp only at this
        omega
      · obtain ⟨F, G, L⟩ := hinv.lists
        have hb : s'.bigBlocks = chnk + 24 := by rw [hv]; exact vbig
        obtain ⟨G', hG, _⟩ := chain_head L.big (by rw [hb]; omega)
        refine ⟨chnk + 24, size, G', ?_, (hbm _).2 (Or.inl rfl), hsn⟩
        have := L.big
        rw [hG, hb] at this
        rw [hb]; exact this
    have hnz : ¬ (n % 32 ≠ 0) := by simpa using hn
    by_cases hlt : chnk < s.heap
    · -- in front
      obtain ⟨s', hs'⟩ : ∃ s' : HS, s' = { s1.put chnk s1.heap with heap := chnk } := ⟨_, rfl⟩
      have hmem' : s'.mem = put s1.mem chnk (s.heap : Int) := by rw [hs']; simp only [HS.put, vheap]
      have hall : ∀ c ∈ cks, chnk + (size + 24) ≤ c.adr := by
        have hlk := inv.inMem.linked
        have hsort := ok.sorted
        have hne := inv.nonempty
        match cks, hlk, hsort, hcd, hne with
        | c :: cs, ⟨h1, _, _⟩, hsort, hcd, _ =>
          have hc1 : chnk + (size + 24) ≤ c.adr := by
            have := hcd c (List.mem_cons_self ..)
            have he : c.adr + 24 ≤ c.end_ := by unfold Chunk.end_; omega
            omega
          intro d hd
          rcases List.mem_cons.1 hd with rfl | hd
          · exact hc1
          · have := (List.pairwise_cons.1 hsort).1 d hd
            have he : c.adr + 24 ≤ c.end_ := by unfold Chunk.end_; omega
            omega
      refine fin s' [] cks rfl (by simp) hall ?_ ?_ ?_ ?_ ?_
      · intro a ha _
        rw [hmem']; simp only [put]; rw [if_neg (by omega)]; exact hm a ha
      · intro a h1 h2
        rw [hmem']; simp only [put]; rw [if_neg (by omega)]
      · have hh : s'.heap = chnk := by rw [hs']
        rw [hh]
        refine ⟨rfl, hcne, s.heap, ?_, ?_⟩
        · rw [hmem']; simp [put]
        · refine linked_congr ?_ inv.inMem.linked
          intro c hc
          have := hall c hc
          rw [hmem']; simp only [put]; rw [if_neg (by omega)]; exact hm _ (by omega)
      · rw [hs']; simp only [HS.put]
      · refine ⟨0, fun f _ => ?_⟩
        simp only [extendHeap, if_neg hnz, ← hsize, hnc]
        rw [if_pos hcne, if_pos (by rw [vheap]; exact hlt), hs']
    · -- behind some chunk
      have hlk := inv.inMem.linked
      have hne := inv.nonempty
      obtain ⟨d, cs, hcks⟩ : ∃ d cs, cks = d :: cs := by
        cases cks with
        | nil => exact absurd rfl hne
        | cons d cs => exact ⟨d, cs, rfl⟩
      have hh : s.heap = d.adr := by rw [hcks] at hlk; exact hlk.1
      have hlk1 : Linked s1.mem s.heap (d :: cs) := by
        rw [← hcks]
        refine linked_congr ?_ inv.inMem.linked
        intro c hc
        have := hcd c hc
        have he : c.adr + 24 ≤ c.end_ := by unfold Chunk.end_; omega
        exact hm _ (by omega)
      obtain ⟨A, e, B, k, e1, ⟨F, hF⟩, e3, e4, e5, e6⟩ := findChunk_ok (chnk := chnk) cs d s.heap hlk1
      rw [← hcks] at e1
      have hein : e ∈ cks := by rw [e1]; exact List.mem_append_right _ (List.mem_cons_self ..)
      have hdin : d ∈ cks := by rw [hcks]; exact List.mem_cons_self ..
      have hene : e.adr < chnk := by
        rcases e6 with h | h
        · have := hcd d hdin
          have he : d.adr + 24 ≤ d.end_ := by unfold Chunk.end_; omega
          omega
        · exact h
      have hsort := ok.sorted
      rw [e1, List.pairwise_append, List.pairwise_cons] at hsort
      have hA : ∀ c ∈ A ++ [e], c.end_ ≤ chnk := by
        intro c hc
        rcases List.mem_append.1 hc with hc | hc
        · have := hsort.2.2 c hc e (List.mem_cons_self ..)
          omega
        · simp only [List.mem_singleton] at hc
          subst hc
          have := hcd c hein
          omega
      have hB : ∀ c ∈ B, chnk + (size + 24) ≤ c.adr := by
        match B, e5, hsort, e1 with
        | [], _, _, _ => simp
        | b :: B', e5, hsort, e1 =>
          have hb := e5 b B' rfl
          have hbin : b ∈ cks := by rw [e1]; simp
          have hb1 : chnk + (size + 24) ≤ b.adr := by
            have := hcd b hbin
            have he : b.adr + 24 ≤ b.end_ := by unfold Chunk.end_; omega
            omega
          intro c hc
          rcases List.mem_cons.1 hc with rfl | hc
          · exact hb1
          · have := (List.pairwise_cons.1 hsort.2.1.2).1 c hc
            have he : b.adr + 24 ≤ b.end_ := by unfold Chunk.end_; omega
            omega
      obtain ⟨s', hs'⟩ : ∃ s' : HS, s' = (s1.put chnk k).put e.adr chnk := ⟨_, rfl⟩
      have hmem' : s'.mem = put (put s1.mem chnk (k : Int)) e.adr (chnk : Int) := by rw [hs']; simp only [HS.put]
      refine fin s' (A ++ [e]) B (by rw [e1]; simp) hA hB ?_ ?_ ?_ ?_ ?_
      · intro a ha hne'
        rw [hmem']; simp only [put]
        rw [if_neg (hne' e (by simp)), if_neg (by omega)]; exact hm a ha
      · intro a h1 h2
        rw [hmem']; simp only [put]
        rw [if_neg (by omega), if_neg (by omega)]
      · have hheap : s'.heap = s.heap := by rw [hs']; simp only [HS.put]; exact vheap
        rw [hheap]
        have : A ++ [e] ++ (⟨chnk, [freeBlk (chnk + 24) size]⟩ : Chunk) :: B = A ++ e :: ⟨chnk, [freeBlk (chnk + 24) size]⟩ :: B := by simp
        rw [this]
        have hl1 : Linked s1.mem s.heap (A ++ e :: B) := by rw [← e1, hcks]; exact hlk1
        refine linked_insert (n := k) hcne hl1 e4 ?_ ?_ ?_
        · rw [hmem']; simp [put]
        · rw [hmem']; simp only [put]; rw [if_neg (by omega), if_pos trivial]
        · intro c hc
          rw [hmem']; simp only [put]
          rcases List.mem_append.1 hc with hc | hc
          · have h1 := hsort.2.2 c hc e (List.mem_cons_self ..)
            have h2 := hA c (List.mem_append_left _ hc)
            have he : c.adr + 24 ≤ c.end_ := by unfold Chunk.end_; omega
            rw [if_neg (by omega), if_neg (by omega)]
          · have h1 := hB c hc
            rw [if_neg (by omega), if_neg (by omega)]
      · rw [hs']; simp only [HS.put]
      · refine ⟨F, fun f hf => ?_⟩
        have hfc : findChunk f s1.mem s1.heap chnk = some (e.adr, k) := by rw [vheap, hh]; exact hF f hf
        simp only [extendHeap, if_neg hnz, ← hsize, hnc]
        rw [if_pos hcne, if_neg (by rw [vheap]; exact hlt), hfc, hs']
        rfl

end Verif.Heap
