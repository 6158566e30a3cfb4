import Verif.Heap.LemmasAlloc

/-!
# Splitting free blocks
-/
namespace Verif.Heap

/-- Only the free blocks matter. -/
theorem lists_free {m : Mem} {fl : Nat → Nat} {big : Nat} {bs bs' : List Blk} {F : Nat → List Nat} {G : List Nat}
    (h : Lists m fl big bs F G) (e : ∀ c, c.free = true → (c ∈ bs' ↔ c ∈ bs)) : Lists m fl big bs' F G :=
  ⟨h.small, h.big, fun i h1 h2 x hx => (e _ rfl).2 (h.smallIn i h1 h2 x hx),
    fun x hx => (h.bigIn x hx).imp (fun _ h' => (e _ rfl).2 h'), h.nodupF, h.nodupG, h.disj,
    fun b hb hf => h.all b ((e b hf).1 hb) hf⟩

/-- Changes of memory outside the links. -/
theorem lists_mem {m m' : Mem} {fl : Nat → Nat} {big : Nat} {bs : List Blk} {F : Nat → List Nat} {G : List Nat}
    (h : Lists m fl big bs F G) (e : ∀ c ∈ bs, c.free = true → m' (c.adr + 24) = m (c.adr + 24)) :
    Lists m' fl big bs F G :=
  ⟨fun i h1 h2 => chain_congr (fun x hx => e _ (h.smallIn i h1 h2 x hx) rfl) (h.small i h1 h2),
    chain_congr (fun x hx => by obtain ⟨n, hn⟩ := h.bigIn x hx; exact e _ hn rfl) h.big,
    h.smallIn, h.bigIn, h.nodupF, h.nodupG, h.disj, h.all⟩

/-- A block is taken out of `freeList[i]`. -/
theorem lists_takeSmall {m : Mem} {fl : Nat → Nat} {big : Nat} {bs : List Blk} {F : Nat → List Nat} {G : List Nat}
    (h : Lists m fl big bs F G) (inj : ∀ b ∈ bs, ∀ c ∈ bs, b.adr = c.adr → b = c) {i adr : Nat} (h1 : 1 ≤ i) (h9 : i < 9)
    {xs : List Nat} (hF : F i = adr :: xs) {n : Nat} (hn : m (adr + 24) = n) :
    Lists m (put fl i n) big (bs.filter fun c => c.adr ≠ adr) (put F i xs) G := by
  have hc := h.small i h1 h9
  rw [hF] at hc
  obtain ⟨_, _, n', h3, h4⟩ := hc
  have e : n = n' := by rw [hn] at h3; exact_mod_cast h3
  subst e
  have hnd := h.nodupF i h1 h9
  rw [hF, List.nodup_cons] at hnd
  have hFi : ∀ j, ∀ x ∈ put F i xs j, x ∈ F j := by
    intro j x hx
    unfold put at hx
    by_cases hj : j = i
    · rw [if_pos hj] at hx; rw [hj, hF]; exact List.mem_cons_of_mem _ hx
    · rw [if_neg hj] at hx; exact hx
  have hadrIn := h.smallIn i h1 h9 adr (by rw [hF]; exact List.mem_cons_self ..)
  refine ⟨?_, h.big, ?_, ?_, ?_, h.nodupG, ?_, ?_⟩
  · intro j hj1 hj9
    unfold put
    by_cases hj : j = i
    · rw [if_pos hj, if_pos hj]; exact h4
    · rw [if_neg hj, if_neg hj]; exact h.small j hj1 hj9
  · intro j hj1 hj9 x hx
    refine List.mem_filter.2 ⟨h.smallIn j hj1 hj9 x (hFi j x hx), ?_⟩
    rw [decide_eq_true_eq, freeBlk_adr]
    rintro rfl
    by_cases hj : j = i
    · unfold put at hx; rw [if_pos hj] at hx; exact hnd.1 hx
    · have := inj _ (h.smallIn j hj1 hj9 x (hFi j x hx)) _ hadrIn rfl
      simp only [freeBlk, Blk.mk.injEq] at this
      omega
  · intro x hx
    obtain ⟨k, hk⟩ := h.bigIn x hx
    refine ⟨k, List.mem_filter.2 ⟨hk, ?_⟩⟩
    rw [decide_eq_true_eq, freeBlk_adr]
    rintro rfl
    exact h.disj i h1 h9 x (by rw [hF]; exact List.mem_cons_self ..) hx
  · intro j hj1 hj9
    unfold put
    by_cases hj : j = i
    · rw [if_pos hj]; exact hnd.2
    · rw [if_neg hj]; exact h.nodupF j hj1 hj9
  · intro j hj1 hj9 x hx
    exact h.disj j hj1 hj9 x (hFi j x hx)
  · intro b hb hf h288
    obtain ⟨hb, hne⟩ := List.mem_filter.1 hb
    simp only [decide_eq_true_eq] at hne
    rcases h.all b hb hf h288 with ⟨h5, h6⟩ | h5
    · left
      refine ⟨h5, ?_⟩
      unfold put
      by_cases hj : b.size / 32 = i
      · rw [if_pos hj]
        rw [hj, hF] at h6
        exact (List.mem_cons.1 h6).resolve_left hne
      · rw [if_neg hj]; exact h6
    · exact Or.inr h5

/-- A block is taken out of `bigBlocks`. -/
theorem lists_takeBig {m m' : Mem} {fl : Nat → Nat} {big : Nat} {bs : List Blk} {F : Nat → List Nat} {G1 G2 : List Nat}
    {adr : Nat} (h : Lists m fl big bs F (G1 ++ adr :: G2))
    {n : Nat} (hn : m (adr + 24) = n)
    (hfr : ∀ c ∈ bs, c.free = true → c.adr ≠ adr → c.adr ≠ lastD 0 G1 → m' (c.adr + 24) = m (c.adr + 24))
    (hl : G1 ≠ [] → m' (lastD 0 G1 + 24) = n)
    (inj : ∀ b ∈ bs, ∀ c ∈ bs, b.adr = c.adr → b = c) :
    Lists m' fl (if G1 = [] then n else big) (bs.filter fun c => c.adr ≠ adr) F (G1 ++ G2) := by
  have hnd := h.nodupG
  have hnd' := hnd
  rw [List.nodup_append, List.nodup_cons] at hnd'
  obtain ⟨nd1, ⟨nd2, nd3⟩, nd4⟩ := hnd'
  have hsub : ∀ x ∈ G1 ++ G2, x ∈ G1 ++ adr :: G2 := by
    intro x hx
    rcases List.mem_append.1 hx with hx | hx
    · exact List.mem_append_left _ hx
    · exact List.mem_append_right _ (List.mem_cons_of_mem _ hx)
  have hneadr : ∀ x ∈ G1 ++ G2, x ≠ adr := by
    intro x hx
    rcases List.mem_append.1 hx with hx | hx
    · exact nd4 x hx adr (List.mem_cons_self ..)
    · rintro rfl; exact nd2 hx
  have hlast : G1 ≠ [] → lastD 0 G1 ∈ G1 := lastD_mem G1 0
  have hFne : ∀ i, 1 ≤ i → i < 9 → ∀ x ∈ F i, x ≠ adr := by
    intro i h1 h9 x hx e
    exact h.disj i h1 h9 x hx (by rw [e]; exact List.mem_append_right _ (List.mem_cons_self ..))
  refine ⟨?_, ?_, ?_, ?_, h.nodupF, ?_, ?_, ?_⟩
  · intro i h1 h9
    refine chain_congr ?_ (h.small i h1 h9)
    intro x hx
    refine hfr _ (h.smallIn i h1 h9 x hx) rfl (hFne i h1 h9 x hx) ?_
    simp only [freeBlk_adr]
    intro e
    by_cases h0 : G1 = []
    · rw [h0] at e
      exact chain_ne (h.small i h1 h9) x hx e
    · exact h.disj i h1 h9 x hx (by rw [e]; exact List.mem_append_left _ (hlast h0))
  · refine chain_remove (m := m) (p := 0) h.big hn ?_ hl hnd ?_
    · intro y hy hne
      obtain ⟨k, hk⟩ := h.bigIn y (hsub y hy)
      exact hfr _ hk rfl (hneadr y hy) hne
    · intro h0
      exact chain_ne h.big 0 (hsub 0 (List.mem_append_right _ h0)) rfl
  · intro i h1 h9 x hx
    refine List.mem_filter.2 ⟨h.smallIn i h1 h9 x hx, ?_⟩
    rw [decide_eq_true_eq, freeBlk_adr]
    exact hFne i h1 h9 x hx
  · intro x hx
    obtain ⟨k, hk⟩ := h.bigIn x (hsub x hx)
    refine ⟨k, List.mem_filter.2 ⟨hk, ?_⟩⟩
    rw [decide_eq_true_eq, freeBlk_adr]
    exact hneadr x hx
  · rw [List.nodup_append]
    exact ⟨nd1, nd3, fun a ha b hb => nd4 a ha b (List.mem_cons_of_mem _ hb)⟩
  · intro i h1 h9 x hx hx'
    exact h.disj i h1 h9 x hx (hsub x hx')
  · intro b hb hf h288
    obtain ⟨hb, hne⟩ := List.mem_filter.1 hb
    simp only [decide_eq_true_eq] at hne
    rcases h.all b hb hf h288 with h5 | h5
    · exact Or.inl h5
    · right
      rcases List.mem_append.1 h5 with h6 | h6
      · exact List.mem_append_left _ h6
      · exact List.mem_append_right _ ((List.mem_cons.1 h6).resolve_left hne)

/-- A block is put into `freeList[i]`. -/
theorem lists_push {m m' : Mem} {fl : Nat → Nat} {big : Nat} {bs : List Blk} {F : Nat → List Nat} {G : List Nat}
    (h : Lists m fl big bs F G) {i adr : Nat} (h1 : 1 ≤ i) (h9 : i < 9) (h0 : adr ≠ 0) (hne : ∀ c ∈ bs, c.adr ≠ adr)
    (hn : m' (adr + 24) = (fl i : Nat)) (hfr : ∀ c ∈ bs, c.free = true → m' (c.adr + 24) = m (c.adr + 24)) :
    Lists m' (put fl i adr) big (freeBlk adr (32 * i) :: bs) (put F i (adr :: F i)) G := by
  have h' := lists_mem h hfr
  have hnF : ∀ j, 1 ≤ j → j < 9 → adr ∉ F j := fun j hj hj' hx => hne _ (h.smallIn j hj hj' adr hx) rfl
  have hnG : adr ∉ G := fun hx => by
    obtain ⟨k, hk⟩ := h.bigIn adr hx
    exact hne _ hk rfl
  refine ⟨?_, h'.big, ?_, ?_, ?_, h.nodupG, ?_, ?_⟩
  · intro j hj1 hj9
    unfold put
    by_cases hj : j = i
    · rw [if_pos hj, if_pos hj]
      exact ⟨rfl, h0, fl i, hn, h'.small i h1 h9⟩
    · rw [if_neg hj, if_neg hj]; exact h'.small j hj1 hj9
  · intro j hj1 hj9 x hx
    unfold put at hx
    by_cases hj : j = i
    · rw [if_pos hj] at hx
      rcases List.mem_cons.1 hx with rfl | hx
      · rw [hj]; exact List.mem_cons_self ..
      · rw [hj]; exact List.mem_cons_of_mem _ (h.smallIn i h1 h9 x hx)
    · rw [if_neg hj] at hx; exact List.mem_cons_of_mem _ (h.smallIn j hj1 hj9 x hx)
  · intro x hx
    obtain ⟨k, hk⟩ := h.bigIn x hx
    exact ⟨k, List.mem_cons_of_mem _ hk⟩
  · intro j hj1 hj9
    unfold put
    by_cases hj : j = i
    · rw [if_pos hj]; exact List.nodup_cons.2 ⟨hnF i h1 h9, h.nodupF i h1 h9⟩
    · rw [if_neg hj]; exact h.nodupF j hj1 hj9
  · intro j hj1 hj9 x hx
    unfold put at hx
    by_cases hj : j = i
    · rw [if_pos hj] at hx
      rcases List.mem_cons.1 hx with rfl | hx
      · exact hnG
      · exact h.disj i h1 h9 x hx
    · rw [if_neg hj] at hx; exact h.disj j hj1 hj9 x hx
  · intro b hb hf h288
    rcases List.mem_cons.1 hb with rfl | hb
    · left
      have e : 32 * i / 32 = i := by omega
      simp only [freeBlk_size, freeBlk_adr, e]
      refine ⟨h9, ?_⟩
      unfold put; rw [if_pos rfl]; exact List.mem_cons_self ..
    · rcases h.all b hb hf h288 with ⟨h5, h6⟩ | h5
      · left
        refine ⟨h5, ?_⟩
        unfold put
        by_cases hj : b.size / 32 = i
        · rw [if_pos hj]; rw [hj] at h6; exact List.mem_cons_of_mem _ h6
        · rw [if_neg hj]; exact h6
      · exact Or.inr h5

/-- The state after a free block has been taken from its list and split: its first `rest` bytes are a free block again. -/
structure Took (s s1 : HS) (cks : List Chunk) (adr t rest : Nat) : Prop where
  old : freeBlk adr t ∈ blocks cks
  le : rest < t
  rest32 : rest % 32 = 0
  frame : ∀ a, (a < adr ∨ adr + t ≤ a) → (∀ c ∈ blocks cks, c.free = true → a ≠ c.adr + 24) → s1.mem a = s.mem a
  hdr : rest ≠ 0 → s1.mem adr = (adr + 8 : Nat) ∧ s1.mem (adr + 8) = rest ∧ s1.mem (adr + 16) = -8
  vars : s1 = { s with mem := s1.mem, freeList := s1.freeList, bigBlocks := s1.bigBlocks }
  fl9 : s1.freeList 9 ≠ 0
  lists : ∀ bs', (∀ c, c ∈ bs' ↔ (rest ≠ 0 ∧ c = freeBlk adr rest) ∨ (c ∈ blocks cks ∧ c.adr ≠ adr)) →
    ∃ F G, Lists s1.mem s1.freeList s1.bigBlocks bs' F G

/-- Links of different free blocks, and the links and other words, are different words. -/
theorem link_out {St : Nat → Prop} {cks : List Chunk} (ok : ChunksOK St cks) {b c : Blk} (hb : b ∈ blocks cks)
    (hc : c ∈ blocks cks) (hne : c.adr ≠ b.adr) : c.adr + 24 < b.adr ∨ b.adr + b.size ≤ c.adr + 24 := by
  have h1 := (ok.blk b hb).sizePos
  have h2 := (ok.blk c hc).sizePos
  have h3 := (ok.blk c hc).size32
  rcases blocks_disjoint ok hb hc with rfl | h | h
  · exact absurd rfl hne
  · omega
  · omega

theorem takeSmall_ok {St Sl : Nat → Prop} {s : HS} {cks : List Chunk} (inv : Inv St Sl noEx s cks) {i i0 : Nat}
    (h1 : 1 ≤ i0) (hi : i0 ≤ i) (h9 : i < 9) (hne : s.freeList i ≠ 0) :
    ∃ s1, takeSmall s i i0 (s.freeList i) (32 * i0) = (s1, s.freeList i + 32 * (i - i0)) ∧
      Took s s1 cks (s.freeList i) (32 * i) (32 * (i - i0)) := by
  obtain ⟨F, G, L⟩ := inv.lists
  have ok := inv.ok
  have inj := (sep_of_chunks ok).adrInj
  obtain ⟨adr, hadr⟩ : ∃ adr, adr = s.freeList i := ⟨_, rfl⟩
  rw [← hadr] at hne ⊢
  obtain ⟨xs, hF, n, hn, hch⟩ := chain_head (L.small i (by omega) h9) (by rw [← hadr]; exact hne)
  rw [← hadr] at hF hn
  have hold : freeBlk adr (32 * i) ∈ blocks cks := L.smallIn i (by omega) h9 adr (by rw [hF]; exact List.mem_cons_self ..)
  have hL1 := lists_takeSmall L inj (by omega) h9 hF hn
  have hlink : ∀ c ∈ blocks cks, c.adr ≠ adr → c.adr + 24 < adr ∨ adr + 32 * i ≤ c.adr + 24 :=
    fun c hc hne' => link_out ok hold hc hne'
  by_cases he : i = i0
  · subst he
    refine ⟨{ s with freeList := put s.freeList i n }, ?_, hold, ?_, ?_, ?_, ?_, rfl, ?_, ?_⟩
    · simp [takeSmall, hn]
    · omega
    · omega
    · intro a _ _; rfl
    · intro h; simp at h
    · simp only [put]; rw [if_neg (by omega)]; exact inv.fl9
    · intro bs' hbs
      refine ⟨_, _, lists_free hL1 ?_⟩
      intro c _
      rw [hbs c]
      simp
  · obtain ⟨s1, hs1⟩ : ∃ s1, s1 = (takeSmall s i i0 adr (32 * i0)).1 := ⟨_, rfl⟩
    have hm : s1.mem = put (put (put (put (put s.mem (adr + (i - i0) * 32 + 8) ((32 * i0 : Nat) : Int))
        (adr + (i - i0) * 32 + 16) (-8)) (adr + (i - i0) * 32) (((adr + (i - i0) * 32 : Nat) : Int) + 8))
        (adr + 8) (((i - i0) * 32 : Nat) : Int)) (adr + 24) ((s.freeList (i - i0) : Nat) : Int) := by
      rw [hs1]; simp only [takeSmall, if_pos (show i ≠ i0 from he), HS.put]
      have hput : put s.freeList i n (i - i0) = s.freeList (i - i0) := by
        simp only [put]; rw [if_neg (by omega)]
      simp only [hn, Int.toNat_natCast, hput]
    have hfl : s1.freeList = put (put s.freeList i n) (i - i0) adr := by
      rw [hs1]; simp only [takeSmall, if_pos (show i ≠ i0 from he), HS.put, hn, Int.toNat_natCast]
    have hbig : s1.bigBlocks = s.bigBlocks := by
      rw [hs1]; simp only [takeSmall, if_pos (show i ≠ i0 from he), HS.put]
    have hword : ∀ a, (a < adr ∨ adr + 32 * i ≤ a) → s1.mem a = s.mem a := by
      intro a ha
      rw [hm]; simp only [put]
      rw [if_neg (by omega), if_neg (by omega), if_neg (by omega), if_neg (by omega), if_neg (by omega)]
    have hadr0 := inv.tags _ hold (fun h => h)
    have htab := inv.tables _ hold (fun h => h)
    simp only [freeBlk] at hadr0
    have h16 : s.mem (adr + 8 + 8) = -8 := by simpa [freeBlk] using htab.2.2
    have e1 : 32 * (i - i0) = (i - i0) * 32 := by omega
    refine ⟨s1, ?_, hold, ?_, ?_, ?_, ?_, ?_, ?_, ?_⟩
    · rw [hs1]; simp only [takeSmall, if_pos (show i ≠ i0 from he)]
      rw [e1]
    · omega
    · omega
    · intro a ha _; exact hword a ha
    · intro _
      have hdi : 1 ≤ i - i0 := by omega
      refine ⟨?_, ?_, ?_⟩
      · rw [hm]; simp only [put]
        rw [if_neg (by omega), if_neg (by omega), if_neg (by omega), if_neg (by omega), if_neg (by omega)]
        exact hadr0
      · rw [hm]; simp only [put]
        rw [if_neg (by omega), if_pos trivial, e1]
      · rw [hm]; simp only [put]
        rw [if_neg (by omega), if_neg (by omega), if_neg (by omega), if_neg (by omega), if_neg (by omega)]
        exact h16
    · rw [hs1]; simp only [takeSmall, if_pos (show i ≠ i0 from he), HS.put]
    · rw [hfl]; simp only [put]; rw [if_neg (by omega), if_neg (by omega)]; exact inv.fl9
    · intro bs' hbs
      have hp := lists_push (m' := s1.mem) hL1 (i := i - i0) (adr := adr) (by omega) (by omega) hne (by
          intro c hc
          have := (List.mem_filter.1 hc).2
          simpa using this)
        (by
          rw [hm]; simp only [put]; rw [if_pos trivial, if_neg (by omega)])
        (by
          intro c hc hf
          obtain ⟨hc, hne'⟩ := List.mem_filter.1 hc
          simp only [decide_eq_true_eq] at hne'
          exact hword _ (hlink c hc hne'))
      rw [← hfl, ← hbig] at hp
      refine ⟨_, _, lists_free hp ?_⟩
      intro c _
      rw [hbs c, List.mem_cons, List.mem_filter]
      have : 32 * (i - i0) ≠ 0 := by omega
      simp [this]

theorem takeBig_ok {St Sl : Nat → Prop} {s : HS} {cks : List Chunk} (inv : Inv St Sl noEx s cks) {F : Nat → List Nat}
    {G1 G2 : List Nat} {adr t k : Nat} (L : Lists s.mem s.freeList s.bigBlocks (blocks cks) F (G1 ++ adr :: G2))
    (hold : freeBlk adr t ∈ blocks cks) (hk : 0 < k) (hle : 32 * k ≤ t) :
    ∃ s1, takeBig s adr (lastD 0 G1) t (32 * k) = (s1, adr + (t - 32 * k)) ∧ Took s s1 cks adr t (t - 32 * k) := by
  have ok := inv.ok
  have inj := (sep_of_chunks ok).adrInj
  obtain ⟨rest, hrest⟩ : ∃ rest, rest = t - 32 * k := ⟨_, rfl⟩
  rw [← hrest]
  have ht32 := (ok.blk _ hold).size32
  simp only [freeBlk_size] at ht32
  have h0 : adr ≠ 0 := chain_ne L.big adr (List.mem_append_right _ (List.mem_cons_self ..))
  have hlink : ∀ c ∈ blocks cks, c.adr ≠ adr → c.adr + 24 < adr ∨ adr + t ≤ c.adr + 24 :=
    fun c hc hne' => link_out ok hold hc hne'
  have hadr0 := inv.tags _ hold (fun h => h)
  have htab := inv.tables _ hold (fun h => h)
  simp only [freeBlk] at hadr0
  have h16 : s.mem (adr + 8 + 8) = -8 := by simpa [freeBlk] using htab.2.2
  obtain ⟨n, hn⟩ : ∃ n : Nat, s.mem (adr + 24) = n := by
    have hgen : ∀ (A : List Nat) (a : Nat), Chain s.mem a (A ++ adr :: G2) → ∃ n : Nat, s.mem (adr + 24) = n := by
      intro A
      induction A with
      | nil => intro a h; exact ⟨h.2.2.choose, h.2.2.choose_spec.1⟩
      | cons x A ih => intro a h; exact ih _ h.2.2.choose_spec.2
    exact hgen G1 _ L.big
  by_cases hbigr : 9 * 32 < rest
  · -- the rest stays in the list
    obtain ⟨s1, hs1⟩ : ∃ s1, s1 = (takeBig s adr (lastD 0 G1) t (32 * k)).1 := ⟨_, rfl⟩
    have hm : s1.mem = put (put (put (put s.mem (adr + rest + 8) ((32 * k : Nat) : Int)) (adr + rest + 16) (-8))
        (adr + rest) (((adr + rest : Nat) : Int) + 8)) (adr + 8) (rest : Int) := by
      rw [hs1]; simp only [takeBig, ← hrest, if_pos hbigr, HS.put]
    have hfl : s1.freeList = s.freeList := by
      rw [hs1]; simp only [takeBig, ← hrest, if_pos hbigr, HS.put]
    have hbb : s1.bigBlocks = s.bigBlocks := by
      rw [hs1]; simp only [takeBig, ← hrest, if_pos hbigr, HS.put]
    have hword : ∀ a, (a < adr ∨ adr + t ≤ a) → s1.mem a = s.mem a := by
      intro a ha
      rw [hm]; simp only [put]
      rw [if_neg (by omega), if_neg (by omega), if_neg (by omega), if_neg (by omega)]
    refine ⟨s1, ?_, hold, by omega, by omega, fun a ha _ => hword a ha, ?_, ?_, ?_, ?_⟩
    · rw [hs1]; simp only [takeBig, ← hrest, if_pos hbigr]
    · intro _
      refine ⟨?_, ?_, ?_⟩
      · rw [hm]; simp only [put]
        rw [if_neg (by omega), if_neg (by omega), if_neg (by omega), if_neg (by omega)]
        exact hadr0
      · rw [hm]; simp only [put]; rw [if_pos trivial]
      · rw [hm]; simp only [put]
        rw [if_neg (by omega), if_neg (by omega), if_neg (by omega), if_neg (by omega)]
        exact h16
    · rw [hs1]; simp only [takeBig, ← hrest, if_pos hbigr, HS.put]
    · rw [hfl]; exact inv.fl9
    · intro bs' hbs
      rw [hfl, hbb]
      refine ⟨F, G1 ++ adr :: G2, ?_⟩
      have hadrG : adr ∈ G1 ++ adr :: G2 := List.mem_append_right _ (List.mem_cons_self ..)
      have hin : ∀ x n, x ≠ adr → freeBlk x n ∈ blocks cks → freeBlk x n ∈ bs' :=
        fun x n hx hb => (hbs _).2 (Or.inr ⟨hb, hx⟩)
      have hFne : ∀ i, 1 ≤ i → i < 9 → ∀ x ∈ F i, x ≠ adr := fun i h1 h9 x hx e => L.disj i h1 h9 x hx (e ▸ hadrG)
      have hl : ∀ x n, freeBlk x n ∈ blocks cks → s1.mem (x + 24) = s.mem (x + 24) := by
        intro x n hb
        by_cases hx : x = adr
        · rw [hx, hm]; simp only [put]
          rw [if_neg (by omega), if_neg (by omega), if_neg (by omega), if_neg (by omega)]
        · exact hword _ (hlink _ hb hx)
      refine ⟨?_, ?_, ?_, ?_, L.nodupF, L.nodupG, L.disj, ?_⟩
      · intro i h1 h9
        exact chain_congr (fun x hx => hl x _ (L.smallIn i h1 h9 x hx)) (L.small i h1 h9)
      · refine chain_congr (fun x hx => ?_) L.big
        obtain ⟨n, hb⟩ := L.bigIn x hx
        exact hl x n hb
      · intro i h1 h9 x hx; exact hin x _ (hFne i h1 h9 x hx) (L.smallIn i h1 h9 x hx)
      · intro x hx
        by_cases hxa : x = adr
        · exact ⟨rest, (hbs _).2 (Or.inl ⟨by omega, by rw [hxa]⟩)⟩
        · obtain ⟨n, hb⟩ := L.bigIn x hx
          exact ⟨n, hin x n hxa hb⟩
      · intro b hb hf h288
        rcases (hbs b).1 hb with ⟨_, rfl⟩ | ⟨hb, _⟩
        · exact Or.inr hadrG
        · exact L.all b hb hf h288
  · -- the block leaves the list
    have hG0 : lastD 0 G1 = 0 ↔ G1 = [] := by
      constructor
      · intro e
        by_contra h
        exact chain_ne L.big _ (List.mem_append_left _ (lastD_mem G1 0 h)) e
      · rintro rfl; rfl
    obtain ⟨s0, hs0⟩ : ∃ s0 : HS, s0 = ((s.put (adr + rest + 8) ((32 * k : Nat) : Int)).put (adr + rest + 16) (-8)).put
        (adr + rest) (((adr + rest : Nat) : Int) + 8) := ⟨_, rfl⟩
    have hm0 : s0.mem = put (put (put s.mem (adr + rest + 8) ((32 * k : Nat) : Int)) (adr + rest + 16) (-8))
        (adr + rest) (((adr + rest : Nat) : Int) + 8) := by rw [hs0]; rfl
    have hw0 : ∀ a, a ≠ adr + rest → a ≠ adr + rest + 8 → a ≠ adr + rest + 16 → s0.mem a = s.mem a := by
      intro a e1 e2 e3
      rw [hm0]; simp only [put]; rw [if_neg e1, if_neg e3, if_neg e2]
    have hn0 : s0.mem (adr + 24) = n := by
      rw [hw0 _ (by omega) (by omega) (by omega)]; exact hn
    obtain ⟨s2, hs2⟩ : ∃ s2 : HS, s2 = if lastD 0 G1 = 0 then { s0 with bigBlocks := n } else s0.put (lastD 0 G1 + 24) n :=
      ⟨_, rfl⟩
    have hprev : G1 ≠ [] → ∃ np, freeBlk (lastD 0 G1) np ∈ blocks cks ∧ lastD 0 G1 ≠ adr := by
      intro h
      have hmem := lastD_mem G1 0 h
      obtain ⟨np, hnp⟩ := L.bigIn _ (List.mem_append_left _ hmem)
      refine ⟨np, hnp, ?_⟩
      have := L.nodupG
      rw [List.nodup_append] at this
      exact this.2.2 _ hmem adr (List.mem_cons_self ..)
    have hw2 : ∀ a, (G1 ≠ [] → a ≠ lastD 0 G1 + 24) → s2.mem a = s0.mem a := by
      intro a ha
      rw [hs2]
      by_cases h : lastD 0 G1 = 0
      · rw [if_pos h]
      · rw [if_neg h]; simp only [HS.put, put]; rw [if_neg (ha (fun e => h (hG0.2 e)))]
    have hfl2 : s2.freeList = s.freeList := by
      rw [hs2, hs0]; split <;> rfl
    have hb2 : s2.bigBlocks = if G1 = [] then n else s.bigBlocks := by
      rw [hs2]
      by_cases h : G1 = []
      · rw [if_pos (hG0.2 h), if_pos h]
      · rw [if_neg (fun e => h (hG0.1 e)), if_neg h, hs0]; rfl
    have hword2 : ∀ a, (a < adr ∨ adr + t ≤ a) → (∀ c ∈ blocks cks, c.free = true → a ≠ c.adr + 24) →
        s2.mem a = s.mem a := by
      intro a ha hl
      rw [hw2 a, hw0 a (by omega) (by omega) (by omega)]
      intro h
      obtain ⟨np, hnp, _⟩ := hprev h
      exact hl _ hnp rfl
    have hin2 : ∀ a, adr ≤ a → a < adr + t → s2.mem a = s0.mem a := by
      intro a h1 h2
      apply hw2
      intro h e
      obtain ⟨np, hnp, hne⟩ := hprev h
      have := hlink _ hnp hne
      simp only [freeBlk_adr] at this
      omega
    have hL2 : Lists s2.mem s2.freeList s2.bigBlocks ((blocks cks).filter fun c => c.adr ≠ adr) F (G1 ++ G2) := by
      rw [hfl2, hb2]
      refine lists_takeBig L hn ?_ ?_ inj
      · intro c hc hf hne hne'
        rw [hw2, hw0]
        · have := hlink c hc hne; omega
        · have := hlink c hc hne; omega
        · have := hlink c hc hne; omega
        · intro _ e; exact hne' (by omega)
      · intro h
        rw [hs2, if_neg (fun e => h (hG0.1 e))]
        simp [HS.put, put]
    by_cases hr0 : rest = 0
    · refine ⟨s2, ?_, hold, by omega, by omega, hword2, fun h => absurd hr0 h, ?_, ?_, ?_⟩
      · simp only [takeBig, ← hrest, if_neg hbigr]
        rw [← hs0, hn0, Int.toNat_natCast, ← hs2, if_neg (by simpa using hr0)]
      · rw [hs2, hs0]; split <;> rfl
      · rw [hfl2]; exact inv.fl9
      · intro bs' hbs
        refine ⟨_, _, lists_free hL2 ?_⟩
        intro c _
        rw [hbs c]; simp [hr0]
    · obtain ⟨s1, hs1⟩ : ∃ s1 : HS, s1 = { ((s2.put (adr + 8) (rest : Int)).put (adr + 24) (s2.freeList (rest / 32) : Int)) with
          freeList := put s2.freeList (rest / 32) adr } := ⟨_, rfl⟩
      have hm1 : s1.mem = put (put s2.mem (adr + 8) (rest : Int)) (adr + 24) (s2.freeList (rest / 32) : Int) := by
        rw [hs1]; rfl
      have hw1 : ∀ a, a ≠ adr + 8 → a ≠ adr + 24 → s1.mem a = s2.mem a := by
        intro a e1 e2
        rw [hm1]; simp only [put]; rw [if_neg e2, if_neg e1]
      refine ⟨s1, ?_, hold, by omega, by omega, ?_, ?_, ?_, ?_, ?_⟩
      · simp only [takeBig, ← hrest, if_neg hbigr]
        rw [← hs0, hn0, Int.toNat_natCast, ← hs2, if_pos (by simpa using hr0), hs1]
        rfl
      · intro a ha hl
        rw [hw1 a (by omega) (by omega)]; exact hword2 a ha hl
      · intro _
        refine ⟨?_, ?_, ?_⟩
        · rw [hw1 _ (by omega) (by omega), hin2 _ (by omega) (by omega), hw0 _ (by omega) (by omega) (by omega)]
          exact hadr0
        · rw [hm1]; simp only [put]; rw [if_neg (by omega), if_pos trivial]
        · rw [hw1 _ (by omega) (by omega), hin2 _ (by omega) (by omega), hw0 _ (by omega) (by omega) (by omega)]
          exact h16
      · rw [hs1, hs2, hs0]; split <;> rfl
      · rw [hs1]; simp only [put, hfl2]
        split
        · exact h0
        · exact inv.fl9
      · intro bs' hbs
        have hbb1 : s1.bigBlocks = s2.bigBlocks := by rw [hs1]; rfl
        have hfl1 : s1.freeList = put s2.freeList (rest / 32) adr := by rw [hs1]
        by_cases h288 : rest = 288
        · -- the rest is in no list
          refine ⟨F, G1 ++ G2, ?_⟩
          have hL3 := lists_mem (m' := s1.mem) hL2 (by
            intro c hc hf
            obtain ⟨hc, hne'⟩ := List.mem_filter.1 hc
            simp only [decide_eq_true_eq] at hne'
            have := hlink c hc hne'
            exact hw1 _ (by omega) (by omega))
          refine ⟨?_, by rw [hbb1]; exact hL3.big, ?_, ?_, hL3.nodupF, hL3.nodupG, hL3.disj, ?_⟩
          · intro i h1 h9
            rw [hfl1]; simp only [put]; rw [if_neg (by omega)]; exact hL3.small i h1 h9
          · intro i h1 h9 x hx
            have := List.mem_filter.1 (hL3.smallIn i h1 h9 x hx)
            exact (hbs _).2 (Or.inr ⟨this.1, by simpa using this.2⟩)
          · intro x hx
            obtain ⟨n, hb⟩ := hL3.bigIn x hx
            have := List.mem_filter.1 hb
            exact ⟨n, (hbs _).2 (Or.inr ⟨this.1, by simpa using this.2⟩)⟩
          · intro b hb hf hb288
            rcases (hbs b).1 hb with ⟨_, rfl⟩ | ⟨hb, hne⟩
            · exact absurd h288 hb288
            · exact hL3.all b (List.mem_filter.2 ⟨hb, by simpa using hne⟩) hf hb288
        · have hp := lists_push (m' := s1.mem) hL2 (i := rest / 32) (adr := adr) (by omega) (by omega) h0 (by
              intro c hc
              have := (List.mem_filter.1 hc).2
              simpa using this)
            (by rw [hm1]; simp only [put]; rw [if_pos trivial])
            (by
              intro c hc hf
              obtain ⟨hc, hne'⟩ := List.mem_filter.1 hc
              simp only [decide_eq_true_eq] at hne'
              have := hlink c hc hne'
              exact hw1 _ (by omega) (by omega))
          rw [← hfl1, ← hbb1] at hp
          refine ⟨_, _, lists_free hp ?_⟩
          intro c _
          rw [hbs c, List.mem_cons, List.mem_filter]
          have e : 32 * (rest / 32) = rest := by omega
          rw [e]
          simp [hr0]

end Verif.Heap
