import Verif.Heap.LemmasTake

/-!
# Allocation
-/
namespace Verif.Heap

theorem chain_unique {m : Mem} : ∀ {G G' : List Nat} {a : Nat}, Chain m a G → Chain m a G' → G = G'
  | [], [], _, _, _ => rfl
  | [], x :: G', a, h, ⟨h1, h2, _⟩ => by
    have h0 : a = 0 := h
    omega
  | x :: G, [], a, ⟨h1, h2, _⟩, h => by
    have h0 : a = 0 := h
    omega
  | x :: G, y :: G', a, ⟨h1, _, n, h3, h4⟩, ⟨h1', _, n', h3', h4'⟩ => by
    subst h1; subst h1'
    have : n = n' := by rw [h3] at h3'; exact_mod_cast h3'
    subst this
    rw [chain_unique h4 h4']

/-- Words outside the area of the blocks. -/
def Outside (cks : List Chunk) (a : Nat) : Prop := ∀ c ∈ cks, a < c.adr + 24 ∨ c.end_ ≤ a

theorem outside_blk {St : Nat → Prop} {cks : List Chunk} (ok : ChunksOK St cks) {a : Nat} (h : Outside cks a) {b : Blk}
    (hb : b ∈ blocks cks) : a < b.adr ∨ b.adr + b.size ≤ a := by
  obtain ⟨c, hc, hdc⟩ := mem_blocks.1 hb
  have := blk_bounds ok hc hdc
  have := h c hc
  omega

/-- A block of `32 * k` bytes at `adr` has been allocated from free storage. -/
structure Allocd (St Sl : Nat → Prop) (s : HS) (cks : List Chunk) (k tag : Nat) (s' : HS) (adr : Nat) : Prop where
  tag : s'.mem adr = tag
  zero : ∀ a, adr + 8 ≤ a → a < adr + 32 * k → a % 8 = 0 → s'.mem a = 0
  adr8 : adr % 8 = 0
  place : ∃ b ∈ blocks cks, b.free = true ∧ b.adr ≤ adr ∧ adr + 32 * k ≤ b.adr + b.size
  vars : s' = { s with mem := s'.mem, freeList := s'.freeList, bigBlocks := s'.bigBlocks, allocated := s'.allocated }
  frame : ∀ c ∈ blocks cks, c.free = false → ∀ a, c.adr ≤ a → a < c.adr + c.size → s'.mem a = s.mem a
  outside : ∀ a, Outside cks a → s'.mem a = s.mem a
  inv : ∀ tg offs, BlkOK St ⟨adr, 32 * k, tg, offs, false⟩ →
    ∃ cks', Inv St Sl (· = adr) s' cks' ∧ skel cks' = skel cks ∧
      ∀ c, (c ∈ blocks cks' ∧ c.free = false) ↔ (c = ⟨adr, 32 * k, tg, offs, false⟩ ∨ (c ∈ blocks cks ∧ c.free = false))

theorem took_finish {St Sl : Nat → Prop} {s s1 : HS} {cks : List Chunk} (inv : Inv St Sl noEx s cks) {adr t k : Nat}
    (hk : 0 < k) (hle : 32 * k ≤ t) (took : Took s s1 cks adr t (t - 32 * k)) (tag : Nat) :
    ∃ s', Ev (fun f => finish f s1 (adr + (t - 32 * k)) (32 * k) tag) (s', adr + (t - 32 * k) + 8) ∧
      Allocd St Sl s cks k tag s' (adr + (t - 32 * k)) := by
  have ok := inv.ok
  have hold := took.old
  have h8 := (ok.blk _ hold).adr8
  simp only [freeBlk_adr] at h8
  have hr32 := took.rest32
  obtain ⟨rest, hrest⟩ : ∃ rest, rest = t - 32 * k := ⟨_, rfl⟩
  rw [← hrest] at took hr32 ⊢
  obtain ⟨s', hev, htag, hz, hfr, hvars⟩ := finish_ok s1 (adr + rest) k tag (by omega) hk
  have hal : s1.allocated = s.allocated := by rw [took.vars]
  have hframe : ∀ a, (a < adr ∨ adr + t ≤ a) → (∀ c ∈ blocks cks, c.free = true → a ≠ c.adr + 24) →
      s'.mem a = s.mem a := by
    intro a ha hl
    rw [hfr a (by omega)]; exact took.frame a ha hl
  have hlink : ∀ c ∈ blocks cks, c.free = false → ∀ a, c.adr ≤ a → a < c.adr + c.size →
      ∀ d ∈ blocks cks, d.free = true → a ≠ d.adr + 24 := by
    intro c hc hf a h1 h2 d hd hdf e
    have h3 := (ok.blk d hd).sizePos
    have h4 := (ok.blk d hd).size32
    rcases blocks_disjoint ok hc hd with rfl | h | h
    · rw [hf] at hdf; simp at hdf
    · omega
    · omega
  have hside : ∀ c ∈ blocks cks, c.free = false → c.adr + c.size ≤ adr ∨ adr + t ≤ c.adr := by
    intro c hc hf
    rcases blocks_disjoint ok hc hold with rfl | h | h
    · simp [freeBlk] at hf
    · simp only [freeBlk_adr] at h; omega
    · simp only [freeBlk_adr, freeBlk_size] at h; omega
  have hvars' : s' = { s with mem := s'.mem, freeList := s'.freeList, bigBlocks := s'.bigBlocks, allocated := s'.allocated } := by
    rw [hvars, took.vars]
  refine ⟨s', hev, htag, hz, by omega, ⟨_, hold, rfl, by simp only [freeBlk_adr]; omega,
    by simp only [freeBlk_adr, freeBlk_size]; omega⟩, hvars', ?_, ?_, ?_⟩
  · intro c hc hf a h1 h2
    have := hside c hc hf
    exact hframe a (by omega) (hlink c hc hf a h1 h2)
  · intro a ha
    have := outside_blk ok ha hold
    simp only [freeBlk_adr, freeBlk_size] at this
    refine hframe a this ?_
    intro d hd _ e
    have h3 := (ok.blk d hd).sizePos
    have h4 := (ok.blk d hd).size32
    have := outside_blk ok ha hd
    omega
  · intro tg offs hb
    have hblk : ∀ c ∈ blocks cks, (c.adr + c.size ≤ adr ∨ adr + t ≤ c.adr) ↔ c.adr ≠ adr := by
      intro c hc
      have hp := (ok.blk c hc).sizePos
      rcases blocks_disjoint ok hc hold with rfl | h | h
      · simp only [freeBlk_adr, freeBlk_size] at hp ⊢; omega
      · simp only [freeBlk_adr] at h; omega
      · simp only [freeBlk_adr, freeBlk_size] at h; omega
    have hfl : s'.freeList = s1.freeList := by rw [hvars]
    have hbb : s'.bigBlocks = s1.bigBlocks := by rw [hvars]
    obtain ⟨cks', inv', sk, hmem⟩ := carve_inv (s' := s') (b := ⟨adr + rest, 32 * k, tg, offs, false⟩) inv hold hb rfl
      (by simp only; omega) hr32 rfl hframe (by
        intro h0
        obtain ⟨e1, e2, e3⟩ := took.hdr h0
        rw [hfr _ (by omega), hfr _ (by omega), hfr _ (by omega)]
        exact ⟨e1, e2, e3⟩)
      (by rw [hvars']) (by rw [hvars']) (by rw [hvars']) (by rw [hvars']) (by rw [hvars']) (by rw [hvars'])
      (by rw [hfl]; exact took.fl9) (by rw [hvars, hal]) (by
        intro bs' hbs
        obtain ⟨new, hnew⟩ : ∃ new : List Blk, new = (if rest = 0 then [] else [freeBlk adr rest]) ++
          (blocks cks).filter fun c => c.adr ≠ adr := ⟨_, rfl⟩
        have hn : ∀ c, c ∈ new ↔ (rest ≠ 0 ∧ c = freeBlk adr rest) ∨ (c ∈ blocks cks ∧ c.adr ≠ adr) := by
          intro c
          rw [hnew, List.mem_append, List.mem_filter]
          by_cases h0 : rest = 0 <;> simp [h0]
        obtain ⟨F, G, hL⟩ := took.lists new hn
        rw [hfl, hbb]
        refine ⟨F, G, lists_free (lists_mem hL ?_) ?_⟩
        · intro c hc hf
          apply hfr
          rcases (hn c).1 hc with ⟨h0, rfl⟩ | ⟨hc, hne⟩
          · simp only [freeBlk_adr]; omega
          · have := link_out ok hold hc (by simpa [freeBlk_adr] using hne)
            simp only [freeBlk_adr, freeBlk_size] at this
            omega
        · intro c hf
          rw [hbs c, hn c]
          constructor
          · rintro (rfl | h | ⟨h, h'⟩)
            · simp at hf
            · exact Or.inl h
            · exact Or.inr ⟨h, (hblk c h).1 h'⟩
          · rintro (h | ⟨h, h'⟩)
            · exact Or.inr (Or.inl h)
            · exact Or.inr (Or.inr ⟨h, (hblk c h).2 h'⟩))
    refine ⟨cks', inv', sk, ?_⟩
    intro c
    rw [hmem c]
    constructor
    · rintro ⟨h | ⟨_, rfl⟩ | ⟨h, _⟩, hf⟩
      · exact Or.inl h
      · simp [freeBlk] at hf
      · exact Or.inr ⟨h, hf⟩
    · rintro (rfl | ⟨h, hf⟩)
      · exact ⟨Or.inl rfl, rfl⟩
      · exact ⟨Or.inr (Or.inr ⟨h, hside c h hf⟩), hf⟩

theorem tryAlloc_ok {St Sl : Nat → Prop} {s : HS} {cks : List Chunk} (inv : Inv St Sl noEx s cks) {tag k : Nat} (hk : 0 < k)
    (htag : s.mem tag = (32 * k : Nat)) :
    ∃ r, Ev (fun f => tryAlloc f s tag) r ∧
      ((r = none ∧ (∀ b ∈ blocks cks, b.free = true → b.size ≠ 288 → b.size < 32 * k) ∧
          ∀ G, Chain s.mem s.bigBlocks G → ∀ x ∈ G, ∀ n, freeBlk x n ∈ blocks cks → n < 32 * k) ∨
       ∃ s' adr, r = some (s', adr + 8) ∧ Allocd St Sl s cks k tag s' adr) := by
  have ok := inv.ok
  obtain ⟨F, G, L⟩ := inv.lists
  have inj := (sep_of_chunks ok).adrInj
  -- sizes of the blocks in G
  have hsz : ∀ x, ∃ n, x ∈ G → freeBlk x n ∈ blocks cks := by
    intro x
    by_cases hx : x ∈ G
    · obtain ⟨n, hn⟩ := L.bigIn x hx; exact ⟨n, fun _ => hn⟩
    · exact ⟨0, fun h => absurd h hx⟩
  choose sz hsz using hsz
  obtain ⟨r, ⟨Fb, hFb⟩, hr⟩ := findBig_ok s.mem (32 * k) sz G s.bigBlocks 0 L.big (by
    intro x hx
    exact (inv.tables _ (hsz x hx) (fun h => h)).1)
  have e1 : 32 * k / 32 = k := by omega
  have e2 : 32 * k % 32 = 0 := by omega
  -- the search in `bigBlocks`
  have hbig : (∀ f, Fb ≤ f → tryAlloc f s tag = (findBig f s.mem (32 * k) s.bigBlocks 0).bind fun r =>
      match r with
      | none => some none
      | some (adr, prev, t) => (finish f (takeBig s adr prev t (32 * k)).1 (takeBig s adr prev t (32 * k)).2 (32 * k) tag).bind
          fun r => some (some r)) → (∀ j, k ≤ j → 1 ≤ j → j < 9 → F j = []) →
      ∃ r, Ev (fun f => tryAlloc f s tag) r ∧
      ((r = none ∧ (∀ b ∈ blocks cks, b.free = true → b.size ≠ 288 → b.size < 32 * k) ∧
          ∀ G, Chain s.mem s.bigBlocks G → ∀ x ∈ G, ∀ n, freeBlk x n ∈ blocks cks → n < 32 * k) ∨
       ∃ s' adr, r = some (s', adr + 8) ∧ Allocd St Sl s cks k tag s' adr) := by
    intro hstep hempty
    rcases hr with ⟨e, hsm⟩ | ⟨G1, x, G2, eG, er, hle⟩
    · refine ⟨none, ⟨Fb, fun f hf => ?_⟩, Or.inl ⟨rfl, ?_, ?_⟩⟩
      · show tryAlloc f s tag = _
        have hb : findBig f s.mem (32 * k) s.bigBlocks 0 = some r := hFb f hf
        rw [hstep f hf, hb, e]; rfl
      · intro b hb hf h288
        rcases L.all b hb hf h288 with ⟨h9, hin⟩ | hin
        · by_contra hlt
          have hp := (ok.blk b hb).sizePos
          have h32 := (ok.blk b hb).size32
          rw [hempty (b.size / 32) (by omega) (by omega) h9] at hin
          simp at hin
        · have := inj _ (hsz _ hin) b hb rfl
          have h' := hsm _ hin
          rw [← this]; exact h'
      · intro G' hG' x hx n hn
        rw [chain_unique hG' L.big] at hx
        have := inj _ (hsz _ hx) _ hn rfl
        have h' := hsm _ hx
        simp only [freeBlk, Blk.mk.injEq] at this
        omega
    · have hin : x ∈ G := by rw [eG]; exact List.mem_append_right _ (List.mem_cons_self ..)
      rw [eG] at L
      obtain ⟨s1, hs1, took⟩ := takeBig_ok inv L (hsz x hin) hk hle
      obtain ⟨s', ⟨F2, hF2⟩, hal⟩ := took_finish inv hk hle took tag
      refine ⟨some (s', x + (sz x - 32 * k) + 8), ⟨max Fb F2, fun f hf => ?_⟩, Or.inr ⟨s', _, rfl, hal⟩⟩
      show tryAlloc f s tag = _
      have hb : findBig f s.mem (32 * k) s.bigBlocks 0 = some r := hFb f (by omega)
      have hf2 : finish f s1 (x + (sz x - 32 * k)) (32 * k) tag = some (s', x + (sz x - 32 * k) + 8) := hF2 f (by omega)
      rw [hstep f (by omega), hb, er]
      simp only [Option.bind_some, hs1, hf2]
  by_cases hk9 : k < 9
  · obtain ⟨j, hfind, hkj, hj9, hne⟩ := findFree_ok s.freeList inv.fl9 10 k (by omega) (by omega)
    by_cases hj : j < 9
    · obtain ⟨s1, hs1, took⟩ := takeSmall_ok inv (by omega) hkj hj hne
      have e3 : 32 * (j - k) = 32 * j - 32 * k := by omega
      rw [e3] at hs1 took
      obtain ⟨s', ⟨F2, hF2⟩, hal⟩ := took_finish inv hk (by omega) took tag
      refine ⟨_, ⟨F2, fun f hf => ?_⟩, Or.inr ⟨s', _, rfl, hal⟩⟩
      have hf2 : finish f s1 (s.freeList j + (32 * j - 32 * k)) (32 * k) tag = _ := hF2 f hf
      simp only [tryAlloc, htag, Int.toNat_natCast, e2, e1, if_pos hk9, hfind, Option.bind_eq_bind, Option.bind_some,
        if_pos hj, hs1, ne_eq, not_true_eq_false, if_false, hf2]
    · refine hbig (fun f hf => ?_) ?_
      · simp only [tryAlloc, htag, Int.toNat_natCast, e2, e1, if_pos hk9, hfind, Option.bind_eq_bind, Option.bind_some,
          if_neg hj, ne_eq, not_true_eq_false, if_false]
        congr 1
      · intro i hi h1 h9
        -- findFree passed over i
        have hgen : ∀ (f a j : Nat) (r : Nat), findFree s.freeList f a = some (j, r) → ∀ i, a ≤ i → i < j →
            s.freeList i = 0 := by
          intro f
          induction f with
          | zero => intro a j r h; simp [findFree] at h
          | succ f ih =>
            intro a j r h i ha hij
            simp only [findFree] at h
            by_cases h9 : a > 9
            · simp [h9] at h
            rw [if_neg h9] at h
            by_cases h0 : s.freeList a ≠ 0
            · rw [if_pos h0] at h
              simp only [Option.some.injEq, Prod.mk.injEq] at h
              omega
            · rw [if_neg h0] at h
              by_cases hia : i = a
              · rw [hia]; simpa using h0
              · exact ih (a + 1) j r h i (by omega) hij
        have h0 := hgen 10 k j _ hfind i hi (by omega)
        have hch := L.small i h1 h9
        rw [h0] at hch
        match hFi : F i, hch with
        | [], _ => rfl
        | x :: xs, hch => exact absurd hch.1.symm hch.2.1
  · refine hbig (fun f hf => ?_) (fun j hj h1 h9 => by omega)
    simp only [tryAlloc, htag, Int.toNat_natCast, e2, e1, if_neg hk9, Option.bind_eq_bind, Option.bind_some,
      ne_eq, not_true_eq_false, if_false]
    congr 1

end Verif.Heap
