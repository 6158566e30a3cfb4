import Verif.Heap.LemmasSort
import Verif.Heap.PropsMark

/-!
# Layout facts, and the search for candidates
-/
namespace Verif.Heap

theorem sizes_cons (b : Blk) (bs : List Blk) : sizes (b :: bs) = b.size + sizes bs := by simp [sizes]
theorem sizes_append (as bs : List Blk) : sizes (as ++ bs) = sizes as + sizes bs := by simp [sizes]

theorem tile_append {a : Nat} {as bs : List Blk} : Tile a (as ++ bs) ↔ Tile a as ∧ Tile (a + sizes as) bs := by
  induction as generalizing a with
  | nil => simp [Tile, sizes]
  | cons b as ih =>
    simp only [List.cons_append, Tile, ih, sizes_cons, and_assoc, Nat.add_assoc]

theorem tile_bounds {a : Nat} {bs : List Blk} (h : Tile a bs) {b : Blk} (hb : b ∈ bs) :
    a ≤ b.adr ∧ b.adr + b.size ≤ a + sizes bs := by
  induction bs generalizing a with
  | nil => simp at hb
  | cons c bs ih =>
    obtain ⟨h1, h2⟩ := h
    rw [sizes_cons]
    rcases List.mem_cons.1 hb with rfl | hb
    · omega
    · have := ih h2 hb; omega

/-- Two blocks of a tiling are the same or do not overlap. -/
theorem tile_disjoint {a : Nat} {bs : List Blk} (h : Tile a bs) {b c : Blk} (hb : b ∈ bs) (hc : c ∈ bs) :
    b = c ∨ b.adr + b.size ≤ c.adr ∨ c.adr + c.size ≤ b.adr := by
  induction bs generalizing a with
  | nil => simp at hb
  | cons d bs ih =>
    obtain ⟨h1, h2⟩ := h
    rcases List.mem_cons.1 hb with rfl | hb'
    · rcases List.mem_cons.1 hc with rfl | hc'
      · exact Or.inl rfl
      · have := tile_bounds h2 hc'; omega
    · rcases List.mem_cons.1 hc with rfl | hc'
      · have := tile_bounds h2 hb'; omega
      · exact ih h2 hb' hc'

theorem mem_blocks {cs : List Chunk} {b : Blk} : b ∈ blocks cs ↔ ∃ c ∈ cs, b ∈ c.blks := by
  simp [blocks]

theorem blk_bounds {St : Nat → Prop} {cs : List Chunk} (ok : ChunksOK St cs) {c : Chunk} (hc : c ∈ cs) {b : Blk}
    (hb : b ∈ c.blks) : c.adr + 24 ≤ b.adr ∧ b.adr + b.size ≤ c.end_ := by
  have := tile_bounds (ok.tile c hc) hb
  unfold Chunk.end_; omega

theorem chunk_disjoint {St : Nat → Prop} {cs : List Chunk} (ok : ChunksOK St cs) {c d : Chunk} (hc : c ∈ cs)
    (hd : d ∈ cs) : c = d ∨ c.end_ ≤ d.adr ∨ d.end_ ≤ c.adr := by
  have hp := ok.sorted
  clear ok
  induction cs with
  | nil => simp at hc
  | cons e cs ih =>
    rw [List.pairwise_cons] at hp
    rcases List.mem_cons.1 hc with rfl | hc'
    · rcases List.mem_cons.1 hd with rfl | hd'
      · exact Or.inl rfl
      · exact Or.inr (Or.inl (hp.1 d hd'))
    · rcases List.mem_cons.1 hd with rfl | hd'
      · exact Or.inr (Or.inr (hp.1 c hc'))
      · exact ih hc' hd' hp.2

theorem blocks_disjoint {St : Nat → Prop} {cs : List Chunk} (ok : ChunksOK St cs) {b b' : Blk} (hb : b ∈ blocks cs)
    (hb' : b' ∈ blocks cs) : b = b' ∨ b.adr + b.size ≤ b'.adr ∨ b'.adr + b'.size ≤ b.adr := by
  obtain ⟨c, hc, hbc⟩ := mem_blocks.1 hb
  obtain ⟨d, hd, hbd⟩ := mem_blocks.1 hb'
  have h1 := blk_bounds ok hc hbc
  have h2 := blk_bounds ok hd hbd
  rcases chunk_disjoint ok hc hd with rfl | h | h
  · exact tile_disjoint (ok.tile c hc) hbc hbd
  · omega
  · omega

/-- A pointer field lies inside its block. -/
theorem fld_bounds {St : Nat → Prop} {b : Blk} (ok : BlkOK St b) {a : Nat} (ha : a ∈ b.flds) :
    b.adr + 8 ≤ a ∧ a + 8 ≤ b.adr + b.size ∧ a % 8 = 0 := by
  unfold Blk.flds at ha
  obtain ⟨o, ho, rfl⟩ := List.mem_map.1 ha
  have h1 := ok.offs o ho
  have h2 := ok.adr8
  unfold Blk.ptr
  omega

theorem table_mem {b : Blk} {a : Nat} (ha : a ∈ b.table) : ∃ i, i < b.offs.length + 2 ∧ a = b.tag + 8 * i := by
  unfold Blk.table at ha
  obtain ⟨i, hi, rfl⟩ := List.mem_map.1 ha
  exact ⟨i, List.mem_range.1 hi, rfl⟩

/-- A word a tag refers to is unchanging or inside its block, behind the tag word. -/
theorem table_bounds {St : Nat → Prop} {b : Blk} (ok : BlkOK St b) {a : Nat} (ha : a ∈ b.table) :
    St a ∨ (b.adr + 8 ≤ a ∧ a + 8 ≤ b.adr + b.size) := by
  rcases ok.table with h | ⟨h1, h2, _⟩
  · exact Or.inl (h a ha)
  · obtain ⟨i, hi, rfl⟩ := table_mem ha
    right; omega

theorem blk_static {St : Nat → Prop} {cs : List Chunk} (ok : ChunksOK St cs) {b : Blk} (hb : b ∈ blocks cs) {a : Nat}
    (ha : St a) : a + 8 ≤ b.adr ∨ b.adr + b.size ≤ a := by
  obtain ⟨c, hc, hbc⟩ := mem_blocks.1 hb
  have h1 := blk_bounds ok hc hbc
  have h2 := ok.static c hc a ha
  omega

theorem sep_of_chunks {St : Nat → Prop} {cs : List Chunk} (ok : ChunksOK St cs) : Sep (blocks cs) := by
  refine ⟨fun b hb => (ok.blk b hb).tag8, ?_, fun b hb => (ok.blk b hb).offsNodup, ?_, ?_, ?_, ?_⟩
  · intro b hb c hc h
    have h1 := (ok.blk b hb).sizePos
    have h2 := (ok.blk c hc).sizePos
    rcases blocks_disjoint ok hb hc with h' | h' | h'
    · exact h'
    · omega
    · omega
  · intro b hb c hc h
    have h1 := fld_bounds (ok.blk c hc) h
    have h2 := (ok.blk b hb).sizePos
    rcases blocks_disjoint ok hb hc with h' | h' | h'
    · subst h'; omega
    · omega
    · omega
  · intro b hb c hc h
    have h2 := (ok.blk b hb).sizePos
    rcases table_bounds (ok.blk c hc) h with h1 | h1
    · have := blk_static ok hb h1; omega
    · rcases blocks_disjoint ok hb hc with h' | h' | h'
      · subst h'; omega
      · omega
      · omega
  · intro b hb c hc a ha h
    have h1 := fld_bounds (ok.blk b hb) ha
    rcases table_bounds (ok.blk c hc) h with h2 | h2
    · have := blk_static ok hb h2; omega
    · rcases blocks_disjoint ok hb hc with h' | h' | h'
      · subst h'
        rcases (ok.blk b hb).table with h3 | ⟨h3, h4, h5⟩
        · have := blk_static ok hb (h3 a h); omega
        · obtain ⟨i, hi, e⟩ := table_mem h
          unfold Blk.flds at ha
          obtain ⟨o, ho, e'⟩ := List.mem_map.1 ha
          have := h5 o ho
          unfold Blk.ptr at e'
          omega
      · omega
      · omega
  · intro b hb c hc a ha h
    have h1 := fld_bounds (ok.blk b hb) ha
    have h2 := fld_bounds (ok.blk c hc) h
    rcases blocks_disjoint ok hb hc with h' | h' | h'
    · exact h'
    · omega
    · omega

/-- Marking does not change the words of chunk headers. -/
theorem header_frame {St : Nat → Prop} {cs : List Chunk} (ok : ChunksOK St cs) {c : Chunk} (hc : c ∈ cs) {a : Nat}
    (h1 : c.adr ≤ a) (h2 : a < c.adr + 24) : ∀ b ∈ blocks cs, a ≠ b.adr := by
  intro b hb h
  obtain ⟨d, hd, hbd⟩ := mem_blocks.1 hb
  have h3 := blk_bounds ok hd hbd
  have h4 := (ok.blk b hb).sizePos
  rcases chunk_disjoint ok hc hd with rfl | h' | h'
  · omega
  · have : c.adr + 24 ≤ c.end_ := by unfold Chunk.end_; omega
    omega
  · omega

theorem linked_congr {m m' : Mem} : ∀ {cs : List Chunk} {a : Nat}, (∀ c ∈ cs, m' c.adr = m c.adr) → Linked m a cs →
    Linked m' a cs
  | [], _, _, h => h
  | c :: cs, a, he, ⟨h1, h2, n, h3, h4⟩ => by
    refine ⟨h1, h2, n, ?_, linked_congr (fun d hd => he d (List.mem_cons_of_mem _ hd)) h4⟩
    rw [h1, he c (List.mem_cons_self ..), ← h1]; exact h3

theorem chunksIn_frame {St : Nat → Prop} {cs : List Chunk} (ok : ChunksOK St cs) {m m' : Mem} {heap : Nat}
    (frame : ∀ a, (∀ b ∈ blocks cs, a ≠ b.adr) → m' a = m a) (h : ChunksIn m heap cs) : ChunksIn m' heap cs := by
  refine ⟨linked_congr (fun c hc => frame _ (header_frame ok hc (Nat.le_refl _) (by omega))) h.linked, ?_⟩
  intro c hc
  rw [frame _ (header_frame ok hc (by omega) (by omega))]
  exact h.ends c hc

/-! ## MarkCandidates -/

theorem skipCand_none {ptr : Nat} : ∀ {cs : List Nat}, skipCand ptr cs = none → ∀ c ∈ cs, c < ptr
  | [], _ => by simp
  | c :: cs, h => by
    unfold skipCand at h
    by_cases hc : c < ptr
    · rw [if_pos hc] at h
      intro x hx
      rcases List.mem_cons.1 hx with rfl | hx
      · exact hc
      · exact skipCand_none h x hx
    · rw [if_neg hc] at h; cases h

theorem skipCand_some {ptr : Nat} : ∀ {cs ds : List Nat}, skipCand ptr cs = some ds →
    ∃ c ds' pre, ds = c :: ds' ∧ cs = pre ++ ds ∧ ptr ≤ c ∧ ∀ x ∈ pre, x < ptr
  | [], ds, h => by simp [skipCand] at h
  | c :: cs, ds, h => by
    unfold skipCand at h
    by_cases hc : c < ptr
    · rw [if_pos hc] at h
      obtain ⟨d, ds', pre, h1, h2, h3, h4⟩ := skipCand_some h
      refine ⟨d, ds', c :: pre, h1, by rw [h2]; rfl, h3, ?_⟩
      intro x hx
      rcases List.mem_cons.1 hx with rfl | hx
      · exact hc
      · exact h4 x hx
    · rw [if_neg hc] at h
      cases h
      exact ⟨c, cs, [], rfl, rfl, by omega, by simp⟩

/-- What remains to be marked: the blocks in `bs` that a candidate in `cs` hits. -/
def HitBy (bs : List Blk) (cs : List Nat) (b : Blk) : Prop := b ∈ bs ∧ ∃ w ∈ cs, Hits w b

theorem traceable_tag {bs : List Blk} (sep : Sep bs) {m : Mem} (tr : Traceable bs m) {b : Blk} (hb : b ∈ bs) :
    (Marked m b ∧ m b.adr = b.tag + 1) ∨ (¬ Marked m b ∧ m b.adr = b.tag) := by
  have hT := sep.tagEven b hb
  rcases tr.tags b hb with h | h
  · right; refine ⟨?_, h⟩; unfold Marked; rw [h]; simp [odd]; omega
  · left; refine ⟨?_, h⟩; unfold Marked; rw [h]; exact odd_cast_add_one (by omega)

/-- Roots that are marked already add nothing. -/
theorem markedFrom_marked {bs : List Blk} (sep : Sep bs) {R R' : Blk → Prop} {m m' : Mem} (h : MarkedFrom bs R m m')
    (h1 : ∀ b ∈ bs, R b → R' b) (h2 : ∀ b ∈ bs, R' b → R b ∨ Marked m b) (cl : Closed bs m) :
    MarkedFrom bs R' m m' := by
  refine ⟨h.traceable, h.closed, h.frame, ?_⟩
  intro c hc
  rw [h.marks c hc]
  constructor
  · rintro (h' | ⟨r, hr, hR, hre⟩)
    · exact Or.inl h'
    · exact Or.inr ⟨r, hr, h1 r hr hR, hre⟩
  · rintro (h' | ⟨r, hr, hR, hre⟩)
    · exact Or.inl h'
    · rcases h2 r hr hR with h3 | h3
      · exact Or.inr ⟨r, hr, h3, hre⟩
      · exact Or.inl (reach_marked cl hr hre h3)

theorem candBlocks_ok {bs : List Blk} (sep : Sep bs) (end_ : Nat) : ∀ (rest : List Blk) (m : Mem) (adr : Nat)
    (cs : List Nat), Traceable bs m → Closed bs m → (∀ b ∈ rest, b ∈ bs ∧ 0 < b.size) → Tile adr rest →
    adr + sizes rest = end_ → cs.Pairwise (· ≤ ·) →
    ∃ r m', Ev (fun f => candBlocks f m adr end_ cs) r ∧ MarkedFrom bs (HitBy rest cs) m m' ∧
      ((r = .returned m' ∧ ∀ c ∈ cs, c < end_ + 8) ∨
       ∃ cs', r = .go m' cs' ∧ ∃ pre, cs = pre ++ cs' ∧ ∀ c ∈ pre, c < end_ + 8) := by
  intro rest
  induction rest with
  | nil =>
    intro m adr cs tr cl _ _ he _
    refine ⟨.go m cs, m, ⟨1, ?_⟩, markedFrom_congr (markedFrom_refl tr cl) (fun b _ => by simp [HitBy]), ?_⟩
    · intro f hf
      obtain ⟨g, rfl⟩ : ∃ g, f = g + 1 := ⟨f - 1, by omega⟩
      simp only [candBlocks]
      rw [if_neg (by simp [sizes] at he; omega)]
    · exact Or.inr ⟨cs, rfl, [], rfl, by simp⟩
  | cons b rest ih =>
    intro m adr cs tr cl hin ht he hsort
    obtain ⟨hb, hbpos⟩ := hin b (List.mem_cons_self ..)
    obtain ⟨hba, htr⟩ := ht
    rw [sizes_cons] at he
    subst hba
    have hlt : b.adr < end_ := by omega
    have hsz : m b.tag = b.size := (tr.tables b hb).1
    have hin' := fun c hc => hin c (List.mem_cons_of_mem _ hc)
    -- the part of the search after this block, from memory `m1` and the remaining candidates `c :: ds`
    have tail : ∀ (m1 : Mem) (R : Blk → Prop) (c : Nat) (ds : List Nat) (pre : List Nat), MarkedFrom bs R m m1 →
        cs = pre ++ c :: ds → (∀ x ∈ pre, x < b.adr + b.size + 8) →
        (∀ d ∈ bs, R d → HitBy (b :: rest) cs d) →
        (∀ d ∈ bs, d = b → (∃ w ∈ cs, Hits w d) → R d ∨ Marked m d) →
        ∃ r m', Ev (fun f => candBlocks f m1 (if end_ ≤ c then end_ else b.adr + b.size) end_ (c :: ds)) r ∧
          MarkedFrom bs (HitBy (b :: rest) cs) m m' ∧
          ((r = .returned m' ∧ ∀ c ∈ cs, c < end_ + 8) ∨
           ∃ cs', r = .go m' cs' ∧ ∃ pre, cs = pre ++ cs' ∧ ∀ c ∈ pre, c < end_ + 8) := by
      intro m1 R c ds pre hm1 hcs hpre hR hR2
      have hsort' : (c :: ds).Pairwise (· ≤ ·) := by
        rw [hcs] at hsort; exact (List.pairwise_append.1 hsort).2.1
      have hge : ∀ x ∈ c :: ds, c ≤ x := by
        intro x hx
        rcases List.mem_cons.1 hx with rfl | hx
        · exact Nat.le_refl _
        · exact (List.pairwise_cons.1 hsort').1 x hx
      -- candidates in `pre` hit no later block
      have hlate : ∀ d ∈ rest, ∀ w ∈ cs, Hits w d → w ∈ c :: ds := by
        intro d hd w hw hh
        rw [hcs] at hw
        rcases List.mem_append.1 hw with hw | hw
        · have h1 := hpre w hw
          have h2 := tile_bounds htr hd
          unfold Hits Blk.ptr at hh
          omega
        · exact hw
      by_cases hend : end_ ≤ c
      · rw [if_pos hend]
        refine ⟨.go m1 (c :: ds), m1, ⟨1, ?_⟩, ?_, Or.inr ⟨c :: ds, rfl, pre, hcs, ?_⟩⟩
        · intro f hf
          obtain ⟨g, rfl⟩ : ∃ g, f = g + 1 := ⟨f - 1, by omega⟩
          simp only [candBlocks]
          rw [if_neg (by omega)]
        · refine markedFrom_marked sep hm1 hR ?_ cl
          rintro d hd ⟨hdm, w, hw, hh⟩
          rcases List.mem_cons.1 hdm with e | hdr
          · exact hR2 d hd e ⟨w, hw, hh⟩
          · have h1 := hge w (hlate d hdr w hw hh)
            have h2 := tile_bounds htr hdr
            unfold Hits at hh
            omega
        · intro x hx; have := hpre x hx; omega
      · rw [if_neg hend]
        obtain ⟨r, m', hev, hmf, hr⟩ := ih m1 (b.adr + b.size) (c :: ds) hm1.traceable hm1.closed hin' htr (by omega) hsort'
        refine ⟨r, m', hev, ?_, ?_⟩
        · refine markedFrom_marked sep (markedFrom_trans sep hm1 hmf) ?_ ?_ cl
          · rintro d hd (h | ⟨h, w, hw, hh⟩)
            · exact hR d hd h
            · exact ⟨List.mem_cons_of_mem _ h, w, by rw [hcs]; exact List.mem_append_right _ hw, hh⟩
          · rintro d hd ⟨hdm, w, hw, hh⟩
            rcases List.mem_cons.1 hdm with e | hdr
            · rcases hR2 d hd e ⟨w, hw, hh⟩ with h | h
              · exact Or.inl (Or.inl h)
              · exact Or.inr h
            · exact Or.inl (Or.inr ⟨hdr, w, hlate d hdr w hw hh, hh⟩)
        · rcases hr with ⟨e, h⟩ | ⟨cs', e, pre', h, h'⟩
          · left
            refine ⟨e, ?_⟩
            intro x hx
            rw [hcs] at hx
            rcases List.mem_append.1 hx with hx | hx
            · have := hpre x hx; omega
            · exact h x hx
          · right
            refine ⟨cs', e, pre ++ pre', by rw [hcs, h, List.append_assoc], ?_⟩
            intro x hx
            rcases List.mem_append.1 hx with hx | hx
            · have := hpre x hx; omega
            · exact h' x hx
    -- a return: all candidates lie before `ptr`
    rcases traceable_tag sep tr hb with ⟨hbm, htag⟩ | ⟨hbm, htag⟩
    · have hunf : ∀ f, candBlocks (f + 1) m b.adr end_ cs = match skipCand (b.adr + b.size + 8) cs with
          | none => some (.returned m)
          | some [] => none
          | some (c :: ds) => candBlocks f m (if end_ ≤ c then end_ else b.adr + b.size) end_ (c :: ds) := by
        intro f
        have h1 : ((b.tag : Int) + 1 - 1).toNat = b.tag := by omega
        have h2 : odd ((b.tag : Int) + 1) = true := by rw [← htag]; exact hbm
        rw [candBlocks, if_pos hlt]
        simp only [htag, h1, hsz, h2, if_true, Int.toNat_natCast]
        rcases skipCand (b.adr + b.size + 8) cs with _ | _ | _ <;> rfl
      cases hsk : skipCand (b.adr + b.size + 8) cs with
      | none =>
        refine ⟨.returned m, m, ⟨1, ?_⟩, ?_, Or.inl ⟨rfl, ?_⟩⟩
        · intro f hf
          obtain ⟨g, rfl⟩ : ∃ g, f = g + 1 := ⟨f - 1, by omega⟩
          simp only [hunf, hsk]
        · refine markedFrom_marked sep (markedFrom_refl tr cl) (fun _ _ h => absurd h id) ?_ cl
          rintro d hd ⟨hdm, w, hw, hh⟩
          have h1 := skipCand_none hsk w hw
          rcases List.mem_cons.1 hdm with e | hdr
          · rw [e]; exact Or.inr hbm
          · have h2 := tile_bounds htr hdr
            unfold Hits Blk.ptr at hh
            omega
        · intro x hx; have := skipCand_none hsk x hx; omega
      | some ds =>
        obtain ⟨c, ds', pre, rfl, hcs, hptr, hpre⟩ := skipCand_some hsk
        obtain ⟨r, m', ⟨F, hF⟩, hmf, hr⟩ := tail m _ c ds' pre (markedFrom_refl tr cl) hcs hpre
          (fun _ _ h => absurd h id) (fun d _ e _ => by rw [e]; exact Or.inr hbm)
        refine ⟨r, m', ⟨F + 1, ?_⟩, hmf, hr⟩
        intro f hf
        obtain ⟨g, rfl⟩ : ∃ g, f = g + 1 := ⟨f - 1, by omega⟩
        simp only [hunf, hsk]
        exact hF g (by omega)
    · have hunf : ∀ f, candBlocks (f + 1) m b.adr end_ cs = match skipCand (b.adr + 8) cs with
          | none => some (.returned m)
          | some [] => none
          | some (c :: ds) => (if c < b.adr + b.size then mark f m (b.adr + 8) else some m).bind fun m =>
              candBlocks f m (if end_ ≤ c then end_ else b.adr + b.size) end_ (c :: ds) := by
        intro f
        have h2 : odd (b.tag : Int) = false := by
          rw [← htag]; unfold Marked at hbm; simpa using hbm
        rw [candBlocks, if_pos hlt]
        simp only [htag, hsz, h2, Int.toNat_natCast, Option.bind_eq_bind]
        rcases skipCand (b.adr + 8) cs with _ | _ | ⟨c, ds⟩
        · rfl
        · rfl
        · rw [if_neg (by simp)]
          simp only
          split <;> rfl
      cases hsk : skipCand (b.adr + 8) cs with
      | none =>
        refine ⟨.returned m, m, ⟨1, ?_⟩, ?_, Or.inl ⟨rfl, ?_⟩⟩
        · intro f hf
          obtain ⟨g, rfl⟩ : ∃ g, f = g + 1 := ⟨f - 1, by omega⟩
          simp only [hunf, hsk]
        · refine markedFrom_marked sep (markedFrom_refl tr cl) (fun _ _ h => absurd h id) ?_ cl
          rintro d hd ⟨hdm, w, hw, hh⟩
          have h1 := skipCand_none hsk w hw
          rcases List.mem_cons.1 hdm with e | hdr
          · subst e; unfold Hits Blk.ptr at hh; omega
          · have h2 := tile_bounds htr hdr
            unfold Hits Blk.ptr at hh
            omega
        · intro x hx; have := skipCand_none hsk x hx; omega
      | some ds =>
        obtain ⟨c, ds', pre, rfl, hcs, hptr, hpre⟩ := skipCand_some hsk
        have hcmem : c ∈ cs := by rw [hcs]; exact List.mem_append_right _ (List.mem_cons_self ..)
        by_cases hclt : c < b.adr + b.size
        · obtain ⟨m1, ⟨F1, hF1⟩, hm1⟩ := mark_ok sep tr cl hb
          obtain ⟨r, m', ⟨F, hF⟩, hmf, hr⟩ := tail m1 _ c ds' pre hm1 hcs
            (fun x hx => by have := hpre x hx; omega)
            (fun d _ h => by
              subst h
              exact ⟨List.mem_cons_self .., c, hcmem, by unfold Hits Blk.ptr; omega⟩)
            (fun d _ e _ => Or.inl e)
          refine ⟨r, m', ⟨max F F1 + 1, ?_⟩, hmf, hr⟩
          intro f hf
          obtain ⟨g, rfl⟩ : ∃ g, f = g + 1 := ⟨f - 1, by omega⟩
          simp only [hunf, hsk, if_pos hclt]
          have h1 : mark g m (b.adr + 8) = some m1 := hF1 g (by omega)
          rw [h1, Option.bind_some]
          exact hF g (by omega)
        · obtain ⟨r, m', ⟨F, hF⟩, hmf, hr⟩ := tail m _ c ds' pre (markedFrom_refl tr cl) hcs
            (fun x hx => by have := hpre x hx; omega) (fun _ _ h => absurd h id) (by
              rintro d _ rfl ⟨w, hw, hh⟩
              exfalso
              rw [hcs] at hw
              have hsort' := hsort
              rw [hcs] at hsort'
              have hs2 := (List.pairwise_append.1 hsort').2.1
              unfold Hits Blk.ptr at hh
              rcases List.mem_append.1 hw with hw | hw
              · have := hpre w hw; omega
              · rcases List.mem_cons.1 hw with e | hw
                · omega
                · have := (List.pairwise_cons.1 hs2).1 w hw; omega)
          refine ⟨r, m', ⟨F + 1, ?_⟩, hmf, hr⟩
          intro f hf
          obtain ⟨g, rfl⟩ : ∃ g, f = g + 1 := ⟨f - 1, by omega⟩
          simp only [hunf, hsk, if_neg hclt, Option.bind_some]
          exact hF g (by omega)

theorem candChunks_ok {St : Nat → Prop} {all : List Chunk} (ok : ChunksOK St all) : ∀ (cks : List Chunk) (m : Mem)
    (a : Nat) (cs : List Nat), (∀ c ∈ cks, c ∈ all) → cks.Pairwise (fun c d => c.end_ ≤ d.adr) →
    Traceable (blocks all) m → Closed (blocks all) m → Linked m a cks → (∀ c ∈ cks, m (c.adr + 8) = c.end_) →
    cs.Pairwise (· ≤ ·) →
    ∃ m', Ev (fun f => candChunks f m a cs) m' ∧ MarkedFrom (blocks all) (HitBy (blocks cks) cs) m m' := by
  have sep := sep_of_chunks ok
  intro cks
  induction cks with
  | nil =>
    intro m a cs _ _ tr cl hl _ _
    have ha : a = 0 := hl
    refine ⟨m, ⟨1, ?_⟩, markedFrom_congr (markedFrom_refl tr cl) (fun b _ => by simp [HitBy, blocks])⟩
    intro f hf
    obtain ⟨g, rfl⟩ : ∃ g, f = g + 1 := ⟨f - 1, by omega⟩
    simp only [candChunks, ha]; simp
  | cons c cks ih =>
    intro m a cs hall hp tr cl hl hends hsort
    obtain ⟨hac, hane, n, hn, hl'⟩ := hl
    subst hac
    rw [List.pairwise_cons] at hp
    have hc := hall c (List.mem_cons_self ..)
    have hin : ∀ b ∈ c.blks, b ∈ blocks all ∧ 0 < b.size := fun b hb =>
      have hb' : b ∈ blocks all := mem_blocks.2 ⟨c, hc, hb⟩
      ⟨hb', (ok.blk b hb').sizePos⟩
    obtain ⟨r, m1, ⟨F1, hF1⟩, hm1, hr⟩ := candBlocks_ok sep c.end_ c.blks m (c.adr + 24) cs tr cl hin (ok.tile c hc) rfl hsort
    have hend : (m (c.adr + 8)).toNat = c.end_ := by rw [hends c (List.mem_cons_self ..)]; omega
    have hbl : blocks (c :: cks) = c.blks ++ blocks cks := by simp [blocks]
    -- candidates before the end of the chunk do not hit later chunks
    have hlater : ∀ w, w < c.end_ + 8 → ∀ b ∈ blocks cks, ¬ Hits w b := by
      intro w hw b hb hh
      obtain ⟨d, hd, hbd⟩ := mem_blocks.1 hb
      have h1 := hp.1 d hd
      have h2 := blk_bounds ok (hall d (List.mem_cons_of_mem _ hd)) hbd
      unfold Hits Blk.ptr at hh
      omega
    rcases hr with ⟨hre, hall8⟩ | ⟨cs', hre, pre, hcs, hpre⟩
    · refine ⟨m1, ⟨F1 + 1, ?_⟩, markedFrom_congr hm1 ?_⟩
      · intro f hf
        obtain ⟨g, rfl⟩ : ∃ g, f = g + 1 := ⟨f - 1, by omega⟩
        simp only [candChunks, if_pos hane, hend, hF1 g (by omega), hre, Option.bind_eq_bind, Option.bind_some]
      · intro b _
        unfold HitBy
        rw [hbl]
        constructor
        · rintro ⟨h, w, hw, hh⟩; exact ⟨List.mem_append_left _ h, w, hw, hh⟩
        · rintro ⟨h, w, hw, hh⟩
          rcases List.mem_append.1 h with h | h
          · exact ⟨h, w, hw, hh⟩
          · exact absurd hh (hlater w (hall8 w hw) b h)
    · have hl1 : Linked m1 n cks := by
        refine linked_congr (fun d hd => ?_) hl'
        exact hm1.frame _ (header_frame ok (hall d (List.mem_cons_of_mem _ hd)) (Nat.le_refl _) (by omega))
      obtain ⟨m2, ⟨F2, hF2⟩, hm2⟩ := ih m1 n cs' (fun d hd => hall d (List.mem_cons_of_mem _ hd)) hp.2 hm1.traceable
        hm1.closed hl1 (by
          intro d hd
          rw [hm1.frame _ (header_frame ok (hall d (List.mem_cons_of_mem _ hd)) (by omega) (by omega))]
          exact hends d (List.mem_cons_of_mem _ hd)) (by
          rw [hcs] at hsort; exact (List.pairwise_append.1 hsort).2.1)
      refine ⟨m2, ⟨max F1 F2 + 1, ?_⟩, markedFrom_congr (markedFrom_trans sep hm1 hm2) ?_⟩
      · intro f hf
        obtain ⟨g, rfl⟩ : ∃ g, f = g + 1 := ⟨f - 1, by omega⟩
        have hnext : (m1 c.adr).toNat = n := by
          rw [hm1.frame _ (header_frame ok hc (Nat.le_refl _) (by omega)), hn]; omega
        simp only [candChunks, if_pos hane, hend, hF1 g (by omega), hre, Option.bind_eq_bind, Option.bind_some, hnext]
        exact hF2 g (by omega)
      · intro b _
        unfold HitBy
        rw [hbl]
        constructor
        · rintro (⟨h, w, hw, hh⟩ | ⟨h, w, hw, hh⟩)
          · exact ⟨List.mem_append_left _ h, w, hw, hh⟩
          · exact ⟨List.mem_append_right _ h, w, by rw [hcs]; exact List.mem_append_right _ hw, hh⟩
        · rintro ⟨h, w, hw, hh⟩
          rcases List.mem_append.1 h with h | h
          · exact Or.inl ⟨h, w, hw, hh⟩
          · right
            refine ⟨h, w, ?_, hh⟩
            rw [hcs] at hw
            rcases List.mem_append.1 hw with hw | hw
            · exact absurd hh (hlater w (hpre w hw) b h)
            · exact hw

theorem sortAndMark_ok {St : Nat → Prop} {cks : List Chunk} (ok : ChunksOK St cks) {s : HS} {m : Mem}
    (hin : ChunksIn m s.heap cks) (tr : Traceable (blocks cks) m) (cl : Closed (blocks cks) m) (n : Nat) (hn : 0 < n)
    (a : Nat → Nat) :
    ∃ m', Ev (fun f => sortAndMark f s m n a) m' ∧
      MarkedFrom (blocks cks) (fun b => ∃ w ∈ elems n a, Hits w b) m m' := by
  obtain ⟨a', h1, hs, hp⟩ := heapSort_ok n hn a
  obtain ⟨m', ⟨F, hF⟩, hm⟩ := candChunks_ok ok cks m s.heap (elems n a') (fun _ h => h) ok.sorted tr cl hin.linked
    hin.ends hs
  refine ⟨m', ⟨F, ?_⟩, markedFrom_congr hm ?_⟩
  · intro f hf
    simp only [sortAndMark]
    rw [if_neg (by omega), h1]
    exact hF f hf
  · intro b hb
    unfold HitBy
    simp only [hb, true_and, hp.mem_iff]

theorem stackLoop_ok {St : Nat → Prop} {cks : List Chunk} (ok : ChunksOK St cks) {s : HS} (cap : Nat) (hcap : 0 < cap)
    (hmin : ∀ c ∈ cks, s.heapMin ≤ c.adr + 32) (hmax : ∀ c ∈ cks, c.end_ ≤ s.heapMax) :
    ∀ (ws : List Nat) (m : Mem) (n : Nat) (a : Nat → Nat), ChunksIn m s.heap cks → Traceable (blocks cks) m →
    Closed (blocks cks) m →
    ∃ m', Ev (fun f => stackLoop cap f s m n a ws) m' ∧
      MarkedFrom (blocks cks) (fun b => ∃ w, (w ∈ elems n a ∨ w ∈ ws) ∧ Hits w b) m m' := by
  have sep := sep_of_chunks ok
  intro ws
  induction ws with
  | nil =>
    intro m n a hin tr cl
    by_cases hn : 0 < n
    · obtain ⟨m', ⟨F, hF⟩, hm⟩ := sortAndMark_ok ok hin tr cl n hn a
      refine ⟨m', ⟨F, fun f hf => by simp only [stackLoop, if_pos hn]; exact hF f hf⟩, markedFrom_congr hm ?_⟩
      intro b _; simp
    · refine ⟨m, ⟨0, fun f _ => by simp only [stackLoop, if_neg hn]⟩, markedFrom_congr (markedFrom_refl tr cl) ?_⟩
      intro b _
      have : n = 0 := by omega
      subst this
      simp [elems]
  | cons p ws ih =>
    intro m n a hin tr cl
    by_cases hp : s.heapMin ≤ p ∧ p < s.heapMax
    · by_cases hfull : n = cap
      · obtain ⟨m1, ⟨F1, hF1⟩, hm1⟩ := sortAndMark_ok ok hin tr cl n (by omega) a
        obtain ⟨m2, ⟨F2, hF2⟩, hm2⟩ := ih m1 1 (put a 0 p) (chunksIn_frame ok hm1.frame hin) hm1.traceable hm1.closed
        refine ⟨m2, ⟨max F1 F2, ?_⟩, markedFrom_congr (markedFrom_trans sep hm1 hm2) ?_⟩
        · intro f hf
          simp only [stackLoop, if_pos hp, if_pos hfull, hF1 f (by omega), Option.bind_eq_bind, Option.bind_some]
          exact hF2 f (by omega)
        · intro b _
          have h1 : elems 1 (put a 0 p) = [p] := by
            simp [elems, put]
          rw [h1]
          constructor
          · rintro (⟨w, h, hh⟩ | ⟨w, h | h, hh⟩)
            · exact ⟨w, Or.inl h, hh⟩
            · exact ⟨w, Or.inr (by simp at h; simp [h]), hh⟩
            · exact ⟨w, Or.inr (List.mem_cons_of_mem _ h), hh⟩
          · rintro ⟨w, h | h, hh⟩
            · exact Or.inl ⟨w, h, hh⟩
            · rcases List.mem_cons.1 h with h | h
              · exact Or.inr ⟨w, Or.inl (by simp [h]), hh⟩
              · exact Or.inr ⟨w, Or.inr h, hh⟩
      · obtain ⟨m2, ⟨F2, hF2⟩, hm2⟩ := ih m (n + 1) (put a n p) hin tr cl
        refine ⟨m2, ⟨F2, ?_⟩, markedFrom_congr hm2 ?_⟩
        · intro f hf
          simp only [stackLoop, if_pos hp, if_neg hfull]
          exact hF2 f hf
        · intro b _
          have h1 : elems (n + 1) (put a n p) = elems n a ++ [p] := by
            rw [elems_succ, put_same, elems_congr (a := put a n p) (b := a) (fun j hj => put_other _ _ _ _ (by omega))]
          rw [h1]
          simp only [List.mem_append, List.mem_cons, List.not_mem_nil, or_false, or_assoc]
    · obtain ⟨m2, ⟨F2, hF2⟩, hm2⟩ := ih m n a hin tr cl
      refine ⟨m2, ⟨F2, ?_⟩, markedFrom_congr hm2 ?_⟩
      · intro f hf
        simp only [stackLoop, if_neg hp]
        exact hF2 f hf
      · intro b hb
        constructor
        · rintro ⟨w, h | h, hh⟩
          · exact ⟨w, Or.inl h, hh⟩
          · exact ⟨w, Or.inr (List.mem_cons_of_mem _ h), hh⟩
        · rintro ⟨w, h | h, hh⟩
          · exact ⟨w, Or.inl h, hh⟩
          · rcases List.mem_cons.1 h with h | h
            · subst h
              exfalso
              obtain ⟨c, hc, hbc⟩ := mem_blocks.1 hb
              have h1 := blk_bounds ok hc hbc
              have h2 := hmin c hc
              have h3 := hmax c hc
              unfold Hits Blk.ptr at hh
              omega
            · exact ⟨w, Or.inr h, hh⟩

end Verif.Heap
