import Verif.Heap.LemmasNew

/-!
# Collection and extension of the heap
-/
namespace Verif.Heap

theorem checkFin_ok {bs : List Blk} (sep : Sep bs) : ∀ (os : List Nat) {m : Mem}, Traceable bs m → Closed bs m →
    (∀ r ∈ os, ∃ b ∈ bs, r = b.ptr) →
    ∃ m' l, Ev (fun f => checkFin f m os) (m', l) ∧ MarkedFrom bs (fun b => b.ptr ∈ os) m m' ∧ l.length = os.length ∧
      ∀ (i : Nat) (b : Blk), b ∈ bs → os[i]? = some b.ptr →
        (l[i]? = some true ↔ Marked m b ∨ ∃ (j : Nat) (c : Blk), j < i ∧ c ∈ bs ∧ os[j]? = some c.ptr ∧ Reach bs m c b)
  | [], m, tr, cl, _ =>
    ⟨m, [], ⟨0, fun _ _ => rfl⟩, markedFrom_congr (markedFrom_refl tr cl) (fun _ _ => by simp), rfl, by simp⟩
  | r :: os, m, tr, cl, h => by
    obtain ⟨b, hb, rfl⟩ := h r (List.mem_cons_self ..)
    have hos := fun r hr => h r (List.mem_cons_of_mem _ hr)
    have e8 : b.ptr - 8 = b.adr := by unfold Blk.ptr; omega
    by_cases hm : Marked m b
    · obtain ⟨m', l, ⟨F, hF⟩, hmf, hlen, hfl⟩ := checkFin_ok sep os tr cl hos
      refine ⟨m', true :: l, ⟨F, fun f hf => ?_⟩, ?_, by simp [hlen], ?_⟩
      · have h1 : checkFin f m os = some (m', l) := hF f hf
        simp only [checkFin, e8]
        rw [if_pos (show odd (m b.adr) = true from hm), h1]; rfl
      · refine markedFrom_marked sep hmf (fun c _ h => List.mem_cons_of_mem _ h) ?_ cl
        intro c hc h
        rcases List.mem_cons.1 h with h | h
        · right; rw [ptr_inj sep hc hb (by rw [h])]; exact hm
        · exact Or.inl h
      · intro i c hc hi
        match i, hi with
        | 0, hi =>
          simp only [List.getElem?_cons_zero, Option.some.injEq] at hi
          have : c = b := ptr_inj sep hc hb (by rw [hi])
          subst this
          simp [hm]
        | i + 1, hi =>
          simp only [List.getElem?_cons_succ] at hi ⊢
          rw [hfl i c hc hi]
          constructor
          · rintro (h | ⟨j, d, hj, hd, h1, h2⟩)
            · exact Or.inl h
            · exact Or.inr ⟨j + 1, d, by omega, hd, by simpa using h1, h2⟩
          · rintro (h | ⟨j, d, hj, hd, h1, h2⟩)
            · exact Or.inl h
            · match j, h1 with
              | 0, h1 =>
                simp only [List.getElem?_cons_zero, Option.some.injEq] at h1
                have : d = b := ptr_inj sep hd hb (by rw [h1])
                subst this
                exact Or.inl (reach_marked cl hb h2 hm)
              | j + 1, h1 => exact Or.inr ⟨j, d, by omega, hd, by simpa using h1, h2⟩
    · obtain ⟨m1, ⟨F1, hF1⟩, hm1⟩ := mark_ok sep tr cl hb
      obtain ⟨m', l, ⟨F, hF⟩, hmf, hlen, hfl⟩ := checkFin_ok sep os hm1.traceable hm1.closed hos
      refine ⟨m', false :: l, ⟨max F1 F, fun f hf => ?_⟩, ?_, by simp [hlen], ?_⟩
      · have h1 : checkFin f m1 os = some (m', l) := hF f (by omega)
        have h2 : mark f m b.ptr = some m1 := hF1 f (by omega)
        simp only [checkFin, e8]
        rw [if_neg (show ¬ odd (m b.adr) = true from hm), h2]
        simp only [Option.bind_eq_bind, Option.bind_some, h1]
      · refine markedFrom_congr (markedFrom_trans sep hm1 hmf) ?_
        intro c hc
        simp only [List.mem_cons]
        apply or_congr _ Iff.rfl
        constructor
        · rintro rfl; rfl
        · intro h; exact ptr_inj sep hc hb (by rw [h])
      · intro i c hc hi
        match i, hi with
        | 0, hi =>
          simp only [List.getElem?_cons_zero, Option.some.injEq] at hi
          have : c = b := ptr_inj sep hc hb (by rw [hi])
          subst this
          simp [hm]
        | i + 1, hi =>
          simp only [List.getElem?_cons_succ] at hi ⊢
          rw [hfl i c hc hi, hm1.marks c hc]
          constructor
          · rintro ((h' | ⟨r, _, rfl, h'⟩) | ⟨j, d, hj, hd, h1, h2⟩)
            · exact Or.inl h'
            · exact Or.inr ⟨0, r, by omega, hb, by simp, h'⟩
            · exact Or.inr ⟨j + 1, d, by omega, hd, by simpa using h1, (reach_frame sep hm1.frame hd).1 h2⟩
          · rintro (h | ⟨j, d, hj, hd, h1, h2⟩)
            · exact Or.inl (Or.inl h)
            · match j, h1 with
              | 0, h1 =>
                simp only [List.getElem?_cons_zero, Option.some.injEq] at h1
                have : d = b := ptr_inj sep hd hb (by rw [h1])
                subst this
                exact Or.inl (Or.inr ⟨d, hd, rfl, h2⟩)
              | j + 1, h1 =>
                exact Or.inr ⟨j, d, by omega, hd, by simpa using h1, (reach_frame sep hm1.frame hd).2 h2⟩

/-- The collector starts from block `b`. -/
def Root (e : Env) (b : Blk) : Prop := b.ptr ∈ e.roots ∨ (∃ w ∈ e.stack, Hits w b) ∨ b.ptr ∈ e.finObjs

/-- What the collector finds. -/
def Found (bs : List Blk) (m : Mem) (e : Env) (c : Blk) : Prop := ∃ r ∈ bs, Root e r ∧ Reach bs m r c

/-- The pointers the collector starts from are pointers to objects. -/
structure EnvOK (bs : List Blk) (e : Env) : Prop where
  roots : ∀ r ∈ e.roots, r = 0 ∨ ∃ b ∈ bs, b.free = false ∧ r = b.ptr
  fins : ∀ r ∈ e.finObjs, ∃ b ∈ bs, b.free = false ∧ r = b.ptr

theorem gc_ok {St Sl : Nat → Prop} {s : HS} {cks : List Chunk} (inv : Inv St Sl noEx s cks) {e : Env}
    (he : EnvOK (blocks cks) e) :
    ∃ s' cks', Ev (fun f => gc f s e) s' ∧ Inv St Sl noEx s' cks' ∧ skel cks' = skel cks ∧ SameVars s s' ∧
      (∀ b, (b ∈ blocks cks' ∧ b.free = false) ↔ ∃ c ∈ blocks cks, Found (blocks cks) s.mem e c ∧ b = { c with free := false }) ∧
      (∀ c ∈ blocks cks, Found (blocks cks) s.mem e c → ∀ a, c.adr ≤ a → a < c.adr + c.size → s'.mem a = s.mem a) ∧
      (∀ a, Outside cks a → s'.mem a = s.mem a) ∧
      (∀ c ∈ cks', NoAdjacentFree c.blks) := by
  have ok := inv.ok
  have sep := sep_of_chunks ok
  have hun : ∀ b ∈ blocks cks, ¬ Marked s.mem b := by
    intro b hb
    have h1 := inv.tags b hb (fun h => h)
    have h2 := (ok.blk b hb).tag8
    unfold Marked; rw [h1]; simp [odd]; omega
  have tr : Traceable (blocks cks) s.mem := by
    refine ⟨fun b hb => inv.tables b hb (fun h => h), fun b hb => Or.inl (inv.tags b hb (fun h => h)), ?_⟩
    intro b hb a ha
    rcases inv.fields b hb (fun h => h) a ha with h | ⟨c, hc, _, h⟩
    · exact Or.inl h
    · exact Or.inr ⟨c, hc, h⟩
  have cl : Closed (blocks cks) s.mem := fun b hb hm => absurd hm (hun b hb)
  obtain ⟨m1, ⟨F1, hF1⟩, hm1⟩ := markRoots_ok sep e.roots tr cl (by
    intro r hr
    rcases he.roots r hr with h | ⟨b, hb, _, h⟩
    · exact Or.inl h
    · exact Or.inr ⟨b, hb, h⟩)
  obtain ⟨m2, ⟨F2, hF2⟩, hm2⟩ := stackLoop_ok ok 10000 (by omega) inv.hmin inv.hmax e.stack m1 0 (fun _ => 0)
    (chunksIn_frame ok hm1.frame inv.inMem) hm1.traceable hm1.closed
  obtain ⟨m3, l, ⟨F3, hF3⟩, hm3, _⟩ := checkFin_ok sep e.finObjs hm2.traceable hm2.closed (by
    intro r hr
    obtain ⟨b, hb, _, h⟩ := he.fins r hr
    exact ⟨b, hb, h⟩)
  have hall := markedFrom_trans sep (markedFrom_trans sep hm1 hm2) hm3
  have hmk : ∀ c ∈ blocks cks, Marked m3 c ↔ Found (blocks cks) s.mem e c := by
    intro c hc
    rw [hall.marks c hc]
    unfold Found Root
    constructor
    · rintro (h | ⟨r, hr, h, hre⟩)
      · exact absurd h (hun c hc)
      · refine ⟨r, hr, ?_, hre⟩
        rcases h with (h | h) | h
        · exact Or.inl h
        · right; left
          obtain ⟨w, hw, h⟩ := h
          refine ⟨w, ?_, h⟩
          rcases hw with hw | hw
          · simp [elems] at hw
          · exact hw
        · exact Or.inr (Or.inr h)
    · rintro ⟨r, hr, h, hre⟩
      refine Or.inr ⟨r, hr, ?_, hre⟩
      rcases h with h | ⟨w, hw, h⟩ | h
      · exact Or.inl (Or.inl h)
      · exact Or.inl (Or.inr ⟨w, Or.inr hw, h⟩)
      · exact Or.inr h
  have hin3 : ChunksIn m3 s.heap cks := chunksIn_frame ok hall.frame inv.inMem
  obtain ⟨s', ⟨F4, hF4⟩, r⟩ := scan_ok ok (s := { s with mem := m3 }) hin3 hall.traceable
  refine ⟨s', _, ⟨max (max F1 F2) (max F3 F4), fun f hf => ?_⟩, ?_, r.chunks, ?_, ?_, ?_, ?_, r.merged⟩
  · have h1 : markRoots f s.mem e.roots = some m1 := hF1 f (by omega)
    have h2 : markStack 10000 f s m1 e.stack = some m2 := hF2 f (by omega)
    have h3 : checkFin f m2 e.finObjs = some (m3, l) := hF3 f (by omega)
    have h4 : scan f { s with mem := m3 } = some s' := hF4 f (by omega)
    simp only [gc, h1, h2, h3, h4, Option.bind_eq_bind, Option.bind_some]
  · have hv := r.vars
    have hkeepmem : ∀ c ∈ blocks cks, Marked m3 c → ∀ a, c.adr < a → a < c.adr + c.size → s'.mem a = s.mem a := by
      intro c hc hm a h1 h2
      rw [r.contents c hc hm a h1 h2]
      apply hall.frame
      intro d hd hda
      have hp := (ok.blk d hd).sizePos
      rcases blocks_disjoint ok hc hd with rfl | h | h <;> omega
    refine ⟨r.ok, r.inMem, ?_, ?_, ?_, r.freed, ⟨fun i => smallFree i (blocks (cks.map (sweepChunk fun b => odd (m3 b.adr)))),
      bigFree (blocks (cks.map (sweepChunk fun b => odd (m3 b.adr)))), ?_⟩, ?_, r.alloc, ?_, ?_, ?_, ?_, ?_, ?_, ?_⟩
    · exact fun b hb _ => (r.tags b hb).2
    · exact fun b hb _ => (r.tags b hb).1
    · intro b hb _ a ha
      cases hf : b.free with
      | true =>
        rw [r.freed b hb hf] at ha
        simp [Blk.flds, freeBlk] at ha
      | false =>
        obtain ⟨c, hc, hm, rfl⟩ := (r.live b).1 ⟨hb, hf⟩
        have ha' : a ∈ c.flds := ha
        have hfb := fld_bounds (ok.blk c hc) ha'
        rw [hkeepmem c hc hm a (by omega) (by omega)]
        rcases inv.fields c hc (fun h => h) a ha' with h | ⟨d, hd, hdf, h⟩
        · exact Or.inl h
        · have hdm : Marked m3 d := hall.closed c hc hm d hd ((edge_frame sep hall.frame hc d).2 ⟨a, ha', h⟩)
          have := (r.live { d with free := false }).2 ⟨d, hd, hdm, rfl⟩
          exact Or.inr ⟨_, this.1, rfl, h⟩
    · refine ⟨r.small, r.big, ?_, ?_, ?_, ?_, ?_, ?_⟩
      · intro i h1 h9 x hx
        simp only [smallFree, List.mem_reverse, List.mem_map, List.mem_filter, Bool.and_eq_true, beq_iff_eq] at hx
        obtain ⟨b, ⟨hb, hf, hs⟩, rfl⟩ := hx
        have h32 := (r.ok.blk b hb).size32
        have e1 : 32 * i = b.size := by omega
        rw [e1, ← r.freed b hb hf]; exact hb
      · intro x hx
        obtain ⟨b, hb, hf, rfl⟩ := bigFree_mem hx
        exact ⟨b.size, by rw [← r.freed b hb hf]; exact hb⟩
      · intro i _ _
        unfold smallFree
        rw [List.nodup_reverse]
        exact adrs_nodup r.ok _
      · unfold bigFree
        rw [List.nodup_reverse]
        exact adrs_nodup r.ok _
      · intro i h1 h9 x hx hx'
        simp only [smallFree, List.mem_reverse, List.mem_map, List.mem_filter, Bool.and_eq_true, beq_iff_eq] at hx
        simp only [bigFree, List.mem_reverse, List.mem_map, List.mem_filter, Bool.and_eq_true, decide_eq_true_eq] at hx'
        obtain ⟨b, ⟨hb, hf, hs⟩, rfl⟩ := hx
        obtain ⟨c, ⟨hc, hf', hs'⟩, e⟩ := hx'
        have := (sep_of_chunks r.ok).adrInj c hc b hb e
        subst this
        omega
      · intro b hb hf _
        by_cases h9 : b.size / 32 < 9
        · left
          refine ⟨h9, ?_⟩
          simp only [smallFree, List.mem_reverse, List.mem_map, List.mem_filter, Bool.and_eq_true, beq_iff_eq]
          exact ⟨b, ⟨hb, hf, rfl⟩, rfl⟩
        · right
          simp only [bigFree, List.mem_reverse, List.mem_map, List.mem_filter, Bool.and_eq_true, decide_eq_true_eq]
          exact ⟨b, ⟨hb, hf, by omega⟩, rfl⟩
    · rw [hv.free0 9 (Or.inr (le_refl _))]; exact inv.fl9
    · have hsz : ∀ (cs cs' : List Chunk), skel cs' = skel cs → sizes (blocks cs') = sizes (blocks cs) := by
        intro cs
        induction cs with
        | nil => intro cs' h; cases cs' with
          | nil => rfl
          | cons c cs' => simp [skel] at h
        | cons c cs ih =>
          intro cs' h
          cases cs' with
          | nil => simp [skel] at h
          | cons c' cs' =>
            simp only [skel, List.map_cons, List.cons.injEq, Prod.mk.injEq] at h
            rw [blocks_cons, blocks_cons, sizes_append, sizes_append, ih cs' h.2]
            have h1 := h.1.2
            unfold Chunk.end_ at h1
            omega
      rw [hv.heapsize, hsz _ _ r.chunks]; exact inv.hsize
    · intro c hc
      obtain ⟨d, hd, h1, h2⟩ := skel_mem r.chunks hc
      rw [hv.regions, ← h1, ← h2]; exact inv.regs d hd
    · rw [hv.regions]; exact inv.regsOut
    · intro c hc
      obtain ⟨d, hd, h1, h2⟩ := skel_mem r.chunks hc
      rw [hv.heapMin, ← h1]; exact inv.hmin d hd
    · intro c hc
      obtain ⟨d, hd, h1, h2⟩ := skel_mem r.chunks hc
      rw [hv.heapMax, ← h2]; exact inv.hmax d hd
    · intro h
      apply inv.nonempty
      have := congrArg List.length r.chunks
      rw [h] at this
      simp at this
      exact List.eq_nil_of_length_eq_zero (by omega)
    · rw [hv.heapMinExpand]; exact inv.expand
  · have h := r.vars
    exact ⟨h.heap, h.heapMin, h.heapMax, h.heapsize, h.heapMinExpand, h.firstTry, h.regions, h.free0⟩
  · intro b
    rw [r.live b]
    constructor
    · rintro ⟨c, hc, h, h'⟩; exact ⟨c, hc, (hmk c hc).1 h, h'⟩
    · rintro ⟨c, hc, h, h'⟩; exact ⟨c, hc, (hmk c hc).2 h, h'⟩
  · intro c hc hfd a h1 h2
    have hm := (hmk c hc).2 hfd
    by_cases ha : a = c.adr
    · rw [ha, inv.tags c hc (fun h => h)]
      exact (r.tags _ ((r.live { c with free := false }).2 ⟨c, hc, hm, rfl⟩).1).1
    · rw [r.contents c hc hm a (by omega) h2]
      apply hall.frame
      intro d hd hda
      have hp := (ok.blk d hd).sizePos
      rcases blocks_disjoint ok hc hd with rfl | h | h <;> omega
  · intro a ha
    rw [r.outside a (by rintro ⟨c, hc, h1, h2⟩; have := ha c hc; omega)]
    apply hall.frame
    intro d hd hda
    have := outside_blk ok ha hd
    have hp := (ok.blk d hd).sizePos
    omega

end Verif.Heap
