import Verif.Heap.LemmasExtend

/-!
# NEWREC, NEWBLK and the histories of a program
-/
namespace Verif.Heap

/-- The objects in `C` are still there, with the same contents. -/
def Keeps (C : Blk → Prop) (s : HS) (cks : List Chunk) (s' : HS) (cks' : List Chunk) : Prop :=
  ∀ c ∈ blocks cks, c.free = false → C c → c ∈ blocks cks' ∧ ∀ a, c.adr ≤ a → a < c.adr + c.size → s'.mem a = s.mem a

theorem Keeps.refl (C : Blk → Prop) (s : HS) (cks : List Chunk) : Keeps C s cks s cks :=
  fun c hc _ _ => ⟨hc, fun _ _ _ => rfl⟩

theorem Keeps.trans {C : Blk → Prop} {s s1 s2 : HS} {k k1 k2 : List Chunk} (h1 : Keeps C s k s1 k1)
    (h2 : Keeps C s1 k1 s2 k2) : Keeps C s k s2 k2 := by
  intro c hc hf hC
  obtain ⟨h3, h4⟩ := h1 c hc hf hC
  obtain ⟨h5, h6⟩ := h2 c h3 hf hC
  exact ⟨h5, fun a ha ha' => by rw [h6 a ha ha', h4 a ha ha']⟩

/-- Words outside the heap keep their values. -/
def Prot (P : Nat → Prop) (s s' : HS) : Prop := ∀ a, P a → s'.mem a = s.mem a

/-- The result of an allocation: a new object of `32 * k` bytes at `adr`. -/
structure NewRes (St Sl : Nat → Prop) (C : Blk → Prop) (s : HS) (cks : List Chunk) (k tag : Nat) (s' : HS) (adr : Nat) :
    Prop where
  tag : s'.mem adr = tag
  zero : ∀ a, adr + 8 ≤ a → a < adr + 32 * k → a % 8 = 0 → s'.mem a = 0
  adr8 : adr % 8 = 0
  frame : ∀ c ∈ blocks cks, c.free = false → C c → (c.adr + c.size ≤ adr ∨ adr + 32 * k ≤ c.adr) ∧
    ∀ a, c.adr ≤ a → a < c.adr + c.size → s'.mem a = s.mem a
  inv : ∀ tg offs, BlkOK St ⟨adr, 32 * k, tg, offs, false⟩ →
    ∃ cks', Inv St Sl (· = adr) s' cks' ∧ ⟨adr, 32 * k, tg, offs, false⟩ ∈ blocks cks' ∧ Keeps C s cks s' cks'

theorem newRes_of {St Sl : Nat → Prop} {C : Blk → Prop} {s s1 s' : HS} {cks cks1 : List Chunk} {k tag adr : Nat}
    (inv1 : Inv St Sl noEx s1 cks1) (hk : Keeps C s cks s1 cks1) (h : Allocd St Sl s1 cks1 k tag s' adr) :
    NewRes St Sl C s cks k tag s' adr := by
  refine ⟨h.tag, h.zero, h.adr8, ?_, ?_⟩
  · intro c hc hf hC
    obtain ⟨h1, h2⟩ := hk c hc hf hC
    refine ⟨?_, fun a ha ha' => by rw [h.frame c h1 hf a ha ha', h2 a ha ha']⟩
    obtain ⟨b, hb, hbf, hb1, hb2⟩ := h.place
    rcases blocks_disjoint inv1.ok h1 hb with rfl | h' | h'
    · rw [hf] at hbf; simp at hbf
    · omega
    · omega
  · intro tg offs hb
    obtain ⟨cks', hinv, _, hmem⟩ := h.inv tg offs hb
    refine ⟨cks', hinv, ((hmem _).2 (Or.inl rfl)).1, hk.trans ?_⟩
    intro c hc hf _
    exact ⟨((hmem c).2 (Or.inr ⟨hc, hf⟩)).1, h.frame c hc hf⟩

theorem prot_alloc {St Sl : Nat → Prop} {s s' : HS} {cks : List Chunk} (inv : Inv St Sl noEx s cks) {k tag adr : Nat}
    (h : Allocd St Sl s cks k tag s' adr) : Prot (fun a => St a ∨ Sl a) s s' :=
  fun a ha => h.outside a (prot_outside inv ha)

theorem inv_firstTry {St Sl : Nat → Prop} {ex : Nat → Prop} {s : HS} {cks : List Chunk} (inv : Inv St Sl ex s cks)
    (b : Bool) : Inv St Sl ex { s with firstTry := b } cks :=
  ⟨inv.ok, inv.inMem, inv.tables, inv.tags, inv.fields, inv.shape, inv.lists, inv.fl9, inv.alloc, inv.hsize, inv.regs,
    inv.regsOut, inv.hmin, inv.hmax, inv.nonempty, inv.expand⟩

theorem newRes_firstTry {St Sl : Nat → Prop} {C : Blk → Prop} {s s' : HS} {cks : List Chunk} {k tag adr : Nat}
    (h : NewRes St Sl C s cks k tag s' adr) (b : Bool) : NewRes St Sl C s cks k tag { s' with firstTry := b } adr :=
  ⟨h.tag, h.zero, h.adr8, h.frame, fun tg offs hb => by
    obtain ⟨cks', h1, h2, h3⟩ := h.inv tg offs hb
    exact ⟨cks', inv_firstTry h1 b, h2, h3⟩⟩

theorem newRec_ok {St Sl : Nat → Prop} {s : HS} {cks : List Chunk} (inv : Inv St Sl noEx s cks) {os : OS}
    (hos : OSOK os (fun a => St a ∨ Sl a)) {e : Env} (he : EnvOK (blocks cks) e) {tag k : Nat} (hk : 0 < k)
    (htag : s.mem tag = (32 * k : Nat)) (hP : St tag ∨ Sl tag) (hft : s.firstTry = true) :
    ∃ s' p, Ev (fun f => newRec os f e s tag) (s', p) ∧ s'.firstTry = true ∧ Prot (fun a => St a ∨ Sl a) s s' ∧
      ((p = 0 ∧ (∃ n, 32 * k ≤ n ∧ os s'.regions n = 0) ∧
          ∃ cks', Inv St Sl noEx s' cks' ∧ Keeps (Found (blocks cks) s.mem e) s cks s' cks') ∨
        ∃ adr, p = adr + 8 ∧ NewRes St Sl (Found (blocks cks) s.mem e) s cks k tag s' adr) := by
  obtain ⟨C, hC⟩ : ∃ C, C = Found (blocks cks) s.mem e := ⟨_, rfl⟩
  rw [← hC]
  obtain ⟨r1, ⟨F1, hF1⟩, h1⟩ := tryAlloc_ok inv hk htag
  rcases h1 with ⟨rfl, _⟩ | ⟨s', adr, rfl, hal⟩
  swap
  · refine ⟨s', adr + 8, ⟨F1, fun f hf => ?_⟩, ?_, prot_alloc inv hal, Or.inr ⟨adr, rfl, newRes_of inv (Keeps.refl C s cks) hal⟩⟩
    · have h2 : tryAlloc f s tag = some (some (s', adr + 8)) := hF1 f hf
      simp only [newRec, h2, Option.bind_eq_bind, Option.bind_some]
    · rw [hal.vars]; exact hft
  -- collection
  obtain ⟨s2, cks2, ⟨F2, hF2⟩, inv2, _, sv2, live2, cont2, out2, _⟩ := gc_ok inv he
  have hk2 : Keeps C s cks s2 cks2 := by
    intro c hc hf hfd
    rw [hC] at hfd
    refine ⟨((live2 c).2 ⟨c, hc, hfd, ?_⟩).1, cont2 c hc hfd⟩
    cases c; simp only at hf; subst hf; rfl
  have hp2 : Prot (fun a => St a ∨ Sl a) s s2 := fun a ha => out2 a (prot_outside inv ha)
  have htag2 : s2.mem tag = (32 * k : Nat) := by rw [hp2 tag hP]; exact htag
  have hft2 : s2.firstTry = true := by rw [sv2.firstTry]; exact hft
  -- first extension
  obtain ⟨t, ht⟩ : ∃ t, t = (s2.allocated + (32 * k + 32)) / 128 * 160 := ⟨_, rfl⟩
  have h3 : ∃ s3 cks3, Ev (fun f => if s2.heapsize < t then extendHeap os f s2 (t - s2.heapsize) else some s2) s3 ∧
      Inv St Sl noEx s3 cks3 ∧ Keeps C s2 cks2 s3 cks3 ∧ Prot (fun a => St a ∨ Sl a) s2 s3 := by
    by_cases hlt : s2.heapsize < t
    · have hsz := sizes_mod inv2.ok
      rw [← inv2.hsize] at hsz
      obtain ⟨s3, cks3, ⟨F3, hF3⟩, inv3, _, _, _, _, live3, fr3, pr3, _⟩ := extend_ok inv2 hos (n := t - s2.heapsize)
        (by omega) (by omega)
      refine ⟨s3, cks3, ⟨F3, fun f hf => ?_⟩, inv3, ?_, pr3⟩
      · simp only [if_pos hlt]; exact hF3 f hf
      · intro c hc hf _
        exact ⟨((live3 c).2 ⟨hc, hf⟩).1, fr3 c hc⟩
    · exact ⟨s2, cks2, ⟨0, fun f _ => by simp only [if_neg hlt]⟩, inv2, Keeps.refl C s2 cks2, fun _ _ => rfl⟩
  obtain ⟨s3, cks3, ⟨F3, hF3⟩, inv3, hk3, hp3⟩ := h3
  obtain ⟨s4, hs4⟩ : ∃ s4 : HS, s4 = { s3 with firstTry := false } := ⟨_, rfl⟩
  have inv4 : Inv St Sl noEx s4 cks3 := by rw [hs4]; exact inv_firstTry inv3 false
  have hm4 : s4.mem = s3.mem := by rw [hs4]
  have htag4 : s4.mem tag = (32 * k : Nat) := by rw [hm4, hp3 tag hP]; exact htag2
  have hk4 : Keeps C s cks s4 cks3 := by
    refine (hk2.trans hk3).trans ?_
    intro c hc _ _
    exact ⟨hc, fun a _ _ => by rw [hm4]⟩
  have hp4 : Prot (fun a => St a ∨ Sl a) s s4 := fun a ha => by rw [hm4, hp3 a ha, hp2 a ha]
  obtain ⟨r5, ⟨F5, hF5⟩, h5⟩ := tryAlloc_ok inv4 hk htag4
  -- the program up to here
  have hpre : ∀ f, max (max F1 F2) (max F3 F5) ≤ f → newRec os f e s tag =
      (match r5 with
        | some (s, p) => some ({ s with firstTry := true }, p)
        | none => (extendHeap os f s4 (32 * k + 32)).bind fun s =>
            (tryAlloc f s tag).bind fun r => match r with
              | some (s, p) => some ({ s with firstTry := true }, p)
              | none => some ({ s with firstTry := true }, 0)) := by
    intro f hf
    have g1 : tryAlloc f s tag = some none := hF1 f (by omega)
    have g2 : gc f s e = some s2 := hF2 f (by omega)
    have g3 : (if s2.heapsize < t then extendHeap os f s2 (t - s2.heapsize) else some s2) = some s3 := hF3 f (by omega)
    have g5 : tryAlloc f s4 tag = some r5 := hF5 f (by omega)
    simp only [newRec, g1, Option.bind_eq_bind, Option.bind_some, if_pos hft, g2, htag2, Int.toNat_natCast]
    rw [← ht]
    by_cases hlt : s2.heapsize < t
    · rw [if_pos hlt] at g3 ⊢
      rw [g3]
      simp only [Option.bind_some]
      rw [← hs4, g5]
      rcases r5 with _ | ⟨a, b⟩ <;> rfl
    · rw [if_neg hlt] at g3 ⊢
      have h23 : s2 = s3 := by simpa using g3
      rw [h23, ← hs4, g5]
      rcases r5 with _ | ⟨a, b⟩ <;> rfl
  rcases h5 with ⟨rfl, _⟩ | ⟨s', adr, rfl, hal⟩
  swap
  · refine ⟨{ s' with firstTry := true }, adr + 8, ⟨_, fun f hf => hpre f hf⟩, rfl, ?_, Or.inr ⟨adr, rfl, ?_⟩⟩
    · intro a ha
      show s'.mem a = s.mem a
      rw [prot_alloc inv4 hal a ha, hp4 a ha]
    · exact newRes_firstTry (newRes_of inv4 hk4 hal) true
  -- second extension
  obtain ⟨s6, cks6, ⟨F6, hF6⟩, inv6, hft6, _, _, _, live6, fr6, pr6, hsucc⟩ := extend_ok inv4 hos (n := 32 * k + 32)
    (by omega) (by omega)
  have hk6 : Keeps C s cks s6 cks6 := hk4.trans (fun c hc hf _ => ⟨((live6 c).2 ⟨hc, hf⟩).1, fr6 c hc⟩)
  have hp6 : Prot (fun a => St a ∨ Sl a) s s6 := fun a ha => by rw [pr6 a ha, hp4 a ha]
  have htag6 : s6.mem tag = (32 * k : Nat) := by rw [hp6 tag hP]; exact htag
  obtain ⟨r7, ⟨F7, hF7⟩, h7⟩ := tryAlloc_ok inv6 hk htag6
  have hpre2 : ∀ f, max (max (max F1 F2) (max F3 F5)) (max F6 F7) ≤ f → newRec os f e s tag =
      (match r7 with
        | some (s, p) => some ({ s with firstTry := true }, p)
        | none => some ({ s6 with firstTry := true }, 0)) := by
    intro f hf
    have g6 : extendHeap os f s4 (32 * k + 32) = some s6 := hF6 f (by omega)
    have g7 : tryAlloc f s6 tag = some r7 := hF7 f (by omega)
    rw [hpre f (by omega)]
    simp only [g6, Option.bind_some, g7]
    rcases r7 with _ | ⟨a, b⟩ <;> rfl
  rcases h7 with ⟨rfl, _, hbig⟩ | ⟨s', adr, rfl, hal⟩
  · refine ⟨{ s6 with firstTry := true }, 0, ⟨_, fun f hf => hpre2 f hf⟩, rfl, hp6, Or.inl ⟨rfl, ?_, cks6, ?_, ?_⟩⟩
    · rcases hsucc with ⟨_, n, hn, h⟩ | ⟨x, n, G, hch, hin, hle⟩
      · exact ⟨n + 24, by omega, h⟩
      · have := hbig _ hch x (List.mem_cons_self ..) n hin
        omega
    · exact inv_firstTry inv6 true
    · exact hk6
  · refine ⟨{ s' with firstTry := true }, adr + 8, ⟨_, fun f hf => hpre2 f hf⟩, rfl, ?_, Or.inr ⟨adr, rfl, ?_⟩⟩
    · intro a ha
      show s'.mem a = s.mem a
      rw [prot_alloc inv6 hal a ha, hp6 a ha]
    · exact newRes_firstTry (newRes_of inv6 hk6 hal) true

/-- Words inside an object change; its tag, table and pointers are in order afterwards. -/
theorem inv_write {St Sl : Nat → Prop} {ex : Nat → Prop} {s : HS} {cks : List Chunk} (inv : Inv St Sl ex s cks) {b : Blk}
    (hb : b ∈ blocks cks) (hf : b.free = false) {m' : Mem}
    (hm : ∀ a, (a < b.adr ∨ b.adr + b.size ≤ a) → m' a = s.mem a) (htab : TableOK m' b) (htag : m' b.adr = b.tag)
    (hfld : ∀ a ∈ b.flds, m' a = 0 ∨ ∃ c ∈ blocks cks, c.free = false ∧ m' a = c.ptr) (hex : ∀ x, ex x → x = b.adr) :
    Inv St Sl noEx { s with mem := m' } cks := by
  have ok := inv.ok
  have inj := (sep_of_chunks ok).adrInj
  have hother : ∀ c ∈ blocks cks, c ≠ b → ∀ a, c.adr ≤ a → a < c.adr + c.size → m' a = s.mem a := by
    intro c hc hne a h1 h2
    apply hm
    rcases blocks_disjoint ok hc hb with h | h | h
    · exact absurd h hne
    · omega
    · omega
  have hnex : ∀ c ∈ blocks cks, c ≠ b → ¬ ex c.adr := fun c hc hne h => hne (inj c hc b hb (hex _ h))
  have hout : ∀ a, Outside cks a → m' a = s.mem a := fun a ha => hm a (outside_blk ok ha hb)
  have hhead : ∀ c ∈ cks, ∀ a, c.adr ≤ a → a < c.adr + 24 → m' a = s.mem a := by
    intro c hc a h1 h2
    apply hout
    intro d hd
    have he : c.adr + 24 ≤ c.end_ := by unfold Chunk.end_; omega
    have he' : d.adr + 24 ≤ d.end_ := by unfold Chunk.end_; omega
    rcases chunk_disjoint ok hc hd with rfl | h | h <;> omega
  refine ⟨ok, ⟨linked_congr (fun c hc => hhead c hc _ (by omega) (by omega)) inv.inMem.linked, ?_⟩, ?_, ?_, ?_, inv.shape, ?_,
    inv.fl9, inv.alloc, inv.hsize, inv.regs, inv.regsOut, inv.hmin, inv.hmax, inv.nonempty, inv.expand⟩
  · intro c hc
    show m' (c.adr + 8) = _
    rw [hhead c hc _ (by omega) (by omega)]; exact inv.inMem.ends c hc
  · intro c hc _
    by_cases h : c = b
    · rw [h]; exact htab
    · refine tableOK_congr ?_ (inv.tables c hc (hnex c hc h))
      intro a ha
      rcases table_bounds (ok.blk c hc) ha with h' | h'
      · apply hout
        intro d hd
        have := ok.static d hd a h'
        omega
      · exact hother c hc h a (by omega) (by omega)
  · intro c hc _
    by_cases h : c = b
    · rw [h]; exact htag
    · have hp := (ok.blk c hc).sizePos
      show m' c.adr = _
      rw [hother c hc h _ (by omega) (by omega)]; exact inv.tags c hc (hnex c hc h)
  · intro c hc _ a ha
    by_cases h : c = b
    · rw [h] at ha; exact hfld a ha
    · have hfb := fld_bounds (ok.blk c hc) ha
      have he : m' a = s.mem a := hother c hc h a (by omega) (by omega)
      simp only [he]; exact inv.fields c hc (hnex c hc h) a ha
  · obtain ⟨F, G, L⟩ := inv.lists
    refine ⟨F, G, lists_mem L ?_⟩
    intro c hc hcf
    have hp := (ok.blk c hc).sizePos
    have h32 := (ok.blk c hc).size32
    refine hother c hc ?_ _ (by omega) (by omega)
    rintro rfl
    rw [hf] at hcf; simp at hcf

/-- A word outside the heap changes. -/
theorem inv_outside {St Sl : Nat → Prop} {s : HS} {cks : List Chunk} (inv : Inv St Sl noEx s cks) {x : Nat} (hx : ¬ St x)
    (hreg : ∀ c ∈ cks, x < c.adr ∨ c.end_ ≤ x) (v : Int) : Inv St Sl noEx (s.put x v) cks := by
  have ok := inv.ok
  have hne : ∀ c ∈ cks, ∀ a, c.adr ≤ a → a < c.end_ → (s.put x v).mem a = s.mem a := by
    intro c hc a h1 h2
    have := hreg c hc
    simp only [HS.put, put]; rw [if_neg (by omega)]
  have hblk : ∀ b ∈ blocks cks, ∀ a, b.adr ≤ a → a < b.adr + b.size → (s.put x v).mem a = s.mem a := by
    intro b hb a h1 h2
    obtain ⟨c, hc, hbc⟩ := mem_blocks.1 hb
    have := blk_bounds ok hc hbc
    exact hne c hc a (by omega) (by omega)
  have he : ∀ c : Chunk, c.adr + 24 ≤ c.end_ := by intro c; unfold Chunk.end_; omega
  refine ⟨ok, ⟨linked_congr (fun c hc => hne c hc _ (by omega) (by have := he c; omega)) inv.inMem.linked, ?_⟩, ?_, ?_, ?_,
    inv.shape, ?_, inv.fl9, inv.alloc, inv.hsize, inv.regs, inv.regsOut, inv.hmin, inv.hmax, inv.nonempty, inv.expand⟩
  · intro c hc
    rw [hne c hc _ (by omega) (by have := he c; omega)]; exact inv.inMem.ends c hc
  · intro b hb h
    refine tableOK_congr ?_ (inv.tables b hb h)
    intro a ha
    rcases table_bounds (ok.blk b hb) ha with h' | h'
    · simp only [HS.put, put]; rw [if_neg (by rintro rfl; exact hx h')]
    · exact hblk b hb a (by omega) (by omega)
  · intro b hb h
    have hp := (ok.blk b hb).sizePos
    rw [hblk b hb _ (by omega) (by omega)]; exact inv.tags b hb h
  · intro b hb h a ha
    have hfb := fld_bounds (ok.blk b hb) ha
    rw [hblk b hb a (by omega) (by omega)]; exact inv.fields b hb h a ha
  · obtain ⟨F, G, L⟩ := inv.lists
    refine ⟨F, G, lists_mem L ?_⟩
    intro c hc hcf
    have hp := (ok.blk c hc).sizePos
    have h32 := (ok.blk c hc).size32
    exact hblk c hc _ (by omega) (by omega)

theorem Ev.unique {α : Type} {g : Nat → Option α} {r r' : α} (h : Ev g r) (h' : Ev g r') : r = r' := by
  obtain ⟨F, hF⟩ := h
  obtain ⟨F', hF'⟩ := h'
  have h1 := hF (max F F') (by omega)
  have h2 := hF' (max F F') (by omega)
  rw [h1] at h2
  simpa using h2

/-- A new object, with its tag, its table and its contents put in place. -/
theorem newObj_ok {St Sl : Nat → Prop} {C : Blk → Prop} {s s' : HS} {cks : List Chunk} {k tag adr : Nat}
    (h : NewRes St Sl C s cks k tag s' adr) {tg : Nat} {offs : List Nat} {m' : Mem}
    (hb : BlkOK St ⟨adr, 32 * k, tg, offs, false⟩)
    (hm : ∀ a, (a < adr ∨ adr + 32 * k ≤ a) → m' a = s'.mem a) (htab : TableOK m' ⟨adr, 32 * k, tg, offs, false⟩)
    (htag : m' adr = tg)
    (hfld : ∀ a ∈ (⟨adr, 32 * k, tg, offs, false⟩ : Blk).flds, m' a = 0 ∨ m' a = (adr + 8 : Nat) ∨
      ∃ c ∈ blocks cks, c.free = false ∧ C c ∧ m' a = c.ptr) :
    ∃ cks', Inv St Sl noEx { s' with mem := m' } cks' ∧ ⟨adr, 32 * k, tg, offs, false⟩ ∈ blocks cks' ∧
      Keeps C s cks { s' with mem := m' } cks' := by
  obtain ⟨cks', inv', hin, hk⟩ := h.inv tg offs hb
  refine ⟨cks', inv_write inv' hin rfl hm htab htag ?_ (fun x hx => hx), hin, ?_⟩
  · intro a ha
    rcases hfld a ha with h1 | h1 | ⟨c, hc, hf, hC, h1⟩
    · exact Or.inl h1
    · exact Or.inr ⟨_, hin, rfl, h1⟩
    · exact Or.inr ⟨c, (hk c hc hf hC).1, hf, h1⟩
  · intro c hc hf hC
    obtain ⟨h1, h2⟩ := hk c hc hf hC
    have h3 := (h.frame c hc hf hC).1
    refine ⟨h1, fun a ha ha' => ?_⟩
    show m' a = _
    rw [hm a (by omega), h2 a ha ha']

/-- `tag` is the address of the size word of the descriptor of a record type: the size of a block, `32 * k`, is followed by
the offsets of the pointers in the record and the sentinel. -/
structure Desc (St : Nat → Prop) (m : Mem) (tag k : Nat) (offs : List Nat) : Prop where
  pos : 0 < k
  tag8 : tag % 8 = 0
  size : m tag = (32 * k : Nat)
  ptrs : ∀ i o, offs[i]? = some o → m (tag + 8 + 8 * i) = (o : Nat)
  sentinel : m (tag + 8 + 8 * offs.length) = -(8 * ((offs.length : Int) + 1))
  nodup : offs.Nodup
  inside : ∀ o ∈ offs, o % 8 = 0 ∧ o + 16 ≤ 32 * k
  words : ∀ i, i < offs.length + 2 → St (tag + 8 * i)

theorem Desc.blkOK {St : Nat → Prop} {m : Mem} {tag k : Nat} {offs : List Nat} (d : Desc St m tag k offs) {adr : Nat}
    (h8 : adr % 8 = 0) : BlkOK St ⟨adr, 32 * k, tag, offs, false⟩ := by
  refine ⟨h8, ?_, ?_, d.tag8, d.nodup, d.inside, Or.inl ?_⟩
  · show 32 * k % 32 = 0; omega
  · show 0 < 32 * k; have := d.pos; omega
  · intro a ha
    simp only [Blk.table, List.mem_map, List.mem_range] at ha
    obtain ⟨i, hi, rfl⟩ := ha
    exact d.words i hi

theorem Desc.table {St : Nat → Prop} {m m' : Mem} {tag k : Nat} {offs : List Nat} (d : Desc St m tag k offs) (adr : Nat)
    (h : ∀ a, St a → m' a = m a) : TableOK m' ⟨adr, 32 * k, tag, offs, false⟩ := by
  have hw : ∀ i, i < offs.length + 2 → m' (tag + 8 * i) = m (tag + 8 * i) := fun i hi => h _ (d.words i hi)
  refine ⟨?_, ?_, ?_⟩
  · have := hw 0 (by omega)
    simp only [Nat.mul_zero, Nat.add_zero] at this
    show m' tag = _
    rw [this]; exact d.size
  · intro i o ho
    have hi : i < offs.length := (List.getElem?_eq_some_iff.1 ho).1
    have := hw (i + 1) (by omega)
    rw [show tag + 8 * (i + 1) = tag + 8 + 8 * i by omega] at this
    show m' (tag + 8 + 8 * i) = _
    rw [this]; exact d.ptrs i o ho
  · have := hw (offs.length + 1) (by omega)
    rw [show tag + 8 * (offs.length + 1) = tag + 8 + 8 * offs.length by omega] at this
    show m' (tag + 8 + 8 * offs.length) = _
    rw [this]; exact d.sentinel

/-- What holds throughout: the heap is in order, and the objects of the program are in it. -/
def Held (St Sl : Nat → Prop) (s : HS) (live : List Blk) : Prop :=
  ∃ cks, Inv St Sl noEx s cks ∧ (∀ b ∈ live, b ∈ blocks cks ∧ b.free = false) ∧ s.firstTry = true

/-- The collector can find all the objects of the program, and the pointers it starts from are pointers to objects. -/
structure Covers (e : Env) (m : Mem) (live : List Blk) : Prop where
  roots : ∀ r ∈ e.roots, r = 0 ∨ ∃ b ∈ live, r = b.ptr
  fins : ∀ r ∈ e.finObjs, ∃ b ∈ live, r = b.ptr
  all : ∀ b ∈ live, Found live m e b

theorem reach_mono {bs bs' : List Blk} {m : Mem} (h : ∀ b ∈ bs, b ∈ bs') {b c : Blk} (hr : Reach bs m b c) :
    Reach bs' m b c := by
  induction hr with
  | refl b => exact Reach.refl b
  | step he hc _ ih => exact Reach.step he (h _ hc) ih

theorem Covers.envOK {e : Env} {m : Mem} {live : List Blk} (h : Covers e m live) {bs : List Blk}
    (hl : ∀ b ∈ live, b ∈ bs ∧ b.free = false) : EnvOK bs e ∧ ∀ b ∈ live, Found bs m e b := by
  refine ⟨⟨?_, ?_⟩, ?_⟩
  · intro r hr
    rcases h.roots r hr with h1 | ⟨b, hb, h1⟩
    · exact Or.inl h1
    · exact Or.inr ⟨b, (hl b hb).1, (hl b hb).2, h1⟩
  · intro r hr
    obtain ⟨b, hb, h1⟩ := h.fins r hr
    exact ⟨b, (hl b hb).1, (hl b hb).2, h1⟩
  · intro b hb
    obtain ⟨r, hr, h1, h2⟩ := h.all b hb
    exact ⟨r, (hl r hr).1, h1, reach_mono (fun b hb => (hl b hb).1) h2⟩

/-- The words of the objects keep their values. -/
def Same (live : List Blk) (m m' : Mem) : Prop := ∀ b ∈ live, ∀ a, b.adr ≤ a → a < b.adr + b.size → m' a = m a

/-- `b` shares no word with an object in `live`. -/
def Apart (b : Blk) (live : List Blk) : Prop := ∀ c ∈ live, c.adr + c.size ≤ b.adr ∨ b.adr + b.size ≤ c.adr

theorem new_ok {St Sl : Nat → Prop} {os : OS} (hos : OSOK os (fun a => St a ∨ Sl a)) {s : HS} {live : List Blk}
    (hg : Held St Sl s live) {e : Env} (hc : Covers e s.mem live) {tag k : Nat} (hk : 0 < k)
    (htag : s.mem tag = (32 * k : Nat)) (hP : St tag ∨ Sl tag) :
    ∃ s' p, Ev (fun f => newRec os f e s tag) (s', p) ∧ s'.firstTry = true ∧ Prot (fun a => St a ∨ Sl a) s s' ∧
      ((p = 0 ∧ (∃ n, 32 * k ≤ n ∧ os s'.regions n = 0) ∧ Held St Sl s' live ∧ Same live s.mem s'.mem) ∨
        ∃ adr, p = adr + 8 ∧ adr % 8 = 0 ∧ s'.mem adr = tag ∧
          (∀ a, adr + 8 ≤ a → a < adr + 32 * k → a % 8 = 0 → s'.mem a = 0) ∧
          (∀ c ∈ live, c.adr + c.size ≤ adr ∨ adr + 32 * k ≤ c.adr) ∧ Same live s.mem s'.mem ∧
          ∀ tg offs m', BlkOK St ⟨adr, 32 * k, tg, offs, false⟩ →
            (∀ a, (a < adr ∨ adr + 32 * k ≤ a) → m' a = s'.mem a) → TableOK m' ⟨adr, 32 * k, tg, offs, false⟩ →
            m' adr = tg →
            (∀ a ∈ (⟨adr, 32 * k, tg, offs, false⟩ : Blk).flds, m' a = 0 ∨ m' a = (adr + 8 : Nat) ∨
              ∃ c ∈ live, m' a = c.ptr) →
            Held St Sl { s' with mem := m' } (⟨adr, 32 * k, tg, offs, false⟩ :: live)) := by
  obtain ⟨cks, inv, hl, hft⟩ := hg
  obtain ⟨he, hF⟩ := hc.envOK hl
  obtain ⟨s', p, hev, hft', hp, h⟩ := newRec_ok inv hos he hk htag hP hft
  refine ⟨s', p, hev, hft', hp, ?_⟩
  rcases h with ⟨rfl, hno, cks', inv', hk'⟩ | ⟨adr, rfl, hr⟩
  · refine Or.inl ⟨rfl, hno, ⟨cks', inv', fun b hb => ⟨(hk' b (hl b hb).1 (hl b hb).2 (hF b hb)).1, (hl b hb).2⟩, hft'⟩, ?_⟩
    intro b hb
    exact (hk' b (hl b hb).1 (hl b hb).2 (hF b hb)).2
  · refine Or.inr ⟨adr, rfl, hr.adr8, hr.tag, hr.zero, fun c hc => (hr.frame c (hl c hc).1 (hl c hc).2 (hF c hc)).1,
      fun c hc => (hr.frame c (hl c hc).1 (hl c hc).2 (hF c hc)).2, ?_⟩
    intro tg offs m' hb hm htab htg hfld
    obtain ⟨cks', inv', hin, hk'⟩ := newObj_ok hr hb hm htab htg (by
      intro a ha
      rcases hfld a ha with h1 | h1 | ⟨c, hc, h1⟩
      · exact Or.inl h1
      · exact Or.inr (Or.inl h1)
      · exact Or.inr (Or.inr ⟨c, (hl c hc).1, (hl c hc).2, hF c hc, h1⟩))
    refine ⟨cks', inv', ?_, hft'⟩
    intro b hb
    rcases List.mem_cons.1 hb with rfl | hb
    · exact ⟨hin, rfl⟩
    · exact ⟨(hk' b (hl b hb).1 (hl b hb).2 (hF b hb)).1, (hl b hb).2⟩

/-- NEWREC. -/
theorem newRec_good {St Sl : Nat → Prop} {os : OS} (hos : OSOK os (fun a => St a ∨ Sl a)) {s : HS} {live : List Blk}
    (hg : Held St Sl s live) {e : Env} (hc : Covers e s.mem live) {tag k : Nat} {offs : List Nat}
    (hd : Desc St s.mem tag k offs) :
    ∃ s' p, Ev (fun f => newRec os f e s tag) (s', p) ∧ Prot (fun a => St a ∨ Sl a) s s' ∧ Same live s.mem s'.mem ∧
      ((p = 0 ∧ (∃ n, 32 * k ≤ n ∧ os s'.regions n = 0) ∧ Held St Sl s' live) ∨
        ∃ adr, p = adr + 8 ∧ Held St Sl s' (⟨adr, 32 * k, tag, offs, false⟩ :: live) ∧
          Apart ⟨adr, 32 * k, tag, offs, false⟩ live ∧
          ∀ a, adr + 8 ≤ a → a < adr + 32 * k → a % 8 = 0 → s'.mem a = 0) := by
  have hst0 : St tag := by simpa using hd.words 0 (by omega)
  obtain ⟨s', p, hev, hft', hp, h⟩ := new_ok hos hg hc hd.pos hd.size (Or.inl hst0)
  refine ⟨s', p, hev, hp, ?_⟩
  rcases h with ⟨rfl, hno, hg', hs⟩ | ⟨adr, rfl, h8, htg, hz, hap, hs, hnew⟩
  · exact ⟨hs, Or.inl ⟨rfl, hno, hg'⟩⟩
  · refine ⟨hs, Or.inr ⟨adr, rfl, ?_, hap, hz⟩⟩
    refine hnew tag offs s'.mem (hd.blkOK h8) (fun _ _ => rfl) (hd.table adr fun a ha => hp a (Or.inl ha)) htg ?_
    intro a ha
    left
    simp only [Blk.flds, Blk.ptr, List.mem_map] at ha
    obtain ⟨o, ho, rfl⟩ := ha
    have := hd.inside o ho
    exact hz _ (by omega) (by omega) (by omega)

/-- NEWBLK, with what a caller can make of the block. -/
theorem newBlk_gen {St Sl : Nat → Prop} {os : OS} (hos : OSOK os (fun a => St a ∨ Sl a)) {s : HS} {live : List Blk}
    (hg : Held St Sl s live) {e : Env} (hc : Covers e s.mem live) {slot : Nat} (hsl : Sl slot) (hns : ¬ St slot) (size : Nat) :
    (∃ F, ∀ f, F ≤ f → newBlk os f e s slot size = none ∧ ∃ regs n, size ≤ n ∧ os regs n = 0) ∨
    ∃ s' adr k, Ev (fun f => newBlk os f e s slot size) (s', adr + 8) ∧ size + 32 ≤ 32 * k ∧ 32 * k < size + 64 ∧
      (∀ a, (St a ∨ Sl a) → a ≠ slot → s'.mem a = s.mem a) ∧ Same live s.mem s'.mem ∧
      Held St Sl s' (⟨adr, 32 * k, adr + 32 * k - 16, [], false⟩ :: live) ∧
      Apart ⟨adr, 32 * k, adr + 32 * k - 16, [], false⟩ live ∧
      (∀ a, adr + 8 ≤ a → a < adr + 8 + size → a % 8 = 0 → s'.mem a = 0) ∧ adr % 8 = 0 ∧
      s'.mem adr = (adr + 32 * k - 16 : Nat) ∧ s'.mem (adr + 32 * k - 16) = (32 * k : Nat) ∧
      s'.mem (adr + 32 * k - 8) = -8 ∧
      ∀ tg offs m', BlkOK St ⟨adr, 32 * k, tg, offs, false⟩ →
        (∀ a, (a < adr ∨ adr + 32 * k ≤ a) → m' a = s'.mem a) → TableOK m' ⟨adr, 32 * k, tg, offs, false⟩ →
        m' adr = tg → (∀ a ∈ (⟨adr, 32 * k, tg, offs, false⟩ : Blk).flds, m' a = 0) →
        Held St Sl { s' with mem := m' } (⟨adr, 32 * k, tg, offs, false⟩ :: live) := by
  obtain ⟨k, hk⟩ : ∃ k, k = (size + 63) / 32 := ⟨_, rfl⟩
  obtain ⟨cks, inv, hl, hft⟩ := hg
  have hreg : ∀ c ∈ cks, slot < c.adr ∨ c.end_ ≤ slot := by
    intro c hc
    have := inv.regsOut _ (inv.regs c hc) slot (Or.inr hsl)
    have he : c.adr + 24 ≤ c.end_ := by unfold Chunk.end_; omega
    simp only at this
    omega
  have inv1 := inv_outside inv hns hreg ((k * 32 : Nat) : Int)
  have hout : ∀ b ∈ live, slot < b.adr ∨ b.adr + b.size ≤ slot := by
    intro b hb
    obtain ⟨c, hc, hbc⟩ := mem_blocks.1 (hl b hb).1
    have h1 := blk_bounds inv.ok hc hbc
    have h2 := hreg c hc
    omega
  have hsame1 : Same live s.mem (s.put slot ((k * 32 : Nat) : Int)).mem := by
    intro b hb a h1 h2
    have := hout b hb
    simp only [HS.put, put]; rw [if_neg (by omega)]
  have hg1 : Held St Sl (s.put slot ((k * 32 : Nat) : Int)) live := ⟨cks, inv1, hl, hft⟩
  have hc1 : Covers e (s.put slot ((k * 32 : Nat) : Int)).mem live := by
    refine ⟨hc.roots, hc.fins, ?_⟩
    intro b hb
    obtain ⟨r, hr, h1, h2⟩ := hc.all b hb
    refine ⟨r, hr, h1, ?_⟩
    clear h1 hb
    induction h2 with
    | refl b => exact Reach.refl b
    | @step b c d he hc' _ ih =>
      refine Reach.step ?_ hc' (ih hc')
      obtain ⟨a, ha, hm⟩ := he
      have hfb := fld_bounds (inv.ok.blk b (hl b hr).1) ha
      exact ⟨a, ha, by rw [hsame1 b hr a (by omega) (by omega)]; exact hm⟩
  have hk0 : 0 < k := by omega
  have hm1 : (s.put slot ((k * 32 : Nat) : Int)).mem slot = (32 * k : Nat) := by
    simp only [HS.put, put, if_pos trivial]; omega
  obtain ⟨s2, p, ⟨F, hF⟩, hft2, hp, h⟩ := new_ok hos hg1 hc1 hk0 hm1 (Or.inr hsl)
  have hstep : ∀ f, F ≤ f → newRec os f e (s.put slot ((k * 32 : Nat) : Int)) slot = some (s2, p) := hF
  have hbs : (size + (4 * 8 + 32 - 1)) / 32 * 32 = k * 32 := by rw [hk]
  rcases h with ⟨rfl, ⟨n, hn, hno⟩, _⟩ | ⟨adr, rfl, h8, htg, hz, hap, hs, hnew⟩
  · left
    refine ⟨F, fun f hf => ⟨?_, _, n, by omega, hno⟩⟩
    simp only [newBlk, hbs, hstep f hf, Option.bind_eq_bind, Option.bind_some, if_pos trivial]
  · right
    obtain ⟨m', hm'⟩ : ∃ m', m' = put (put (put (put s2.mem (adr + 32 * k - 24) 0) (adr + 32 * k - 16) ((k * 32 : Nat) : Int))
      (adr + 32 * k - 8) (-8)) adr ((adr + 32 * k - 16 : Nat) : Int) := ⟨_, rfl⟩
    have hfr : ∀ a, (a < adr ∨ adr + 32 * k ≤ a) → m' a = s2.mem a := by
      intro a ha
      rw [hm']; simp only [put]
      rw [if_neg (by omega), if_neg (by omega), if_neg (by omega), if_neg (by omega)]
    have hsz : size + 32 ≤ 32 * k := by omega
    have w16 : m' (adr + 32 * k - 16) = ((k * 32 : Nat) : Int) := by
      rw [hm']; simp only [put]
      rw [if_neg (by omega), if_neg (by omega), if_pos trivial]
    have w8 : m' (adr + 32 * k - 8) = -8 := by
      rw [hm']; simp only [put]
      rw [if_neg (by omega), if_pos trivial]
    have hg3 : Held St Sl { s2 with mem := m' } (⟨adr, 32 * k, adr + 32 * k - 16, [], false⟩ :: live) := by
      refine hnew _ _ m' ⟨h8, ?_, ?_, ?_, List.nodup_nil, by simp, Or.inr ⟨?_, ?_, by simp⟩⟩ hfr ⟨?_, by simp, ?_⟩ ?_
        (by simp [Blk.flds])
      · show 32 * k % 32 = 0; omega
      · show 0 < 32 * k; omega
      · show (adr + 32 * k - 16) % 8 = 0; omega
      · show adr + 8 ≤ adr + 32 * k - 16; omega
      · show adr + 32 * k - 16 + 8 * (0 + 2) ≤ adr + 32 * k; omega
      · show m' (adr + 32 * k - 16) = (32 * k : Nat)
        rw [w16]; omega
      · show m' (adr + 32 * k - 16 + 8 + 8 * 0) = _
        rw [show adr + 32 * k - 16 + 8 + 8 * 0 = adr + 32 * k - 8 by omega, w8]; rfl
      · rw [hm']; simp only [put, if_pos trivial]
    refine ⟨{ s2 with mem := m' }, adr, k, ⟨F, fun f hf => ?_⟩, hsz, by omega, ?_, ?_, hg3, hap, ?_, h8, ?_, ?_, w8, ?_⟩
    · simp only [newBlk, hbs, hstep f hf, Option.bind_eq_bind, Option.bind_some]
      rw [if_neg (by omega)]
      simp only [HS.put, hm', Option.some.injEq, Prod.mk.injEq, and_true]
      rw [show adr + 8 + k * 32 - 24 = adr + 32 * k - 16 by omega, show adr + 32 * k - 16 - 8 = adr + 32 * k - 24 by omega,
        show adr + 32 * k - 16 + 8 = adr + 32 * k - 8 by omega, show adr + 8 - 8 = adr by omega]
    · intro a ha hne
      obtain ⟨cks3, inv3, hl3, _⟩ := hg3
      have ho : a < adr ∨ adr + 32 * k ≤ a := outside_blk inv3.ok (prot_outside inv3 ha) (hl3 _ (List.mem_cons_self ..)).1
      show m' a = _
      rw [hfr a ho, hp a ha]
      simp only [HS.put, put]; rw [if_neg hne]
    · intro c hc a h1 h2
      have := hap c hc
      show m' a = _
      rw [hfr a (by omega), hs c hc a h1 h2, hsame1 c hc a h1 h2]
    · intro a h1 h2 h3
      show m' a = _
      have h4 := hz a h1 (by omega) h3
      rw [hm']; simp only [put]
      rw [if_neg (by omega), if_neg (by omega), if_neg (by omega)]
      split
      · rfl
      · exact h4
    · rw [hm']; simp only [put, if_pos trivial]
    · show m' (adr + 32 * k - 16) = _
      rw [w16]; omega
    · intro tg offs m'' hb hm htab htg hfld
      exact hnew tg offs m'' hb (fun a ha => by rw [hm a ha]; exact hfr a ha) htab htg (fun a ha => Or.inl (hfld a ha))

/-- NEWBLK. -/
theorem newBlk_good {St Sl : Nat → Prop} {os : OS} (hos : OSOK os (fun a => St a ∨ Sl a)) {s : HS} {live : List Blk}
    (hg : Held St Sl s live) {e : Env} (hc : Covers e s.mem live) {slot : Nat} (hsl : Sl slot) (hns : ¬ St slot) (size : Nat) :
    (∃ F, ∀ f, F ≤ f → newBlk os f e s slot size = none ∧ ∃ regs n, size ≤ n ∧ os regs n = 0) ∨
    ∃ s' adr k, Ev (fun f => newBlk os f e s slot size) (s', adr + 8) ∧ size + 32 ≤ 32 * k ∧ 32 * k < size + 64 ∧
      (∀ a, (St a ∨ Sl a) → a ≠ slot → s'.mem a = s.mem a) ∧ Same live s.mem s'.mem ∧
      Held St Sl s' (⟨adr, 32 * k, adr + 32 * k - 16, [], false⟩ :: live) ∧
      Apart ⟨adr, 32 * k, adr + 32 * k - 16, [], false⟩ live ∧
      ∀ a, adr + 8 ≤ a → a < adr + 8 + size → a % 8 = 0 → s'.mem a = 0 := by
  rcases newBlk_gen hos hg hc hsl hns size with h | ⟨s', adr, k, h1, h2, h3, h4, h5, h6, h7, h8, _⟩
  · exact Or.inl h
  · exact Or.inr ⟨s', adr, k, h1, h2, h3, h4, h5, h6, h7, h8⟩

end Verif.Heap
