import Verif.Common
import Verif.Heap.LemmasRun
import Verif.Heap.LemmasArr

/-!
# Allocation (C20)

A history of a program, as far as the storage manager is concerned: the program holds pointers to the objects in `live`,
changes words in them and outside the heap, drops objects, and allocates.  At every allocation the collector may run.
-/
namespace Verif.Heap

/-- The word at `x` lies outside the regions obtained from the operating system. -/
def OutsideHeap (s : HS) (x : Nat) : Prop := ∀ r ∈ s.regions, x + 8 ≤ r.1 ∨ r.1 + r.2 ≤ x

/-- The histories: `Run os St Sl s live` says that a program can reach state `s` of the storage manager while it holds
the objects `live`.  `os` is the operating system, `St` are the words of the type descriptors, `Sl` other words outside
the heap the storage manager uses (the local variable of NEWBLK).
* `init`: InitHeap, for which the operating system must provide memory.
* `forget`: the program loses objects.
* `setPtr`: it stores NIL or a pointer to one of its objects in a pointer field of one of its objects.
* `setWord`: it stores any value in another word of one of its objects; for an object allocated by SYSTEM.NEW the words
  at the end that describe it are excluded.
* `setOutside`: it stores any value in a word outside the heap other than a descriptor.
* `newRec`, `newNil`: NEW of a record; `p` is what it delivers.  The collector finds all the objects in `live` from the
  global variables, the stack and the objects with finalizers (`Covers`).
* `newBlk`: SYSTEM.NEW.
* `newArr`: NEW of an array.  The elements contain no pointers, or are records, or are pointers; in the latter case the array
  has exactly one open dimension (`ArrArgs`; see C40_pointer_table). -/
inductive Run (os : OS) (St Sl : Nat → Prop) : HS → List Blk → Prop where
  | init (m : Mem) : os [] (8000 * 32 + 24) ≠ 0 → Run os St Sl (initHeap os m) []
  | forget {s : HS} {live live' : List Blk} : Run os St Sl s live → (∀ b ∈ live', b ∈ live) → Run os St Sl s live'
  | setPtr {s : HS} {live : List Blk} {b : Blk} {a : Nat} {v : Nat} : Run os St Sl s live → b ∈ live → a ∈ b.flds →
      (v = 0 ∨ ∃ c ∈ live, v = c.ptr) → Run os St Sl (s.put a v) live
  | setWord {s : HS} {live : List Blk} {b : Blk} {a : Nat} {v : Int} : Run os St Sl s live → b ∈ live → a % 8 = 0 →
      b.ptr ≤ a → a < b.adr + b.size → a ∉ b.flds → a ∉ b.table → Run os St Sl (s.put a v) live
  | setOutside {s : HS} {live : List Blk} {a : Nat} {v : Int} : Run os St Sl s live → OutsideHeap s a → ¬ St a →
      Run os St Sl (s.put a v) live
  | newRec {s s' : HS} {live : List Blk} {e : Env} {tag k adr : Nat} {offs : List Nat} : Run os St Sl s live →
      Covers e s.mem live → Desc St s.mem tag k offs → (∃ F, ∀ f, F ≤ f → newRec os f e s tag = some (s', adr + 8)) →
      Run os St Sl s' (⟨adr, 32 * k, tag, offs, false⟩ :: live)
  | newNil {s s' : HS} {live : List Blk} {e : Env} {tag k : Nat} {offs : List Nat} : Run os St Sl s live →
      Covers e s.mem live → Desc St s.mem tag k offs → (∃ F, ∀ f, F ≤ f → newRec os f e s tag = some (s', 0)) →
      Run os St Sl s' live
  | newBlk {s s' : HS} {live : List Blk} {e : Env} {slot size adr : Nat} : Run os St Sl s live →
      Covers e s.mem live → Sl slot → ¬ St slot →
      (∃ F, ∀ f, F ≤ f → newBlk os f e s slot size = some (s', adr + 8)) →
      Run os St Sl s' (⟨adr, (size + 63) / 32 * 32, adr + (size + 63) / 32 * 32 - 16, [], false⟩ :: live)
  | newArr {s s' : HS} {live : List Blk} {e : Env} {slot elemsz elemalgn nofdyn n adr : Nat} {kind : ArrKind}
      {lens : List Int} {po : List Nat} : Run os St Sl s live →
      Covers e s.mem live → Sl slot → ¬ St slot → ArrCall St s.mem kind elemsz elemalgn lens nofdyn po n →
      (∃ F, ∀ f, F ≤ f → newArr os f e s slot kind elemsz elemalgn lens nofdyn = some (.done s' (adr + 8))) →
      Run os St Sl s' (arrBlk adr (dataOff nofdyn elemalgn) elemsz n po :: live)

theorem init_held {St Sl : Nat → Prop} {os : OS} (hos : OSOK os (fun a => St a ∨ Sl a)) (m : Mem)
    (h : os [] (8000 * 32 + 24) ≠ 0) : Held St Sl (initHeap os m) [] := by
  obtain ⟨s0, hs0⟩ : ∃ s0 : HS, s0 = {
    mem := m, freeList := fun _ => 0, bigBlocks := 0, allocated := 0, firstTry := true, heap := 0
    heapMin := 2 ^ 64 - 1, heapMax := 0, heapsize := 0, heapMinExpand := 8000 * 32, regions := [] } := ⟨_, rfl⟩
  have hr0 : s0.regions = [] := by rw [hs0]
  obtain ⟨n, hn⟩ : ∃ n, n = 8000 * 32 := ⟨_, rfl⟩
  rw [← hn] at h
  obtain ⟨s1, chnk, hnc, hchnk, hmem, w8, w24, w32, w40, w48, vfl, vbig, valloc, vsize, vreg, vmin, vmax, vexp, vheap, vft⟩ :=
    newChunk_ok os s0 n (by rw [hr0]; exact h)
  rw [hr0] at hchnk vreg
  have hb0 : s0.bigBlocks = 0 := by rw [hs0]
  rcases hos [] (n + 24) with h' | ⟨h8, _, hprot⟩
  · exact absurd h' h
  rw [← hchnk] at h8 h hprot
  obtain ⟨s2, hs2⟩ : ∃ s2, s2 = initHeap os m := ⟨_, rfl⟩
  have hs2' : s2 = { ({ s1 with heap := chnk } : HS).put chnk 0 with firstTry := true, freeList := put s1.freeList 9 1 } := by
    rw [hs2]; simp only [initHeap]
    rw [← hs0, ← hn, hnc]
    rfl
  rw [← hs2]
  have hm2 : ∀ a, a ≠ chnk → s2.mem a = s1.mem a := by
    intro a ha
    rw [hs2']; simp only [HS.put, put]; rw [if_neg ha]
  have hm20 : s2.mem chnk = 0 := by rw [hs2']; simp only [HS.put, put, if_pos trivial]
  obtain ⟨c, hc⟩ : ∃ c : Chunk, c = ⟨chnk, [freeBlk (chnk + 24) n]⟩ := ⟨_, rfl⟩
  have hend : c.end_ = chnk + 24 + n := by rw [hc]; simp [Chunk.end_, sizes, freeBlk]
  have hadr : c.adr = chnk := by rw [hc]
  have hbl : blocks [c] = [freeBlk (chnk + 24) n] := by rw [hc]; rfl
  have hbok : BlkOK St (freeBlk (chnk + 24) n) := freeBlk_ok (by omega) (by omega) (by omega)
  refine ⟨[c], ⟨⟨?_, ?_, ?_, ?_, ?_⟩, ⟨?_, ?_⟩, ?_, ?_, ?_, ?_, ⟨fun _ => [], [chnk + 24], ?_⟩, ?_, ?_, ?_, ?_, ?_, ?_, ?_,
    by simp, ?_⟩, by simp, by rw [hs2']⟩
  · intro d hd; rw [List.mem_singleton.1 hd, hadr]; exact h8
  · intro d hd; rw [List.mem_singleton.1 hd, hc]; exact ⟨rfl, trivial⟩
  · intro b hb; rw [hbl] at hb; rw [List.mem_singleton.1 hb]; exact hbok
  · simp
  · intro d hd a ha
    rw [List.mem_singleton.1 hd, hadr, hend]
    have := hprot a (Or.inl ha)
    omega
  · refine ⟨?_, ?_, 0, ?_, rfl⟩
    · rw [hs2', hadr]; rfl
    · rw [hs2']; exact h
    · rw [show s2.heap = chnk by rw [hs2']; rfl, hm20]; rfl
  · intro d hd
    rw [List.mem_singleton.1 hd, hadr, hend, hm2 _ (by omega), w8]
  · intro b hb _
    rw [hbl] at hb; rw [List.mem_singleton.1 hb]
    refine ⟨?_, by simp [freeBlk], ?_⟩
    · show s2.mem (chnk + 24 + 8) = _
      rw [hm2 _ (by omega), show chnk + 24 + 8 = chnk + 32 by omega, w32]; rfl
    · show s2.mem (chnk + 24 + 8 + 8 + 8 * 0) = _
      rw [hm2 _ (by omega), show chnk + 24 + 8 + 8 + 8 * 0 = chnk + 40 by omega, w40]; rfl
  · intro b hb _
    rw [hbl] at hb; rw [List.mem_singleton.1 hb]
    show s2.mem (chnk + 24) = ((chnk + 24 + 8 : Nat) : Int)
    rw [hm2 _ (by omega), w24]
  · intro b hb _ a ha
    rw [hbl] at hb; rw [List.mem_singleton.1 hb] at ha
    simp [Blk.flds, freeBlk] at ha
  · intro b hb _
    rw [hbl] at hb; rw [List.mem_singleton.1 hb]
    rfl
  · have hfl : ∀ i, i < 9 → s2.freeList i = 0 := by
      intro i hi
      have : s1.freeList i = 0 := by rw [vfl, hs0]
      rw [hs2']
      simp only [HS.put, put]; rw [if_neg (by omega)]; exact this
    have hbig : s2.bigBlocks = chnk + 24 := by rw [hs2']; exact vbig
    refine ⟨fun i _ hi => hfl i hi, ⟨hbig, by omega, 0, ?_, rfl⟩, by simp, ?_, fun _ _ _ => List.nodup_nil, by simp, by simp, ?_⟩
    · rw [hm2 _ (by omega), show chnk + 24 + 24 = chnk + 48 by omega, w48, hb0]
    · intro x hx
      rw [List.mem_singleton.1 hx, hbl]
      exact ⟨n, by simp⟩
    · intro b hb _ _
      rw [hbl] at hb; rw [List.mem_singleton.1 hb]
      right; simp [freeBlk]
  · rw [hs2']; simp [put]
  · rw [show s2.allocated = s1.allocated by rw [hs2']; rfl, valloc, hbl, hs0]
    rfl
  · rw [show s2.heapsize = s1.heapsize by rw [hs2']; rfl, vsize, hbl, hs0]
    simp [sizes, freeBlk]
  · intro d hd
    rw [List.mem_singleton.1 hd, hadr, hend, show s2.regions = s1.regions by rw [hs2']; rfl, vreg]
    rw [show chnk + 24 + n - chnk = n + 24 by omega]; simp
  · intro r hr a ha
    rw [show s2.regions = s1.regions by rw [hs2']; rfl, vreg] at hr
    rw [List.mem_singleton.1 hr]
    exact hprot a ha
  · intro d hd
    rw [List.mem_singleton.1 hd, hadr, show s2.heapMin = s1.heapMin by rw [hs2']; rfl]
    exact vmin.2
  · intro d hd
    rw [List.mem_singleton.1 hd, hend, show s2.heapMax = s1.heapMax by rw [hs2']; rfl]
    exact vmax.2
  · rw [show s2.heapMinExpand = s1.heapMinExpand by rw [hs2']; rfl, vexp, hs0]
    show 8000 * 32 % 32 = 0 ∧ 0 < 8000 * 32
    decide

theorem run_held {St Sl : Nat → Prop} {os : OS} (hos : OSOK os (fun a => St a ∨ Sl a)) {s : HS} {live : List Blk}
    (h : Run os St Sl s live) : Held St Sl s live := by
  induction h with
  | init m h => exact init_held hos m h
  | forget _ hsub ih =>
    obtain ⟨cks, inv, hl, hft⟩ := ih
    exact ⟨cks, inv, fun b hb => hl b (hsub b hb), hft⟩
  | @setPtr s live b a v _ hb ha hv ih =>
    obtain ⟨cks, inv, hl, hft⟩ := ih
    have hbk := inv.ok.blk b (hl b hb).1
    have hfb := fld_bounds hbk ha
    have hsep := sep_of_chunks inv.ok
    refine ⟨cks, inv_write inv (hl b hb).1 (hl b hb).2 (m' := put s.mem a v) ?_ ?_ ?_ ?_ (fun x hx => hx.elim), hl, hft⟩
    · intro x hx
      simp only [put]; rw [if_neg (by omega)]
    · refine tableOK_congr ?_ (inv.tables b (hl b hb).1 (fun h => h))
      intro x hx
      simp only [put]
      rw [if_neg]
      rintro rfl
      exact hsep.fldTable b (hl b hb).1 b (hl b hb).1 _ ha hx
    · simp only [put]; rw [if_neg (by omega)]; exact inv.tags b (hl b hb).1 (fun h => h)
    · intro x hx
      by_cases hxa : x = a
      · simp only [put, if_pos hxa]
        rcases hv with rfl | ⟨c, hc, rfl⟩
        · exact Or.inl rfl
        · exact Or.inr ⟨c, (hl c hc).1, (hl c hc).2, rfl⟩
      · simp only [put, if_neg hxa]
        exact inv.fields b (hl b hb).1 (fun h => h) x hx
  | @setWord s live b a v _ hb ha8 h1 h2 hnf hnt ih =>
    obtain ⟨cks, inv, hl, hft⟩ := ih
    have hp : b.ptr = b.adr + 8 := rfl
    refine ⟨cks, inv_write inv (hl b hb).1 (hl b hb).2 (m' := put s.mem a v) ?_ ?_ ?_ ?_ (fun x hx => hx.elim), hl, hft⟩
    · intro x hx
      simp only [put]; rw [if_neg (by omega)]
    · refine tableOK_congr ?_ (inv.tables b (hl b hb).1 (fun h => h))
      intro x hx
      simp only [put]
      rw [if_neg (by rintro rfl; exact hnt hx)]
    · simp only [put]; rw [if_neg (by omega)]; exact inv.tags b (hl b hb).1 (fun h => h)
    · intro x hx
      have hxa : x ≠ a := by rintro rfl; exact hnf hx
      simp only [put, if_neg hxa]
      exact inv.fields b (hl b hb).1 (fun h => h) x hx
  | @setOutside s live a v _ ho hns ih =>
    obtain ⟨cks, inv, hl, hft⟩ := ih
    refine ⟨cks, inv_outside inv hns ?_ v, hl, hft⟩
    intro c hc
    have := ho _ (inv.regs c hc)
    have he : c.adr + 24 ≤ c.end_ := by unfold Chunk.end_; omega
    simp only at this
    omega
  | @newRec s s' live e tag k adr offs _ hc hd hev ih =>
    obtain ⟨s1, p, hev1, _, _, h1⟩ := newRec_good hos ih hc hd
    have := Ev.unique hev1 hev
    simp only [Prod.mk.injEq] at this
    obtain ⟨rfl, hp⟩ := this
    rcases h1 with ⟨h0, _⟩ | ⟨adr', hp', hg, _⟩
    · omega
    · rw [show adr = adr' by omega]; exact hg
  | @newNil s s' live e tag k offs _ hc hd hev ih =>
    obtain ⟨s1, p, hev1, _, _, h1⟩ := newRec_good hos ih hc hd
    have := Ev.unique hev1 hev
    simp only [Prod.mk.injEq] at this
    obtain ⟨rfl, hp⟩ := this
    rcases h1 with ⟨_, _, hg⟩ | ⟨adr', hp', _⟩
    · exact hg
    · omega
  | @newBlk s s' live e slot size adr _ hc hsl hns hev ih =>
    rcases newBlk_good hos ih hc hsl hns size with ⟨F, hF⟩ | ⟨s1, adr', k, hev1, hk1, hk2, _, _, hg, _⟩
    · obtain ⟨F', hF'⟩ := hev
      have h1 := (hF (max F F') (by omega)).1
      rw [hF' (max F F') (by omega)] at h1
      simp at h1
    · have := Ev.unique hev1 hev
      simp only [Prod.mk.injEq] at this
      obtain ⟨rfl, hp⟩ := this
      rw [show adr = adr' by omega, show (size + 63) / 32 * 32 = 32 * k by omega]; exact hg
  | @newArr s s' live e slot elemsz elemalgn nofdyn n adr kind lens po _ hc hsl hns hcall hev ih =>
    rcases newArr_good hos ih hc hsl hns hcall with ⟨F, hF⟩ | ⟨s1, adr', hev1, hg, _⟩
    · obtain ⟨F', hF'⟩ := hev
      have h1 := (hF (max F F') (by omega)).1
      rw [hF' (max F F') (by omega)] at h1
      simp at h1
    · have := Ev.unique hev1 hev
      simp only [ArrRes.done.injEq] at this
      obtain ⟨rfl, hp⟩ := this
      rw [show adr = adr' by omega]; exact hg

/-- C20: in every history, the objects a program holds share no word with one another; each lies inside one of the
regions obtained from the operating system, behind its header, and is aligned. -/
theorem C20_disjoint (os : OS) (St Sl : Nat → Prop) (hos : OSOK os (fun a => St a ∨ Sl a)) (s : HS) (live : List Blk)
    (h : Run os St Sl s live) :
    (∀ b ∈ live, ∀ c ∈ live, b = c ∨ b.adr + b.size ≤ c.adr ∨ c.adr + c.size ≤ b.adr) ∧
    ∀ b ∈ live, b.adr % 8 = 0 ∧ ∃ r ∈ s.regions, r.1 + 24 ≤ b.adr ∧ b.adr + b.size ≤ r.1 + r.2 := by
  obtain ⟨cks, inv, hl, _⟩ := run_held hos h
  refine ⟨fun b hb c hc => blocks_disjoint inv.ok (hl b hb).1 (hl c hc).1, fun b hb => ⟨(inv.ok.blk b (hl b hb).1).adr8, ?_⟩⟩
  obtain ⟨c, hc, hbc⟩ := mem_blocks.1 (hl b hb).1
  have hbb := blk_bounds inv.ok hc hbc
  have he : c.adr + 24 ≤ c.end_ := by unfold Chunk.end_; omega
  refine ⟨_, inv.regs c hc, ?_, ?_⟩
  · show c.adr + 24 ≤ b.adr; omega
  · show b.adr + b.size ≤ c.adr + (c.end_ - c.adr); omega

/-- C20: in every history, NEW of a record terminates.  It changes no word of an object the program holds, no descriptor
and no variable.  Either it delivers a new object of the size the descriptor demands, which shares no word with an object the
program holds and is cleared, or it delivers NIL; it delivers NIL only if the operating system,
having provided the regions the heap then has, refuses one in which the object would fit. -/
theorem C20_new (os : OS) (St Sl : Nat → Prop) (hos : OSOK os (fun a => St a ∨ Sl a)) (s : HS) (live : List Blk)
    (h : Run os St Sl s live) (e : Env) (hc : Covers e s.mem live) (tag k : Nat) (offs : List Nat)
    (hd : Desc St s.mem tag k offs) :
    ∃ s' p, (∃ F, ∀ f, F ≤ f → newRec os f e s tag = some (s', p)) ∧
      (∀ b ∈ live, ∀ a, b.adr ≤ a → a < b.adr + b.size → s'.mem a = s.mem a) ∧
      (∀ a, St a ∨ Sl a → s'.mem a = s.mem a) ∧
      ((p = 0 ∧ (∃ n, 32 * k ≤ n ∧ os s'.regions n = 0) ∧ Run os St Sl s' live) ∨
        ∃ adr, p = adr + 8 ∧ Run os St Sl s' (⟨adr, 32 * k, tag, offs, false⟩ :: live) ∧
          (∀ c ∈ live, c.adr + c.size ≤ adr ∨ adr + 32 * k ≤ c.adr) ∧ s'.mem adr = tag ∧
          ∀ a, adr + 8 ≤ a → a < adr + 32 * k → a % 8 = 0 → s'.mem a = 0) := by
  obtain ⟨s', p, hev, hp, hs, h1⟩ := newRec_good hos (run_held hos h) hc hd
  refine ⟨s', p, hev, hs, hp, ?_⟩
  rcases h1 with ⟨rfl, hno, _⟩ | ⟨adr, rfl, hg, hap, hz⟩
  · exact Or.inl ⟨rfl, hno, Run.newNil h hc hd hev⟩
  · refine Or.inr ⟨adr, rfl, Run.newRec h hc hd hev, hap, ?_, hz⟩
    obtain ⟨cks, inv, hl, _⟩ := hg
    exact inv.tags _ (hl _ (List.mem_cons_self ..)).1 (fun h => h)

/-- C20: in every history, SYSTEM.NEW terminates, with a new object that has room for `size` bytes, shares no word with an
object the program holds and is cleared; nothing else the program sees is changed.  If the operating system refuses
a region in which the object would fit, however, it stores through NIL (`none`). -/
theorem C20_newBlk (os : OS) (St Sl : Nat → Prop) (hos : OSOK os (fun a => St a ∨ Sl a)) (s : HS) (live : List Blk)
    (h : Run os St Sl s live) (e : Env) (hc : Covers e s.mem live) (slot size : Nat) (hsl : Sl slot) (hns : ¬ St slot) :
    (∃ F, ∀ f, F ≤ f → newBlk os f e s slot size = none ∧ ∃ regs n, size ≤ n ∧ os regs n = 0) ∨
    ∃ s' adr n, (∃ F, ∀ f, F ≤ f → newBlk os f e s slot size = some (s', adr + 8)) ∧ adr + 8 + size + 24 ≤ adr + n ∧
      Run os St Sl s' (⟨adr, n, adr + n - 16, [], false⟩ :: live) ∧
      (∀ b ∈ live, ∀ a, b.adr ≤ a → a < b.adr + b.size → s'.mem a = s.mem a) ∧
      (∀ a, St a ∨ Sl a → a ≠ slot → s'.mem a = s.mem a) ∧
      (∀ c ∈ live, c.adr + c.size ≤ adr ∨ adr + n ≤ c.adr) ∧
      ∀ a, adr + 8 ≤ a → a < adr + 8 + size → a % 8 = 0 → s'.mem a = 0 := by
  rcases newBlk_good hos (run_held hos h) hc hsl hns size with h1 | ⟨s', adr, k, hev, hk1, hk2, hp, hs, hg, hap, hz⟩
  · exact Or.inl h1
  · have hn : (size + 63) / 32 * 32 = 32 * k := by omega
    refine Or.inr ⟨s', adr, 32 * k, hev, by omega, ?_, hs, hp, hap, hz⟩
    have := Run.newBlk h hc hsl hns hev
    rw [hn] at this
    exact this

/-- C20: in every history, the memory obtained from the operating system is divided completely into blocks in use and free
blocks, one after the other; no two of them overlap.  The objects of the program are blocks in use. -/
theorem C20_tiling (os : OS) (St Sl : Nat → Prop) (hos : OSOK os (fun a => St a ∨ Sl a)) (s : HS) (live : List Blk)
    (h : Run os St Sl s live) :
    ∃ cks, Linked s.mem s.heap cks ∧ (∀ c ∈ cks, Tile (c.adr + 24) c.blks) ∧
      (∀ c ∈ cks, (c.adr, 24 + sizes c.blks) ∈ s.regions) ∧ (∀ b ∈ live, b ∈ blocks cks ∧ b.free = false) ∧
      (∀ b ∈ blocks cks, ∀ c ∈ blocks cks, b = c ∨ b.adr + b.size ≤ c.adr ∨ c.adr + c.size ≤ b.adr) ∧
      (∀ b ∈ blocks cks, 0 < b.size ∧ s.mem b.adr = b.tag ∧ s.mem b.tag = b.size) ∧
      s.heapsize = sizes (blocks cks) ∧ s.allocated = sizes ((blocks cks).filter fun b => !b.free) := by
  obtain ⟨cks, inv, hl, _⟩ := run_held hos h
  refine ⟨cks, inv.inMem.linked, inv.ok.tile, ?_, hl, fun b hb c hc => blocks_disjoint inv.ok hb hc, ?_, inv.hsize, inv.alloc⟩
  · intro c hc
    have := inv.regs c hc
    rw [show c.end_ - c.adr = 24 + sizes c.blks by unfold Chunk.end_; omega] at this
    exact this
  · intro b hb
    exact ⟨(inv.ok.blk b hb).sizePos, inv.tags b hb (fun h => h), (inv.tables b hb (fun h => h)).1⟩

/-- C20: in every history, a free block is in one of the lists from which blocks are allocated, unless its size is nine
units; see `C20_lost`. -/
theorem C20_lists (os : OS) (St Sl : Nat → Prop) (hos : OSOK os (fun a => St a ∨ Sl a)) (s : HS) (live : List Blk)
    (h : Run os St Sl s live) :
    ∃ cks, Linked s.mem s.heap cks ∧ (∀ c ∈ cks, Tile (c.adr + 24) c.blks) ∧
      (∀ c ∈ cks, (c.adr, 24 + sizes c.blks) ∈ s.regions) ∧ (∀ b ∈ live, b ∈ blocks cks ∧ b.free = false) ∧
      ∀ b ∈ blocks cks, b.free = true → b.size ≠ 288 →
        (∃ xs, Chain s.mem (s.freeList (b.size / 32)) xs ∧ b.adr ∈ xs ∧ b.size / 32 < 9) ∨
        ∃ xs, Chain s.mem s.bigBlocks xs ∧ b.adr ∈ xs := by
  obtain ⟨cks, inv, hl, _⟩ := run_held hos h
  refine ⟨cks, inv.inMem.linked, inv.ok.tile, ?_, hl, ?_⟩
  · intro c hc
    have := inv.regs c hc
    rw [show c.end_ - c.adr = 24 + sizes c.blks by unfold Chunk.end_; omega] at this
    exact this
  intro b hb hf hne
  obtain ⟨F, G, L⟩ := inv.lists
  have hbk := inv.ok.blk b hb
  have h32 := hbk.size32
  have hp := hbk.sizePos
  rcases L.all b hb hf hne with ⟨h1, h2⟩ | h2
  · exact Or.inl ⟨_, L.small (b.size / 32) (by omega) h1, h2, h1⟩
  · exact Or.inr ⟨G, L.big, h2⟩

/-! An operating system that hands out memory from address 8192 on, of which there are 2^40 bytes. -/

/-- The end of the regions handed out. -/
def exTop : List (Nat × Nat) → Nat
  | [] => 8192
  | r :: rs => max (r.1 + r.2) (exTop rs)

def exOS : OS := fun regs n =>
  let a := (exTop regs + 7) / 8 * 8
  if a + n ≤ 2 ^ 40 then a else 0

theorem exTop_ge (rs : List (Nat × Nat)) : 8192 ≤ exTop rs ∧ ∀ r ∈ rs, r.1 + r.2 ≤ exTop rs := by
  induction rs with
  | nil => exact ⟨Nat.le_refl _, by simp⟩
  | cons r rs ih =>
    refine ⟨?_, ?_⟩
    · simp only [exTop]; omega
    · intro q hq
      simp only [exTop]
      rcases List.mem_cons.1 hq with rfl | hq
      · omega
      · have := ih.2 q hq; omega

theorem exOS_ok {P : Nat → Prop} (hP : ∀ a, P a → a + 8 ≤ 8192) : OSOK exOS P := by
  intro regs n
  obtain ⟨h1, h2⟩ := exTop_ge regs
  unfold exOS
  simp only
  split
  · right
    refine ⟨by omega, ?_, ?_⟩
    · intro r hr
      have := h2 r hr
      omega
    · intro a ha
      have := hP a ha
      omega
  · exact Or.inl rfl

/-- Descriptors: a record with a pointer at offset 0 (at 400), a record of 255712 bytes (at 448), one of 32 bytes without
pointers (at 480). -/
def exMem : Mem := fun a =>
  if a = 400 then 32 else if a = 408 then 0 else if a = 416 then -16
  else if a = 448 then 255712 else if a = 456 then -8
  else if a = 480 then 32 else if a = 488 then -8 else 0

def exStat : Nat → Prop := fun a => a = 400 ∨ a = 408 ∨ a = 416 ∨ a = 448 ∨ a = 456 ∨ a = 480 ∨ a = 488

def exSlot : Nat → Prop := fun a => a = 4096

theorem exOSOK : OSOK exOS (fun a => exStat a ∨ exSlot a) := by
  apply exOS_ok
  intro a ha
  simp only [exStat, exSlot] at ha
  omega

theorem exInit_mem {a : Nat} (h : a < 8192) : (initHeap exOS exMem).mem a = exMem a := by
  show put (put (put (put (put (put exMem 8200 _) 8216 _) 8224 _) 8232 _) 8240 _) 8192 _ a = _
  simp only [put]
  rw [if_neg (by omega), if_neg (by omega), if_neg (by omega), if_neg (by omega), if_neg (by omega), if_neg (by omega)]

theorem exDesc1 {m : Mem} (h : ∀ a, exStat a → m a = exMem a) : Desc exStat m 400 1 [0] := by
  have h0 := h 400 (by simp [exStat])
  have h1 := h 408 (by simp [exStat])
  have h2 := h 416 (by simp [exStat])
  refine ⟨by decide, by decide, by rw [h0]; rfl, ?_, by show m 416 = _; rw [h2]; rfl, by decide, by decide, ?_⟩
  · intro i o ho
    match i, ho with
    | 0, ho =>
      simp only [List.getElem?_cons_zero, Option.some.injEq] at ho
      subst ho
      show m 408 = 0
      rw [h1]; rfl
    | n + 1, ho => simp at ho
  · intro i hi
    simp only [List.length_cons, List.length_nil] at hi
    simp only [exStat]; omega

theorem exDesc2 {m : Mem} (h : ∀ a, exStat a → m a = exMem a) : Desc exStat m 448 7991 [] := by
  have h0 := h 448 (by simp [exStat])
  have h1 := h 456 (by simp [exStat])
  refine ⟨by decide, by decide, by rw [h0]; rfl, by simp, by show m 456 = _; rw [h1]; rfl, by decide, by simp, ?_⟩
  intro i hi
  simp only [List.length_nil] at hi
  simp only [exStat]; omega

theorem exRun0 : Run exOS exStat exSlot (initHeap exOS exMem) [] := Run.init exMem (by decide)

theorem exInit_stat : ∀ a, exStat a → (initHeap exOS exMem).mem a = exMem a := by
  intro a ha
  simp only [exStat] at ha
  exact exInit_mem (by omega)

theorem covers_nil (m : Mem) : Covers ⟨[], [], []⟩ m [] := ⟨by simp, by simp, by simp⟩

theorem run_stat {os : OS} {St Sl : Nat → Prop} (hos : OSOK os (fun a => St a ∨ Sl a)) {s s' : HS} {live : List Blk}
    (h : Run os St Sl s live) {e : Env} (hc : Covers e s.mem live) {tag k : Nat} {offs : List Nat}
    (hd : Desc St s.mem tag k offs) {p : Nat} (hev : ∃ F, ∀ f, F ≤ f → newRec os f e s tag = some (s', p)) :
    ∀ a, St a → s'.mem a = s.mem a := by
  obtain ⟨s1, p1, hev1, _, hp, _⟩ := C20_new os St Sl hos s live h e hc tag k offs hd
  have := Ev.unique (g := fun f => newRec os f e s tag) hev1 hev
  simp only [Prod.mk.injEq] at this
  rw [← this.1]
  exact fun a ha => hp a (Or.inl ha)

/-- A history with two records, the first pointing to the second, of which the collector sees only the first, on the
stack; another allocation is possible. -/
theorem exTwo : ∃ s b c, Run exOS exStat exSlot s [c, b] ∧ Edge s.mem b c ∧ b ≠ c ∧ Covers ⟨[], [b.ptr], []⟩ s.mem [c, b] ∧
    Desc exStat s.mem 400 1 [0] := by
  obtain ⟨s1, h1⟩ : ∃ s1, ∀ f, 2 ≤ f → newRec exOS f ⟨[], [], []⟩ (initHeap exOS exMem) 400 = some (s1, 264184 + 8) := by
    refine ⟨((newRec exOS 2 ⟨[], [], []⟩ (initHeap exOS exMem) 400).getD (initHeap exOS exMem, 0)).1, fun f hf => ?_⟩
    obtain ⟨g, rfl⟩ : ∃ g, f = g + 2 := ⟨f - 2, by omega⟩
    rfl
  have hd0 := exDesc1 exInit_stat
  have hr1 := Run.newRec exRun0 (covers_nil _) hd0 ⟨2, h1⟩
  have hs1 : ∀ a, exStat a → s1.mem a = exMem a := fun a ha => by
    rw [run_stat exOSOK exRun0 (covers_nil _) hd0 ⟨2, h1⟩ a ha]; exact exInit_stat a ha
  have hd1 := exDesc1 hs1
  obtain ⟨b, hb⟩ : ∃ b : Blk, b = ⟨264184, 32 * 1, 400, [0], false⟩ := ⟨_, rfl⟩
  rw [← hb] at hr1
  have hc1 : Covers ⟨[b.ptr], [], []⟩ s1.mem [b] := by
    refine ⟨by simp, by simp, ?_⟩
    intro x hx
    rw [List.mem_singleton.1 hx]
    exact ⟨b, by simp, Or.inl (by simp), Reach.refl b⟩
  obtain ⟨s2, p2, hev2, hsame2, hst2, h2⟩ := C20_new exOS exStat exSlot exOSOK s1 [b] hr1 _ hc1 400 1 [0] hd1
  have hp2 : p2 = 264152 + 8 := by
    have h3 : ∀ f, 3 ≤ f → (newRec exOS f ⟨[], [], []⟩ (initHeap exOS exMem) 400 >>= fun r =>
        (newRec exOS f ⟨[b.ptr], [], []⟩ r.1 400).map (·.2)) = some (264152 + 8) := by
      intro f hf
      obtain ⟨g, rfl⟩ : ∃ g, f = g + 3 := ⟨f - 3, by omega⟩
      rfl
    obtain ⟨F, hF⟩ := hev2
    have h4 := h3 (max F 3) (by omega)
    simp only [h1 (max F 3) (by omega), hF (max F 3) (by omega), Option.bind_eq_bind, Option.bind_some, Option.map_some,
      Option.some.injEq] at h4
    exact h4
  rcases h2 with ⟨h0, _⟩ | ⟨adr, hadr, hr2, hap, _, _⟩
  · omega
  obtain ⟨c, hc⟩ : ∃ c : Blk, c = ⟨adr, 32 * 1, 400, [0], false⟩ := ⟨_, rfl⟩
  rw [← hc] at hr2
  have hbc : b ≠ c := by
    intro h
    rw [hb, hc] at h
    simp only [Blk.mk.injEq] at h
    omega
  refine ⟨s2.put 264192 c.ptr, b, c, ?_, ?_, hbc, ?_, ?_⟩
  · refine Run.setPtr (b := b) hr2 (by simp) ?_ (Or.inr ⟨c, by simp, rfl⟩)
    rw [hb]; decide
  · refine ⟨264192, by rw [hb]; decide, ?_⟩
    simp [HS.put, put]
  · refine ⟨by simp, by simp, ?_⟩
    have hroot : Root ⟨[], [b.ptr], []⟩ b := Or.inr (Or.inl ⟨b.ptr, by simp, Nat.le_refl _, by rw [hb]; decide⟩)
    intro x hx
    refine ⟨b, by simp, hroot, ?_⟩
    simp only [List.mem_cons, List.not_mem_nil, or_false] at hx
    rcases hx with rfl | rfl
    · refine Reach.step ?_ (by simp) (Reach.refl _)
      refine ⟨264192, by rw [hb]; decide, ?_⟩
      simp [HS.put, put]
    · exact Reach.refl _
  · apply exDesc1
    intro a ha
    have h5 := hst2 a (Or.inl ha)
    have h6 := hs1 a ha
    simp only [exStat] at ha
    simp only [HS.put, put]
    rw [if_neg (by omega), h5, h6]

/-- A deviation: when the rest of a divided block has nine units, 288 bytes, it gets lost: the block is put in a list from
which nothing is ever taken.  Here the program has allocated one record of 255712 bytes from a heap of 256000 bytes: all
the lists are empty, so that the next allocation makes the collector run.  (The collector gets the block back.) -/
theorem C20_lost : ∃ s b, Run exOS exStat exSlot s [b] ∧ b.size = 255712 ∧ s.heapsize = 256000 ∧ s.allocated = 255712 ∧
    (∀ i, 1 ≤ i → i < 9 → s.freeList i = 0) ∧ s.bigBlocks = 0 ∧ ∀ f, tryAlloc (f + 1) s 480 = some none := by
  obtain ⟨s1, hs1⟩ : ∃ s1, s1 = (takeBig (initHeap exOS exMem) 8216 0 256000 (32 * 7991)).1 := ⟨_, rfl⟩
  obtain ⟨s2, ⟨F, hF⟩, _, _, hfr, hs2⟩ := finish_ok s1 (8216 + 288) 7991 448 (by decide) (by decide)
  have hev : ∀ f, F + 2 ≤ f → newRec exOS f ⟨[], [], []⟩ (initHeap exOS exMem) 448 = some (s2, 8504 + 8) := by
    intro f hf
    obtain ⟨g, rfl⟩ : ∃ g, f = g + 2 := ⟨f - 2, by omega⟩
    have h1 : finish (g + 2) s1 (8216 + 288) (32 * 7991) 448 = some (s2, 8504 + 8) := hF (g + 2) (by omega)
    have h2 : tryAlloc (g + 2) (initHeap exOS exMem) 448 =
        (finish (g + 2) s1 (8216 + 288) (32 * 7991) 448).bind fun r => some (some r) := by
      rw [hs1]; rfl
    simp only [newRec, h2, h1, Option.bind_eq_bind, Option.bind_some]
  have hd := exDesc2 exInit_stat
  have hr := Run.newRec exRun0 (covers_nil _) hd ⟨F + 2, hev⟩
  have hv : ∀ i, 1 ≤ i → i < 9 → s2.freeList i = 0 := by
    intro i h1 h2
    rw [hs2, hs1]
    have : i = 1 ∨ i = 2 ∨ i = 3 ∨ i = 4 ∨ i = 5 ∨ i = 6 ∨ i = 7 ∨ i = 8 := by omega
    rcases this with rfl | rfl | rfl | rfl | rfl | rfl | rfl | rfl <;> rfl
  have hb : s2.bigBlocks = 0 := by rw [hs2, hs1]; rfl
  have h9 : s2.freeList 9 = 8216 := by rw [hs2, hs1]; rfl
  have ht : s2.mem 480 = 32 := by
    rw [run_stat exOSOK exRun0 (covers_nil _) hd ⟨F + 2, hev⟩ 480 (by simp [exStat]), exInit_stat 480 (by simp [exStat])]
    rfl
  refine ⟨s2, _, hr, rfl, ?_, ?_, hv, hb, ?_⟩
  · rw [hs2, hs1]; rfl
  · rw [hs2, hs1]; rfl
  · intro f
    simp only [tryAlloc, ht, Option.bind_eq_bind]
    have hff : findFree s2.freeList 10 1 = some (9, 8216) := by
      simp [findFree, hv 1, hv 2, hv 3, hv 4, hv 5, hv 6, hv 7, hv 8, h9]
    have e1 : (32 : Int).toNat = 32 := rfl
    simp only [e1, show 32 % 32 = 0 from rfl, show 32 / 32 = 1 from rfl, ne_eq, not_true_eq_false, if_false,
      if_pos (show 1 < 9 by decide), hff, Option.bind_some, if_neg (show ¬ 9 < 9 by decide), findBig, hb, if_pos trivial]

end Verif.Heap
