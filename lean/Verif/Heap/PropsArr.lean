import Verif.Common
import Verif.Heap.PropsAlloc

/-!
# NEW of arrays (C40)
-/
namespace Verif.Heap

/-- C40: in every history, NEW of an array terminates, with a new object that has room for the lengths, the elements and its
table of pointers, and shares no word with an object the program holds.  The lengths of the open dimensions are stored at its
start, first dimension first, the elements are cleared, and the collector finds in the tag of the object the offset of every
pointer in every element, and no other offset.  Nothing else the program sees is changed.  If the operating system refuses
a region in which the object would fit, however, it stores through NIL (`none`). -/
theorem C40_new_partial (os : OS) (St Sl : Nat → Prop) (hos : OSOK os (fun a => St a ∨ Sl a)) (s : HS) (live : List Blk)
    (h : Run os St Sl s live) (e : Env) (hc : Covers e s.mem live) (slot : Nat) (hsl : Sl slot) (hns : ¬ St slot)
    (kind : ArrKind) (elemsz elemalgn nofdyn n : Nat) (lens : List Int) (po : List Nat)
    (hcall : ArrCall St s.mem kind elemsz elemalgn lens nofdyn po n) :
    (∃ F, ∀ f, F ≤ f → newArr os f e s slot kind elemsz elemalgn lens nofdyn = none ∧
      ∃ regs q, dataOff nofdyn elemalgn + n * elemsz ≤ q ∧ os regs q = 0) ∨
    ∃ s' adr size tag offs, (∃ F, ∀ f, F ≤ f → newArr os f e s slot kind elemsz elemalgn lens nofdyn = some (.done s' (adr + 8))) ∧
      Run os St Sl s' (⟨adr, size, tag, offs, false⟩ :: live) ∧
      -- the objects do not overlap
      (∀ c ∈ live, c.adr + c.size ≤ adr ∨ adr + size ≤ c.adr) ∧
      -- the elements begin at an aligned offset behind the lengths, and they and the table fit in the object
      (∃ d, 8 * nofdyn ≤ d ∧ d % 8 = 0 ∧ (8 < elemalgn → elemalgn ∣ d) ∧
        adr + 8 + d + n * elemsz ≤ tag ∧ tag + 8 * (offs.length + 2) ≤ adr + size ∧
        -- the pointers
        (∀ o, o ∈ offs ↔ ∃ i, i < n ∧ ∃ q ∈ po, o = d + i * elemsz + q) ∧ offs.Nodup ∧
        -- the elements are cleared
        ∀ a, adr + 8 + d ≤ a → a < adr + 8 + d + n * elemsz → a % 8 = 0 → s'.mem a = 0) ∧
      -- what the collector sees
      s'.mem adr = tag ∧ s'.mem tag = size ∧ (∀ (i o : Nat), offs[i]? = some o → s'.mem (tag + 8 + 8 * i) = o) ∧
      s'.mem (tag + 8 + 8 * offs.length) = -8 * (offs.length + 1) ∧
      -- the lengths
      (∀ i l, i < nofdyn → lens[i]? = some l → s'.mem (adr + 8 + 8 * i) = l) ∧
      -- nothing else changes
      (∀ b ∈ live, ∀ a, b.adr ≤ a → a < b.adr + b.size → s'.mem a = s.mem a) ∧
      (∀ a, St a ∨ Sl a → a ≠ slot → s'.mem a = s.mem a) := by
  rcases newArr_good hos (run_held hos h) hc hsl hns hcall with h1 | ⟨s', adr, hev, hg, hp, hs, hap, hl, hz⟩
  · exact Or.inl h1
  right
  have hrun := Run.newArr h hc hsl hns hcall hev
  have hds := dataOff_spec (nofdyn := nofdyn) (elemalgn := elemalgn)
    (by rcases hcall.algn with h | h <;> [exact Or.inl h; exact Or.inr h.2])
  obtain ⟨d, hd⟩ : ∃ d, d = dataOff nofdyn elemalgn := ⟨_, rfl⟩
  rw [← hd] at hrun hg hap hz hds
  have hel := elemOffs_length d elemsz n po
  have hin := hcall.args.inside
  obtain ⟨sz, hsz⟩ : ∃ sz, sz = (d + n * elemsz + n * po.length * 8 + 63) / 32 * 32 := ⟨_, rfl⟩
  obtain ⟨cks, inv, hlv, _⟩ := hg
  have htag := inv.tags _ (hlv _ (List.mem_cons_self ..)).1 (fun h => h)
  have htab := inv.tables _ (hlv _ (List.mem_cons_self ..)).1 (fun h => h)
  simp only [arrBlk, ← hsz] at hrun hap htag htab
  refine ⟨s', adr, _, _, _, hev, hrun, hap, ⟨d, by omega, hds.2.1, fun h => (hds.2.2.1 h).1, by omega, ?_, ?_, ?_, ?_⟩, htag,
    htab.1, htab.2.1, ?_, ?_, hs, hp⟩
  · rw [hel]; omega
  · intro o; exact mem_elemOffs
  · exact elemOffs_nodup hin.1 (fun o ho => (hin.2.1 o ho).1)
  · intro a h1 h2 h3; exact hz a h1 (by omega) h3
  · have := htab.2.2
    rw [this]; simp only; ring
  · intro i l hi hil
    refine hl i l ?_
    rw [List.getElem?_take, if_pos hi]; exact hil

/-- C40: a length that is zero or negative is reported: HALT(-20). -/
theorem C40_halt (os : OS) (f : Nat) (e : Env) (s : HS) (slot : Nat) (kind : ArrKind) (elemsz elemalgn nofdyn : Nat)
    (pre : List Int) (l : Int) (post : List Int) (hpre : ∀ x ∈ pre, 1 ≤ x) (hl : l ≤ 0) (hb : total pre < 2 ^ 63)
    (hb' : -(2 ^ 63) ≤ total pre * l) :
    newArr os f e s slot kind elemsz elemalgn (pre ++ l :: post) nofdyn = some .halt := by
  rw [newArr, prodLoop_halt pre 1 l post (by omega) hpre hl (by rw [Int.one_mul]; exact hb) (by rw [Int.one_mul]; exact hb')]

/-- The hypotheses can be met: NEW(a, 3, 0). -/
example : newArr exOS 5 ⟨[], [], []⟩ (initHeap exOS exMem) 4096 .none 4 4 [3, 0] 2 = some .halt :=
  C40_halt exOS 5 _ _ 4096 .none 4 4 2 [3] 0 [] (by simp) (by decide) (by decide) (by decide)

/-- A deviation: nothing checks that the number of elements can be represented: here NEW of an array of 2^32 by 2^32
characters, and of 2^61 long integers. -/
theorem C40_overflow (os : OS) (f : Nat) (e : Env) (s : HS) (slot : Nat) :
    newArr os f e s slot .none 1 1 [2 ^ 32, 2 ^ 32] 2 = none ∧ newArr os f e s slot .none 8 8 [2 ^ 61] 1 = none := by
  constructor
  · rw [newArr, show prodLoop 1 [2 ^ 32, 2 ^ 32] = .undef by decide]
  · rw [newArr, show prodLoop 1 [2 ^ 61] = .ok (2 ^ 61) by decide]
    simp only []
    rw [show guardD (in64 ((dataOff 1 8 + ((2 : Int) ^ 61).toNat * 8 : Nat) : Int)) = none by decide +kernel]
    rfl

/-- A deviation: for an array of pointers, the table has the offsets 8 to 8n, whatever the number of open dimensions: they are
those of the elements of an array with one open dimension only.  With none, `POINTER TO ARRAY n OF P`, the pointer in the first
element is missing: the collector does not see it, and the word behind the last element is taken for a pointer.  With two or
more, the lengths from the second on are taken for pointers, and the last elements are missing. -/
theorem C40_pointer_table (os : OS) (St Sl : Nat → Prop) (hos : OSOK os (fun a => St a ∨ Sl a)) (s : HS) (live : List Blk)
    (h : Run os St Sl s live) (e : Env) (hc : Covers e s.mem live) (slot : Nat) (hsl : Sl slot) (hns : ¬ St slot)
    (nofdyn n : Nat) (lens : List Int) (hdyn : nofdyn ≤ lens.length) (hpos : ∀ l ∈ lens, 1 ≤ l) (hn : total lens = n)
    (hfit : ((nofdyn * 8 + n * 8 + n * 8 : Nat) : Int) < 2 ^ 63) :
    ((∃ F, ∀ f, F ≤ f → newArr os f e s slot .ptr 8 8 lens nofdyn = none ∧ ∃ regs q, nofdyn * 8 + n * 8 ≤ q ∧ os regs q = 0) ∨
    ∃ s' adr tag, (∃ F, ∀ f, F ≤ f → newArr os f e s slot .ptr 8 8 lens nofdyn = some (.done s' (adr + 8))) ∧
      s'.mem adr = (tag : Nat) ∧ (∀ i, i < n → s'.mem (tag + 8 + 8 * i) = (8 * (i + 1) : Nat)) ∧
      s'.mem (tag + 8 + 8 * n) < 0 ∧ (∀ i l, i < nofdyn → lens[i]? = some l → s'.mem (adr + 8 + 8 * i) = l)) ∧
    -- element number i lies at offset dataOff + 8i
    (∀ i, i < n → nofdyn = 0 → ((∃ j, j < n ∧ dataOff nofdyn 8 + 8 * i = 8 * (j + 1)) ↔ i ≠ 0)) ∧
    (∀ i, i < n → 2 ≤ nofdyn → ((∃ j, j < n ∧ dataOff nofdyn 8 + 8 * i = 8 * (j + 1)) ↔ i + nofdyn ≤ n)) := by
  have hd : dataOff nofdyn 8 = nofdyn * 8 := (dataOff_spec (Or.inl (Nat.le_refl 8))).2.2.2 (Nat.le_refl 8)
  refine ⟨?_, ?_, ?_⟩
  rotate_left
  · intro i hi h0
    rw [hd]
    constructor
    · rintro ⟨j, _, h⟩; omega
    · intro h; exact ⟨i - 1, by omega, by omega⟩
  · intro i hi h0
    rw [hd]
    constructor
    · rintro ⟨j, hj, h⟩; omega
    · intro h; exact ⟨nofdyn + i - 1, by omega, by omega⟩
  have hfit1 : ((n : Nat) : Int) < 2 ^ 63 := lt_of_le_of_lt (by omega) hfit
  have hfit2 : ((dataOff nofdyn 8 + n * 8 : Nat) : Int) < 2 ^ 63 := lt_of_le_of_lt (by rw [hd]; omega) hfit
  have hfit3 : ((dataOff nofdyn 8 + n * 8 + n * 8 : Nat) : Int) < 2 ^ 63 := lt_of_le_of_lt (by rw [hd]) hfit
  have hprod : prodLoop 1 lens = .ok n := by
    rw [prodLoop_ok lens 1 (by omega) hpos (by rw [Int.one_mul, hn]; exact hfit1), Int.one_mul, hn]
  have hnat : ∀ q : Nat, (q : Int).toNat = q := fun q => Int.toNat_natCast q
  have h1 := in64_of hfit2
  have h2 := in64_of hfit3
  clear hfit hfit1 hfit2 hfit3
  rcases newBlk_gen hos (run_held hos h) hc hsl hns (dataOff nofdyn 8 + n * 8 + n * 8) with
    ⟨F, hF⟩ | ⟨s1, adr, k, ⟨F, hF⟩, hk1, hk2, hprot, hsame, hheld, hap, hz, h8, w0, w16, w8, hnew⟩
  · left
    refine ⟨F, fun f hf => ⟨?_, ?_⟩⟩
    · rw [newArr_eq hprod h1, arrBlock, h2, (hF f hf).1]; rfl
    · obtain ⟨regs, q, hq, ho⟩ := (hF f hf).2
      exact ⟨regs, q, by omega, ho⟩
  · right
    obtain ⟨m4, hm4, t1, t2, t3⟩ := table_put (m0 := s1.mem) (adr := adr) (k := k) (np := n)
      (offs := (List.range n).map fun i => (1 + i) * 8) (by simp) (by omega) w0 w16
    rw [List.map_map] at hm4
    refine ⟨{ s1 with mem := fillLens m4 (adr + 8) (lens.take nofdyn) }, adr, adr + 32 * k - 16 - 8 * n, ⟨F, fun f hf => ?_⟩, ?_, ?_, ?_, ?_⟩
    · have := hF f hf; beta_reduce at this
      rw [newArr_eq hprod h1, arrBlock, h2, this]
      simp only [guardD, Option.bind_some, putTable, show adr + 8 - 8 = adr by omega, w0, hnat, fillPtr_eq]
      rw [show adr + 32 * k - 16 - 8 * n + 8 + 8 * n = adr + 32 * k - 8 by omega, hm4]
      rfl
    · show fillLens _ _ _ _ = _
      rw [fillLens_other _ _ _ _ (by omega), t3]
    · intro i hi
      show fillLens _ _ _ _ = _
      rw [fillLens_other _ _ _ _ (by rw [List.length_take]; omega)]
      have := t2.2.1 i ((1 + i) * 8) (by
        rw [List.getElem?_map, List.getElem?_range hi]; rfl)
      simp only at this
      rw [this]; omega
    · show fillLens _ _ _ _ < 0
      rw [fillLens_other _ _ _ _ (by rw [List.length_take]; omega)]
      have := t2.2.2
      simp only [List.length_map, List.length_range] at this
      rw [this]; omega
    · intro i l hi hil
      refine fillLens_get _ _ _ _ _ ?_
      rw [List.getElem?_take, if_pos hi]; exact hil

/-- The hypotheses can be met: records with one pointer, in an array of 2 by 3 with two open dimensions. -/
theorem exArr : ArrCall exStat (initHeap exOS exMem).mem (.rcd 400) 24 8 [2, 3] 2 [0] 6 :=
  ⟨.rcd 2 (exDesc1 exInit_stat) (by decide) (by simp), Or.inl (by decide), by decide, by decide, by decide, by decide, by decide⟩

/-- The array of the example exists in a history. -/
example : ∃ s b, Run exOS exStat exSlot s [b] ∧ b.offs = [16, 40, 64, 88, 112, 136] ∧ s.mem (b.adr + 8) = 2 ∧ s.mem (b.adr + 16) = 3 := by
  rcases C40_new_partial exOS exStat exSlot exOSOK _ _ exRun0 ⟨[], [], []⟩ (covers_nil _) 4096 rfl (by simp [exStat]) _ _ _ _ _ _ _
    exArr with ⟨F, hF⟩ | ⟨s', adr, size, tag, offs, hev, hr, _, _, _, _, _, _, hl, _, _⟩
  · exfalso
    have h3 : ∀ f, 60 ≤ f → (newBlk exOS f ⟨[], [], []⟩ (initHeap exOS exMem) 4096 (16 + 6 * 24 + 6 * 1 * 8)).isSome = true := by
      intro f hf
      obtain ⟨g, rfl⟩ : ∃ g, f = g + 60 := ⟨f - 60, by omega⟩
      rfl
    have h4 := (hF (max F 60) (by omega)).1
    obtain ⟨r, hr⟩ := Option.isSome_iff_exists.1 (h3 (max F 60) (by omega))
    have hcp := countPtrs_eq (m := (initHeap exOS exMem).mem) (ptab := 408) (np := 1) (by decide) (by decide) 1 0 (max F 60) rfl (by omega)
    rw [newArr_eq (n := 6) (by decide) (by decide), arrBlock, hcp, Option.bind_some,
      show in64 ((dataOff 2 8 + 6 * 24 + 6 * 1 * 8 : Nat) : Int) = true by decide,
      show dataOff 2 8 + 6 * 24 + 6 * 1 * 8 = 16 + 6 * 24 + 6 * 1 * 8 from rfl, hr] at h4
    simp [guardD] at h4
  · have hrun := Run.newArr exRun0 (covers_nil _) rfl (by simp [exStat]) exArr hev
    exact ⟨s', _, hrun, rfl, hl 0 2 (by decide) rfl, hl 1 3 (by decide) rfl⟩

end Verif.Heap
