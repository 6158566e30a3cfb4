import Verif.Heap.LemmasCand

/-!
# The sweep
-/
namespace Verif.Heap

/-- The variables the sweep does not change. -/
structure SameVars (s s' : HS) : Prop where
  heap : s'.heap = s.heap
  heapMin : s'.heapMin = s.heapMin
  heapMax : s'.heapMax = s.heapMax
  heapsize : s'.heapsize = s.heapsize
  heapMinExpand : s'.heapMinExpand = s.heapMinExpand
  firstTry : s'.firstTry = s.firstTry
  regions : s'.regions = s.regions
  free0 : ∀ i, (i = 0 ∨ 9 ≤ i) → s'.freeList i = s.freeList i

theorem SameVars.refl (s : HS) : SameVars s s := ⟨rfl, rfl, rfl, rfl, rfl, rfl, rfl, fun _ _ => rfl⟩
theorem SameVars.trans {a b c : HS} (h : SameVars a b) (h' : SameVars b c) : SameVars a c :=
  ⟨h'.heap.trans h.heap, h'.heapMin.trans h.heapMin, h'.heapMax.trans h.heapMax, h'.heapsize.trans h.heapsize,
   h'.heapMinExpand.trans h.heapMinExpand, h'.firstTry.trans h.firstTry, h'.regions.trans h.regions,
   fun i hi => (h'.free0 i hi).trans (h.free0 i hi)⟩

/-- Sum of the sizes of the blocks that are not free. -/
def used (bs : List Blk) : Nat := sizes (bs.filter fun b => !b.free)

/-- A part of the sweep: `T` are the words it may change, `news` the blocks it leaves in this place. -/
structure Swept (s s' : HS) (T : Nat → Prop) (news : List Blk) : Prop where
  vars : SameVars s s'
  frame : ∀ a, ¬ T a → s'.mem a = s.mem a
  inside : ∀ b ∈ news, ∀ a, b.adr ≤ a → a < b.adr + b.size → T a
  size : ∀ b ∈ news, 32 ≤ b.size
  kept : ∀ b ∈ news, b.free = false →
    s'.mem b.adr = s.mem b.adr - 1 ∧ ∀ a, b.adr < a → a < b.adr + b.size → s'.mem a = s.mem a
  freed : ∀ b ∈ news, b.free = true → b = freeBlk b.adr b.size ∧ b.adr ≠ 0 ∧
    s'.mem b.adr = (b.adr + 8 : Nat) ∧ s'.mem (b.adr + 8) = b.size ∧ s'.mem (b.adr + 16) = -8
  alloc : s'.allocated = s.allocated + used news
  small : ∀ i, 1 ≤ i → i < 9 → ∀ xs, (∀ x ∈ xs, ¬ T (x + 24)) → Chain s.mem (s.freeList i) xs →
    Chain s'.mem (s'.freeList i) (smallFree i news ++ xs)
  big : ∀ xs, (∀ x ∈ xs, ¬ T (x + 24)) → Chain s.mem s.bigBlocks xs →
    Chain s'.mem s'.bigBlocks (bigFree news ++ xs)

theorem chain_congr {m m' : Mem} : ∀ {xs : List Nat} {a : Nat}, (∀ x ∈ xs, m' (x + 24) = m (x + 24)) → Chain m a xs →
    Chain m' a xs
  | [], _, _, h => h
  | x :: xs, a, he, ⟨h1, h2, n, h3, h4⟩ =>
    ⟨h1, h2, n, by rw [he x (List.mem_cons_self ..)]; exact h3,
      chain_congr (fun y hy => he y (List.mem_cons_of_mem _ hy)) h4⟩

theorem used_append (as bs : List Blk) : used (as ++ bs) = used as + used bs := by
  simp [used, sizes_append]

theorem smallFree_append (i : Nat) (as bs : List Blk) : smallFree i (as ++ bs) = smallFree i bs ++ smallFree i as := by
  simp [smallFree]

theorem bigFree_append (as bs : List Blk) : bigFree (as ++ bs) = bigFree bs ++ bigFree as := by
  simp [bigFree]

theorem smallFree_mem {i x : Nat} {bs : List Blk} (h : x ∈ smallFree i bs) : ∃ b ∈ bs, b.free = true ∧ b.adr = x := by
  simp only [smallFree, List.mem_reverse, List.mem_map, List.mem_filter, Bool.and_eq_true] at h
  obtain ⟨b, ⟨hb, hf, _⟩, e⟩ := h
  exact ⟨b, hb, hf, e⟩

theorem bigFree_mem {x : Nat} {bs : List Blk} (h : x ∈ bigFree bs) : ∃ b ∈ bs, b.free = true ∧ b.adr = x := by
  simp only [bigFree, List.mem_reverse, List.mem_map, List.mem_filter, Bool.and_eq_true] at h
  obtain ⟨b, ⟨hb, hf, _⟩, e⟩ := h
  exact ⟨b, hb, hf, e⟩

theorem Swept.nil (s : HS) : Swept s s (fun _ => False) [] := by
  refine ⟨SameVars.refl s, fun _ _ => rfl, ?_, ?_, ?_, ?_, ?_, ?_, ?_⟩ <;> simp [used, sizes, smallFree, bigFree]

theorem Swept.trans {s s1 s2 : HS} {T1 T2 : Nat → Prop} {n1 n2 : List Blk} (h1 : Swept s s1 T1 n1)
    (h2 : Swept s1 s2 T2 n2) (disj : ∀ a, T1 a → ¬ T2 a) : Swept s s2 (fun a => T1 a ∨ T2 a) (n1 ++ n2) := by
  have in1 : ∀ b ∈ n1, ∀ a, b.adr ≤ a → a < b.adr + b.size → s2.mem a = s1.mem a :=
    fun b hb a ha ha' => h2.frame a (disj a (h1.inside b hb a ha ha'))
  refine ⟨h1.vars.trans h2.vars, ?_, ?_, ?_, ?_, ?_, ?_, ?_, ?_⟩
  · intro a ha
    rw [h2.frame a (fun h => ha (Or.inr h)), h1.frame a (fun h => ha (Or.inl h))]
  · intro b hb a ha ha'
    rcases List.mem_append.1 hb with hb | hb
    · exact Or.inl (h1.inside b hb a ha ha')
    · exact Or.inr (h2.inside b hb a ha ha')
  · intro b hb
    rcases List.mem_append.1 hb with hb | hb
    · exact h1.size b hb
    · exact h2.size b hb
  · intro b hb hf
    rcases List.mem_append.1 hb with hb | hb
    · have hs := h1.size b hb
      obtain ⟨h3, h4⟩ := h1.kept b hb hf
      refine ⟨by rw [in1 b hb b.adr (by omega) (by omega)]; exact h3, ?_⟩
      intro a ha ha'
      rw [in1 b hb a (by omega) ha']; exact h4 a ha ha'
    · have hs := h2.size b hb
      obtain ⟨h3, h4⟩ := h2.kept b hb hf
      have h5 : ∀ a, b.adr ≤ a → a < b.adr + b.size → s1.mem a = s.mem a :=
        fun a ha ha' => h1.frame a (fun h => disj a h (h2.inside b hb a ha ha'))
      refine ⟨by rw [h3, h5 b.adr (by omega) (by omega)], ?_⟩
      intro a ha ha'
      rw [h4 a ha ha', h5 a (by omega) ha']
  · intro b hb hf
    rcases List.mem_append.1 hb with hb | hb
    · have hs := h1.size b hb
      obtain ⟨h3, h4, h5, h6, h7⟩ := h1.freed b hb hf
      refine ⟨h3, h4, ?_, ?_, ?_⟩
      · rw [in1 b hb _ (by omega) (by omega)]; exact h5
      · rw [in1 b hb _ (by omega) (by omega)]; exact h6
      · rw [in1 b hb _ (by omega) (by omega)]; exact h7
    · exact h2.freed b hb hf
  · rw [h2.alloc, h1.alloc, used_append]; omega
  · intro i hi hi' xs hx hc
    rw [smallFree_append, List.append_assoc]
    apply h2.small i hi hi'
    · intro x hx'
      rcases List.mem_append.1 hx' with hx' | hx'
      · obtain ⟨b, hb, _, rfl⟩ := smallFree_mem hx'
        have := h1.size b hb
        exact disj _ (h1.inside b hb _ (by omega) (by omega))
      · exact fun h => hx x hx' (Or.inr h)
    · exact h1.small i hi hi' xs (fun x hx' h => hx x hx' (Or.inl h)) hc
  · intro xs hx hc
    rw [bigFree_append, List.append_assoc]
    apply h2.big
    · intro x hx'
      rcases List.mem_append.1 hx' with hx' | hx'
      · obtain ⟨b, hb, _, rfl⟩ := bigFree_mem hx'
        have := h1.size b hb
        exact disj _ (h1.inside b hb _ (by omega) (by omega))
      · exact fun h => hx x hx' (Or.inr h)
    · exact h1.big xs (fun x hx' h => hx x hx' (Or.inl h)) hc

theorem Swept.congr {s s' : HS} {T T' : Nat → Prop} {n : List Blk} (h : Swept s s' T n) (e : ∀ a, T a ↔ T' a) :
    Swept s s' T' n := by
  have : T = T' := by funext a; exact propext (e a)
  rw [← this]; exact h

/-- Collecting a run of free storage. -/
theorem collect_ok (s : HS) (adr fs : Nat) (hfs : fs % 32 = 0) (hle : fs < adr) :
    Swept s (collect s adr fs) (fun a => adr - fs ≤ a ∧ a < adr) (if fs = 0 then [] else [freeBlk (adr - fs) fs]) := by
  by_cases h0 : fs = 0
  · subst h0
    simp only [if_true]
    have : collect s adr 0 = s := by simp [collect]
    rw [this]
    exact (Swept.nil s).congr (fun a => by simp)
  rw [if_neg h0]
  obtain ⟨st, hst⟩ : ∃ st, st = adr - fs := ⟨_, rfl⟩
  have hadr : adr = st + fs := by omega
  have hge : 32 ≤ fs := by omega
  rw [← hst]
  obtain ⟨m1, hm1⟩ : ∃ m1, m1 = put (put (put s.mem st (st + 8)) (st + 8) fs) (st + 16) (-8) := ⟨_, rfl⟩
  by_cases hi : fs / 32 < 9
  · obtain ⟨m2, hm2⟩ : ∃ m2 : Mem, m2 = put m1 (st + 24) (s.freeList (fs / 32)) := ⟨_, rfl⟩
    have hc : collect s adr fs = { s with mem := m2, freeList := put s.freeList (fs / 32) st } := by
      simp only [collect, HS.put, ← hst]
      rw [if_pos h0, if_pos hi, hm2, hm1]
    have hother : ∀ a, a ≠ st → a ≠ st + 8 → a ≠ st + 16 → a ≠ st + 24 → m2 a = s.mem a := by
      intro a h1 h2 h3 h4
      rw [hm2, put_other _ _ _ _ h4, hm1, put_other _ _ _ _ h3, put_other _ _ _ _ h2, put_other _ _ _ _ h1]
    rw [hc]
    refine ⟨⟨rfl, rfl, rfl, rfl, rfl, rfl, rfl, ?_⟩, ?_, ?_, ?_, ?_, ?_, ?_, ?_, ?_⟩
    · intro i hi'; exact put_other _ _ _ _ (by omega)
    · intro a ha; exact hother a (by omega) (by omega) (by omega) (by omega)
    · intro b hb a ha ha'
      simp only [List.mem_singleton] at hb; subst hb
      simp only [freeBlk] at ha ha'; omega
    · intro b hb; simp only [List.mem_singleton] at hb; subst hb; exact hge
    · intro b hb hf; simp only [List.mem_singleton] at hb; subst hb; simp [freeBlk] at hf
    · intro b hb hf; simp only [List.mem_singleton] at hb; subst hb
      refine ⟨rfl, by simp only [freeBlk]; omega, ?_, ?_, ?_⟩
      · simp only [freeBlk]
        rw [hm2, put_other _ _ _ _ (by omega), hm1, put_other _ _ _ _ (by omega), put_other _ _ _ _ (by omega), put_same]
        push_cast; rfl
      · simp only [freeBlk]
        rw [hm2, put_other _ _ _ _ (by omega), hm1, put_other _ _ _ _ (by omega), put_same]
      · simp only [freeBlk]
        rw [hm2, put_other _ _ _ _ (by omega), hm1, put_same]
    · simp [used, sizes, freeBlk]
    · intro i hi1 hi9 xs hx hch
      by_cases hii : i = fs / 32
      · subst hii
        have : smallFree (fs / 32) [freeBlk st fs] = [st] := by simp [smallFree, freeBlk]
        rw [this]
        simp only [put_same]
        refine ⟨rfl, by omega, s.freeList (fs / 32), by rw [hm2, put_same], ?_⟩
        exact chain_congr (fun x hx' => by
          have := hx x hx'
          exact hother _ (by omega) (by omega) (by omega) (by omega)) hch
      · have : smallFree i [freeBlk st fs] = [] := by
          simp only [smallFree, freeBlk, List.filter_cons, List.filter_nil]
          rw [if_neg (by simp; omega)]; rfl
        rw [this]
        simp only [put_other _ _ _ _ hii, List.nil_append]
        exact chain_congr (fun x hx' => by
          have := hx x hx'
          exact hother _ (by omega) (by omega) (by omega) (by omega)) hch
    · intro xs hx hch
      have : bigFree [freeBlk st fs] = [] := by
        simp only [bigFree, freeBlk, List.filter_cons, List.filter_nil]
        rw [if_neg (by simp; omega)]; rfl
      rw [this]
      exact chain_congr (fun x hx' => by
          have := hx x hx'
          exact hother _ (by omega) (by omega) (by omega) (by omega)) hch
  · obtain ⟨m2, hm2⟩ : ∃ m2 : Mem, m2 = put m1 (st + 24) s.bigBlocks := ⟨_, rfl⟩
    have hc : collect s adr fs = { s with mem := m2, bigBlocks := st } := by
      simp only [collect, HS.put, ← hst]
      rw [if_pos h0, if_neg hi, hm2, hm1]
    have hother : ∀ a, a ≠ st → a ≠ st + 8 → a ≠ st + 16 → a ≠ st + 24 → m2 a = s.mem a := by
      intro a h1 h2 h3 h4
      rw [hm2, put_other _ _ _ _ h4, hm1, put_other _ _ _ _ h3, put_other _ _ _ _ h2, put_other _ _ _ _ h1]
    rw [hc]
    refine ⟨⟨rfl, rfl, rfl, rfl, rfl, rfl, rfl, fun _ _ => rfl⟩, ?_, ?_, ?_, ?_, ?_, ?_, ?_, ?_⟩
    · intro a ha; exact hother a (by omega) (by omega) (by omega) (by omega)
    · intro b hb a ha ha'
      simp only [List.mem_singleton] at hb; subst hb
      simp only [freeBlk] at ha ha'; omega
    · intro b hb; simp only [List.mem_singleton] at hb; subst hb; exact hge
    · intro b hb hf; simp only [List.mem_singleton] at hb; subst hb; simp [freeBlk] at hf
    · intro b hb hf; simp only [List.mem_singleton] at hb; subst hb
      refine ⟨rfl, by simp only [freeBlk]; omega, ?_, ?_, ?_⟩
      · simp only [freeBlk]
        rw [hm2, put_other _ _ _ _ (by omega), hm1, put_other _ _ _ _ (by omega), put_other _ _ _ _ (by omega), put_same]
        push_cast; rfl
      · simp only [freeBlk]
        rw [hm2, put_other _ _ _ _ (by omega), hm1, put_other _ _ _ _ (by omega), put_same]
      · simp only [freeBlk]
        rw [hm2, put_other _ _ _ _ (by omega), hm1, put_same]
    · simp [used, sizes, freeBlk]
    · intro i hi1 hi9 xs hx hch
      have : smallFree i [freeBlk st fs] = [] := by
        simp only [smallFree, freeBlk, List.filter_cons, List.filter_nil]
        rw [if_neg (by simp; omega)]; rfl
      rw [this]
      exact chain_congr (fun x hx' => by
          have := hx x hx'
          exact hother _ (by omega) (by omega) (by omega) (by omega)) hch
    · intro xs hx hch
      have : bigFree [freeBlk st fs] = [st] := by
        simp only [bigFree, freeBlk, List.filter_cons, List.filter_nil]
        rw [if_pos (by simp; omega)]; rfl
      rw [this]
      refine ⟨rfl, by omega, s.bigBlocks, by show m2 (st + 24) = _; rw [hm2, put_same], ?_⟩
      exact chain_congr (fun x hx' => by
          have := hx x hx'
          exact hother _ (by omega) (by omega) (by omega) (by omega)) hch

/-- Keeping a marked block. -/
theorem keep_ok (s : HS) (b : Blk) (hs : 32 ≤ b.size) :
    Swept s { s with mem := put s.mem b.adr (s.mem b.adr - 1), allocated := s.allocated + b.size }
      (fun a => b.adr ≤ a ∧ a < b.adr + b.size) [{ b with free := false }] := by
  refine ⟨⟨rfl, rfl, rfl, rfl, rfl, rfl, rfl, fun _ _ => rfl⟩, ?_, ?_, ?_, ?_, ?_, ?_, ?_, ?_⟩
  · intro a ha; exact put_other _ _ _ _ (by omega)
  · intro c hc a ha ha'
    simp only [List.mem_singleton] at hc; subst hc
    exact ⟨ha, ha'⟩
  · intro c hc; simp only [List.mem_singleton] at hc; subst hc; exact hs
  · intro c hc _; simp only [List.mem_singleton] at hc; subst hc
    exact ⟨put_same _ _ _, fun a ha _ => put_other _ _ _ _ (by simp only at ha; omega)⟩
  · intro c hc hf; simp only [List.mem_singleton] at hc; subst hc; simp at hf
  · simp [used, sizes]
  · intro i _ _ xs hx hch
    have : smallFree i [{ b with free := false }] = [] := by simp [smallFree]
    rw [this]
    exact chain_congr (fun x hx' => put_other _ _ _ _ (by have := hx x hx'; omega)) hch
  · intro xs hx hch
    have : bigFree [{ b with free := false }] = [] := by simp [bigFree]
    rw [this]
    exact chain_congr (fun x hx' => put_other _ _ _ _ (by have := hx x hx'; omega)) hch

/-- The blocks the sweep leaves: marked blocks stay, runs of others become one free block. -/
def sweep (mk : Blk → Bool) : Nat → Nat → List Blk → List Blk
  | adr, fs, [] => if fs = 0 then [] else [freeBlk (adr - fs) fs]
  | adr, fs, b :: bs =>
    if mk b then (if fs = 0 then [] else [freeBlk (adr - fs) fs]) ++ { b with free := false } :: sweep mk (adr + b.size) 0 bs
    else sweep mk (adr + b.size) (fs + b.size) bs

theorem sweep_congr {mk mk' : Blk → Bool} : ∀ {bs : List Blk} (adr fs : Nat), (∀ b ∈ bs, mk b = mk' b) →
    sweep mk adr fs bs = sweep mk' adr fs bs
  | [], _, _, _ => rfl
  | b :: bs, adr, fs, h => by
    simp only [sweep, h b (List.mem_cons_self ..)]
    rw [sweep_congr _ _ (fun c hc => h c (List.mem_cons_of_mem _ hc)),
      sweep_congr _ _ (fun c hc => h c (List.mem_cons_of_mem _ hc))]

/-- What the loop needs to know about the blocks ahead. -/
structure Ahead (St : Nat → Prop) (m : Mem) (b : Blk) : Prop where
  ok : BlkOK St b
  size : m b.tag = b.size
  tag : m b.adr = b.tag ∨ m b.adr = b.tag + 1

theorem blk_size_ge {St : Nat → Prop} {b : Blk} (ok : BlkOK St b) : 32 ≤ b.size := by
  have h1 := ok.size32
  have h2 := ok.sizePos
  omega

theorem ahead_frame {St : Nat → Prop} {m m' : Mem} {b : Blk} (h : Ahead St m b)
    (fr : ∀ a, (St a ∨ (b.adr ≤ a ∧ a < b.adr + b.size)) → m' a = m a) : Ahead St m' b := by
  have := blk_size_ge h.ok
  refine ⟨h.ok, ?_, ?_⟩
  · rw [fr]; · exact h.size
    rcases table_bounds h.ok (mem_table0 b) with h' | h'
    · exact Or.inl h'
    · exact Or.inr (by omega)
  · rw [fr _ (Or.inr (by omega))]; exact h.tag

theorem scanBlocks_ok {St : Nat → Prop} (end_ : Nat) : ∀ (rest : List Blk) (s : HS) (adr fs : Nat), Tile adr rest →
    adr + sizes rest = end_ → fs % 32 = 0 → fs < adr → (∀ b ∈ rest, Ahead St s.mem b) →
    (∀ a, St a → a < adr - fs ∨ end_ ≤ a) →
    ∃ s1 fs', Ev (fun f => scanBlocks f s adr end_ fs) (s1, end_, fs') ∧
      Swept s (collect s1 end_ fs') (fun a => adr - fs ≤ a ∧ a < end_) (sweep (fun b => odd (s.mem b.adr)) adr fs rest) := by
  intro rest
  induction rest with
  | nil =>
    intro s adr fs _ he hfs hle _ _
    have hae : adr = end_ := by simp [sizes] at he; exact he
    subst hae
    refine ⟨s, fs, ⟨1, ?_⟩, ?_⟩
    · intro f hf
      obtain ⟨g, rfl⟩ : ∃ g, f = g + 1 := ⟨f - 1, by omega⟩
      simp only [scanBlocks]
      rw [if_neg (by omega)]
    · exact collect_ok s adr fs hfs hle
  | cons b rest ih =>
    intro s adr fs ht he hfs hle hah hst
    obtain ⟨hba, htr⟩ := ht
    rw [sizes_cons] at he
    have hb := hah b (List.mem_cons_self ..)
    have hsz := blk_size_ge hb.ok
    have h32 := hb.ok.size32
    have h8 := hb.ok.tag8
    have hah' := fun c hc => hah c (List.mem_cons_of_mem _ hc)
    have hlt : adr < end_ := by omega
    subst hba
    -- the word with the size is not among those changed by collecting and unmarking
    have htagpos : b.tag < b.adr - fs ∨ b.adr < b.tag := by
      rcases table_bounds hb.ok (mem_table0 b) with h' | h'
      · have := hst _ h'; omega
      · omega
    rcases hb.tag with htag | htag
    · -- unmarked
      have hodd : odd (s.mem b.adr) = false := by rw [htag]; simp [odd]; omega
      obtain ⟨s1, fs', ⟨F, hF⟩, hsw⟩ := ih s (b.adr + b.size) (fs + b.size) htr (by omega) (by omega) (by omega) hah'
        (fun a ha => by have := hst a ha; omega)
      refine ⟨s1, fs', ⟨F + 1, ?_⟩, ?_⟩
      · intro f hf
        obtain ⟨g, rfl⟩ : ∃ g, f = g + 1 := ⟨f - 1, by omega⟩
        have h1 : (s.mem (s.mem b.adr).toNat).toNat = b.size := by rw [htag, Int.toNat_natCast, hb.size]; omega
        simp only [scanBlocks]
        rw [if_pos hlt, if_neg (by rw [hodd]; simp), h1]
        exact hF g (by omega)
      · have h1 : sweep (fun b => odd (s.mem b.adr)) b.adr fs (b :: rest) =
            sweep (fun b => odd (s.mem b.adr)) (b.adr + b.size) (fs + b.size) rest := by
          simp only [sweep]; rw [if_neg (by rw [hodd]; simp)]
        rw [h1]
        exact hsw.congr (fun a => by omega)
    · -- marked
      have hodd : odd (s.mem b.adr) = true := by rw [htag]; exact odd_cast_add_one (by omega)
      have hc := collect_ok s b.adr fs hfs hle
      obtain ⟨sc, hsc⟩ : ∃ sc, sc = collect s b.adr fs := ⟨_, rfl⟩
      rw [← hsc] at hc
      have hscb : sc.mem b.adr = b.tag + 1 := by rw [hc.frame _ (by omega), htag]
      have hk := keep_ok sc b hsz
      obtain ⟨sk, hsk⟩ : ∃ sk : HS, sk = { sc with mem := put sc.mem b.adr (sc.mem b.adr - 1), allocated := sc.allocated + b.size } :=
        ⟨_, rfl⟩
      rw [← hsk] at hk
      have hck := hc.trans hk (fun a h1 h2 => by omega)
      obtain ⟨s1, fs', ⟨F, hF⟩, hsw⟩ := ih sk (b.adr + b.size) 0 htr (by omega) (by omega) (by omega) (by
          intro c hcm
          refine ahead_frame (hah' c hcm) (fun a ha => hck.frame a ?_)
          have := tile_bounds htr hcm
          rcases ha with ha | ha
          · have := hst a ha; omega
          · omega)
        (fun a ha => by have := hst a ha; omega)
      refine ⟨s1, fs', ⟨F + 1, ?_⟩, ?_⟩
      · intro f hf
        obtain ⟨g, rfl⟩ : ∃ g, f = g + 1 := ⟨f - 1, by omega⟩
        simp only [scanBlocks]
        rw [if_pos hlt, if_pos hodd, ← hsc, htag]
        have h1 : ((b.tag : Int) + 1 - 1) = b.tag := by omega
        have h2 : ((sc.put b.adr (b.tag : Int)).mem (b.tag : Int).toNat).toNat = b.size := by
          rw [Int.toNat_natCast]
          simp only [HS.put]
          rw [put_other _ _ _ _ (by omega), hc.frame _ (by omega), hb.size]
          omega
        rw [h1, h2]
        have h3 : ({ sc.put b.adr (b.tag : Int) with allocated := (sc.put b.adr (b.tag : Int)).allocated + b.size } : HS) = sk := by
          rw [hsk, hscb]; simp only [HS.put, h1]
        rw [h3]
        exact hF g (by omega)
      · have h1 : sweep (fun b => odd (s.mem b.adr)) b.adr fs (b :: rest) =
            ((if fs = 0 then [] else [freeBlk (b.adr - fs) fs]) ++ [{ b with free := false }]) ++
              sweep (fun b => odd (sk.mem b.adr)) (b.adr + b.size) 0 rest := by
          simp only [sweep]
          rw [if_pos hodd, List.append_assoc]
          have : sweep (fun b => odd (s.mem b.adr)) (b.adr + b.size) 0 rest =
              sweep (fun b => odd (sk.mem b.adr)) (b.adr + b.size) 0 rest := by
            apply sweep_congr
            intro c hcm
            have := tile_bounds htr hcm
            rw [hck.frame _ (by omega)]
          rw [this]; rfl
        rw [h1]
        exact (hck.trans hsw (fun a h1 h2 => by omega)).congr (fun a => by omega)

/-- The sweep of a chunk. -/
def sweepChunk (mk : Blk → Bool) (c : Chunk) : Chunk := ⟨c.adr, sweep mk (c.adr + 24) 0 c.blks⟩

theorem blocks_cons (c : Chunk) (cs : List Chunk) : blocks (c :: cs) = c.blks ++ blocks cs := by simp [blocks]

/-- The block area of some chunk. -/
def InBlocks (cs : List Chunk) (a : Nat) : Prop := ∃ c ∈ cs, c.adr + 24 ≤ a ∧ a < c.end_

theorem scanChunks_ok {St : Nat → Prop} : ∀ (cs : List Chunk) (s : HS) (a : Nat),
    (∀ c ∈ cs, Tile (c.adr + 24) c.blks) → cs.Pairwise (fun c d => c.end_ ≤ d.adr) →
    (∀ c ∈ cs, ∀ a, St a → a + 8 ≤ c.adr ∨ c.end_ ≤ a) → (∀ c ∈ cs, ∀ b ∈ c.blks, Ahead St s.mem b) →
    Linked s.mem a cs → (∀ c ∈ cs, s.mem (c.adr + 8) = c.end_) →
    ∃ s', Ev (fun f => scanChunks f s a) s' ∧
      Swept s s' (InBlocks cs) (blocks (cs.map (sweepChunk (fun b => odd (s.mem b.adr))))) := by
  intro cs
  induction cs with
  | nil =>
    intro s a _ _ _ _ hl _
    have ha : a = 0 := hl
    refine ⟨s, ⟨1, ?_⟩, ?_⟩
    · intro f hf
      obtain ⟨g, rfl⟩ : ∃ g, f = g + 1 := ⟨f - 1, by omega⟩
      simp [scanChunks, ha]
    · exact (Swept.nil s).congr (fun a => by simp [InBlocks])
  | cons c cs ih =>
    intro s a htile hp hst hah hl hends
    obtain ⟨hac, hane, n, hn, hl'⟩ := hl
    subst hac
    rw [List.pairwise_cons] at hp
    have hc := List.mem_cons_self (a := c) (l := cs)
    have hcs := fun d (hd : d ∈ cs) => List.mem_cons_of_mem c hd
    obtain ⟨s1, fs', ⟨F1, hF1⟩, hsw⟩ := scanBlocks_ok (St := St) c.end_ c.blks s (c.adr + 24) 0 (htile c hc) rfl rfl (by omega)
      (hah c hc) (fun a ha => by have := hst c hc a ha; omega)
    obtain ⟨s2, hs2⟩ : ∃ s2, s2 = collect s1 c.end_ fs' := ⟨_, rfl⟩
    rw [← hs2] at hsw
    have hout : ∀ d ∈ cs, ∀ a, d.adr ≤ a → s2.mem a = s.mem a := by
      intro d hd a ha
      have := hp.1 d hd
      exact hsw.frame a (by omega)
    have hmem : ∀ d ∈ cs, ∀ b ∈ d.blks, d.adr ≤ b.adr := by
      intro d hd b hb
      have := tile_bounds (htile d (hcs d hd)) hb; omega
    obtain ⟨s3, ⟨F2, hF2⟩, hsw2⟩ := ih s2 n (fun d hd => htile d (hcs d hd)) hp.2 (fun d hd => hst d (hcs d hd)) (by
        intro d hd b hb
        refine ahead_frame (hah d (hcs d hd) b hb) (fun a ha => ?_)
        rcases ha with ha | ha
        · exact hsw.frame a (by have := hst c hc a ha; omega)
        · exact hout d hd a (by have := hmem d hd b hb; omega))
      (linked_congr (fun d hd => hout d hd _ (Nat.le_refl _)) hl')
      (fun d hd => by rw [hout d hd _ (by omega)]; exact hends d (hcs d hd))
    refine ⟨s3, ⟨max F1 F2 + 1, ?_⟩, ?_⟩
    · intro f hf
      obtain ⟨g, rfl⟩ : ∃ g, f = g + 1 := ⟨f - 1, by omega⟩
      have hend : (s.mem (c.adr + 8)).toNat = c.end_ := by rw [hends c hc]; omega
      have hnext : (s2.mem c.adr).toNat = n := by rw [hsw.frame _ (by omega), hn]; omega
      simp only [scanChunks, if_pos hane, hend, hF1 g (by omega), Option.bind_eq_bind, Option.bind_some, ← hs2, hnext]
      exact hF2 g (by omega)
    · have hmk : cs.map (sweepChunk (fun b => odd (s2.mem b.adr))) = cs.map (sweepChunk (fun b => odd (s.mem b.adr))) := by
        apply List.map_congr_left
        intro d hd
        unfold sweepChunk
        congr 1
        apply sweep_congr
        intro b hb
        rw [hout d hd _ (hmem d hd b hb)]
      rw [hmk] at hsw2
      rw [List.map_cons, blocks_cons]
      refine (hsw.trans hsw2 ?_).congr ?_
      · intro a ha ⟨d, hd, hd1, _⟩
        have := hp.1 d hd
        omega
      · intro a
        unfold InBlocks
        simp only [List.mem_cons, exists_eq_or_imp]
        constructor
        · rintro (⟨h1, h2⟩ | h)
          · exact Or.inl ⟨by omega, h2⟩
          · exact Or.inr h
        · rintro (⟨h1, h2⟩ | h)
          · exact Or.inl ⟨by omega, h2⟩
          · exact Or.inr h

end Verif.Heap
