import Verif.Heap.Spec
import Verif.Common

/-!
# The marking loop: one object is traced completely and the heap is restored
-/
namespace Verif.Heap

theorem put_same {α : Type} (m : Nat → α) (a : Nat) (v : α) : put m a v a = v := by simp [put]
theorem put_other {α : Type} (m : Nat → α) (a : Nat) (v : α) (x : Nat) (h : x ≠ a) : put m a v x = m x := by
  simp [put, h]

/-- The heap during the traversal: nothing is known of the fields and tag words of marked blocks, but that the tag
word is odd. -/
structure Good (bs : List Blk) (m : Mem) : Prop where
  tables : ∀ b ∈ bs, TableOK m b
  tags : ∀ b ∈ bs, ¬ Marked m b → m b.adr = b.tag
  fields : ∀ b ∈ bs, ¬ Marked m b → FieldsOK bs m b

/-- The number of unmarked blocks. -/
def white (bs : List Blk) (m : Mem) : Nat := bs.countP (fun b => ! odd (m b.adr))

theorem countP_lt {α : Type} (p q : α → Bool) : ∀ (l : List α), (∀ x ∈ l, p x = true → q x = true) →
    (∃ x ∈ l, q x = true ∧ p x = false) → l.countP p < l.countP q
  | [], _, h => by obtain ⟨x, hx, _⟩ := h; simp at hx
  | y :: l, hpq, h => by
    have hle : l.countP p ≤ l.countP q := by
      apply List.countP_mono_left
      intro x hx; exact hpq x (List.mem_cons_of_mem _ hx)
    rw [List.countP_cons, List.countP_cons]
    obtain ⟨x, hx, hq, hp⟩ := h
    rcases List.mem_cons.1 hx with rfl | hx
    · simp only [hq, hp, if_true]; simp; omega
    · have := countP_lt p q l (fun x hx => hpq x (List.mem_cons_of_mem _ hx)) ⟨x, hx, hq, hp⟩
      have h2 := hpq y (List.mem_cons_self ..)
      by_cases hpy : p y = true
      · simp only [hpy, h2 hpy, if_true]; omega
      · rw [if_neg hpy]; split <;> omega

/-- The loop gets from `s` to `s'`. -/
def Steps (s s' : MS) : Prop := ∃ d, ∀ f, markLoop (f + d) s = markLoop f s'

theorem Steps.refl (s : MS) : Steps s s := ⟨0, fun _ => rfl⟩
theorem Steps.trans {a b c : MS} (h : Steps a b) (h' : Steps b c) : Steps a c := by
  obtain ⟨d, hd⟩ := h; obtain ⟨e, he⟩ := h'
  refine ⟨e + d, fun f => ?_⟩
  rw [← Nat.add_assoc, hd, he]
theorem Steps.one {s s' : MS} (h : markStep s = .inl s') : Steps s s' :=
  ⟨1, fun f => by rw [markLoop, h]⟩

/-- The field number `i` of `b`. -/
theorem mem_flds_of_get {b : Blk} {i o : Nat} (h : b.offs[i]? = some o) : b.ptr + o ∈ b.flds := by
  unfold Blk.flds
  exact List.mem_map.2 ⟨o, List.mem_of_getElem? h, rfl⟩

theorem mem_table {b : Blk} {i : Nat} (h : i ≤ b.offs.length) : b.tag + 8 + 8 * i ∈ b.table := by
  unfold Blk.table
  exact List.mem_map.2 ⟨i + 1, List.mem_range.2 (by omega), by omega⟩

theorem mem_table0 (b : Blk) : b.tag ∈ b.table := by
  unfold Blk.table
  exact List.mem_map.2 ⟨0, List.mem_range.2 (by omega), by omega⟩

theorem tableOK_congr {m m' : Mem} {b : Blk} (h : ∀ a ∈ b.table, m' a = m a) (ok : TableOK m b) : TableOK m' b := by
  refine ⟨?_, ?_, ?_⟩
  · rw [h _ (mem_table0 b)]; exact ok.1
  · intro j o hj
    rw [h _ (mem_table (Nat.le_of_lt (List.getElem?_eq_some_iff.1 hj).1))]
    exact ok.2.1 j o hj
  · rw [h _ (mem_table (Nat.le_refl _))]
    exact ok.2.2

theorem odd_even_add_one {x : Int} (h : odd x = false) : odd (x + 1) = true := by
  simp [odd] at *; omega

theorem odd_cast_add_one {x : Nat} (h : x % 2 = 0) : odd ((x : Int) + 1) = true := by
  simp [odd]; omega

/-- The effect of tracing: the tag words in `S` have got the mark, nothing else has changed. -/
def MarksOf (S : List Nat) (m m' : Mem) : Prop := ∀ a, m' a = if a ∈ S then m a + 1 else m a

/-- `c` can be reached from `b` through pointer fields of unmarked blocks. -/
inductive WReach (bs : List Blk) (m : Mem) : Blk → Blk → Prop where
  | refl (b : Blk) : WReach bs m b b
  | step {b c d : Blk} : ¬ Marked m b → Edge m b c → c ∈ bs → WReach bs m c d → WReach bs m b d

/-- What tracing from the fields of `b` numbered from `i` on leaves behind, except for the tag word of `b`. -/
structure Traced (bs : List Blk) (m m' : Mem) (b : Blk) (i : Nat) (S : List Nat) : Prop where
  eff : ∀ a, a ≠ b.adr → m' a = if a ∈ S then m a + 1 else m a
  bOdd : Marked m' b
  bNot : b.adr ∉ S
  new : ∀ a ∈ S, ∃ c ∈ bs, c.adr = a ∧ ¬ Marked m c
  reach : ∀ c ∈ bs, c.adr ∈ S → ∃ d ∈ bs, (∃ j o, i ≤ j ∧ b.offs[j]? = some o ∧ m (b.ptr + o) = d.ptr) ∧
    WReach bs m d c
  closed : ∀ c ∈ bs, c.adr ∈ S → ∀ d ∈ bs, Edge m c d → Marked m' d
  fields : ∀ j o, i ≤ j → b.offs[j]? = some o → ∀ d ∈ bs, m (b.ptr + o) = d.ptr → Marked m' d

theorem marked_mono {bs : List Blk} {m m' : Mem} {b : Blk} {S : List Nat}
    (eff : ∀ a, a ≠ b.adr → m' a = if a ∈ S then m a + 1 else m a) (bOdd : Marked m' b)
    (new : ∀ a ∈ S, ∃ c ∈ bs, c.adr = a ∧ ¬ Marked m c) (c : Blk) (h : Marked m c) : Marked m' c := by
  by_cases hc : c.adr = b.adr
  · unfold Marked at *; rw [hc]; exact bOdd
  · unfold Marked
    rw [eff _ hc]
    split
    · rename_i hS
      obtain ⟨d, _, hd, hn⟩ := new _ hS
      exact absurd (show Marked m d by unfold Marked; rw [hd]; exact h) hn
    · exact h

theorem ptr_inj {bs : List Blk} (sep : Sep bs) {c d : Blk} (hc : c ∈ bs) (hd : d ∈ bs)
    (h : (c.ptr : Int) = d.ptr) : c = d := by
  apply sep.adrInj c hc d hd
  unfold Blk.ptr at h; omega

theorem Sep.fldNe {bs : List Blk} (sep : Sep bs) {b : Blk} (hb : b ∈ bs) {i j o o' : Nat}
    (hi : b.offs[i]? = some o) (hj : b.offs[j]? = some o') (hne : i ≠ j) : b.ptr + o ≠ b.ptr + o' := by
  intro h
  have ho : o = o' := by omega
  subst ho
  apply hne
  have h1 := List.getElem?_eq_some_iff.1 hi
  have h2 := List.getElem?_eq_some_iff.1 hj
  obtain ⟨l1, e1⟩ := h1
  obtain ⟨l2, e2⟩ := h2
  exact (List.Nodup.getElem_inj_iff (sep.offsNodup b hb)).1 (e1.trans e2.symm)

/-- Tracing from one object: by induction on the number of unmarked blocks and of remaining fields. -/
theorem trace {bs : List Blk} (sep : Sep bs) : ∀ (w r : Nat) (m : Mem) (p : Nat) (b : Blk) (i : Nat),
    white bs m ≤ w → b.offs.length - i ≤ r → Good bs m → b ∈ bs → Marked m b → i ≤ b.offs.length →
    (∀ j o, i ≤ j → b.offs[j]? = some o → m (b.ptr + o) = 0 ∨ ∃ c ∈ bs, m (b.ptr + o) = c.ptr) →
    ∃ m' S, Steps ⟨m, p, b.ptr, b.tag + 8 + 8 * i⟩ ⟨m', p, b.ptr, b.tag + 8 + 8 * b.offs.length⟩ ∧
      Traced bs m m' b i S := by
  intro w
  induction w using Nat.strong_induction_on with
  | _ w ihw =>
  intro r
  induction r with
  | zero =>
    intro m p b i hw hr good hb hmk hi hf
    have : i = b.offs.length := by omega
    subst this
    refine ⟨m, [], Steps.refl _, ⟨by simp, hmk, by simp, by simp, by simp, by simp, ?_⟩⟩
    intro j o hj ho
    have := (List.getElem?_eq_some_iff.1 ho).1
    omega
  | succ r ihr =>
    intro m p b i hw hr good hb hmk hi hf
    by_cases hlast : i = b.offs.length
    · subst hlast
      refine ⟨m, [], Steps.refl _, ⟨by simp, hmk, by simp, by simp, by simp, by simp, ?_⟩⟩
      intro j o hj ho
      have := (List.getElem?_eq_some_iff.1 ho).1
      omega
    have hilt : i < b.offs.length := by omega
    obtain ⟨o, ho⟩ : ∃ o, b.offs[i]? = some o := ⟨_, List.getElem?_eq_getElem hilt⟩
    have hoff : m (b.tag + 8 + 8 * i) = (o : Int) := (good.tables b hb).2.1 i o ho
    have hfld : ((b.ptr : Int) + (o : Int)).toNat = b.ptr + o := by omega
    have hfm := mem_flds_of_get ho
    -- the field is NIL or its target is marked already: go on to the next field
    have skip : (∀ d ∈ bs, m (b.ptr + o) = d.ptr → Marked m d) →
        markStep ⟨m, p, b.ptr, b.tag + 8 + 8 * i⟩ = .inl ⟨m, p, b.ptr, b.tag + 8 + 8 * (i + 1)⟩ →
        ∃ m' S, Steps ⟨m, p, b.ptr, b.tag + 8 + 8 * i⟩ ⟨m', p, b.ptr, b.tag + 8 + 8 * b.offs.length⟩ ∧
          Traced bs m m' b i S := by
      intro htgt hstep
      obtain ⟨m', S, hs, ht⟩ := ihr m p b (i + 1) hw (by omega) good hb hmk (by omega)
        (fun j o hj => hf j o (by omega))
      refine ⟨m', S, (Steps.one hstep).trans hs, ⟨ht.eff, ht.bOdd, ht.bNot, ht.new, ?_, ht.closed, ?_⟩⟩
      · intro c hc hcS
        obtain ⟨d, hd, ⟨j, o', hj, ho', he⟩, hr⟩ := ht.reach c hc hcS
        exact ⟨d, hd, ⟨j, o', by omega, ho', he⟩, hr⟩
      · intro j o' hj ho' d hd he
        by_cases hji : j = i
        · subst hji
          rw [ho] at ho'
          cases ho'
          exact marked_mono ht.eff ht.bOdd ht.new d (htgt d hd he)
        · exact ht.fields j o' (by omega) ho' d hd he
    have hidx : b.tag + 8 + 8 * i + 8 = b.tag + 8 + 8 * (i + 1) := by omega
    rcases hf i o (Nat.le_refl _) ho with h0 | ⟨c, hc, hcp⟩
    · apply skip
      · intro d _ he; rw [h0] at he; unfold Blk.ptr at he; omega
      · simp only [markStep, hoff, hfld, h0]
        rw [if_neg (by omega)]
        simp [hidx]
    · have hn : (m (b.ptr + o)).toNat = c.ptr := by omega
      have hcne : c.ptr ≠ 0 := by unfold Blk.ptr; omega
      have hc8 : c.ptr - 8 = c.adr := by unfold Blk.ptr; omega
      have hb8 : b.ptr - 8 = b.adr := by unfold Blk.ptr; omega
      by_cases hcm : Marked m c
      · apply skip
        · intro d hd he
          have : c = d := ptr_inj sep hc hd (by rw [← hcp, he])
          rw [← this]; exact hcm
        · simp only [markStep, hoff, hfld, hn, hc8]
          rw [if_neg (by omega), if_pos hcne, if_pos (show odd (m c.adr) = true from hcm), hidx]
      · -- descend
        have hcb : c ≠ b := fun h => hcm (by rw [h]; exact hmk)
        have hcbA : c.adr ≠ b.adr := fun h => hcb (sep.adrInj c hc b hb h)
        have hctag := good.tags c hc hcm
        have hcodd : odd (m c.adr) = false := by
          unfold Marked at hcm; simpa using hcm
        have hcT := sep.tagEven c hc
        have hbT := sep.tagEven b hb
        have hfb : b.ptr + o ≠ b.adr := fun h => sep.adrFld b hb b hb (h ▸ hfm)
        have hfc : b.ptr + o ≠ c.adr := fun h => sep.adrFld c hc b hb (h ▸ hfm)
        obtain ⟨cur, hcur⟩ : ∃ cur, cur = b.tag + 8 + 8 * i := ⟨_, rfl⟩
        obtain ⟨m1, hm1⟩ : ∃ m1, m1 = put (put (put m c.adr (c.tag + 1)) b.adr (cur + 1)) (b.ptr + o) p :=
          ⟨_, rfl⟩
        have step1 : markStep ⟨m, p, b.ptr, b.tag + 8 + 8 * i⟩ = .inl ⟨m1, b.ptr, c.ptr, c.tag + 8 + 8 * 0⟩ := by
          simp only [markStep, hoff, hfld, hn, hc8, hb8]
          rw [if_neg (by omega), if_pos hcne, if_neg (by rw [hcodd]; simp)]
          rw [hctag, hm1, hcur]
          simp
        -- facts about m1
        have m1other : ∀ a, a ≠ c.adr → a ≠ b.adr → a ≠ b.ptr + o → m1 a = m a := by
          intro a h1 h2 h3
          rw [hm1, put_other _ _ _ _ h3, put_other _ _ _ _ h2, put_other _ _ _ _ h1]
        have m1c : m1 c.adr = c.tag + 1 := by
          rw [hm1, put_other _ _ _ _ (Ne.symm hfc), put_other _ _ _ _ hcbA, put_same]
        have m1b : m1 b.adr = cur + 1 := by
          rw [hm1, put_other _ _ _ _ (Ne.symm hfb), put_same]
        have m1f : m1 (b.ptr + o) = p := by rw [hm1, put_same]
        have m1table : ∀ d ∈ bs, ∀ a ∈ d.table, m1 a = m a := by
          intro d hd a ha
          apply m1other
          · intro h; exact sep.adrTable c hc d hd (h ▸ ha)
          · intro h; exact sep.adrTable b hb d hd (h ▸ ha)
          · intro h; exact sep.fldTable b hb d hd _ hfm (h ▸ ha)
        have tableOf : ∀ (m0 : Mem), (∀ d ∈ bs, ∀ a ∈ d.table, m0 a = m a) → ∀ d ∈ bs, TableOK m0 d := by
          intro m0 h0 d hd
          exact tableOK_congr (h0 d hd) (good.tables d hd)
        have m1cM : Marked m1 c := by unfold Marked; rw [m1c]; exact odd_cast_add_one (by omega)
        have m1bM : Marked m1 b := by unfold Marked; rw [m1b]; exact odd_cast_add_one (by omega)
        have m1adr : ∀ d ∈ bs, d ≠ c → d ≠ b → m1 d.adr = m d.adr := by
          intro d hd h1 h2
          apply m1other
          · intro h; exact h1 (sep.adrInj d hd c hc h)
          · intro h; exact h2 (sep.adrInj d hd b hb h)
          · intro h; exact sep.adrFld d hd b hb (h ▸ hfm)
        have m1flds : ∀ d ∈ bs, d ≠ b → ∀ a ∈ d.flds, m1 a = m a := by
          intro d hd h2 a ha
          apply m1other
          · intro h; exact sep.adrFld c hc d hd (h ▸ ha)
          · intro h; exact sep.adrFld b hb d hd (h ▸ ha)
          · intro h; exact h2 (sep.fldFld d hd b hb _ ha (h ▸ hfm))
        have good1 : Good bs m1 := by
          refine ⟨tableOf m1 m1table, ?_, ?_⟩
          · intro d hd hdm
            have h1 : d ≠ c := fun h => hdm (h ▸ m1cM)
            have h2 : d ≠ b := fun h => hdm (h ▸ m1bM)
            have h3 := m1adr d hd h1 h2
            rw [h3]
            apply good.tags d hd
            intro h; apply hdm; unfold Marked at *; rw [h3]; exact h
          · intro d hd hdm a ha
            have h1 : d ≠ c := fun h => hdm (h ▸ m1cM)
            have h2 : d ≠ b := fun h => hdm (h ▸ m1bM)
            have h3 := m1adr d hd h1 h2
            rw [m1flds d hd h2 a ha]
            apply good.fields d hd _ a ha
            intro h; apply hdm; unfold Marked at *; rw [h3]; exact h
        have white1 : white bs m1 < white bs m := by
          apply countP_lt
          · intro d hd h
            by_cases h1 : d = c
            · subst h1; unfold Marked at m1cM; simp [m1cM] at h
            by_cases h2 : d = b
            · subst h2; unfold Marked at m1bM; simp [m1bM] at h
            rwa [m1adr d hd h1 h2] at h
          · exact ⟨c, hc, by simp [hcodd], by unfold Marked at m1cM; simp [m1cM]⟩
        obtain ⟨m2, S1, hs1, ht1⟩ := ihw (white bs m1) (by omega) c.offs.length m1 b.ptr c 0 (Nat.le_refl _)
          (by omega) good1 hc m1cM (Nat.zero_le _) (by
            intro j o' _ hj
            have hm' := mem_flds_of_get hj
            rw [m1flds c hc hcb _ hm']
            exact good.fields c hc hcm _ hm')
        -- the words of b are untouched by the traversal of c
        have notS1 : ∀ a, (∀ d ∈ bs, d.adr = a → Marked m1 d) → a ∉ S1 := by
          intro a h hS
          obtain ⟨d, hd, hda, hdn⟩ := ht1.new a hS
          exact hdn (h d hd hda)
        have bS1 : b.adr ∉ S1 := notS1 _ (fun d hd h => by rw [sep.adrInj d hd b hb h]; exact m1bM)
        have fS1 : b.ptr + o ∉ S1 := by
          intro hS
          obtain ⟨d, hd, hda, _⟩ := ht1.new _ hS
          exact sep.adrFld d hd b hb (hda ▸ hfm)
        have tS1 : ∀ d ∈ bs, ∀ a ∈ d.table, a ∉ S1 := by
          intro d hd a ha hS
          obtain ⟨e, he, hea, _⟩ := ht1.new _ hS
          exact sep.adrTable e he d hd (hea ▸ ha)
        have m2b : m2 b.adr = cur + 1 := by
          rw [ht1.eff _ (Ne.symm hcbA), if_neg bS1, m1b]
        have m2f : m2 (b.ptr + o) = p := by
          rw [ht1.eff _ hfc, if_neg fS1, m1f]
        have m2table : ∀ d ∈ bs, ∀ a ∈ d.table, m2 a = m a := by
          intro d hd a ha
          rw [ht1.eff _ (fun h => sep.adrTable c hc d hd (h ▸ ha)), if_neg (tS1 d hd a ha), m1table d hd a ha]
        -- the step back
        obtain ⟨m3, hm3⟩ : ∃ m3, m3 = put (put m2 c.adr (c.tag + 1)) (b.ptr + o) c.ptr := ⟨_, rfl⟩
        have step2 : markStep ⟨m2, b.ptr, c.ptr, c.tag + 8 + 8 * c.offs.length⟩ =
            .inl ⟨m3, p, b.ptr, b.tag + 8 + 8 * (i + 1)⟩ := by
          have hsent : m2 (c.tag + 8 + 8 * c.offs.length) = -(8 * ((c.offs.length : Int) + 1)) := by
            rw [m2table c hc _ (mem_table (Nat.le_refl _))]
            exact (good.tables c hc).2.2
          have hbne : b.ptr ≠ 0 := by unfold Blk.ptr; omega
          have hrest : (((c.tag + 8 + 8 * c.offs.length : Nat) : Int) + -(8 * ((c.offs.length : Int) + 1)) + 1)
              = c.tag + 1 := by push_cast; ring
          have hcurT : cur ∈ b.table := by rw [hcur]; exact mem_table (by omega)
          have hcurc : cur ≠ c.adr := fun h => sep.adrTable c hc b hb (h ▸ hcurT)
          have hcm2 : m2 cur = (o : Int) := by
            rw [m2table b hb _ hcurT, hcur, hoff]
          simp only [markStep, hsent]
          rw [if_pos (by omega), if_neg hbne, hrest, hb8, hc8]
          rw [put_other _ _ _ _ (Ne.symm hcbA), m2b]
          have h1 : ((cur : Int) + 1 - 1).toNat = cur := by omega
          rw [h1, put_other _ _ _ _ hcurc, hcm2, hfld, put_other _ _ _ _ hfc, m2f, hm3, hcur]
          simp [hidx]
        have m3eff : ∀ a, a ≠ b.adr → m3 a = if a ∈ c.adr :: S1 then m a + 1 else m a := by
          intro a hab
          by_cases haf : a = b.ptr + o
          · subst haf
            rw [hm3, put_same, if_neg, hcp]
            simp only [List.mem_cons, not_or]
            exact ⟨hfc, fS1⟩
          · rw [hm3, put_other _ _ _ _ haf]
            by_cases hac : a = c.adr
            · subst hac
              rw [put_same, if_pos (List.mem_cons_self ..), hctag]
            · rw [put_other _ _ _ _ hac, ht1.eff _ hac, m1other a hac hab haf]
              simp [hac]
        have m3b : m3 b.adr = cur + 1 := by
          rw [hm3, put_other _ _ _ _ (Ne.symm hfb), put_other _ _ _ _ (Ne.symm hcbA), m2b]
        have m3bM : Marked m3 b := by unfold Marked; rw [m3b]; exact odd_cast_add_one (by omega)
        have new3 : ∀ a ∈ c.adr :: S1, ∃ d ∈ bs, d.adr = a ∧ ¬ Marked m d := by
          intro a ha
          rcases List.mem_cons.1 ha with rfl | ha
          · exact ⟨c, hc, rfl, hcm⟩
          · obtain ⟨d, hd, hda, hdn⟩ := ht1.new a ha
            refine ⟨d, hd, hda, fun h => hdn ?_⟩
            by_cases h1 : d = c
            · rw [h1]; exact m1cM
            by_cases h2 : d = b
            · rw [h2]; exact m1bM
            unfold Marked at *; rw [m1adr d hd h1 h2]; exact h
        have mono3 : ∀ d, Marked m d → Marked m3 d := marked_mono m3eff m3bM new3
        have m3flds : ∀ d ∈ bs, ∀ a ∈ d.flds, m3 a = m a := by
          intro d hd a ha
          rw [m3eff a (fun h => sep.adrFld b hb d hd (h ▸ ha)), if_neg]
          intro hS
          obtain ⟨e, he, hea, _⟩ := new3 a hS
          exact sep.adrFld e he d hd (hea ▸ ha)
        have m3table : ∀ d ∈ bs, ∀ a ∈ d.table, m3 a = m a := by
          intro d hd a ha
          rw [m3eff a (fun h => sep.adrTable b hb d hd (h ▸ ha)), if_neg]
          intro hS
          obtain ⟨e, he, hea, _⟩ := new3 a hS
          exact sep.adrTable e he d hd (hea ▸ ha)
        have good3 : Good bs m3 := by
          refine ⟨tableOf m3 m3table, ?_, ?_⟩
          · intro d hd hdm
            have hdm0 : ¬ Marked m d := fun h => hdm (mono3 d h)
            have hdb : d.adr ≠ b.adr := fun h => hdm0 (by rw [sep.adrInj d hd b hb h]; exact hmk)
            rw [m3eff _ hdb]
            split
            · rename_i hS
              exfalso; apply hdm
              unfold Marked
              rw [m3eff _ hdb, if_pos hS]
              apply odd_even_add_one
              unfold Marked at hdm0; simpa using hdm0
            · exact good.tags d hd hdm0
          · intro d hd hdm a ha
            rw [m3flds d hd a ha]
            exact good.fields d hd (fun h => hdm (mono3 d h)) a ha
        have c3M : Marked m3 c := by
          unfold Marked
          rw [m3eff _ hcbA, if_pos (List.mem_cons_self ..)]
          exact odd_even_add_one hcodd
        have white3 : white bs m3 < white bs m := by
          apply countP_lt
          · intro d hd h
            have : ¬ Marked m d := fun h' => by
              have := mono3 d h'; unfold Marked at this; simp [this] at h
            unfold Marked at this; simpa using this
          · exact ⟨c, hc, by simp [hcodd], by unfold Marked at c3M; simp [c3M]⟩
        obtain ⟨m4, S2, hs2, ht2⟩ := ihw (white bs m3) (by omega) b.offs.length m3 p b (i + 1) (Nat.le_refl _)
          (by omega) good3 hb m3bM (by omega) (by
            intro j o' hj ho'
            rw [m3flds b hb _ (mem_flds_of_get ho')]
            exact hf j o' (by omega) ho')
        have disj : ∀ a ∈ S2, a ∉ c.adr :: S1 := by
          intro a ha hS
          obtain ⟨d, hd, hda, hdn⟩ := ht2.new a ha
          apply hdn
          obtain ⟨e, he, hea, hen⟩ := new3 a hS
          have : d = e := sep.adrInj d hd e he (hda.trans hea.symm)
          subst this
          unfold Marked
          have hdb : d.adr ≠ b.adr := fun h => hen (by rw [sep.adrInj d hd b hb h]; exact hmk)
          rw [m3eff _ hdb, if_pos (hda ▸ hS)]
          apply odd_even_add_one
          unfold Marked at hen; simpa using hen
        -- unmarked blocks have the fields they had in m
        have reachMono : ∀ (m0 : Mem), (∀ d ∈ bs, ¬ Marked m0 d → ¬ Marked m d) →
            (∀ d ∈ bs, ¬ Marked m0 d → ∀ a ∈ d.flds, m0 a = m a) →
            ∀ (x y : Blk), x ∈ bs → WReach bs m0 x y → WReach bs m x y := by
          intro m0 h1 h2 x y hx h
          induction h with
          | refl => exact WReach.refl _
          | step hn he hin _ ih =>
            obtain ⟨a, ha, hae⟩ := he
            exact WReach.step (h1 _ hx hn) ⟨a, ha, by rw [← h2 _ hx hn a ha]; exact hae⟩ hin (ih hin)
        have un1 : ∀ d ∈ bs, ¬ Marked m1 d → d ≠ c ∧ d ≠ b ∧ ¬ Marked m d := by
          intro d hd hdn
          have h1 : d ≠ c := fun h => hdn (h ▸ m1cM)
          have h2 : d ≠ b := fun h => hdn (h ▸ m1bM)
          refine ⟨h1, h2, fun h => hdn ?_⟩
          unfold Marked at *; rw [m1adr d hd h1 h2]; exact h
        have reach1 := reachMono m1 (fun d hd h => (un1 d hd h).2.2)
          (fun d hd h a ha => m1flds d hd (un1 d hd h).2.1 a ha)
        have reach3 := reachMono m3 (fun d hd h h' => h (mono3 d h')) (fun d hd _ a ha => m3flds d hd a ha)
        have mono4 : ∀ d, Marked m3 d → Marked m4 d := marked_mono ht2.eff ht2.bOdd ht2.new
        have m2M : ∀ d ∈ bs, Marked m2 d → Marked m3 d := by
          intro d hd h
          by_cases h1 : d = c
          · rw [h1]; exact c3M
          · unfold Marked at *
            rw [hm3, put_other _ _ _ _ (fun (h : d.adr = b.ptr + o) => sep.adrFld d hd b hb (h ▸ hfm)),
              put_other _ _ _ _ (fun h => h1 (sep.adrInj d hd c hc h))]
            exact h
        have edge1 : ∀ d ∈ bs, d ≠ b → ∀ e, Edge m d e → Edge m1 d e := by
          intro d hd hdb e he
          obtain ⟨a, ha, hae⟩ := he
          exact ⟨a, ha, by rw [m1flds d hd hdb a ha]; exact hae⟩
        have edge3 : ∀ d ∈ bs, ∀ e, Edge m d e → Edge m3 d e := by
          intro d hd e he
          obtain ⟨a, ha, hae⟩ := he
          exact ⟨a, ha, by rw [m3flds d hd a ha]; exact hae⟩
        refine ⟨m4, (c.adr :: S1) ++ S2, (((Steps.one step1).trans hs1).trans (Steps.one step2)).trans hs2, ?_⟩
        refine ⟨?_, ht2.bOdd, ?_, ?_, ?_, ?_, ?_⟩
        · intro a ha
          rw [ht2.eff a ha, m3eff a ha]
          by_cases h2 : a ∈ S2
          · have := disj a h2
            simp only [List.mem_append, h2, this, if_true, if_false, or_true]
          · simp only [List.mem_append, h2, if_false, or_false]
        · simp only [List.mem_append, List.mem_cons, not_or]
          exact ⟨⟨Ne.symm hcbA, bS1⟩, ht2.bNot⟩
        · intro a ha
          rcases List.mem_append.1 ha with h | h
          · exact new3 a h
          · obtain ⟨d, hd, hda, hdn⟩ := ht2.new a h
            exact ⟨d, hd, hda, fun h' => hdn (mono3 d h')⟩
        · intro d hd hdS
          rcases List.mem_append.1 hdS with h | h
          · refine ⟨c, hc, ⟨i, o, Nat.le_refl _, ho, hcp⟩, ?_⟩
            rcases List.mem_cons.1 h with h | h
            · rw [sep.adrInj d hd c hc h]; exact WReach.refl _
            · obtain ⟨e, he, ⟨j, o', _, ho', hje⟩, hr⟩ := ht1.reach d hd h
              have hm' := mem_flds_of_get ho'
              refine WReach.step hcm ⟨_, hm', ?_⟩ he (reach1 _ _ he hr)
              rw [← m1flds c hc hcb _ hm']; exact hje
          · obtain ⟨e, he, ⟨j, o', hj, ho', hje⟩, hr⟩ := ht2.reach d hd h
            refine ⟨e, he, ⟨j, o', by omega, ho', ?_⟩, reach3 _ _ he hr⟩
            rw [← m3flds b hb _ (mem_flds_of_get ho')]; exact hje
        · intro d hd hdS e he hde
          rcases List.mem_append.1 hdS with h | h
          · apply mono4
            apply m2M e he
            rcases List.mem_cons.1 h with h | h
            · have hdc := sep.adrInj d hd c hc h
              subst hdc
              obtain ⟨a, ha, hae⟩ := hde
              unfold Blk.flds at ha
              obtain ⟨o', ho', rfl⟩ := List.mem_map.1 ha
              obtain ⟨j, hj⟩ := List.mem_iff_getElem?.1 ho'
              apply ht1.fields j o' (Nat.zero_le _) hj e he
              rw [m1flds d hd hcb _ (mem_flds_of_get hj)]; exact hae
            · apply ht1.closed d hd h e he
              apply edge1 d hd _ e hde
              intro hdb
              obtain ⟨x, hx, hxa, hxn⟩ := ht1.new _ h
              apply hxn
              rw [sep.adrInj x hx b hb (by rw [hxa, hdb])]
              exact m1bM
          · exact ht2.closed d hd h e he (edge3 d hd e hde)
        · intro j o' hj ho' d hd he
          by_cases hji : j = i
          · subst hji
            rw [ho] at ho'
            cases ho'
            have : c = d := ptr_inj sep hc hd (by rw [← hcp, he])
            rw [← this]
            exact mono4 c c3M
          · apply ht2.fields j o' (by omega) ho' d hd
            rw [m3flds b hb _ (mem_flds_of_get ho')]; exact he

/-- The marked blocks are closed under following pointers. -/
def Closed (bs : List Blk) (m : Mem) : Prop := ∀ b ∈ bs, Marked m b → ∀ c ∈ bs, Edge m b c → Marked m c

/-- `m'` results from `m` by marking what can be reached from the blocks in `R`, and nothing else. -/
structure MarkedFrom (bs : List Blk) (R : Blk → Prop) (m m' : Mem) : Prop where
  traceable : Traceable bs m'
  closed : Closed bs m'
  frame : ∀ a, (∀ c ∈ bs, a ≠ c.adr) → m' a = m a
  marks : ∀ c ∈ bs, Marked m' c ↔ Marked m c ∨ ∃ r ∈ bs, R r ∧ Reach bs m r c

theorem flds_frame {bs : List Blk} (sep : Sep bs) {m m' : Mem} (frame : ∀ a, (∀ c ∈ bs, a ≠ c.adr) → m' a = m a)
    {b : Blk} (hb : b ∈ bs) {a : Nat} (ha : a ∈ b.flds) : m' a = m a :=
  frame a (fun c hc h => sep.adrFld c hc b hb (h ▸ ha))

theorem edge_frame {bs : List Blk} (sep : Sep bs) {m m' : Mem} (frame : ∀ a, (∀ c ∈ bs, a ≠ c.adr) → m' a = m a)
    {b : Blk} (hb : b ∈ bs) (c : Blk) : Edge m' b c ↔ Edge m b c := by
  unfold Edge
  constructor
  · rintro ⟨a, ha, h⟩; exact ⟨a, ha, by rw [← flds_frame sep frame hb ha]; exact h⟩
  · rintro ⟨a, ha, h⟩; exact ⟨a, ha, by rw [flds_frame sep frame hb ha]; exact h⟩

theorem reach_frame {bs : List Blk} (sep : Sep bs) {m m' : Mem} (frame : ∀ a, (∀ c ∈ bs, a ≠ c.adr) → m' a = m a)
    {b c : Blk} (hb : b ∈ bs) : Reach bs m' b c ↔ Reach bs m b c := by
  constructor
  · intro h
    induction h with
    | refl => exact Reach.refl _
    | step he hin _ ih => exact Reach.step ((edge_frame sep frame hb _).1 he) hin (ih hin)
  · intro h
    induction h with
    | refl => exact Reach.refl _
    | step he hin _ ih => exact Reach.step ((edge_frame sep frame hb _).2 he) hin (ih hin)

theorem reach_marked {bs : List Blk} {m : Mem} (cl : Closed bs m) {b c : Blk} (hb : b ∈ bs) (h : Reach bs m b c)
    (hm : Marked m b) : Marked m c := by
  induction h with
  | refl => exact hm
  | step he hin _ ih => exact ih hin (cl _ hb hm _ hin he)

theorem wreach_reach {bs : List Blk} {m : Mem} {b c : Blk} (h : WReach bs m b c) : Reach bs m b c := by
  induction h with
  | refl => exact Reach.refl _
  | step _ he hin _ ih => exact Reach.step he hin ih

theorem markedFrom_refl {bs : List Blk} {m : Mem} (tr : Traceable bs m) (cl : Closed bs m) :
    MarkedFrom bs (fun _ => False) m m :=
  ⟨tr, cl, fun _ _ => rfl, by simp⟩

theorem markedFrom_trans {bs : List Blk} (sep : Sep bs) {R R' : Blk → Prop} {m m1 m2 : Mem}
    (h1 : MarkedFrom bs R m m1) (h2 : MarkedFrom bs R' m1 m2) : MarkedFrom bs (fun b => R b ∨ R' b) m m2 := by
  refine ⟨h2.traceable, h2.closed, fun a ha => by rw [h2.frame a ha, h1.frame a ha], ?_⟩
  intro c hc
  rw [h2.marks c hc, h1.marks c hc]
  constructor
  · rintro ((h | ⟨r, hr, hR, hre⟩) | ⟨r, hr, hR, hre⟩)
    · exact Or.inl h
    · exact Or.inr ⟨r, hr, Or.inl hR, hre⟩
    · exact Or.inr ⟨r, hr, Or.inr hR, (reach_frame sep h1.frame hr).1 hre⟩
  · rintro (h | ⟨r, hr, hR | hR, hre⟩)
    · exact Or.inl (Or.inl h)
    · exact Or.inl (Or.inr ⟨r, hr, hR, hre⟩)
    · exact Or.inr ⟨r, hr, hR, (reach_frame sep h1.frame hr).2 hre⟩

theorem markedFrom_congr {bs : List Blk} {R R' : Blk → Prop} {m m' : Mem} (h : MarkedFrom bs R m m')
    (e : ∀ b ∈ bs, R b ↔ R' b) : MarkedFrom bs R' m m' := by
  refine ⟨h.traceable, h.closed, h.frame, ?_⟩
  intro c hc
  rw [h.marks c hc]
  apply or_congr Iff.rfl
  constructor
  · rintro ⟨r, hr, hR, hre⟩; exact ⟨r, hr, (e r hr).1 hR, hre⟩
  · rintro ⟨r, hr, hR, hre⟩; exact ⟨r, hr, (e r hr).2 hR, hre⟩

/-- `f` gives `r` for all sufficiently large fuel. -/
def Ev {α : Type} (g : Nat → Option α) (r : α) : Prop := ∃ F, ∀ f, F ≤ f → g f = some r

theorem mark_ok {bs : List Blk} (sep : Sep bs) {m : Mem} (tr : Traceable bs m) (cl : Closed bs m) {b : Blk}
    (hb : b ∈ bs) : ∃ m', Ev (fun f => mark f m b.ptr) m' ∧ MarkedFrom bs (· = b) m m' := by
  have hne : b.ptr ≠ 0 := by unfold Blk.ptr; omega
  have hb8 : b.ptr - 8 = b.adr := by unfold Blk.ptr; omega
  by_cases hbm : Marked m b
  · refine ⟨m, ⟨0, fun f _ => ?_⟩, ⟨tr, cl, fun _ _ => rfl, ?_⟩⟩
    · simp only [mark, if_pos hne, hb8]
      rw [if_pos (show odd (m b.adr) = true from hbm)]
    · intro c hc
      constructor
      · exact Or.inl
      · rintro (h | ⟨r, hr, rfl, hre⟩)
        · exact h
        · exact reach_marked cl hr hre hbm
  · have hodd : odd (m b.adr) = false := by unfold Marked at hbm; simpa using hbm
    have htagOf : ∀ c ∈ bs, ¬ Marked m c → m c.adr = c.tag := by
      intro c hc hcm
      rcases tr.tags c hc with h | h
      · exact h
      · exfalso; apply hcm; unfold Marked; rw [h]; exact odd_cast_add_one (by have := sep.tagEven c hc; omega)
    have hmtag : ∀ c ∈ bs, Marked m c → m c.adr = c.tag + 1 := by
      intro c hc hcm
      rcases tr.tags c hc with h | h
      · exfalso; unfold Marked at hcm; rw [h] at hcm; have := sep.tagEven c hc; simp [odd] at hcm; omega
      · exact h
    have htag := htagOf b hb hbm
    obtain ⟨m0, hm0⟩ : ∃ m0, m0 = put m b.adr (b.tag + 1) := ⟨_, rfl⟩
    have m0other : ∀ a, a ≠ b.adr → m0 a = m a := fun a ha => by rw [hm0, put_other _ _ _ _ ha]
    have m0b : Marked m0 b := by
      unfold Marked; rw [hm0, put_same]; exact odd_cast_add_one (by have := sep.tagEven b hb; omega)
    have m0adr : ∀ c ∈ bs, c ≠ b → m0 c.adr = m c.adr :=
      fun c hc h => m0other _ (fun h' => h (sep.adrInj c hc b hb h'))
    have m0flds : ∀ c ∈ bs, ∀ a ∈ c.flds, m0 a = m a :=
      fun c hc a ha => m0other _ (fun h' => sep.adrFld b hb c hc (h' ▸ ha))
    have m0un : ∀ c ∈ bs, ¬ Marked m0 c → c ≠ b ∧ ¬ Marked m c := by
      intro c hc hcm
      have : c ≠ b := fun h => hcm (h ▸ m0b)
      refine ⟨this, fun h => hcm ?_⟩
      unfold Marked at *; rw [m0adr c hc this]; exact h
    have good : Good bs m0 := by
      refine ⟨?_, ?_, ?_⟩
      · intro c hc
        exact tableOK_congr (fun a ha => m0other _ (fun h' => sep.adrTable b hb c hc (h' ▸ ha))) (tr.tables c hc)
      · intro c hc hcm
        obtain ⟨h1, h2⟩ := m0un c hc hcm
        rw [m0adr c hc h1]; exact htagOf c hc h2
      · intro c hc hcm a ha
        rw [m0flds c hc a ha]; exact tr.fields c hc a ha
    obtain ⟨m1, S, ⟨d, hd⟩, ht⟩ := trace sep (white bs m0) b.offs.length m0 0 b 0 (Nat.le_refl _) (by omega) good hb m0b
      (Nat.zero_le _) (by
        intro j o _ hj
        have := mem_flds_of_get hj
        rw [m0flds b hb _ this]; exact tr.fields b hb _ this)
    have m1table : ∀ c ∈ bs, ∀ a ∈ c.table, m1 a = m a := by
      intro c hc a ha
      have h1 : a ≠ b.adr := fun h' => sep.adrTable b hb c hc (h' ▸ ha)
      rw [ht.eff a h1, if_neg, m0other a h1]
      intro hS
      obtain ⟨e, he, hea, _⟩ := ht.new a hS
      exact sep.adrTable e he c hc (hea ▸ ha)
    obtain ⟨m2, hm2⟩ : ∃ m2, m2 = put m1 b.adr (b.tag + 1) := ⟨_, rfl⟩
    have m2eff : ∀ a, m2 a = if a = b.adr ∨ a ∈ S then m a + 1 else m a := by
      intro a
      by_cases h : a = b.adr
      · subst h; rw [hm2, put_same, if_pos (Or.inl rfl), htag]
      · rw [hm2, put_other _ _ _ _ h, ht.eff a h, m0other a h]; simp [h]
    have m2b : Marked m2 b := by
      unfold Marked; rw [hm2, put_same]; exact odd_cast_add_one (by have := sep.tagEven b hb; omega)
    have m12 : ∀ c ∈ bs, Marked m1 c → Marked m2 c := by
      intro c hc h
      by_cases hcb : c = b
      · rw [hcb]; exact m2b
      · unfold Marked at *; rw [hm2, put_other _ _ _ _ (fun h' => hcb (sep.adrInj c hc b hb h'))]; exact h
    have frame : ∀ a, (∀ c ∈ bs, a ≠ c.adr) → m2 a = m a := by
      intro a ha
      rw [m2eff, if_neg]
      rintro (h | h)
      · exact ha b hb h
      · obtain ⟨e, he, hea, _⟩ := ht.new a h
        exact ha e he hea.symm
    have inS : ∀ c ∈ bs, c.adr ∈ S → ¬ Marked m c := by
      intro c hc h
      obtain ⟨e, he, hea, hen⟩ := ht.new _ h
      have := sep.adrInj e he c hc hea
      subst this
      exact (m0un e he hen).2
    have hmark : ∀ c ∈ bs, Marked m2 c ↔ Marked m c ∨ c = b ∨ c.adr ∈ S := by
      intro c hc
      have hB : c.adr = b.adr ↔ c = b := ⟨sep.adrInj c hc b hb, fun h => by rw [h]⟩
      have e := m2eff c.adr
      simp only [hB] at e
      by_cases h : c = b ∨ c.adr ∈ S
      · rw [if_pos h] at e
        have hn : ¬ Marked m c := by
          rcases h with h | h
          · rw [h]; exact hbm
          · exact inS c hc h
        constructor
        · intro _; exact Or.inr h
        · intro _
          unfold Marked at *
          rw [e]; apply odd_even_add_one; simpa using hn
      · rw [if_neg h] at e
        constructor
        · intro hm; left; unfold Marked at *; rwa [e] at hm
        · rintro (hm | hm)
          · unfold Marked at *; rw [e]; exact hm
          · exact absurd hm h
    have cl2 : Closed bs m2 := by
      intro c hc hcm e he hce
      have hce' := (edge_frame sep frame hc e).1 hce
      have hce0 : Edge m0 c e := by
        obtain ⟨a, ha, hae⟩ := hce'
        exact ⟨a, ha, by rw [m0flds c hc a ha]; exact hae⟩
      rcases (hmark c hc).1 hcm with h | h | h
      · exact (hmark e he).2 (Or.inl (cl c hc h e he hce'))
      · subst h
        obtain ⟨a, ha, hae⟩ := hce0
        unfold Blk.flds at ha
        obtain ⟨o', ho', rfl⟩ := List.mem_map.1 ha
        obtain ⟨j, hj⟩ := List.mem_iff_getElem?.1 ho'
        exact m12 e he (ht.fields j o' (Nat.zero_le _) hj e he hae)
      · exact m12 e he (ht.closed c hc h e he hce0)
    have hfin : markStep ⟨m1, 0, b.ptr, b.tag + 8 + 8 * b.offs.length⟩ = .inr m2 := by
      have hsent : m1 (b.tag + 8 + 8 * b.offs.length) = -(8 * ((b.offs.length : Int) + 1)) := by
        rw [m1table b hb _ (mem_table (Nat.le_refl _))]
        exact (tr.tables b hb).2.2
      have hrest : (((b.tag + 8 + 8 * b.offs.length : Nat) : Int) + -(8 * ((b.offs.length : Int) + 1)) + 1)
          = b.tag + 1 := by push_cast; ring
      simp only [markStep, hsent]
      rw [if_pos (by omega), if_pos trivial, hrest, hb8, hm2]
    refine ⟨m2, ⟨d + 1, ?_⟩, ⟨⟨?_, ?_, ?_⟩, ?_, frame, ?_⟩⟩
    · intro f hf
      simp only [mark, if_pos hne, hb8]
      rw [if_neg (by rw [hodd]; simp), htag]
      have h2 : f = (f - d - 1) + 1 + d := by omega
      have h3 : ((b.tag : Int)).toNat + 8 = b.tag + 8 + 8 * 0 := by omega
      rw [← hm0, h3, h2, hd, markLoop, hfin]
    · intro c hc
      refine tableOK_congr (fun a ha => frame a ?_) (tr.tables c hc)
      intro e he h; exact sep.adrTable e he c hc (h ▸ ha)
    · intro c hc
      rw [m2eff]
      by_cases h : c.adr = b.adr ∨ c.adr ∈ S
      · rw [if_pos h]
        right
        have hn : ¬ Marked m c := by
          rcases h with h | h
          · rw [sep.adrInj c hc b hb h]; exact hbm
          · exact inS c hc h
        rw [htagOf c hc hn]
      · rw [if_neg h]; exact tr.tags c hc
    · intro c hc a ha
      rw [flds_frame sep frame hc ha]; exact tr.fields c hc a ha
    · exact cl2
    · intro c hc
      rw [hmark c hc]
      constructor
      · rintro (h | h | h)
        · exact Or.inl h
        · exact Or.inr ⟨b, hb, rfl, by rw [h]; exact Reach.refl _⟩
        · right
          obtain ⟨e, he, ⟨j, o', _, ho', hje⟩, hr⟩ := ht.reach c hc h
          refine ⟨b, hb, rfl, Reach.step ⟨_, mem_flds_of_get ho', ?_⟩ he ?_⟩
          · rw [← m0flds b hb _ (mem_flds_of_get ho')]; exact hje
          · have f0 : ∀ a, (∀ c ∈ bs, a ≠ c.adr) → m0 a = m a := fun a ha => m0other a (ha b hb)
            exact (reach_frame sep f0 he).1 (wreach_reach hr)
      · rintro (h | ⟨r, hr, rfl, hre⟩)
        · exact Or.inl h
        · -- everything reachable is marked in m2, which is closed
          rw [← hmark c hc]
          exact reach_marked cl2 hr ((reach_frame sep frame hr).2 hre) m2b

end Verif.Heap
