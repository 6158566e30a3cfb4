import Verif.Heap.LemmasMark

/-!
# Marking (C21)
-/
namespace Verif.Heap

/-- C21, one call of `Mark`: it terminates; the marked blocks are exactly those that were marked before or can be
reached from the root through pointer fields; each tag word holds the block's tag, plus 1 if the block is marked;
no other word of memory differs from what it was.  The marked blocks stay closed under following pointers, so that
the next call finds the same conditions. -/
theorem C21_mark (bs : List Blk) (m : Mem) (sep : Sep bs) (tr : Traceable bs m) (cl : Closed bs m) (b : Blk)
    (hb : b ∈ bs) :
    ∃ m', (∃ F, ∀ f, F ≤ f → mark f m b.ptr = some m') ∧
      (∀ c ∈ bs, Marked m' c ↔ Marked m c ∨ Reach bs m b c) ∧
      (∀ c ∈ bs, m' c.adr = c.tag + if Marked m' c then 1 else 0) ∧
      (∀ a, (∀ c ∈ bs, a ≠ c.adr) → m' a = m a) ∧
      Traceable bs m' ∧ Closed bs m' := by
  obtain ⟨m', hev, h⟩ := mark_ok sep tr cl hb
  refine ⟨m', hev, ?_, ?_, h.frame, h.traceable, h.closed⟩
  · intro c hc
    rw [h.marks c hc]
    constructor
    · rintro (h | ⟨r, _, rfl, hr⟩)
      · exact Or.inl h
      · exact Or.inr hr
    · rintro (h | hr)
      · exact Or.inl h
      · exact Or.inr ⟨b, hb, rfl, hr⟩
  · intro c hc
    have hT := sep.tagEven c hc
    rcases h.traceable.tags c hc with e | e
    · rw [if_neg, e]; · simp
      unfold Marked; rw [e]; simp [odd]; omega
    · rw [if_pos, e]
      unfold Marked; rw [e]; exact odd_cast_add_one (by omega)

/-- `Mark(NIL)` does nothing. -/
theorem C21_nil (f : Nat) (m : Mem) : mark f m 0 = some m := by simp [mark]

theorem markRoots_ok {bs : List Blk} (sep : Sep bs) : ∀ (rs : List Nat) {m : Mem}, Traceable bs m → Closed bs m →
    (∀ r ∈ rs, r = 0 ∨ ∃ b ∈ bs, r = b.ptr) →
    ∃ m', Ev (fun f => markRoots f m rs) m' ∧ MarkedFrom bs (fun b => b.ptr ∈ rs) m m'
  | [], m, tr, cl, _ =>
    ⟨m, ⟨0, fun _ _ => rfl⟩, markedFrom_congr (markedFrom_refl tr cl) (fun _ _ => by simp)⟩
  | r :: rs, m, tr, cl, h => by
    have hrs := fun r hr => h r (List.mem_cons_of_mem _ hr)
    rcases h r (List.mem_cons_self ..) with h0 | ⟨b, hb, hr⟩
    · subst h0
      obtain ⟨m', ⟨F, hF⟩, hm⟩ := markRoots_ok sep rs tr cl hrs
      refine ⟨m', ⟨F, fun f hf => ?_⟩, markedFrom_congr hm ?_⟩
      · simp only [markRoots, C21_nil, Option.bind_eq_bind, Option.bind_some]; exact hF f hf
      · intro b _
        have : b.ptr ≠ 0 := by unfold Blk.ptr; omega
        simp [this]
    · subst hr
      obtain ⟨m1, ⟨F1, hF1⟩, hm1⟩ := mark_ok sep tr cl hb
      obtain ⟨m2, ⟨F2, hF2⟩, hm2⟩ := markRoots_ok sep rs hm1.traceable hm1.closed hrs
      refine ⟨m2, ⟨max F1 F2, fun f hf => ?_⟩, markedFrom_congr (markedFrom_trans sep hm1 hm2) ?_⟩
      · simp only [markRoots, hF1 f (by omega), Option.bind_eq_bind, Option.bind_some]; exact hF2 f (by omega)
      · intro c hc
        simp only [List.mem_cons]
        apply or_congr _ Iff.rfl
        constructor
        · rintro rfl; rfl
        · intro h; exact ptr_inj sep hc hb (by rw [h])

/-- C21, the mark phase from the global variables of the modules, starting with no block marked: exactly the blocks
that can be reached from a root are marked. -/
theorem C21_roots (bs : List Blk) (m : Mem) (sep : Sep bs) (tr : Traceable bs m) (unmarked : ∀ b ∈ bs, ¬ Marked m b)
    (rs : List Nat) (roots : ∀ r ∈ rs, r = 0 ∨ ∃ b ∈ bs, r = b.ptr) :
    ∃ m', (∃ F, ∀ f, F ≤ f → markRoots f m rs = some m') ∧
      (∀ c ∈ bs, Marked m' c ↔ ∃ b ∈ bs, b.ptr ∈ rs ∧ Reach bs m b c) ∧
      (∀ c ∈ bs, m' c.adr = m c.adr ∨ m' c.adr = m c.adr + 1) ∧
      (∀ a, (∀ c ∈ bs, a ≠ c.adr) → m' a = m a) := by
  obtain ⟨m', hev, h⟩ := markRoots_ok sep rs tr (fun b hb hm => absurd hm (unmarked b hb)) roots
  refine ⟨m', hev, ?_, ?_, h.frame⟩
  · intro c hc
    rw [h.marks c hc]
    simp [unmarked c hc]
  · intro c hc
    have hT := sep.tagEven c hc
    have h1 : m c.adr = c.tag := by
      rcases tr.tags c hc with e | e
      · exact e
      · exfalso; apply unmarked c hc; unfold Marked; rw [e]; exact odd_cast_add_one (by omega)
    rw [h1]; exact h.traceable.tags c hc

/-! A cyclic structure of two records with two pointers each, a third record that points to them but is not reachable,
and a record without pointers reachable from both.  -/

private def exA : Blk := ⟨1000, 32, 400, [0, 8], false⟩
private def exB : Blk := ⟨1032, 32, 400, [0, 8], false⟩
private def exC : Blk := ⟨1064, 32, 400, [0, 8], false⟩
private def exD : Blk := ⟨1096, 64, 440, [], false⟩
private def exBs : List Blk := [exA, exB, exC, exD]

private def exMem : Mem := fun a =>
  if a = 400 then 32 else if a = 408 then 0 else if a = 416 then 8 else if a = 424 then -24
  else if a = 440 then 64 else if a = 448 then -8
  else if a = 1000 then 400 else if a = 1008 then 1040 else if a = 1016 then 1104
  else if a = 1032 then 400 else if a = 1040 then 1008 else if a = 1048 then 1104
  else if a = 1064 then 400 else if a = 1072 then 1008 else if a = 1080 then 1040
  else if a = 1096 then 440 else 0

private theorem exSep : Sep exBs := by
  refine ⟨?_, ?_, ?_, ?_, ?_, ?_, ?_⟩ <;> decide

private theorem exTraceable : Traceable exBs exMem := by
  refine ⟨?_, by decide, ?_⟩
  · intro b hb
    simp only [exBs, List.mem_cons, List.not_mem_nil, or_false] at hb
    have two : ∀ (i o : Nat), ([0, 8] : List Nat)[i]? = some o → (i = 0 ∧ o = 0) ∨ (i = 1 ∧ o = 8) := by
      intro i o h
      match i, h with
      | 0, h => simp at h; omega
      | 1, h => simp at h; omega
      | n + 2, h => simp at h
    rcases hb with rfl | rfl | rfl | rfl
    · exact ⟨by decide, fun i o h => by rcases two i o h with ⟨rfl, rfl⟩ | ⟨rfl, rfl⟩ <;> decide, by decide⟩
    · exact ⟨by decide, fun i o h => by rcases two i o h with ⟨rfl, rfl⟩ | ⟨rfl, rfl⟩ <;> decide, by decide⟩
    · exact ⟨by decide, fun i o h => by rcases two i o h with ⟨rfl, rfl⟩ | ⟨rfl, rfl⟩ <;> decide, by decide⟩
    · exact ⟨by decide, fun i o h => by simp [exD] at h, by decide⟩
  · unfold FieldsOK; decide

example : Sep exBs ∧ Traceable exBs exMem ∧ Closed exBs exMem ∧ exA ∈ exBs := by
  refine ⟨exSep, exTraceable, ?_, by decide⟩
  intro b hb hm
  exact absurd hm (by revert b; decide)

/-- The run marks A, B and D but not C, and restores the pointers. -/
example : ((mark 20 exMem 1008).map fun m => exBs.map fun b => (m b.adr, b.flds.map m)) =
    some [(401, [1040, 1104]), (401, [1008, 1104]), (400, [1008, 1040]), (441, [])] := by decide

end Verif.Heap
