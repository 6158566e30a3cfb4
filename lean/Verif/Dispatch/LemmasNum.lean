import Verif.Dispatch.LemmasSpec

/-! The numbering of methods. -/
namespace Verif.Dispatch

def New (p : Prog) (i k : Nat) : Prop := Decl p i k ∧ ∀ b l, ¬ Redefines p i k b l

/-- How many of the first `K` methods of `i` are new. -/
def newCount (p : Prog) (i : Nat) : Nat → Nat
  | 0 => 0
  | K + 1 => newCount p i K + match (p i).meths[K]? with
    | none => 0
    | some x => if (findField p (p i).mod x.name (i + 1) (p i).base).isNone then 1 else 0

/-- What the numbering of the methods of type `i` achieves after the first `K` of them. -/
structure Part (p : Prog) (i nb : Nat) (s0 : CState) (K : Nat) (s : CState) : Prop where
  num_other : ∀ a, a ≠ i → s.num a = s0.num a
  n_other : ∀ a, a ≠ i → s.n a = s0.n a
  alloc : s.allocated = s0.allocated
  redef : ∀ k, k < K → ∀ b l, Redefines p i k b l → s.num i k = s0.num b l
  range : ∀ k, k < K → New p i k → nb ≤ s.num i k ∧ s.num i k < s.n i
  mono : ∀ k k', k < k' → k' < K → New p i k → New p i k' → s.num i k < s.num i k'
  sur : ∀ x, nb ≤ x → x < s.n i → ∃ k, k < K ∧ New p i k ∧ s.num i k = x
  ge : nb ≤ s.n i
  exact_ : ∀ k, k < K → New p i k → s.num i k = nb + newCount p i k
  count : s.n i = nb + newCount p i K

theorem part_step {p : Prog} (w : WF p) {i nb : Nat} {s0 s : CState} {K : Nat} (h : Part p i nb s0 K s)
    (hK : Decl p i K) : Part p i nb s0 (K + 1) (getTProcNum p i s K) := by
  obtain ⟨x, hx⟩ : ∃ x, (p i).meths[K]? = some x := ⟨_, List.getElem?_eq_getElem hK⟩
  cases hf : findField p (p i).mod x.name (i + 1) (p i).base with
  | some bl =>
    obtain ⟨b, kb⟩ := bl
    have hr := (redef_iff w hx b kb).mp hf
    have hbi : b ≠ i := by have := hr.lt w; omega
    have e : getTProcNum p i s K = { s with num := upd s.num i (upd (s.num i) K (s.num b kb)) } := by
      simp only [getTProcNum, hx, hf]
    rw [e]
    have hnew : ∀ k, k < K + 1 → New p i k → k < K := by
      intro k hk hn
      by_cases e : k = K
      · subst e; exact absurd hr (hn.2 _ _)
      · omega
    have hnum : ∀ k, k ≠ K → (upd s.num i (upd (s.num i) K (s.num b kb))) i k = s.num i k := by
      intro k hk; simp [upd, hk]
    constructor
    · intro a ha; simp only [upd, if_neg ha]; exact h.num_other a ha
    · exact h.n_other
    · exact h.alloc
    · intro k hk b' l' hr'
      simp only []
      by_cases e : k = K
      · subst e
        obtain ⟨e1, e2⟩ := hr.unique w hr'
        subst e1 e2
        simp only [upd, if_true]
        rw [h.num_other b hbi]
      · rw [hnum k e]; exact h.redef k (by omega) b' l' hr'
    · intro k hk hn
      have := hnew k hk hn
      simp only []
      rw [hnum k (by omega)]
      exact h.range k this hn
    · intro k k' hlt hk' hn hn'
      have := hnew k' hk' hn'
      simp only []
      rw [hnum k (by omega), hnum k' (by omega)]
      exact h.mono k k' hlt this hn hn'
    · intro y hy hy'
      obtain ⟨k, hk, hn, hx⟩ := h.sur y hy hy'
      refine ⟨k, by omega, hn, ?_⟩
      simp only []
      rw [hnum k (by omega)]; exact hx
    · exact h.ge
    · intro k hk hn
      have := hnew k hk hn
      simp only []
      rw [hnum k (by omega)]
      exact h.exact_ k this hn
    · simp only [newCount, hx, hf, Option.isNone_some, Bool.false_eq_true, if_false, Nat.add_zero]
      exact h.count
  | none =>
    have hn : New p i K := by
      refine ⟨hK, fun b l hr => ?_⟩
      have := (redef_iff w hx b l).mpr hr
      rw [hf] at this; cases this
    have e : getTProcNum p i s K =
        { s with num := upd s.num i (upd (s.num i) K (s.n i)), n := upd s.n i (s.n i + 1) } := by
      simp only [getTProcNum, hx, hf]
    rw [e]
    have hnum : ∀ k, k ≠ K → (upd s.num i (upd (s.num i) K (s.n i))) i k = s.num i k := by
      intro k hk; simp [upd, hk]
    have hnumK : (upd s.num i (upd (s.num i) K (s.n i))) i K = s.n i := by simp [upd]
    have hni : (upd s.n i (s.n i + 1)) i = s.n i + 1 := by simp [upd]
    have hge := h.ge
    constructor
    · intro a ha; simp only [upd, if_neg ha]; exact h.num_other a ha
    · intro a ha; simp only [upd, if_neg ha]; exact h.n_other a ha
    · exact h.alloc
    · intro k hk b' l' hr'
      have : k ≠ K := by rintro rfl; exact hn.2 _ _ hr'
      simp only []
      rw [hnum k this]; exact h.redef k (by omega) b' l' hr'
    · intro k hk hn
      simp only []
      rw [hni]
      by_cases e : k = K
      · subst e; rw [hnumK]; omega
      · rw [hnum k e]
        have := h.range k (by omega) hn
        omega
    · intro k k' hlt hk' hnk hnk'
      simp only []
      by_cases e : k' = K
      · subst e
        rw [hnumK, hnum k (by omega)]
        exact (h.range k hlt hnk).2
      · rw [hnum k (by omega), hnum k' e]
        exact h.mono k k' hlt (by omega) hnk hnk'
    · intro y hy hy'
      simp only [] at hy' ⊢
      rw [hni] at hy'
      by_cases e : y = s.n i
      · exact ⟨K, by omega, hn, by rw [hnumK]; exact e.symm⟩
      · obtain ⟨k, hk, hn, hx⟩ := h.sur y hy (by omega)
        exact ⟨k, by omega, hn, by rw [hnum k (by omega)]; exact hx⟩
    · simp only []; rw [hni]; omega
    · intro k hk hnk
      simp only []
      by_cases e : k = K
      · subst e; rw [hnumK]; exact h.count
      · rw [hnum k e]
        exact h.exact_ k (by omega) hnk
    · simp only [newCount, hx, hf, Option.isNone_none, if_true]
      rw [hni, h.count]; omega

theorem part_all {p : Prog} (w : WF p) {i nb : Nat} {s0 : CState} (h0 : s0.n i = nb) :
    ∀ K, K ≤ (p i).meths.length → Part p i nb s0 K ((List.range K).foldl (getTProcNum p i) s0) := by
  intro K
  induction K with
  | zero =>
    intro _
    simp only [List.range_zero, List.foldl_nil]
    exact ⟨fun _ _ => rfl, fun _ _ => rfl, rfl, by omega, by omega, by omega, by omega, by omega, by omega,
      by simp [newCount, h0]⟩
  | succ K ih =>
    intro hK
    rw [List.range_succ, List.foldl_append]
    exact part_step w (ih (by omega)) hK

/-- The numbers of the methods available in type `i` are right. -/
structure Good (p : Prog) (s : CState) (i : Nat) : Prop where
  lt : ∀ a k, Extends p i a → Decl p a k → s.num a k < s.n i
  inj : ∀ a k a' k' j o j' o', Extends p i a → Extends p i a' → Origin p a k j o → Origin p a' k' j' o' →
    (s.num a k = s.num a' k' ↔ j = j' ∧ o = o')
  sur : ∀ x, x < s.n i → ∃ a k, Extends p i a ∧ Decl p a k ∧ s.num a k = x
  mono : ∀ a, Extends p i a → s.n a ≤ s.n i
  intro_ : ∀ k, New p i k → ∀ b, (p i).base = some b → s.n b ≤ s.num i k
  redef : ∀ k b l, Redefines p i k b l → s.num i k = s.num b l
  fix : ∀ nb, ((p i).base = none → nb = 0) → (∀ b, (p i).base = some b → nb = s.n b) →
    s.n i = nb + newCount p i (p i).meths.length ∧ ∀ k, New p i k → s.num i k = nb + newCount p i k

/-- One type done: from the base to the type. -/
theorem good_step {p : Prog} (w : WF p) {i : Nat} {s0 s : CState} {nb : Nat}
    (hb : ∀ b, (p i).base = some b → Good p s0 b ∧ nb = s0.n b) (hr : (p i).base = none → nb = 0)
    (h : Part p i nb s0 (p i).meths.length s) : Good p s i := by
  -- numbers in the bases
  have hbase : ∀ b, (p i).base = some b → ∀ a, Extends p b a → s.num a = s0.num a ∧ s.n a = s0.n a := by
    intro b hb a ha
    have h1 := w.base_lt _ _ hb
    have h2 := ha.le w
    exact ⟨h.num_other a (by omega), h.n_other a (by omega)⟩
  have hred : ∀ k b l, Redefines p i k b l → ∃ c, (p i).base = some c ∧ Extends p c b ∧ Decl p b l ∧
      s.num i k = s0.num b l := by
    intro k b l hr
    obtain ⟨⟨c, hc, he⟩, hd, hd', _⟩ := hr.facts
    exact ⟨c, hc, he, hd', h.redef k hd b l hr⟩
  -- a method of `i` is new, or has the number and origin of a base method
  have hcase : ∀ k j o, Origin p i k j o → (New p i k ∧ j = i ∧ o = k) ∨
      ∃ c b l, (p i).base = some c ∧ Extends p c b ∧ Origin p b l j o ∧ s.num i k = s0.num b l := by
    intro k j o ho
    cases ho with
    | new hd hn => exact .inl ⟨⟨hd, hn⟩, rfl, rfl⟩
    | redef hr ho =>
      obtain ⟨c, hc, he, hd, e⟩ := hred _ _ _ hr
      exact .inr ⟨c, _, _, hc, he, ho, e⟩
  -- methods available in `i`: new, or numbered as in the base
  have hav : ∀ a k j o, Extends p i a → Origin p a k j o → (a = i ∧ New p i k ∧ j = i ∧ o = k) ∨
      ∃ c b l, (p i).base = some c ∧ Extends p c b ∧ Origin p b l j o ∧ s.num a k = s0.num b l := by
    intro a k j o ha ho
    rcases ha.cases' with e | ⟨c, hc, hca⟩
    · subst e
      rcases hcase k j o ho with ⟨h1, h2, h3⟩ | h1
      · exact .inl ⟨rfl, h1, h2, h3⟩
      · exact .inr h1
    · exact .inr ⟨c, a, k, hc, hca, ho, by rw [(hbase c hc a hca).1]⟩
  have hlt0 : ∀ c b l, (p i).base = some c → Extends p c b → Decl p b l → s0.num b l < nb := by
    intro c b l hc he hd
    obtain ⟨g, e⟩ := hb c hc
    rw [e]; exact g.lt b l he hd
  constructor
  · intro a k ha hd
    obtain ⟨j, o, ho⟩ := origin_total w a k hd
    rcases hav a k j o ha ho with ⟨e, hn, _, _⟩ | ⟨c, b, l, hc, he, ho', e⟩
    · subst e; exact (h.range k hd hn).2
    · rw [e]
      have := hlt0 c b l hc he ho'.facts.2.1
      have := h.ge
      omega
  · intro a k a' k' j o j' o' ha ha' ho ho'
    rcases hav a k j o ha ho with ⟨e, hn, hj, hoo⟩ | ⟨c, b, l, hc, he, hob, e⟩
    · rcases hav a' k' j' o' ha' ho' with ⟨e', hn', hj', hoo'⟩ | ⟨c', b', l', hc', he', hob', e'⟩
      · subst e e' hj hj' hoo hoo'
        constructor
        · intro e
          refine ⟨rfl, ?_⟩
          rcases Nat.lt_trichotomy o o' with hh | hh | hh
          · have := h.mono _ _ hh hn'.1 hn hn'; omega
          · exact hh
          · have := h.mono _ _ hh hn.1 hn' hn; omega
        · rintro ⟨_, rfl⟩; rfl
      · subst e hj hoo
        have h1 := hlt0 c' b' l' hc' he' hob'.facts.2.1
        have h2 := (h.range o hn.1 hn).1
        have h3 := hob'.facts.1.le w
        have h4 := he'.le w
        have h5 := w.base_lt _ _ hc'
        rw [e']
        constructor
        · intro; omega
        · rintro ⟨rfl, _⟩; omega
    · rcases hav a' k' j' o' ha' ho' with ⟨e', hn', hj', hoo'⟩ | ⟨c', b', l', hc', he', hob', e'⟩
      · subst e' hj' hoo'
        have h1 := hlt0 c b l hc he hob.facts.2.1
        have h2 := (h.range o' hn'.1 hn').1
        have h3 := hob.facts.1.le w
        have h4 := he.le w
        have h5 := w.base_lt _ _ hc
        rw [e]
        constructor
        · intro; omega
        · rintro ⟨rfl, _⟩; omega
      · rw [hc] at hc'; cases hc'
        rw [e, e']
        exact (hb c hc).1.inj b l b' l' j o j' o' he he' hob hob'
  · intro x hx
    by_cases hxb : x < nb
    · cases hbs : (p i).base with
      | none => rw [hr hbs] at hxb; omega
      | some c =>
        obtain ⟨g, e⟩ := hb c hbs
        obtain ⟨a, k, ha, hd, hk⟩ := g.sur x (by omega)
        exact ⟨a, k, .step hbs ha, hd, by rw [(hbase c hbs a ha).1]; exact hk⟩
    · obtain ⟨k, hk, hn, e⟩ := h.sur x (by omega) hx
      exact ⟨i, k, .refl _, hn.1, e⟩
  · intro a ha
    rcases ha.cases' with e | ⟨c, hc, hca⟩
    · subst e; exact Nat.le_refl _
    · rw [(hbase c hc a hca).2]
      obtain ⟨g, e⟩ := hb c hc
      have := g.mono a hca
      have := h.ge
      omega
  · intro k hn b hbs
    obtain ⟨_, e⟩ := hb b hbs
    have := (h.range k hn.1 hn).1
    rw [(hbase b hbs b (.refl _)).2]
    omega
  · intro k b l hr'
    obtain ⟨c, hc, he, _, e⟩ := hred k b l hr'
    rw [e, (hbase c hc b he).1]
  · intro nb' h1 h2
    have e : nb' = nb := by
      cases hbs : (p i).base with
      | none => rw [h1 hbs, hr hbs]
      | some b => rw [h2 b hbs, (hb b hbs).2, (hbase b hbs b (.refl _)).2]
    rw [e]
    exact ⟨h.count, fun k hn => h.exact_ k hn.1 hn⟩

/-- Compile-time invariant: allocated types are numbered, and so are their bases. -/
structure NInv (p : Prog) (s : CState) : Prop where
  closed : ∀ i, s.allocated i = true → ∀ b, (p i).base = some b → s.allocated b = true
  good : ∀ i, s.allocated i = true → Good p s i
  fresh : ∀ i, s.allocated i = false → s.n i = 0

theorem NInv.anc {p : Prog} {s : CState} (h : NInv p s) {i a : Nat} (ha : Extends p i a)
    (hi : s.allocated i = true) : s.allocated a = true := by
  induction ha with
  | refl => exact hi
  | step hb _ ih => exact ih (h.closed _ hi _ hb)

/-- `Good` looks only at the numbers of a type and its bases. -/
theorem good_congr {p : Prog} {s s' : CState} {i : Nat} (h : Good p s i)
    (e : ∀ a, Extends p i a → s'.num a = s.num a ∧ s'.n a = s.n a) : Good p s' i := by
  have en := (e i (.refl _)).2
  constructor
  · intro a k ha hd; rw [(e a ha).1, en]; exact h.lt a k ha hd
  · intro a k a' k' j o j' o' ha ha' ho ho'
    rw [(e a ha).1, (e a' ha').1]; exact h.inj a k a' k' j o j' o' ha ha' ho ho'
  · intro x hx
    rw [en] at hx
    obtain ⟨a, k, ha, hd, hk⟩ := h.sur x hx
    exact ⟨a, k, ha, hd, by rw [(e a ha).1]; exact hk⟩
  · intro a ha; rw [(e a ha).2, en]; exact h.mono a ha
  · intro k hn b hb
    rw [(e b (.step hb (.refl _))).2, (e i (.refl _)).1]; exact h.intro_ k hn b hb
  · intro k b l hr
    obtain ⟨⟨c, hc, he⟩, _⟩ := hr.facts
    rw [(e i (.refl _)).1, (e b (.step hc he)).1]; exact h.redef k b l hr
  · intro nb h1 h2
    rw [en, (e i (.refl _)).1]
    apply h.fix nb h1
    intro b hb
    rw [h2 b hb, (e b (.step hb (.refl _))).2]

/-- `TraverseRecord` numbers the type and its bases, and leaves numbered types alone. -/
theorem traverse_ok {p : Prog} (w : WF p) : ∀ (f i : Nat) (s : CState), i < f → NInv p s →
    NInv p (traverseRecord p f i s) ∧ (traverseRecord p f i s).allocated i = true ∧
    (∀ a, s.allocated a = true → (traverseRecord p f i s).allocated a = true ∧
      (traverseRecord p f i s).num a = s.num a ∧ (traverseRecord p f i s).n a = s.n a) ∧
    (∀ a, i < a → (traverseRecord p f i s).allocated a = s.allocated a ∧
      (traverseRecord p f i s).n a = s.n a) := by
  intro f
  induction f with
  | zero => intro i s h; omega
  | succ f ih =>
    intro i s hi hs
    cases ha : s.allocated i with
    | true =>
      have e : traverseRecord p (f + 1) i s = s := by simp [traverseRecord, ha]
      rw [e]
      exact ⟨hs, ha, fun a h => ⟨h, rfl, rfl⟩, fun a _ => ⟨rfl, rfl⟩⟩
    | false =>
      -- the state after the base has been numbered
      obtain ⟨s1, hs1⟩ : ∃ s1, s1 = (match (p i).base with
          | some b => let s := traverseRecord p f b s; { s with n := upd s.n i (s.n b) }
          | none => s) := ⟨_, rfl⟩
      obtain ⟨s0, hs0⟩ : ∃ s0 : CState, s0 = { s1 with allocated := upd s1.allocated i true } := ⟨_, rfl⟩
      have e : traverseRecord p (f + 1) i s = (List.range (p i).meths.length).foldl (getTProcNum p i) s0 := by
        rw [hs0, hs1]
        simp only [traverseRecord, ha, Bool.false_eq_true, if_false]
        rfl
      rw [e]
      -- facts about s1
      have hp : ∃ sb : CState, NInv p sb ∧ sb.allocated i = false ∧
          (∀ b, (p i).base = some b → sb.allocated b = true) ∧
          (∀ a, s.allocated a = true → sb.allocated a = true ∧ sb.num a = s.num a ∧ sb.n a = s.n a) ∧
          (∀ a, i < a → sb.allocated a = s.allocated a ∧ sb.n a = s.n a) ∧
          s1.num = sb.num ∧ s1.allocated = sb.allocated ∧ (∀ a, a ≠ i → s1.n a = sb.n a) ∧
          (∀ b, (p i).base = some b → s1.n i = sb.n b) ∧ ((p i).base = none → s1.n i = 0) := by
        cases hb : (p i).base with
        | none =>
          rw [hb] at hs1
          simp only [] at hs1
          refine ⟨s, hs, ha, by simp, fun a h => ⟨h, rfl, rfl⟩, fun a _ => ⟨rfl, rfl⟩, ?_⟩
          rw [hs1]
          exact ⟨rfl, rfl, fun _ _ => rfl, by simp, fun _ => hs.fresh i ha⟩
        | some b =>
          have hlt := w.base_lt _ _ hb
          obtain ⟨i1, i2, i3, i4⟩ := ih b s (by omega) hs
          rw [hb] at hs1
          simp only [] at hs1
          refine ⟨traverseRecord p f b s, i1, by rw [(i4 i hlt).1]; exact ha, ?_, i3, fun a h => i4 a (by omega), ?_⟩
          · intro b' e; cases e; exact i2
          rw [hs1]
          refine ⟨rfl, rfl, ?_, ?_, by simp⟩
          · intro a h; simp only [upd, if_neg h]
          · intro b' e; cases e; simp only [upd, if_true]
      obtain ⟨sb, hsb, hbi, hball, hbk, hbh, en, eal, enn, enb, enr⟩ := hp
      have en0 : s0.num = sb.num := by rw [hs0]; exact en
      have eal0 : s0.allocated = upd sb.allocated i true := by rw [hs0]; simp only []; rw [eal]
      have enn0 : ∀ a, a ≠ i → s0.n a = sb.n a := by intro a h; rw [hs0]; exact enn a h
      have hpart := part_all w (s0 := s0) (i := i) (nb := s0.n i) rfl (p i).meths.length (Nat.le_refl _)
      generalize (List.range (p i).meths.length).foldl (getTProcNum p i) s0 = s' at hpart
      have hne : ∀ a, sb.allocated a = true → a ≠ i := by
        rintro a h rfl; rw [hbi] at h; cases h
      have hkeep : ∀ a, sb.allocated a = true → s'.num a = sb.num a ∧ s'.n a = sb.n a := by
        intro a h
        have := hne a h
        rw [hpart.num_other a this, hpart.n_other a this, en0, enn0 a this]
        exact ⟨rfl, rfl⟩
      have eal' : ∀ a, s'.allocated a = if a = i then true else sb.allocated a := by
        intro a; rw [hpart.alloc, eal0]; rfl
      have hgi : Good p s' i := by
        apply good_step w (s0 := s0) (nb := s0.n i) _ _ hpart
        · intro b hb
          have hba := hball b hb
          refine ⟨?_, ?_⟩
          · apply good_congr (hsb.good b hba)
            intro a hae
            have := hne a (hsb.anc hae hba)
            rw [en0, enn0 a this]; exact ⟨rfl, rfl⟩
          · have := hne b hba
            rw [enn0 b this, hs0]
            exact enb b hb
        · intro hb; rw [hs0]; exact enr hb
      refine ⟨⟨?_, ?_, ?_⟩, ?_, ?_, ?_⟩
      · intro a haa b hb
        rw [eal'] at haa ⊢
        by_cases e1 : b = i
        · simp [e1]
        · rw [if_neg e1]
          by_cases e2 : a = i
          · subst e2; exact hball b hb
          · rw [if_neg e2] at haa; exact hsb.closed a haa b hb
      · intro a haa
        by_cases e2 : a = i
        · subst e2; exact hgi
        · rw [eal', if_neg e2] at haa
          apply good_congr (hsb.good a haa)
          intro c hc
          exact hkeep c (hsb.anc hc haa)
      · intro a haa
        have e2 : a ≠ i := by rintro rfl; rw [eal', if_pos rfl] at haa; cases haa
        rw [eal', if_neg e2] at haa
        rw [hpart.n_other a e2, enn0 a e2]
        exact hsb.fresh a haa
      · rw [eal', if_pos rfl]
      · intro a haa
        obtain ⟨k1, k2, k3⟩ := hbk a haa
        have e2 := hne a k1
        obtain ⟨k4, k5⟩ := hkeep a k1
        refine ⟨by rw [eal', if_neg e2]; exact k1, by rw [k4, k2], by rw [k5, k3]⟩
      · intro a hlt
        have e2 : a ≠ i := by omega
        obtain ⟨k1, k2⟩ := hbh a hlt
        refine ⟨by rw [eal', if_neg e2, k1], by rw [hpart.n_other a e2, enn0 a e2, k2]⟩

theorem ninv_init (p : Prog) : NInv p CState.init :=
  ⟨fun _ h => by simp [CState.init] at h, fun _ h => by simp [CState.init] at h, fun _ _ => rfl⟩

theorem traverse_all {p : Prog} (w : WF p) (order : List Nat) : ∀ (s : CState), NInv p s →
    NInv p (order.foldl (fun s i => traverseRecord p (i + 1) i s) s) ∧
    (∀ a, (a ∈ order ∨ s.allocated a = true) →
      (order.foldl (fun s i => traverseRecord p (i + 1) i s) s).allocated a = true) ∧
    (∀ a, s.allocated a = true → (order.foldl (fun s i => traverseRecord p (i + 1) i s) s).num a = s.num a ∧
      (order.foldl (fun s i => traverseRecord p (i + 1) i s) s).n a = s.n a) := by
  induction order with
  | nil => intro s hs; exact ⟨hs, by simp, fun a _ => ⟨rfl, rfl⟩⟩
  | cons i r ih =>
    intro s hs
    obtain ⟨h1, h2, h3, _⟩ := traverse_ok w (i + 1) i s (by omega) hs
    obtain ⟨k1, k2, k3⟩ := ih _ h1
    rw [List.foldl_cons]
    refine ⟨k1, ?_, ?_⟩
    · intro a ha
      apply k2
      rcases ha with ha | ha
      · rcases List.mem_cons.mp ha with rfl | ha
        · exact .inr h2
        · exact .inl ha
      · exact .inr (h3 a ha).1
    · intro a ha
      obtain ⟨j1, j2, j3⟩ := h3 a ha
      obtain ⟨l1, l2⟩ := k3 a j1
      exact ⟨l1.trans j2, l2.trans j3⟩

theorem traverse_good {p : Prog} (w : WF p) {order : List Nat} {n : Nat} (h : ∀ i < n, i ∈ order) :
    ∀ i < n, Good p (traverse p order) i := by
  intro i hi
  obtain ⟨h1, h2, _⟩ := traverse_all w order CState.init (ninv_init p)
  exact h1.good i (h2 i (.inl (h i hi)))

/-- The numbers do not depend on anything but the declarations. -/
theorem good_unique {p : Prog} (w : WF p) {s t : CState} : ∀ (i : Nat),
    (∀ a, Extends p i a → Good p s a ∧ Good p t a) → s.n i = t.n i ∧ ∀ k, Decl p i k → s.num i k = t.num i k := by
  intro i
  induction i using Nat.strong_induction_on with
  | _ i ih =>
    intro h
    obtain ⟨gs, gt⟩ := h i (.refl _)
    have hb : ∀ b, (p i).base = some b → s.n b = t.n b := by
      intro b hb
      exact (ih b (w.base_lt _ _ hb) (fun a ha => h a (.step hb ha))).1
    have hnb : ∃ nb, ((p i).base = none → nb = 0) ∧ (∀ b, (p i).base = some b → nb = s.n b) := by
      cases hbs : (p i).base with
      | none => exact ⟨0, by simp, by simp⟩
      | some b => exact ⟨s.n b, by simp, by simp⟩
    obtain ⟨nb, h1, h2⟩ := hnb
    obtain ⟨a1, a2⟩ := gs.fix nb h1 h2
    obtain ⟨b1, b2⟩ := gt.fix nb h1 (fun b hbs => by rw [h2 b hbs, hb b hbs])
    refine ⟨by rw [a1, b1], ?_⟩
    intro k hk
    rcases redef_or w hk with ⟨b, l, hr⟩ | hn
    · rw [gs.redef k b l hr, gt.redef k b l hr]
      obtain ⟨⟨c, hc, he⟩, _, hd, _⟩ := hr.facts
      exact (ih b (hr.lt w) (fun a ha => h a (.step hc (he.trans ha)))).2 l hd
    · rw [a2 k ⟨hk, hn⟩, b2 k ⟨hk, hn⟩]

end Verif.Dispatch
