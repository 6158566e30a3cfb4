import Verif.Dispatch.LemmasNum

/-! The run-time tables. -/
namespace Verif.Dispatch

theorem set_eq (m : Mem) (a v : Int) : set m a v a = v := by simp [set]
theorem set_ne (m : Mem) {a b : Int} (v : Int) (h : b ≠ a) : set m a v b = m b := by simp [set, h]

theorem memcpy_get (m : Mem) (d s : Int) : ∀ (k j : Nat), j < k → memcpy m d s k (d + j) = m (s + j) := by
  intro k
  induction k with
  | zero => intro j h; omega
  | succ k ih =>
    intro j hj
    simp only [memcpy]
    by_cases e : j = k
    · subst e; rw [set_eq]
    · rw [set_ne _ _ (by omega)]; exact ih j (by omega)

theorem memcpy_other (m : Mem) (d s : Int) : ∀ (k : Nat) (a : Int), (a < d ∨ d + k ≤ a) → memcpy m d s k a = m a := by
  intro k
  induction k with
  | zero => intro a _; rfl
  | succ k ih =>
    intro a ha
    simp only [memcpy]
    rw [set_ne _ _ (by omega)]; exact ih a (by omega)

theorem inherit_ok : ∀ (c f : Nat) (m : Mem) (t t0 : Int), c < f → (∀ k : Nat, k < c → m (t0 - k) ≠ eom) →
    m (t0 - c) = eom → (∀ k l : Nat, k ≤ c → l < k → t - l ≠ t0 - k) →
    ∃ m', inheritLoop f m t t0 = some m' ∧ (∀ k : Nat, k < c → m' (t - k) = m (t0 - k)) ∧
      (∀ a, (∀ k : Nat, k < c → a ≠ t - k) → m' a = m a) := by
  intro c
  induction c with
  | zero =>
    intro f m t t0 hf _ he _
    cases f with
    | zero => omega
    | succ f =>
      simp only [Int.natCast_zero, Int.sub_zero] at he
      exact ⟨m, by simp only [inheritLoop, he, if_true], by omega, fun _ _ => rfl⟩
  | succ c ih =>
    intro f m t t0 hf hne he hd
    cases f with
    | zero => omega
    | succ f =>
      have h0 : m t0 ≠ eom := by have := hne 0 (by omega); simpa using this
      have hrd : ∀ k : Nat, k ≤ c → set m t (m t0) (t0 - 1 - k) = m (t0 - (k + 1 : Nat)) := by
        intro k hk
        have := hd (k + 1) 0 (by omega) (by omega)
        rw [set_ne _ _ (by push_cast at this ⊢; omega)]
        congr 1; push_cast; omega
      obtain ⟨m', e, h1, h2⟩ := ih f (set m t (m t0)) (t - 1) (t0 - 1) (by omega)
        (by intro k hk; rw [hrd k (by omega)]; exact hne (k + 1) (by omega))
        (by rw [hrd c (by omega)]; exact he)
        (by
          intro k l hk hl
          have := hd (k + 1) (l + 1) (by omega) (by omega)
          push_cast at this; omega)
      refine ⟨m', by simp only [inheritLoop, h0, if_false]; exact e, ?_, ?_⟩
      · intro k hk
        cases k with
        | zero =>
          rw [h2 (t - (0 : Nat)) (by intro k _; push_cast; omega)]
          simp [set]
        | succ k =>
          have := h1 k (by omega)
          rw [hrd k (by omega)] at this
          rw [← this]; congr 1; push_cast; omega
      · intro a ha
        rw [h2 a (by intro k hk; have := ha (k + 1) (by omega); push_cast at this; omega)]
        have := ha 0 (by omega)
        exact set_ne _ _ (by push_cast at this; omega)

theorem initTyp_ok (ws : Int) (hw : 0 ≤ 24 / ws) (m : Mem) (t t0 modl next csize : Int) (level c c' f : Nat)
    (hl : level < maxExt) (hm : m t = csize) (hf : c < f) (hcc : c ≤ c')
    (hne : ∀ x : Nat, x < c → m (t0 - (tproc0Off ws + x)) ≠ eom) (he : m (t0 - (tproc0Off ws + c)) = eom)
    (hd : (t0 = t ∧ level = 0) ∨ t < t0 - (tproc0Off ws + c) ∨ t0 < t - (tproc0Off ws + c')) :
    ∃ m', initTyp ws f m t t0 level modl next csize = some (.run m') ∧
      (∀ x : Nat, x < c → m' (t - (tproc0Off ws + x)) = m (t0 - (tproc0Off ws + x))) ∧
      (∀ x : Nat, c ≤ x → m' (t - (tproc0Off ws + x)) = m (t - (tproc0Off ws + x))) ∧
      (∀ k : Nat, k < level → m' (t - baseOff + k) = m (t0 - baseOff + k)) ∧
      m' (t - baseOff + level) = t ∧
      (∀ k : Nat, level < k → k < maxExt → m' (t - baseOff + k) = m (t - baseOff + k)) ∧
      (∀ a, (a < t - (tproc0Off ws + c') ∨ t < a) → m' a = m a) := by
  obtain ⟨m1, hm1⟩ : ∃ x, memcpy m (t - baseOff) (t0 - baseOff) level = x := ⟨_, rfl⟩
  obtain ⟨m2, hm2⟩ : ∃ x, set m1 (t - baseOff + level) t = x := ⟨_, rfl⟩
  obtain ⟨m3, hm3⟩ : ∃ x, set m2 (t - (baseOff + 24 / ws + 1)) modl = x := ⟨_, rfl⟩
  obtain ⟨m4, hm4⟩ : ∃ x, set m3 t ((m3 t + 5 * ws - 1) / (4 * ws) * (4 * ws)) = x := ⟨_, rfl⟩
  obtain ⟨m5, hm5⟩ : ∃ x, set m4 (t - (baseOff + 24 / ws + 3)) next = x := ⟨_, rfl⟩
  have e0 : initTyp ws f m t t0 level modl next csize = if m3 t ≠ csize then some (.halt (-15)) else
      (inheritLoop f m5 (t - tproc0Off ws) (t0 - tproc0Off ws)).map .run := by
    subst hm1 hm2 hm3 hm4 hm5; rfl
  rw [e0]
  clear e0
  simp only [tproc0Off, baseOff, maxExt] at *
  generalize 24 / ws = w at *
  -- words outside the fields written
  have hk : ∀ a : Int, a ≠ t → (a < t - 17 ∨ t - 17 + level < a) → a ≠ t - (17 + w + 1) → a ≠ t - (17 + w + 3) →
      m5 a = m a := by
    intro a h1 h2 h3 h4
    rw [← hm5, set_ne _ _ h4, ← hm4, set_ne _ _ h1, ← hm3, set_ne _ _ h3, ← hm2, set_ne _ _ (by omega), ← hm1,
      memcpy_other _ _ _ _ _ (by omega)]
  have h3t : m3 t = m t := by
    rw [← hm3, set_ne _ _ (by omega), ← hm2, set_ne _ _ (by omega), ← hm1, memcpy_other _ _ _ _ _ (by omega)]
  have htab : ∀ x : Nat, m5 (t - (17 + w + 5 + x)) = m (t - (17 + w + 5 + x)) := by
    intro x
    exact hk _ (by omega) (by omega) (by omega) (by omega)
  have htab0 : ∀ x : Nat, x ≤ c → m5 (t0 - (17 + w + 5 + x)) = m (t0 - (17 + w + 5 + x)) := by
    intro x hx
    rcases hd with ⟨e, _⟩ | h | h
    · rw [e]; exact htab x
    · exact hk _ (by omega) (by omega) (by omega) (by omega)
    · exact hk _ (by omega) (by omega) (by omega) (by omega)
  have sub : ∀ (u : Int) (x : Nat), u - (17 + w + 5) - (x : Int) = u - (17 + w + 5 + x) := by intros; omega
  obtain ⟨m', e, g1, g2⟩ := inherit_ok c f m5 (t - (17 + w + 5)) (t0 - (17 + w + 5)) hf
    (by intro k hk; rw [sub, htab0 k (by omega)]; exact hne k hk)
    (by rw [sub, htab0 c (by omega)]; exact he)
    (by
      intro k l hk hl
      rcases hd with ⟨e, _⟩ | h | h <;> omega)
  have hkeep : ∀ a : Int, (t - (17 + w + 5) < a ∨ a ≤ t - (17 + w + 5 + c)) → m' a = m5 a := by
    intro a ha
    apply g2
    intro k hk; omega
  refine ⟨m', ?_, ?_, ?_, ?_, ?_, ?_, ?_⟩
  · rw [if_neg (by rw [h3t]; simpa using hm), e]; rfl
  · intro x hx
    have := g1 x hx
    rw [sub, sub, htab0 x (by omega)] at this
    exact this
  · intro x hx
    rw [hkeep _ (by omega)]; exact htab x
  · intro k hk'
    rw [hkeep _ (by omega)]
    have hb : m5 (t - 17 + k) = m1 (t - 17 + k) := by
      rw [← hm5, set_ne _ _ (by omega), ← hm4, set_ne _ _ (by omega), ← hm3, set_ne _ _ (by omega), ← hm2,
        set_ne _ _ (by omega)]
    rw [hb, ← hm1]
    exact memcpy_get _ _ _ _ _ hk'
  · rw [hkeep _ (by omega), ← hm5, set_ne _ _ (by omega), ← hm4, set_ne _ _ (by omega), ← hm3,
      set_ne _ _ (by omega), ← hm2, set_eq]
  · intro k h1 h2
    rw [hkeep _ (by omega)]
    exact hk _ (by omega) (by omega) (by omega) (by omega)
  · intro a ha
    rw [hkeep _ (by omega)]
    exact hk _ (by omega) (by omega) (by omega) (by omega)

/-- The calls of `__INITBP` for the first `K` methods. -/
theorem initBP_ok (ws : Int) (t : Int) (pr : Nat → Int) (num : Nat → Nat) : ∀ (K : Nat) (m : Mem),
    (∀ k k', k < K → k' < K → num k = num k' → k = k') →
    (∀ k, k < K → ((List.range K).foldl (fun m k => initBP ws m t (pr k) (num k)) m) (t - (tproc0Off ws + num k)) =
      pr k) ∧
    (∀ a, (∀ k, k < K → a ≠ t - (tproc0Off ws + num k)) →
      ((List.range K).foldl (fun m k => initBP ws m t (pr k) (num k)) m) a = m a) := by
  intro K
  induction K with
  | zero => intro m _; exact ⟨by omega, fun _ _ => rfl⟩
  | succ K ih =>
    intro m hinj
    obtain ⟨h1, h2⟩ := ih m (fun k k' hk hk' => hinj k k' (by omega) (by omega))
    rw [List.range_succ, List.foldl_append]
    simp only [List.foldl_cons, List.foldl_nil]
    refine ⟨?_, ?_⟩
    · intro k hk
      by_cases e : k = K
      · subst e; exact set_eq _ _ _
      · have : num k ≠ num K := fun h => e (hinj k K hk (by omega) h)
        unfold initBP
        rw [set_ne _ _ (by omega)]
        exact h1 k (by omega)
    · intro a ha
      unfold initBP
      rw [set_ne _ _ (ha K (by omega))]
      exact h2 a (fun k hk => ha k (by omega))

/-- The descriptor of type `i` after its initialisation. -/
structure Table (ws : Int) (p : Prog) (s : CState) (pl : Place) (m : Mem) (i : Nat) : Prop where
  procs : ∀ a k j o, Extends p i a → Origin p a k j o → ∃ c l x, Impl p j o i c l ∧ (p c).meths[l]? = some x ∧
    m (pl.typ i - (tproc0Off ws + s.num a k)) = x.proc
  last : m (pl.typ i - (tproc0Off ws + s.n i)) = eom
  bases : ∀ j, Extends p i j → m (pl.typ i - baseOff + lev p j) = pl.typ j
  zero : ∀ k : Nat, lev p i < k → k < maxExt → m (pl.typ i - baseOff + k) = 0

/-- Before and during initialisation: the first `r` of `n` descriptors are done, the others still have their
static contents. -/
structure RInv (ws : Int) (p : Prog) (s : CState) (pl : Place) (m0 m : Mem) (n r : Nat) : Prop where
  done : ∀ i, i < r → Table ws p s pl m i
  rest : ∀ i, r ≤ i → i < n → ∀ a, pl.typ i - (tproc0Off ws + s.n i) ≤ a → a ≤ pl.typ i → m a = m0 a

/-- A descriptor outside the changed block stays as it is. -/
theorem table_frame {ws : Int} (hw : 0 ≤ 24 / ws) {p : Prog} (w : WF p) {s : CState} {pl : Place} {m m' : Mem}
    {i : Nat} (g : Good p s i) (hlev : lev p i < maxExt)
    (h : Table ws p s pl m i)
    (e : ∀ a, pl.typ i - (tproc0Off ws + s.n i) ≤ a → a ≤ pl.typ i → m' a = m a) : Table ws p s pl m' i := by
  simp only [tproc0Off, baseOff, maxExt] at *
  constructor
  · intro a k j o ha ho
    obtain ⟨c, l, x, h1, h2, h3⟩ := h.procs a k j o ha ho
    refine ⟨c, l, x, h1, h2, ?_⟩
    have := g.lt a k ha ho.facts.2.1
    simp only [tproc0Off, baseOff] at h3 ⊢
    rw [e _ (by omega) (by omega)]; exact h3
  · have := h.last
    simp only [tproc0Off, baseOff] at this ⊢
    rw [e _ (by omega) (by omega)]; exact this
  · intro j hj
    have := h.bases j hj
    have := hj.lev_le w
    simp only [baseOff] at *
    rw [e _ (by omega) (by omega)]; assumption
  · intro k h1 h2
    have := h.zero k h1 h2
    simp only [baseOff, maxExt] at *
    rw [e _ (by omega) (by omega)]; assumption

theorem initType_ok {ws : Int} (hw : 0 ≤ 24 / ws) {p : Prog} (w : WF p) {s : CState} {pl : Place} {m0 m : Mem}
    {n i f : Nat} (hi : i < n) (hg : ∀ a < n, Good p s a) (hlev : ∀ a < n, lev p a < maxExt)
    (hf : ∀ a < n, s.n a < f) (st : Static ws p s pl m0 n) (h : RInv ws p s pl m0 m n i) :
    ∃ m', initType ws f p s pl m i = some (.run m') ∧ RInv ws p s pl m0 m' n (i + 1) := by
  have gi := hg i hi
  have hli := hlev i hi
  have hrest := h.rest i (Nat.le_refl _) hi
  have hW : 0 ≤ tproc0Off ws := by simp only [tproc0Off, baseOff]; omega
  have hW2 : 22 ≤ tproc0Off ws := by simp only [tproc0Off, baseOff]; omega
  have hsz : m (pl.typ i) = (p i).csize := by
    rw [hrest _ (by omega) (by omega), st.size i hi, st.csize i hi]
  -- the copied table
  obtain ⟨t0, ht0⟩ : ∃ t0, t0 = (match (p i).base with | some b => pl.typ b | none => pl.typ i) := ⟨_, rfl⟩
  obtain ⟨c, hc, hne, he, hd⟩ : ∃ c : Nat, c ≤ s.n i ∧ (∀ x : Nat, x < c → m (t0 - (tproc0Off ws + x)) ≠ eom) ∧
      m (t0 - (tproc0Off ws + c)) = eom ∧
      ((t0 = pl.typ i ∧ lev p i = 0 ∧ (p i).base = none ∧ c = s.n i) ∨
        (∃ b, (p i).base = some b ∧ c = s.n b ∧ t0 = pl.typ b ∧
          (pl.typ i < t0 - (tproc0Off ws + c) ∨ t0 < pl.typ i - (tproc0Off ws + s.n i)))) := by
    cases hb : (p i).base with
    | none =>
      rw [hb] at ht0
      simp only [] at ht0
      refine ⟨s.n i, Nat.le_refl _, ?_, ?_, .inl ⟨ht0, lev_root hb, rfl, rfl⟩⟩
      · intro x hx
        rw [ht0, hrest _ (by omega) (by omega), st.procs i hi x hx]
        decide
      · rw [ht0, hrest _ (by omega) (by omega), st.last i hi]
    | some b =>
      rw [hb] at ht0
      simp only [] at ht0
      have hlt := w.base_lt _ _ hb
      have tb := h.done b hlt
      have gb := hg b (by omega)
      refine ⟨s.n b, gi.mono b (.step hb (.refl _)), ?_, by rw [ht0]; exact tb.last, .inr ⟨b, rfl, rfl, ht0, ?_⟩⟩
      · intro x hx
        obtain ⟨a, k, ha, hda, e⟩ := gb.sur x hx
        obtain ⟨j, o, ho⟩ := origin_total w a k hda
        obtain ⟨c, l, y, hI, hy, hm⟩ := tb.procs a k j o ha ho
        rw [ht0, ← e, hm]
        have hcb := hI.facts.1.le w
        exact st.proc c (by omega) y (List.mem_of_getElem? hy)
      · rw [ht0]
        have := st.disjoint i hi b (by omega) (by omega)
        omega
  obtain ⟨m1, e1, a1, a2, a3, a4, a5, a6⟩ := initTyp_ok ws hw m (pl.typ i) t0 (pl.modl i) (pl.next i) (p i).csize
    (lev p i) c (s.n i) f hli hsz (by have := hf i hi; omega) hc hne he
    (by rcases hd with h | ⟨b, _, _, _, h⟩
        · exact .inl ⟨h.1, h.2.1⟩
        · exact .inr h)
  -- the methods of the type
  have hinj : ∀ k k', k < (p i).meths.length → k' < (p i).meths.length → s.num i k = s.num i k' → k = k' := by
    intro k k' hk hk' e
    obtain ⟨j, o, ho⟩ := origin_total w i k hk
    obtain ⟨j', o', ho'⟩ := origin_total w i k' hk'
    obtain ⟨e1, e2⟩ := (gi.inj i k i k' j o j' o' (.refl _) (.refl _) ho ho').mp e
    subst e1 e2
    exact origin_inj w ho ho'
  obtain ⟨b1, b2⟩ := initBP_ok ws (pl.typ i) (fun k => ((p i).meths[k]?.getD ⟨0, false, 0⟩).proc) (s.num i)
    (p i).meths.length m1 hinj
  have e2 : initType ws f p s pl m i = some (.run ((List.range (p i).meths.length).foldl
      (fun m k => initBP ws m (pl.typ i) ((p i).meths[k]?.getD ⟨0, false, 0⟩).proc (s.num i k)) m1)) := by
    have e3 : initType ws f p s pl m i = match initTyp ws f m (pl.typ i) t0 (lev p i) (pl.modl i) (pl.next i)
        (p i).csize with
      | some (.run m) => some (.run ((List.range (p i).meths.length).foldl
          (fun m k => initBP ws m (pl.typ i) ((p i).meths[k]?.getD ⟨0, false, 0⟩).proc (s.num i k)) m))
      | r => r := by rw [ht0]; rfl
    rw [e3, e1]
  refine ⟨_, e2, ?_⟩
  generalize (List.range (p i).meths.length).foldl
    (fun m k => initBP ws m (pl.typ i) ((p i).meths[k]?.getD ⟨0, false, 0⟩).proc (s.num i k)) m1 = m2 at b1 b2
  have hnum : ∀ k, k < (p i).meths.length → s.num i k < s.n i := fun k hk => gi.lt i k (.refl _) hk
  -- what changed
  have hout : ∀ a, (a < pl.typ i - (tproc0Off ws + s.n i) ∨ pl.typ i < a) → m2 a = m a := by
    intro a ha
    rw [b2 a (by intro k hk; have := hnum k hk; omega)]
    exact a6 a ha
  have hbp : ∀ k : Nat, k < maxExt → m2 (pl.typ i - baseOff + k) = m1 (pl.typ i - baseOff + k) := by
    intro k hk
    apply b2
    intro l _
    simp only [tproc0Off, baseOff, maxExt] at *; omega
  constructor
  · intro a ha
    by_cases e : a = i
    · subst e
      constructor
      · intro b k j o hab ho
        by_cases hown : ∃ k', Origin p a k' j o
        · obtain ⟨k', hk'⟩ := hown
          have hdk : k' < (p a).meths.length := hk'.facts.2.1
          refine ⟨a, k', _, .here hk', List.getElem?_eq_getElem hdk, ?_⟩
          have en : s.num b k = s.num a k' :=
            (gi.inj b k a k' j o j o hab (.refl _) ho hk').mpr ⟨rfl, rfl⟩
          rw [en, b1 k' hdk]
          simp [List.getElem?_eq_getElem hdk]
        · rcases hab.cases' with e | ⟨c', hc', hcb⟩
          · subst e; exact absurd ⟨k, ho⟩ hown
          · rcases hd with hd | ⟨b', hb', hcn, htb, _⟩
            · rw [hd.2.2.1] at hc'; cases hc'
            · have ecb : c' = b' := by rw [hb'] at hc'; exact (Option.some.inj hc').symm
              subst ecb
              rename' c' => b'
              have hlt := w.base_lt _ _ hb'
              obtain ⟨cc, l, x, hI, hx, hm⟩ := (h.done b' hlt).procs b k j o hcb ho
              refine ⟨cc, l, x, .up (fun k' hk' => hown ⟨k', hk'⟩) hb' hI, hx, ?_⟩
              have hltb : s.num b k < s.n b' := (hg b' (by omega)).lt b k hcb ho.facts.2.1
              rw [b2 _ ?_, a1 (s.num b k) (by omega), htb, hm]
              intro k' hk' e
              obtain ⟨j', o', ho'⟩ := origin_total w a k' hk'
              obtain ⟨e1, e2⟩ := (gi.inj b k a k' j o j' o' hab (.refl _) ho ho').mp (by omega)
              subst e1 e2
              exact hown ⟨k', ho'⟩
      · rw [b2 _ (by intro k hk; have := hnum k hk; omega), a2 (s.n a) hc,
          hrest _ (by omega) (by omega), st.last a hi]
      · intro j hj
        have hl := hj.lev_le w
        rw [hbp _ (by omega)]
        rcases hj.cases' with e | ⟨b, hb, hbj⟩
        · subst e; exact a4
        · have hb' := lev_base w hb
          have hlj := hbj.lev_le w
          rw [a3 (lev p j) (by omega)]
          rcases hd with hd | ⟨b', hb'', _, htb, _⟩
          · rw [hd.2.2.1] at hb; cases hb
          · rw [hb''] at hb; cases hb
            rw [htb]
            exact (h.done b (w.base_lt _ _ hb'')).bases j hbj
      · intro k h1 h2
        rw [hbp k h2, a5 k h1 h2, hrest _ (by simp only [tproc0Off, baseOff, maxExt] at *; omega)
          (by simp only [baseOff, maxExt] at *; omega), st.bases a hi k h2]
    · have hai : a < i := by omega
      apply table_frame hw w (hg a (by omega)) (hlev a (by omega)) (h.done a hai)
      intro x h1 h2
      apply hout
      have := st.disjoint a (by omega) i hi e
      omega
  · intro a h1 h2 x hx1 hx2
    rw [hout x (by have := st.disjoint a h2 i hi (by omega); omega)]
    exact h.rest a (by omega) h2 x hx1 hx2

theorem initAll_ok {ws : Int} (hw : 0 ≤ 24 / ws) {p : Prog} (w : WF p) {s : CState} {pl : Place} {m0 : Mem}
    {n f : Nat} (hg : ∀ a < n, Good p s a) (hlev : ∀ a < n, lev p a < maxExt)
    (hf : ∀ a < n, s.n a < f) (st : Static ws p s pl m0 n) : ∀ r, r ≤ n →
    ∃ m', initAll ws f p s pl m0 r = some (.run m') ∧ RInv ws p s pl m0 m' n r := by
  intro r
  induction r with
  | zero => intro _; exact ⟨m0, rfl, ⟨by omega, fun _ _ _ _ _ _ => rfl⟩⟩
  | succ r ih =>
    intro hr
    obtain ⟨m1, e, h1⟩ := ih (by omega)
    obtain ⟨m2, e2, h2⟩ := initType_ok hw w (by omega) hg hlev hf st h1
    exact ⟨m2, by simp only [initAll, e]; exact e2, h2⟩

theorem typ_inj {ws : Int} (hw : 0 ≤ 24 / ws) {p : Prog} {s : CState} {pl : Place} {m0 : Mem} {n : Nat}
    (st : Static ws p s pl m0 n) {i j : Nat} (hi : i < n) (hj : j < n) (e : pl.typ i = pl.typ j) : i = j := by
  by_contra h
  have := st.disjoint i hi j hj h
  simp only [tproc0Off, baseOff] at this
  omega

theorem isTest_ok {ws : Int} (hw : 0 ≤ 24 / ws) {p : Prog} (w : WF p) {s : CState} {pl : Place} {m0 m : Mem} {n : Nat}
    (st : Static ws p s pl m0 n) (hlev : ∀ a < n, lev p a < maxExt) {d j : Nat} (hd : d < n) (hj : j < n)
    (t : Table ws p s pl m d) : isTest m (pl.typ d) (pl.typ j) (lev p j) = true ↔ Extends p d j := by
  have e : pl.typ d - (baseOff - (lev p j : Int)) = pl.typ d - baseOff + lev p j := by omega
  simp only [isTest, beq_iff_eq, e]
  constructor
  · intro h
    by_cases hl : lev p j ≤ lev p d
    · obtain ⟨a, ha, hla⟩ := anc_at w d (lev p j) hl
      have := t.bases a ha
      rw [hla, h] at this
      have := typ_inj hw st hj (by have := ha.le w; omega) this
      rw [this]; exact ha
    · rw [t.zero (lev p j) (by omega) (hlev j hj)] at h
      exact absurd h.symm (st.nonzero j hj)
  · intro h; exact t.bases j h

/-- The loop of `GTT` finds `t1` exactly when the start type extends it. -/
theorem walk_iff {p : Prog} (w : WF p) (t1 : Nat) : ∀ (f i : Nat), i < f →
    (walk p f (some i) t1 = some t1 ↔ Extends p i t1) := by
  intro f
  induction f with
  | zero => intro i h; omega
  | succ f ih =>
    intro i hi
    simp only [walk]
    by_cases e : i = t1
    · subst e; simp [Extends.refl]
    · rw [if_neg e]
      cases hb : (p i).base with
      | none =>
        have : walk p f none t1 = none := by cases f <;> rfl
        rw [this]
        constructor
        · intro h; cases h
        · intro h
          rcases h.cases' with h | ⟨b, hb', _⟩
          · omega
          · rw [hb] at hb'; cases hb'
      | some b =>
        have := w.base_lt _ _ hb
        rw [ih b (by omega)]
        constructor
        · intro h; exact .step hb h
        · intro h
          rcases h.cases' with h | ⟨b', hb', h⟩
          · omega
          · rw [hb] at hb'; cases hb'; exact h

end Verif.Dispatch
