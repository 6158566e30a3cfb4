import Verif.Heap.Inv

/-!
# Taking blocks from the free lists
-/
namespace Verif.Heap

theorem findFree_ok (fl : Nat → Nat) (h9 : fl 9 ≠ 0) : ∀ (f i : Nat), i ≤ 9 → 9 < f + i →
    ∃ j, findFree fl f i = some (j, fl j) ∧ i ≤ j ∧ j ≤ 9 ∧ fl j ≠ 0
  | 0, i, h, h' => by omega
  | f + 1, i, h, h' => by
    simp only [findFree, if_neg (show ¬ i > 9 by omega)]
    by_cases h0 : fl i ≠ 0
    · rw [if_pos h0]; exact ⟨i, rfl, le_refl _, h, h0⟩
    · rw [if_neg h0]
      have hi : i ≠ 9 := fun e => h0 (e ▸ h9)
      obtain ⟨j, h1, h2, h3, h4⟩ := findFree_ok fl h9 f (i + 1) (by omega) (by omega)
      exact ⟨j, h1, by omega, h3, h4⟩

/-- The last element of a list of addresses, or `p`. -/
def lastD (p : Nat) : List Nat → Nat
  | [] => p
  | x :: xs => lastD x xs

theorem findBig_ok (m : Mem) (blksz : Nat) (sz : Nat → Nat) : ∀ (G : List Nat) (adr prev : Nat), Chain m adr G →
    (∀ x ∈ G, m (x + 8) = sz x) →
    ∃ r, Ev (fun f => findBig f m blksz adr prev) r ∧
      ((r = none ∧ ∀ x ∈ G, sz x < blksz) ∨
        ∃ G1 x G2, G = G1 ++ x :: G2 ∧ r = some (x, lastD prev G1, sz x) ∧ blksz ≤ sz x)
  | [], adr, prev, h, _ => by
    refine ⟨none, ⟨1, fun f hf => ?_⟩, Or.inl ⟨rfl, by simp⟩⟩
    obtain ⟨g, rfl⟩ : ∃ g, f = g + 1 := ⟨f - 1, by omega⟩
    have h0 : adr = 0 := h
    simp [findBig, h0]
  | x :: G, adr, prev, ⟨h1, h2, n, h3, h4⟩, hs => by
    subst h1
    have hx := hs adr (List.mem_cons_self ..)
    by_cases hle : blksz ≤ sz adr
    · refine ⟨_, ⟨1, fun f hf => ?_⟩, Or.inr ⟨[], adr, G, rfl, rfl, hle⟩⟩
      obtain ⟨g, rfl⟩ : ∃ g, f = g + 1 := ⟨f - 1, by omega⟩
      simp only [findBig, if_neg h2, hx, Int.toNat_natCast, if_pos hle]
      rfl
    · obtain ⟨r, ⟨F, hF⟩, hr⟩ := findBig_ok m blksz sz G n adr h4 (fun y hy => hs y (List.mem_cons_of_mem _ hy))
      refine ⟨r, ⟨F + 1, fun f hf => ?_⟩, ?_⟩
      · obtain ⟨g, rfl⟩ : ∃ g, f = g + 1 := ⟨f - 1, by omega⟩
        simp only [findBig, if_neg h2, hx, Int.toNat_natCast, if_neg hle, h3]
        exact hF g (by omega)
      · rcases hr with ⟨e, h⟩ | ⟨G1, y, G2, e1, e2, h⟩
        · left
          refine ⟨e, ?_⟩
          intro y hy
          rcases List.mem_cons.1 hy with rfl | hy
          · omega
          · exact h y hy
        · right
          refine ⟨adr :: G1, y, G2, by rw [e1]; rfl, ?_, h⟩
          rw [e2]; rfl

/-- Words set to 0: those of the block from `i` on. -/
theorem clear_ok : ∀ (k : Nat) (m : Mem) (i : Nat), ∃ m', Ev (fun f => clear f m i (i + 32 * k)) m' ∧
    (∀ a, i ≤ a → a < i + 32 * k → a % 8 = i % 8 → m' a = 0) ∧ (∀ a, (a < i ∨ i + 32 * k ≤ a) → m' a = m a)
  | 0, m, i => by
    refine ⟨m, ⟨1, fun f hf => ?_⟩, fun a h1 h2 => by omega, fun _ _ => rfl⟩
    obtain ⟨g, rfl⟩ : ∃ g, f = g + 1 := ⟨f - 1, by omega⟩
    simp [clear]
  | k + 1, m, i => by
    obtain ⟨m1, hm1⟩ : ∃ m1 : Mem, m1 = put (put (put (put m i 0) (i + 8) 0) (i + 16) 0) (i + 24) 0 := ⟨_, rfl⟩
    obtain ⟨m', ⟨F, hF⟩, hz, hfr⟩ := clear_ok k m1 (i + 32)
    have e : i + 32 * (k + 1) = i + 32 + 32 * k := by omega
    rw [e]
    refine ⟨m', ⟨F + 1, fun f hf => ?_⟩, ?_, ?_⟩
    · obtain ⟨g, rfl⟩ : ∃ g, f = g + 1 := ⟨f - 1, by omega⟩
      simp only [clear, if_pos (show i < i + 32 + 32 * k by omega)]
      rw [← hm1]
      exact hF g (by omega)
    · intro a h1 h2 h3
      by_cases ha : i + 32 ≤ a
      · exact hz a ha h2 (by omega)
      · rw [hfr a (by omega), hm1]
        simp only [put]
        have : a = i ∨ a = i + 8 ∨ a = i + 16 ∨ a = i + 24 := by omega
        rcases this with rfl | rfl | rfl | rfl <;> simp
    · intro a ha
      rw [hfr a (by omega), hm1]
      simp only [put]
      rw [if_neg (by omega), if_neg (by omega), if_neg (by omega), if_neg (by omega)]

/-- What `finish` leaves: the words of the block are 0, but for the tag word. -/
theorem finish_ok (s : HS) (adr k tag : Nat) (h8 : adr % 8 = 0) (hk : 0 < k) :
    ∃ s', Ev (fun f => finish f s adr (32 * k) tag) (s', adr + 8) ∧ s'.mem adr = tag ∧
      (∀ a, adr + 8 ≤ a → a < adr + 32 * k → a % 8 = 0 → s'.mem a = 0) ∧
      (∀ a, (a < adr ∨ adr + 32 * k ≤ a) → s'.mem a = s.mem a) ∧
      s' = { s with mem := s'.mem, allocated := s.allocated + 32 * k } := by
  obtain ⟨m1, ⟨F, hF⟩, hz, hfr⟩ := clear_ok (k - 1) s.mem (adr + 32)
  have e : adr + 32 + 32 * (k - 1) = adr + 32 * k := by omega
  rw [e] at hF hz hfr
  refine ⟨{ s with mem := put (put (put (put m1 (adr + 24) 0) adr tag) (adr + 8) 0) (adr + 16) 0,
                   allocated := s.allocated + 32 * k }, ⟨F, fun f hf => ?_⟩, ?_, ?_, ?_, rfl⟩
  · simp only [finish, hF f hf, Option.bind_eq_bind, Option.bind_some]
  · simp [put]
  · intro a h1 h2 h3
    by_cases ha : adr + 32 ≤ a
    · simp only [put]
      rw [if_neg (by omega), if_neg (by omega), if_neg (by omega), if_neg (by omega)]
      exact hz a ha h2 (by omega)
    · simp only [put]
      have : a = adr + 8 ∨ a = adr + 16 ∨ a = adr + 24 := by omega
      rcases this with rfl | rfl | rfl <;> simp
  · intro a ha
    simp only [put]
    rw [if_neg (by omega), if_neg (by omega), if_neg (by omega), if_neg (by omega)]
    exact hfr a (by omega)

theorem chain_ne {m : Mem} : ∀ {G : List Nat} {a : Nat}, Chain m a G → ∀ x ∈ G, x ≠ 0
  | [], _, _, x, h => by simp at h
  | y :: G, a, ⟨_, h2, n, _, h4⟩, x, h => by
    rcases List.mem_cons.1 h with rfl | h
    · exact h2
    · exact chain_ne h4 x h

/-- The head of a list, in memory. -/
theorem chain_head {m : Mem} {G : List Nat} {a : Nat} (h : Chain m a G) (h0 : a ≠ 0) :
    ∃ G', G = a :: G' ∧ ∃ n : Nat, m (a + 24) = n ∧ Chain m n G' := by
  match G, h with
  | [], h => exact absurd h h0
  | x :: G, ⟨h1, _, n, h3, h4⟩ => subst h1; exact ⟨G, rfl, n, h3, h4⟩

/-- Taking an element out of a list. -/
theorem chain_remove {m m' : Mem} : ∀ {G1 : List Nat} {G2 : List Nat} {x a p n : Nat}, Chain m a (G1 ++ x :: G2) →
    m (x + 24) = (n : Nat) → (∀ y ∈ G1 ++ G2, y ≠ lastD p G1 → m' (y + 24) = m (y + 24)) →
    (G1 ≠ [] → m' (lastD p G1 + 24) = n) → (G1 ++ x :: G2).Nodup → p ∉ G2 →
    Chain m' (if G1 = [] then n else a) (G1 ++ G2)
  | [], G2, x, a, p, n, ⟨h1, h2, n', h3, h4⟩, hx, hfr, _, _, hp => by
    simp only [if_true]
    have : n = n' := by rw [hx] at h3; exact_mod_cast h3
    subst this
    refine chain_congr ?_ h4
    intro y hy
    exact hfr y hy (fun e => hp (by rw [← show y = p from e]; exact hy))
  | y :: G1, G2, x, a, p, n, ⟨h1, h2, n', h3, h4⟩, hx, hfr, hl, hnd, hp => by
    simp only [List.cons_append, List.nodup_cons, List.mem_append, List.mem_cons, not_or] at hnd
    rw [if_neg (by simp)]
    refine ⟨h1, h2, ?_⟩
    have ih := chain_remove (p := y) (m' := m') h4 hx (fun z hz hne => hfr z (List.mem_cons_of_mem _ hz) hne)
      (fun h => hl (by simp)) hnd.2 hnd.1.2.2
    by_cases h0 : G1 = []
    · subst h0
      refine ⟨n, hl (by simp), ?_⟩
      simpa using ih
    · rw [if_neg h0] at ih
      refine ⟨n', ?_, ih⟩
      rw [hfr y (List.mem_cons_self ..)]
      · exact h3
      · intro e
        have hlast : ∀ (l : List Nat) (q : Nat), l ≠ [] → lastD q l ∈ l := by
          intro l
          induction l with
          | nil => intro q h; exact absurd rfl h
          | cons z l ihl =>
            intro q _
            cases l with
            | nil => simp [lastD]
            | cons w l => exact List.mem_cons_of_mem _ (ihl z (by simp))
        have := hlast G1 y h0
        have e' : y = lastD y G1 := e
        rw [← e'] at this
        exact hnd.1.1 this

theorem lastD_mem : ∀ (l : List Nat) (q : Nat), l ≠ [] → lastD q l ∈ l
  | [], q, h => absurd rfl h
  | [z], q, _ => by simp [lastD]
  | z :: w :: l, q, _ => List.mem_cons_of_mem _ (lastD_mem (w :: l) z (by simp))

end Verif.Heap
