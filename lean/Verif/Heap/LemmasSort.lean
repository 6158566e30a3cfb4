import Verif.Heap.LemmasMark
import Mathlib.Data.List.Perm.Basic

/-!
# HeapSort sorts the candidates
-/
namespace Verif.Heap

/-- `a` and `b` have the same elements, with multiplicity, at the indices below `n`, and are equal above. -/
def SameElems (n : Nat) (a b : Nat → Nat) : Prop :=
  (elems n a).Perm (elems n b) ∧ ∀ i, n ≤ i → a i = b i

theorem SameElems.refl (n : Nat) (a : Nat → Nat) : SameElems n a a := ⟨List.Perm.refl _, fun _ _ => rfl⟩
theorem SameElems.trans {n : Nat} {a b c : Nat → Nat} (h : SameElems n a b) (h' : SameElems n b c) : SameElems n a c :=
  ⟨h.1.trans h'.1, fun i hi => (h.2 i hi).trans (h'.2 i hi)⟩

/-- Exchanging two elements. -/
def swapAt (a : Nat → Nat) (i j : Nat) : Nat → Nat := put (put a i (a j)) j (a i)

theorem elems_succ (n : Nat) (a : Nat → Nat) : elems (n + 1) a = elems n a ++ [a n] := by
  simp [elems, List.range_succ]

theorem elems_congr {n : Nat} {a b : Nat → Nat} (h : ∀ i, i < n → a i = b i) : elems n a = elems n b := by
  unfold elems
  apply List.map_congr_left
  intro i hi; exact h i (List.mem_range.1 hi)

theorem elems_put_perm : ∀ (n : Nat) (a : Nat → Nat) (i v : Nat), i < n →
    (a i :: elems n (put a i v)).Perm (v :: elems n a)
  | 0, _, _, _, h => by omega
  | n + 1, a, i, v, h => by
    rw [elems_succ, elems_succ]
    by_cases hi : i = n
    · subst hi
      rw [put_same, elems_congr (n := i) (a := put a i v) (b := a) (fun j hj => put_other _ _ _ _ (by omega))]
      have h1 : (a i :: (elems i a ++ [v])).Perm (a i :: v :: elems i a) :=
        List.Perm.cons _ (List.perm_append_singleton _ _)
      have h2 : (v :: (elems i a ++ [a i])).Perm (v :: a i :: elems i a) :=
        List.Perm.cons _ (List.perm_append_singleton _ _)
      exact h1.trans ((List.Perm.swap _ _ _).trans h2.symm)
    · rw [put_other _ _ _ _ (fun h => hi h.symm)]
      have := elems_put_perm n a i v (by omega)
      exact this.append_right [a n]

theorem swapAt_same {n : Nat} (a : Nat → Nat) {i j : Nat} (hi : i < n) (hj : j < n) (hne : i ≠ j) :
    SameElems n (swapAt a i j) a := by
  refine ⟨?_, fun k hk => ?_⟩
  · have h1 := elems_put_perm n a i (a j) hi
    have h2 := elems_put_perm n (put a i (a j)) j (a i) hj
    rw [put_other _ _ _ _ (Ne.symm hne)] at h2
    have h3 : (a j :: elems n (swapAt a i j)).Perm (a j :: elems n a) := h2.trans h1
    exact (List.perm_cons _).1 h3
  · rw [swapAt, put_other _ _ _ _ (by omega), put_other _ _ _ _ (by omega)]

/-- The subtree rooted at `k` has the heap property for each parent from `l` on. -/
def IsHeap (l r : Nat) (a : Nat → Nat) : Prop := ∀ k c, l ≤ k → (c = 2 * k + 1 ∨ c = 2 * k + 2) → c ≤ r → a c ≤ a k

/-- The same, but for the element at `i`, where the value `x` is to be placed: the children of `i` are bounded by the
parent of `i`. -/
structure HoleHeap (l r i : Nat) (a : Nat → Nat) : Prop where
  others : ∀ k c, l ≤ k → k ≠ i → (c = 2 * k + 1 ∨ c = 2 * k + 2) → c ≤ r → c ≠ i → a c ≤ a k
  across : ∀ k c, l ≤ k → (i = 2 * k + 1 ∨ i = 2 * k + 2) → (c = 2 * i + 1 ∨ c = 2 * i + 2) → c ≤ r → a c ≤ a k

theorem siftLoop_ok (l r x : Nat) : ∀ (f : Nat) (a : Nat → Nat) (i : Nat), r < i + f + 1 → l ≤ i → i ≤ r →
    HoleHeap l r i a → (∀ k, l ≤ k → (i = 2 * k + 1 ∨ i = 2 * k + 2) → x ≤ a k) →
    ∃ a', siftLoop r x (f + 1) a i = some a' ∧ IsHeap l r a' ∧ SameElems (r + 1) a' (put a i x) ∧
      (∀ k, k < l → a' k = a k) := by
  intro f
  induction f with
  | zero =>
    intro a i hf hl hi hh hx
    have : i = r := by omega
    subst this
    refine ⟨put a i x, ?_, ?_, SameElems.refl _ _, fun k hk => put_other _ _ _ _ (by omega)⟩
    · simp only [siftLoop]
      rw [if_neg (show ¬ (2 * i + 1 < i ∧ a (2 * i + 1) < a (2 * i + 1 + 1)) by omega), if_pos (Or.inl (by omega))]
    · intro k c hk hc hcr
      by_cases hki : k = i
      · omega
      · rw [put_other _ _ _ _ hki]
        by_cases hci : c = i
        · rw [hci, put_same]; exact hx k hk (by omega)
        · rw [put_other _ _ _ _ hci]; exact hh.others k c hk hki hc hcr hci
  | succ f ih =>
    intro a i hf hl hi hh hx
    obtain ⟨j, hj⟩ : ∃ j, j = if 2 * i + 1 < r ∧ a (2 * i + 1) < a (2 * i + 1 + 1) then 2 * i + 1 + 1 else 2 * i + 1 :=
      ⟨_, rfl⟩
    have hjc : j = 2 * i + 1 ∨ j = 2 * i + 2 := by rw [hj]; split <;> omega
    have hjr : 2 * i + 1 ≤ r → j ≤ r := by
      intro h; rw [hj]; split
      · rename_i h'; omega
      · exact h
    have hmax : ∀ c, (c = 2 * i + 1 ∨ c = 2 * i + 2) → c ≤ r → a c ≤ a j := by
      intro c hc hcr
      rw [hj]
      split
      · rename_i h'
        rcases hc with rfl | rfl
        · exact Nat.le_of_lt h'.2
        · exact Nat.le_refl _
      · rename_i h'
        rcases hc with rfl | rfl
        · exact Nat.le_refl _
        · have : ¬ a (2 * i + 1) < a (2 * i + 1 + 1) := fun h => h' ⟨by omega, h⟩
          have h2 : 2 * i + 1 + 1 = 2 * i + 2 := rfl
          rw [h2] at this; omega
    have hunf : siftLoop r x (f + 1 + 1) a i =
        if r < j ∨ a j ≤ x then some (put a i x) else siftLoop r x (f + 1) (put a i (a j)) j := by
      rw [hj]; rfl
    rw [hunf]
    by_cases hex : r < j ∨ a j ≤ x
    · rw [if_pos hex]
      refine ⟨_, rfl, ?_, SameElems.refl _ _, fun k hk => put_other _ _ _ _ (by omega)⟩
      intro k c hk hc hcr
      by_cases hki : k = i
      · subst hki
        rw [put_same, put_other _ _ _ _ (by omega)]
        have h1 := hmax c hc hcr
        rcases hex with h | h
        · have := hjr (by omega); omega
        · omega
      · rw [put_other _ _ _ _ hki]
        by_cases hci : c = i
        · rw [hci, put_same]; exact hx k hk (by omega)
        · rw [put_other _ _ _ _ hci]; exact hh.others k c hk hki hc hcr hci
    · rw [if_neg hex]
      have hjr' : j ≤ r := by omega
      have hjx : x < a j := by omega
      have hne : j ≠ i := by omega
      obtain ⟨a', he, hheap, hsame, hlow⟩ := ih (put a i (a j)) j (by omega) (by omega) hjr' (by
          refine ⟨?_, ?_⟩
          · intro k c hk hkj hc hcr hcj
            by_cases hki : k = i
            · subst hki
              rw [put_same, put_other _ _ _ _ (by omega)]; exact hmax c hc hcr
            · rw [put_other _ _ _ _ hki]
              by_cases hci : c = i
              · rw [hci, put_same]; exact hh.across k j hk (by omega) hjc hjr'
              · rw [put_other _ _ _ _ hci]; exact hh.others k c hk hki hc hcr hci
          · intro k c hk hjk hc hcr
            have hki : k = i := by omega
            subst hki
            rw [put_same, put_other _ _ _ _ (by omega)]
            exact hh.others j c (by omega) hne hc hcr (by omega)) (by
          intro k hk hjk
          have hki : k = i := by omega
          subst hki
          rw [put_same]; omega)
      refine ⟨a', he, hheap, ?_, fun k hk => by rw [hlow k hk, put_other _ _ _ _ (by omega)]⟩
      refine hsame.trans ?_
      have h1 := swapAt_same (n := r + 1) (put a i x) (i := i) (j := j) (by omega) (by omega) (Ne.symm hne)
      have h2 : swapAt (put a i x) i j = put (put a i (a j)) j x := by
        funext k
        unfold swapAt
        rw [put_same]
        by_cases hkj : k = j
        · subst hkj; rw [put_same, put_same]
        · rw [put_other _ _ _ _ hkj, put_other _ _ _ _ hkj]
          by_cases hki : k = i
          · subst hki; rw [put_same, put_same, put_other _ _ _ _ hne]
          · rw [put_other _ _ _ _ hki, put_other _ _ _ _ hki, put_other _ _ _ _ hki]
      rw [h2] at h1
      exact h1

theorem sift_ok (l r : Nat) (a : Nat → Nat) (hl : l ≤ r) (h : IsHeap (l + 1) r a) :
    ∃ a', sift l r a = some a' ∧ IsHeap l r a' ∧ SameElems (r + 1) a' a ∧ (∀ k, k < l → a' k = a k) := by
  obtain ⟨a', he, hh, hs, hlow⟩ := siftLoop_ok l r (a l) (r + 1) a l (by omega) (Nat.le_refl _) hl
    ⟨fun k c hk hkl hc hcr _ => h k c (by omega) hc hcr, fun k c hk hik _ _ => by omega⟩
    (fun k hk hik => by omega)
  refine ⟨a', he, hh, ?_, hlow⟩
  have : put a l (a l) = a := by
    funext k; by_cases hk : k = l
    · subst hk; rw [put_same]
    · rw [put_other _ _ _ _ hk]
  rwa [this] at hs

theorem buildHeap_ok (r : Nat) : ∀ (l : Nat) (a : Nat → Nat), l ≤ r + 1 → IsHeap l r a →
    ∃ a', buildHeap r l a = some a' ∧ IsHeap 0 r a' ∧ SameElems (r + 1) a' a
  | 0, a, _, h => ⟨a, rfl, h, SameElems.refl _ _⟩
  | l + 1, a, hl, h => by
    obtain ⟨a1, h1, hh, hs, _⟩ := sift_ok l r a (by omega) h
    obtain ⟨a2, h2, hh2, hs2⟩ := buildHeap_ok r l a1 (by omega) hh
    exact ⟨a2, by simp only [buildHeap, h1, Option.bind_eq_bind, Option.bind_some]; exact h2, hh2, hs2.trans hs⟩

theorem heap_root {r : Nat} {a : Nat → Nat} (h : IsHeap 0 r a) : ∀ k, k ≤ r → a k ≤ a 0 := by
  intro k
  induction k using Nat.strong_induction_on with
  | _ k ih =>
  intro hk
  by_cases h0 : k = 0
  · rw [h0]
  · have h1 := h ((k - 1) / 2) k (Nat.zero_le _) (by omega) hk
    have h2 := ih ((k - 1) / 2) (by omega) (by omega)
    omega

theorem mem_elems {n : Nat} {a : Nat → Nat} {x : Nat} : x ∈ elems n a ↔ ∃ i, i < n ∧ a i = x := by
  simp [elems]

/-- The elements from `r + 1` to `n - 1` are in their final places. -/
theorem sortDown_ok (n : Nat) : ∀ (r : Nat) (a : Nat → Nat), r < n → IsHeap 0 r a →
    (∀ i j, r < j → j < n → i ≤ j → a i ≤ a j) →
    ∃ a', sortDown r a = some a' ∧ (∀ i j, i ≤ j → j < n → a' i ≤ a' j) ∧ SameElems n a' a
  | 0, a, _, _, hs => by
    refine ⟨a, rfl, ?_, SameElems.refl _ _⟩
    intro i j hij hj
    by_cases h0 : j = 0
    · have : i = 0 := by omega
      rw [this, h0]
    · exact hs i j (by omega) hj hij
  | r + 1, a, hr, hh, hs => by
    have hroot := heap_root hh
    have hsw : put (put a 0 (a (r + 1))) (r + 1) (a 0) = swapAt a 0 (r + 1) := rfl
    have hsame0 : SameElems n (swapAt a 0 (r + 1)) a := swapAt_same a (by omega) hr (by omega)
    obtain ⟨a1, h1, hh1, hs1, _⟩ := sift_ok 0 r (swapAt a 0 (r + 1)) (by omega) (by
      intro k c hk hc hcr
      have hk0 : k ≠ 0 := by omega
      have hkr : k ≠ r + 1 := by omega
      have hc0 : c ≠ 0 := by omega
      have hcr' : c ≠ r + 1 := by omega
      rw [swapAt, put_other _ _ _ _ hcr', put_other _ _ _ _ hc0, put_other _ _ _ _ hkr, put_other _ _ _ _ hk0]
      exact hh k c (Nat.zero_le _) hc (by omega))
    have hmem : ∀ i, i ≤ r → ∃ i', i' ≤ r + 1 ∧ a1 i = a i' := by
      intro i hi
      have hm : a1 i ∈ elems (r + 1) a1 := mem_elems.2 ⟨i, by omega, rfl⟩
      rw [hs1.1.mem_iff] at hm
      obtain ⟨j, hj, hje⟩ := mem_elems.1 hm
      rw [← hje]
      by_cases hj0 : j = 0
      · subst hj0
        refine ⟨r + 1, by omega, ?_⟩
        rw [swapAt, put_other _ _ _ _ (by omega), put_same]
      · refine ⟨j, by omega, ?_⟩
        rw [swapAt, put_other _ _ _ _ (by omega), put_other _ _ _ _ hj0]
    have htop : a1 (r + 1) = a 0 := by
      rw [hs1.2 (r + 1) (Nat.le_refl _), swapAt, put_same]
    have habove : ∀ i, r + 1 < i → a1 i = a i := by
      intro i hi
      rw [hs1.2 i (by omega), swapAt, put_other _ _ _ _ (by omega), put_other _ _ _ _ (by omega)]
    have hsame1 : SameElems n a1 (swapAt a 0 (r + 1)) := by
      refine ⟨?_, fun i hi => hs1.2 i (by omega)⟩
      have hsplit : ∀ k, r + 1 ≤ k → (elems k a1).Perm (elems k (swapAt a 0 (r + 1))) := by
        intro k
        induction k with
        | zero => intro h; omega
        | succ k ih =>
          intro h
          by_cases hk : r + 1 ≤ k
          · rw [elems_succ, elems_succ, hs1.2 k hk]
            exact (ih hk).append_right _
          · have : k = r := by omega
            subst this; exact hs1.1
      exact hsplit n (by omega)
    obtain ⟨a2, h2, hsort, hs2⟩ := sortDown_ok n r a1 (by omega) hh1 (by
      intro i j hj hjn hij
      by_cases hj1 : j = r + 1
      · subst hj1
        rw [htop]
        by_cases hi : i = r + 1
        · rw [hi, htop]
        · obtain ⟨i', hi', e⟩ := hmem i (by omega)
          rw [e]; exact hroot i' hi'
      · rw [habove j (by omega)]
        by_cases hi : i ≤ r
        · obtain ⟨i', hi', e⟩ := hmem i hi
          rw [e]; exact hs i' j (by omega) hjn (by omega)
        · by_cases hi1 : i = r + 1
          · rw [hi1, htop]; exact hs 0 j (by omega) hjn (by omega)
          · rw [habove i (by omega)]; exact hs i j (by omega) hjn hij)
    exact ⟨a2, by simp only [sortDown, Option.bind_eq_bind]; rw [hsw, h1]; exact h2, hsort,
      hs2.trans (hsame1.trans hsame0)⟩

theorem heapSort_ok (n : Nat) (hn : 0 < n) (a : Nat → Nat) :
    ∃ a', heapSort n a = some a' ∧ (elems n a').Pairwise (· ≤ ·) ∧ (elems n a').Perm (elems n a) := by
  obtain ⟨a1, h1, hh, hs⟩ := buildHeap_ok (n - 1) (n / 2) a (by omega) (by
    intro k c hk hc hcr; omega)
  obtain ⟨a2, h2, hsort, hs2⟩ := sortDown_ok n (n - 1) a1 (by omega) hh (by intro i j h1 h2; omega)
  have e : n - 1 + 1 = n := by omega
  rw [e] at hs
  refine ⟨a2, by simp only [heapSort, h1, Option.bind_eq_bind, Option.bind_some]; exact h2, ?_, (hs2.trans hs).1⟩
  unfold elems
  rw [List.pairwise_map]
  apply List.Pairwise.imp_of_mem (R := (· < ·)) _ List.pairwise_lt_range
  intro i j _ hj hij
  exact hsort i j (Nat.le_of_lt hij) (List.mem_range.1 hj)

end Verif.Heap
