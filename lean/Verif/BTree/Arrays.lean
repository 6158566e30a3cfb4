import Verif.Common
import Verif.BTree.Model

/-!
# B-trees: what the loops do to the entries of a page
-/
namespace Verif.BTree
set_option linter.unusedSectionVars false
variable {K : Type} [LinearOrder K] [Inhabited K]

/-- The entries of a page. -/
def ents (m : Nat) (e : Nat → Ent K) : List (Ent K) := (List.range m).map e

theorem ents_length (m : Nat) (e : Nat → Ent K) : (ents m e).length = m := by simp [ents]

theorem ents_get (m : Nat) (e : Nat → Ent K) (i : Nat) (h : i < (ents m e).length) : (ents m e)[i] = e i := by simp [ents]

theorem ents_get? (m : Nat) (e : Nat → Ent K) (i : Nat) (h : i < m) : (ents m e)[i]? = some (e i) := by simp [ents, h]

theorem shiftUp_at (e : Nat → Ent K) (R d : Nat) (hd : 0 < d) : ∀ i j, shiftUp e R d i j = if R + d ≤ j ∧ j < i + d then e (j - d) else e j := by
  intro i
  induction i generalizing e with
  | zero => intro j; unfold shiftUp; rw [if_neg (by omega)]
  | succ i ih =>
    intro j
    unfold shiftUp
    by_cases hr : R < i + 1
    · rw [if_pos hr, ih]
      unfold upd
      by_cases h1 : R + d ≤ j ∧ j < i + d
      · rw [if_pos h1, if_neg (by omega), if_pos (by omega)]
      · rw [if_neg h1]
        by_cases h2 : j = i + d
        · rw [if_pos h2, if_pos (by omega)]
          congr 1; omega
        · rw [if_neg h2, if_neg (by omega)]
    · rw [if_neg hr, if_neg (by omega)]

theorem shiftDown_at (e : Nat → Ent K) (k : Nat) : ∀ c i j, shiftDown e k i c j = if i ≤ j ∧ j < i + c then e (j + k) else e j := by
  intro c
  induction c generalizing e with
  | zero => intro i j; unfold shiftDown; rw [if_neg (by omega)]
  | succ c ih =>
    intro i j
    unfold shiftDown
    rw [ih]
    unfold upd
    by_cases h1 : i + 1 ≤ j ∧ j < i + 1 + c
    · rw [if_pos h1, if_neg (by omega), if_pos (by omega)]
    · rw [if_neg h1]
      by_cases h2 : j = i
      · rw [if_pos h2, if_pos (by omega), h2]
      · rw [if_neg h2, if_neg (by omega)]

theorem copy_at (d s : Nat → Ent K) (x y : Nat) : ∀ c i j, copy d s x y i c j = if i + x ≤ j ∧ j < i + c + x then s (j - x + y) else d j := by
  intro c
  induction c generalizing d with
  | zero => intro i j; unfold copy; rw [if_neg (by omega)]
  | succ c ih =>
    intro i j
    unfold copy
    rw [ih]
    unfold upd
    by_cases h1 : i + 1 + x ≤ j ∧ j < i + 1 + c + x
    · rw [if_pos h1, if_pos (by omega)]
    · rw [if_neg h1]
      by_cases h2 : j = i + x
      · rw [if_pos h2, if_pos (by omega)]
        congr 1; omega
      · rw [if_neg h2, if_neg (by omega)]

theorem copyDown_at (d s : Nat → Ent K) (y : Nat) : ∀ i j, copyDown d s y i j = if j < i then s (j + y) else d j := by
  intro i
  induction i generalizing d with
  | zero => intro j; unfold copyDown; rw [if_neg (by omega)]
  | succ i ih =>
    intro j
    unfold copyDown
    rw [ih]
    unfold upd
    by_cases h1 : j < i
    · rw [if_pos h1, if_pos (by omega)]
    · rw [if_neg h1]
      by_cases h2 : j = i
      · rw [if_pos h2, if_pos (by omega), h2]
      · rw [if_neg h2, if_neg (by omega)]

/-- Two lists of entries are the same if they are as long and have the same entries. -/
theorem ents_eq {m : Nat} {e : Nat → Ent K} {l : List (Ent K)} (hl : l.length = m) (h : ∀ i, i < m → l[i]? = some (e i)) : ents m e = l := by
  apply List.ext_getElem?
  intro i
  by_cases hi : i < m
  · rw [ents_get? m e i hi, h i hi]
  · rw [List.getElem?_eq_none (by rw [ents_length]; omega), List.getElem?_eq_none (by omega)]

theorem ents_upd (m : Nat) (e : Nat → Ent K) (i : Nat) (x : Ent K) (h : i < m) :
    ents m (upd e i x) = (ents m e).take i ++ x :: (ents m e).drop (i + 1) := by
  apply ents_eq
  · simp only [List.length_append, List.length_take, List.length_cons, List.length_drop, ents_length]; omega
  · intro j hj
    unfold upd
    by_cases h1 : j < i
    · rw [List.getElem?_append_left (by rw [List.length_take, ents_length]; omega), List.getElem?_take_of_lt h1, ents_get? m e j hj, if_neg (by omega)]
    · rw [List.getElem?_append_right (by rw [List.length_take, ents_length]; omega), List.length_take, ents_length, Nat.min_eq_left (by omega)]
      by_cases h2 : j = i
      · subst h2; rw [Nat.sub_self, if_pos rfl]; rfl
      · obtain ⟨c, rfl⟩ : ∃ c, j = i + 1 + c := ⟨j - (i + 1), by omega⟩
        rw [show i + 1 + c - i = c + 1 by omega, List.getElem?_cons_succ, List.getElem?_drop, ents_get? m e _ hj, if_neg h2]

theorem ents_put (m : Nat) (e : Nat → Ent K) (R : Nat) (u : Ent K) (h : R ≤ m) :
    ents (m + 1) (upd (shiftUp e R 1 m) R u) = (ents m e).take R ++ u :: (ents m e).drop R := by
  apply ents_eq
  · simp only [List.length_append, List.length_take, List.length_cons, List.length_drop, ents_length]; omega
  · intro j hj
    unfold upd
    rw [shiftUp_at e R 1 (by omega)]
    by_cases h1 : j < R
    · rw [List.getElem?_append_left (by rw [List.length_take, ents_length]; omega), List.getElem?_take_of_lt h1, ents_get? m e j (by omega),
        if_neg (by omega), if_neg (by omega)]
    · rw [List.getElem?_append_right (by rw [List.length_take, ents_length]; omega), List.length_take, ents_length, Nat.min_eq_left (by omega)]
      by_cases h2 : j = R
      · subst h2; rw [Nat.sub_self, if_pos rfl]; rfl
      · obtain ⟨c, rfl⟩ : ∃ c, j = R + 1 + c := ⟨j - (R + 1), by omega⟩
        rw [show R + 1 + c - R = c + 1 by omega, List.getElem?_cons_succ, List.getElem?_drop, ents_get? m e _ (by omega), if_neg h2, if_pos (by omega)]
        congr 2; omega

theorem ents_drop (m : Nat) (e : Nat → Ent K) (R : Nat) (h : R < m) :
    ents (m - 1) (shiftDown e 1 R (m - 1 - R)) = (ents m e).take R ++ (ents m e).drop (R + 1) := by
  apply ents_eq
  · simp only [List.length_append, List.length_take, List.length_drop, ents_length]; omega
  · intro j hj
    rw [shiftDown_at]
    by_cases h1 : j < R
    · rw [List.getElem?_append_left (by rw [List.length_take, ents_length]; omega), List.getElem?_take_of_lt h1, ents_get? m e j (by omega),
        if_neg (by omega)]
    · rw [List.getElem?_append_right (by rw [List.length_take, ents_length]; omega), List.length_take, ents_length, Nat.min_eq_left (by omega)]
      obtain ⟨c, rfl⟩ : ∃ c, j = R + c := ⟨j - R, by omega⟩
      rw [show R + c - R = c by omega, List.getElem?_drop, ents_get? m e _ (by omega), if_pos (by omega)]
      congr 2; omega

theorem ents_init (m : Nat) (e : Nat → Ent K) (n : Nat) (h : n ≤ m) : ents n e = (ents m e).take n := by
  apply ents_eq
  · simp only [List.length_take, ents_length]; omega
  · intro j hj
    rw [List.getElem?_take_of_lt hj, ents_get? m e j (by omega)]

theorem ents_app (m : Nat) (e : Nat → Ent K) (n : Nat) (h : n < m) : ents m e = (ents m e).take n ++ e n :: (ents m e).drop (n + 1) := by
  conv_lhs => rw [← List.take_append_drop n (ents m e)]
  rw [List.drop_eq_getElem_cons (by rw [ents_length]; exact h), ents_get]

/-- An entry of `take R ++ u :: drop R`. -/
theorem get_put (m : Nat) (e : Nat → Ent K) (R : Nat) (u : Ent K) (h : R ≤ m) (j : Nat) (hj : j ≤ m) :
    ((ents m e).take R ++ u :: (ents m e).drop R)[j]? = some (if j < R then e j else if j = R then u else e (j - 1)) := by
  rw [← ents_put m e R u h, ents_get? _ _ _ (by omega)]
  unfold upd
  rw [shiftUp_at e R 1 (by omega)]
  by_cases h1 : j < R
  · rw [if_pos h1, if_neg (by omega), if_neg (by omega)]
  · rw [if_neg h1]
    by_cases h2 : j = R
    · rw [if_pos h2, if_pos h2]
    · rw [if_neg h2, if_neg h2, if_pos (by omega)]

/-- Splitting cuts the list with the new entry before and after entry `N`. -/
theorem split_ents (N : Nat) (hN : 0 < N) (e : Nat → Ent K) (R : Nat) (u : Ent K) (h : R ≤ 2 * N) :
    (ents (2 * N) e).take R ++ u :: (ents (2 * N) e).drop R
      = ents N (split N e R u).1 ++ (split N e R u).2.2 :: ents N (split N e R u).2.1 := by
  apply List.ext_getElem?
  intro j
  by_cases hj : j ≤ 2 * N
  · rw [get_put _ _ _ _ h _ hj]
    have hr : (ents N (split N e R u).1 ++ (split N e R u).2.2 :: ents N (split N e R u).2.1)[j]?
        = some (if j < N then (split N e R u).1 j else if j = N then (split N e R u).2.2 else (split N e R u).2.1 (j - N - 1)) := by
      by_cases h1 : j < N
      · rw [List.getElem?_append_left (by rw [ents_length]; exact h1), ents_get? _ _ _ h1, if_pos h1]
      · rw [List.getElem?_append_right (by rw [ents_length]; omega), ents_length, if_neg h1]
        by_cases h2 : j = N
        · subst h2; rw [Nat.sub_self, if_pos rfl]; rfl
        · obtain ⟨c, rfl⟩ : ∃ c, j = N + 1 + c := ⟨j - (N + 1), by omega⟩
          rw [show N + 1 + c - N = c + 1 by omega, List.getElem?_cons_succ, ents_get? _ _ _ (by omega), if_neg h2]
          congr 2
    rw [hr]
    congr 1
    unfold split
    by_cases c1 : R < N
    · simp only [if_pos c1]
      simp only [copy_at, upd, shiftUp_at e R 1 (by omega : 0 < 1)]
      by_cases h1 : j < R
      · rw [if_pos h1, if_pos (show j < N by omega), if_neg (show ¬ j = R by omega), if_neg (by omega)]
      · rw [if_neg h1]
        by_cases h2 : j = R
        · rw [if_pos h2, if_pos (by omega), if_pos h2]
        · rw [if_neg h2]
          by_cases h3 : j < N
          · rw [if_pos h3, if_neg h2, if_pos (by omega)]
          · rw [if_neg h3]
            by_cases h4 : j = N
            · rw [if_pos h4, h4]
            · rw [if_neg h4, if_pos (by omega), if_neg (by omega), if_neg (by omega)]
              congr 1; omega
    · simp only [if_neg c1]
      by_cases c2 : R - N = 0
      · simp only [if_pos c2]
        simp only [copy_at]
        have : R = N := by omega
        subst this
        by_cases h1 : j < R
        · rw [if_pos h1, if_pos h1]
        · rw [if_neg h1, if_neg h1]
          by_cases h2 : j = R
          · rw [if_pos h2, if_pos h2]
          · rw [if_neg h2, if_neg h2, if_pos (by omega)]
            congr 1; omega
      · simp only [if_neg c2]
        simp only [copy_at, upd]
        by_cases h1 : j < N
        · rw [if_pos h1, if_pos (by omega)]
        · rw [if_neg h1]
          by_cases h2 : j = N
          · rw [if_pos h2, if_pos (by omega), h2]
          · rw [if_neg h2]
            by_cases h3 : j < R
            · rw [if_pos h3, if_neg (by omega), if_neg (by omega), if_pos (by omega)]
              congr 1; omega
            · rw [if_neg h3]
              by_cases h4 : j = R
              · rw [if_pos h4, if_neg (by omega), if_pos (by omega)]
              · rw [if_neg h4, if_pos (by omega)]
                congr 1; omega
  · rw [List.getElem?_eq_none (by simp only [List.length_append, List.length_take, List.length_cons, List.length_drop, ents_length]; omega),
      List.getElem?_eq_none (by simp only [List.length_append, List.length_cons, ents_length]; omega)]

/-- What binary search finds in a list that ascends. -/
theorem bsearch_spec (key : K) (e : Nat → Ent K) (m : Nat) (hs : ∀ i j, i < j → j < m → (e i).key < (e j).key) :
    ∀ f L R, R - L ≤ f → L ≤ R → R ≤ m → (∀ i, i < L → (e i).key < key) → (∀ i, R ≤ i → i < m → key ≤ (e i).key) →
      bsearch key e f L R ≤ m ∧ (∀ i, i < bsearch key e f L R → (e i).key < key) ∧ (∀ i, bsearch key e f L R ≤ i → i < m → key ≤ (e i).key) := by
  intro f
  induction f with
  | zero =>
    intro L R h1 h2 h3 h4 h5
    have : L = R := by omega
    subst this
    exact ⟨h3, h4, h5⟩
  | succ f ih =>
    intro L R h1 h2 h3 h4 h5
    unfold bsearch
    by_cases c : L < R
    · rw [if_pos c]
      have hi : L ≤ (L + R) / 2 ∧ (L + R) / 2 < R := by omega
      generalize hii : (L + R) / 2 = i at hi ⊢
      by_cases c2 : key ≤ (e i).key
      · rw [if_pos c2]
        apply ih L i (by omega) hi.1 (by omega) h4
        intro j hj hm
        rcases Nat.lt_or_ge i j with g | g
        · exact le_of_lt (lt_of_le_of_lt c2 (hs i j g hm))
        · have : j = i := by omega
          rw [this]; exact c2
      · rw [if_neg c2]
        apply ih (i + 1) R (by omega) (by omega) h3 _ h5
        intro j hj
        rcases Nat.lt_or_ge j i with g | g
        · exact lt_trans (hs j i g (by omega)) (not_le.mp c2)
        · have : j = i := by omega
          rw [this]; exact not_le.mp c2
    · rw [if_neg c]
      have : L = R := by omega
      subst this
      exact ⟨h3, h4, h5⟩

theorem bsearch_top (key : K) (e : Nat → Ent K) (m : Nat) (hs : ∀ i j, i < j → j < m → (e i).key < (e j).key) :
    bsearch key e m 0 m ≤ m ∧ (∀ i, i < bsearch key e m 0 m → (e i).key < key) ∧ (∀ i, bsearch key e m 0 m ≤ i → i < m → key ≤ (e i).key) :=
  bsearch_spec key e m hs m 0 m (by omega) (by omega) (by omega) (fun i hi => absurd hi (by omega)) (fun i h1 h2 => absurd h1 (by omega))

end Verif.BTree
