import Verif.BTree.Arrays

/-!
# B-trees: trees as lists
-/
namespace Verif.BTree
set_option linter.unusedSectionVars false
variable {K : Type} [LinearOrder K] [Inhabited K]

def kv (x : Ent K) : K × Int := (x.key, x.org)

/-- The keys and numbers of a tree with `h` levels, in order. -/
def flat : Nat → Tree K → List (K × Int)
  | 0, _ => []
  | _ + 1, .nil => []
  | h + 1, .page p0 m e => flat h p0 ++ (ents m e).flatMap (fun x => kv x :: flat h x.p)

/-- The same for some entries. -/
def flatE (h : Nat) (l : List (Ent K)) : List (K × Int) := l.flatMap (fun x => kv x :: flat h x.p)

/-- A tree with `h` levels of pages with at least `N` entries. -/
def Bal (N : Nat) : Nat → Tree K → Prop
  | 0, t => t = .nil
  | h + 1, t => ∃ p0 m e, t = .page p0 m e ∧ N ≤ m ∧ m ≤ 2 * N ∧ Bal N h p0 ∧ ∀ i, i < m → Bal N h (e i).p

def Kids (N h : Nat) (p0 : Tree K) (m : Nat) (e : Nat → Ent K) : Prop := Bal N h p0 ∧ ∀ i, i < m → Bal N h (e i).p

/-- What comes before the page in place `R`. -/
def pre (h : Nat) (p0 : Tree K) (e : Nat → Ent K) (R : Nat) : List (K × Int) :=
  if R = 0 then [] else flat h p0 ++ flatE h (ents (R - 1) e) ++ [kv (e (R - 1))]

theorem flat_page (h : Nat) (p0 : Tree K) (m : Nat) (e : Nat → Ent K) : flat (h + 1) (.page p0 m e) = flat h p0 ++ flatE h (ents m e) := rfl

theorem flatE_app (h : Nat) (a b : List (Ent K)) : flatE h (a ++ b) = flatE h a ++ flatE h b := by simp [flatE]
theorem flatE_cons (h : Nat) (x : Ent K) (b : List (Ent K)) : flatE h (x :: b) = kv x :: (flat h x.p ++ flatE h b) := by simp [flatE]
theorem flatE_nil (h : Nat) : flatE h ([] : List (Ent K)) = [] := rfl

theorem ents_congr {m : Nat} {e e' : Nat → Ent K} (h : ∀ i, i < m → e i = e' i) : ents m e = ents m e' := by
  apply ents_eq (ents_length _ _)
  intro i hi
  rw [ents_get? _ _ _ hi, h i hi]

theorem take_ents (m : Nat) (e : Nat → Ent K) (n : Nat) (h : n ≤ m) : (ents m e).take n = ents n e := (ents_init m e n h).symm

theorem drop_congr {m R : Nat} {e e' : Nat → Ent K} (h : ∀ i, R ≤ i → i < m → e i = e' i) : (ents m e).drop R = (ents m e').drop R := by
  apply List.ext_getElem?
  intro i
  rw [List.getElem?_drop, List.getElem?_drop]
  by_cases hi : R + i < m
  · rw [ents_get? _ _ _ hi, ents_get? _ _ _ hi, h _ (by omega) hi]
  · rw [List.getElem?_eq_none (by rw [ents_length]; omega), List.getElem?_eq_none (by rw [ents_length]; omega)]

theorem drop_cons (m : Nat) (e : Nat → Ent K) (s : Nat) (h : s < m) : (ents m e).drop s = e s :: (ents m e).drop (s + 1) := by
  rw [List.drop_eq_getElem_cons (by rw [ents_length]; exact h), ents_get]

theorem ents_succ (m : Nat) (e : Nat → Ent K) : ents (m + 1) e = ents m e ++ [e m] := by simp [ents, List.range_succ]

theorem mem_ents {m : Nat} {e : Nat → Ent K} {P : Ent K → Prop} : (∀ x ∈ ents m e, P x) ↔ ∀ i, i < m → P (e i) := by
  simp [ents]

theorem pre_flat (h : Nat) (p0 : Tree K) (e : Nat → Ent K) (R : Nat) :
    flat h p0 ++ flatE h (ents R e) = pre h p0 e R ++ flat h (child p0 e R) := by
  unfold pre child
  by_cases c : R = 0
  · subst c; simp [ents, flatE]
  · obtain ⟨n, rfl⟩ : ∃ n, R = n + 1 := ⟨R - 1, by omega⟩
    rw [if_neg c, if_neg c, ents_succ, flatE_app, flatE_cons, flatE_nil, Nat.add_sub_cancel]
    simp

theorem flat_parts (h : Nat) (p0 : Tree K) (m : Nat) (e : Nat → Ent K) (R : Nat) (hR : R ≤ m) :
    flat (h + 1) (.page p0 m e) = pre h p0 e R ++ flat h (child p0 e R) ++ flatE h ((ents m e).drop R) := by
  rw [flat_page, ← pre_flat, ← take_ents m e R hR, List.append_assoc, ← flatE_app, List.take_append_drop]

theorem setE_at (e : Nat → Ent K) (R : Nat) (t : Tree K) (i : Nat) (h : i ≠ R - 1 ∨ R = 0) : setE e R t i = e i := by
  unfold setE
  by_cases c : R = 0
  · rw [if_pos c]
  · rw [if_neg c]; unfold upd; rw [if_neg (by omega)]

theorem setE_key (e : Nat → Ent K) (R : Nat) (t : Tree K) (i : Nat) : kv (setE e R t i) = kv (e i) := by
  unfold setE
  by_cases c : R = 0
  · rw [if_pos c]
  · rw [if_neg c]; unfold upd
    by_cases c2 : i = R - 1
    · rw [if_pos c2, c2]; rfl
    · rw [if_neg c2]

theorem child_set (p0 : Tree K) (e : Nat → Ent K) (R : Nat) (t : Tree K) : child (setP0 p0 R t) (setE e R t) R = t := by
  unfold child setP0 setE upd
  by_cases c : R = 0
  · simp [c]
  · simp [c]

theorem pre_congr (h : Nat) (p0 : Tree K) {e e' : Nat → Ent K} {R : Nat} (hh : ∀ i, i < R → e i = e' i) : pre h p0 e R = pre h p0 e' R := by
  unfold pre
  by_cases c : R = 0
  · rw [if_pos c, if_pos c]
  · rw [if_neg c, if_neg c, ents_congr (fun i hi => hh i (by omega)), hh (R - 1) (by omega)]

theorem pre_set (h : Nat) (p0 : Tree K) (e : Nat → Ent K) (R : Nat) (t : Tree K) : pre h (setP0 p0 R t) (setE e R t) R = pre h p0 e R := by
  unfold pre
  by_cases c : R = 0
  · rw [if_pos c, if_pos c]
  · rw [if_neg c, if_neg c, setE_key, ents_congr (fun i hi => setE_at e R t i (by omega))]
    unfold setP0
    rw [if_neg c]

theorem drop_set (m : Nat) (e : Nat → Ent K) (R : Nat) (t : Tree K) : (ents m (setE e R t)).drop R = (ents m e).drop R :=
  drop_congr (fun i hi _ => setE_at e R t i (by omega))

/-- Changing the page in place `R`. -/
theorem flat_set (h : Nat) (p0 : Tree K) (m : Nat) (e : Nat → Ent K) (R : Nat) (t : Tree K) (hR : R ≤ m) :
    flat (h + 1) (.page (setP0 p0 R t) m (setE e R t)) = pre h p0 e R ++ flat h t ++ flatE h ((ents m e).drop R) := by
  rw [flat_parts h _ m _ R hR, pre_set, child_set, drop_set]

theorem kids_child {N h : Nat} {p0 : Tree K} {m : Nat} {e : Nat → Ent K} {R : Nat} (hk : Kids N h p0 m e) (hR : R ≤ m) : Bal N h (child p0 e R) := by
  unfold child
  by_cases c : R = 0
  · rw [if_pos c]; exact hk.1
  · rw [if_neg c]; exact hk.2 _ (by omega)

theorem kids_set {N h : Nat} {p0 : Tree K} {m : Nat} {e : Nat → Ent K} (hk : Kids N h p0 m e) (R : Nat) {t : Tree K} (ht : Bal N h t) :
    Kids N h (setP0 p0 R t) m (setE e R t) := by
  constructor
  · unfold setP0
    by_cases c : R = 0
    · rw [if_pos c]; exact ht
    · rw [if_neg c]; exact hk.1
  · intro i hi
    unfold setE
    by_cases c : R = 0
    · rw [if_pos c]; exact hk.2 i hi
    · rw [if_neg c]; unfold upd
      by_cases c2 : i = R - 1
      · rw [if_pos c2]; exact ht
      · rw [if_neg c2]; exact hk.2 i hi

theorem kids_upd {N h : Nat} {p0 : Tree K} {m : Nat} {e : Nat → Ent K} (hk : Kids N h p0 m e) (s : Nat) {x : Ent K} (hx : Bal N h x.p) :
    Kids N h p0 m (upd e s x) := by
  refine ⟨hk.1, ?_⟩
  intro i hi
  unfold upd
  by_cases c : i = s
  · rw [if_pos c]; exact hx
  · rw [if_neg c]; exact hk.2 i hi

theorem kids_list {N h : Nat} {p0 : Tree K} {m : Nat} {e : Nat → Ent K} : Kids N h p0 m e ↔ Bal N h p0 ∧ ∀ x ∈ ents m e, Bal N h x.p := by
  unfold Kids
  rw [mem_ents (P := fun x => Bal N h x.p)]

theorem setP0_set (p0 : Tree K) (R : Nat) (t t' : Tree K) : setP0 (setP0 p0 R t) R t' = setP0 p0 R t' := by
  unfold setP0; by_cases c : R = 0 <;> simp [c]

theorem setE_set (e : Nat → Ent K) (R : Nat) (t t' : Tree K) : setE (setE e R t) R t' = setE e R t' := by
  unfold setE
  by_cases c : R = 0
  · simp [c]
  · simp only [if_neg c]
    funext j
    unfold upd
    by_cases c2 : j = R - 1 <;> simp [c2]

/-- Putting an entry on a page, after the page in place `R` has changed. -/
theorem put_ok (N : Nat) (hN : 0 < N) (h : Nat) (p0 : Tree K) (m : Nat) (e : Nat → Ent K) (R : Nat) (hR : R ≤ m) (hm : m ≤ 2 * N) (hk : Kids N h p0 m e)
    (a : Tree K) (ha : Bal N h a) (u : Ent K) (hu : Bal N h u.p) (ch : Bool) :
    (put N (setP0 p0 R a) m (setE e R a) R u ch).changed = ch ∧
    (((put N (setP0 p0 R a) m (setE e R a) R u ch).h = false ∧ (∃ p0' m' e', (put N (setP0 p0 R a) m (setE e R a) R u ch).a = .page p0' m' e' ∧
        m ≤ m' ∧ 1 ≤ m' ∧ m' ≤ 2 * N ∧ Kids N h p0' m' e') ∧
        flat (h + 1) (put N (setP0 p0 R a) m (setE e R a) R u ch).a
          = pre h p0 e R ++ (flat h a ++ kv u :: flat h u.p) ++ flatE h ((ents m e).drop R)) ∨
     ((put N (setP0 p0 R a) m (setE e R a) R u ch).h = true ∧ Bal N (h + 1) (put N (setP0 p0 R a) m (setE e R a) R u ch).a ∧
        Bal N (h + 1) (put N (setP0 p0 R a) m (setE e R a) R u ch).v.p ∧
        flat (h + 1) (put N (setP0 p0 R a) m (setE e R a) R u ch).a ++ kv (put N (setP0 p0 R a) m (setE e R a) R u ch).v ::
            flat (h + 1) (put N (setP0 p0 R a) m (setE e R a) R u ch).v.p
          = pre h p0 e R ++ (flat h a ++ kv u :: flat h u.p) ++ flatE h ((ents m e).drop R))) := by
  have hset := kids_set hk R ha
  have key : flat h (setP0 p0 R a) ++ flatE h ((ents m (setE e R a)).take R ++ u :: (ents m (setE e R a)).drop R)
      = pre h p0 e R ++ (flat h a ++ kv u :: flat h u.p) ++ flatE h ((ents m e).drop R) := by
    rw [take_ents _ _ _ hR, flatE_app, ← List.append_assoc, pre_flat, pre_set, child_set, drop_set, flatE_cons]
    simp
  have hall : ∀ x ∈ (ents m (setE e R a)).take R ++ u :: (ents m (setE e R a)).drop R, Bal N h x.p := by
    intro x hx
    rcases List.mem_append.mp hx with g | g
    · exact (kids_list.mp hset).2 x (List.mem_of_mem_take g)
    · rcases List.mem_cons.mp g with g | g
      · rw [g]; exact hu
      · exact (kids_list.mp hset).2 x (List.mem_of_mem_drop g)
  unfold put
  by_cases c : m < 2 * N
  · rw [if_pos c]
    refine ⟨rfl, Or.inl ⟨rfl, ⟨_, _, _, rfl, by omega, by omega, by omega, ?_⟩, ?_⟩⟩
    · rw [kids_list, ents_put _ _ _ _ hR]
      exact ⟨hset.1, hall⟩
    · rw [flat_page, ents_put _ _ _ _ hR]
      exact key
  · rw [if_neg c]
    have hm2 : m = 2 * N := by omega
    subst hm2
    have hs := split_ents N hN (setE e R a) R u hR
    rw [hs] at key hall
    refine ⟨rfl, Or.inr ⟨rfl, ?_, ?_, ?_⟩⟩
    · exact ⟨_, _, _, rfl, by omega, by omega, hset.1, mem_ents.mp (fun x hx => hall x (List.mem_append_left _ hx))⟩
    · exact ⟨_, _, _, rfl, by omega, by omega, hall _ (List.mem_append_right _ (List.mem_cons_self ..)),
        mem_ents.mp (fun x hx => hall x (List.mem_append_right _ (List.mem_cons_of_mem _ hx)))⟩
    · rw [← key, flatE_app, flatE_cons]
      show (flat h _ ++ flatE h _) ++ kv _ :: (flat h _ ++ flatE h _) = _
      simp [kv]

/-- The entries after taking some from the right. -/
theorem right_move (N : Nat) (hN : 0 < N) (ae be : Nat → Ent K) (bm k : Nat) (hk : 0 < k) (hb : k ≤ bm) (x : Ent K) :
    ents (N - 1) ae ++ x :: ents bm be
      = ents (N - 1 + k) (copy (upd ae (N - 1) x) be N 0 0 (k - 1)) ++ be (k - 1) :: ents (bm - k) (shiftDown be k 0 (bm - k)) := by
  apply List.ext_getElem?
  intro j
  by_cases hj : j < N + bm
  · have hl : (ents (N - 1) ae ++ x :: ents bm be)[j]? = some (if j < N - 1 then ae j else if j = N - 1 then x else be (j - N)) := by
      by_cases h1 : j < N - 1
      · rw [List.getElem?_append_left (by rw [ents_length]; exact h1), ents_get? _ _ _ h1, if_pos h1]
      · rw [List.getElem?_append_right (by rw [ents_length]; omega), ents_length, if_neg h1]
        by_cases h2 : j = N - 1
        · subst h2; rw [Nat.sub_self, if_pos rfl]; rfl
        · obtain ⟨c, rfl⟩ : ∃ c, j = N + c := ⟨j - N, by omega⟩
          rw [show N + c - (N - 1) = c + 1 by omega, List.getElem?_cons_succ, ents_get? _ _ _ (by omega), if_neg h2]
          congr 2; omega
    rw [hl]
    by_cases g1 : j < N - 1 + k
    · rw [List.getElem?_append_left (by rw [ents_length]; exact g1), ents_get? _ _ _ g1, copy_at]
      congr 1
      unfold upd
      by_cases h1 : j < N - 1
      · rw [if_pos h1, if_neg (by omega), if_neg (by omega)]
      · rw [if_neg h1]
        by_cases h2 : j = N - 1
        · rw [if_pos h2, if_neg (by omega), if_pos h2]
        · rw [if_neg h2, if_pos (by omega)]; rfl
    · rw [List.getElem?_append_right (by rw [ents_length]; omega), ents_length, if_neg (by omega), if_neg (by omega)]
      by_cases g2 : j = N - 1 + k
      · subst g2; rw [Nat.sub_self]
        show _ = some _
        congr 2; omega
      · obtain ⟨c, rfl⟩ : ∃ c, j = N + k + c := ⟨j - (N + k), by omega⟩
        rw [show N + k + c - (N - 1 + k) = c + 1 by omega, List.getElem?_cons_succ, ents_get? _ _ _ (by omega), shiftDown_at, if_pos (by omega)]
        congr 2; omega
  · rw [List.getElem?_eq_none (by simp only [List.length_append, List.length_cons, ents_length]; omega),
      List.getElem?_eq_none (by simp only [List.length_append, List.length_cons, ents_length]; omega)]

theorem right_merge (N : Nat) (hN : 0 < N) (ae be : Nat → Ent K) (x : Ent K) :
    ents (N - 1) ae ++ x :: ents N be = ents (2 * N) (copy (upd ae (N - 1) x) be N 0 0 N) := by
  symm
  apply ents_eq
  · simp only [List.length_append, List.length_cons, ents_length]; omega
  · intro j hj
    rw [copy_at]
    unfold upd
    by_cases h1 : j < N - 1
    · rw [List.getElem?_append_left (by rw [ents_length]; exact h1), ents_get? _ _ _ h1, if_neg (by omega), if_neg (by omega)]
    · rw [List.getElem?_append_right (by rw [ents_length]; omega), ents_length]
      by_cases h2 : j = N - 1
      · subst h2; rw [Nat.sub_self, if_neg (by omega), if_pos rfl]; rfl
      · obtain ⟨c, rfl⟩ : ∃ c, j = N + c := ⟨j - N, by omega⟩
        rw [show N + c - (N - 1) = c + 1 by omega, List.getElem?_cons_succ, ents_get? _ _ _ (by omega), if_pos (by omega)]
        congr 2; omega

theorem left_move (N : Nat) (hN : 0 < N) (ae be : Nat → Ent K) (bm k : Nat) (hk : 0 < k) (hb : k ≤ bm) (x : Ent K) :
    ents bm be ++ x :: ents (N - 1) ae
      = ents (bm - k) be ++ be (bm - k) :: ents (N - 1 + k) (copyDown (upd (shiftUp ae 0 k (N - 1)) (k - 1) x) be (bm - k + 1) (k - 1)) := by
  apply List.ext_getElem?
  intro j
  by_cases hj : j < N + bm
  · have hr : (ents (bm - k) be ++ be (bm - k) :: ents (N - 1 + k) (copyDown (upd (shiftUp ae 0 k (N - 1)) (k - 1) x) be (bm - k + 1) (k - 1)))[j]?
        = some (if j ≤ bm - k then be j else copyDown (upd (shiftUp ae 0 k (N - 1)) (k - 1) x) be (bm - k + 1) (k - 1) (j - (bm - k) - 1)) := by
      by_cases h1 : j < bm - k
      · rw [List.getElem?_append_left (by rw [ents_length]; exact h1), ents_get? _ _ _ h1, if_pos (by omega)]
      · rw [List.getElem?_append_right (by rw [ents_length]; omega), ents_length]
        by_cases h2 : j = bm - k
        · subst h2; rw [Nat.sub_self, if_pos (by omega)]; rfl
        · obtain ⟨c, rfl⟩ : ∃ c, j = bm - k + 1 + c := ⟨j - (bm - k + 1), by omega⟩
          rw [show bm - k + 1 + c - (bm - k) = c + 1 by omega, List.getElem?_cons_succ, ents_get? _ _ _ (by omega), if_neg (by omega)]
          congr 2
    rw [hr, copyDown_at]
    unfold upd
    rw [shiftUp_at ae 0 k hk]
    by_cases g1 : j < bm
    · rw [List.getElem?_append_left (by rw [ents_length]; exact g1), ents_get? _ _ _ g1]
      congr 1
      by_cases h1 : j ≤ bm - k
      · rw [if_pos h1]
      · rw [if_neg h1, if_pos (by omega)]
        congr 1; omega
    · rw [List.getElem?_append_right (by rw [ents_length]; omega), ents_length, if_neg (by omega), if_neg (by omega)]
      by_cases g2 : j = bm
      · subst g2; rw [Nat.sub_self, if_pos (by omega)]; rfl
      · obtain ⟨c, rfl⟩ : ∃ c, j = bm + 1 + c := ⟨j - (bm + 1), by omega⟩
        rw [show bm + 1 + c - bm = c + 1 by omega, List.getElem?_cons_succ, ents_get? _ _ _ (by omega), if_neg (by omega), if_pos (by omega)]
        congr 2; omega
  · rw [List.getElem?_eq_none (by simp only [List.length_append, List.length_cons, ents_length]; omega),
      List.getElem?_eq_none (by simp only [List.length_append, List.length_cons, ents_length]; omega)]

theorem left_merge (N : Nat) (hN : 0 < N) (ae be : Nat → Ent K) (x : Ent K) :
    ents N be ++ x :: ents (N - 1) ae = ents (2 * N) (copy (upd be N x) ae (N + 1) 0 0 (N - 1)) := by
  symm
  apply ents_eq
  · simp only [List.length_append, List.length_cons, ents_length]; omega
  · intro j hj
    rw [copy_at]
    unfold upd
    by_cases h1 : j < N
    · rw [List.getElem?_append_left (by rw [ents_length]; exact h1), ents_get? _ _ _ h1, if_neg (by omega), if_neg (by omega)]
    · rw [List.getElem?_append_right (by rw [ents_length]; omega), ents_length]
      by_cases h2 : j = N
      · subst h2; rw [Nat.sub_self, if_neg (by omega), if_pos rfl]; rfl
      · obtain ⟨c, rfl⟩ : ∃ c, j = N + 1 + c := ⟨j - (N + 1), by omega⟩
        rw [show N + 1 + c - N = c + 1 by omega, List.getElem?_cons_succ, ents_get? _ _ _ (by omega), if_pos (by omega)]
        congr 2; omega

end Verif.BTree
