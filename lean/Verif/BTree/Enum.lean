import Verif.BTree.Update

/-!
# B-trees: enumerating, and the first and last keys
-/
namespace Verif.BTree
set_option linter.unusedSectionVars false
variable {K : Type} [LinearOrder K] [Inhabited K]

/-- Calling the procedure for a list of keys, until it wants no more. -/
def walk (more : List (K × Int) → Bool) : List (K × Int) → Calls K → Calls K
  | [], s => s
  | x :: l, s => if s.2 then walk more l (s.1 ++ [x], more (s.1 ++ [x])) else s

theorem walk_stop (more : List (K × Int) → Bool) (l : List (K × Int)) (s : Calls K) (h : s.2 = false) : walk more l s = s := by
  cases l with
  | nil => rfl
  | cons x l => unfold walk; rw [h]; rfl

theorem walk_app (more : List (K × Int) → Bool) : ∀ (a b : List (K × Int)) (s : Calls K), walk more (a ++ b) s = walk more b (walk more a s)
  | [], _, _ => rfl
  | x :: a, b, s => by
    rw [List.cons_append]
    conv_lhs => unfold walk
    conv_rhs => rw [walk]
    by_cases c : s.2 = true
    · rw [if_pos c, if_pos c, walk_app more a b]
    · rw [if_neg c, if_neg c, walk_stop more b s (by simpa using c)]

theorem walk_upTo (more : List (K × Int) → Bool) : ∀ (l : List (K × Int)) (d : List (K × Int)), (walk more l (d, true)).1 = upTo more d l
  | [], _ => rfl
  | x :: l, d => by
    unfold walk upTo
    rw [if_pos rfl]
    dsimp only
    by_cases c : more (d ++ [x]) = true
    · rw [if_pos c, c]; exact walk_upTo more l _
    · rw [if_neg c, walk_stop _ _ _ (by simpa using c)]

/-- The keys from `min` to `max`. -/
def within (min max : K) (l : List (K × Int)) : List (K × Int) := l.filter (fun x => decide (min ≤ x.1 ∧ x.1 ≤ max))

theorem within_app (min max : K) (a b : List (K × Int)) : within min max (a ++ b) = within min max a ++ within min max b := by simp [within]

theorem within_low {min max : K} {l : List (K × Int)} (h : ∀ x ∈ l, x.1 < min) : within min max l = [] := by
  unfold within
  rw [List.filter_eq_nil_iff]
  intro x hx
  have := h x hx
  simp [not_le.mpr this]

theorem within_high {min max : K} {l : List (K × Int)} (h : ∀ x ∈ l, max < x.1) : within min max l = [] := by
  unfold within
  rw [List.filter_eq_nil_iff]
  intro x hx
  have := h x hx
  simp [not_le.mpr this]

theorem call_walk (more : List (K × Int) → Bool) (key : K) (org : Int) (min max : K) (s : Calls K) (h : min ≤ key) :
    call more key org max s = walk more (within min max [(key, org)]) s := by
  unfold call within
  by_cases c : key ≤ max
  · rw [List.filter_cons_of_pos (by simp [h, c])]
    show _ = walk more [(key, org)] s
    unfold walk walk
    by_cases c2 : s.2 = true
    · rw [if_pos ⟨c2, c⟩, if_pos c2]
    · rw [if_neg (fun g => c2 g.1), if_neg c2]
  · rw [List.filter_cons_of_neg (by simp [not_le.mp c]), if_neg (fun g => c g.2)]; rfl

/-- What comes from the page in place `i` on. -/
def post (h : Nat) (p0 : Tree K) (m : Nat) (e : Nat → Ent K) (i : Nat) : List (K × Int) := flat h (child p0 e i) ++ flatE h ((ents m e).drop i)

theorem post_step (h : Nat) (p0 : Tree K) (m : Nat) (e : Nat → Ent K) (i : Nat) (hi : i < m) :
    post h p0 m e i = flat h (child p0 e i) ++ kv (e i) :: post h p0 m e (i + 1) := by
  unfold post
  rw [drop_cons _ _ _ hi, flatE_cons]
  have : child p0 e (i + 1) = (e i).p := by unfold child; rw [if_neg (by omega), Nat.add_sub_cancel]
  rw [this]

/-- The rest of `enumerate` after the loop. -/
def endEnum (sub : Tree K → Calls K → Option (Calls K)) (max : K) (last : Tree K) : Option (K × Calls K) → Option (Calls K)
  | none => none
  | some (lkey, s) => if s.2 ∧ lkey < max then sub last s else some s

theorem enumLoop_ok (sub : Tree K → Calls K → Option (Calls K)) (more : List (K × Int) → Bool) (h : Nat) (p0 : Tree K) (m : Nat) (e : Nat → Ent K)
    (bot min max : K) (hbot : bot < max) (hm : 1 ≤ m) (hs : Sorted (flat (h + 1) (.page p0 m e)))
    (hsub : ∀ i s, i ≤ m → sub (child p0 e i) s = some (walk more (within min max (flat h (child p0 e i))) s)) :
    ∀ c i lkey s, i + c = m → (i = 0 → lkey = bot) → (0 < i → lkey = (e (i - 1)).key) →
      endEnum sub max (e (m - 1)).p (enumLoop sub more p0 e min max i lkey s c) = some (walk more (within min max (post h p0 m e i)) s) := by
  have hafter : ∀ i, 0 < i → i ≤ m → ∀ x ∈ post h p0 m e i, (e (i - 1)).key < x.1 := by
    intro i hi him x hx
    refine (page_found (R := i - 1) hs (by omega)).2 x ?_
    unfold post at hx
    have : child p0 e i = (e (i - 1)).p := by unfold child; rw [if_neg (by omega)]
    rw [this] at hx
    rwa [Nat.sub_add_cancel hi]
  intro c
  induction c with
  | zero =>
    intro i lkey s hi h0 h1
    have him : i = m := by omega
    subst him
    unfold enumLoop endEnum
    dsimp only
    have hp : post h p0 i e i = flat h (child p0 e i) := by
      unfold post
      rw [List.drop_of_length_le (by rw [ents_length]), flatE_nil, List.append_nil]
    have hc : child p0 e i = (e (i - 1)).p := by unfold child; rw [if_neg (by omega)]
    by_cases c : s.2 = true ∧ lkey < max
    · rw [if_pos c, ← hc, hsub i s (le_refl _), hp]
    · rw [if_neg c]
      by_cases c2 : s.2 = true
      · have hlk : max ≤ lkey := not_lt.mp (fun g => c ⟨c2, g⟩)
        rw [within_high (fun x hx => lt_of_le_of_lt (by rw [h1 (by omega)] at hlk; exact hlk) (hafter i (by omega) (le_refl _) x hx))]
        rfl
      · rw [walk_stop _ _ _ (by simpa using c2)]
  | succ c ih =>
    intro i lkey s hi h0 h1
    have him : i < m := by omega
    obtain ⟨f1, f2⟩ := page_found hs him
    have hch : ∀ x ∈ flat h (child p0 e i), x.1 < (e i).key := fun x hx => f1 x (List.mem_append_right _ hx)
    unfold enumLoop
    by_cases cl : lkey < max
    · rw [if_pos cl, post_step _ _ _ _ _ him, within_app]
      by_cases cm : min ≤ (e i).key
      · rw [if_pos cm]
        have hcall : ∀ s, walk more (within min max (kv (e i) :: post h p0 m e (i + 1))) s
            = walk more (within min max (post h p0 m e (i + 1))) (call more (e i).key (e i).org max s) := by
          intro s
          rw [call_walk more _ _ min max s cm, ← walk_app, ← within_app]
          rfl
        by_cases cm2 : min < (e i).key
        · rw [if_pos cm2, hsub i s (by omega)]
          dsimp only
          rw [ih (i + 1) _ _ (by omega) (by omega) (fun _ => by rw [Nat.add_sub_cancel]), walk_app, hcall]
        · rw [if_neg cm2]
          have heq : (e i).key = min := le_antisymm (not_lt.mp cm2) cm
          rw [ih (i + 1) _ _ (by omega) (by omega) (fun _ => by rw [Nat.add_sub_cancel]), within_low (l := flat h (child p0 e i)) (fun x hx => by rw [← heq]; exact hch x hx),
            List.nil_append, hcall]
      · rw [if_neg cm, ih (i + 1) _ _ (by omega) (by omega) (fun _ => by rw [Nat.add_sub_cancel]),
          within_low (l := flat h (child p0 e i)) (fun x hx => lt_trans (hch x hx) (not_le.mp cm)), List.nil_append]
        have : within min max (kv (e i) :: post h p0 m e (i + 1)) = within min max (post h p0 m e (i + 1)) := by
          unfold within
          rw [List.filter_cons_of_neg (by rw [decide_eq_true_eq]; exact fun g => cm g.1)]
        rw [this]
    · rw [if_neg cl]
      unfold endEnum
      dsimp only
      rw [if_neg (fun g => cl g.2)]
      have hi0 : 0 < i := by
        rcases Nat.eq_zero_or_pos i with g | g
        · rw [h0 g] at cl; exact absurd hbot cl
        · exact g
      rw [within_high (fun x hx => lt_of_le_of_lt (by have := not_lt.mp cl; rw [h1 hi0] at this; exact this) (hafter i hi0 (by omega) x hx))]
      rfl

theorem enumerate_page (N : Nat) (hN : 0 < N) (bot min max : K) (hbot : bot < max) (more : List (K × Int) → Bool) :
    ∀ h f (p0 : Tree K) (m : Nat) (e : Nat → Ent K) (s : Calls K), 1 ≤ m → Kids N h p0 m e → Sorted (flat (h + 1) (.page p0 m e)) → h + 2 ≤ f →
      enumerate bot min max more f (.page p0 m e) s = some (walk more (within min max (flat (h + 1) (.page p0 m e))) s) := by
  intro h
  induction h with
  | zero =>
    intro f p0 m e s hm hk hs hf
    obtain ⟨g, rfl⟩ : ∃ g, f = g + 1 + 1 := ⟨f - 2, by omega⟩
    have hsub : ∀ i s, i ≤ m → enumerate bot min max more (g + 1) (child p0 e i) s
        = some (walk more (within min max (flat 0 (child p0 e i))) s) := by
      intro i s hi
      have : child p0 e i = .nil := kids_child hk hi
      rw [this]; rfl
    have := enumLoop_ok _ more 0 p0 m e bot min max hbot hm hs hsub m 0 bot s (by omega) (fun _ => rfl) (fun h => absurd h (by omega))
    have hfl : post 0 p0 m e 0 = flat (0 + 1) (.page p0 m e) := by
      rw [flat_parts 0 p0 m e 0 (by omega)]; rfl
    rw [hfl] at this
    rw [← this]
    rw [enumerate.eq_def]
    dsimp only
    generalize enumLoop _ more p0 e min max 0 bot s m = r
    rcases r with _ | ⟨lk, s'⟩ <;> rfl
  | succ h ih =>
    intro f p0 m e s hm hk hs hf
    obtain ⟨g, rfl⟩ : ∃ g, f = g + 1 := ⟨f - 1, by omega⟩
    have hsub : ∀ i s, i ≤ m → enumerate bot min max more g (child p0 e i) s
        = some (walk more (within min max (flat (h + 1) (child p0 e i))) s) := by
      intro i s hi
      obtain ⟨q0, qm, qe, hq, hq1, hq2, hq3, hq4⟩ := kids_child (R := i) hk hi
      have hsc := child_sorted hs hi
      rw [hq] at hsc ⊢
      exact ih g q0 qm qe s (by omega) ⟨hq3, hq4⟩ hsc (by omega)
    have := enumLoop_ok _ more (h + 1) p0 m e bot min max hbot hm hs hsub m 0 bot s (by omega) (fun _ => rfl) (fun h => absurd h (by omega))
    have hfl : post (h + 1) p0 m e 0 = flat (h + 2) (.page p0 m e) := by
      rw [flat_parts (h + 1) p0 m e 0 (by omega)]; rfl
    rw [hfl] at this
    rw [← this]
    rw [enumerate.eq_def]
    dsimp only
    generalize enumLoop _ more p0 e min max 0 bot s m = r
    rcases r with _ | ⟨lk, s'⟩ <;> rfl

/-! ## The first and the last key -/

def firstKey (l : List (K × Int)) (k : K) : K := match l with
  | [] => k
  | x :: _ => x.1

def lastKey (l : List (K × Int)) (k : K) : K := match l.getLast? with
  | none => k
  | some x => x.1

theorem firstKey_app (a b : List (K × Int)) (k : K) : firstKey (a ++ b) k = firstKey a (firstKey b k) := by
  cases a <;> rfl

theorem lastKey_app (a b : List (K × Int)) (k : K) : lastKey (a ++ b) k = lastKey b (lastKey a k) := by
  unfold lastKey
  rw [List.getLast?_append]
  cases hb : b.getLast? <;> simp

theorem minKey_bal (N : Nat) (hN : 0 < N) : ∀ h f (t : Tree K) (k : K), Bal N h t → h + 1 ≤ f → minKey f t k = some (firstKey (flat h t) k) := by
  intro h
  induction h with
  | zero =>
    intro f t k hb hf
    obtain ⟨g, rfl⟩ : ∃ g, f = g + 1 := ⟨f - 1, by omega⟩
    have : t = .nil := hb
    subst this; rfl
  | succ h ih =>
    intro f t k hb hf
    obtain ⟨g, rfl⟩ : ∃ g, f = g + 1 := ⟨f - 1, by omega⟩
    obtain ⟨p0, m, e, rfl, h1, h2, h3, h4⟩ := hb
    unfold minKey
    rw [ih g p0 _ h3 (by omega), flat_page, firstKey_app]
    have hd := drop_cons m e 0 (by omega)
    rw [List.drop_zero] at hd
    rw [hd, flatE_cons]
    rfl

theorem minKey_page (N : Nat) (hN : 0 < N) (h f : Nat) (p0 : Tree K) (m : Nat) (e : Nat → Ent K) (k : K) (hm : 1 ≤ m) (hk : Kids N h p0 m e) (hf : h + 2 ≤ f) :
    minKey f (.page p0 m e) k = some (firstKey (flat (h + 1) (.page p0 m e)) k) := by
  obtain ⟨g, rfl⟩ : ∃ g, f = g + 1 := ⟨f - 1, by omega⟩
  unfold minKey
  rw [minKey_bal N hN h g p0 _ hk.1 (by omega), flat_page, firstKey_app]
  have hd := drop_cons m e 0 (by omega)
  rw [List.drop_zero] at hd
  rw [hd, flatE_cons]
  rfl

theorem last_flat (h : Nat) (p0 : Tree K) (m : Nat) (e : Nat → Ent K) (k : K) (hm : 1 ≤ m) :
    lastKey (flat (h + 1) (.page p0 m e)) k = lastKey (flat h (e (m - 1)).p) (e (m - 1)).key := by
  obtain ⟨n, rfl⟩ : ∃ n, m = n + 1 := ⟨m - 1, by omega⟩
  rw [flat_page, ents_succ, flatE_app, flatE_cons, flatE_nil, Nat.add_sub_cancel, List.append_nil, lastKey_app, lastKey_app]
  have : ∀ k', lastKey (kv (e n) :: flat h (e n).p) k' = lastKey (flat h (e n).p) (e n).key := by
    intro k'
    have := lastKey_app [kv (e n)] (flat h (e n).p) k'
    rw [List.singleton_append] at this
    rw [this]; rfl
  rw [this]

theorem maxKey_page (N : Nat) (hN : 0 < N) : ∀ h f (p0 : Tree K) (m : Nat) (e : Nat → Ent K) (k : K), 1 ≤ m → Kids N h p0 m e → h + 2 ≤ f →
    maxKey f (.page p0 m e) k = some (lastKey (flat (h + 1) (.page p0 m e)) k) := by
  intro h
  induction h with
  | zero =>
    intro f p0 m e k hm hk hf
    obtain ⟨g, rfl⟩ : ∃ g, f = g + 1 + 1 := ⟨f - 2, by omega⟩
    have hq : (e (m - 1)).p = .nil := hk.2 (m - 1) (by omega)
    unfold maxKey
    rw [if_pos (by omega), last_flat _ _ _ _ _ hm, hq]
    rfl
  | succ h ih =>
    intro f p0 m e k hm hk hf
    obtain ⟨g, rfl⟩ : ∃ g, f = g + 1 := ⟨f - 1, by omega⟩
    obtain ⟨q0, qm, qe, hq, hq1, hq2, hq3, hq4⟩ := hk.2 (m - 1) (by omega)
    unfold maxKey
    rw [if_pos (by omega), last_flat _ _ _ _ _ hm, hq]
    exact ih g q0 qm qe _ (by omega) ⟨hq3, hq4⟩ (by omega)

end Verif.BTree
