import Verif.Common
import Verif.BitSets.Model
import Verif.BitSets.Spec

/-!
# C86: sets of numbers in arrays
-/
namespace Verif.BitSets
variable {w : Nat}

theorem elem_room {s : List (BitVec w)} {x : Nat} (h : Elem s x) : Room w s.length x := by
  obtain ⟨v, h1, h2⟩ := h
  have hw : 0 < w := by
    rcases Nat.eq_zero_or_pos w with rfl | h
    · simp at h2
    · exact h
  have := (List.getElem?_eq_some_iff.1 h1).1
  exact (Nat.div_lt_iff_lt_mul hw).1 this

theorem put_ok {m : Mem w} {a i : Nat} (v : BitVec w) (h : i < (m a).length) : put m a i v = some (Function.update m a ((m a).set i v)) := if_pos h

/-- The array that is changed, element by element. -/
def At (m m' : Mem w) (c : Nat) (g : Nat → Option (BitVec w)) : Prop :=
  (∀ d, d ≠ c → m' d = m d) ∧ (m' c).length = (m c).length ∧ ∀ k, (m' c)[k]? = g k

theorem upd_get (m : Mem w) (c i : Nat) (v : BitVec w) (h : i < (m c).length) (d k : Nat) :
    (Function.update m c ((m c).set i v) d)[k]? = if d = c ∧ k = i then some v else (m d)[k]? := by
  by_cases hd : d = c
  · subst hd
    rw [Function.update_self, List.getElem?_set]
    by_cases hk : i = k
    · subst hk; rw [if_pos rfl, if_pos h, if_pos ⟨rfl, rfl⟩]
    · rw [if_neg hk, if_neg (fun hh => hk hh.2.symm)]
  · rw [Function.update_of_ne hd, if_neg (fun hh => hd hh.1)]

theorem upd_len (m : Mem w) (c i : Nat) (v : BitVec w) (d : Nat) : (Function.update m c ((m c).set i v) d).length = (m d).length := by
  by_cases hd : d = c
  · subst hd; rw [Function.update_self, List.length_set]
  · rw [Function.update_of_ne hd]

theorem fillLoop_ok (v : BitVec w) (s : Nat) : ∀ f (m : Mem w) i, (m s).length + 1 ≤ f + i → i ≤ (m s).length →
    ∃ m', fillLoop v s f m i = some m' ∧ At m m' s fun k => if i ≤ k ∧ k < (m s).length then some v else (m s)[k]?
  | 0, m, i, h, hi => by omega
  | f + 1, m, i, h, hi => by
    rw [fillLoop]
    by_cases hl : i < (m s).length
    · rw [if_pos hl, put_ok v hl, Option.bind_some]
      obtain ⟨m', e, h1, h2, h3⟩ := fillLoop_ok v s f (Function.update m s ((m s).set i v)) (i + 1) (by rw [upd_len]; omega) (by rw [upd_len]; omega)
      refine ⟨m', e, fun d hd => (h1 d hd).trans (Function.update_of_ne hd ..), h2.trans (upd_len ..), fun k => ?_⟩
      rw [h3]
      dsimp only
      rw [upd_len, upd_get _ _ _ _ hl]
      by_cases hk : k = i
      · subst hk; rw [if_neg (by omega), if_pos ⟨rfl, rfl⟩, if_pos (by omega)]
      · rw [if_neg (show ¬ (s = s ∧ k = i) by omega)]
        by_cases hk2 : i + 1 ≤ k ∧ k < (m s).length
        · rw [if_pos hk2, if_pos (by omega)]
        · rw [if_neg hk2, if_neg (by omega)]
    · rw [if_neg hl]
      exact ⟨m, rfl, fun _ _ => rfl, rfl, fun k => by dsimp only; rw [if_neg (by omega)]⟩

/-- **C86 (Clear).** -/
theorem C86_clear (m : Mem w) (s : Nat) : ∃ m', clear m s = some m' ∧ (∀ d, d ≠ s → m' d = m d) ∧ (m' s).length = (m s).length ∧
    ∀ x, ¬ Elem (m' s) x := by
  obtain ⟨m', e, h1, h2, h3⟩ := fillLoop_ok 0 s ((m s).length + 1) m 0 (by omega) (by omega)
  refine ⟨m', e, h1, h2, fun x => ?_⟩
  rintro ⟨v, e1, e2⟩
  have hl : x / w < (m s).length := h2 ▸ (List.getElem?_eq_some_iff.1 e1).1
  rw [h3] at e1
  dsimp only at e1
  rw [if_pos ⟨Nat.zero_le _, hl⟩] at e1
  cases e1
  simp at e2

/-- **C86 (Fill).**  Afterwards the set has all numbers the array has room for. -/
theorem C86_fill (m : Mem w) (s : Nat) : ∃ m', fill m s = some m' ∧ (∀ d, d ≠ s → m' d = m d) ∧ (m' s).length = (m s).length ∧
    ∀ x, Elem (m' s) x ↔ Room w (m s).length x := by
  obtain ⟨m', e, h1, h2, h3⟩ := fillLoop_ok (BitVec.allOnes w) s ((m s).length + 1) m 0 (by omega) (by omega)
  refine ⟨m', e, h1, h2, fun x => ⟨fun h => h2 ▸ elem_room h, fun h => ?_⟩⟩
  have hw : 0 < w := by
    rcases Nat.eq_zero_or_pos w with rfl | h'
    · simp [Room] at h
    · exact h'
  refine ⟨BitVec.allOnes w, ?_, ?_⟩
  · rw [h3]
    dsimp only
    rw [if_pos ⟨Nat.zero_le _, (Nat.div_lt_iff_lt_mul hw).2 h⟩]
  · rw [BitVec.getLsbD_allOnes]; simp [Nat.mod_lt x hw]

theorem index_ok {m : Mem w} {s x : Nat} (h : Room w (m s).length x) : index m s x = some (x / w) ∧ x / w < (m s).length ∧ bit w x = x % w ∧ x % w < w := by
  have hw : 0 < w := by
    rcases Nat.eq_zero_or_pos w with rfl | h'
    · simp [Room] at h
    · exact h'
  have h1 : x / w < (m s).length := (Nat.div_lt_iff_lt_mul hw).2 h
  refine ⟨?_, h1, ?_, Nat.mod_lt _ hw⟩
  · unfold index
    have e : (x : Int) / (w : Int) = ((x / w : Nat) : Int) := by rw [Int.natCast_ediv]
    rw [e, if_pos ⟨Int.natCast_nonneg _, by exact_mod_cast h1⟩]
    rfl
  · unfold bit
    rw [← Int.natCast_emod]
    rfl

theorem index_bad {m : Mem w} {s : Nat} {x : Int} (hw : 0 < w) (h : x < 0 ∨ ((m s).length * w : Nat) ≤ x) : index m s x = none := by
  unfold index
  apply if_neg
  rintro ⟨h1, h2⟩
  have hw' : (0 : Int) < w := by omega
  rcases h with h | h
  · have := Int.ediv_lt_of_lt_mul hw' (show x < 0 * (w : Int) by omega)
    omega
  · have := Int.le_ediv_of_mul_le hw' (show ((m s).length : Int) * w ≤ x by rw [← Int.natCast_mul]; exact h)
    omega

theorem bit_one {b j : Nat} (hb : b < w) : (1#w <<< b).getLsbD j = decide (j = b) := by
  rw [BitVec.getLsbD_shiftLeft]
  by_cases h : j = b
  · subst h
    have : 0 < w := by omega
    simp [hb, this]
  · rw [decide_eq_false h]
    by_cases h2 : j < b
    · simp [h2]
    · have : j - b ≠ 0 := by omega
      simp [this]

theorem elem_upd {m : Mem w} {s x : Nat} {v : BitVec w} (hr : Room w (m s).length x) (y : Nat) :
    Elem (Function.update m s ((m s).set (x / w) v) s) y ↔ if y / w = x / w then v.getLsbD (y % w) = true else Elem (m s) y := by
  unfold Elem
  simp only [upd_get m s _ v (index_ok hr).2.1, true_and]
  by_cases h : y / w = x / w
  · rw [if_pos h]; simp [h]
  · rw [if_neg h]; simp [h]

theorem same_number (x y : Nat) : y = x ↔ y / w = x / w ∧ y % w = x % w := by
  constructor
  · rintro rfl; exact ⟨rfl, rfl⟩
  · rintro ⟨h1, h2⟩
    rw [← Nat.div_add_mod y w, ← Nat.div_add_mod x w, h1, h2]

theorem in_word {s : List (BitVec w)} {x y : Nat} {v : BitVec w} (e : s[x / w]? = some v) (h : y / w = x / w) : Elem s y ↔ v.getLsbD (y % w) = true := by
  unfold Elem
  rw [h, e]
  simp

/-- **C86 (Incl).**  The set gets the number, and nothing else changes; numbers there is no room for trap. -/
theorem C86_incl (m : Mem w) (s : Nat) (hw : 0 < w) :
    (∀ x, Room w (m s).length x → ∃ m', incl m s x = some m' ∧ (∀ d, d ≠ s → m' d = m d) ∧ (m' s).length = (m s).length ∧
      ∀ y, Elem (m' s) y ↔ y = x ∨ Elem (m s) y) ∧
    ∀ x : Int, (x < 0 ∨ ((m s).length * w : Nat) ≤ x) → incl m s x = none := by
  constructor
  · intro x hr
    obtain ⟨e1, h1, e2, h2⟩ := index_ok hr
    unfold incl
    rw [e1, Option.bind_some, List.getElem?_eq_getElem h1, Option.bind_some, put_ok _ h1, e2]
    refine ⟨_, rfl, fun d hd => Function.update_of_ne hd .., upd_len .., fun y => ?_⟩
    rw [elem_upd hr]
    by_cases h : y / w = x / w
    · rw [if_pos h, BitVec.getLsbD_or, bit_one h2, in_word (List.getElem?_eq_getElem h1) h, same_number (w := w) x y]
      simp only [Bool.or_eq_true, decide_eq_true_eq]
      constructor
      · rintro (h3 | h3)
        · exact Or.inr h3
        · exact Or.inl ⟨h, h3⟩
      · rintro (h3 | h3)
        · exact Or.inr h3.2
        · exact Or.inl h3
    · rw [if_neg h]
      constructor
      · exact Or.inr
      · rintro (rfl | h3)
        · exact absurd rfl h
        · exact h3
  · intro x hx
    unfold incl
    rw [index_bad hw hx]
    rfl

/-- **C86 (Excl).** -/
theorem C86_excl (m : Mem w) (s : Nat) (hw : 0 < w) :
    (∀ x, Room w (m s).length x → ∃ m', excl m s x = some m' ∧ (∀ d, d ≠ s → m' d = m d) ∧ (m' s).length = (m s).length ∧
      ∀ y, Elem (m' s) y ↔ y ≠ x ∧ Elem (m s) y) ∧
    ∀ x : Int, (x < 0 ∨ ((m s).length * w : Nat) ≤ x) → excl m s x = none := by
  constructor
  · intro x hr
    obtain ⟨e1, h1, e2, h2⟩ := index_ok hr
    unfold excl
    rw [e1, Option.bind_some, List.getElem?_eq_getElem h1, Option.bind_some, put_ok _ h1, e2]
    refine ⟨_, rfl, fun d hd => Function.update_of_ne hd .., upd_len .., fun y => ?_⟩
    rw [elem_upd hr]
    by_cases h : y / w = x / w
    · have hy : y % w < w := Nat.mod_lt _ hw
      rw [if_pos h, BitVec.getLsbD_and, BitVec.getLsbD_not, bit_one h2, in_word (List.getElem?_eq_getElem h1) h]
      have := same_number (w := w) x y
      simp only [Bool.and_eq_true, decide_eq_true_eq, Bool.not_eq_true', decide_eq_false_iff_not]
      constructor
      · rintro ⟨h3, _, h4⟩
        exact ⟨fun h5 => h4 (this.1 h5).2, h3⟩
      · rintro ⟨h3, h4⟩
        exact ⟨h4, hy, fun h5 => h3 (this.2 ⟨h, h5⟩)⟩
    · rw [if_neg h]
      constructor
      · exact fun h3 => ⟨fun h4 => h (by rw [h4]), h3⟩
      · exact fun h3 => h3.2
  · intro x hx
    unfold excl
    rw [index_bad hw hx]
    rfl

/-- **C86 (In).** -/
theorem C86_in (m : Mem w) (s : Nat) (hw : 0 < w) :
    (∀ x, Room w (m s).length x → ∃ b, «in» m s x = some b ∧ (b = true ↔ Elem (m s) x)) ∧
    ∀ x : Int, (x < 0 ∨ ((m s).length * w : Nat) ≤ x) → «in» m s x = none := by
  constructor
  · intro x hr
    obtain ⟨e1, h1, e2, h2⟩ := index_ok hr
    unfold «in»
    rw [e1, Option.bind_some, List.getElem?_eq_getElem h1, Option.map_some, e2]
    exact ⟨_, rfl, (in_word (List.getElem?_eq_getElem h1) rfl).symm⟩
  · intro x hx
    unfold «in»
    rw [index_bad hw hx]
    rfl

theorem testLoop_ok (bad : BitVec w → BitVec w → Bool) (m : Mem w) (s1 s2 : Nat) (hl : (m s1).length ≤ (m s2).length) :
    ∀ f i, (m s1).length + 1 ≤ f + i → i ≤ (m s1).length →
    ∃ b, testLoop bad m s1 s2 f i = some b ∧ (b = true ↔ ∀ k x y, i ≤ k → (m s1)[k]? = some x → (m s2)[k]? = some y → bad x y = false)
  | 0, i, h, hi => by omega
  | f + 1, i, h, hi => by
    rw [testLoop]
    by_cases hh : i < (m s1).length
    · have hh2 : i < (m s2).length := by omega
      rw [if_pos hh, List.getElem?_eq_getElem hh, Option.bind_some, List.getElem?_eq_getElem hh2, Option.bind_some]
      by_cases hb : bad (m s1)[i] (m s2)[i] = true
      · rw [if_pos hb]
        refine ⟨false, rfl, by simp, fun h => ?_⟩
        have := h i _ _ (le_refl i) (List.getElem?_eq_getElem hh) (List.getElem?_eq_getElem hh2)
        rw [hb] at this
        simp at this
      · rw [if_neg hb]
        obtain ⟨b, e, h1⟩ := testLoop_ok bad m s1 s2 hl f (i + 1) (by omega) (by omega)
        refine ⟨b, e, h1.trans ⟨fun h k x y hk e1 e2 => ?_, fun h k x y hk => h k x y (by omega)⟩⟩
        by_cases hki : k = i
        · subst hki
          rw [List.getElem?_eq_getElem hh] at e1
          rw [List.getElem?_eq_getElem hh2] at e2
          cases e1; cases e2
          exact Bool.eq_false_iff.2 hb
        · exact h k x y (by omega) e1 e2
    · rw [if_neg hh]
      refine ⟨true, rfl, fun _ k x y hk e1 _ => ?_, fun _ => rfl⟩
      have := (List.getElem?_eq_some_iff.1 e1).1
      omega

/-- Sets that are compared word by word. -/
theorem words {s t : List (BitVec w)} (hw : 0 < w) (P : Bool → Bool → Prop) (Q : BitVec w → BitVec w → Prop) (hl : s.length ≤ t.length)
    (hQ : ∀ x y, Q x y ↔ ∀ b, b < w → P (x.getLsbD b) (y.getLsbD b)) :
    (∀ k x y, 0 ≤ k → s[k]? = some x → t[k]? = some y → Q x y) ↔
    ∀ z, Room w s.length z → ∃ p q, (p = true ↔ Elem s z) ∧ (q = true ↔ Elem t z) ∧ P p q := by
  constructor
  · intro h z hz
    have h1 : z / w < s.length := (Nat.div_lt_iff_lt_mul hw).2 hz
    have h2 : z / w < t.length := by omega
    exact ⟨_, _, (in_word (List.getElem?_eq_getElem h1) rfl).symm, (in_word (List.getElem?_eq_getElem h2) rfl).symm,
      (hQ _ _).1 (h _ _ _ (Nat.zero_le _) (List.getElem?_eq_getElem h1) (List.getElem?_eq_getElem h2)) _ (Nat.mod_lt _ hw)⟩
  · intro h k x y _ e1 e2
    refine (hQ _ _).2 fun b hb => ?_
    have hk := (List.getElem?_eq_some_iff.1 e1).1
    have hz : (k * w + b) / w = k := by
      rw [Nat.mul_comm, Nat.mul_add_div hw, Nat.div_eq_of_lt hb, Nat.add_zero]
    have hz2 : (k * w + b) % w = b := by
      rw [Nat.mul_comm, Nat.mul_add_mod, Nat.mod_eq_of_lt hb]
    obtain ⟨p, q, h1, h2, h3⟩ := h (k * w + b) (by
      unfold Room
      have : (k + 1) * w ≤ s.length * w := Nat.mul_le_mul_right w hk
      rw [Nat.add_mul] at this
      omega)
    have e1' := in_word (x := k * w + b) (y := k * w + b) (by rw [hz]; exact e1) rfl
    have e2' := in_word (x := k * w + b) (y := k * w + b) (by rw [hz]; exact e2) rfl
    rw [hz2] at e1' e2'
    rw [show x.getLsbD b = p from Bool.eq_iff_iff.2 (h1.trans e1').symm, show y.getLsbD b = q from Bool.eq_iff_iff.2 (h2.trans e2').symm]
    exact h3

theorem eq_bits {x y : BitVec w} : x = y ↔ ∀ b, b < w → x.getLsbD b = y.getLsbD b :=
  ⟨fun h _ _ => by rw [h], fun h => BitVec.eq_of_getLsbD_eq h⟩

/-- **C86 (tests).**  For arrays of the same length: `Includes` tells whether the first set includes the second, `Equal` whether they are equal, `Different`
whether they have no number in common, and `Empty` whether a set is empty. -/
theorem C86_tests_partial (m : Mem w) {s1 s2 : Nat} (hw : 0 < w) (hl : (m s1).length = (m s2).length) :
    (∃ b, includes m s1 s2 = some b ∧ (b = true ↔ ∀ x, Elem (m s2) x → Elem (m s1) x)) ∧
    (∃ b, equal m s1 s2 = some b ∧ (b = true ↔ ∀ x, Elem (m s1) x ↔ Elem (m s2) x)) ∧
    (∃ b, different m s1 s2 = some b ∧ (b = true ↔ ¬ ∃ x, Elem (m s1) x ∧ Elem (m s2) x)) ∧
    (∃ b, empty m s1 = some b ∧ (b = true ↔ ¬ ∃ x, Elem (m s1) x)) := by
  have r1 : ∀ x, Elem (m s1) x → Room w (m s1).length x := fun x h => elem_room h
  have r2 : ∀ x, Elem (m s2) x → Room w (m s1).length x := fun x h => hl ▸ elem_room h
  refine ⟨?_, ?_, ?_, ?_⟩
  · obtain ⟨b, e, h⟩ := testLoop_ok (fun x y => (x ||| y) != x) m s1 s2 (by omega) ((m s1).length + 1) 0 (by omega) (by omega)
    refine ⟨b, e, h.trans ((words hw (fun p q => q = true → p = true) _ (by omega) ?_).trans ⟨fun h x hx => ?_, fun h z _ => ?_⟩)⟩
    · intro x y
      rw [bne_eq_false_iff_eq, eq_bits]
      refine forall_congr' fun b => forall_congr' fun _ => ?_
      rw [BitVec.getLsbD_or]
      cases x.getLsbD b <;> cases y.getLsbD b <;> simp
    · obtain ⟨p, q, h1, h2, h3⟩ := h x (r2 x hx)
      exact h1.1 (h3 (h2.2 hx))
    · classical
      exact ⟨decide (Elem (m s1) z), decide (Elem (m s2) z), by simp, by simp, by simpa using h z⟩
  · obtain ⟨b, e, h⟩ := testLoop_ok (fun x y => x != y) m s1 s2 (by omega) ((m s1).length + 1) 0 (by omega) (by omega)
    refine ⟨b, e, h.trans ((words hw (fun p q => p = q) _ (by omega) ?_).trans ⟨fun h x => ?_, fun h z _ => ?_⟩)⟩
    · intro x y
      rw [bne_eq_false_iff_eq, eq_bits]
    · by_cases hr : Room w (m s1).length x
      · obtain ⟨p, q, h1, h2, h3⟩ := h x hr
        rw [← h1, ← h2, h3]
      · exact ⟨fun hx => absurd (r1 x hx) hr, fun hx => absurd (r2 x hx) hr⟩
    · classical
      exact ⟨decide (Elem (m s1) z), decide (Elem (m s2) z), by simp, by simp, by simpa using h z⟩
  · obtain ⟨b, e, h⟩ := testLoop_ok (fun x y => (x &&& y) != 0) m s1 s2 (by omega) ((m s1).length + 1) 0 (by omega) (by omega)
    refine ⟨b, e, h.trans ((words hw (fun p q => ¬ (p = true ∧ q = true)) _ (by omega) ?_).trans ⟨fun h => ?_, fun h z _ => ?_⟩)⟩
    · intro x y
      rw [bne_eq_false_iff_eq, eq_bits]
      refine forall_congr' fun b => forall_congr' fun _ => ?_
      rw [BitVec.getLsbD_and]
      cases x.getLsbD b <;> cases y.getLsbD b <;> simp
    · rintro ⟨x, hx, hy⟩
      obtain ⟨p, q, h1, h2, h3⟩ := h x (r1 x hx)
      exact h3 ⟨h1.2 hx, h2.2 hy⟩
    · classical
      refine ⟨decide (Elem (m s1) z), decide (Elem (m s2) z), by simp, by simp, ?_⟩
      simp only [decide_eq_true_eq]
      exact fun hh => h ⟨z, hh⟩
  · obtain ⟨b, e, h⟩ := testLoop_ok (fun x _ => x != 0) m s1 s1 (le_refl _) ((m s1).length + 1) 0 (by omega) (by omega)
    refine ⟨b, e, h.trans ((words hw (fun p _ => ¬ p = true) _ (le_refl _) ?_).trans ⟨fun h => ?_, fun h z _ => ?_⟩)⟩
    · intro x y
      rw [bne_eq_false_iff_eq, eq_bits]
      refine forall_congr' fun b => forall_congr' fun _ => ?_
      cases x.getLsbD b <;> simp
    · rintro ⟨x, hx⟩
      obtain ⟨p, q, h1, h2, h3⟩ := h x (r1 x hx)
      exact h3 (h1.2 hx)
    · classical
      refine ⟨decide (Elem (m s1) z), decide (Elem (m s1) z), by simp, by simp, ?_⟩
      simp only [decide_eq_true_eq]
      exact fun hh => h ⟨z, hh⟩

/-- **C86 (deviation).**  When the second array is longer, what it has beyond the first is ignored: sets that are not equal are `Equal`, and a set
`Includes` one with other numbers. -/
theorem C86_longer : ∃ m : Mem 32, equal m 0 1 = some true ∧ includes m 0 1 = some true ∧ Elem (m 1) 40 ∧ ¬ Elem (m 0) 40 := by
  refine ⟨fun a => if a = 0 then [5#32] else [5#32, 256#32], by decide, by decide, ⟨256#32, rfl, by decide⟩, ?_⟩
  rintro ⟨v, h, _⟩
  simp at h

/-- The second array must not be the shorter one. -/
theorem C86_shorter : ∃ m : Mem 32, equal m 0 1 = none := ⟨fun a => if a = 0 then [5#32, 256#32] else [5#32], by decide⟩

theorem mapLoop_ok (op : BitVec w → BitVec w → BitVec w) (s1 s2 s3 : Nat) : ∀ f (m : Mem w) i, (m s1).length ≤ (m s2).length → (m s1).length ≤ (m s3).length →
    (m s1).length + 1 ≤ f + i → i ≤ (m s1).length → ∃ m', mapLoop op s1 s2 s3 f m i = some m' ∧ At m m' s3 fun k =>
      if i ≤ k ∧ k < (m s1).length then (m s1)[k]?.bind fun x => (m s2)[k]?.map fun y => op x y else (m s3)[k]?
  | 0, m, i, _, _, h, hi => by omega
  | f + 1, m, i, h2, h3, h, hi => by
    rw [mapLoop]
    by_cases hl : i < (m s1).length
    · have hl2 : i < (m s2).length := by omega
      have hl3 : i < (m s3).length := by omega
      rw [if_pos hl, List.getElem?_eq_getElem hl, Option.bind_some, List.getElem?_eq_getElem hl2, Option.bind_some, put_ok _ hl3, Option.bind_some]
      obtain ⟨m', e, g1, g2, g3⟩ := mapLoop_ok op s1 s2 s3 f (Function.update m s3 ((m s3).set i (op (m s1)[i] (m s2)[i]))) (i + 1)
        (by rw [upd_len, upd_len]; omega) (by rw [upd_len, upd_len]; omega) (by rw [upd_len]; omega) (by rw [upd_len]; omega)
      refine ⟨m', e, fun d hd => (g1 d hd).trans (Function.update_of_ne hd ..), g2.trans (upd_len ..), fun k => ?_⟩
      rw [g3]
      dsimp only
      rw [upd_len, upd_get _ _ _ _ hl3, upd_get _ _ _ _ hl3, upd_get _ _ _ _ hl3]
      by_cases hk : k = i
      · subst hk
        rw [if_neg (by omega), if_pos ⟨rfl, rfl⟩, if_pos (by omega), List.getElem?_eq_getElem hl, Option.bind_some, List.getElem?_eq_getElem hl2]
        rfl
      · rw [if_neg (show ¬ (s1 = s3 ∧ k = i) by omega), if_neg (show ¬ (s2 = s3 ∧ k = i) by omega), if_neg (show ¬ (s3 = s3 ∧ k = i) by omega)]
        by_cases hk2 : i + 1 ≤ k ∧ k < (m s1).length
        · rw [if_pos hk2, if_pos (by omega)]
        · rw [if_neg hk2, if_neg (by omega)]
    · rw [if_neg hl]
      exact ⟨m, rfl, fun _ _ => rfl, rfl, fun k => by dsimp only; rw [if_neg (by omega)]⟩

theorem map_elem {m m' : Mem w} {s1 s2 s3 : Nat} {op : BitVec w → BitVec w → BitVec w} {P : Bool → Bool → Bool} (hw : 0 < w) (h2 : (m s1).length ≤ (m s2).length)
    (hat : At m m' s3 fun k => if 0 ≤ k ∧ k < (m s1).length then (m s1)[k]?.bind fun x => (m s2)[k]?.map fun y => op x y else (m s3)[k]?)
    (hop : ∀ x y b, b < w → (op x y).getLsbD b = P (x.getLsbD b) (y.getLsbD b)) {z : Nat} (hz : Room w (m s1).length z) :
    ∃ p q, (p = true ↔ Elem (m s1) z) ∧ (q = true ↔ Elem (m s2) z) ∧ (Elem (m' s3) z ↔ P p q = true) := by
  have l1 : z / w < (m s1).length := (Nat.div_lt_iff_lt_mul hw).2 hz
  have l2 : z / w < (m s2).length := by omega
  refine ⟨_, _, (in_word (List.getElem?_eq_getElem l1) rfl).symm, (in_word (List.getElem?_eq_getElem l2) rfl).symm, ?_⟩
  have e := hat.2.2 (z / w)
  dsimp only at e
  rw [if_pos ⟨Nat.zero_le _, l1⟩, List.getElem?_eq_getElem l1, Option.bind_some, List.getElem?_eq_getElem l2, Option.map_some] at e
  rw [in_word e rfl, hop _ _ _ (Nat.mod_lt _ hw)]

/-- **C86 (operations).**  `Unite`, `Differ` and `Intersect` form the union, the difference and the intersection of the sets as they were before the call; also when
some of the parameters are the same array.  Nothing else changes.  The other arrays must not be shorter than the first one; what the array of the result
has beyond the length of the first one stays. -/
theorem C86_operations (m : Mem w) (hw : 0 < w) {s1 s2 : Nat} (hl : (m s1).length ≤ (m s2).length) :
    (∃ m', unite m s1 s2 = some m' ∧ (∀ d, d ≠ s1 → m' d = m d) ∧ (m' s1).length = (m s1).length ∧
      ∀ x, Elem (m' s1) x ↔ Elem (m s1) x ∨ (Elem (m s2) x ∧ Room w (m s1).length x)) ∧
    (∃ m', differ m s1 s2 = some m' ∧ (∀ d, d ≠ s1 → m' d = m d) ∧ (m' s1).length = (m s1).length ∧
      ∀ x, Elem (m' s1) x ↔ Elem (m s1) x ∧ ¬ Elem (m s2) x) ∧
    ∀ s3, (m s1).length ≤ (m s3).length → ∃ m', intersect m s1 s2 s3 = some m' ∧ (∀ d, d ≠ s3 → m' d = m d) ∧ (m' s3).length = (m s3).length ∧
      ∀ x, (Room w (m s1).length x → (Elem (m' s3) x ↔ Elem (m s1) x ∧ Elem (m s2) x)) ∧ (¬ Room w (m s1).length x → (Elem (m' s3) x ↔ Elem (m s3) x)) := by
  refine ⟨?_, ?_, fun s3 h3 => ?_⟩
  · obtain ⟨m', e, hat⟩ := mapLoop_ok (fun x y : BitVec w => x ||| y) s1 s2 s1 ((m s1).length + 1) m 0 hl (le_refl _) (by omega) (by omega)
    refine ⟨m', e, hat.1, hat.2.1, fun x => ?_⟩
    by_cases hr : Room w (m s1).length x
    · obtain ⟨p, q, h1, h2, h3⟩ := map_elem (P := fun p q => p || q) hw hl hat (fun x y b _ => by rw [BitVec.getLsbD_or]) hr
      rw [h3, Bool.or_eq_true, h1, h2]
      exact ⟨fun h => h.imp id fun h => ⟨h, hr⟩, fun h => h.imp id And.left⟩
    · exact ⟨fun h => absurd (hat.2.1 ▸ elem_room h) hr, fun h => h.elim (fun h => absurd (elem_room h) hr) fun h => absurd h.2 hr⟩
  · obtain ⟨m', e, hat⟩ := mapLoop_ok (fun x y : BitVec w => x &&& ~~~y) s1 s2 s1 ((m s1).length + 1) m 0 hl (le_refl _) (by omega) (by omega)
    refine ⟨m', e, hat.1, hat.2.1, fun x => ?_⟩
    by_cases hr : Room w (m s1).length x
    · obtain ⟨p, q, h1, h2, h3⟩ := map_elem (P := fun p q => p && !q) hw hl hat
        (fun x y b hb => by rw [BitVec.getLsbD_and, BitVec.getLsbD_not]; simp [hb]) hr
      rw [h3, Bool.and_eq_true, Bool.not_eq_true', h1, ← h2, Bool.not_eq_true]
    · exact ⟨fun h => absurd (hat.2.1 ▸ elem_room h) hr, fun h => absurd (elem_room h.1) hr⟩
  · obtain ⟨m', e, hat⟩ := mapLoop_ok (fun x y : BitVec w => x &&& y) s1 s2 s3 ((m s1).length + 1) m 0 hl h3 (by omega) (by omega)
    refine ⟨m', e, hat.1, hat.2.1, fun x => ?_⟩
    constructor <;> intro hr
    · obtain ⟨p, q, h1, h2, h3⟩ := map_elem (P := fun p q => p && q) hw hl hat (fun x y b _ => by rw [BitVec.getLsbD_and]) hr
      rw [h3, Bool.and_eq_true, h1, h2]
    · have hx : ¬ x / w < (m s1).length := fun h => hr ((Nat.div_lt_iff_lt_mul hw).1 h)
      unfold Elem
      rw [hat.2.2]
      dsimp only
      rw [if_neg (fun h => hx h.2)]

example : ∃ m : Mem 32, (intersect m 0 1 0).map (fun m' => m' 0) = some [8#32, 1#32] := ⟨fun a => if a = 0 then [12#32, 3#32] else [9#32, 1#32], by decide⟩
example : Elem [12#32, 3#32] 33 ∧ ¬ Elem [12#32, 3#32] 34 := by
  refine ⟨⟨3#32, rfl, by decide⟩, ?_⟩
  rintro ⟨v, h, h2⟩
  cases h
  revert h2
  decide

theorem elemLoop_ok (m : Mem w) (s : Nat) (hw : 0 < w) : ∀ f i (xs : List Nat) (last : Int), (m s).length * w + 1 ≤ f + i → i ≤ (m s).length * w →
    xs.Pairwise (· < ·) → (∀ x, x ∈ xs ↔ x < i ∧ Elem (m s) x) → ∃ ys, Lists (m s) ys ∧
    elemLoop m s ((m s).length * w : Nat) f i xs.length ((xs.getLast?.map fun x : Nat => (x : Int)).getD last) =
      some (ys.length, (ys.getLast?.map fun x : Nat => (x : Int)).getD last)
  | 0, i, xs, last, h, hi, _, _ => by omega
  | f + 1, i, xs, last, h, hi, hs, hx => by
    rw [elemLoop]
    by_cases hl : i < (m s).length * w
    · have l1 : i / w < (m s).length := (Nat.div_lt_iff_lt_mul hw).2 hl
      have hin := in_word (List.getElem?_eq_getElem l1) (rfl : i / w = i / w)
      rw [if_pos (by omega), List.getElem?_eq_getElem l1, Option.bind_some]
      by_cases hb : ((m s)[i / w]).getLsbD (i % w) = true
      · rw [if_pos hb]
        have := elemLoop_ok m s hw f (i + 1) (xs ++ [i]) last (by omega) (by omega)
          (List.pairwise_append.2 ⟨hs, List.pairwise_singleton .., fun a ha b hb => by simp at hb; subst hb; exact ((hx a).1 ha).1⟩)
          (fun x => by
            rw [List.mem_append, hx, List.mem_singleton]
            constructor
            · rintro (h1 | rfl)
              · exact ⟨by omega, h1.2⟩
              · exact ⟨by omega, hin.2 hb⟩
            · rintro ⟨h1, h2⟩
              by_cases hxi : x = i
              · exact Or.inr hxi
              · exact Or.inl ⟨by omega, h2⟩)
        simpa using this
      · rw [if_neg hb]
        exact elemLoop_ok m s hw f (i + 1) xs last (by omega) (by omega) hs (fun x => by
          rw [hx]
          constructor
          · exact fun h => ⟨by omega, h.2⟩
          · rintro ⟨h1, h2⟩
            by_cases hxi : x = i
            · subst hxi; exact absurd (hin.1 h2) hb
            · exact ⟨by omega, h2⟩)
    · rw [if_neg (by omega)]
      refine ⟨xs, ⟨hs, fun x => (hx x).trans ⟨And.right, fun h => ⟨?_, h⟩⟩⟩, rfl⟩
      have := elem_room h
      unfold Room at this
      omega

/-- **C86 (Elements).**  The number of elements, and the largest one, as long as all numbers there is room for are of type INTEGER. -/
theorem C86_elements_partial (m : Mem w) (s : Nat) (hw : 0 < w) (hl : (m s).length * w ≤ 32767) (last : Int) : ∃ xs, Lists (m s) xs ∧
    elements m s last = some (xs.length, (xs.getLast?.map fun x : Nat => (x : Int)).getD last) := by
  obtain ⟨xs, h1, h2⟩ := elemLoop_ok m s hw ((m s).length * w + 1) 0 [] last (by omega) (by omega) List.Pairwise.nil (by simp)
  refine ⟨xs, h1, ?_⟩
  unfold elements
  have hc : (((m s).length : Int) * (w : Int)) = (((m s).length * w : Nat) : Int) := by rw [Int.natCast_mul]
  have e : int16 ((m s).length * w) = ((m s).length * w : Nat) := by
    unfold int16
    rw [hc]
    generalize (m s).length * w = q at *
    omega
  rw [e]
  exact h2

/-- **C86 (deviation).**  In an array of 1024 sets with 32 bits each there is room for exactly the numbers from 0 to MAX(INTEGER).  `Elements` always
finds none in it: its limit, 32768, is not an INTEGER. -/
theorem C86_many (m : Mem 32) (s : Nat) (hl : (m s).length = 1024) (last : Int) : elements m s last = some (0, last) := by
  unfold elements
  rw [hl]
  rfl

example : ∃ m : Mem 32, elements m 0 7 = some (4, 33) := ⟨fun _ => [12#32, 3#32], by decide +kernel⟩

end Verif.BitSets
