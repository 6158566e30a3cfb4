import Verif.OocStr.Lemmas

/-! Lemmas for C84: comparison and search. -/
namespace Verif.OocStr
open Verif.Str

/-- The character at a position of the string, or the terminator. -/
theorem get_str {a : List Nat} (ha : 0 ∈ a) {i : Nat} (h : i ≤ (str a).length) : a[i]? = some ((str a).getD i 0) := by
  have he := (ends_iff a).1 ha
  by_cases hi : i < (str a).length
  · rw [str_get a hi, List.getElem?_eq_getElem hi]
    simp [hi]
  · have : i = (str a).length := by omega
    subst this
    rw [str_end a he]
    simp

theorem getD_ne {a : List Nat} {i : Nat} : (str a).getD i 0 ≠ 0 ↔ i < (str a).length := by
  constructor
  · intro h
    by_contra hc
    exact h (by rw [List.getD_eq_getElem?_getD, List.getElem?_eq_none (by omega)]; rfl)
  · intro h
    rw [List.getD_eq_getElem?_getD, List.getElem?_eq_getElem h]
    exact str_ne h

/-! ### Comparison -/

theorem diffLoop_ok {a b : List Nat} (ha : 0 ∈ a) (hb : 0 ∈ b) : ∀ (f i : Nat), i ≤ (str a).length → i ≤ (str b).length → (str a).length < i + f →
    (str a).take i = (str b).take i →
    ∃ j, diffLoop a b f i = some j ∧ j ≤ (str a).length ∧ j ≤ (str b).length ∧ (str a).take j = (str b).take j ∧
      ((str a).getD j 0 ≠ (str b).getD j 0 ∨ (str a).length = j)
  | 0, i, h1, h2, h3, h4 => by omega
  | f + 1, i, h1, h2, h3, h4 => by
    simp only [diffLoop]
    rw [get_str ha h1, Option.bind_some]
    by_cases h0 : (str a).getD i 0 ≠ 0
    · rw [if_pos h0, get_str hb h2, Option.bind_some]
      by_cases he : (str a).getD i 0 = (str b).getD i 0
      · rw [if_pos he]
        have hi := getD_ne.1 h0
        have hj := getD_ne.1 (he ▸ h0)
        refine diffLoop_ok ha hb f (i + 1) hi hj (by omega) ?_
        rw [List.take_add_one, List.take_add_one, h4, List.getElem?_eq_getElem hi, List.getElem?_eq_getElem hj]
        rw [List.getD_eq_getElem?_getD, List.getD_eq_getElem?_getD, List.getElem?_eq_getElem hi, List.getElem?_eq_getElem hj] at he
        rw [Option.getD_some, Option.getD_some] at he
        rw [he]
      · rw [if_neg he]
        exact ⟨i, rfl, h1, h2, h4, Or.inl he⟩
    · rw [if_neg h0]
      refine ⟨i, rfl, h1, h2, h4, Or.inr ?_⟩
      by_contra hc
      exact h0 (getD_ne.2 (by omega))

theorem lt_append {p r t : List Nat} : p ++ r < p ++ t ↔ r < t := by
  induction p with
  | nil => rfl
  | cons x p ih => rw [List.cons_append, List.cons_append, List.cons_lt_cons_iff]; simp [ih]

/-- The rest of the strings from a position decides. -/
theorem order_of {s t : List Nat} {j : Nat} (hs : 0 ∉ s) (ht : 0 ∉ t) (h1 : j ≤ s.length) (h2 : j ≤ t.length) (h : s.take j = t.take j) :
    (s.getD j 0 < t.getD j 0 → s < t) ∧ (t.getD j 0 < s.getD j 0 → t < s) ∧
    (s.getD j 0 = t.getD j 0 → s.length = j → s = t) := by
  have es := List.take_append_drop j s
  have et := List.take_append_drop j t
  have e1 : ∀ l : List Nat, l.getD j 0 = (l.drop j).getD 0 0 := by
    intro l
    rw [List.getD_eq_getElem?_getD, List.getD_eq_getElem?_getD, List.getElem?_drop, Nat.add_zero]
  rw [e1 s, e1 t]
  have hs' : 0 ∉ s.drop j := fun h => hs (List.mem_of_mem_drop h)
  have ht' : 0 ∉ t.drop j := fun h => ht (List.mem_of_mem_drop h)
  have hd : ∀ {a b : List Nat}, a.getD 0 0 < b.getD 0 0 → a < b := by
    intro a b hlt
    cases b with
    | nil => simp at hlt
    | cons y b =>
      cases a with
      | nil => exact List.nil_lt_cons _ _
      | cons x a => rw [List.cons_lt_cons_iff]; left; simpa using hlt
  refine ⟨fun hlt => ?_, fun hlt => ?_, fun e l => ?_⟩
  · rw [← es, ← et, h, lt_append]
    exact hd hlt
  · rw [← es, ← et, h, lt_append]
    exact hd hlt
  · have h0 : s.drop j = [] := List.drop_eq_nil_of_le (by omega)
    rw [← es, ← et, h]
    congr 1
    rw [h0] at e ⊢
    cases hr : t.drop j with
    | nil => rfl
    | cons y r2 =>
      rw [hr] at e ht'
      simp at e
      subst e
      exact absurd List.mem_cons_self ht'

/-! ### Search -/

theorem pre_iff (pat s : List Nat) (i : Nat) : pat <+: s.drop i ↔ ∀ k, k < pat.length → s[i + k]? = pat[k]? := by
  rw [prefix_iff]
  simp only [List.getElem?_drop]

theorem pre_len {pat s : List Nat} {i : Nat} (hi : i ≤ s.length) (h : pat <+: s.drop i) : i + pat.length ≤ s.length := by
  have := h.length_le
  rw [List.length_drop] at this
  omega

theorem getD_some {s : List Nat} {i : Nat} (h : i < s.length) : s[i]? = some (s.getD i 0) := by
  rw [List.getD_eq_getElem?_getD, List.getElem?_eq_getElem h]; rfl

theorem nextLoop_ok {pattern s : List Nat} (hp : 0 ∈ pattern) (hs : 0 ∈ s) (p0 : Nat) : ∀ (f q pp : Nat), p0 ≤ q → q + pp ≤ (str s).length →
    pp ≤ (str pattern).length → ((str s).length - q) * ((str pattern).length + 1) + ((str pattern).length - pp) < f →
    (∀ k, k < pp → (str s)[q + k]? = (str pattern)[k]?) → (∀ j, p0 ≤ j → j < q → ¬ str pattern <+: (str s).drop j) →
    (∃ i, nextLoop pattern s f (q + pp) pp = some (some i) ∧ FirstAt (str pattern) (str s) p0 i ∧ i ≤ (str s).length) ∨
    (nextLoop pattern s f (q + pp) pp = some none ∧ ∀ j, p0 ≤ j → j ≤ (str s).length → ¬ str pattern <+: (str s).drop j)
  | 0, q, pp, _, _, _, h, _, _ => by omega
  | f + 1, q, pp, h0, h1, h2, h3, h4, h5 => by
    simp only [nextLoop]
    rw [get_str hp h2, Option.bind_some]
    by_cases e : (str pattern).getD pp 0 = 0
    · rw [if_pos e]
      have hpp : pp = (str pattern).length := by
        by_contra hc
        exact getD_ne.2 (show pp < (str pattern).length by omega) e
      left
      refine ⟨q, by rw [Nat.add_sub_cancel], ⟨h0, (pre_iff _ _ _).2 (hpp ▸ h4), h5⟩, by omega⟩
    · rw [if_neg e, get_str hs h1, Option.bind_some]
      have hpp := getD_ne.1 e
      by_cases e0 : (str s).getD (q + pp) 0 = 0
      · rw [if_pos e0]
        right
        refine ⟨rfl, fun j hj hjl hc => ?_⟩
        have hq : q + pp = (str s).length := by
          by_contra hc
          exact getD_ne.2 (show q + pp < (str s).length by omega) e0
        by_cases hjq : j < q
        · exact h5 j hj hjq hc
        · have := pre_len hjl hc
          omega
      · rw [if_neg e0]
        have hsp := getD_ne.1 e0
        by_cases ee : (str s).getD (q + pp) 0 = (str pattern).getD pp 0
        · rw [if_pos ee]
          refine nextLoop_ok hp hs p0 f q (pp + 1) h0 (by omega) (by omega) (by omega) (fun k hk => ?_) h5
          by_cases hkp : k = pp
          · subst hkp
            rw [getD_some hsp, getD_some hpp, ee]
          · exact h4 k (by omega)
        · rw [if_neg ee, show q + pp - pp + 1 = q + 1 + 0 by omega]
          refine nextLoop_ok hp hs p0 f (q + 1) 0 (by omega) (by omega) (by omega) ?_ (by omega) (fun j hj hjq => ?_)
          · have e1 : (str s).length - q = ((str s).length - (q + 1)) + 1 := by omega
            rw [e1, Nat.succ_mul] at h3
            omega
          · by_cases hjq' : j < q
            · exact h5 j hj hjq'
            · intro hc
              have : j = q := by omega
              subst this
              have := (pre_iff _ _ _).1 hc pp hpp
              rw [getD_some hsp, getD_some hpp] at this
              exact ee (Option.some.inj this)

theorem prevLoop_ok {pattern s : List Nat} (hp : 0 ∈ pattern) (hs : 0 ∈ s) (p0 : Int) : ∀ (f q pp : Nat), (q : Int) ≤ p0 → q + (str pattern).length ≤ (str s).length →
    pp ≤ (str pattern).length → q * ((str pattern).length + 1) + ((str pattern).length - pp) < f →
    (∀ k, k < pp → (str s)[q + k]? = (str pattern)[k]?) →
    (∀ j : Nat, (j : Int) ≤ p0 → q < j → j + (str pattern).length ≤ (str s).length → ¬ str pattern <+: (str s).drop j) →
    (∃ i, prevLoop pattern s f (q + pp) pp = some (some i) ∧ LastAt (str pattern) (str s) p0 i) ∨
    (prevLoop pattern s f (q + pp) pp = some none ∧ ∀ j : Nat, (j : Int) ≤ p0 → j + (str pattern).length ≤ (str s).length → ¬ str pattern <+: (str s).drop j)
  | 0, q, pp, _, _, _, h, _, _ => by omega
  | f + 1, q, pp, h0, h1, h2, h3, h4, h5 => by
    simp only [prevLoop]
    rw [get_str hp h2, Option.bind_some]
    by_cases e : (str pattern).getD pp 0 = 0
    · rw [if_pos e]
      have hpp : pp = (str pattern).length := by
        by_contra hc
        exact getD_ne.2 (show pp < (str pattern).length by omega) e
      left
      exact ⟨q, by rw [Nat.add_sub_cancel], h0, h1, (pre_iff _ _ _).2 (hpp ▸ h4), h5⟩
    · have hpp := getD_ne.1 e
      rw [if_neg e, get_str hs (by omega), Option.bind_some]
      by_cases ee : (str s).getD (q + pp) 0 ≠ (str pattern).getD pp 0
      · rw [if_pos ee]
        have hno : ¬ str pattern <+: (str s).drop q := by
          intro hc
          have := (pre_iff _ _ _).1 hc pp hpp
          rw [getD_some (by omega), getD_some hpp] at this
          exact ee (Option.some.inj this)
        have hall : ∀ j : Nat, (j : Int) ≤ p0 → q ≤ j → j + (str pattern).length ≤ (str s).length → ¬ str pattern <+: (str s).drop j := by
          intro j hj hq hl
          by_cases hjq : j = q
          · subst hjq; exact hno
          · exact h5 j hj (by omega) hl
        by_cases hq : q + pp > pp
        · rw [if_pos hq, show q + pp - pp - 1 = (q - 1) + 0 by omega]
          refine prevLoop_ok hp hs p0 f (q - 1) 0 (by omega) (by omega) (by omega) ?_ (by omega) (fun j hj hjq => hall j hj (by omega))
          have e1 : q = (q - 1) + 1 := by omega
          rw [e1, Nat.succ_mul] at h3
          omega
        · rw [if_neg hq]
          right
          exact ⟨rfl, fun j hj hl => hall j hj (by omega) hl⟩
      · rw [if_neg ee]
        refine prevLoop_ok hp hs p0 f q (pp + 1) h0 h1 (by omega) (by omega) (fun k hk => ?_) h5
        by_cases hkp : k = pp
        · subst hkp
          rw [getD_some (by omega), getD_some hpp]
          rw [not_not] at ee
          rw [ee]
        · exact h4 k (by omega)

/-! ### Capitalize -/

theorem capLoop_ok : ∀ (f : Nat) (A B r : List Nat), 0 ∉ B → B.length < f →
    capLoop f (A ++ B ++ 0 :: r) A.length = some (A ++ B.map cap ++ 0 :: r)
  | 0, _, _, _, _, h => by omega
  | f + 1, A, [], r, _, _ => by
    simp [capLoop]
  | f + 1, A, c :: B, r, h, hf => by
    simp only [capLoop]
    rw [show (A ++ c :: B ++ 0 :: r)[A.length]? = some c by simp, Option.bind_some]
    have hc : c ≠ 0 := fun h0 => h (h0 ▸ List.mem_cons_self)
    rw [if_pos hc, put_ok _ (by simp), Option.bind_some]
    have e : (A ++ c :: B ++ 0 :: r).set A.length (cap c) = (A ++ [cap c]) ++ B ++ 0 :: r := by simp
    rw [e]
    have := capLoop_ok f (A ++ [cap c]) B r (fun h0 => h (List.mem_cons_of_mem _ h0)) (by simp at hf; omega)
    rw [List.length_append, List.length_singleton] at this
    rw [this]
    simp

end Verif.OocStr
