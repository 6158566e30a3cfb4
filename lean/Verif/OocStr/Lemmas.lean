import Verif.Common
import Verif.Str.Lemmas
import Verif.OocStr.Model
import Verif.OocStr.Spec

/-! Lemmas for C84. -/
namespace Verif.OocStr
open Verif.Str

theorem length_eq (s : List Nat) : length s = some (str s).length := by
  unfold length
  have := str_le s
  exact lengthLoop_ok s _ 0 (by omega) (by omega)

theorem put_ok {a : List Nat} {i : Nat} (c : Nat) (h : i < a.length) : put a i c = some (a.set i c) := if_pos h

theorem ends_iff (a : List Nat) : 0 ∈ a ↔ (str a).length < a.length := by
  rcases str_cases a with ⟨h1, h2⟩ | ⟨r, h⟩
  · constructor
    · exact fun h => absurd h h2
    · intro h; rw [← h1] at h; omega
  · constructor
    · intro _
      have := congrArg List.length h
      simp only [List.length_append, List.length_cons] at this
      omega
    · intro _; rw [h]; simp

theorem str_ne {a : List Nat} {i : Nat} (h : i < (str a).length) : (str a)[i] ≠ 0 := fun h0 => str_nz a (h0 ▸ List.getElem_mem h)

/-- The result from its elements. -/
theorem assigned_of {a t d : List Nat} (ha : a ≠ []) (ht : 0 ∉ t) (hl : d.length = a.length)
    (h1 : ∀ k, k < min t.length (a.length - 1) → d[k]? = t[k]?) (h2 : d[min t.length (a.length - 1)]? = some 0) : Assigned a t d := by
  have hp : 0 < a.length := List.length_pos_iff.2 ha
  refine ⟨hl, ?_, ?_⟩
  · exact List.mem_of_getElem? h2
  · refine str_of (fun h => ht (List.mem_of_mem_take h)) (by simp; omega) ?_ ?_
    · intro i hi
      simp only [List.length_take] at hi
      rw [h1 i (by omega), List.getElem?_take_of_lt (by omega)]
    · intro _
      rw [List.length_take, Nat.min_comm]
      exact h2

theorem assignLoop_ok {source : List Nat} (hs : 0 ∈ source) : ∀ (f : Nat) (D : List Nat) (i : Nat),
    i < D.length → i ≤ (str source).length → D.length ≤ i + f →
    ∃ D', assignLoop source f D i = some (D', min (str source).length (D.length - 1)) ∧ D'.length = D.length ∧
      ∀ k, D'[k]? = if i ≤ k ∧ k < min (str source).length (D.length - 1) then (str source)[k]? else
        if k = min (str source).length (D.length - 1) then source[k]? else D[k]?
  | 0, D, i, h1, h2, h3 => by omega
  | f + 1, D, i, h1, h2, h3 => by
    have he := (ends_iff source).1 hs
    simp only [assignLoop]
    rw [List.getElem?_eq_getElem (by omega), Option.bind_some, put_ok _ h1, Option.bind_some]
    by_cases hi : i < (str source).length
    · have hc : source[i]'(by omega) = (str source)[i] := by
        have := str_get source hi
        rw [List.getElem?_eq_getElem (by omega), List.getElem?_eq_getElem hi] at this
        exact Option.some.inj this
      by_cases hl : i + 1 = D.length
      · rw [if_pos (Or.inr (by simpa using hl))]
        have hm : min (str source).length (D.length - 1) = i := by omega
        rw [hm]
        refine ⟨_, rfl, by simp, fun k => ?_⟩
        rw [List.getElem?_set]
        by_cases hk : i = k
        · subst hk
          rw [if_pos rfl, if_pos h1, if_neg (by omega), if_pos rfl, List.getElem?_eq_getElem (by omega)]
        · rw [if_neg hk, if_neg (by omega), if_neg (by omega)]
      · rw [if_neg (by simp only [List.length_set, not_or]; exact ⟨by rw [hc]; exact str_ne hi, hl⟩)]
        obtain ⟨D', e1, e2, e3⟩ := assignLoop_ok hs f (D.set i (source[i]'(by omega))) (i + 1) (by simp; omega) (by omega) (by simp; omega)
        simp only [List.length_set] at e1 e2 e3
        refine ⟨D', e1, e2, fun k => ?_⟩
        rw [e3 k, List.getElem?_set]
        by_cases hk : i = k
        · subst hk
          rw [if_neg (by omega), if_neg (by omega), if_pos rfl, if_pos h1, if_pos (by omega), hc, List.getElem?_eq_getElem hi]
        · rw [if_neg hk]
          by_cases hr : i + 1 ≤ k ∧ k < min (str source).length (D.length - 1)
          · rw [if_pos hr, if_pos (by omega)]
          · rw [if_neg hr, if_neg (show ¬ (i ≤ k ∧ k < min (str source).length (D.length - 1)) by omega)]
    · have hi' : i = (str source).length := by omega
      have h0 : source[i]'(by omega) = 0 := by
        have := str_end source he
        rw [← hi', List.getElem?_eq_getElem (by omega)] at this
        exact Option.some.inj this
      rw [if_pos (Or.inl h0)]
      have hm : min (str source).length (D.length - 1) = i := by omega
      rw [hm]
      refine ⟨_, rfl, by simp, fun k => ?_⟩
      rw [List.getElem?_set]
      by_cases hk : i = k
      · subst hk
        rw [if_pos rfl, if_pos h1, if_neg (by omega), if_pos rfl, List.getElem?_eq_getElem (by omega)]
      · rw [if_neg hk, if_neg (by omega), if_neg (by omega)]

theorem extractLoop_ok {source : List Nat} (hs : 0 ∈ source) (sp n : Nat) (hsp : sp ≤ (str source).length) : ∀ (f : Nat) (D : List Nat) (i : Nat),
    n < D.length → i ≤ min n ((str source).length - sp) → n < i + f →
    ∃ D', extractLoop source sp n f D i = some (D', min n ((str source).length - sp)) ∧ D'.length = D.length ∧
      ∀ k, D'[k]? = if i ≤ k ∧ k < min n ((str source).length - sp) then (str source)[sp + k]? else D[k]?
  | 0, D, i, h1, h2, h3 => by omega
  | f + 1, D, i, h1, h2, h3 => by
    have he := (ends_iff source).1 hs
    simp only [extractLoop]
    by_cases hn : i < n
    · rw [if_pos hn, List.getElem?_eq_getElem (by omega), Option.bind_some]
      by_cases hi : sp + i < (str source).length
      · have hc : source[sp + i]'(by omega) = (str source)[sp + i] := by
          have := str_get source hi
          rw [List.getElem?_eq_getElem (by omega), List.getElem?_eq_getElem hi] at this
          exact Option.some.inj this
        rw [if_pos (by rw [hc]; exact str_ne hi), put_ok _ (by omega), Option.bind_some]
        obtain ⟨D', e1, e2, e3⟩ := extractLoop_ok hs sp n hsp f (D.set i (source[sp + i]'(by omega))) (i + 1) (by simp; omega) (by omega) (by omega)
        simp only [List.length_set] at e2
        refine ⟨D', e1, e2, fun k => ?_⟩
        rw [e3 k, List.getElem?_set]
        by_cases hk : i = k
        · subst hk
          rw [if_neg (by omega), if_pos rfl, if_pos (by omega), if_pos (by omega), hc, List.getElem?_eq_getElem hi]
        · rw [if_neg hk]
          by_cases hr : i + 1 ≤ k ∧ k < min n ((str source).length - sp)
          · rw [if_pos hr, if_pos (by omega)]
          · rw [if_neg hr, if_neg (by omega)]
      · have h0 : source[sp + i]'(by omega) = 0 := by
          have := str_end source he
          have hi' : sp + i = (str source).length := by omega
          rw [← hi', List.getElem?_eq_getElem (by omega)] at this
          exact Option.some.inj this
        rw [if_neg (by simpa using h0)]
        refine ⟨D, ?_, rfl, fun k => by rw [if_neg (by omega)]⟩
        rw [show min n ((str source).length - sp) = i by omega]
    · rw [if_neg hn]
      refine ⟨D, ?_, rfl, fun k => by rw [if_neg (by omega)]⟩
      rw [show min n ((str source).length - sp) = i by omega]

theorem appendLoop_ok {source : List Nat} (hs : 0 ∈ source) : ∀ (f : Nat) (D : List Nat) (j i : Nat),
    j < D.length → i ≤ (str source).length → D.length ≤ j + f →
    ∃ D', appendLoop source f D j i = some (D', j + min ((str source).length - i) (D.length - 1 - j)) ∧ D'.length = D.length ∧
      ∀ k, D'[k]? = if j ≤ k ∧ k < j + min ((str source).length - i) (D.length - 1 - j) then (str source)[k - j + i]? else D[k]?
  | 0, D, j, i, h1, h2, h3 => by omega
  | f + 1, D, j, i, h1, h2, h3 => by
    have he := (ends_iff source).1 hs
    simp only [appendLoop]
    by_cases hn : j + 1 < D.length
    · rw [if_pos hn, List.getElem?_eq_getElem (by omega), Option.bind_some]
      by_cases hi : i < (str source).length
      · have hc : source[i]'(by omega) = (str source)[i] := by
          have := str_get source hi
          rw [List.getElem?_eq_getElem (by omega), List.getElem?_eq_getElem hi] at this
          exact Option.some.inj this
        rw [if_pos (by rw [hc]; exact str_ne hi), put_ok _ (by omega), Option.bind_some]
        obtain ⟨D', e1, e2, e3⟩ := appendLoop_ok hs f (D.set j (source[i]'(by omega))) (j + 1) (i + 1) (by simp; omega) (by omega) (by simp; omega)
        simp only [List.length_set] at e1 e2 e3
        have hm : j + 1 + min ((str source).length - (i + 1)) (D.length - 1 - (j + 1)) = j + min ((str source).length - i) (D.length - 1 - j) := by omega
        rw [hm] at e1 e3
        refine ⟨D', e1, e2, fun k => ?_⟩
        rw [e3 k, List.getElem?_set]
        by_cases hk : j = k
        · subst hk
          rw [if_neg (by omega), if_pos rfl, if_pos (by omega), if_pos (by omega), hc, List.getElem?_eq_getElem (by omega)]
          simp
        · rw [if_neg hk]
          by_cases hr : j + 1 ≤ k ∧ k < j + min ((str source).length - i) (D.length - 1 - j)
          · rw [if_pos hr, if_pos (by omega), show k - (j + 1) + (i + 1) = k - j + i by omega]
          · rw [if_neg hr, if_neg (by omega)]
      · have h0 : source[i]'(by omega) = 0 := by
          have := str_end source he
          have hi' : i = (str source).length := by omega
          rw [← hi', List.getElem?_eq_getElem (by omega)] at this
          exact Option.some.inj this
        rw [if_neg (by simpa using h0)]
        refine ⟨D, ?_, rfl, fun k => by rw [if_neg (by omega)]⟩
        rw [show j + min ((str source).length - i) (D.length - 1 - j) = j by omega]
    · rw [if_neg hn]
      refine ⟨D, ?_, rfl, fun k => by rw [if_neg (by omega)]⟩
      rw [show j + min ((str source).length - i) (D.length - 1 - j) = j by omega]

theorem concatLoop_eq {source : List Nat} (hs : 0 ∈ source) : ∀ (f : Nat) (D : List Nat) (j i : Nat), i ≤ (str source).length →
    concatLoop source f D j i = appendLoop source f D j i
  | 0, D, j, i, _ => rfl
  | f + 1, D, j, i, h => by
    have he := (ends_iff source).1 hs
    simp only [concatLoop, appendLoop]
    rw [List.getElem?_eq_getElem (by omega), Option.bind_some, Option.bind_some]
    by_cases hn : j + 1 < D.length
    · rw [if_pos hn]
      by_cases h0 : source[i]'(by omega) ≠ 0
      · rw [if_pos ⟨h0, hn⟩, if_pos h0, put_ok _ (by omega), Option.bind_some, Option.bind_some]
        refine concatLoop_eq hs f _ _ _ ?_
        by_contra hc
        have hi' : i = (str source).length := by omega
        have := str_end source he
        rw [← hi', List.getElem?_eq_getElem (by omega)] at this
        exact h0 (Option.some.inj this)
      · rw [if_neg h0, if_neg (fun h => h0 h.1)]
    · rw [if_neg hn, if_neg (fun h => hn h.2)]

theorem deleteLoop_ok (d : List Nat) (n last : Nat) (hl : last + n < d.length) : ∀ (f : Nat) (D : List Nat) (sp i : Nat),
    sp ≤ i → i ≤ last + 1 → last + 1 < i + f → D.length = d.length →
    (∀ k, D[k]? = if sp ≤ k ∧ k < i then d[k + n]? else d[k]?) →
    ∃ D', deleteLoop n last f D i = some D' ∧ D'.length = d.length ∧ ∀ k, D'[k]? = if sp ≤ k ∧ k ≤ last then d[k + n]? else d[k]?
  | 0, D, sp, i, _, _, _, _, _ => by omega
  | f + 1, D, sp, i, h0, h1, h2, h3, h4 => by
    simp only [deleteLoop]
    by_cases hi : i ≤ last
    · rw [if_pos hi, h4, if_neg (by omega), List.getElem?_eq_getElem (by omega), Option.bind_some, put_ok _ (by omega), Option.bind_some]
      refine deleteLoop_ok d n last hl f _ sp (i + 1) (by omega) (by omega) (by omega) (by simpa using h3) fun k => ?_
      rw [List.getElem?_set]
      by_cases hk : i = k
      · subst hk
        rw [if_pos rfl, if_pos (by omega), if_pos (by omega), List.getElem?_eq_getElem (by omega)]
      · rw [if_neg hk, h4]
        by_cases hr : sp ≤ k ∧ k < i
        · rw [if_pos hr, if_pos (by omega)]
        · rw [if_neg hr, if_neg (by omega)]
    · rw [if_neg hi]
      refine ⟨D, rfl, h3, fun k => ?_⟩
      rw [h4]
      by_cases hr : sp ≤ k ∧ k < i
      · rw [if_pos hr, if_pos (by omega)]
      · rw [if_neg hr, if_neg (by omega)]

theorem moveTail_ok (d : List Nat) (n1 n2 pos : Nat) (hn1 : n1 + n2 < d.length) : ∀ (k : Nat) (D : List Nat), k ≤ n1 + 1 → (pos ≤ k ∨ k = n1 + 1) →
    D.length = d.length →
    (∀ i, D[i]? = if k + n2 ≤ i ∧ i ≤ n1 + n2 then d[i - n2]? else d[i]?) →
    ∃ D', moveTail n2 pos k D = some D' ∧ D'.length = d.length ∧
      ∀ i, D'[i]? = if pos + n2 ≤ i ∧ i ≤ n1 + n2 then d[i - n2]? else d[i]? := by
  intro k
  induction k with
  | zero =>
    intro D _ hp hl h
    have : pos = 0 := by omega
    subst this
    exact ⟨D, rfl, hl, h⟩
  | succ k ih =>
    intro D hk hp hl h
    simp only [moveTail]
    by_cases hpk : pos ≤ k
    · have hDk : D[k]? = d[k]? := by rw [h k, if_neg (by omega)]
      have hk0 : k < d.length := by omega
      rw [if_pos hpk, hDk, List.getElem?_eq_getElem hk0, Option.bind_some, put_ok _ (by omega), Option.bind_some]
      refine ih _ (by omega) (Or.inl hpk) (by simpa using hl) fun i => ?_
      rw [List.getElem?_set]
      by_cases hik : k + n2 = i
      · rw [if_pos hik, if_pos (by omega), if_pos (by omega), ← hik, Nat.add_sub_cancel, List.getElem?_eq_getElem hk0]
      · rw [if_neg hik, h i]
        by_cases hc : k + 1 + n2 ≤ i ∧ i ≤ n1 + n2
        · rw [if_pos hc, if_pos (by omega)]
        · rw [if_neg hc, if_neg (by omega)]
    · rw [if_neg hpk]
      refine ⟨D, rfl, hl, fun i => ?_⟩
      rw [h i]
      by_cases hc : k + 1 + n2 ≤ i ∧ i ≤ n1 + n2
      · rw [if_pos hc, if_pos (by omega)]
      · rw [if_neg hc, if_neg (by omega)]

theorem copyLoop_ok (source : List Nat) (n pos : Nat) (hn : n ≤ source.length) : ∀ (f : Nat) (D : List Nat) (i : Nat), i ≤ n →
    n < i + f → pos + n ≤ D.length →
    ∃ D', copyLoop source n pos f D i = some D' ∧ D'.length = D.length ∧
      ∀ j, D'[j]? = if pos + i ≤ j ∧ j < pos + n then source[j - pos]? else D[j]?
  | 0, D, i, h1, h2, h3 => by omega
  | f + 1, D, i, h1, h2, h3 => by
    simp only [copyLoop]
    by_cases hc : i < n
    · rw [if_pos hc, List.getElem?_eq_getElem (by omega), Option.bind_some, put_ok _ (by omega), Option.bind_some]
      obtain ⟨D', e1, e2, e3⟩ := copyLoop_ok source n pos hn f (D.set (pos + i) (source[i]'(by omega))) (i + 1) (by omega) (by omega)
        (by simpa using h3)
      refine ⟨D', e1, by simpa using e2, ?_⟩
      intro j
      rw [e3 j, List.getElem?_set]
      by_cases hj : pos + i = j
      · rw [if_neg (by omega), if_pos hj, if_pos (by omega), if_pos (by omega)]
        rw [show j - pos = i by omega, List.getElem?_eq_getElem (by omega)]
      · rw [if_neg hj]
        by_cases hr : pos + (i + 1) ≤ j ∧ j < pos + n
        · rw [if_pos hr, if_pos (by omega)]
        · rw [if_neg hr, if_neg (by omega)]
    · rw [if_neg hc]
      exact ⟨D, rfl, rfl, fun j => by rw [if_neg (by omega)]⟩

theorem replaceLoop_ok {source : List Nat} (hs : 0 ∈ source) (dl : Nat) : ∀ (f : Nat) (D : List Nat) (sp i : Nat),
    sp ≤ dl → dl < D.length → i ≤ (str source).length → dl < sp + f →
    ∃ D', replaceLoop source dl f D sp i = some D' ∧ D'.length = D.length ∧
      ∀ k, D'[k]? = if sp ≤ k ∧ k < dl ∧ k - sp + i < (str source).length then (str source)[k - sp + i]? else D[k]?
  | 0, D, sp, i, h0, h1, h2, h3 => by omega
  | f + 1, D, sp, i, h0, h1, h2, h3 => by
    have he := (ends_iff source).1 hs
    simp only [replaceLoop]
    by_cases hn : sp ≠ dl
    · rw [if_pos hn, List.getElem?_eq_getElem (by omega), Option.bind_some]
      by_cases hi : i < (str source).length
      · have hc : source[i]'(by omega) = (str source)[i] := by
          have := str_get source hi
          rw [List.getElem?_eq_getElem (by omega), List.getElem?_eq_getElem hi] at this
          exact Option.some.inj this
        rw [if_pos (by rw [hc]; exact str_ne hi), put_ok _ (by omega), Option.bind_some]
        obtain ⟨D', e1, e2, e3⟩ := replaceLoop_ok hs dl f (D.set sp (source[i]'(by omega))) (sp + 1) (i + 1) (by omega) (by simp; omega) (by omega)
          (by omega)
        simp only [List.length_set] at e2
        refine ⟨D', e1, e2, fun k => ?_⟩
        rw [e3 k, List.getElem?_set]
        by_cases hk : sp = k
        · subst hk
          rw [if_neg (by omega), if_pos rfl, if_pos (by omega), if_pos (by omega), hc, List.getElem?_eq_getElem (by omega)]
          simp
        · rw [if_neg hk]
          by_cases hr : sp + 1 ≤ k ∧ k < dl ∧ k - (sp + 1) + (i + 1) < (str source).length
          · rw [if_pos hr, if_pos (by omega), show k - (sp + 1) + (i + 1) = k - sp + i by omega]
          · rw [if_neg hr, if_neg (by omega)]
      · have h0 : source[i]'(by omega) = 0 := by
          have := str_end source he
          have hi' : i = (str source).length := by omega
          rw [← hi', List.getElem?_eq_getElem (by omega)] at this
          exact Option.some.inj this
        rw [if_neg (by simpa using h0)]
        exact ⟨D, rfl, rfl, fun k => by rw [if_neg (by omega)]⟩
    · rw [if_neg hn]
      exact ⟨D, rfl, rfl, fun k => by rw [if_neg (by omega)]⟩

end Verif.OocStr
