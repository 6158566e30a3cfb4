import Verif.Common
import Verif.Str.Model
import Verif.Str.Spec

namespace Verif.Str

theorem rd_nat (a : List Nat) {x : Int} {k : Nat} (h : x = k) : rd a x = a[k]? := by
  subst h; simp [rd]

theorem wr_nat (a : List Nat) {x : Int} {k : Nat} (c : Nat) (h : x = k) (hk : k < a.length) : wr a x c = some (a.set k c) := by
  subst h; unfold wr; rw [if_pos ⟨by omega, by omega⟩]; simp

theorem wr_none (a : List Nat) {x : Int} (c : Nat) (h : (a.length : Int) ≤ x) : wr a x c = none := by
  unfold wr; rw [if_neg (by omega)]

/-! ## The string in an array -/

theorem str_append {t : List Nat} (ht : 0 ∉ t) (r : List Nat) : str (t ++ 0 :: r) = t := by
  unfold str
  rw [List.takeWhile_append_of_pos]
  · simp
  · intro x hx; simp; rintro rfl; exact ht hx

theorem str_full {t : List Nat} (ht : 0 ∉ t) : str t = t := by
  unfold str
  have := List.takeWhile_append_of_pos (p := fun x => decide (x ≠ 0)) (l₁ := t) (l₂ := []) (by
    intro x hx; simp; rintro rfl; exact ht hx)
  simpa using this

theorem str_nz (a : List Nat) : 0 ∉ str a := by
  induction a with
  | nil => simp [str]
  | cons c a ih =>
    by_cases hc : c = 0
    · subst hc; simp [str]
    · have h1 : str (c :: a) = c :: str a := by unfold str; rw [List.takeWhile_cons_of_pos (by simp [hc])]
      rw [h1]; simp [ih]; omega

/-- An array is its string, or its string, a terminator and the rest. -/
theorem str_cases (a : List Nat) : (a = str a ∧ 0 ∉ a) ∨ ∃ r, a = str a ++ 0 :: r := by
  induction a with
  | nil => left; simp [str]
  | cons c a ih =>
    by_cases hc : c = 0
    · right; subst hc; exact ⟨a, by simp [str]⟩
    · have h1 : str (c :: a) = c :: str a := by unfold str; rw [List.takeWhile_cons_of_pos (by simp [hc])]
      rcases ih with ⟨h2, h3⟩ | ⟨r, h2⟩
      · left; rw [h1, ← h2]; exact ⟨rfl, by simp [h3]; omega⟩
      · right; refine ⟨r, ?_⟩; rw [h1]; simp; exact h2

theorem str_prefix (a : List Nat) : str a <+: a := List.takeWhile_prefix _

theorem str_le (a : List Nat) : (str a).length ≤ a.length := (str_prefix a).length_le

theorem str_get (a : List Nat) {i : Nat} (h : i < (str a).length) : a[i]? = (str a)[i]? := by
  obtain ⟨r, hr⟩ := str_prefix a
  conv_lhs => rw [← hr]
  rw [List.getElem?_append_left h]

theorem take_str (a : List Nat) : a.take (str a).length = str a := by
  obtain ⟨r, hr⟩ := str_prefix a
  obtain ⟨t, ht⟩ : ∃ t, t = str a := ⟨_, rfl⟩
  rw [← ht] at hr ⊢
  rw [← hr]
  simp

/-- Behind the string there is a terminator if there is room for it. -/
theorem str_end (a : List Nat) (h : (str a).length < a.length) : a[(str a).length]? = some 0 := by
  rcases str_cases a with ⟨h1, _⟩ | ⟨r, h1⟩
  · rw [← h1] at h; omega
  · obtain ⟨t, ht⟩ : ∃ t, t = str a := ⟨_, rfl⟩
    rw [← ht] at h1 ⊢
    rw [h1]
    simp

/-- How to recognize the string in an array. -/
theorem str_of {d t : List Nat} (ht : 0 ∉ t) (hl : t.length ≤ d.length) (h1 : ∀ i, i < t.length → d[i]? = t[i]?)
    (h2 : t.length < d.length → d[t.length]? = some 0) : str d = t := by
  have htake : d.take t.length = t := by
    apply List.ext_getElem?
    intro i
    by_cases hi : i < t.length
    · rw [List.getElem?_take_of_lt hi, h1 i hi]
    · rw [List.getElem?_eq_none (by simp; omega), List.getElem?_eq_none (by omega)]
  by_cases hlt : t.length < d.length
  · have hd : d = t ++ 0 :: d.drop (t.length + 1) := by
      conv_lhs => rw [← List.take_append_drop t.length d, htake]
      congr 1
      rw [List.drop_eq_getElem_cons hlt]
      have := h2 hlt
      rw [List.getElem?_eq_getElem hlt] at this
      simp at this
      rw [this]
    rw [hd]; exact str_append ht _
  · have hd : d = t := by
      rw [← htake, List.take_of_length_le (by omega)]
    rw [hd]; exact str_full ht

/-! ## Length -/

theorem lengthLoop_ok (s : List Nat) : ∀ (f i : Nat), i ≤ (str s).length → (str s).length < i + f →
    lengthLoop s f i = some (str s).length
  | 0, i, h1, h2 => by omega
  | f + 1, i, h1, h2 => by
    simp only [lengthLoop]
    have hle := str_le s
    by_cases hi : i < (str s).length
    · rw [if_pos (by omega), rd_nat s rfl, str_get s hi, List.getElem?_eq_getElem hi, Option.bind_some]
      rw [if_pos]
      · exact lengthLoop_ok s f (i + 1) (by omega) (by omega)
      · intro h0
        exact str_nz s (h0 ▸ List.getElem_mem hi)
    · have hi' : i = (str s).length := by omega
      by_cases hs : i < s.length
      · rw [if_pos hs, rd_nat s rfl, hi', str_end s (by omega)]
        simp
      · rw [if_neg hs, hi']

theorem length_ok (s : List Nat) : length s = some (min (str s).length 32767) := by
  unfold length
  have := str_le s
  rw [lengthLoop_ok s _ 0 (by omega) (by omega), Option.map_some]
  rw [Nat.min_def]

theorem length_short {s : List Nat} (h : (str s).length ≤ 32767) : length s = some (str s).length := by
  rw [length_ok]; congr 1; omega

/-! ## Append -/

theorem appendLoop_ok (extra : List Nat) (n1 n2 : Nat) (hn : n2 ≤ extra.length) : ∀ (f : Nat) (A C : List Nat) (i : Nat),
    A.length = i + n1 → i ≤ n2 → n2 < i + f →
    appendLoop extra n1 n2 f (A ++ C) i =
      some (A ++ ((extra.take n2).drop i).take C.length ++ C.drop (n2 - i), i + min (n2 - i) C.length)
  | 0, A, C, i, h1, h2, h3 => by omega
  | f + 1, A, C, i, h1, h2, h3 => by
    simp only [appendLoop]
    by_cases hc : i < n2 ∧ i + n1 < (A ++ C).length
    · rw [if_pos hc]
      have hi : i < extra.length := by omega
      rw [rd_nat extra rfl, List.getElem?_eq_getElem hi, Option.bind_some]
      rw [wr_nat (k := i + n1) _ _ (by push_cast; rfl) hc.2, Option.bind_some]
      cases C with
      | nil => simp at hc; omega
      | cons c C =>
        have e1 : (A ++ c :: C).set (i + n1) extra[i] = (A ++ [extra[i]]) ++ C := by
          rw [← h1, List.set_append_right _ _ (by omega)]
          simp
        rw [e1, appendLoop_ok extra n1 n2 hn f (A ++ [extra[i]]) C (i + 1) (by simp; omega) (by omega) (by omega)]
        have e2 : (extra.take n2).drop i = extra[i] :: (extra.take n2).drop (i + 1) := by
          rw [List.drop_eq_getElem_cons (by simp; omega)]
          simp
        rw [e2]
        simp only [List.length_cons, List.take_succ_cons, List.append_assoc, List.cons_append, List.nil_append]
        have e3 : n2 - i = (n2 - (i + 1)) + 1 := by omega
        rw [e3, List.drop_succ_cons]
        congr 2
        omega
    · rw [if_neg hc]
      by_cases h4 : i < n2
      · have hC : C = [] := by
          have : ¬ i + n1 < (A ++ C).length := fun h => hc ⟨h4, h⟩
          simp at this
          exact List.length_eq_zero_iff.1 (by omega)
        subst hC
        simp
      · have e0 : n2 - i = 0 := by omega
        rw [e0]
        have e1 : (extra.take n2).drop i = [] := List.drop_eq_nil_of_le (by simp; omega)
        rw [e1]
        simp

theorem append_ok {extra dest : List Nat} (h1 : (str dest).length ≤ 32767) (h2 : (str extra).length ≤ 32767) :
    append extra dest = some (if (str dest).length + (str extra).length < dest.length then
      str dest ++ str extra ++ 0 :: dest.drop ((str dest).length + (str extra).length + 1)
      else (str dest ++ str extra).take dest.length) := by
  unfold append
  rw [length_short h1, length_short h2, Option.bind_some, Option.bind_some]
  have hle := str_le dest
  obtain ⟨C, hC⟩ := str_prefix dest
  have hCl : C.length = dest.length - (str dest).length := by
    have := congrArg List.length hC; simp at this; omega
  have hloop := appendLoop_ok extra (str dest).length (str extra).length (str_le extra) ((str extra).length + 1) (str dest) C 0
    (by simp) (by omega) (by omega)
  rw [hC, take_str] at hloop
  rw [hloop, Option.bind_some]
  simp only [List.drop_zero, Nat.sub_zero, Nat.zero_add]
  have hlen : (str dest ++ (str extra).take C.length ++ C.drop (str extra).length).length = dest.length := by
    simp; omega
  rw [hlen]
  by_cases hf : (str dest).length + (str extra).length < dest.length
  · rw [if_pos hf, if_pos (by omega)]
    have e1 : (str extra).take C.length = str extra := List.take_of_length_le (by omega)
    have e2 : min (str extra).length C.length = (str extra).length := by omega
    rw [e1, e2, wr_nat (k := (str extra).length + (str dest).length) _ _ (by push_cast; rfl) (by simp; omega)]
    congr 1
    have hCd : C.drop (str extra).length = C[(str extra).length]'(by omega) :: C.drop ((str extra).length + 1) :=
      List.drop_eq_getElem_cons (by omega)
    rw [List.set_append_right _ _ (by simp; omega), hCd]
    have e3 : (str extra).length + (str dest).length - (str dest ++ str extra).length = 0 := by simp; omega
    rw [e3, List.set_cons_zero]
    congr 2
    obtain ⟨k, hk⟩ : ∃ k, k = (str dest).length + (str extra).length + 1 := ⟨_, rfl⟩
    rw [← hk]
    conv_rhs => rw [← hC]
    rw [List.drop_append, hk]
    have e4 : (str dest).length + (str extra).length + 1 - (str dest).length = (str extra).length + 1 := by omega
    have e5 : (str dest).drop ((str dest).length + (str extra).length + 1) = [] := List.drop_eq_nil_of_le (by omega)
    rw [e4, e5, List.nil_append]
  · rw [if_neg hf, if_neg (by omega)]
    congr 1
    have e1 : C.drop (str extra).length = [] := List.drop_eq_nil_of_le (by omega)
    rw [e1, List.append_nil, List.take_append, hCl, List.take_of_length_le (l := str dest) (by omega)]

/-! ## Insert -/

theorem makeRoom_ok (d : List Nat) (n1 n2 pos : Nat) (hn1 : n1 ≤ d.length) : ∀ (k : Nat) (D : List Nat), k ≤ n1 + 1 → pos ≤ k →
    D.length = d.length →
    (∀ i, i < d.length → D[i]? = if k + n2 ≤ i ∧ i ≤ n1 + n2 then d[i - n2]? else d[i]?) →
    ∃ D', makeRoom n2 pos k D = some D' ∧ D'.length = d.length ∧
      ∀ i, i < d.length → D'[i]? = if pos + n2 ≤ i ∧ i ≤ n1 + n2 then d[i - n2]? else d[i]? := by
  intro k
  induction k with
  | zero =>
    intro D _ hp hl h
    have : pos = 0 := by omega
    subst this
    exact ⟨D, rfl, hl, h⟩
  | succ k ih =>
    intro D hk hp hl h
    simp only [makeRoom]
    by_cases hpk : pos ≤ k
    · rw [if_pos hpk]
      unfold moveUp
      by_cases hm : k + n2 < D.length
      · rw [if_pos hm, rd_nat D rfl]
        have hk0 : k < d.length := by omega
        have hDk : D[k]? = d[k]? := by
          rw [h k hk0, if_neg (by omega)]
        rw [hDk, List.getElem?_eq_getElem hk0, Option.bind_some, wr_nat (k := k + n2) _ _ (by push_cast; rfl) hm, Option.bind_some]
        apply ih _ (by omega) hpk (by simp [hl])
        intro i hi
        rw [List.getElem?_set]
        by_cases hik : k + n2 = i
        · rw [if_pos hik, if_pos (by omega), if_pos (by omega)]
          rw [← hik, Nat.add_sub_cancel, List.getElem?_eq_getElem hk0]
        · rw [if_neg hik, h i hi]
          by_cases hc : k + 1 + n2 ≤ i ∧ i ≤ n1 + n2
          · rw [if_pos hc, if_pos (by omega)]
          · rw [if_neg hc, if_neg (by omega)]
      · rw [if_neg hm, Option.bind_some]
        apply ih _ (by omega) hpk hl
        intro i hi
        rw [h i hi, if_neg (by omega), if_neg (by omega)]
    · have : pos = k + 1 := by omega
      subst this
      rw [if_neg hpk]
      exact ⟨D, rfl, hl, h⟩

theorem copyIn_ok (source : List Nat) (n2 pos : Nat) (hn : n2 ≤ source.length) : ∀ (f : Nat) (D : List Nat) (i : Nat), i ≤ n2 →
    n2 < i + f → pos + n2 ≤ D.length →
    ∃ D', copyIn source n2 pos f D i = some D' ∧ D'.length = D.length ∧
      ∀ j, D'[j]? = if pos + i ≤ j ∧ j < pos + n2 then source[j - pos]? else D[j]?
  | 0, D, i, h1, h2, h3 => by omega
  | f + 1, D, i, h1, h2, h3 => by
    simp only [copyIn]
    by_cases hc : i < n2
    · rw [if_pos hc, rd_nat source rfl, List.getElem?_eq_getElem (by omega), Option.bind_some,
        wr_nat (k := pos + i) _ _ (by push_cast; rfl) (by omega), Option.bind_some]
      obtain ⟨D', e1, e2, e3⟩ := copyIn_ok source n2 pos hn f (D.set (pos + i) (source[i]'(by omega))) (i + 1) (by omega) (by omega)
        (by simpa using h3)
      refine ⟨D', e1, by simpa using e2, ?_⟩
      intro j
      rw [e3 j, List.getElem?_set]
      by_cases hj : pos + i = j
      · rw [if_neg (by omega), if_pos hj, if_pos (by omega), if_pos (by omega)]
        rw [show j - pos = i by omega, List.getElem?_eq_getElem (by omega)]
      · rw [if_neg hj]
        by_cases hr : pos + (i + 1) ≤ j ∧ j < pos + n2
        · rw [if_pos hr, if_pos (by omega)]
        · rw [if_neg hr, if_neg (by omega)]
    · rw [if_neg hc]
      exact ⟨D, rfl, rfl, fun j => by rw [if_neg (by omega)]⟩

theorem copyIn_none (source : List Nat) (n2 pos : Nat) : ∀ (f : Nat) (D : List Nat) (i : Nat), i ≤ n2 → D.length < pos + n2 →
    pos + i ≤ D.length → copyIn source n2 pos f D i = none
  | 0, D, i, h1, h2, h3 => rfl
  | f + 1, D, i, h1, h2, h3 => by
    simp only [copyIn]
    rw [if_pos (by omega), rd_nat source rfl]
    cases source[i]? with
    | none => rfl
    | some c =>
      rw [Option.bind_some]
      by_cases hi : pos + i < D.length
      · rw [wr_nat (k := pos + i) _ _ (by push_cast; rfl) hi, Option.bind_some]
        exact copyIn_none source n2 pos f _ (i + 1) (by omega) (by simpa using h2) (by simp; omega)
      · rw [wr_none _ _ (by omega)]; rfl

/-- The text inserted. -/
theorem ins_get (t u : List Nat) (pos i : Nat) (hp : pos ≤ t.length) :
    (t.take pos ++ u ++ t.drop pos)[i]? =
      if i < pos then t[i]? else if i < pos + u.length then u[i - pos]? else t[i - u.length]? := by
  by_cases h1 : i < pos
  · rw [if_pos h1, List.append_assoc, List.getElem?_append_left (by simp; omega), List.getElem?_take_of_lt h1]
  · rw [if_neg h1]
    by_cases h2 : i < pos + u.length
    · rw [if_pos h2, List.getElem?_append_left (by simp; omega), List.getElem?_append_right (by simp; omega)]
      congr 1
      simp; omega
    · rw [if_neg h2, List.getElem?_append_right (by simp; omega), List.getElem?_drop]
      congr 1
      simp; omega

/-- Insert when the inserted text fits behind the position. -/
theorem insert_ok {source dest : List Nat} {p : Int} {pos : Nat} (hp : pos = if p < 0 then 0 else p.toNat)
    (h1 : (str dest).length ≤ 32767) (h2 : (str source).length ≤ 32767) (hpos : pos ≤ (str dest).length)
    (hfit : pos + (str source).length ≤ dest.length) :
    ∃ D, insert source p dest = some D ∧ D.length = dest.length ∧
      str D = ((str dest).take pos ++ str source ++ (str dest).drop pos).take dest.length ∧
      ∀ i, (str dest).length + (str source).length < i → D[i]? = dest[i]? := by
  have hle := str_le dest
  have hD1 : ∃ D1, (if pos + (str source).length < dest.length then makeRoom (str source).length pos ((str dest).length + 1) dest
      else some dest) = some D1 ∧ D1.length = dest.length ∧
      ∀ i, i < dest.length → D1[i]? = if pos + (str source).length ≤ i ∧ i ≤ (str dest).length + (str source).length then
        dest[i - (str source).length]? else dest[i]? := by
    by_cases hc : pos + (str source).length < dest.length
    · rw [if_pos hc]
      apply makeRoom_ok dest (str dest).length _ pos hle _ _ (Nat.le_refl _) (by omega) rfl
      intro i _
      rw [if_neg (by omega)]
    · rw [if_neg hc]
      exact ⟨dest, rfl, rfl, fun i hi => by rw [if_neg (by omega)]⟩
  obtain ⟨D1, e1, e2, e3⟩ := hD1
  obtain ⟨D, f1, f2, f3⟩ := copyIn_ok source (str source).length pos (str_le source) ((str source).length + 1) D1 0 (by omega)
    (by omega) (by omega)
  have hget : ∀ i, i < dest.length → D[i]? = if i < pos then dest[i]? else if i < pos + (str source).length then
      (str source)[i - pos]? else if i ≤ (str dest).length + (str source).length then dest[i - (str source).length]? else dest[i]? := by
    intro i hi
    rw [f3 i]
    by_cases c1 : i < pos
    · rw [if_neg (by omega), if_pos c1, e3 i hi, if_neg (by omega)]
    · rw [if_neg c1]
      by_cases c2 : i < pos + (str source).length
      · rw [if_pos (by omega), if_pos c2, str_get source (by omega)]
      · rw [if_neg (by omega), if_neg c2, e3 i hi]
        by_cases c3 : i ≤ (str dest).length + (str source).length
        · rw [if_pos (by omega), if_pos c3]
        · rw [if_neg (by omega), if_neg c3]
  refine ⟨D, ?_, by omega, ?_, ?_⟩
  · unfold insert
    rw [length_short h1, length_short h2, Option.bind_some, Option.bind_some]
    simp only [← hp]
    rw [if_neg (by omega), e1, Option.bind_some, f1]
  · obtain ⟨T, hT⟩ : ∃ T, T = (str dest).take pos ++ str source ++ (str dest).drop pos := ⟨_, rfl⟩
    rw [← hT]
    have hTl : T.length = (str dest).length + (str source).length := by rw [hT]; simp; omega
    have hTg := fun i => ins_get (str dest) (str source) pos i hpos
    rw [← hT] at hTg
    have hT0 : 0 ∉ T := by
      rw [hT]
      simp only [List.mem_append, not_or]
      exact ⟨⟨fun h => str_nz dest (List.mem_of_mem_take h), str_nz source⟩, fun h => str_nz dest (List.mem_of_mem_drop h)⟩
    apply str_of
    · exact fun h => hT0 (List.mem_of_mem_take h)
    · simp; omega
    · intro i hi
      simp at hi
      rw [hget i (by omega), List.getElem?_take_of_lt (by omega), hTg i]
      by_cases c1 : i < pos
      · rw [if_pos c1, if_pos c1, str_get dest (by omega)]
      · rw [if_neg c1, if_neg c1]
        by_cases c2 : i < pos + (str source).length
        · rw [if_pos c2, if_pos c2]
        · rw [if_neg c2, if_neg c2, if_pos (by omega), str_get dest (by omega)]
    · intro hlt
      simp at hlt ⊢
      have hm : min dest.length T.length = T.length := by omega
      rw [hm, hTl, hget _ (by omega), if_neg (by omega), if_neg (by omega), if_pos (by omega), Nat.add_sub_cancel]
      exact str_end dest (by omega)
  · intro i hi
    by_cases hl : i < dest.length
    · rw [hget i hl, if_neg (by omega), if_neg (by omega), if_neg (by omega)]
    · rw [List.getElem?_eq_none (by omega), List.getElem?_eq_none (by omega)]

/-! ## Delete -/

theorem moveDown_ok (len n : Nat) : ∀ (f : Nat) (D : List Nat) (i : Nat), n ≤ i → i ≤ len →
    len < i + f → len ≤ D.length →
    ∃ D', moveDown len n f D i = some (D', (len : Int)) ∧ D'.length = D.length ∧
      ∀ j, D'[j]? = if i ≤ j + n ∧ j + n < len then D[j + n]? else D[j]?
  | 0, D, i, _, h1, h2, _ => by omega
  | f + 1, D, i, h0, h1, h2, h3 => by
    simp only [moveDown]
    by_cases hc : i < len
    · rw [if_pos (by omega), rd_nat D rfl, List.getElem?_eq_getElem (by omega), Option.bind_some,
        wr_nat (k := i - n) _ _ (by omega) (by omega), Option.bind_some]
      obtain ⟨D', e1, e2, e3⟩ := moveDown_ok len n f (D.set (i - n) (D[i]'(by omega))) (i + 1) (by omega) (by omega) (by omega)
        (by simpa using h3)
      refine ⟨D', by push_cast at e1; exact e1, by simpa using e2, ?_⟩
      intro j
      rw [e3 j]
      by_cases hj : i = j + n
      · rw [if_neg (by omega), show i - n = j by omega, List.getElem?_set_self (by omega), if_pos (by omega), ← hj,
          List.getElem?_eq_getElem (by omega)]
      · by_cases hr : i + 1 ≤ j + n ∧ j + n < len
        · rw [if_pos hr, if_pos (by omega), List.getElem?_set_ne (by omega)]
        · rw [if_neg hr, if_neg (by omega), List.getElem?_set_ne (by omega)]
    · rw [if_neg (by omega)]
      have : i = len := by omega
      subst this
      exact ⟨D, rfl, rfl, fun j => by rw [if_neg (by omega)]⟩

theorem deleteAt_ok {s : List Nat} (pos n : Nat) (hpos : pos ≤ (str s).length) (hroom : pos < s.length) :
    ∃ D, deleteAt s (str s).length pos n = some D ∧ D.length = s.length ∧
      str D = (str s).take pos ++ (str s).drop (pos + n) ∧ ∀ i, (str s).length ≤ i → D[i]? = s[i]? := by
  have hle := str_le s
  have hz : 0 ∉ (str s).take pos ++ (str s).drop (pos + n) := by
    simp only [List.mem_append, not_or]
    exact ⟨fun h => str_nz s (List.mem_of_mem_take h), fun h => str_nz s (List.mem_of_mem_drop h)⟩
  unfold deleteAt
  by_cases hc : pos + n < (str s).length
  · rw [if_pos (by omega)]
    obtain ⟨D, e1, e2, e3⟩ := moveDown_ok (str s).length n (((str s).length - ((pos : Int) + n)).toNat + 1) s (pos + n) (by omega)
      (by omega) (by omega) hle
    rw [show ((pos : Int) + n) = ((pos + n : Nat) : Int) by push_cast; rfl] at *
    rw [e1, Option.bind_some]
    simp only []
    have hT : ((str s).take pos ++ (str s).drop (pos + n)).length = (str s).length - n := by simp; omega
    have hget : ∀ i, i < (str s).length - n → D[i]? = ((str s).take pos ++ (str s).drop (pos + n))[i]? := by
      intro i hi
      rw [e3 i]
      by_cases hip : i < pos
      · rw [if_neg (by omega), List.getElem?_append_left (by simp; omega), List.getElem?_take_of_lt hip, str_get s (by omega)]
      · rw [if_pos (by omega), List.getElem?_append_right (by simp; omega), List.getElem?_drop, str_get s (by omega)]
        congr 1
        simp; omega
    by_cases hn : (str s).length - n < s.length
    · rw [if_pos (by omega), wr_nat (k := (str s).length - n) _ _ (by omega) (by omega)]
      refine ⟨_, rfl, by simpa using e2, ?_, ?_⟩
      · apply str_of hz
        · simp; omega
        · intro i hi
          rw [hT] at hi
          rw [List.getElem?_set_ne (by omega), hget i hi]
        · intro _
          rw [hT, List.getElem?_set_self (by omega)]
      · intro i hi
        by_cases hni : (str s).length - n = i
        · have : n = 0 := by omega
          subst this
          have : i = (str s).length := by omega
          subst this
          rw [Nat.sub_zero, List.getElem?_set_self (by omega), str_end s (by omega)]
        · rw [List.getElem?_set_ne hni, e3 i, if_neg (by omega)]
    · rw [if_neg (by omega)]
      refine ⟨D, rfl, e2, ?_, ?_⟩
      · apply str_of hz
        · rw [hT]; omega
        · intro i hi
          rw [hT] at hi
          exact hget i hi
        · intro h; rw [hT] at h; omega
      · intro i hi
        rw [e3 i, if_neg (by omega)]
  · rw [if_neg (by omega), wr_nat (k := pos) _ _ rfl hroom]
    have e0 : (str s).drop (pos + n) = [] := List.drop_eq_nil_of_le (by omega)
    refine ⟨_, rfl, by simp, ?_, ?_⟩
    · rw [e0, List.append_nil]
      apply str_of
      · exact fun h => str_nz s (List.mem_of_mem_take h)
      · simp; omega
      · intro i hi
        simp at hi
        rw [List.getElem?_set_ne (by omega), List.getElem?_take_of_lt (by omega), str_get s (by omega)]
      · intro _
        have : ((str s).take pos).length = pos := by simp; omega
        rw [this, List.getElem?_set_self hroom]
    · intro i hi
      by_cases hni : pos = i
      · have : i = (str s).length := by omega
        subst this
        rw [hni, List.getElem?_set_self (by omega), str_end s (by omega)]
      · rw [List.getElem?_set_ne hni]

theorem delete_ok {s : List Nat} {p n : Int} (hl : (str s).length ≤ 32767) (hn : 0 ≤ n) (hp : p < (str s).length) (h0 : 0 < s.length) :
    ∃ D, delete s p n = some D ∧ D.length = s.length ∧
      str D = (str s).take p.toNat ++ (str s).drop (p.toNat + n.toNat) ∧ ∀ i, (str s).length ≤ i → D[i]? = s[i]? := by
  have hle := str_le s
  unfold delete
  rw [length_short hl, Option.bind_some]
  by_cases hneg : p < 0
  · rw [if_pos hneg]
    have h := deleteAt_ok (s := s) 0 n.toNat (by omega) h0
    have e1 : ((n.toNat : Nat) : Int) = n := by omega
    have e2 : p.toNat = 0 := by omega
    rw [e1] at h
    rw [e2]
    exact h
  · rw [if_neg hneg, if_neg (by omega)]
    have h := deleteAt_ok (s := s) p.toNat n.toNat (by omega) (by omega)
    have e1 : ((n.toNat : Nat) : Int) = n := by omega
    have e2 : ((p.toNat : Nat) : Int) = p := by omega
    rw [e1, e2] at h
    exact h

/-! ## Extract -/

/-- The characters the loop of `Extract` looks at. -/
theorem extractLoop_ok (source : List Nat) (pos n : Nat) (dl : Nat) (hpos : pos ≤ (str source).length)
    (hterm : (str source).length < source.length ∨ pos + n < (str source).length) : ∀ (f : Nat) (D : List Nat) (i : Nat),
    i ≤ min n ((str source).length - pos) → min n ((str source).length - pos) < i + f → dl ≤ D.length →
    ∃ D', extractLoop source pos n dl f D i = some (D', min n ((str source).length - pos)) ∧ D'.length = D.length ∧
      ∀ j, D'[j]? = if i ≤ j ∧ j < min n ((str source).length - pos) ∧ j < dl then (str source)[pos + j]? else D[j]?
  | 0, D, i, h1, h2, _ => by omega
  | f + 1, D, i, h1, h2, h3 => by
    have hle := str_le source
    simp only [extractLoop]
    rw [if_pos (by omega)]
    rw [rd_nat (k := pos + i) source (by push_cast; rfl)]
    by_cases hend : pos + i < (str source).length
    · rw [str_get source hend, List.getElem?_eq_getElem hend, Option.bind_some]
      have hnz : (str source)[pos + i] ≠ 0 := fun h => str_nz source (h ▸ List.getElem_mem hend)
      by_cases hn : i < n
      · rw [if_pos ⟨hnz, by omega⟩]
        by_cases hd : i < dl
        · rw [if_pos (by omega), wr_nat (k := i) _ _ rfl (by omega), Option.bind_some]
          obtain ⟨D', e1, e2, e3⟩ := extractLoop_ok source pos n dl hpos hterm f (D.set i (str source)[pos + i]) (i + 1) (by omega)
            (by omega) (by simpa using h3)
          refine ⟨D', e1, by simpa using e2, ?_⟩
          intro j
          rw [e3 j, List.getElem?_set]
          by_cases hj : i = j
          · rw [if_neg (by omega), if_pos hj, if_pos (by omega), if_pos (by omega), ← hj, List.getElem?_eq_getElem hend]
          · rw [if_neg hj]
            by_cases hr : i + 1 ≤ j ∧ j < min n ((str source).length - pos) ∧ j < dl
            · rw [if_pos hr, if_pos (by omega)]
            · rw [if_neg hr, if_neg (by omega)]
        · rw [if_neg (by omega), Option.bind_some]
          obtain ⟨D', e1, e2, e3⟩ := extractLoop_ok source pos n dl hpos hterm f D (i + 1) (by omega) (by omega) h3
          refine ⟨D', e1, e2, ?_⟩
          intro j
          rw [e3 j, if_neg (by omega), if_neg (by omega)]
      · rw [if_neg (by omega)]
        refine ⟨D, ?_, rfl, fun j => by rw [if_neg (by omega)]⟩
        congr 2
        omega
    · have hpi : pos + i = (str source).length := by omega
      rw [hpi, str_end source (by omega), Option.bind_some, if_neg (by simp)]
      refine ⟨D, ?_, rfl, fun j => by rw [if_neg (by omega)]⟩
      congr 2
      omega

/-! ## Pos -/

theorem prefix_iff (p s : List Nat) : p <+: s ↔ ∀ k, k < p.length → s[k]? = p[k]? := by
  constructor
  · rintro ⟨r, rfl⟩ k hk
    rw [List.getElem?_append_left hk]
  · intro h
    rw [List.prefix_iff_eq_take]
    apply List.ext_getElem?
    intro i
    by_cases hi : i < p.length
    · rw [List.getElem?_take_of_lt hi, h i hi]
    · rw [List.getElem?_eq_none (by omega), List.getElem?_eq_none (by simp; omega)]

theorem posInner_ok (pattern s : List Nat) (i : Nat) (hfit : i + (str pattern).length ≤ (str s).length) : ∀ (f j : Nat),
    j ≤ (str pattern).length → (str pattern).length < j + f → (∀ k, k < j → (str s)[i + k]? = (str pattern)[k]?) →
    ∃ j', posInner pattern s (str pattern).length i f j = some j' ∧
      (j' = (str pattern).length ↔ ∀ k, k < (str pattern).length → (str s)[i + k]? = (str pattern)[k]?)
  | 0, j, h1, h2, _ => by omega
  | f + 1, j, h1, h2, h3 => by
    simp only [posInner]
    by_cases hc : j < (str pattern).length
    · rw [if_pos hc, rd_nat (k := i + j) s (by push_cast; rfl), rd_nat (k := j) pattern rfl, str_get s (by omega), str_get pattern hc,
        List.getElem?_eq_getElem (by omega), List.getElem?_eq_getElem hc, Option.bind_some, Option.bind_some]
      by_cases he : (str s)[i + j]'(by omega) = (str pattern)[j]
      · rw [if_pos he]
        apply posInner_ok pattern s i hfit f (j + 1) (by omega) (by omega)
        intro k hk
        by_cases hkj : k = j
        · subst hkj
          rw [List.getElem?_eq_getElem (by omega), List.getElem?_eq_getElem hc, he]
        · exact h3 k (by omega)
      · rw [if_neg he]
        refine ⟨j, rfl, ?_⟩
        constructor
        · intro h; omega
        · intro h
          have := h j hc
          rw [List.getElem?_eq_getElem (by omega), List.getElem?_eq_getElem hc] at this
          exact absurd (Option.some.inj this) he
    · rw [if_neg hc]
      refine ⟨j, rfl, ?_⟩
      have : j = (str pattern).length := by omega
      subst this
      exact ⟨fun _ => h3, fun _ => rfl⟩

theorem posLoop_ok (pattern s : List Nat) (p : Nat) (hne : 0 < (str pattern).length) : ∀ (f i : Nat), p ≤ i →
    (str s).length < i + f → 0 < f →
    (∀ j, p ≤ j → j < i → ¬ str pattern <+: (str s).drop j) →
    (∃ j : Nat, posLoop pattern s (str s).length (str pattern).length f i = some (j : Int) ∧ FirstAt (str pattern) (str s) p j) ∨
    (posLoop pattern s (str s).length (str pattern).length f i = some (-1) ∧ ∀ j, p ≤ j → ¬ str pattern <+: (str s).drop j)
  | 0, i, _, _, h, _ => by omega
  | f + 1, i, h1, h2, h0, h3 => by
    simp only [posLoop]
    by_cases hc : i + (str pattern).length ≤ (str s).length
    · rw [if_pos (by omega), rd_nat (k := i) s rfl, rd_nat (x := 0) (k := 0) pattern rfl, str_get s (by omega), str_get pattern hne,
        List.getElem?_eq_getElem (by omega), List.getElem?_eq_getElem hne, Option.bind_some, Option.bind_some]
      have hpre : str pattern <+: (str s).drop i ↔ ∀ k, k < (str pattern).length → (str s)[i + k]? = (str pattern)[k]? := by
        rw [prefix_iff]
        simp only [List.getElem?_drop]
      have hnext : ¬ str pattern <+: (str s).drop i → ∀ j, p ≤ j → j < i + 1 → ¬ str pattern <+: (str s).drop j := by
        intro hn j hj1 hj2
        by_cases hji : j = i
        · subst hji; exact hn
        · exact h3 j hj1 (by omega)
      by_cases he : (str s)[i]'(by omega) = (str pattern)[0]
      · rw [if_pos he]
        obtain ⟨j', e1, e2⟩ := posInner_ok pattern s i hc ((str pattern).length + 1) 1 (by omega) (by omega) (by
          intro k hk
          have : k = 0 := by omega
          subst this
          rw [Nat.add_zero, List.getElem?_eq_getElem (by omega), List.getElem?_eq_getElem hne, he])
        rw [e1, Option.bind_some]
        by_cases hj : j' = (str pattern).length
        · rw [if_pos hj]
          left
          exact ⟨i, rfl, h1, hpre.2 (e2.1 hj), h3⟩
        · rw [if_neg hj]
          exact posLoop_ok pattern s p hne f (i + 1) (by omega) (by omega) (by omega) (hnext (fun h => hj (e2.2 (hpre.1 h))))
      · rw [if_neg he]
        refine posLoop_ok pattern s p hne f (i + 1) (by omega) (by omega) (by omega) (hnext (fun h => he ?_))
        have := hpre.1 h 0 hne
        rw [Nat.add_zero, List.getElem?_eq_getElem (by omega), List.getElem?_eq_getElem hne] at this
        exact Option.some.inj this
    · rw [if_neg (by omega)]
      right
      refine ⟨rfl, ?_⟩
      intro j hj
      by_cases hji : j < i
      · exact h3 j hj hji
      · intro h
        have := h.length_le
        simp at this
        omega

/-! ## Cap -/

theorem cap_upper {c : Nat} (h : 97 ≤ c ∧ c ≤ 122) : cap c = upper c := by
  unfold upper
  rw [if_pos h]
  obtain ⟨h1, h2⟩ := h
  interval_cases c <;> rfl

theorem capLoop_ok (t r : List Nat) : ∀ (f : Nat) (A B : List Nat), A.length + B.length ≤ 32767 → 0 ∉ B → B.length < f →
    capLoop f (A ++ B ++ 0 :: r) A.length = some (A ++ B.map upper ++ 0 :: r)
  | 0, A, B, _, _, h => by omega
  | f + 1, A, B, h1, h2, h3 => by
    simp only [capLoop]
    cases B with
    | nil =>
      rw [rd_nat (k := A.length) _ rfl]
      simp
    | cons b B =>
      have hb : b ≠ 0 := by rintro rfl; simp at h2
      rw [rd_nat (k := A.length) _ rfl]
      have e0 : (A ++ b :: B ++ 0 :: r)[A.length]? = some b := by simp
      rw [e0, Option.bind_some, if_pos hb]
      have hupd : (if 97 ≤ b ∧ b ≤ 122 then wr (A ++ b :: B ++ 0 :: r) A.length (cap b) else some (A ++ b :: B ++ 0 :: r)) =
          some ((A ++ [upper b]) ++ B ++ 0 :: r) := by
        by_cases hl : 97 ≤ b ∧ b ≤ 122
        · rw [if_pos hl, wr_nat (k := A.length) _ _ rfl (by simp), cap_upper hl]
          congr 1
          simp
        · rw [if_neg hl]
          have : upper b = b := by unfold upper; rw [if_neg hl]
          rw [this]; simp
      rw [hupd, Option.bind_some]
      simp only [List.length_cons] at h1 h3
      unfold int16
      rw [if_pos (by omega), Option.bind_some]
      have := capLoop_ok t r f (A ++ [upper b]) B (by simp; omega) (by simp at h2; exact h2.2) (by omega)
      simp only [List.length_append, List.length_singleton] at this
      rw [this]
      simp

end Verif.Str
