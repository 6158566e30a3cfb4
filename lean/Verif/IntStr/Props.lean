import Verif.IntStr.Lemmas

/-!
# C85: conversion of whole numbers to strings and back

`0 ∈ a`: the array is terminated.  The index in the code is an INTEGER, therefore strings have at most 32767 characters.
-/
namespace Verif.IntStr
open Verif.Str (str)
open Verif.CStr (Holds)

theorem drop_nil_all {p : Nat → Bool} {l : List Nat} (h : l.dropWhile p = []) : l.takeWhile p = l := by
  have := List.takeWhile_append_dropWhile (p := p) (l := l)
  rw [h, List.append_nil] at this
  exact this

theorem all_drop_nil {l : List Nat} (h : ∀ d ∈ l, Digit d) : l.takeWhile isNumeric = l ∧ l.dropWhile isNumeric = [] := by
  induction l with
  | nil => exact ⟨rfl, rfl⟩
  | cons c l ih =>
    have hc := numeric_iff.2 (h c List.mem_cons_self)
    have := ih (fun d hd => h d (List.mem_cons_of_mem _ hd))
    rw [List.takeWhile_cons_of_pos hc, List.dropWhile_cons_of_pos hc, this.1]
    exact ⟨rfl, this.2⟩

theorem value_nonneg {ds : List Nat} (h : ∀ d ∈ ds, Digit d) : 0 ≤ value ds := val_mono ds (le_refl 0) h

theorem long_iff {p : Bool} {v : Int} (h : 0 ≤ v) : Long (sgn p v) ↔ v ≤ bound p := by
  unfold Long
  cases p <;> simp only [sgn, bound, Bool.false_eq_true, if_false, if_true] <;> omega

theorem whole_of {ws sg ds : List Nat} {p : Bool} (hw : ∀ c ∈ ws, White c) (hsg : (sg = [] ∧ p = true) ∨ (sg = [43] ∧ p = true) ∨ (sg = [45] ∧ p = false))
    (hd : ∀ d ∈ ds, Digit d) (hne : ds ≠ []) : Whole (ws ++ sg ++ ds) (sgn p (value ds)) := by
  refine ⟨ws, sg, ds, rfl, hw, hd, hne, ?_⟩
  rcases hsg with ⟨rfl, rfl⟩ | ⟨rfl, rfl⟩ | ⟨rfl, rfl⟩
  · exact Or.inl ⟨rfl, rfl⟩
  · exact Or.inr (Or.inl ⟨rfl, rfl⟩)
  · exact Or.inr (Or.inr ⟨rfl, rfl⟩)

theorem whole_form {s : List Nat} {v : Int} (h : Whole s v) : ∃ ws sg c l p, s = ws ++ sg ++ c :: l ∧ (∀ x ∈ ws, White x) ∧
    ((sg = [] ∧ p = true) ∨ (sg = [43] ∧ p = true) ∨ (sg = [45] ∧ p = false)) ∧ (∀ d ∈ c :: l, Digit d) ∧ v = sgn p (value (c :: l)) := by
  obtain ⟨ws, sg, ds, e, h1, h2, h3, h4⟩ := h
  cases ds with
  | nil => exact absurd rfl h3
  | cons c l =>
    rcases h4 with ⟨h5, h6⟩ | ⟨h5, h6⟩ | ⟨h5, h6⟩
    · exact ⟨ws, sg, c, l, true, e, h1, Or.inl ⟨h5, rfl⟩, h2, h6⟩
    · exact ⟨ws, sg, c, l, true, e, h1, Or.inr (Or.inl ⟨h5, rfl⟩), h2, h6⟩
    · exact ⟨ws, sg, c, l, false, e, h1, Or.inr (Or.inr ⟨h5, rfl⟩), h2, h6⟩

/-- White space in front is unique. -/
theorem white_unique : ∀ {ws ws' r r' : List Nat}, ws ++ r = ws' ++ r' → (∀ c ∈ ws, White c) → (∀ c ∈ ws', White c) →
    (∀ c, r.head? = some c → ¬ White c) → (∀ c, r'.head? = some c → ¬ White c) → ws = ws' ∧ r = r'
  | [], [], _, _, e, _, _, _, _ => ⟨rfl, e⟩
  | [], c :: ws', r, r', e, _, h, h2, _ => by
    rw [List.nil_append] at e
    subst e
    exact absurd (h c List.mem_cons_self) (h2 c rfl)
  | c :: ws, [], r, r', e, h, _, _, h2 => by
    rw [List.nil_append] at e
    subst e
    exact absurd (h c List.mem_cons_self) (h2 c rfl)
  | c :: ws, c' :: ws', r, r', e, h1, h1', h2, h2' => by
    rw [List.cons_append, List.cons_append, List.cons.injEq] at e
    obtain ⟨rfl, e⟩ := e
    obtain ⟨rfl, rfl⟩ := white_unique e (fun c hc => h1 c (List.mem_cons_of_mem _ hc)) (fun c hc => h1' c (List.mem_cons_of_mem _ hc)) h2 h2'
    exact ⟨rfl, rfl⟩

theorem digit_not {c : Nat} (h : Digit c) : ¬ White c ∧ c ≠ 43 ∧ c ≠ 45 := by
  unfold Digit at h
  unfold White
  omega

theorem sign_head {sg : List Nat} {p : Bool} {c : Nat} {l : List Nat} (hsg : (sg = [] ∧ p = true) ∨ (sg = [43] ∧ p = true) ∨ (sg = [45] ∧ p = false))
    (hc : Digit c) : ∀ x, (sg ++ c :: l).head? = some x → ¬ White x := by
  intro x hx
  rcases hsg with ⟨rfl, rfl⟩ | ⟨rfl, rfl⟩ | ⟨rfl, rfl⟩
  · simp at hx; subst hx; exact (digit_not hc).1
  · simp at hx; subst hx; unfold White; omega
  · simp at hx; subst hx; unfold White; omega

/-- A string that begins as a number has the result of the number. -/
theorem form_unique {s : List Nat} {r : Res} (hf : Form s r) {ws sg : List Nat} {c : Nat} {l : List Nat} {p : Bool} (e : s = ws ++ sg ++ c :: l)
    (hw : ∀ x ∈ ws, White x) (hsg : (sg = [] ∧ p = true) ∨ (sg = [43] ∧ p = true) ∨ (sg = [45] ∧ p = false)) (hc : Digit c) : r = outcome p 0 (c :: l) := by
  rw [List.append_assoc] at e
  cases hf with
  | none h =>
    obtain ⟨ws', r', e', h1, h2⟩ := h
    obtain ⟨_, e3⟩ := white_unique (e'.symm.trans e) h1 hw (fun c hc => (h2 c hc).2.2.2) (sign_head hsg hc)
    rcases hsg with ⟨rfl, rfl⟩ | ⟨rfl, rfl⟩ | ⟨rfl, rfl⟩
    · exact absurd hc (h2 c (by rw [e3]; rfl)).2.2.1
    · exact absurd rfl (h2 43 (by rw [e3]; rfl)).1
    · exact absurd rfl (h2 45 (by rw [e3]; rfl)).2.1
  | sign e' h1 h2 h3 =>
    rename_i ws' c' l'
    have hns : ∀ x, (c' :: l').head? = some x → ¬ White x := by
      intro x hx
      simp at hx; subst hx
      unfold White
      omega
    obtain ⟨_, e3⟩ := white_unique (e'.symm.trans e) h1 hw hns (sign_head hsg hc)
    have := digit_not hc
    rcases hsg with ⟨rfl, rfl⟩ | ⟨rfl, rfl⟩ | ⟨rfl, rfl⟩
    · simp at e3; omega
    · simp at e3; exact absurd hc (h3 c (by rw [e3.2]; rfl))
    · simp at e3; exact absurd hc (h3 c (by rw [e3.2]; rfl))
  | number e' h1 h2 h3 =>
    rename_i ws' sg' c' l' p'
    rw [List.append_assoc] at e'
    obtain ⟨_, e3⟩ := white_unique (e'.symm.trans e) h1 hw (sign_head h2 h3) (sign_head hsg hc)
    have d1 := digit_not hc
    have d2 := digit_not h3
    rcases hsg with ⟨rfl, rfl⟩ | ⟨rfl, rfl⟩ | ⟨rfl, rfl⟩ <;> rcases h2 with ⟨rfl, rfl⟩ | ⟨rfl, rfl⟩ | ⟨rfl, rfl⟩ <;>
      simp at e3 <;> first | omega | (obtain ⟨rfl, rfl⟩ := e3; rfl)

/-- The string of a terminated array. -/
theorem take_len_str (a : List Nat) : a.take (str a).length = str a := Verif.Str.take_str a

theorem strToInt_eq {a : List Nat} {r : Res} {int : Int} (h : formatInt a = some r) : strToInt a int = if r = .allRight then
    (valueLoop (str a) (some .SI) 0 true).map fun v => (v, r) else some (int, r) := by
  unfold strToInt valueInt
  rw [h, Option.bind_some, Option.bind_some]
  by_cases hr : r = .allRight
  · rw [if_pos hr, if_pos hr, if_pos hr, Verif.OocStr.length_eq, Option.bind_some, take_len_str]
  · rw [if_neg hr, if_neg hr]

/-- **C85 (strings to numbers).**  A string is converted exactly if it is a whole number of type LONGINT, perhaps behind white space, and with a sign; the
result is its value.  In all other cases the variable keeps its value. -/
theorem C85_strToInt {a : List Nat} (int : Int) (ha : 0 ∈ a) (hl : (str a).length ≤ 32767) :
    (∀ v, Whole (str a) v → Long v → strToInt a int = some (v, .allRight)) ∧
    ((¬ ∃ v, Whole (str a) v ∧ Long v) → ∃ r, r ≠ .allRight ∧ strToInt a int = some (int, r)) := by
  obtain ⟨r, e, hf⟩ := format_form ha hl
  rw [strToInt_eq e]
  constructor
  · intro v hv hlong
    obtain ⟨ws, sg, c, l, p, es, hw, hsg, hd, rfl⟩ := whole_form hv
    have hb := (long_iff (value_nonneg hd)).1 hlong
    have hr := form_unique hf es hw hsg (hd c List.mem_cons_self)
    obtain ⟨t1, t2⟩ := all_drop_nil hd
    have hr2 : r = .allRight := by
      rw [hr]
      unfold outcome
      rw [t1, t2, val_zero, if_neg (by omega), if_pos rfl]
    rw [if_pos hr2, es, value_form hw hsg hd hb, hr2]
    rfl
  · intro hno
    have hr : r ≠ .allRight := by
      intro hr
      cases hf with
      | none _ => simp at hr
      | sign _ _ _ _ => simp at hr
      | number es hw hsg hc =>
        rename_i ws sg c l p
        unfold outcome at hr
        split at hr
        · simp at hr
        · rename_i hb
          split at hr
          · rename_i hn
            have ht := drop_nil_all hn
            rw [ht, val_zero] at hb
            have hd : ∀ d ∈ c :: l, Digit d := fun d hd => numeric_iff.1 (mem_tw _ (by rw [ht]; exact hd))
            exact hno ⟨_, es ▸ whole_of hw hsg hd (by simp), (long_iff (value_nonneg hd)).2 (by omega)⟩
          · simp at hr
    rw [if_neg hr]
    exact ⟨r, hr, rfl⟩

example : Whole (w! "  -2147483648") (-2147483648) := ⟨w! "  ", w! "-", w! "2147483648", rfl, by unfold White; decide, by unfold Digit; decide, by decide, Or.inr (Or.inr ⟨rfl, by decide⟩)⟩
example : strToInt (w! "  -2147483648" ++ [0]) 5 = some (-2147483648, .allRight) := by decide
example : strToInt (w! "2147483648" ++ [0]) 5 = some (5, .outOfRange) ∧ strToInt (w! "12 " ++ [0]) 5 = some (5, .wrongFormat) ∧
    strToInt (w! "+" ++ [0]) 5 = some (5, .wrongFormat) ∧ strToInt (w! " " ++ [0]) 5 = some (5, .empty) := by decide

/-- **C85 (the reason).**  If a string is a whole number that is not of type LONGINT, the result says so; and if it is empty, or white space.  If the result
says that the format is wrong, the string is not a whole number.  Missing: `C85_not_empty` and `C85_not_a_number`, other strings for which the
result is the same as for these; what the results really say is `C85_results`. -/
theorem C85_reason_partial {a : List Nat} (int : Int) (ha : 0 ∈ a) (hl : (str a).length ≤ 32767) :
    ((∃ v, Whole (str a) v ∧ ¬ Long v) → strToInt a int = some (int, .outOfRange)) ∧
    ((∀ c ∈ str a, White c) → strToInt a int = some (int, .empty)) ∧
    (strToInt a int = some (int, .wrongFormat) → ¬ ∃ v, Whole (str a) v) := by
  obtain ⟨r, e, hf⟩ := format_form ha hl
  rw [strToInt_eq e]
  have over : ∀ v, Whole (str a) v → ¬ Long v → r = .outOfRange := by
    intro v hv hn
    obtain ⟨ws, sg, c, l, p, es, hw, hsg, hd, rfl⟩ := whole_form hv
    rw [long_iff (value_nonneg hd)] at hn
    rw [form_unique hf es hw hsg (hd c List.mem_cons_self)]
    unfold outcome
    rw [(all_drop_nil hd).1, val_zero, if_pos (by omega)]
  refine ⟨?_, ?_, ?_⟩
  · rintro ⟨v, hv, hn⟩
    rw [over v hv hn]
    rfl
  · intro h
    have hr : r = .empty := by
      cases hf with
      | none _ => rfl
      | sign es hw hc hl =>
        rename_i ws c l
        have := h c (by rw [es]; simp)
        unfold White at this
        omega
      | number es hw hsg hc =>
        rename_i ws sg c l p
        exact absurd (h c (by rw [es]; simp)) (digit_not hc).1
    rw [hr]
    rfl
  · rintro hs ⟨v, hv⟩
    by_cases hlong : Long v
    · have := (C85_strToInt int ha hl).1 v hv hlong
      rw [strToInt_eq e] at this
      rw [this] at hs
      simp at hs
    · rw [over v hv hlong] at hs
      simp at hs

/-- **C85 (what the results say).**  Out of range: the string begins with a whole number that is not of type LONGINT.  Empty: there is neither a sign nor a
digit behind the white space. -/
theorem C85_results {a : List Nat} (int : Int) (ha : 0 ∈ a) (hl : (str a).length ≤ 32767) :
    (strToInt a int = some (int, .outOfRange) ↔ ∃ s v, s <+: str a ∧ Whole s v ∧ ¬ Long v) ∧
    (strToInt a int = some (int, .empty) ↔ NoNumber (str a)) := by
  obtain ⟨r, e, hf⟩ := format_form ha hl
  rw [strToInt_eq e]
  have red : ∀ q : Res, q ≠ .allRight → ((if r = .allRight then (valueLoop (str a) (some .SI) 0 true).map fun v => (v, r) else some (int, r)) = some (int, q) ↔ r = q) := by
    intro q hq
    by_cases hr : r = .allRight
    · rw [if_pos hr]
      constructor
      · intro h
        cases hv : valueLoop (str a) (some .SI) 0 true with
        | none => rw [hv] at h; simp at h
        | some v => rw [hv] at h; simp at h; exact h.2
      · intro h; exact absurd (h.symm.trans hr) hq
    · rw [if_neg hr]; simp
  rw [red _ (by decide), red _ (by decide)]
  constructor
  · constructor
    · intro hr
      subst hr
      generalize hq : Res.outOfRange = q at hf
      cases hf with
      | none _ => simp at hq
      | sign _ _ _ _ => simp at hq
      | number es hw hsg hc =>
        rename_i ws sg c l p
        unfold outcome at hq
        by_cases hb : bound p < val 0 ((c :: l).takeWhile isNumeric)
        · have hd : ∀ d ∈ (c :: l).takeWhile isNumeric, Digit d := fun d hd => numeric_iff.1 (mem_tw _ hd)
          refine ⟨ws ++ sg ++ (c :: l).takeWhile isNumeric, _, ?_, whole_of hw hsg hd ?_, ?_⟩
          · rw [es]
            exact (List.prefix_append_right_inj _).2 (List.takeWhile_prefix _)
          · rw [List.takeWhile_cons_of_pos (numeric_iff.2 hc)]; simp
          · rw [long_iff (value_nonneg hd)]
            rw [val_zero] at hb
            omega
        · rw [if_neg hb] at hq
          split at hq <;> simp at hq
    · rintro ⟨s, v, ⟨t, hs⟩, hv, hn⟩
      obtain ⟨ws, sg, c, l, p, es, hw, hsg, hd, rfl⟩ := whole_form hv
      rw [long_iff (value_nonneg hd)] at hn
      have es' : str a = ws ++ sg ++ c :: (l ++ t) := by rw [← hs, es]; simp
      rw [form_unique hf es' hw hsg (hd c List.mem_cons_self)]
      unfold outcome
      obtain ⟨t1, t2⟩ := all_drop_nil hd
      have htw : (c :: (l ++ t)).takeWhile isNumeric = c :: l ++ t.takeWhile isNumeric := by
        rw [← List.cons_append]
        exact List.takeWhile_append_of_pos (fun d hd' => numeric_iff.2 (hd d hd'))
      have hval : val 0 (c :: l ++ t.takeWhile isNumeric) = val (value (c :: l)) (t.takeWhile isNumeric) := by
        unfold val value
        rw [List.foldl_append]
      rw [htw, hval]
      have := val_mono (t.takeWhile isNumeric) (value_nonneg hd) (fun d hd => numeric_iff.1 (mem_tw _ hd))
      rw [if_pos (by omega)]
  · constructor
    · intro hr
      subst hr
      generalize hq : Res.empty = q at hf
      cases hf with
      | none h => exact h
      | sign _ _ _ _ => simp at hq
      | number es hw hsg hc =>
        unfold outcome at hq
        split at hq
        · simp at hq
        · split at hq <;> simp at hq
    · rintro ⟨ws', r', e', h1, h2⟩
      cases hf with
      | none _ => rfl
      | sign es hw hc hl =>
        rename_i ws c l
        have hns : ∀ x, (c :: l).head? = some x → ¬ White x := by
          intro x hx
          simp at hx; subst hx
          unfold White
          omega
        obtain ⟨_, e3⟩ := white_unique (e'.symm.trans es) h1 hw (fun c hc => (h2 c hc).2.2.2) hns
        have := h2 c (by rw [e3]; rfl)
        omega
      | number es hw hsg hc =>
        rename_i ws sg c l p
        rw [List.append_assoc] at es
        obtain ⟨_, e3⟩ := white_unique (e'.symm.trans es) h1 hw (fun c hc => (h2 c hc).2.2.2) (sign_head hsg hc)
        rcases hsg with ⟨rfl, rfl⟩ | ⟨rfl, rfl⟩ | ⟨rfl, rfl⟩
        · exact absurd hc (h2 c (by rw [e3]; rfl)).2.2.1
        · exact absurd rfl (h2 43 (by rw [e3]; rfl)).1
        · exact absurd rfl (h2 45 (by rw [e3]; rfl)).2.1

/-- **C85 (deviation).**  For a string that is not empty, but does not begin with a number, the result says that it is empty. -/
theorem C85_not_empty : strToInt (w! "abc" ++ [0]) 5 = some (5, .empty) := by decide

/-- **C85 (deviation).**  For a string that begins with too large a number the result says that it is a whole number out of range, although it is not a
whole number. -/
theorem C85_not_a_number : strToInt (w! "99999999999 bottles" ++ [0]) 5 = some (5, .outOfRange) ∧ ¬ ∃ v, Whole (w! "99999999999 bottles") v := by
  refine ⟨by decide, ?_⟩
  rintro ⟨v, hv⟩
  have h := C85_strToInt (a := w! "99999999999 bottles" ++ [0]) 5 (by decide) (by decide)
  obtain ⟨ws, sg, ds, e, _, h2, h3, _⟩ := hv
  have hmem : 115 ∈ ds := by
    have hlast : (ws ++ sg ++ ds).getLast? = some 115 := by rw [← e]; rfl
    rw [List.getLast?_append_of_ne_nil _ h3] at hlast
    exact List.mem_of_getLast? hlast
  have := h2 115 hmem
  unfold Digit at this
  omega

/-! ### Numbers to strings -/

theorem decimal_eq (v : Int) : decimal v = Verif.Console.Spec.dec v := rfl

theorem digits_len {x : Nat} (h : x < 2 ^ 32) : ∃ ds, Verif.Console.digits 11 x = some ds ∧ ds.reverse = (Nat.toDigits 10 x).map Char.toNat ∧ ds.length ≤ 10 := by
  have hx : x < 10 ^ 10 := by
    have : (2 : Nat) ^ 32 ≤ 10 ^ 10 := by decide
    omega
  refine ⟨_, Verif.Console.digits_ok 10 x (by have : (10 : Nat) ^ 10 ≤ 10 ^ (10 + 1) := by decide
                                              omega), by simp, ?_⟩
  rw [List.length_reverse, List.length_map]
  exact (Nat.length_toDigits_le_iff (b := 10) (n := x) (k := 10) (by omega) (by omega)).2 hx

theorem digit_chars {x : Nat} : ∀ c ∈ (Nat.toDigits 10 x).map Char.toNat, Digit c := by
  intro c hc
  obtain ⟨d, hd, rfl⟩ := List.mem_map.1 hc
  have := Nat.isDigit_of_mem_toDigits (by omega) (by omega) hd
  simp only [Char.isDigit, Bool.and_eq_true, decide_eq_true_eq] at this
  unfold Digit
  have h1 : '0'.toNat ≤ d.toNat := this.1
  have h2 : d.toNat ≤ '9'.toNat := this.2
  exact ⟨h1, h2⟩

theorem decimal_no0 (v : Int) : 0 ∉ decimal v := by
  intro h
  rw [decimal_eq] at h
  by_cases hv : v < 0
  · rw [Verif.Console.dec_neg hv] at h
    rcases List.mem_cons.1 h with h | h
    · omega
    · have := digit_chars 0 h; unfold Digit at this; omega
  · rw [Verif.Console.dec_nonneg (by omega)] at h
    have := digit_chars 0 h; unfold Digit at this; omega

/-- **C85 (numbers to strings).**  The array gets the decimal representation of the number, cut at its capacity, with a terminator. -/
theorem C85_intToStr {b : List Nat} (hb : b.length = 12) {v : Int} (hv : Long v) {a : List Nat} (ha : a ≠ []) :
    ∃ d, intToStr b v a = some d ∧ d.length = a.length ∧ Holds d ((decimal v).take (a.length - 1)) := by
  have fin : ∀ {b'}, Holds b' (decimal v) → ∃ d, Verif.CStr.copy b' a = some d ∧ d.length = a.length ∧ Holds d ((decimal v).take (a.length - 1)) :=
    fun h => Verif.CStr.C04_copy_holds h ha
  have main : ∀ (b0 : List Nat) (x : Nat) (s : Nat), b0.length = 12 → x < 2 ^ 31 → s ≤ 1 →
      ∃ b', ((digitLoop 12 b0 (x : Int) s).bind fun q => (Verif.OocStr.put q.1 q.2 0).bind fun b => reverse 12 b s (q.2 - 1)) = some b' ∧
        ∃ junk, b' = b0.take s ++ (Nat.toDigits 10 x).map Char.toNat ++ 0 :: junk := by
    intro b0 x s hl hx hs
    obtain ⟨ds, e1, e2, e3⟩ := digits_len (x := x) (by omega)
    have e1' : Verif.Console.digits 12 x = some ds := by
      rw [Verif.Console.digits_ok 11 x (by have : (2 : Nat) ^ 31 ≤ 10 ^ 12 := by decide
                                           omega)]
      rw [← e2, List.reverse_reverse]
    rw [digitLoop_ok 12 b0 x s ds e1' (by omega), Option.bind_some]
    dsimp only
    have hlen : (b0.take s ++ ds).length = s + ds.length := by simp; omega
    rw [Verif.OocStr.put_ok _ (by simp; omega), Option.bind_some]
    have hset : (b0.take s ++ ds ++ b0.drop (s + ds.length)).set (s + ds.length) 0 = b0.take s ++ ds ++ 0 :: b0.drop (s + ds.length + 1) := by
      rw [List.set_append_right _ _ (by omega), hlen, Nat.sub_self, List.drop_eq_getElem_cons (by omega : s + ds.length < b0.length)]
      rfl
    rw [hset]
    have hr := reverse_ok 12 (b0.take s) ds (0 :: b0.drop (s + ds.length + 1)) (by omega)
    rw [List.length_take, show min s b0.length = s by omega] at hr
    rw [hr, e2]
    exact ⟨_, rfl, _, rfl⟩
  unfold Long at hv
  unfold intToStr
  by_cases h0 : v = minLong
  · rw [if_pos h0]
    have : Verif.CStr.moveStr (w! "-2147483648") b = some (w! "-2147483648" ++ [0] ++ b.drop 12) := by
      unfold Verif.CStr.moveStr
      rw [if_pos (by rw [hb]; decide)]
      rfl
    rw [this, Option.bind_some]
    refine fin ⟨decimal_no0 v, b.drop 12, ?_⟩
    rw [h0, show decimal minLong = w! "-2147483648" by decide +kernel]
    simp
  · rw [if_neg h0]
    unfold minLong at h0
    by_cases hn : v < 0
    · rw [if_pos hn, Verif.OocStr.put_ok _ (by omega), Option.bind_some]
      have hlong : long (-v) = some ((v.natAbs : Nat) : Int) := by
        unfold long minLong maxLong
        rw [if_pos (by omega)]
        congr 1
        omega
      rw [hlong, Option.map_some, Option.bind_some]
      dsimp only
      obtain ⟨b', e1, junk, e2⟩ := main (b.set 0 45) v.natAbs 1 (by simpa using hb) (by omega) (by omega)
      have ht : (b.set 0 45).take 1 = [45] := by
        cases b with
        | nil => simp at hb
        | cons x b => rfl
      rw [ht] at e2
      obtain ⟨d, f1, f2, f3⟩ := fin (b' := b') ⟨decimal_no0 v, junk, by rw [e2, decimal_eq, Verif.Console.dec_neg hn]; rfl⟩
      refine ⟨d, ?_, f2, f3⟩
      cases hq : digitLoop 12 (b.set 0 45) (v.natAbs : Int) 1 with
      | none => rw [hq] at e1; simp at e1
      | some q =>
        rw [hq, Option.bind_some] at e1
        rw [Option.bind_some]
        cases hp : Verif.OocStr.put q.1 q.2 0 with
        | none => rw [hp] at e1; simp at e1
        | some b2 =>
          rw [hp, Option.bind_some] at e1
          rw [Option.bind_some, e1, Option.bind_some, f1]
    · rw [if_neg hn, Option.bind_some]
      dsimp only
      have hvn : v = ((v.natAbs : Nat) : Int) := by omega
      obtain ⟨b', e1, junk, e2⟩ := main b v.natAbs 0 hb (by omega) (by omega)
      rw [List.take_zero, List.nil_append] at e2
      obtain ⟨d, f1, f2, f3⟩ := fin (b' := b') ⟨decimal_no0 v, junk, by rw [e2, decimal_eq, Verif.Console.dec_nonneg (by omega)]⟩
      refine ⟨d, ?_, f2, f3⟩
      rw [hvn]
      cases hq : digitLoop 12 b (v.natAbs : Int) 0 with
      | none => rw [hq] at e1; simp at e1
      | some q =>
        rw [hq, Option.bind_some] at e1
        rw [Option.bind_some]
        cases hp : Verif.OocStr.put q.1 q.2 0 with
        | none => rw [hp] at e1; simp at e1
        | some b2 =>
          rw [hp, Option.bind_some] at e1
          rw [Option.bind_some, e1, Option.bind_some, f1]

example : intToStr (List.replicate 12 7) (-120) (List.replicate 8 9) = some (w! "-120" ++ [0, 9, 9, 9]) := by decide +kernel
example : intToStr (List.replicate 12 7) (-2147483648) (List.replicate 12 9) = some (w! "-2147483648" ++ [0]) := by decide +kernel
example : intToStr (List.replicate 12 7) 123456 (List.replicate 4 9) = some (w! "123" ++ [0]) := by decide +kernel

/-- The decimal representation is a whole number, with its value. -/
theorem decimal_whole (v : Int) : Whole (decimal v) v := by
  have hval : ∀ x : Nat, value ((Nat.toDigits 10 x).map Char.toNat) = x := by
    intro x
    have h1 : ∀ (l : List Char) (m : Nat), (∀ c ∈ l, c.isDigit = true) → val m (l.map Char.toNat) = (Nat.ofDigitChars 10 l m : Nat) := by
      intro l
      induction l with
      | nil => intro m _; simp [val, Nat.ofDigitChars]
      | cons c l ih =>
        intro m h
        have hc := h c List.mem_cons_self
        simp only [Char.isDigit, Bool.and_eq_true, decide_eq_true_eq] at hc
        have h48 : '0'.toNat ≤ c.toNat := hc.1
        have h480 : '0'.toNat = 48 := rfl
        have := ih (10 * m + (c.toNat - '0'.toNat)) (fun d hd => h d (List.mem_cons_of_mem _ hd))
        rw [Nat.ofDigitChars_cons, ← this]
        unfold val
        rw [List.map_cons, List.foldl_cons]
        congr 1
        omega
    have h2 := h1 (Nat.toDigits 10 x) 0 (fun c hc => Nat.isDigit_of_mem_toDigits (by omega) (by omega) hc)
    rw [Nat.ofDigitChars_ten_toDigits] at h2
    exact h2
  have hne : ∀ x : Nat, (Nat.toDigits 10 x).map Char.toNat ≠ [] := by
    intro x h
    have := congrArg List.length h
    have hp := Nat.length_toDigits_pos (b := 10) (n := x)
    simp at this
  rw [decimal_eq]
  by_cases hv : v < 0
  · rw [Verif.Console.dec_neg hv]
    refine ⟨[], w! "-", _, rfl, by simp, digit_chars, hne _, Or.inr (Or.inr ⟨rfl, ?_⟩)⟩
    rw [hval]; omega
  · rw [Verif.Console.dec_nonneg (by omega)]
    refine ⟨[], [], _, rfl, by simp, digit_chars, hne _, Or.inl ⟨rfl, ?_⟩⟩
    rw [hval]; omega

theorem decimal_len {v : Int} (hv : Long v) : (decimal v).length ≤ 11 := by
  unfold Long at hv
  obtain ⟨ds, _, e2, e3⟩ := digits_len (x := v.natAbs) (by omega)
  rw [decimal_eq]
  by_cases hn : v < 0
  · rw [Verif.Console.dec_neg hn, ← e2]; simp; omega
  · rw [Verif.Console.dec_nonneg (by omega), ← e2]; simp; omega

/-- **C85 (round trip).**  A number that is converted to a string, in an array with room for it, and back is the same number. -/
theorem C85_round_trip {b : List Nat} (hb : b.length = 12) {v : Int} (hv : Long v) {a : List Nat} (ha : (decimal v).length < a.length)
    (int : Int) :
    ∃ d, intToStr b v a = some d ∧ strToInt d int = some (v, .allRight) := by
  have hl := decimal_len hv
  obtain ⟨d, e1, e2, e3, junk, e4⟩ := C85_intToStr hb hv (a := a) (by rintro rfl; simp at ha)
  rw [List.take_of_length_le (by omega)] at e3 e4
  refine ⟨d, e1, ?_⟩
  have hs : str d = decimal v := by rw [e4]; exact Verif.Str.str_append e3 junk
  exact (C85_strToInt int (by rw [e4]; simp) (by rw [hs]; omega)).1 v (by rw [hs]; exact decimal_whole v) hv

/-- **C85 (length).**  `LengthInt` is the number of characters of the decimal representation. -/
theorem C85_lengthInt {v : Int} (hv : Long v) : lengthInt v = some (decimal v).length := by
  unfold Long at hv
  unfold lengthInt
  by_cases h0 : v = minLong
  · rw [h0]; decide +kernel
  · rw [if_neg h0]
    unfold minLong at h0
    obtain ⟨ds, e1, e2, e3⟩ := digits_len (x := v.natAbs) (by omega)
    have hlen : ((Nat.toDigits 10 v.natAbs).map Char.toNat).length = ds.length := by rw [← e2]; simp
    by_cases hz : v = 0
    · subst hz; decide +kernel
    · by_cases hn : v ≤ 0
      · have hlong : long (-v) = some ((v.natAbs : Nat) : Int) := by
          unfold long minLong maxLong
          rw [if_pos (by omega)]
          congr 1
          omega
        rw [if_pos hn, hlong, Option.bind_some, lengthLoop_ok 11 v.natAbs 1 ds e1 (by omega), decimal_eq, Verif.Console.dec_neg (by omega), List.length_cons, hlen]
        congr 1
        omega
      · have hvn : v = ((v.natAbs : Nat) : Int) := by omega
        rw [if_neg hn, decimal_eq, Verif.Console.dec_nonneg (by omega), hlen]
        rw [hvn, lengthLoop_ok 11 v.natAbs 0 ds e1 (by omega)]
        simp

example : lengthInt (-2147483648) = some 11 ∧ lengthInt 0 = some 1 ∧ lengthInt 1000 = some 4 := by decide

end Verif.IntStr
