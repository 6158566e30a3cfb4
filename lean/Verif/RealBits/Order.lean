import Verif.RealBits.Lemmas

/-!
# Lemmas: the numbers next to a number
-/
namespace Verif.RealBits
variable (f : Fmt)



theorem value_build {s k q : Nat} (hs : s < 2) (hk : k < 2 ^ f.w) (h1 : 1 ≤ k) (hq : q < 2 ^ f.m) :
    value f (build f s k q) = (if s = 1 then -1 else 1) * (2 ^ f.m + q) * 2 ^ ((k : Int) - f.bias - f.m) := by
  simp only [value_eq, units_build f hs hk hq, if_neg (show ¬ k = 0 by omega)]
  have e : (2 : ℚ) ^ (k - 1) * unit f = 2 ^ ((k : Int) - f.bias - f.m) := by
    unfold unit
    rw [← zpow_natCast, ← zpow_add₀ (by norm_num)]
    congr 1
    omega
  rw [← e]
  split
  · push_cast; ring
  · push_cast; ring

theorem value_normal {x : Nat} (h : Normal f x) :
    value f x = (if f.sgn x = 1 then -1 else 1) * (2 ^ f.m + f.man x) * 2 ^ ((f.ex x : Int) - f.bias - f.m) := by
  conv_lhs => rw [decomp f h.1.1]
  exact value_build f (sgn_lt f x) (ex_lt f x) (Nat.one_le_iff_ne_zero.mpr h.2) (man_lt f x)

/-- A number other than zero is determined by its value. -/
theorem eq_of_units {y d : Nat} (hy : Fin f y) (hd : Fin f d) (h : f.units y = f.units d) (h0 : f.units d ≠ 0) : y = d := by
  have hc : f.sgn y = f.sgn d ∧ magc f (code f y) = magc f (code f d) := by
    rw [units_code, units_code] at h
    rw [units_code] at h0
    rcases sgn_cases f y with a | a <;> rcases sgn_cases f d with b | b <;> simp only [a, b] at h h0 ⊢ <;> simp at h h0 ⊢ <;>
      omega
  have h1 : code f y = code f d := by
    by_contra hne
    rcases Nat.lt_or_gt_of_ne hne with g | g
    · have := magc_lt f _ _ g; omega
    · have := magc_lt f _ _ g; omega
  have h2 := code_div f y
  have h3 := code_mod f y
  rw [h1, code_div] at h2
  rw [h1, code_mod] at h3
  rw [decomp f hy.1, decomp f hd.1, hc.1, ← h2, ← h3]

theorem exponent_normal {x : Nat} (h : Normal f x) : exponent f x = (f.ex x : Int) - f.bias :=
  exponent_eq f (normal_units f h)

theorem units_neg (x : Nat) : f.units x < 0 ↔ value f x < 0 := by
  rw [value_eq]
  have := unit_pos f
  constructor
  · intro h
    have h' : (f.units x : ℚ) < 0 := by exact_mod_cast h
    exact mul_neg_of_neg_of_pos h' this
  · intro h
    by_contra hn
    have h' : (0 : ℚ) ≤ f.units x := by exact_mod_cast (not_lt.mp hn)
    have := mul_nonneg h' this.le
    linarith

theorem fraction_eq {M : Machine} (hM : M.Ok f) {x : Nat} (h : Fin f x) (h0 : f.units x ≠ 0) :
    fraction f M x = build f (f.sgn x) f.bias (f.man x) := by
  have hb := pow_w f
  have h3 := bias_pos f
  have hs := sgn_lt f x
  have hq := man_lt f x
  have hf (k : Nat) (hk : k < 2 ^ f.w - 1) : Fin f (build f (f.sgn x) k (f.man x)) := by
    refine ⟨build_lt f hs (by omega) hq, ?_⟩
    rw [build_ex f (by omega) hq]; omega
  obtain ⟨t1, t2⟩ := two_value f
  have key := hM.mul (build f (f.sgn x) (f.bias - 1) (f.man x)) (two f) (build f (f.sgn x) f.bias (f.man x))
    (hf _ (by omega)) t1 (hf _ (by omega)) (by
      rw [t2, value_build f hs (by omega) (by omega) hq, value_build f hs (by omega) (by omega) hq]
      have : (2 : ℚ) ^ ((f.bias : Int) - f.bias - f.m) = 2 ^ (((f.bias - 1 : Nat) : Int) - f.bias - f.m) * 2 := by
        rw [← zpow_add_one₀ (by norm_num)]
        congr 1
        omega
      rw [this]; ring)
  unfold fraction
  rw [if_neg h0, eZero_eq, replace f h.1 (by omega)]
  refine eq_of_units f key.1 (hf _ (by omega)) ((value_inj f _ _).mp key.2) ?_
  apply normal_units
  refine ⟨hf _ (by omega), ?_⟩
  rw [build_ex f (by omega) hq]; omega

theorem ulp_units {M : Machine} {x : Nat} (h : Normal f x) (hr : f.m + 1 ≤ f.ex x) :
    Fin f (ulp f M x) ∧ f.units (ulp f M x) = 2 ^ (f.ex x - 1) := by
  have hb := pow_w f
  have he := ex_lt f x
  have hm := f.hm
  unfold ulp Fmt.places
  obtain ⟨g1, g2⟩ := scale_one f (M := M) (n := exponent f x - (f.m + 1) + 1)
    (by rw [exponent_normal f h]; unfold Fmt.expoMin; omega)
    (by rw [exponent_normal f h]; unfold Fmt.expoMax; omega)
  refine ⟨g1, ?_⟩
  rw [g2, exponent_normal f h]
  congr 1
  omega

/-- The step of `succ` and `pred`. -/
theorem step_units {M : Machine} (hM : M.Ok f) {x : Nat} (h : Normal f x) (hr : f.m + 1 ≤ f.ex x) :
    Fin f (M.mul (ulp f M x) (sign f x)) ∧
    value f (M.mul (ulp f M x) (sign f x)) = (if f.sgn x = 1 then - 2 ^ (f.ex x - 1) else 2 ^ (f.ex x - 1)) * unit f := by
  obtain ⟨g1, g2⟩ := ulp_units f (M := M) h hr
  obtain ⟨k1, k2⟩ := mul_sign f hM (x := x) g1
  refine ⟨k1, ?_⟩
  rw [k2, value_eq, g2]
  have hp := normal_pos f h
  have : f.units x < 0 ↔ f.sgn x = 1 := by
    unfold Fmt.units
    split
    · simp [*]
    · simp [*]
  simp only [this]
  split <;> push_cast <;> ring

theorem pos_sgn {x : Nat} (h : 0 < value f x) : f.sgn x = 0 := by
  rcases sgn_cases f x with h1 | h1
  · exact h1
  · exfalso
    have h2 : ¬ f.units x < 0 := fun h2 => by have := (units_neg f x).mp h2; linarith
    unfold Fmt.units at h2
    rw [if_pos h1] at h2
    have h3 : f.units x = 0 := by unfold Fmt.units; rw [if_pos h1]; omega
    rw [value_eq, h3] at h
    simp at h

theorem neg_sgn {x : Nat} (h : value f x < 0) : f.sgn x = 1 := by
  rcases sgn_cases f x with h1 | h1
  · exfalso
    have h2 := (units_neg f x).mpr h
    unfold Fmt.units at h2
    rw [if_neg (by omega)] at h2
    omega
  · exact h1

theorem code_pos {x : Nat} (h : Normal f x) : 0 < code f x := by
  by_contra h0
  have h1 : code f x = 0 := by omega
  have h2 := code_div f x
  rw [h1, Nat.zero_div] at h2
  exact h.2 h2.symm

theorem large_code : code f (large f) = 2 ^ f.m * (2 ^ f.w - 1) - 1 ∧ Fin f (large f) ∧ f.sgn (large f) = 0 := by
  have hb := pow_w f
  have h3 := bias_pos f
  have hp := two_pos f.m
  have e : large f = build f 0 (2 ^ f.w - 2) (2 ^ f.m - 1) := by
    unfold large build
    rw [Nat.shiftLeft_eq, Nat.mul_zero, Nat.zero_add, Nat.mul_comm]
    have : 2 ^ f.w - 1 = 2 ^ f.w - 2 + 1 := by omega
    rw [this, Nat.mul_add]
    omega
  have e1 := build_ex f (s := 0) (e := 2 ^ f.w - 2) (q := 2 ^ f.m - 1) (by omega) (by omega)
  have e2 := build_man f (s := 0) (e := 2 ^ f.w - 2) (q := 2 ^ f.m - 1) (by omega)
  refine ⟨?_, ⟨?_, ?_⟩, ?_⟩
  · rw [code_eq, e, e1, e2]
    have : 2 ^ f.w - 1 = 2 ^ f.w - 2 + 1 := by omega
    rw [this, Nat.mul_add]
    omega
  · rw [e]; exact build_lt f (by decide) (by omega) (by omega)
  · rw [e, e1]; omega
  · rw [e]; exact build_sgn f (by decide) (by omega) (by omega)

theorem next_code {x : Nat} (h : Fin f x) (hl : |value f x| ≠ value f (large f)) :
    (code f x + 1) / 2 ^ f.m < 2 ^ f.w - 1 := by
  obtain ⟨l1, l2, l3⟩ := large_code f
  have hc := code_lt_of_fin f h
  rw [Nat.div_lt_iff_lt_mul (two_pos _)] at hc ⊢
  rw [Nat.mul_comm] at l1
  have hne : code f x ≠ code f (large f) := by
    intro he
    apply hl
    have h1 : f.units (large f) = magc f (code f x) := by rw [units_code, l3, if_neg (by decide), he]
    have hu := unit_pos f
    rw [value_eq, value_eq, h1, units_code, abs_mul, abs_of_pos hu]
    split
    · push_cast; rw [abs_neg, abs_of_nonneg (by positivity)]
    · push_cast; rw [abs_of_nonneg (by positivity)]
  omega

/-- The next number away from zero. -/
theorem outward {x r : Nat} (hx : Fin f x) (hp : 0 < code f x) (hl : (code f x + 1) / 2 ^ f.m < 2 ^ f.w - 1) (hr : Fin f r)
    (h : f.units r = if f.sgn x = 1 then - (magc f (code f x + 1) : Int) else magc f (code f x + 1)) :
    if f.sgn x = 1 then Prev f x r else Next f x r := by
  have hlt := magc_lt f (code f x) (code f x + 1) (by omega)
  have hpos := magc_lt f 0 (code f x) hp
  have aux (y : Nat) : magc f (code f x) < magc f (code f y) → magc f (code f x + 1) ≤ magc f (code f y) := by
    intro hy
    exact magc_le f _ _ ((magc_lt_iff f _ _).mp hy)
  rcases sgn_cases f x with s | s
  · rw [if_neg (by omega)] at h ⊢
    refine ⟨hr, ?_, ?_⟩
    · rw [value_lt, h, units_code, if_neg (by omega)]; exact_mod_cast hlt
    · intro y hy hv
      rw [value_lt, units_code, if_neg (by omega)] at hv
      rw [value_le, h]
      rw [units_code] at hv ⊢
      rcases sgn_cases f y with t | t
      · rw [if_neg (by omega)] at hv ⊢
        exact_mod_cast aux y (by exact_mod_cast hv)
      · rw [if_pos t] at hv; omega
  · rw [if_pos s] at h ⊢
    refine ⟨hr, ?_, ?_⟩
    · rw [value_lt, h, units_code f x, if_pos s]; omega
    · intro y hy hv
      rw [value_lt, units_code f x, if_pos s] at hv
      rw [value_le, h]
      rw [units_code] at hv ⊢
      rcases sgn_cases f y with t | t
      · rw [if_neg (by omega)] at hv; omega
      · rw [if_pos t] at hv ⊢
        have := aux y (by omega)
        omega

/-- The next number towards zero. -/
theorem inward {x r : Nat} (hx : Fin f x) (hp : 0 < code f x) (hr : Fin f r)
    (h : f.units r = if f.sgn x = 1 then - (magc f (code f x - 1) : Int) else magc f (code f x - 1)) :
    if f.sgn x = 1 then Next f x r else Prev f x r := by
  have hlt := magc_lt f (code f x - 1) (code f x) (by omega)
  have aux (y : Nat) : magc f (code f y) < magc f (code f x) → magc f (code f y) ≤ magc f (code f x - 1) := by
    intro hy
    have := (magc_lt_iff f _ _).mp hy
    exact magc_le f _ _ (by omega)
  rcases sgn_cases f x with s | s
  · rw [if_neg (by omega)] at h ⊢
    refine ⟨hr, ?_, ?_⟩
    · rw [value_lt, h, units_code, if_neg (by omega)]; exact_mod_cast hlt
    · intro y hy hv
      rw [value_lt, units_code f x, if_neg (by omega)] at hv
      rw [value_le, h]
      rw [units_code] at hv ⊢
      rcases sgn_cases f y with t | t
      · rw [if_neg (by omega)] at hv ⊢
        exact_mod_cast aux y (by exact_mod_cast hv)
      · rw [if_pos t]; omega
  · rw [if_pos s] at h ⊢
    refine ⟨hr, ?_, ?_⟩
    · rw [value_lt, h, units_code f x, if_pos s]; omega
    · intro y hy hv
      rw [value_lt, units_code f x, if_pos s] at hv
      rw [value_le, h]
      rw [units_code] at hv ⊢
      rcases sgn_cases f y with t | t
      · rw [if_neg (by omega)]; omega
      · rw [if_pos t] at hv ⊢
        have := aux y (by omega)
        omega

theorem succ_outward {M : Machine} (hM : M.Ok f) {x : Nat} (h : Normal f x) (hr : f.expoMin + f.m ≤ exponent f x)
    (hl : |value f x| ≠ value f (large f)) : if f.sgn x = 1 then Prev f x (succ f M x) else Next f x (succ f M x) := by
  have hr' : f.m + 1 ≤ f.ex x := by rw [exponent_normal f h] at hr; unfold Fmt.expoMin at hr; omega
  obtain ⟨k1, k2⟩ := step_units f hM h hr'
  have hc := next_code f h.1 hl
  obtain ⟨d1, d2⟩ := build_of_code f (sgn_lt f x) hc
  have key := hM.add x _ _ h.1 k1 d1 (by
    rw [k2, value_eq, value_eq, d2, units_code, magc_succ, code_div]
    rcases sgn_cases f x with s | s <;> simp [s] <;> ring)
  refine outward f h.1 (code_pos f h) hc key.1 ?_
  rw [← d2]
  exact (value_inj f _ _).mp key.2

theorem pred_inward {M : Machine} (hM : M.Ok f) {x : Nat} (h : Normal f x) (hr : f.expoMin + f.m ≤ exponent f x)
    (hl : f.man x ≠ 0) : if f.sgn x = 1 then Next f x (pred f M x) else Prev f x (pred f M x) := by
  have hr' : f.m + 1 ≤ f.ex x := by rw [exponent_normal f h] at hr; unfold Fmt.expoMin at hr; omega
  obtain ⟨k1, k2⟩ := step_units f hM h hr'
  have hp := code_pos f h
  have hd : (code f x - 1) / 2 ^ f.m = f.ex x := by
    rw [code_eq, Nat.add_sub_assoc (by omega), Nat.mul_add_div (two_pos _), Nat.div_eq_of_lt, Nat.add_zero]
    have := man_lt f x
    omega
  have hc : (code f x - 1) / 2 ^ f.m < 2 ^ f.w - 1 := by
    rw [hd, ← code_div]; exact code_lt_of_fin f h.1
  obtain ⟨d1, d2⟩ := build_of_code f (sgn_lt f x) hc
  have hm := magc_succ f (code f x - 1)
  rw [Nat.sub_add_cancel hp, hd] at hm
  have key := hM.sub x _ _ h.1 k1 d1 (by
    rw [k2, value_eq, value_eq, d2, units_code, hm]
    rcases sgn_cases f x with s | s <;> simp [s] <;> ring)
  refine inward f h.1 hp key.1 ?_
  rw [← d2]
  exact (value_inj f _ _).mp key.2

/-- A number whose significand is empty is a power of two. -/
theorem man_zero {x : Nat} (h : Normal f x) (hm : f.man x = 0) : |value f x| = 2 ^ exponent f x := by
  have e : (2 : ℚ) ^ f.m * 2 ^ ((f.ex x : Int) - f.bias - f.m) = 2 ^ exponent f x := by
    rw [exponent_normal f h, ← zpow_natCast, ← zpow_add₀ (by norm_num)]
    congr 1
    omega
  have hp : (0 : ℚ) < 2 ^ exponent f x := zpow_pos (by norm_num) _
  rw [value_normal f h, hm, Nat.cast_zero, add_zero, mul_assoc, e]
  rcases sgn_cases f x with s | s
  · simp only [s]; simp [abs_of_pos hp]
  · simp only [s]; simp [abs_of_pos hp]

/-! ## Cutting off -/

theorem cut_units {x r : Nat} {s A q U : Nat} {u : ℚ} (hx : f.units x = if s = 1 then - (A : Int) else A)
    (hr : f.units r = if s = 1 then - ((q * U : Nat) : Int) else (q * U : Nat)) (h1 : q * U ≤ A) (h2 : A < (q + 1) * U)
    (hu : u = U * unit f) : Cut u (value f x) (value f r) := by
  have hp := unit_pos f
  rw [value_eq, value_eq, hx, hr, hu]
  have h1' : ((q : ℚ) * U) ≤ A := by exact_mod_cast h1
  have h2' : (A : ℚ) < (q + 1) * U := by exact_mod_cast h2
  have a1 : (q : ℚ) * U * unit f ≤ A * unit f := mul_le_mul_of_nonneg_right h1' hp.le
  have a2 : (A : ℚ) * unit f < (q + 1) * U * unit f := mul_lt_mul_of_pos_right h2' hp
  have p1 : (0 : ℚ) ≤ (q : ℚ) * U * unit f := by positivity
  have p2 : (0 : ℚ) ≤ (A : ℚ) * unit f := by positivity
  by_cases hs : s = 1
  · simp only [if_pos hs]
    push_cast
    rw [neg_mul, neg_mul, ]
    refine ⟨- (q : Int), by push_cast; ring, ?_, ?_, ?_⟩
    · rw [abs_neg, abs_neg, abs_of_nonneg p1, abs_of_nonneg p2]; exact a1
    · rw [abs_neg, abs_neg, abs_of_nonneg p1, abs_of_nonneg p2]; linarith
    · rw [neg_mul_neg]; positivity
  · simp only [if_neg hs]
    push_cast
    refine ⟨(q : Int), by push_cast; ring, ?_, ?_, ?_⟩
    · rw [abs_of_nonneg p1, abs_of_nonneg p2]; exact a1
    · rw [abs_of_nonneg p1, abs_of_nonneg p2]; linarith
    · positivity

theorem unit_shift (k : Nat) : ((2 ^ k : Nat) : ℚ) * unit f = 2 ^ ((k : Int) + 1 - f.bias - f.m) := by
  unfold unit
  push_cast
  rw [← zpow_natCast, ← zpow_add₀ (by norm_num)]
  congr 1
  omega

/-- Clearing the lower bits of a normal number. -/
theorem clear_units {x lo : Nat} (h : Normal f x) (hlo : lo ≤ f.m) :
    Normal f (x &&& rng lo (f.m + f.w)) ∧
    f.units (x &&& rng lo (f.m + f.w)) =
      (if f.sgn x = 1 then - (((2 ^ f.m + f.man x) / 2 ^ lo * 2 ^ (lo + f.ex x - 1) : Nat) : Int)
      else ((2 ^ f.m + f.man x) / 2 ^ lo * 2 ^ (lo + f.ex x - 1) : Nat)) ∧
    f.ex (x &&& rng lo (f.m + f.w)) = f.ex x := by
  have hq : 2 ^ lo * (f.man x / 2 ^ lo) < 2 ^ f.m := lt_of_le_of_lt (Nat.mul_div_le _ _) (man_lt f x)
  have he := ex_lt f x
  have hs := sgn_lt f x
  have h0 := h.2
  rw [clear_build f h.1.1 hlo]
  have e1 := build_ex f (s := f.sgn x) he hq
  refine ⟨⟨⟨build_lt f hs he hq, ?_⟩, ?_⟩, ?_, e1⟩
  · rw [e1]; exact h.1.2
  · rw [e1]; exact h.2
  · rw [units_build f hs he hq]
    have : (if f.ex x = 0 then 2 ^ lo * (f.man x / 2 ^ lo)
        else (2 ^ f.m + 2 ^ lo * (f.man x / 2 ^ lo)) * 2 ^ (f.ex x - 1)) =
        (2 ^ f.m + f.man x) / 2 ^ lo * 2 ^ (lo + f.ex x - 1) := by
      rw [if_neg h0]
      obtain ⟨k, hk⟩ := Nat.exists_eq_add_of_le hlo
      have h1 : 2 ^ f.m = 2 ^ lo * 2 ^ k := by rw [hk, Nat.pow_add]
      rw [h1, Nat.mul_add_div (two_pos _), show lo + f.ex x - 1 = lo + (f.ex x - 1) by omega, Nat.pow_add]
      ring
    rw [this]

/-- Clearing lower bits cuts off. -/
theorem clear_cut {x lo : Nat} (h : Normal f x) (hlo : lo ≤ f.m) :
    Cut (2 ^ ((lo : Int) + f.ex x - f.bias - f.m)) (value f x) (value f (x &&& rng lo (f.m + f.w))) := by
  obtain ⟨_, c2, _⟩ := clear_units f h hlo
  have h0 := h.2
  have hx : f.units x = if f.sgn x = 1 then - (((2 ^ f.m + f.man x) * 2 ^ (f.ex x - 1) : Nat) : Int)
      else (((2 ^ f.m + f.man x) * 2 ^ (f.ex x - 1) : Nat) : Int) := by
    unfold Fmt.units; rw [normal_mag f h]
  have e : 2 ^ (lo + f.ex x - 1) = 2 ^ lo * 2 ^ (f.ex x - 1) := by
    rw [← Nat.pow_add]; congr 1; omega
  refine cut_units f hx c2 ?_ ?_ ?_
  · rw [e, ← Nat.mul_assoc]
    exact Nat.mul_le_mul_right _ (Nat.div_mul_le_self _ _)
  · rw [e, ← Nat.mul_assoc]
    refine Nat.mul_lt_mul_of_pos_right ?_ (two_pos _)
    have := Nat.lt_div_mul_add (a := 2 ^ f.m + f.man x) (two_pos lo)
    rw [Nat.add_mul]; omega
  · rw [unit_shift]
    congr 1
    omega

theorem near_units {x r : Nat} {s A q U : Nat} {u : ℚ} (hx : f.units x = if s = 1 then - (A : Int) else A)
    (hr : f.units r = if s = 1 then - ((q * U : Nat) : Int) else (q * U : Nat)) (h1 : 2 * (q * U) ≤ 2 * A + U)
    (h2 : 2 * A ≤ 2 * (q * U) + U) (hu : u = U * unit f) : Nearest u (value f x) (value f r) := by
  have hp := unit_pos f
  rw [value_eq, value_eq, hx, hr, hu]
  have h1' : 2 * ((q : ℚ) * U) ≤ 2 * A + U := by exact_mod_cast h1
  have h2' : 2 * (A : ℚ) ≤ 2 * (q * U) + U := by exact_mod_cast h2
  have a1 := mul_le_mul_of_nonneg_right h1' hp.le
  have a2 := mul_le_mul_of_nonneg_right h2' hp.le
  by_cases hs : s = 1
  · simp only [if_pos hs]
    push_cast
    refine ⟨- (q : Int), by push_cast; ring, ?_⟩
    rw [abs_le]
    constructor <;> linarith
  · simp only [if_neg hs]
    push_cast
    refine ⟨(q : Int), by push_cast; ring, ?_⟩
    rw [abs_le]
    constructor <;> linarith

theorem zero_units : f.units 0 = 0 ∧ Fin f 0 := by
  have hb := pow_w f
  refine ⟨by simp [Fmt.units, Fmt.mag, Fmt.ex, Fmt.man, Fmt.sgn], two_pos _, ?_⟩
  simp only [Fmt.ex, Nat.zero_div, Nat.zero_mod]
  have := bias_pos f
  omega

theorem units_zero_iff (x : Nat) : f.units x = 0 ↔ f.mag x = 0 := by
  unfold Fmt.units; split <;> omega

theorem cut_diff {v q : ℚ} (h : Cut 1 v q) : |v - q| < 1 := by
  obtain ⟨k, _, h1, h2, h3⟩ := h
  rcases le_total 0 v with hv | hv <;> rcases le_total 0 q with hq | hq
  · rw [abs_of_nonneg hv, abs_of_nonneg hq] at h1 h2
    rw [abs_lt]; constructor <;> linarith
  · rw [abs_of_nonneg hv, abs_of_nonpos hq] at h1 h2
    have : q = 0 ∨ v = 0 := by
      have h4 : q * v ≤ 0 := mul_nonpos_of_nonpos_of_nonneg hq hv
      exact mul_eq_zero.mp (le_antisymm h4 h3)
    rcases this with h5 | h5 <;> subst h5 <;> rw [abs_lt] <;> constructor <;> linarith
  · rw [abs_of_nonpos hv, abs_of_nonneg hq] at h1 h2
    have : q = 0 ∨ v = 0 := by
      have h4 : q * v ≤ 0 := mul_nonpos_of_nonneg_of_nonpos hq hv
      exact mul_eq_zero.mp (le_antisymm h4 h3)
    rcases this with h5 | h5 <;> subst h5 <;> rw [abs_lt] <;> constructor <;> linarith
  · rw [abs_of_nonpos hv, abs_of_nonpos hq] at h1 h2
    rw [abs_lt]; constructor <;> linarith

theorem one_unit : (1 : ℚ) = ((2 ^ (f.m + f.bias - 1) : Nat) : ℚ) * unit f := by
  push_cast; exact (unit_mul f).symm

/-- What `intpart` does. -/
theorem intpart_cases {x : Nat} (h : Fin f x) :
    (Fin f (intpart f x) ∧ Cut 1 (value f x) (value f (intpart f x))) ∧
    ∃ d, Fin f d ∧ value f d = value f x - value f (intpart f x) := by
  have hb := pow_w f
  have h3 := bias_pos f
  have hP := two_pos f.m
  have hq := man_lt f x
  obtain ⟨z1, z2⟩ := zero_units f
  have zv : value f 0 = 0 := by rw [value_eq, z1]; simp
  have small (hm : f.mag x < 2 ^ (f.m + f.bias - 1)) (hi : intpart f x = 0) :
      (Fin f (intpart f x) ∧ Cut 1 (value f x) (value f (intpart f x))) ∧
      ∃ d, Fin f d ∧ value f d = value f x - value f (intpart f x) := by
    rw [hi]
    refine ⟨⟨z2, ?_⟩, x, h, by rw [zv, sub_zero]⟩
    refine cut_units f (s := f.sgn x) (A := f.mag x) (q := 0) rfl ?_ (by omega) ?_ (one_unit f)
    · rw [z1]; simp
    · omega
  by_cases h0 : f.units x = 0
  · have hmag := (units_zero_iff f x).mp h0
    have hex : f.ex x = 0 := by
      by_contra hne
      have := normal_pos f (x := x) ⟨h, hne⟩
      omega
    have hman : f.man x = 0 := by unfold Fmt.mag at hmag; rw [if_pos hex] at hmag; exact hmag
    have e : intpart f x = build f (f.sgn x) 0 0 := by
      unfold intpart exponent
      rw [if_pos h0]
      dsimp only
      have := f.hm
      rw [if_neg (by omega), if_pos (by omega), clear_build f h.1 (by omega), hex, hman]
      simp
    have hf : Fin f (build f (f.sgn x) 0 0) := by
      refine ⟨build_lt f (sgn_lt f x) (two_pos _) hP, ?_⟩
      rw [build_ex f (two_pos _) hP]; omega
    have hu : f.units (build f (f.sgn x) 0 0) = 0 := by
      rw [units_build f (sgn_lt f x) (two_pos _) hP]; simp
    have hv : value f (build f (f.sgn x) 0 0) = 0 := by rw [value_eq, hu]; simp
    have hx : value f x = 0 := by rw [value_eq, h0]; simp
    rw [e, hv, hx]
    exact ⟨⟨hf, 0, by simp, by simp, by simp, by simp⟩, 0, z2, by rw [zv]; simp⟩
  · have hexp := exponent_eq f h0
    by_cases hex : f.ex x = 0
    · apply small
      · unfold Fmt.mag
        rw [if_pos hex]
        refine hq.trans_le (Nat.pow_le_pow_right (by decide) (by omega))
      · unfold intpart
        dsimp only
        rw [hexp, hex, if_neg (by omega), if_neg (by omega)]; rfl
    · have hn : Normal f x := ⟨h, hex⟩
      by_cases hE : f.ex x < f.bias
      · apply small
        · rw [normal_mag f hn]
          have e : 2 ^ (f.m + f.bias - 1) = 2 ^ (f.m + 1) * 2 ^ (f.bias - 2) := by
            rw [← Nat.pow_add]; congr 1; omega
          rw [e]
          refine Nat.mul_lt_mul_of_lt_of_le (by rw [Nat.pow_succ]; omega)
            (Nat.pow_le_pow_right (by decide) (by omega)) (two_pos _)
        · unfold intpart
          dsimp only
          rw [hexp, if_neg (by omega), if_neg (by omega)]; rfl
      · by_cases hF : f.bias + f.m ≤ f.ex x
        · have e : intpart f x = x := by
            unfold intpart
            dsimp only
            rw [hexp, if_pos (by omega)]
          rw [e]
          refine ⟨⟨h, ?_⟩, 0, z2, by rw [zv]; simp⟩
          have hA : f.mag x = (2 ^ f.m + f.man x) * 2 ^ (f.ex x - f.bias - f.m) * 2 ^ (f.m + f.bias - 1) := by
            rw [normal_mag f hn, Nat.mul_assoc, ← Nat.pow_add]
            congr 2; omega
          refine cut_units f (s := f.sgn x) (A := f.mag x) rfl ?_ (le_of_eq hA.symm) ?_ (one_unit f)
          · rw [← hA]; rfl
          · rw [Nat.add_mul, ← hA]
            have := two_pos (f.m + f.bias - 1)
            omega
        · have hlo : f.m + f.bias - f.ex x ≤ f.m := by omega
          have e : intpart f x = x &&& rng (f.m + f.bias - f.ex x) (f.m + f.w) := by
            unfold intpart
            dsimp only
            rw [hexp, if_neg (by omega), if_pos (by omega)]
            congr 2
            omega
          have hc := clear_cut f hn hlo
          obtain ⟨c1, c2, _⟩ := clear_units f hn hlo
          have e0 : ((f.m + f.bias - f.ex x : Nat) : Int) + f.ex x - f.bias - f.m = 0 := by omega
          rw [e0, zpow_zero] at hc
          rw [e]
          refine ⟨⟨c1.1, hc⟩, ?_⟩
          have hw := ex_lt f x
          have hfin := h.2
          have hmod := Nat.mod_lt (2 ^ f.m + f.man x) (two_pos (f.m + f.bias - f.ex x))
          have hle : 2 ^ (f.m + f.bias - f.ex x) ≤ 2 ^ f.m := Nat.pow_le_pow_right (by decide) hlo
          obtain ⟨c, r1, r2⟩ := repr f (n := (2 ^ f.m + f.man x) % 2 ^ (f.m + f.bias - f.ex x)) (j := f.ex x - 1)
            (by rw [Nat.pow_succ]; omega) (by omega)
          obtain ⟨d1, d2⟩ := build_of_code f (sgn_lt f x) r1
          refine ⟨_, d1, ?_⟩
          rw [value_eq, value_eq, value_eq, d2, c2, ← sub_mul]
          congr 1
          have hx : f.units x = if f.sgn x = 1 then - (((2 ^ f.m + f.man x) * 2 ^ (f.ex x - 1) : Nat) : Int)
              else (((2 ^ f.m + f.man x) * 2 ^ (f.ex x - 1) : Nat) : Int) := by
            unfold Fmt.units; rw [normal_mag f hn]
          have hsum : (2 ^ f.m + f.man x) * 2 ^ (f.ex x - 1) =
              (2 ^ f.m + f.man x) / 2 ^ (f.m + f.bias - f.ex x) * 2 ^ (f.m + f.bias - f.ex x + f.ex x - 1) + magc f c := by
            rw [r2, show f.m + f.bias - f.ex x + f.ex x - 1 = (f.m + f.bias - f.ex x) + (f.ex x - 1) by omega,
              Nat.pow_add, ← Nat.mul_assoc, ← Nat.add_mul]
            congr 1
            rw [Nat.mul_comm _ (2 ^ (f.m + f.bias - f.ex x)), Nat.div_add_mod]
          rw [hx, hsum]
          rcases sgn_cases f x with s | s <;> simp [s]

theorem bit_mod (x lo : Nat) : x.testBit lo = decide (2 ^ lo ≤ x % 2 ^ (lo + 1)) := by
  rw [Nat.testBit_eq_decide_div_mod_eq, Nat.mod_pow_succ]
  have h1 := Nat.mod_lt x (two_pos lo)
  have h2 := Nat.mod_lt (x / 2 ^ lo) (show 0 < 2 by decide)
  refine decide_eq_decide.mpr ?_
  have : x / 2 ^ lo % 2 = 0 ∨ x / 2 ^ lo % 2 = 1 := by omega
  rcases this with h | h <;> rw [h] <;> simp <;> omega

end Verif.RealBits
