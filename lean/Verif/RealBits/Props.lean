import Verif.RealBits.Order

/-!
# C90: the parts of real numbers

The theorems hold for REAL (`real`), LONGREAL (`longreal`) and every other format, and for every machine that computes
exactly what can be represented.
-/
namespace Verif.RealBits
variable (f : Fmt)

/-! ## A machine -/

open Classical in
/-- The number with a given value. -/
noncomputable def pick (v : ℚ) : Nat := if h : ∃ d, Fin f d ∧ value f d = v then h.choose else 0

theorem pick_ok {d : Nat} {v : ℚ} (hd : Fin f d) (h : value f d = v) : Fin f (pick f v) ∧ value f (pick f v) = value f d := by
  unfold pick
  have hx : ∃ d, Fin f d ∧ value f d = v := ⟨d, hd, h⟩
  rw [dif_pos hx, h]
  exact hx.choose_spec

/-- A machine that meets the requirements. -/
noncomputable def machine : Machine where
  mul a b := pick f (value f a * value f b)
  add a b := pick f (value f a + value f b)
  sub a b := pick f (value f a - value f b)
  small := build f 0 1 0

theorem pow_min : (2 : ℚ) ^ f.m * unit f = 2 ^ f.expoMin := by
  have := unit_shift f f.m
  push_cast at this
  rw [this]
  unfold Fmt.expoMin
  congr 1
  omega

theorem machine_ok : (machine f).Ok f := by
  refine ⟨fun a b d _ _ hd h => pick_ok f hd h, fun a b d _ _ hd h => pick_ok f hd h,
    fun a b d _ _ hd h => pick_ok f hd h, ?_⟩
  have hb := pow_w f
  have h3 := bias_pos f
  have hp := two_pos f.m
  have e := build_ex f (s := 0) (e := 1) (q := 0) (by omega) hp
  refine ⟨⟨build_lt f (by decide) (by omega) hp, ?_⟩, ?_⟩
  · show f.ex (build f 0 1 0) ≠ _
    rw [e]; omega
  · show _ ≤ value f (build f 0 1 0)
    rw [value_eq, units_build f (by decide) (by omega) hp, ← pow_min]
    simp

/-! ## Theorems -/

/-- C90.  A number with full precision is `scale(fraction(x), exponent(x))`; the absolute value of its fraction is at least
1 and less than 2; its value is the fraction times 2 to the exponent; the exponent lies between `expoMin` and `expoMax`.
`synthesize` is `scale`.  (Partial: it is wrong for the very small numbers, see `C90_subnormal`.) -/
theorem C90_parts_partial (M : Machine) (hM : M.Ok f) (x : Nat) (h : Normal f x) :
    scale f M (fraction f M x) (exponent f x) = x ∧
    1 ≤ |value f (fraction f M x)| ∧ |value f (fraction f M x)| < 2 ∧
    value f x = value f (fraction f M x) * 2 ^ exponent f x ∧
    f.expoMin ≤ exponent f x ∧ exponent f x ≤ f.expoMax := by
  have hb := pow_w f
  have h3 := bias_pos f
  have hs := sgn_lt f x
  have hq := man_lt f x
  have he := ex_lt f x
  have h0 := h.2
  have hfin := h.1.2
  have hx := exponent_normal f h
  have hf := fraction_eq f hM h.1 (normal_units f h)
  have e1 : f.ex (fraction f M x) = f.bias := by rw [hf, build_ex f (by omega) hq]
  have e2 : f.man (fraction f M x) = f.man x := by rw [hf, build_man f hq]
  have e3 : f.sgn (fraction f M x) = f.sgn x := by rw [hf, build_sgn f hs (by omega) hq]
  have hn : Normal f (fraction f M x) := by
    refine ⟨⟨?_, ?_⟩, ?_⟩
    · rw [hf]; exact build_lt f hs (by omega) hq
    · rw [e1]; omega
    · rw [e1]; omega
  have b1 : f.expoMin ≤ exponent f x := by rw [hx]; unfold Fmt.expoMin; omega
  have b2 : exponent f x ≤ f.expoMax := by rw [hx]; unfold Fmt.expoMax; omega
  have hx' : exponent f (fraction f M x) = 0 := by rw [exponent_normal f hn, e1]; omega
  have hv := value_normal f hn
  rw [e1, e2, e3] at hv
  have hp : (2 : ℚ) ^ ((f.bias : Int) - f.bias - f.m) = ((2 : ℚ) ^ f.m)⁻¹ := by
    rw [show (f.bias : Int) - f.bias - f.m = - (f.m : Int) by omega, zpow_neg, zpow_natCast]
  have hP : (0 : ℚ) < 2 ^ f.m := by positivity
  have hq' : (f.man x : ℚ) < 2 ^ f.m := by exact_mod_cast hq
  have habs : |value f (fraction f M x)| = (2 ^ f.m + f.man x) / 2 ^ f.m := by
    have hpos : (0 : ℚ) ≤ (2 ^ f.m + f.man x) * ((2 : ℚ) ^ f.m)⁻¹ := by positivity
    rw [hv, hp, mul_assoc, div_eq_mul_inv]
    split
    · rw [neg_one_mul, abs_neg, abs_of_nonneg hpos]
    · rw [one_mul, abs_of_nonneg hpos]
  refine ⟨?_, ?_, ?_, ?_, b1, b2⟩
  · obtain ⟨g, _, _⟩ := scale_mid f (M := M) hn.1 (normal_units f hn) (n := exponent f x) (by omega) (by omega)
    rw [g, hx', e2, e3, hx]
    conv_rhs => rw [decomp f h.1.1]
    congr 1
    omega
  · rw [habs, le_div_iff₀ hP]
    have : (0 : ℚ) ≤ f.man x := by positivity
    linarith
  · rw [habs, div_lt_iff₀ hP]; linarith
  · rw [hv, value_normal f h, mul_assoc _ (2 ^ ((f.bias : Int) - f.bias - f.m)), ← zpow_add₀ (by norm_num), hx]
    congr 2
    omega

example : Normal real 0xC0490FDB := by
  refine ⟨⟨by decide, by decide⟩, by decide⟩

/-- C90.  `scale(x, n)` has the value x * 2 ^ n, if x has full precision and the result is between 2 ^ `expoMin` and
`large`.  (Partial: the result can exist although it is less than 2 ^ `expoMin`, see `C90_scale_lost`.) -/
theorem C90_scale_partial (M : Machine) (x : Nat) (n : Int) (h : Normal f x) (h1 : f.expoMin ≤ exponent f x + n)
    (h2 : exponent f x + n ≤ f.expoMax) :
    Normal f (scale f M x n) ∧ value f (scale f M x n) = value f x * 2 ^ n := by
  obtain ⟨g1, g2, g3⟩ := scale_mid f (M := M) h.1 (normal_units f h) h1 h2
  have hs := sgn_lt f x
  have hq := man_lt f x
  rw [g1]
  have e := build_ex f (s := f.sgn x) (e := (exponent f x + n + f.bias).toNat) (q := f.man x) (by omega) hq
  refine ⟨⟨⟨build_lt f hs (by omega) hq, ?_⟩, ?_⟩, ?_⟩
  · rw [e]; omega
  · rw [e]; omega
  · rw [value_build f hs (by omega) g3 hq, value_normal f h, mul_assoc _ (2 ^ ((f.ex x : Int) - f.bias - f.m)),
      ← zpow_add₀ (by norm_num), exponent_normal f h]
    rw [exponent_normal f h] at g3
    congr 2
    omega

/-- C90.  `scale` of zero is zero, and a number that would be too large is replaced by the largest one. -/
theorem C90_scale_large (M : Machine) (hM : M.Ok f) (x : Nat) (n : Int) (h : f.units x ≠ 0)
    (h1 : f.expoMax < exponent f x + n) :
    value f (scale f M zero n) = 0 ∧ |value f (scale f M x n)| = value f (large f) ∧
    (value f (scale f M x n) < 0 ↔ value f x < 0) := by
  obtain ⟨l1, l2, l3⟩ := large_code f
  have hz : f.units 0 = 0 := by simp [Fmt.units, Fmt.mag, Fmt.ex, Fmt.man, Fmt.sgn]
  have e : scale f M x n = M.mul (large f) (sign f x) := by
    unfold scale; rw [if_neg h]; dsimp only; rw [if_pos (by omega)]
  obtain ⟨_, g⟩ := mul_sign f hM (x := x) l2
  have hpos : 0 < value f (large f) := by
    have h3 := bias_pos f
    have hb := pow_w f
    have hu := unit_pos f
    have hp := two_pos f.m
    have hc : 0 < code f (large f) := by
      rw [l1]
      have : 2 ^ f.m * 2 ≤ 2 ^ f.m * (2 ^ f.w - 1) := Nat.mul_le_mul_left _ (by omega)
      omega
    have h4 := magc_lt f 0 _ hc
    rw [value_eq, units_code, l3, if_neg (by decide)]
    have h5 : (0 : ℚ) < magc f (code f (large f)) := by exact_mod_cast (Nat.zero_le _).trans_lt h4
    push_cast
    exact mul_pos h5 hu
  refine ⟨?_, ?_, ?_⟩
  · unfold scale zero
    rw [if_pos hz, value_eq, hz]; simp
  · rw [e, g]
    split
    · rw [abs_neg, abs_of_pos hpos]
    · rw [abs_of_pos hpos]
  · rw [e, g, ← units_neg f x]
    split
    · constructor
      · intro _; assumption
      · intro _; linarith
    · constructor
      · intro hh; linarith
      · intro hh; contradiction

/-- C90.  `sign(x)` is -1 for a negative number and 1 for any other one. -/
theorem C90_sign (x : Nat) : value f (sign f x) = if value f x < 0 then -1 else 1 := by
  have := (sign_value f x).2
  simp only [units_neg] at this
  exact this

/-- C90.  `ulp(x)` is the value of the last of the `places` bits of x.  (Partial: see `C90_ulp_small`.) -/
theorem C90_ulp_partial (M : Machine) (x : Nat) (h : Normal f x) (hr : f.expoMin + f.m ≤ exponent f x) :
    Fin f (ulp f M x) ∧ value f (ulp f M x) = 2 ^ (exponent f x - f.places + 1) := by
  have hr' : f.m + 1 ≤ f.ex x := by rw [exponent_normal f h] at hr; unfold Fmt.expoMin at hr; omega
  obtain ⟨g1, g2⟩ := ulp_units f (M := M) h hr'
  refine ⟨g1, ?_⟩
  have := unit_shift f (f.ex x - 1)
  rw [value_eq, g2, exponent_normal f h]
  push_cast at this ⊢
  rw [this]
  unfold Fmt.places
  congr 1
  omega

/-- C90.  `succ(x)` is the next greater number, for a positive number that is not very small and not the largest one.
(Partial: see `C90_succ_negative`, `C90_succ_zero`, `C90_ulp_small`.) -/
theorem C90_succ_partial (M : Machine) (hM : M.Ok f) (x : Nat) (h : Normal f x) (hp : 0 < value f x)
    (hr : f.expoMin + f.m ≤ exponent f x) (hl : value f x ≠ value f (large f)) : Next f x (succ f M x) := by
  have := succ_outward f hM h hr (by rw [abs_of_pos hp]; exact hl)
  rw [if_neg (by rw [pos_sgn f hp]; decide)] at this
  exact this

/-- C90.  `pred(x)` is the next smaller number, for a positive number that is not very small and not a power of two.
(Partial: see `C90_pred_negative`, `C90_pred_power`.) -/
theorem C90_pred_partial (M : Machine) (hM : M.Ok f) (x : Nat) (h : Normal f x) (hp : 0 < value f x)
    (hr : f.expoMin + f.m ≤ exponent f x) (hl : ∀ k : Int, value f x ≠ 2 ^ k) : Prev f x (pred f M x) := by
  have := pred_inward f hM h hr (by
    intro hm
    apply hl (exponent f x)
    rw [← man_zero f h hm, abs_of_pos hp])
  rw [if_neg (by rw [pos_sgn f hp]; decide)] at this
  exact this

/-- C90, deviation.  `succ` of a negative number is the next smaller number, not the next greater one. -/
theorem C90_succ_negative (M : Machine) (hM : M.Ok f) (x : Nat) (h : Normal f x) (hp : value f x < 0)
    (hr : f.expoMin + f.m ≤ exponent f x) (hl : value f x ≠ - value f (large f)) :
    Prev f x (succ f M x) ∧ value f (succ f M x) < value f x := by
  have := succ_outward f hM h hr (by
    rw [abs_of_neg hp]; intro hh; apply hl; rw [← hh, neg_neg])
  rw [if_pos (neg_sgn f hp)] at this
  exact ⟨this, this.2.1⟩

/-- C90, deviation.  `pred` of a negative number is greater than the number. -/
theorem C90_pred_negative (M : Machine) (hM : M.Ok f) (x : Nat) (h : Normal f x) (hp : value f x < 0)
    (hr : f.expoMin + f.m ≤ exponent f x) (hl : ∀ k : Int, value f x ≠ - 2 ^ k) :
    Next f x (pred f M x) ∧ value f x < value f (pred f M x) := by
  have := pred_inward f hM h hr (by
    intro hm
    apply hl (exponent f x)
    rw [← man_zero f h hm, abs_of_neg hp, neg_neg])
  rw [if_pos (neg_sgn f hp)] at this
  exact ⟨this, this.2.1⟩

/-- C90, deviation.  `pred` of a power of two is not the next smaller number: there is a number between them. -/
theorem C90_pred_power (M : Machine) (hM : M.Ok f) (x : Nat) (h : Normal f x) (hr : f.expoMin + f.m ≤ exponent f x)
    (hv : value f x = 2 ^ exponent f x) :
    ∃ y, Fin f y ∧ value f (pred f M x) < value f y ∧ value f y < value f x := by
  have hp : 0 < value f x := by rw [hv]; exact zpow_pos (by norm_num) _
  have hs := pos_sgn f hp
  have hr' : f.m + 1 ≤ f.ex x := by rw [exponent_normal f h] at hr; unfold Fmt.expoMin at hr; omega
  have hP : 2 ≤ 2 ^ f.m := by
    have := Nat.pow_le_pow_right (show 0 < 2 by decide) f.hm
    simpa using this
  have hm : f.man x = 0 := by
    have e : (2 : ℚ) ^ f.m * 2 ^ ((f.ex x : Int) - f.bias - f.m) = 2 ^ exponent f x := by
      rw [exponent_normal f h, ← zpow_natCast, ← zpow_add₀ (by norm_num)]
      congr 1
      omega
    have hz : (0 : ℚ) < 2 ^ ((f.ex x : Int) - f.bias - f.m) := zpow_pos (by norm_num) _
    rw [value_normal f h, hs, ← e, if_neg (by decide), one_mul] at hv
    have := mul_right_cancel₀ hz.ne' hv
    have h5 : (f.man x : ℚ) = 0 := by linarith
    exact_mod_cast h5
  obtain ⟨k1, k2⟩ := step_units f hM h hr'
  rw [hs, if_neg (by decide)] at k2
  have hc := code_eq f x
  rw [hm, Nat.add_zero] at hc
  obtain ⟨e, he⟩ := Nat.exists_eq_add_of_le (show 1 ≤ f.ex x by omega)
  have hfin := code_lt_of_fin f h.1
  rw [code_div] at hfin
  have hm' := f.hm
  have hc' : code f x = 2 ^ f.m * e + 2 ^ f.m := by rw [hc, he]; ring
  have d1 : (code f x - 1) / 2 ^ f.m = e := by
    rw [hc', Nat.add_sub_assoc (by omega), Nat.mul_add_div (two_pos _), Nat.div_eq_of_lt (by omega), Nat.add_zero]
  have d2 : (code f x - 2) / 2 ^ f.m = e := by
    rw [hc', Nat.add_sub_assoc (by omega), Nat.mul_add_div (two_pos _), Nat.div_eq_of_lt (by omega), Nat.add_zero]
  have m1 := magc_succ f (code f x - 1)
  have m2 := magc_succ f (code f x - 2)
  rw [show code f x - 1 + 1 = code f x by omega, d1] at m1
  rw [show code f x - 2 + 1 = code f x - 1 by omega, d2] at m2
  have hpow : 2 ^ (f.ex x - 1) = 2 ^ (e - 1) + 2 ^ (e - 1) := by
    rw [show f.ex x - 1 = e - 1 + 1 by omega, Nat.pow_succ]; omega
  obtain ⟨a1, a2⟩ := build_of_code f (s := 0) (c := code f x - 1) (by decide) (by rw [d1]; omega)
  obtain ⟨b1, b2⟩ := build_of_code f (s := 0) (c := code f x - 2) (by decide) (by rw [d2]; omega)
  rw [if_neg (by decide)] at a2 b2
  have hux : f.units x = magc f (code f x) := by rw [units_code, hs, if_neg (by decide)]
  have hsum : magc f (code f x) = magc f (code f x - 2) + 2 ^ (f.ex x - 1) := by omega
  have key := hM.sub x _ _ h.1 k1 b1 (by
    rw [k2, value_eq, value_eq, b2, hux, hsum]
    push_cast; ring)
  have hpos := two_pos (e - 1)
  refine ⟨_, a1, ?_, ?_⟩
  · have : value f (pred f M x) = _ := key.2
    rw [this, value_lt, a2, b2]
    exact_mod_cast (by omega)
  · rw [value_lt, a2, hux]
    exact_mod_cast (by omega)

/-- C90, deviation.  `succ(0.0)` is 2 ^ (1 - places), although there are numbers between. -/
theorem C90_succ_zero (M : Machine) (hM : M.Ok f) :
    value f (succ f M zero) = 2 ^ (1 - f.places) ∧
    ∃ y, Fin f y ∧ value f zero < value f y ∧ value f y < value f (succ f M zero) := by
  obtain ⟨z1, z2⟩ := zero_units f
  have hb := f.hb
  have hbias : f.bias = 2 ^ (f.w - 1) - 1 := rfl
  have zv : value f 0 = 0 := by rw [value_eq, z1]; simp
  have he : exponent f zero = 0 := by unfold exponent zero; rw [if_pos z1]
  obtain ⟨g1, g2⟩ := scale_one f (M := M) (n := 0 - f.places + 1)
    (by unfold Fmt.expoMin Fmt.places; omega) (by unfold Fmt.expoMax Fmt.places; omega)
  have hu : ulp f M zero = scale f M (one f) (0 - f.places + 1) := by unfold ulp; rw [he]
  rw [← hu] at g1 g2
  obtain ⟨k1, k2⟩ := mul_sign f hM (x := zero) g1
  rw [if_neg (by unfold zero; rw [z1]; decide)] at k2
  have key := hM.add zero _ _ z2 k1 k1 (by unfold zero; rw [zv, zero_add])
  have hs : value f (succ f M zero) = value f (ulp f M zero) := by rw [← k2]; exact key.2
  have hpow : (f.m + (0 - f.places + 1 + f.bias).toNat - 1) = f.bias - 1 := by unfold Fmt.places; omega
  rw [hpow] at g2
  have hone : f.units 1 = 1 ∧ Fin f 1 := by
    have h0 : build f 0 0 1 = 1 := by unfold build; simp
    have hP : 1 < 2 ^ f.m := by
      have := Nat.pow_le_pow_right (show 0 < 2 by decide) f.hm
      omega
    have h1 := units_build f (s := 0) (e := 0) (q := 1) (by decide) (two_pos _) hP
    have h2 := build_ex f (s := 0) (e := 0) (q := 1) (two_pos _) hP
    have h3 := build_lt f (s := 0) (e := 0) (q := 1) (by decide) (two_pos _) hP
    rw [h0] at h1 h2 h3
    have hw := pow_w f
    refine ⟨by rw [h1]; simp, h3, by rw [h2]; omega⟩
  refine ⟨?_, 1, hone.2, ?_, ?_⟩
  · have := unit_shift f (f.bias - 1)
    rw [hs, value_eq, g2]
    push_cast at this ⊢
    rw [this]
    unfold Fmt.places
    congr 1
    omega
  · unfold zero; rw [value_lt, z1, hone.1]; decide
  · rw [hs, value_lt, g2, hone.1]
    have : 2 ^ 1 ≤ 2 ^ (f.bias - 1) := Nat.pow_le_pow_right (by decide) (by omega)
    have h2 : ((2 ^ 1 : Nat) : Int) ≤ ((2 ^ (f.bias - 1) : Nat) : Int) := by exact_mod_cast this
    push_cast at h2
    omega

/-- C90, deviation.  The very small numbers, between 0 and 2 ^ `expoMin`, have an exponent less than `expoMin`, and they are
not `scale(fraction(x), exponent(x))`. -/
theorem C90_subnormal (M : Machine) (hM : M.Ok f) (x : Nat) (h : Fin f x) (h0 : value f x ≠ 0)
    (h1 : |value f x| < 2 ^ f.expoMin) :
    exponent f x < f.expoMin ∧ |value f x| < |value f (scale f M (fraction f M x) (exponent f x))| := by
  have hb := pow_w f
  have h3 := bias_pos f
  have hq := man_lt f x
  have hs := sgn_lt f x
  have hu : f.units x ≠ 0 := by intro hh; apply h0; rw [value_eq, hh]; simp
  have hex : f.ex x = 0 := by
    by_contra hne
    have hn : Normal f x := ⟨h, hne⟩
    have hmag := normal_mag f hn
    have : 2 ^ f.m * 1 ≤ f.mag x := by
      rw [hmag]; exact Nat.mul_le_mul (by omega) (two_pos _)
    have h2 : ((2 : ℚ) ^ f.m) ≤ f.mag x := by exact_mod_cast (by omega : 2 ^ f.m ≤ f.mag x)
    have h4 : |value f x| = f.mag x * unit f := by
      rw [value_eq, abs_mul, abs_of_pos (unit_pos f)]
      unfold Fmt.units
      split
      · push_cast; rw [abs_neg, abs_of_nonneg (by positivity)]
      · push_cast; rw [abs_of_nonneg (by positivity)]
    rw [h4, ← pow_min] at h1
    have := mul_le_mul_of_nonneg_right h2 (unit_pos f).le
    linarith
  have hexp := exponent_eq f hu
  have hf := fraction_eq f hM h hu
  have e1 : f.ex (fraction f M x) = f.bias := by rw [hf, build_ex f (by omega) hq]
  have hn : Normal f (fraction f M x) := by
    refine ⟨⟨?_, ?_⟩, ?_⟩
    · rw [hf]; exact build_lt f hs (by omega) hq
    · rw [e1]; omega
    · rw [e1]; omega
  have hx' : exponent f (fraction f M x) = 0 := by rw [exponent_normal f hn, e1]; omega
  have hlow : exponent f x < f.expoMin := by rw [hexp, hex]; unfold Fmt.expoMin; omega
  refine ⟨hlow, ?_⟩
  have e : scale f M (fraction f M x) (exponent f x) = M.mul M.small (sign f (fraction f M x)) := by
    unfold scale
    rw [if_neg (normal_units f hn)]
    dsimp only
    rw [hx', Int.zero_add, if_neg (by unfold Fmt.expoMax; omega), if_pos hlow]
  obtain ⟨s1, s2⟩ := hM.small
  obtain ⟨_, g⟩ := mul_sign f hM (x := fraction f M x) s1
  have hpos : (0 : ℚ) < 2 ^ f.expoMin := zpow_pos (by norm_num) _
  rw [e, g]
  have : |if f.units (fraction f M x) < 0 then -value f M.small else value f M.small| = value f M.small := by
    split
    · rw [abs_neg, abs_of_nonneg (by linarith)]
    · rw [abs_of_nonneg (by linarith)]
  rw [this]
  linarith

/-- C90, deviation.  If x * 2 ^ n is less than 2 ^ `expoMin`, `scale(x, n)` is larger, although there are such numbers. -/
theorem C90_scale_lost (M : Machine) (hM : M.Ok f) :
    (∀ x n, Normal f x → exponent f x + n < f.expoMin → |value f x * 2 ^ n| < |value f (scale f M x n)|) ∧
    ∃ x y, Normal f x ∧ exponent f x - 1 < f.expoMin ∧ Fin f y ∧ value f y = value f x * 2 ^ (-1 : Int) := by
  have hb := pow_w f
  have h3 := bias_pos f
  constructor
  · intro x n h hlow
    have e : scale f M x n = M.mul M.small (sign f x) := by
      unfold scale
      rw [if_neg (normal_units f h)]
      dsimp only
      rw [if_neg (by unfold Fmt.expoMax; unfold Fmt.expoMin at hlow; omega), if_pos hlow]
    obtain ⟨s1, s2⟩ := hM.small
    obtain ⟨_, g⟩ := mul_sign f hM (x := x) s1
    have hpos : (0 : ℚ) < 2 ^ f.expoMin := zpow_pos (by norm_num) _
    have ha : |value f (scale f M x n)| = value f M.small := by
      rw [e, g]
      split
      · rw [abs_neg, abs_of_nonneg (by linarith)]
      · rw [abs_of_nonneg (by linarith)]
    rw [ha]
    refine lt_of_lt_of_le ?_ s2
    have hq' : (f.man x : ℚ) < 2 ^ f.m := by exact_mod_cast man_lt f x
    have hz : (0 : ℚ) < 2 ^ ((f.ex x : Int) - f.bias - f.m) * 2 ^ n :=
      mul_pos (zpow_pos (by norm_num) _) (zpow_pos (by norm_num) _)
    have e2 : |value f x * 2 ^ n| = (2 ^ f.m + f.man x) * (2 ^ ((f.ex x : Int) - f.bias - f.m) * 2 ^ n) := by
      have hnn : (0 : ℚ) ≤ (2 ^ f.m + f.man x) * (2 ^ ((f.ex x : Int) - f.bias - f.m) * 2 ^ n) :=
        mul_nonneg (by positivity) hz.le
      rw [value_normal f h, mul_assoc, mul_assoc, ← mul_assoc (2 ^ f.m + (f.man x : ℚ)), mul_assoc (2 ^ f.m + (f.man x : ℚ))]
      split
      · rw [neg_one_mul, abs_neg, abs_of_nonneg hnn]
      · rw [one_mul, abs_of_nonneg hnn]
    have e3 : (2 : ℚ) ^ (f.m + 1) * (2 ^ ((f.ex x : Int) - f.bias - f.m) * 2 ^ n) ≤ 2 ^ f.expoMin := by
      rw [← zpow_natCast, ← zpow_add₀ (by norm_num), ← zpow_add₀ (by norm_num)]
      refine zpow_le_zpow_right₀ (by norm_num) ?_
      rw [exponent_normal f h] at hlow
      push_cast
      omega
    rw [e2]
    refine lt_of_lt_of_le (mul_lt_mul_of_pos_right ?_ hz) e3
    rw [pow_succ]
    linarith
  · have hP := two_pos f.m
    have hn : Normal f (build f 0 1 0) := by
      have e := build_ex f (s := 0) (e := 1) (q := 0) (by omega) hP
      refine ⟨⟨build_lt f (by decide) (by omega) hP, ?_⟩, ?_⟩ <;> rw [e] <;> omega
    have hm : 2 ^ f.m = 2 ^ (f.m - 1) * 2 := by
      rw [← Nat.pow_succ]; congr 1; have := f.hm; omega
    have hq : 2 ^ (f.m - 1) < 2 ^ f.m := by have := two_pos (f.m - 1); omega
    refine ⟨build f 0 1 0, build f 0 0 (2 ^ (f.m - 1)), hn, ?_, ⟨build_lt f (by decide) (two_pos _) hq, ?_⟩, ?_⟩
    · rw [exponent_normal f hn, build_ex f (by omega) hP]; unfold Fmt.expoMin; omega
    · rw [build_ex f (two_pos _) hq]; omega
    · rw [value_eq, value_eq, units_build f (by decide) (two_pos _) hq, units_build f (by decide) (by omega) hP]
      have hm' : ((2 : ℚ) ^ f.m) = 2 ^ (f.m - 1) * 2 := by exact_mod_cast hm
      simp [hm']
      ring

/-- C90, deviation.  For small numbers `ulp` is too large. -/
theorem C90_ulp_small (M : Machine) (hM : M.Ok f) (x : Nat) (hr : exponent f x < f.expoMin + f.m) :
    2 ^ (exponent f x - f.places + 1) < value f (ulp f M x) := by
  have hb := pow_w f
  have h3 := bias_pos f
  obtain ⟨o1, o2, o3, o4⟩ := one_fields f
  have e : exponent f (one f) = 0 := by rw [exponent_eq f (normal_units f o4), o2]; omega
  have hlow : exponent f (one f) + (exponent f x - f.places + 1) < f.expoMin := by
    rw [e]; unfold Fmt.places; omega
  have hl := (C90_scale_lost f M hM).1 (one f) _ o4 hlow
  have hpos : (0 : ℚ) < 2 ^ (exponent f x - f.places + 1) := zpow_pos (by norm_num) _
  rw [one_value, one_mul, abs_of_pos hpos] at hl
  have e2 : ulp f M x = M.mul M.small (sign f (one f)) := by
    unfold ulp scale
    rw [if_neg (normal_units f o4)]
    dsimp only
    rw [if_neg (by unfold Fmt.expoMax; unfold Fmt.expoMin at hlow; omega), if_pos hlow]
  obtain ⟨s1, s2⟩ := hM.small
  obtain ⟨_, g⟩ := mul_sign f hM (x := one f) s1
  have hn : ¬ f.units (one f) < 0 := by
    rw [units_neg, one_value]; norm_num
  rw [if_neg hn] at g
  have hs : (0 : ℚ) < 2 ^ f.expoMin := zpow_pos (by norm_num) _
  change _ < |value f (ulp f M x)| at hl
  rw [e2, g, abs_of_pos (by linarith)] at hl
  rw [e2, g]
  exact hl

/-- C90.  `intpart(x)` is x cut off, towards zero, to a whole number. -/
theorem C90_intpart (x : Nat) (h : Fin f x) : Fin f (intpart f x) ∧ Cut 1 (value f x) (value f (intpart f x)) :=
  (intpart_cases f h).1

/-- C90.  `intpart(x) + fractpart(x)` is x, and the absolute value of `fractpart(x)` is less than 1. -/
theorem C90_fractpart (M : Machine) (hM : M.Ok f) (x : Nat) (h : Fin f x) :
    value f (intpart f x) + value f (fractpart f M x) = value f x ∧ |value f (fractpart f M x)| < 1 := by
  obtain ⟨⟨h1, h2⟩, d, h3, h4⟩ := intpart_cases f h
  have key := hM.sub x _ _ h h1 h3 h4
  have e : value f (fractpart f M x) = value f x - value f (intpart f x) := by rw [← h4]; exact key.2
  rw [e]
  exact ⟨by ring, cut_diff h2⟩

/-- The value of a number is a multiple of its last places. -/
theorem multiple {x : Nat} {n : Int} (h : Normal f x) (hn : f.places ≤ n) :
    ∃ k : ℤ, value f x = k * 2 ^ (exponent f x - n + 1) := by
  unfold Fmt.places at hn
  refine ⟨(if f.sgn x = 1 then -1 else 1) * (2 ^ f.m + f.man x) * 2 ^ (n - 1 - f.m).toNat, ?_⟩
  have e : (2 : ℚ) ^ (n - 1 - f.m).toNat * 2 ^ (exponent f x - n + 1) = 2 ^ ((f.ex x : Int) - f.bias - f.m) := by
    rw [← zpow_natCast, ← zpow_add₀ (by norm_num), exponent_normal f h]
    congr 1
    omega
  rw [value_normal f h, ← e]
  split <;> push_cast <;> ring

/-- C90.  `trunc(x, n)` is x cut off, towards zero, to its n most significant places. -/
theorem C90_trunc (x : Nat) (n : Int) (h : Normal f x) (hn : 1 ≤ n) :
    Fin f (trunc f x n) ∧ Cut (2 ^ (exponent f x - n + 1)) (value f x) (value f (trunc f x n)) := by
  unfold trunc
  dsimp only
  rw [if_neg (by omega)]
  split
  · rename_i hlo
    obtain ⟨k, hk⟩ := multiple f h (n := n) (by omega)
    have hpos : (0 : ℚ) < 2 ^ (exponent f x - n + 1) := zpow_pos (by norm_num) _
    exact ⟨h.1, k, hk, le_refl _, by linarith, mul_self_nonneg _⟩
  · rename_i hlo
    unfold Fmt.places at hlo ⊢
    have hl : ((f.m : Int) + 1 - n).toNat ≤ f.m := by omega
    have hc := clear_cut f h hl
    have e : (((f.m : Int) + 1 - n).toNat : Int) + f.ex x - f.bias - f.m = exponent f x - n + 1 := by
      rw [exponent_normal f h]; omega
    rw [e] at hc
    exact ⟨(clear_units f h hl).1.1, hc⟩

/-- C90.  `round(x, n)` is a number with n significant places next to x.  (Partial: x must not be so large that the result
can be greater than all numbers, and not so small that its n-th place is less than 2 ^ `expoMin`.) -/
theorem C90_round_partial (M : Machine) (hM : M.Ok f) (x : Nat) (n : Int) (h : Normal f x) (hn : 1 ≤ n)
    (h1 : f.expoMin ≤ exponent f x - n + 1) (h2 : exponent f x < f.expoMax) :
    Fin f (round f M x n) ∧ Nearest (2 ^ (exponent f x - n + 1)) (value f x) (value f (round f M x n)) := by
  have hb := pow_w f
  have h3 := bias_pos f
  unfold round
  dsimp only
  rw [if_neg (by omega)]
  split
  · obtain ⟨k, hk⟩ := multiple f h (n := n) (by omega)
    have hpos : (0 : ℚ) < 2 ^ (exponent f x - n + 1) := zpow_pos (by norm_num) _
    exact ⟨h.1, k, hk, by rw [sub_self, abs_zero]; linarith⟩
  · rename_i hlo
    unfold Fmt.places at hlo ⊢
    have hx := exponent_normal f h
    have h0 := h.2
    obtain ⟨l, hl⟩ : ∃ l : Nat, (f.m : Int) + 1 - n = (l + 1 : Nat) := ⟨((f.m : Int) - n).toNat, by omega⟩
    have hlm : l + 1 ≤ f.m := by omega
    rw [hl, Int.toNat_natCast, show (((l + 1 : Nat) : Int) - 1).toNat = l by omega]
    obtain ⟨c1, c2, c3⟩ := clear_units f h hlm
    have hN : x % 2 ^ (l + 1) = (2 ^ f.m + f.man x) % 2 ^ (l + 1) := by
      have hd : 2 ^ (l + 1) ∣ 2 ^ f.m := Nat.pow_dvd_pow _ hlm
      rw [Nat.add_mod, Nat.mod_eq_zero_of_dvd hd, Nat.zero_add, Nat.mod_mod]
      unfold Fmt.man
      rw [Nat.mod_mod_of_dvd _ hd]
    have hxu : f.units x = if f.sgn x = 1 then - (((2 ^ f.m + f.man x) * 2 ^ (f.ex x - 1) : Nat) : Int)
        else (((2 ^ f.m + f.man x) * 2 ^ (f.ex x - 1) : Nat) : Int) := by
      unfold Fmt.units; rw [normal_mag f h]
    have hdm := Nat.div_add_mod (2 ^ f.m + f.man x) (2 ^ (l + 1))
    have hml := Nat.mod_lt (2 ^ f.m + f.man x) (two_pos (l + 1))
    have hman := man_lt f x
    have hps : 2 ^ (l + 1) = 2 ^ l * 2 := Nat.pow_succ ..
    have hU : 2 ^ (l + 1 + f.ex x - 1) = 2 ^ (l + 1) * 2 ^ (f.ex x - 1) := by
      rw [← Nat.pow_add]; congr 1; omega
    have hu : (2 : ℚ) ^ (exponent f x - n + 1) = ((2 ^ (l + 1 + f.ex x - 1) : Nat) : ℚ) * unit f := by
      rw [unit_shift, hx]; congr 1; omega
    rw [bit_mod, hN]
    generalize hA : 2 ^ f.m + f.man x = A at *
    generalize hq : A / 2 ^ (l + 1) = q at *
    generalize hρ : A % 2 ^ (l + 1) = ρ at *
    by_cases hbit : 2 ^ l ≤ ρ
    · rw [if_pos (by exact decide_eq_true hbit)]
      have hxt : exponent f (x &&& rng (l + 1) (f.m + f.w)) = exponent f x := by
        rw [exponent_normal f c1, c3, hx]
      rw [hxt]
      obtain ⟨g1, g2⟩ := scale_one f (M := M) h1 (by have := f.hm; omega)
      have hge : f.m + (exponent f x - n + 1 + f.bias).toNat - 1 = l + 1 + f.ex x - 1 := by
        unfold Fmt.expoMin at h1; omega
      rw [hge] at g2
      have hw := ex_lt f x
      have hlt : f.ex x + 1 < 2 ^ f.w - 1 := by
        unfold Fmt.expoMax at h2; omega
      have hrep : ∃ c, c / 2 ^ f.m < 2 ^ f.w - 1 ∧ magc f c = (q + 1) * 2 ^ (l + 1 + f.ex x - 1) := by
        have hle : (q + 1) * 2 ^ (l + 1) ≤ 2 ^ (f.m + 1) := by
          have hA2 : A < 2 ^ (f.m + 1) := by rw [Nat.pow_succ]; omega
          have hk : 2 ^ (f.m + 1) = 2 ^ (f.m - l) * 2 ^ (l + 1) := by
            rw [← Nat.pow_add]; congr 1; omega
          have : q < 2 ^ (f.m - l) := by
            rw [← hq, Nat.div_lt_iff_lt_mul (two_pos _), ← hk]; exact hA2
          rw [hk]
          exact Nat.mul_le_mul_right _ this
        rcases Nat.lt_or_eq_of_le hle with hh | hh
        · obtain ⟨c, r1, r2⟩ := repr f hh (j := f.ex x - 1) (by omega)
          exact ⟨c, r1, by rw [r2, hU, Nat.mul_assoc]⟩
        · obtain ⟨c, r1, r2⟩ := repr f (n := 2 ^ f.m) (j := f.ex x) (by rw [Nat.pow_succ]; have := two_pos f.m; omega) hlt
          refine ⟨c, r1, ?_⟩
          rw [r2, hU, ← Nat.mul_assoc, hh, ← Nat.pow_add, ← Nat.pow_add]
          congr 1; omega
      obtain ⟨c, r1, r2⟩ := hrep
      obtain ⟨d1, d2⟩ := build_of_code f (sgn_lt f x) r1
      rw [r2] at d2
      have near (r : Nat) (hr : value f r = value f (build f (f.sgn x) (c / 2 ^ f.m) (c % 2 ^ f.m))) :
          Nearest (2 ^ (exponent f x - n + 1)) (value f x) (value f r) := by
        have hr' := (value_inj f _ _).mp hr
        rw [d2] at hr'
        refine near_units f hxu hr' ?_ ?_ hu
        · rw [hU, ← Nat.mul_assoc, ← Nat.mul_assoc, ← Nat.mul_assoc, ← Nat.add_mul]
          refine Nat.mul_le_mul_right _ ?_
          rw [Nat.mul_comm] at hdm
          rw [Nat.mul_add, Nat.add_mul, Nat.mul_assoc]
          omega
        · rw [hU, ← Nat.mul_assoc, ← Nat.mul_assoc, ← Nat.mul_assoc, ← Nat.add_mul]
          refine Nat.mul_le_mul_right _ ?_
          rw [Nat.mul_comm] at hdm
          rw [Nat.mul_add, Nat.add_mul, Nat.mul_assoc]
          omega
      have hsb : x.testBit (f.m + f.w) = decide (f.sgn x = 1) := by
        rw [Nat.testBit_eq_decide_div_mod_eq]; rfl
      rw [hsb]
      rcases sgn_cases f x with s | s
      · rw [if_neg (by rw [s]; decide)]
        have key := hM.add _ _ _ c1.1 g1 d1 (by
          rw [value_eq, value_eq, value_eq, d2, c2, g2, s]
          simp
          ring)
        exact ⟨key.1, near _ key.2⟩
      · rw [if_pos (by rw [s]; decide)]
        have key := hM.sub _ _ _ c1.1 g1 d1 (by
          rw [value_eq, value_eq, value_eq, d2, c2, g2, s]
          simp
          ring)
        exact ⟨key.1, near _ key.2⟩
    · rw [if_neg (by rw [decide_eq_false hbit]; decide)]
      refine ⟨c1.1, near_units f hxu c2 ?_ ?_ hu⟩
      · rw [hU, ← Nat.mul_assoc, ← Nat.mul_assoc, ← Nat.mul_assoc, ← Nat.add_mul]
        refine Nat.mul_le_mul_right _ ?_
        rw [Nat.mul_comm] at hdm
        rw [Nat.mul_assoc]
        omega
      · rw [hU, ← Nat.mul_assoc, ← Nat.mul_assoc, ← Nat.mul_assoc, ← Nat.add_mul]
        refine Nat.mul_le_mul_right _ ?_
        rw [Nat.mul_comm] at hdm
        rw [Nat.mul_assoc]
        omega

/-! ## The hypotheses can be met -/

/-- 3.14159274 (REAL): `C90_parts_partial`, `C90_scale_partial`, `C90_ulp_partial`, `C90_succ_partial`, `C90_trunc`,
`C90_round_partial`. -/
example : (machine real).Ok real ∧ Normal real 0x40490FDB ∧ 0 < value real 0x40490FDB ∧
    real.expoMin + real.m ≤ exponent real 0x40490FDB ∧ value real 0x40490FDB ≠ value real (large real) ∧
    exponent real 0x40490FDB + 20 ≤ real.expoMax ∧ real.expoMin ≤ exponent real 0x40490FDB - 5 + 1 ∧
    exponent real 0x40490FDB < real.expoMax := by
  refine ⟨machine_ok real, ⟨⟨by decide, by decide⟩, by decide⟩, ?_, by decide +kernel, ?_, by decide +kernel,
    by decide +kernel, by decide +kernel⟩
  · have h : value real 0 < value real 0x40490FDB := (value_lt real _ _).mpr (by decide +kernel)
    rwa [show value real 0 = 0 by rw [value_eq, (zero_units real).1]; simp] at h
  · rw [Ne, value_inj]; decide +kernel

/-- 3.141592653589793 (LONGREAL), and its negative: `C90_succ_negative`, `C90_pred_negative`. -/
example : (machine longreal).Ok longreal ∧ Normal longreal 0xC00921FB54442D18 ∧ value longreal 0xC00921FB54442D18 < 0 ∧
    longreal.expoMin + longreal.m ≤ exponent longreal 0xC00921FB54442D18 ∧ longreal.man 0xC00921FB54442D18 ≠ 0 := by
  refine ⟨machine_ok longreal, ⟨⟨by decide, by decide⟩, by decide⟩, ?_, by decide +kernel, by decide +kernel⟩
  rw [← units_neg]; decide +kernel

/-- `pred(1.0)` is not the next smaller number. -/
example (M : Machine) (hM : M.Ok real) :
    ∃ y, Fin real y ∧ value real (pred real M (one real)) < value real y ∧ value real y < 1 := by
  have h := C90_pred_power real M hM (one real) (one_fields real).2.2.2 (by decide +kernel)
    (by rw [one_value, show exponent real (one real) = 0 by decide +kernel, zpow_zero])
  rwa [one_value] at h

/-- `succ(-1.0)` is less than -1.0. -/
example (M : Machine) (hM : M.Ok real) : value real (succ real M (minusOne real)) < -1 := by
  have hv := (minusOne_value real).2
  have h := C90_succ_negative real M hM (minusOne real) ⟨(minusOne_value real).1, by decide +kernel⟩
    (by rw [hv]; norm_num) (by decide +kernel) (by
      rw [hv]
      intro hh
      have : value real (one real) = value real (large real) := by rw [one_value]; linarith
      rw [value_inj] at this
      exact absurd this (by decide +kernel))
  rw [← hv]
  exact h.2

/-- The least positive number: `C90_subnormal`. -/
example : Fin real 1 ∧ value real 1 ≠ 0 ∧ |value real 1| < 2 ^ real.expoMin := by
  refine ⟨⟨by decide, by decide⟩, ?_, ?_⟩
  · rw [value_eq, show real.units 1 = 1 by decide +kernel]
    simpa using (unit_pos real).ne'
  · have hu := unit_pos real
    rw [value_eq, show real.units 1 = 1 by decide +kernel, ← pow_min, Int.cast_one, one_mul, abs_of_pos hu]
    have : (1 : ℚ) < 2 ^ real.m := by rw [show real.m = 23 from rfl]; norm_num
    exact lt_mul_of_one_lt_left hu this

end Verif.RealBits
