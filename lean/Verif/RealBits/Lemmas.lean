import Verif.RealBits.Spec
import Verif.Common

namespace Verif.RealBits
variable (f : Fmt)

/-- The bits with the given sign, exponent and significand. -/
def build (s e q : Nat) : Nat := 2 ^ f.m * (2 ^ f.w * s + e) + q

theorem rng_bit (a b i : Nat) : (rng a b).testBit i = decide (a ≤ i ∧ i ≤ b) := by
  unfold rng
  rw [Nat.testBit_shiftLeft, Nat.testBit_two_pow_sub_one, ← Bool.decide_and]
  exact decide_eq_decide.mpr (by omega)

theorem nMask_bit (i : Nat) : (nMask f).testBit i = decide (i < f.m ∨ i = f.m + f.w) := by
  unfold nMask
  have := f.hm
  rw [Nat.testBit_or, rng_bit, rng_bit, ← Bool.decide_or]
  exact decide_eq_decide.mpr (by omega)

theorem bit_ge {x n i : Nat} (h : x < 2 ^ n) (hi : n ≤ i) : x.testBit i = false :=
  Nat.testBit_lt_two_pow (h.trans_le (Nat.pow_le_pow_right (by decide) hi))

theorem two_pos (n : Nat) : 0 < 2 ^ n := Nat.two_pow_pos n

theorem man_lt (x : Nat) : f.man x < 2 ^ f.m := Nat.mod_lt _ (two_pos _)
theorem ex_lt (x : Nat) : f.ex x < 2 ^ f.w := Nat.mod_lt _ (two_pos _)
theorem sgn_lt (x : Nat) : f.sgn x < 2 := Nat.mod_lt _ (by decide)

theorem build_bit {s e q : Nat} (he : e < 2 ^ f.w) (hq : q < 2 ^ f.m) (i : Nat) :
    (build f s e q).testBit i =
      if i < f.m then q.testBit i else if i - f.m < f.w then e.testBit (i - f.m) else s.testBit (i - f.m - f.w) := by
  unfold build
  rw [Nat.testBit_two_pow_mul_add _ hq, Nat.testBit_two_pow_mul_add _ he]

theorem build_man {s e q : Nat} (hq : q < 2 ^ f.m) : f.man (build f s e q) = q := by
  unfold Fmt.man build
  rw [Nat.mul_add_mod, Nat.mod_eq_of_lt hq]

theorem build_div {s e q : Nat} (hq : q < 2 ^ f.m) : build f s e q / 2 ^ f.m = 2 ^ f.w * s + e := by
  unfold build
  rw [Nat.mul_add_div (two_pos _), Nat.div_eq_of_lt hq, Nat.add_zero]

theorem build_ex {s e q : Nat} (he : e < 2 ^ f.w) (hq : q < 2 ^ f.m) : f.ex (build f s e q) = e := by
  unfold Fmt.ex
  rw [build_div f hq, Nat.mul_add_mod, Nat.mod_eq_of_lt he]

theorem build_sgn {s e q : Nat} (hs : s < 2) (he : e < 2 ^ f.w) (hq : q < 2 ^ f.m) : f.sgn (build f s e q) = s := by
  unfold Fmt.sgn
  rw [Nat.pow_add, ← Nat.div_div_eq_div_mul, build_div f hq, Nat.mul_add_div (two_pos _), Nat.div_eq_of_lt he,
    Nat.add_zero, Nat.mod_eq_of_lt hs]

theorem build_lt {s e q : Nat} (hs : s < 2) (he : e < 2 ^ f.w) (hq : q < 2 ^ f.m) :
    build f s e q < 2 ^ (f.m + f.w + 1) := by
  unfold build
  have h1 : 2 ^ f.w * s + e + 1 ≤ 2 ^ f.w * 2 := by
    have : 2 ^ f.w * s ≤ 2 ^ f.w * 1 := Nat.mul_le_mul_left _ (by omega)
    omega
  have h2 := Nat.mul_le_mul_left (2 ^ f.m) h1
  have h3 : 2 ^ (f.m + f.w + 1) = 2 ^ f.m * (2 ^ f.w * 2) := by rw [Nat.pow_add, Nat.pow_add]; ring
  rw [Nat.mul_add, Nat.mul_one] at h2
  omega

theorem decomp {x : Nat} (h : x < 2 ^ (f.m + f.w + 1)) : x = build f (f.sgn x) (f.ex x) (f.man x) := by
  unfold build Fmt.sgn Fmt.ex Fmt.man
  have h1 : x / 2 ^ (f.m + f.w) < 2 := by
    rw [Nat.div_lt_iff_lt_mul (two_pos _)]
    rw [Nat.pow_succ] at h; omega
  rw [Nat.mod_eq_of_lt h1, Nat.pow_add, ← Nat.div_div_eq_div_mul, Nat.div_add_mod, Nat.div_add_mod]

/-- Replacing the exponent. -/
theorem replace {x k : Nat} (hx : x < 2 ^ (f.m + f.w + 1)) (hk : k < 2 ^ f.w) :
    (x &&& nMask f) ||| k <<< f.m = build f (f.sgn x) k (f.man x) := by
  apply Nat.eq_of_testBit_eq
  intro i
  rw [build_bit f hk (man_lt f x), Nat.testBit_or, Nat.testBit_and, nMask_bit, Nat.testBit_shiftLeft]
  unfold Fmt.man
  rw [Nat.testBit_mod_two_pow]
  by_cases h1 : i < f.m
  · have h2 : ¬ i ≥ f.m := by omega
    simp [h1, h2]
  · rw [if_neg h1]
    by_cases h2 : i - f.m < f.w
    · have h3 : ¬ (i < f.m ∨ i = f.m + f.w) := by omega
      have h4 : i ≥ f.m := by omega
      simp [h2, h3, h4]
    · rw [if_neg h2]
      have h5 : k.testBit (i - f.m) = false := bit_ge hk (by omega)
      have hs : (f.sgn x) = x / 2 ^ (f.m + f.w) := by
        unfold Fmt.sgn
        apply Nat.mod_eq_of_lt
        rw [Nat.div_lt_iff_lt_mul (two_pos _)]
        rw [Nat.pow_succ] at hx; omega
      rw [h5, hs, Nat.testBit_div_two_pow]
      have h6 : i - f.m - f.w + (f.m + f.w) = i := by omega
      rw [h6]
      by_cases h7 : i = f.m + f.w
      · simp [h7]
      · have h8 : x.testBit i = false := bit_ge hx (by omega)
        simp [h8]

/-- Clearing the lower bits. -/
theorem clear {x lo hi : Nat} (hx : x < 2 ^ (hi + 1)) : x &&& rng lo hi = 2 ^ lo * (x / 2 ^ lo) := by
  apply Nat.eq_of_testBit_eq
  intro i
  have h0 := Nat.testBit_two_pow_mul_add (x / 2 ^ lo) (two_pos lo) i
  rw [Nat.add_zero] at h0
  rw [h0, Nat.testBit_and, rng_bit, Nat.zero_testBit, Nat.testBit_div_two_pow]
  by_cases h1 : i < lo
  · have : ¬ (lo ≤ i ∧ i ≤ hi) := by omega
    simp [h1, this]
  · rw [if_neg h1, show i - lo + lo = i by omega]
    by_cases h2 : i ≤ hi
    · have : (lo ≤ i ∧ i ≤ hi) := by omega
      simp [this]
    · rw [bit_ge hx (by omega)]; rfl

theorem clear_build {x lo : Nat} (hx : x < 2 ^ (f.m + f.w + 1)) (hlo : lo ≤ f.m) :
    x &&& rng lo (f.m + f.w) = build f (f.sgn x) (f.ex x) (2 ^ lo * (f.man x / 2 ^ lo)) := by
  rw [clear hx]
  conv_lhs => rw [decomp f hx]
  unfold build
  obtain ⟨k, hk⟩ := Nat.exists_eq_add_of_le hlo
  have h1 : 2 ^ f.m = 2 ^ lo * 2 ^ k := by rw [hk, Nat.pow_add]
  rw [h1, Nat.mul_assoc, Nat.mul_add_div (two_pos _), Nat.mul_add]

/-! ## Values -/

theorem units_build {s e q : Nat} (hs : s < 2) (he : e < 2 ^ f.w) (hq : q < 2 ^ f.m) :
    f.units (build f s e q) =
      if s = 1 then - ((if e = 0 then q else (2 ^ f.m + q) * 2 ^ (e - 1) : Nat) : Int)
      else ((if e = 0 then q else (2 ^ f.m + q) * 2 ^ (e - 1) : Nat) : Int) := by
  unfold Fmt.units Fmt.mag
  rw [build_sgn f hs he hq, build_ex f he hq, build_man f hq]

/-- The unit of the values. -/
def unit : ℚ := 2 ^ (1 - (f.bias : Int) - f.m)

theorem unit_pos : 0 < unit f := zpow_pos (by norm_num) _

theorem value_eq (x : Nat) : value f x = f.units x * unit f := rfl

theorem value_lt (x y : Nat) : value f x < value f y ↔ f.units x < f.units y := by
  rw [value_eq, value_eq, mul_lt_mul_iff_left₀ (unit_pos f)]; exact_mod_cast Iff.rfl

theorem value_le (x y : Nat) : value f x ≤ value f y ↔ f.units x ≤ f.units y := by
  rw [value_eq, value_eq, mul_le_mul_iff_left₀ (unit_pos f)]; exact_mod_cast Iff.rfl

theorem value_inj (x y : Nat) : value f x = value f y ↔ f.units x = f.units y := by
  rw [value_eq, value_eq, mul_left_inj' (unit_pos f).ne']; exact_mod_cast Iff.rfl

theorem bias_pos : 3 ≤ f.bias := by
  have := f.hb; have := f.hm; unfold Fmt.bias; omega

theorem pow_w : 2 ^ f.w = 2 * f.bias + 2 := by
  unfold Fmt.bias
  have := f.hw
  obtain ⟨k, hk⟩ := Nat.exists_eq_add_of_le this
  have h2 := two_pos (f.w - 1)
  have h3 : f.w = f.w - 1 + 1 := by omega
  rw [h3, Nat.pow_succ]
  simp only [Nat.add_sub_cancel]
  omega

theorem one_build : one f = build f 0 f.bias 0 := by
  unfold one build; rw [Nat.shiftLeft_eq]; ring

theorem two_build : two f = build f 0 (f.bias + 1) 0 := by
  unfold two build; rw [Nat.shiftLeft_eq]; ring

theorem minusOne_build : minusOne f = build f 1 f.bias 0 := by
  have hb := pow_w f
  have h := Nat.shiftLeft_add_eq_or_of_lt (i := f.m + f.w) (b := f.bias <<< f.m)
    (by rw [Nat.shiftLeft_eq, Nat.pow_add, Nat.mul_comm]; exact Nat.mul_lt_mul_of_pos_left (by omega) (two_pos _)) 1
  unfold minusOne
  rw [← h, build, Nat.shiftLeft_eq, Nat.shiftLeft_eq, Nat.pow_add]; ring

/-- The exponent that `fraction` puts in. -/
theorem eZero_eq : eZero f = (f.bias - 1) <<< f.m := by
  have hw := f.hw
  unfold eZero rng
  have h1 : f.m + f.w - 2 + 1 - (f.m + 1) = f.w - 2 := by omega
  rw [h1, Nat.shiftLeft_eq, Nat.shiftLeft_eq, Nat.pow_succ]
  have h2 : f.bias - 1 = (2 ^ (f.w - 2) - 1) * 2 := by
    unfold Fmt.bias
    have h3 : f.w - 1 = f.w - 2 + 1 := by omega
    rw [h3, Nat.pow_succ]
    omega
  rw [h2]; ring

/-! ## The order of the numbers -/

/-- The value without sign of the bits without sign. -/
def magc (c : Nat) : Nat :=
  if c / 2 ^ f.m = 0 then c % 2 ^ f.m else (2 ^ f.m + c % 2 ^ f.m) * 2 ^ (c / 2 ^ f.m - 1)

/-- The bits without sign. -/
def code (x : Nat) : Nat := x % 2 ^ (f.m + f.w)

theorem magc_succ (c : Nat) : magc f (c + 1) = magc f c + 2 ^ (c / 2 ^ f.m - 1) := by
  unfold magc
  have hp := two_pos f.m
  generalize 2 ^ f.m = P at hp ⊢
  have hc := Nat.div_add_mod c P
  have hlt := Nat.mod_lt c hp
  generalize he : c / P = e at hc ⊢
  generalize hr : c % P = r at hc hlt ⊢
  by_cases h : r + 1 < P
  · have h1 : c + 1 = P * e + (r + 1) := by omega
    rw [h1, Nat.mul_add_div hp, Nat.div_eq_of_lt h, Nat.add_zero, Nat.mul_add_mod, Nat.mod_eq_of_lt h]
    by_cases h0 : e = 0
    · subst h0; simp
    · rw [if_neg h0, if_neg h0]; ring
  · have h2 : r + 1 = P := by omega
    have h1 : c + 1 = P * (e + 1) + 0 := by rw [Nat.mul_add]; omega
    rw [h1, Nat.mul_add_div hp, Nat.zero_div, Nat.add_zero, Nat.mul_add_mod, Nat.zero_mod, if_neg (by omega)]
    by_cases h0 : e = 0
    · subst h0; simp; omega
    · rw [if_neg h0]
      obtain ⟨k, rfl⟩ := Nat.exists_eq_add_of_le (Nat.one_le_iff_ne_zero.mpr h0)
      have e1 : 1 + k + 1 - 1 = k + 1 := by omega
      have e2 : 1 + k - 1 = k := by omega
      rw [e1, e2, Nat.pow_succ, ← h2]; ring

theorem magc_lt (c d : Nat) (h : c < d) : magc f c < magc f d := by
  induction d with
  | zero => omega
  | succ d ih =>
    rw [magc_succ]
    have := two_pos (d / 2 ^ f.m - 1)
    rcases Nat.lt_succ_iff_lt_or_eq.mp h with h | rfl
    · have := ih h; omega
    · omega

theorem magc_le (c d : Nat) (h : c ≤ d) : magc f c ≤ magc f d := by
  rcases Nat.lt_or_eq_of_le h with h | rfl
  · exact (magc_lt f _ _ h).le
  · exact le_refl _

theorem magc_lt_iff (c d : Nat) : magc f c < magc f d ↔ c < d := by
  constructor
  · intro h
    by_contra h1
    exact absurd (magc_le f d c (by omega)) (by omega)
  · exact magc_lt f c d

theorem code_div (x : Nat) : code f x / 2 ^ f.m = f.ex x := by
  unfold code Fmt.ex
  rw [Nat.pow_add, Nat.mod_mul_right_div_self]

theorem code_mod (x : Nat) : code f x % 2 ^ f.m = f.man x := by
  unfold code Fmt.man
  exact Nat.mod_mod_of_dvd _ (by rw [Nat.pow_add]; exact Nat.dvd_mul_right _ _)

theorem mag_code (x : Nat) : f.mag x = magc f (code f x) := by
  unfold Fmt.mag magc
  rw [code_div, code_mod]

theorem code_eq (x : Nat) : code f x = 2 ^ f.m * f.ex x + f.man x := by
  rw [← code_div, ← code_mod, Nat.div_add_mod]

/-- The bits with the given sign. -/
theorem build_of_code {s c : Nat} (hs : s < 2) (hc : c / 2 ^ f.m < 2 ^ f.w - 1) :
    Fin f (build f s (c / 2 ^ f.m) (c % 2 ^ f.m)) ∧
    f.units (build f s (c / 2 ^ f.m) (c % 2 ^ f.m)) = if s = 1 then - (magc f c : Int) else magc f c := by
  have hm := Nat.mod_lt c (two_pos f.m)
  have he : c / 2 ^ f.m < 2 ^ f.w := lt_of_lt_of_le hc (Nat.sub_le _ _)
  refine ⟨⟨build_lt f hs he hm, ?_⟩, ?_⟩
  · rw [build_ex f he hm]; exact Nat.ne_of_lt hc
  · rw [units_build f hs he hm]; rfl

/-- A multiple of a power of two with at most `m + 1` bits is a number. -/
theorem repr {n j : Nat} (hn : n < 2 ^ (f.m + 1)) (hj : j + 1 < 2 ^ f.w - 1) :
    ∃ c, c / 2 ^ f.m < 2 ^ f.w - 1 ∧ magc f c = n * 2 ^ j := by
  induction j generalizing n with
  | zero =>
    by_cases h : n < 2 ^ f.m
    · refine ⟨n, ?_, ?_⟩
      · rw [Nat.div_eq_of_lt h]; omega
      · unfold magc; rw [Nat.div_eq_of_lt h, if_pos rfl, Nat.mod_eq_of_lt h]; simp
    · have h1 : n - 2 ^ f.m < 2 ^ f.m := by rw [Nat.pow_succ] at hn; omega
      refine ⟨2 ^ f.m * 1 + (n - 2 ^ f.m), ?_, ?_⟩
      · rw [Nat.mul_add_div (two_pos _), Nat.div_eq_of_lt h1]; omega
      · unfold magc
        rw [Nat.mul_add_div (two_pos _), Nat.div_eq_of_lt h1, if_neg (by omega), Nat.mul_add_mod, Nat.mod_eq_of_lt h1]
        simp; omega
  | succ j ih =>
    by_cases h : n < 2 ^ f.m
    · obtain ⟨c, h1, h2⟩ := ih (n := n * 2) (by rw [Nat.pow_succ]; omega) (by omega)
      exact ⟨c, h1, by rw [h2, Nat.pow_succ]; ring⟩
    · have h1 : n - 2 ^ f.m < 2 ^ f.m := by rw [Nat.pow_succ] at hn; omega
      refine ⟨2 ^ f.m * (j + 2) + (n - 2 ^ f.m), ?_, ?_⟩
      · rw [Nat.mul_add_div (two_pos _), Nat.div_eq_of_lt h1]; omega
      · unfold magc
        rw [Nat.mul_add_div (two_pos _), Nat.div_eq_of_lt h1, if_neg (by omega), Nat.mul_add_mod, Nat.mod_eq_of_lt h1,
          Nat.add_sub_cancel' (by omega)]
        rfl

/-! ## The procedures -/

theorem sgn_cases (x : Nat) : f.sgn x = 0 ∨ f.sgn x = 1 := by have := sgn_lt f x; omega

theorem units_code (x : Nat) : f.units x = if f.sgn x = 1 then - (magc f (code f x) : Int) else magc f (code f x) := by
  unfold Fmt.units; rw [mag_code]

theorem code_lt_of_fin {x : Nat} (h : Fin f x) : code f x / 2 ^ f.m < 2 ^ f.w - 1 := by
  rw [code_div]
  have := ex_lt f x
  have := h.2
  omega

theorem normal_mag {x : Nat} (h : Normal f x) : f.mag x = (2 ^ f.m + f.man x) * 2 ^ (f.ex x - 1) := by
  unfold Fmt.mag; rw [if_neg h.2]

theorem normal_pos {x : Nat} (h : Normal f x) : 0 < f.mag x := by
  rw [normal_mag f h]
  have := two_pos f.m
  exact Nat.mul_pos (by omega) (two_pos _)

theorem normal_units {x : Nat} (h : Normal f x) : f.units x ≠ 0 := by
  have := normal_pos f h
  unfold Fmt.units
  split <;> omega

theorem exponent_eq {x : Nat} (h : f.units x ≠ 0) : exponent f x = (f.ex x : Int) - f.bias := by
  unfold exponent
  rw [if_neg h, Nat.shiftRight_eq_div_pow]; rfl

theorem one_fields : f.sgn (one f) = 0 ∧ f.ex (one f) = f.bias ∧ f.man (one f) = 0 ∧ Normal f (one f) := by
  have hb := pow_w f
  have h3 := bias_pos f
  have hp := two_pos f.m
  rw [one_build]
  have e := build_ex f (s := 0) (e := f.bias) (q := 0) (by omega) hp
  refine ⟨build_sgn f (by decide) (by omega) hp, e, build_man f hp, ⟨build_lt f (by decide) (by omega) hp, ?_⟩, ?_⟩
  · rw [e]; omega
  · rw [e]; omega

theorem unit_mul : (2 : ℚ) ^ (f.m + f.bias - 1) * unit f = 1 := by
  have h3 := bias_pos f
  unfold unit
  rw [← zpow_natCast, ← zpow_add₀ (by norm_num)]
  have : ((f.m + f.bias - 1 : Nat) : Int) + (1 - f.bias - f.m) = 0 := by omega
  rw [this, zpow_zero]

theorem one_value : value f (one f) = 1 := by
  have hb := pow_w f
  have h3 := bias_pos f
  rw [value_eq, one_build, units_build f (by decide) (by omega) (two_pos _), if_neg (by decide), if_neg (by omega)]
  rw [← unit_mul f, Nat.add_zero, ← Nat.pow_add, show f.m + (f.bias - 1) = f.m + f.bias - 1 by omega]
  push_cast; rfl

theorem minusOne_value : Fin f (minusOne f) ∧ value f (minusOne f) = -1 := by
  have hb := pow_w f
  have h3 := bias_pos f
  have hp := two_pos f.m
  rw [minusOne_build]
  refine ⟨⟨build_lt f (by decide) (by omega) hp, ?_⟩, ?_⟩
  · rw [build_ex f (by omega) hp]; omega
  · rw [value_eq, units_build f (by decide) (by omega) hp, if_pos rfl, if_neg (by omega)]
    rw [← unit_mul f, Nat.add_zero, ← Nat.pow_add, show f.m + (f.bias - 1) = f.m + f.bias - 1 by omega]
    push_cast; ring

theorem two_value : Fin f (two f) ∧ value f (two f) = 2 := by
  have hb := pow_w f
  have h3 := bias_pos f
  have hp := two_pos f.m
  rw [two_build]
  refine ⟨⟨build_lt f (by decide) (by omega) hp, ?_⟩, ?_⟩
  · rw [build_ex f (by omega) hp]; omega
  · rw [value_eq, units_build f (by decide) (by omega) hp, if_neg (by decide), if_neg (by omega)]
    have := unit_mul f
    rw [Nat.add_zero, ← Nat.pow_add, show f.m + (f.bias + 1 - 1) = f.m + f.bias - 1 + 1 by omega, Nat.pow_succ]
    push_cast
    linarith

theorem sign_value (x : Nat) :
    Fin f (sign f x) ∧ value f (sign f x) = if f.units x < 0 then -1 else 1 := by
  unfold sign
  split
  · exact minusOne_value f
  · exact ⟨(one_fields f).2.2.2.1, one_value f⟩

/-- Multiplying by the sign. -/
theorem mul_sign {M : Machine} (hM : M.Ok f) {a x : Nat} (ha : Fin f a) :
    Fin f (M.mul a (sign f x)) ∧ value f (M.mul a (sign f x)) = if f.units x < 0 then - value f a else value f a := by
  obtain ⟨h1, h2⟩ := sign_value f x
  have hc := code_lt_of_fin f ha
  by_cases hn : f.units x < 0
  · rw [if_pos hn] at h2 ⊢
    have hs : (if f.sgn a = 1 then 0 else 1) < 2 := by split <;> omega
    obtain ⟨g1, g2⟩ := build_of_code f (s := if f.sgn a = 1 then 0 else 1) hs hc
    have e : value f (build f (if f.sgn a = 1 then 0 else 1) (code f a / 2 ^ f.m) (code f a % 2 ^ f.m)) = - value f a := by
      rw [value_eq, value_eq, g2, units_code]
      rcases sgn_cases f a with h | h
      · simp [h]
      · simp [h]
    have := hM.mul a (sign f x) _ ha h1 g1 (by rw [e, h2]; ring)
    rw [e] at this
    exact this
  · rw [if_neg hn] at h2 ⊢
    exact hM.mul a (sign f x) a ha h1 ha (by rw [h2]; ring)

theorem scale_mid {M : Machine} {x : Nat} {n : Int} (h : Fin f x) (h0 : f.units x ≠ 0)
    (h1 : f.expoMin ≤ exponent f x + n) (h2 : exponent f x + n ≤ f.expoMax) :
    scale f M x n = build f (f.sgn x) (exponent f x + n + f.bias).toNat (f.man x) ∧
    (exponent f x + n + f.bias).toNat < 2 ^ f.w - 1 ∧ 1 ≤ (exponent f x + n + f.bias).toNat := by
  have hb := pow_w f
  unfold Fmt.expoMin at h1
  unfold Fmt.expoMax at h2
  have hk : (exponent f x + n + f.bias).toNat < 2 ^ f.w - 1 := by omega
  refine ⟨?_, hk, by omega⟩
  unfold scale
  rw [if_neg h0]
  dsimp only
  rw [if_neg (by unfold Fmt.expoMax; omega), if_neg (by unfold Fmt.expoMin; omega)]
  exact replace f h.1 (by omega)

/-- A positive power of two. -/
theorem scale_one {M : Machine} {n : Int} (h1 : f.expoMin ≤ n) (h2 : n ≤ f.expoMax) :
    Fin f (scale f M (one f) n) ∧ f.units (scale f M (one f) n) = 2 ^ (f.m + (n + f.bias).toNat - 1) := by
  obtain ⟨o1, o2, o3, o4⟩ := one_fields f
  have e : exponent f (one f) = 0 := by rw [exponent_eq f (normal_units f o4), o2]; omega
  obtain ⟨g1, g2, g3⟩ := scale_mid f (M := M) o4.1 (normal_units f o4) (n := n) (by rw [e]; omega) (by rw [e]; omega)
  rw [e, Int.zero_add] at g1 g2 g3
  rw [g1, o1, o3]
  refine ⟨⟨build_lt f (by decide) (by omega) (two_pos _), ?_⟩, ?_⟩
  · rw [build_ex f (by omega) (two_pos _)]; omega
  · rw [units_build f (by decide) (by omega) (two_pos _), if_neg (by decide), if_neg (by omega), Nat.add_zero,
      ← Nat.pow_add]
    push_cast
    rw [show f.m + ((n + f.bias).toNat - 1) = f.m + (n + f.bias).toNat - 1 by omega]

end Verif.RealBits
