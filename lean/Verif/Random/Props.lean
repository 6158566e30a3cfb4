import Verif.Common
import Verif.Random.Spec
import Verif.Random.Model
import Mathlib.NumberTheory.LucasPrimality
import Mathlib.GroupTheory.OrderOfElement
import Mathlib.Tactic.NormNum.Prime
import Mathlib.Tactic.Linarith
import Mathlib.Algebra.Order.Field.Rat

/-!
# C59: random numbers
-/
namespace Verif.Random
open Verif.Sums (Out chk)

theorem bind_ok {α β : Type} (a : α) (f : α → Out β) : (Out.ok a).bind f = f a := rfl

theorem chk_ok {x : Int} (h : -2147483648 ≤ x ∧ x ≤ 2147483647) : chk x = .ok x := if_pos h

theorem M_eq : (M : Int) = 2147483647 := rfl

/-! ### One step -/

/-- **C59**.  From a legal state the next is 16807 times it modulo 2³¹ − 1; nothing overflows, and it is legal again. -/
theorem C59_next (z : Int) (h : Good z) : nextRND z = .ok (parkMiller z) ∧ Good (parkMiller z) := by
  obtain ⟨h1, h2⟩ := h
  have hM := M_eq
  rw [hM] at h2
  have hq : z / 127773 * 127773 + z % 127773 = z := Int.ediv_mul_add_emod z 127773
  have hl0 : 0 ≤ z % 127773 := Int.emod_nonneg _ (by omega)
  have hl1 : z % 127773 < 127773 := Int.emod_lt_of_pos _ (by omega)
  unfold nextRND parkMiller Good
  rw [hM]
  simp only
  generalize z / 127773 = hi at *
  generalize z % 127773 = lo at *
  have hh : 0 ≤ hi ∧ hi ≤ 16807 := by omega
  rw [chk_ok (by omega), bind_ok, chk_ok (by omega), bind_ok, chk_ok (by omega), bind_ok]
  have key : 16807 * z = (16807 * lo - 2836 * hi) + 2147483647 * hi := by omega
  by_cases ht : 0 < 16807 * lo - 2836 * hi
  · rw [if_pos ht]
    have : 16807 * z % 2147483647 = 16807 * lo - 2836 * hi := by omega
    rw [this]
    exact ⟨rfl, by omega, by omega⟩
  · rw [if_neg ht, chk_ok (by omega)]
    have hne : 16807 * lo - 2836 * hi ≠ 0 ∧ -2147483647 < 16807 * lo - 2836 * hi := by
      constructor
      · intro h0
        have : lo = 0 ∧ hi = 0 ∨ 2836 ≤ lo := by omega
        omega
      · omega
    have : 16807 * z % 2147483647 = 16807 * lo - 2836 * hi + 2147483647 := by omega
    rw [this]
    exact ⟨rfl, by omega, by omega⟩

/-- **C59**.  Any number of calls gives the numbers of the sequence. -/
theorem C59_sequence (z : Int) (h : Good z) (n : Nat) : steps z n = .ok (sequence z n) ∧ Good (sequence z n) := by
  induction n with
  | zero => exact ⟨rfl, h⟩
  | succ n ih =>
    obtain ⟨e, g⟩ := ih
    obtain ⟨e', g'⟩ := C59_next _ g
    exact ⟨by simp only [steps]; rw [e, bind_ok, e']; rfl, g'⟩

/-- **C59**.  Any LONGINT may be a seed; one that is not a multiple of 2³¹ − 1 stands for its remainder. -/
theorem C59_seed (seed : Int) : Good (putSeed seed) ∧ (¬ (M : Int) ∣ seed → putSeed seed = seed % M) := by
  have hM := M_eq
  unfold putSeed Good
  rw [hM]
  simp only
  by_cases h : seed % 2147483647 = 0
  · rw [if_pos h]
    exact ⟨by omega, fun hn => absurd (Int.dvd_of_emod_eq_zero h) hn⟩
  · rw [if_neg h]
    exact ⟨by omega, fun _ => rfl⟩

/-- **C59**.  `RND(range)` returns a number from 0 to `range - 1`: the next of the sequence modulo `range`. -/
theorem C59_range (z range : Int) (h : Good z) (hr : 1 ≤ range) : ∃ k, rnd z range = .ok (parkMiller z, k) ∧
    k = parkMiller z % range ∧ 0 ≤ k ∧ k < range := by
  obtain ⟨e, _⟩ := C59_next z h
  refine ⟨parkMiller z % range, ?_, rfl, Int.emod_nonneg _ (by omega), Int.emod_lt_of_pos _ (by omega)⟩
  unfold rnd
  rw [e, bind_ok, if_neg (by omega)]

/-! ### The period -/

/-- Powers modulo `m` by repeated squaring, for the kernel to evaluate; `f` bounds the number of bits. -/
def powMod (m : Nat) : Nat → Nat → Nat → Nat
  | 0, _, _ => 1 % m
  | f + 1, a, n => if n = 0 then 1 % m else if n % 2 = 0 then powMod m f (a * a % m) (n / 2) else a * powMod m f (a * a % m) (n / 2) % m

theorem powMod_eq (m : Nat) : ∀ (f a n : Nat), n < 2 ^ f → powMod m f a n = a ^ n % m := by
  intro f
  induction f with
  | zero => intro a n h; have : n = 0 := by omega
            subst this; rfl
  | succ f ih =>
    intro a n h
    simp only [powMod]
    by_cases h0 : n = 0
    · rw [if_pos h0, h0, Nat.pow_zero]
    · rw [if_neg h0, ih _ _ (by rw [Nat.pow_succ] at h; omega)]
      have hsq : (a * a % m) ^ (n / 2) % m = a ^ (2 * (n / 2)) % m := by
        rw [← Nat.pow_mod, Nat.pow_mul, Nat.pow_two]
      by_cases h2 : n % 2 = 0
      · rw [if_pos h2, hsq]
        congr 2; omega
      · rw [if_neg h2, hsq, Nat.mul_mod, Nat.mod_mod, ← Nat.mul_mod, ← Nat.pow_succ']
        congr 2; omega

theorem zpow_one (n : Nat) (h : n < 2 ^ 31) : (16807 : ZMod M) ^ n = 1 ↔ powMod M 31 16807 n = 1 := by
  rw [powMod_eq M 31 16807 n h]
  have h1 : ((16807 ^ n : Nat) : ZMod M) = ((1 : Nat) : ZMod M) ↔ 16807 ^ n ≡ 1 [MOD M] := ZMod.natCast_eq_natCast_iff _ _ _
  rw [Nat.cast_pow, Nat.cast_one] at h1
  have h2 : ((16807 : Nat) : ZMod M) = 16807 := by norm_cast
  rw [h2] at h1
  rw [h1, Nat.ModEq]
  have : 1 % M = 1 := by decide
  rw [this]

theorem factors (q : Nat) (hq : q.Prime) (hd : q ∣ M - 1) : q = 2 ∨ q = 3 ∨ q = 7 ∨ q = 11 ∨ q = 31 ∨ q = 151 ∨ q = 331 := by
  have : M - 1 = 2 * 3 * 3 * 7 * 11 * 31 * 151 * 331 := by decide
  rw [this] at hd
  have pr : ∀ r : Nat, r.Prime → q ∣ r → q = r := fun r hr h => (Nat.prime_dvd_prime_iff_eq hq hr).mp h
  rcases hq.dvd_mul.mp hd with hd | hd
  · rcases hq.dvd_mul.mp hd with hd | hd
    · rcases hq.dvd_mul.mp hd with hd | hd
      · rcases hq.dvd_mul.mp hd with hd | hd
        · rcases hq.dvd_mul.mp hd with hd | hd
          · rcases hq.dvd_mul.mp hd with hd | hd
            · rcases hq.dvd_mul.mp hd with hd | hd
              · exact Or.inl (pr 2 (by norm_num) hd)
              · exact Or.inr (Or.inl (pr 3 (by norm_num) hd))
            · exact Or.inr (Or.inl (pr 3 (by norm_num) hd))
          · have := pr 7 (by norm_num) hd; omega
        · have := pr 11 (by norm_num) hd; omega
      · have := pr 31 (by norm_num) hd; omega
    · have := pr 151 (by norm_num) hd; omega
  · have := pr 331 (by norm_num) hd; omega

theorem full : (16807 : ZMod M) ^ (M - 1) = 1 := (zpow_one _ (by decide)).mpr (by decide +kernel)

theorem notLess (q : Nat) (hq : q.Prime) (hd : q ∣ M - 1) : (16807 : ZMod M) ^ ((M - 1) / q) ≠ 1 := by
  intro h
  rcases factors q hq hd with rfl | rfl | rfl | rfl | rfl | rfl | rfl <;>
    exact absurd ((zpow_one _ (by decide)).mp h) (by decide +kernel)

theorem M_prime : M.Prime := lucas_primality M 16807 full notLess

theorem order : orderOf (16807 : ZMod M) = M - 1 := orderOf_eq_of_pow_and_pow_div_prime (by decide) full notLess

theorem sequence_zmod (z : Int) (n : Nat) : ((sequence z n : Int) : ZMod M) = 16807 ^ n * z := by
  induction n with
  | zero => simp [sequence]
  | succ n ih =>
    simp only [sequence, parkMiller]
    have h : ((16807 * sequence z n % (M : Int) : Int) : ZMod M) = ((16807 * sequence z n : Int) : ZMod M) := by
      rw [ZMod.intCast_eq_intCast_iff]; exact Int.mod_modEq _ _
    rw [h, Int.cast_mul, ih, pow_succ', mul_assoc]
    norm_cast

theorem good_ne_zero (z : Int) (h : Good z) : (z : ZMod M) ≠ 0 := by
  intro h0
  rw [ZMod.intCast_zmod_eq_zero_iff_dvd] at h0
  obtain ⟨h1, h2⟩ := h
  have := Int.le_of_dvd (by omega) h0
  omega

/-- A sequence without repetition among as many places as it has terms takes all places. -/
theorem pigeon (N : Nat) (f : Nat → Nat) (hf : ∀ n, n < N → 1 ≤ f n ∧ f n ≤ N) (hi : ∀ a b, a < N → b < N → f a = f b → a = b) (v : Nat)
    (hv : 1 ≤ v ∧ v ≤ N) : ∃ n, n < N ∧ f n = v := by
  have hsub : (Finset.range N).image f ⊆ Finset.Icc 1 N := by
    intro x hx
    obtain ⟨n, hn, rfl⟩ := Finset.mem_image.mp hx
    exact Finset.mem_Icc.mpr (hf n (Finset.mem_range.mp hn))
  have hcard : ((Finset.range N).image f).card = N := by
    rw [Finset.card_image_of_injOn, Finset.card_range]
    intro a ha b hb hab
    exact hi a b (Finset.mem_range.mp ha) (Finset.mem_range.mp hb) hab
  have heq := Finset.eq_of_subset_of_card_le hsub (by rw [hcard, Nat.card_Icc]; omega)
  have : v ∈ (Finset.range N).image f := by rw [heq]; exact Finset.mem_Icc.mpr hv
  obtain ⟨n, hn, hfn⟩ := Finset.mem_image.mp this
  exact ⟨n, Finset.mem_range.mp hn, hfn⟩

/-- **C59**.  The generator has full period: from any legal state, each legal state comes exactly once in 2³¹ − 2 calls, and then
the sequence starts again. -/
theorem C59_period (z : Int) (h : Good z) : (∀ v, Good v → ∃ n, (n < M - 1 ∧ steps z n = .ok v) ∧ ∀ k, k < M - 1 → steps z k = .ok v → k = n) ∧
    steps z (M - 1) = .ok z := by
  haveI : Fact M.Prime := ⟨M_prime⟩
  have hz := good_ne_zero z h
  have inj : ∀ a b, a < M - 1 → b < M - 1 → sequence z a = sequence z b → a = b := by
    intro a b ha hb hab
    have h1 := congrArg (fun x : Int => (x : ZMod M)) hab
    simp only [sequence_zmod] at h1
    have h2 := mul_right_cancel₀ hz h1
    exact pow_injOn_Iio_orderOf (by rw [order]; exact ha) (by rw [order]; exact hb) h2
  have hg := fun n => (C59_sequence z h n).2
  have hs := fun n => (C59_sequence z h n).1
  constructor
  · intro v hv
    obtain ⟨n, hn, hfn⟩ := pigeon (M - 1) (fun n => (sequence z n).toNat)
      (fun n _ => by
        obtain ⟨g1, g2⟩ := hg n
        have := M_eq
        have hm : M = 2147483647 := rfl
        constructor
        · show 1 ≤ (sequence z n).toNat; omega
        · show (sequence z n).toNat ≤ M - 1; omega)
      (fun a b ha hb hab => by
        apply inj a b ha hb
        have := (hg a).1
        have := (hg b).1
        have hab' : (sequence z a).toNat = (sequence z b).toNat := hab
        omega) v.toNat (by obtain ⟨g1, g2⟩ := hv; have hm : M = 2147483647 := rfl; have := M_eq; omega)
    have he : sequence z n = v := by
      have := (hg n).1
      have := hv.1
      omega
    refine ⟨n, ⟨hn, by rw [hs n, he]⟩, fun k hk hkv => ?_⟩
    rw [hs k] at hkv
    injection hkv with hkv
    exact inj k n hk hn (hkv.trans he.symm)
  · rw [hs]
    refine congrArg Out.ok ?_
    have h1 := sequence_zmod z (M - 1)
    rw [full, one_mul, ZMod.intCast_eq_intCast_iff] at h1
    obtain ⟨g1, g2⟩ := hg (M - 1)
    obtain ⟨k1, k2⟩ := h
    have h3 : sequence z (M - 1) % (M : Int) = z % (M : Int) := h1
    rwa [Int.emod_eq_of_lt (by omega) (by omega), Int.emod_eq_of_lt (by omega) (by omega)] at h3

/-! ### The other module -/

/-- **C59**.  `ethRandomNumbers.Uniform` steps in the same way, so that from a legal seed the quotient it shortens is strictly between
0 and 1. -/
theorem C59_uniform_partial (z : Int) (h : Good z) : uniform z = .ok (parkMiller z) ∧ 0 < (parkMiller z : ℚ) / M ∧ (parkMiller z : ℚ) / M < 1 := by
  obtain ⟨e, g1, g2⟩ := C59_next z h
  refine ⟨e, ?_, ?_⟩
  · apply div_pos
    · exact_mod_cast (by omega : 0 < parkMiller z)
    · exact_mod_cast (by decide : 0 < M)
  · rw [div_lt_one (by exact_mod_cast (by decide : 0 < M))]
    have : parkMiller z < (M : Int) := by omega
    exact_mod_cast this

/-! ### Examples, and where the modules fail -/

example : Good 1 ∧ Good 2147483646 ∧ steps 1 3 = .ok 1622650073 := by
  refine ⟨⟨by decide, by decide⟩, ⟨by decide, by decide⟩, by decide +kernel⟩
example : putSeed 0 = 1 ∧ putSeed (-5) = 2147483642 ∧ putSeed (-2147483648) = 2147483646 ∧ rnd 1 6 = .ok (16807, 1) := by decide +kernel

/-- The seed 0 or 2³¹ − 1 given to `ethRandomNumbers.InitSeed` makes every number 1: the state stays at 2³¹ − 1. -/
theorem C59_stuck : uniform (initSeed 0) = .ok M ∧ uniform (initSeed M) = .ok M := by decide +kernel

/-- A negative seed can overflow. -/
theorem C59_negative : uniform (initSeed (-2147480812)) = .overflow := by decide +kernel

theorem nearest (x : ℚ) (h1 : 1 - x < 1 / 2 ^ 25) (h2 : x < 1 + 1 / 2 ^ 25) : NearestIsOne x := by
  intro k hk
  have hk' : (k : ℚ) ≤ 2 ^ 24 - 1 := by
    have : k + 1 ≤ 2 ^ 24 := hk
    have : ((k + 1 : Nat) : ℚ) ≤ ((2 ^ 24 : Nat) : ℚ) := by exact_mod_cast this
    push_cast at this
    linarith
  have hd : (k : ℚ) / 2 ^ 24 ≤ 1 - 1 / 2 ^ 24 := by
    rw [div_le_iff₀ (by norm_num)]
    norm_num at hk' ⊢
    linarith
  generalize (k : ℚ) / 2 ^ 24 = y at *
  norm_num at h1 h2 hd
  have ha : 0 < 1 - y := by linarith
  have hb : y + 1 - 2 * x < 0 := by linarith
  nlinarith

/-- The largest states give numbers so near to 1 that the REAL nearest to them is 1: `Uniform` and `Random` can return 1, which they
exclude.  For each of the last 30 states this holds of the quotient and of anything within 2⁻²⁶ of it. -/
theorem C59_one (z : Int) (h : 2147483617 ≤ z ∧ z ≤ 2147483646) (e : ℚ) (he : -(1 / 2 ^ 26) < e ∧ e < 1 / 2 ^ 26) :
    NearestIsOne ((z : ℚ) / M + e) ∧ NearestIsOne (((z : ℚ) - 1) * (1 / ((M : ℚ) - 1)) + e) := by
  obtain ⟨e1, e2⟩ := he
  have hz1 : (2147483617 : ℚ) ≤ z := by exact_mod_cast h.1
  have hz2 : (z : ℚ) ≤ 2147483646 := by exact_mod_cast h.2
  have hM : (M : ℚ) = 2147483647 := by norm_num [M]
  rw [hM]
  norm_num at e1 e2
  constructor
  · apply nearest
    · norm_num
      linarith
    · norm_num
      linarith
  · apply nearest
    · norm_num
      linarith
    · norm_num
      linarith

/-- Such a state is reached from every seed. -/
theorem C59_one_reached (z : Int) (h : Good z) : ∃ n, steps z n = .ok 2147483646 := by
  obtain ⟨n, ⟨_, e⟩, _⟩ := (C59_period z h).1 2147483646 ⟨by decide, by decide⟩
  exact ⟨n, e⟩

end Verif.Random
