import Verif.Arith.Model
import Mathlib.Tactic.Ring
import Mathlib.Tactic.Positivity
import Mathlib.Tactic.IntervalCases
import Mathlib.Tactic.Zify
import Mathlib.Data.Nat.Bitwise

/-!
C05: shifts, rotations and sets act on bits and elements as the language says.
-/
namespace Verif.Arith

/-! ### Specification -/

/-- Bit `k` of the two's complement representation of `x`. -/
def bit (x : Int) (k : Nat) : Bool := decide (x / 2 ^ k % 2 = 1)

/-- The word sizes for which the compiler emits these operations. -/
def WordSize (s : Nat) : Prop := s = 8 ∨ s = 16 ∨ s = 32 ∨ s = 64

/-! ### Lemmas on bit patterns -/

theorem pat_lt (s : Nat) (x : Int) : pat s x < 2 ^ s := by
  have h : (0 : Int) < 2 ^ s := Int.pow_pos (by omega)
  have h1 := Int.emod_nonneg x (ne_of_gt h)
  have h2 := Int.emod_lt_of_pos x h
  unfold pat
  zify
  rw [Int.toNat_of_nonneg h1]
  exact h2

theorem pat_cast (s : Nat) (x : Int) : (pat s x : Int) = x % 2 ^ s := by
  have h : (0 : Int) < 2 ^ s := Int.pow_pos (by omega)
  unfold pat
  rw [Int.toNat_of_nonneg (Int.emod_nonneg x (ne_of_gt h))]

theorem bit_natCast (u k : Nat) : bit (u : Int) k = u.testBit k := by
  rw [Nat.testBit_eq_decide_div_mod_eq]
  unfold bit
  congr 1
  norm_cast

theorem bit_emod {s k : Nat} (x : Int) (h : k < s) : bit (x % 2 ^ s) k = bit x k := by
  have hp : (2 : Int) ^ s = 2 ^ k * (2 * 2 ^ (s - k - 1)) := by
    rw [← mul_assoc, ← pow_succ, ← pow_add]; congr 1; omega
  have hk : (0 : Int) < 2 ^ k := Int.pow_pos (by omega)
  unfold bit
  have e : x % 2 ^ s / 2 ^ k % 2 = x / 2 ^ k % 2 := by
    rw [Int.emod_def x (2 ^ s), hp]
    have : x - 2 ^ k * (2 * 2 ^ (s - k - 1)) * (x / (2 ^ k * (2 * 2 ^ (s - k - 1))))
        = x + 2 ^ k * (2 * (-(2 ^ (s - k - 1) * (x / (2 ^ k * (2 * 2 ^ (s - k - 1))))))) := by ring
    rw [this, Int.add_mul_ediv_left _ _ (ne_of_gt hk)]
    omega
  rw [e]

theorem pat_testBit (s : Nat) (x : Int) (k : Nat) :
    (pat s x).testBit k = (decide (k < s) && bit x k) := by
  by_cases h : k < s
  · rw [← bit_natCast, pat_cast, bit_emod x h]; simp [h]
  · have : pat s x < 2 ^ k := lt_of_lt_of_le (pat_lt s x) (Nat.pow_le_pow_right (by omega) (by omega))
    rw [Nat.testBit_lt_two_pow this]; simp [h]

theorem sgn_emod (s u : Nat) : sgn s u % 2 ^ s = (u : Int) % 2 ^ s := by
  unfold sgn
  simp only
  split
  · exact Int.emod_emod_of_dvd _ (dvd_refl _)
  · rw [Int.sub_emod, Int.emod_self]; simp

theorem bit_sgn {s u k : Nat} (h : k < s) : bit (sgn s u) k = u.testBit k := by
  rw [← bit_emod _ h, sgn_emod, bit_emod _ h, bit_natCast]

theorem sgn_range {s : Nat} (hs : 0 < s) (u : Nat) : InRange s (sgn s u) := by
  have h : (0 : Int) < 2 ^ s := Int.pow_pos (by omega)
  have h1 := Int.emod_nonneg (u : Int) (ne_of_gt h)
  have h2 := Int.emod_lt_of_pos (u : Int) h
  have hp : (2 : Int) ^ s = 2 * 2 ^ (s - 1) := by rw [← pow_succ']; congr 1; omega
  unfold sgn InRange
  simp only
  split <;> omega

theorem promW_ge {s : Nat} : s ≤ promW s := by unfold promW; split <;> omega

theorem cshl_testBit {s u : Nat} {n : Int} {r k : Nat} (h : cshl s u n = some r) (hk : k < s) :
    r.testBit k = (decide (n.toNat ≤ k) && u.testBit (k - n.toNat)) := by
  unfold cshl at h
  split at h
  · cases h
    rw [Nat.testBit_mod_two_pow, Nat.testBit_shiftLeft]
    have := @promW_ge s
    have : k < promW s := by omega
    simp [this]
  · cases h

theorem cshr_testBit {s u : Nat} {n : Int} {r k : Nat} (h : cshr s u n = some r) :
    r.testBit k = u.testBit (n.toNat + k) := by
  unfold cshr at h
  split at h
  · cases h; rw [Nat.testBit_shiftRight]
  · cases h

/-! ### LSH -/

/-- **C05, LSH.**  For a shift count smaller than the word size, LSH is defined, its result is a
value of the operand's type, and bit `k` of the result is bit `k - n` of the operand, or 0 where
there is no such bit. -/
theorem C05_lsh {s : Nat} (hs : WordSize s) {x n : Int} (hn : -(s : Int) < n ∧ n < s) :
    ∃ r, lsh s x n = some r ∧ InRange s r ∧
      ∀ k < s, bit r k = (decide (0 ≤ (k : Int) - n ∧ (k : Int) - n < s) && bit x ((k : Int) - n).toNat) := by
  have hs0 : 0 < s := by rcases hs with rfl | rfl | rfl | rfl <;> omega
  have hpw := @promW_ge s
  unfold lsh
  split
  · unfold lshl
    have hc : cshl s (pat s x) n = some ((pat s x <<< n.toNat) % 2 ^ promW s) := by
      unfold cshl; rw [if_pos (by omega)]
    rw [hc]
    refine ⟨_, rfl, sgn_range hs0 _, fun k hk => ?_⟩
    rw [bit_sgn hk, cshl_testBit hc hk, pat_testBit]
    have e : ((k : Int) - n).toNat = k - n.toNat := by omega
    rw [e]
    by_cases h1 : n.toNat ≤ k
    · have h2 : k - n.toNat < s := by omega
      have h3 : 0 ≤ (k : Int) - n ∧ (k : Int) - n < s := by omega
      simp only [h1, h2, h3, decide_true, Bool.true_and, and_self]
    · have h3 : ¬ (0 ≤ (k : Int) - n ∧ (k : Int) - n < s) := by omega
      simp only [h1, h3, decide_false, Bool.false_and]
  · unfold lshr
    have hc : cshr s (pat s x) (-n) = some (pat s x >>> (-n).toNat) := by
      unfold cshr; rw [if_pos (by omega)]
    rw [hc]
    refine ⟨_, rfl, sgn_range hs0 _, fun k hk => ?_⟩
    rw [bit_sgn hk, cshr_testBit hc, pat_testBit]
    have e : ((k : Int) - n).toNat = (-n).toNat + k := by omega
    rw [e]
    by_cases h1 : (-n).toNat + k < s
    · have h3 : 0 ≤ (k : Int) - n ∧ (k : Int) - n < s := by omega
      simp only [h1, h3, decide_true, Bool.true_and, and_self]
    · have h3 : ¬ (0 ≤ (k : Int) - n ∧ (k : Int) - n < s) := by omega
      simp only [h1, h3, decide_false, Bool.false_and]

/-! ### ROT -/

/-- **C05, ROT, what is true.**  For a count of absolute value between 1 and the word size - 1
(0 included for words below 32 bits), bit `k` of the result is bit `(k - n) MOD s` of the
operand. -/
theorem C05_rot_partial {s : Nat} (hs : WordSize s) {x n : Int} (hn : -(s : Int) < n ∧ n < s)
    (h0 : n ≠ 0 ∨ s < 32) :
    ∃ r, rot s x n = some r ∧ InRange s r ∧
      ∀ k < s, bit r k = bit x (((k : Int) - n) % s).toNat := by
  have hs0 : 0 < s := by rcases hs with rfl | rfl | rfl | rfl <;> omega
  have hpw := @promW_ge s
  have hw : (s : Int) < promW s ∨ n ≠ 0 := by
    rcases h0 with h | h
    · exact Or.inr h
    · left; unfold promW; rw [if_pos h]; omega
  unfold rot
  split
  · have hc : cshl s (pat s x) n = some ((pat s x <<< n.toNat) % 2 ^ promW s) := by
      unfold cshl; rw [if_pos (by omega)]
    have hd : cshr s (pat s x) (s - n) = some (pat s x >>> (s - n).toNat) := by
      unfold cshr; rw [if_pos (by omega)]
    simp only [rotl, hc, hd, bind, Option.bind]
    refine ⟨_, rfl, sgn_range hs0 _, fun k hk => ?_⟩
    rw [bit_sgn hk, Nat.testBit_or, cshl_testBit hc hk, cshr_testBit hd, pat_testBit, pat_testBit]
    by_cases h1 : n.toNat ≤ k
    · have e : (((k : Int) - n) % s).toNat = k - n.toNat := by
        rw [Int.emod_eq_of_lt (by omega) (by omega)]; omega
      have h2 : k - n.toNat < s := by omega
      have h3 : ¬ ((s : Int) - n).toNat + k < s := by omega
      rw [e]; simp [h1, h2, h3]
    · have e : (((k : Int) - n) % s).toNat = ((s : Int) - n).toNat + k := by
        have : ((k : Int) - n) % s = (k - n + s) % s := by simp
        rw [this, Int.emod_eq_of_lt (by omega) (by omega)]; omega
      have h3 : ((s : Int) - n).toNat + k < s := by omega
      rw [e]; simp only [h1, h3, decide_false, decide_true, Bool.false_and, Bool.true_and, Bool.false_or]
  · have hc : cshr s (pat s x) (-n) = some (pat s x >>> (-n).toNat) := by
      unfold cshr; rw [if_pos (by omega)]
    have hd : cshl s (pat s x) (s - -n) = some ((pat s x <<< ((s : Int) - -n).toNat) % 2 ^ promW s) := by
      unfold cshl; rw [if_pos (by omega)]
    simp only [rotr, hc, hd, bind, Option.bind]
    refine ⟨_, rfl, sgn_range hs0 _, fun k hk => ?_⟩
    rw [bit_sgn hk, Nat.testBit_or, cshl_testBit hd hk, cshr_testBit hc, pat_testBit, pat_testBit]
    by_cases h1 : (-n).toNat + k < s
    · have e : (((k : Int) - n) % s).toNat = (-n).toNat + k := by
        rw [Int.emod_eq_of_lt (by omega) (by omega)]; omega
      have h2 : ¬ ((s : Int) - -n).toNat ≤ k := by omega
      rw [e]; simp only [h1, h2, decide_true, decide_false, Bool.false_and, Bool.true_and, Bool.or_false]
    · have e : (((k : Int) - n) % s).toNat = k - ((s : Int) - -n).toNat := by
        have : ((k : Int) - n) % s = (k - n - s) % s := by simp
        rw [this, Int.emod_eq_of_lt (by omega) (by omega)]; omega
      have h2 : ((s : Int) - -n).toNat ≤ k := by omega
      have h3 : k - ((s : Int) - -n).toNat < s := by omega
      rw [e]; simp only [h1, h2, h3, decide_true, decide_false, Bool.false_and, Bool.true_and, Bool.false_or]

theorem eq_of_bits {s : Nat} (hs : 0 < s) {x y : Int} (hx : InRange s x) (hy : InRange s y)
    (h : ∀ k < s, bit x k = bit y k) : x = y := by
  have hp : pat s x = pat s y := by
    apply Nat.eq_of_testBit_eq
    intro k
    rw [pat_testBit, pat_testBit]
    by_cases hk : k < s
    · rw [h k hk]
    · simp [hk]
  have h1 := pat_cast s x
  have h2 := pat_cast s y
  rw [hp, h2] at h1
  unfold InRange at hx hy
  have h0 : (0 : Int) < 2 ^ s := Int.pow_pos (by omega)
  have e : (2 : Int) ^ s = 2 * 2 ^ (s - 1) := by rw [← pow_succ']; congr 1; omega
  have h3 := (Int.emod_emod_of_dvd (x - y) (dvd_refl ((2 : Int) ^ s)))
  have h4 : (x - y) % 2 ^ s = 0 := by rw [Int.sub_emod, h1]; simp
  obtain ⟨c, hc⟩ := Int.dvd_of_emod_eq_zero h4
  have : c = 0 := by
    by_contra hne
    rcases lt_or_gt_of_ne hne with hlt | hgt
    · have : (2 : Int) ^ s * c ≤ 2 ^ s * (-1) := Int.mul_le_mul_of_nonneg_left (by omega) (by omega)
      omega
    · have : (2 : Int) ^ s * 1 ≤ 2 ^ s * c := Int.mul_le_mul_of_nonneg_left (by omega) (by omega)
      omega
  rw [this] at hc
  omega

/-- **C05, ROT is invertible**: rotating back gives the operand. -/
theorem C05_rot_inverse {s : Nat} (hs : WordSize s) {x n : Int} (hx : InRange s x)
    (hn : -(s : Int) < n ∧ n < s) (h0 : n ≠ 0 ∨ s < 32) :
    ∃ r, rot s x n = some r ∧ rot s r (-n) = some x := by
  have hs0 : 0 < s := by rcases hs with rfl | rfl | rfl | rfl <;> omega
  obtain ⟨r, h1, h2, h3⟩ := C05_rot_partial hs (x := x) hn h0
  obtain ⟨y, h4, h5, h6⟩ := C05_rot_partial hs (x := r) (n := -n) (by omega) (by omega)
  refine ⟨r, h1, ?_⟩
  rw [h4]
  congr 1
  refine eq_of_bits hs0 h5 hx (fun k hk => ?_)
  have hsz : (0 : Int) < s := by omega
  have hm0 := Int.emod_nonneg ((k : Int) - -n) (ne_of_gt hsz)
  have hm1 := Int.emod_lt_of_pos ((k : Int) - -n) hsz
  rw [h6 k hk, h3 _ (by omega)]
  congr 1
  have : ((((k : Int) - -n) % s).toNat : Int) = ((k : Int) - -n) % s := Int.toNat_of_nonneg hm0
  rw [this, Int.emod_sub_emod, show (k : Int) - -n - n = k by omega]
  rw [Int.emod_eq_of_lt (by omega) (by omega)]
  simp

/-- **C05 fails for a rotation by 0** of a 32- or 64-bit word: the C expression shifts by the
word size, which is undefined. -/
theorem C05_rot_zero_undefined {s : Nat} (hs : s = 32 ∨ s = 64) (x : Int) : rot s x 0 = none := by
  rcases hs with rfl | rfl <;>
    simp [rot, rotl, cshl, cshr, promW]

/-! ### ASH -/

/-- **C05, ASH.**  For counts `-64 < n < 64`: multiplication by `2^n` where the result fits, floored
division by `2^-n` for negative counts (independently of any overflow). -/
theorem C05_ash {x n : Int} (hn : -64 < n ∧ n < 64) :
    (0 ≤ n → InI64 (x * 2 ^ n.toNat) → ash x n = some (x * 2 ^ n.toNat)) ∧
    (n < 0 → ash x n = some (Int.fdiv x (2 ^ (-n).toNat))) := by
  constructor
  · intro h0 hr
    simp only [ash, ashl]
    rw [if_pos h0, if_pos (by omega)]
    congr 1
    simp only [InI64] at hr
    simp only [wrap64]; omega
  · intro h0
    simp only [ash, ashr]
    rw [if_neg (by omega), if_pos (by omega)]
    congr 1
    rw [Int.shiftRight_eq_div_pow, Int.fdiv_eq_ediv_of_nonneg _ (by positivity)]
    norm_cast

/-- ODD: the remainder of the division by 2 is 1. -/
theorem C05_odd (x : Int) : odd x = true ↔ Int.fmod x 2 = 1 := by
  have h := pat_testBit 64 x 0
  simp only [odd, decide_eq_true_eq]
  rw [Nat.and_one_is_mod]
  have h2 := pat_cast 64 x
  rw [Int.fmod_eq_emod_of_nonneg _ (by omega)]
  omega

/-- CAP of a letter is the capital letter. -/
theorem C05_cap_letter {ch : Nat} :
    (65 ≤ ch ∧ ch ≤ 90 → cap ch = ch) ∧ (97 ≤ ch ∧ ch ≤ 122 → cap ch = ch - 32) := by
  constructor <;> rintro ⟨h1, h2⟩ <;> interval_cases ch <;> decide

/-! ### Sets -/

/-- The set denoted by the word `v`: the numbers of its one bits. -/
def Elem (v : Nat) (k : Int) : Prop := 0 ≤ k ∧ v.testBit k.toNat = true

theorem elem_lt {s v : Nat} (hv : v < 2 ^ s) {k : Int} (h : Elem v k) : k < s := by
  by_contra hc
  have : v < 2 ^ k.toNat := lt_of_lt_of_le hv (Nat.pow_le_pow_right (by omega) (by omega))
  have := Nat.testBit_lt_two_pow this
  rw [h.2] at this; cases this

/-- **C05, IN.**  For every element of at most 32 bits and every set: the membership test is
defined and true exactly for the members. -/
theorem C05_in {s v : Nat} (hs : WordSize s) (hv : v < 2 ^ s) {x : Int} (hx : InRange 32 x) :
    ∃ b, inMacro s x v = some b ∧ (b = true ↔ Elem v x) := by
  have hpw := @promW_ge s
  have hs64 : s ≤ 64 := by rcases hs with rfl | rfl | rfl | rfl <;> omega
  simp only [InRange] at hx
  have e1 : toU32 x = x % 2 ^ 32 := rfl
  simp only [inMacro]
  by_cases h : 0 ≤ x ∧ x < s
  · have hc : cshr s (v % 2 ^ s) x = some ((v % 2 ^ s) >>> x.toNat) := by
      unfold cshr; rw [if_pos (by omega)]
    rw [if_pos (by omega), hc]
    refine ⟨_, rfl, ?_⟩
    rw [decide_eq_true_eq, Nat.mod_eq_of_lt hv, Nat.and_one_is_mod]
    unfold Elem
    rw [Nat.testBit_eq_decide_div_mod_eq, Nat.shiftRight_eq_div_pow, decide_eq_true_eq]
    constructor
    · intro h3; exact ⟨h.1, by omega⟩
    · intro h3; have := h3.2; omega
  · refine ⟨false, ?_, ?_⟩
    · rw [if_neg (by omega)]
    · constructor
      · intro h; cases h
      · intro he; exact absurd ⟨he.1, elem_lt hv he⟩ h

/-- **C05 fails for IN with a 64-bit element**: `2^32 IN s` shifts by 2^32, which is undefined. -/
theorem C05_in_undefined (v : Nat) : inMacro 32 (2 ^ 32) v = none := by
  simp [inMacro, cshr, promW, toU32]

theorem setOf_eq {s : Nat} {x : Int} (hx : 0 ≤ x ∧ x < s) : setOf s x = some (2 ^ x.toNat) := by
  have hpw := @promW_ge s
  have h1 : x.toNat < s := by omega
  have h2 : x.toNat < promW s := by omega
  unfold setOf cshl
  rw [if_pos (by omega)]
  simp only [Option.map_some, Nat.one_shiftLeft]
  rw [Nat.mod_eq_of_lt (Nat.pow_lt_pow_right (by omega) h2),
    Nat.mod_eq_of_lt (Nat.pow_lt_pow_right (by omega) h1)]

/-- **C05, set constructor `{x}`**, INCL and EXCL, for an element `0 <= x < s`. -/
theorem C05_setOf {s : Nat} {x : Int} (hx : 0 ≤ x ∧ x < s) :
    ∃ v, setOf s x = some v ∧ v < 2 ^ s ∧ ∀ k, Elem v k ↔ k = x := by
  refine ⟨_, setOf_eq hx, Nat.pow_lt_pow_right (by omega) (by omega), fun k => ?_⟩
  unfold Elem
  rw [Nat.testBit_two_pow, decide_eq_true_eq]
  constructor
  · rintro ⟨h1, h2⟩; omega
  · rintro rfl; exact ⟨hx.1, rfl⟩

@[inherit_doc C05_setOf]
theorem C05_incl {s v : Nat} (hv : v < 2 ^ s) {x : Int} (hx : 0 ≤ x ∧ x < s) :
    ∃ v', incl s v x = some v' ∧ v' < 2 ^ s ∧ ∀ k, Elem v' k ↔ (Elem v k ∨ k = x) := by
  have hp : 2 ^ x.toNat < 2 ^ s := Nat.pow_lt_pow_right (by omega) (by omega)
  have hor := Nat.or_lt_two_pow hv hp
  refine ⟨v ||| 2 ^ x.toNat, ?_, hor, fun k => ?_⟩
  · unfold incl; rw [setOf_eq hx]; simp only [Option.map_some, Nat.mod_eq_of_lt hor]
  · unfold Elem
    rw [Nat.testBit_or, Nat.testBit_two_pow, Bool.or_eq_true, decide_eq_true_eq]
    constructor
    · rintro ⟨h1, h2 | h2⟩
      · exact Or.inl ⟨h1, h2⟩
      · right; omega
    · rintro (⟨h1, h2⟩ | rfl)
      · exact ⟨h1, Or.inl h2⟩
      · exact ⟨hx.1, Or.inr rfl⟩

theorem testBit_compl {s v k : Nat} (hv : v < 2 ^ s) (hk : k < s) :
    (2 ^ s - 1 - v).testBit k = !v.testBit k := by
  have : 2 ^ s - 1 - v = 2 ^ s - (v + 1) := by omega
  rw [this, Nat.testBit_two_pow_sub_succ hv]
  simp [hk]

@[inherit_doc C05_setOf]
theorem C05_excl {s v : Nat} (hv : v < 2 ^ s) {x : Int} (hx : 0 ≤ x ∧ x < s) :
    ∃ v', excl s v x = some v' ∧ v' < 2 ^ s ∧ ∀ k, Elem v' k ↔ (Elem v k ∧ k ≠ x) := by
  have hp : 2 ^ x.toNat < 2 ^ s := Nat.pow_lt_pow_right (by omega) (by omega)
  refine ⟨v &&& (2 ^ s - 1 - 2 ^ x.toNat), ?_, lt_of_le_of_lt Nat.and_le_left hv, fun k => ?_⟩
  · unfold excl; rw [setOf_eq hx]; rfl
  · unfold Elem
    rw [Nat.testBit_and, Bool.and_eq_true]
    constructor
    · rintro ⟨h1, h2, h3⟩
      have hk := elem_lt hv ⟨h1, h2⟩
      rw [testBit_compl hp (by omega), Nat.testBit_two_pow] at h3
      refine ⟨⟨h1, h2⟩, ?_⟩
      rintro rfl; simp at h3
    · rintro ⟨⟨h1, h2⟩, h3⟩
      have hk := elem_lt hv ⟨h1, h2⟩
      refine ⟨h1, h2, ?_⟩
      rw [testBit_compl hp (by omega), Nat.testBit_two_pow]
      have : x.toNat ≠ k.toNat := by omega
      simp [this]

/-- **C05, set constructor `{l..h}`**, for `0 <= l < s` and `0 <= h < s`: the members are the
numbers from `l` to `h`; the set is empty if `l > h`. -/
theorem C05_setRng {s : Nat} {l h : Int} (hl : 0 ≤ l ∧ l < s) (hh : 0 ≤ h ∧ h < s) :
    ∃ v, setRng s l h = some v ∧ v < 2 ^ s ∧ ∀ k, Elem v k ↔ (l ≤ k ∧ k ≤ h) := by
  have hpw := @promW_ge s
  have hc : cshl s (2 ^ s - 1) l = some (((2 ^ s - 1) <<< l.toNat) % 2 ^ promW s) := by
    unfold cshl; rw [if_pos (by omega)]
  have hd : cshr s (2 ^ s - 1) (s - 1 - h) = some ((2 ^ s - 1) >>> ((s : Int) - 1 - h).toNat) := by
    unfold cshr; rw [if_pos (by omega)]
  have hp : 0 < 2 ^ s := Nat.pow_pos (by omega)
  simp only [setRng, hc, hd, bind, Option.bind]
  refine ⟨_, rfl, Nat.mod_lt _ hp, fun k => ?_⟩
  unfold Elem
  rw [Nat.testBit_mod_two_pow, Nat.testBit_and, Bool.and_eq_true, Bool.and_eq_true, decide_eq_true_eq]
  constructor
  · rintro ⟨h1, h2, h3, h4⟩
    rw [cshl_testBit hc h2, Nat.testBit_two_pow_sub_one] at h3
    rw [cshr_testBit hd, Nat.testBit_two_pow_sub_one] at h4
    simp at h3 h4
    omega
  · rintro ⟨h1, h2⟩
    have hk : k.toNat < s := by omega
    refine ⟨by omega, hk, ?_, ?_⟩
    · rw [cshl_testBit hc hk, Nat.testBit_two_pow_sub_one]; simp; omega
    · rw [cshr_testBit hd, Nat.testBit_two_pow_sub_one]; simp; omega

/-- **C05, `+ * - /` on sets**: union, intersection, difference, symmetric difference. -/
theorem C05_set_ops {s a b : Nat} (ha : a < 2 ^ s) (hb : b < 2 ^ s) :
    ∀ k, (Elem (setUnion a b) k ↔ (Elem a k ∨ Elem b k)) ∧
      (Elem (setInter a b) k ↔ (Elem a k ∧ Elem b k)) ∧
      (Elem (setDiff s a b) k ↔ (Elem a k ∧ ¬ Elem b k)) ∧
      (Elem (setSymDiff a b) k ↔ ((Elem a k ∧ ¬ Elem b k) ∨ (¬ Elem a k ∧ Elem b k))) ∧
      (0 ≤ k ∧ k < s → (Elem (setCompl s a) k ↔ ¬ Elem a k)) := by
  intro k
  have hd : ∀ k : Int, 0 ≤ k ∧ k < s → (2 ^ s - 1 - b).testBit k.toNat = !b.testBit k.toNat :=
    fun k hk => testBit_compl hb (by omega)
  refine ⟨?_, ?_, ?_, ?_, ?_⟩
  · simp only [Elem, setUnion, Nat.testBit_or, Bool.or_eq_true]; tauto
  · simp only [Elem, setInter, Nat.testBit_and, Bool.and_eq_true]; tauto
  · constructor
    · rintro ⟨h1, h2⟩
      simp only [setDiff, Nat.testBit_and, Bool.and_eq_true] at h2
      have hk := elem_lt ha ⟨h1, h2.1⟩
      rw [hd k ⟨h1, hk⟩] at h2
      refine ⟨⟨h1, h2.1⟩, fun hb => ?_⟩
      rw [hb.2] at h2; simp at h2
    · rintro ⟨h1, h2⟩
      have hk := elem_lt ha h1
      refine ⟨h1.1, ?_⟩
      simp only [setDiff, Nat.testBit_and, Bool.and_eq_true]
      rw [hd k ⟨h1.1, hk⟩]
      refine ⟨h1.2, ?_⟩
      simp only [Elem] at h2
      cases hbt : b.testBit k.toNat
      · rfl
      · exact absurd ⟨h1.1, hbt⟩ h2
  · simp only [Elem, setSymDiff, Nat.testBit_xor]
    cases a.testBit k.toNat <;> cases b.testBit k.toNat <;> simp
  · rintro hk
    simp only [Elem, setCompl]
    rw [testBit_compl ha (by omega)]
    cases a.testBit k.toNat <;> simp [hk.1]

/- Non-vacuity. -/
example : WordSize 32 ∧ lsh 32 (-1) 4 = some (-16) ∧ lsh 32 (-1) (-28) = some 15 := by
  refine ⟨by simp [WordSize], by decide, by decide⟩
example : rot 8 (-127) 1 = some 3 ∧ rot 16 1 (-1) = some (-32768) := by decide
example : ash (-7) (-1) = some (-4) ∧ ash 3 4 = some 48 := by decide
example : inMacro 32 5 (2 ^ 5 + 1) = some true ∧ inMacro 32 (-1) (2 ^ 31) = some false := by decide
example : setRng 32 3 5 = some 56 ∧ setRng 32 5 3 = some 0 ∧ setRng 64 0 63 = some (2 ^ 64 - 1) := by
  decide

end Verif.Arith
