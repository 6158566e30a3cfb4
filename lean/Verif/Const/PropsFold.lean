import Verif.Common
import Verif.Arith.PropsDivMod
import Verif.Arith.PropsBits
import Verif.Const.Model

/-!
# C09: folding of integer constants; C42: types of integer constants
-/
namespace Verif.Const
open Verif.Arith

/-- What C09 asks of a folded operation with exact result `v`: the exact result if it fits in 64 bits,
and the error message `e` otherwise. -/
def Exact (e : Nat) (v : Int) : Option Fold := some (if InI64 v then .ok v else .error e)

/-- **C09 for +.** -/
theorem C09_plus {x y : Int} (hx : InI64 x) (hy : InI64 y) : constPlus x y = Exact 206 (x + y) := by
  simp only [InI64] at hx hy
  simp only [constPlus, maxI64, minI64, Exact]
  by_cases h : y ≥ 0
  · have h' : ¬ y < 0 := by omega
    rw [if_pos h, if_neg h', ck_of (by simp only [InI64]; omega)]
    simp only [Option.map_some, Option.bind_eq_bind, Option.bind_some]
    by_cases hb : x ≤ 2 ^ 63 - 1 - y
    · have hr : InI64 (x + y) := by simp only [InI64]; omega
      rw [decide_eq_true hb, if_pos rfl, if_pos hr]
      simp only [if_true, ck_of hr, Option.map_some]
    · have hr : ¬ InI64 (x + y) := by simp only [InI64]; omega
      rw [decide_eq_false hb, if_neg (by decide), if_neg hr]
      simp only [Bool.false_eq_true, if_false]
  · have h' : y < 0 := by omega
    rw [if_neg h, if_pos h', ck_of (x := -(2 ^ 63) - y) (by simp only [InI64]; omega)]
    simp only [Option.map_some, Option.bind_eq_bind, Option.bind_some, Bool.false_eq_true, if_false]
    by_cases hb : x ≥ -(2 ^ 63) - y
    · have hr : InI64 (x + y) := by simp only [InI64]; omega
      rw [decide_eq_true hb, if_pos rfl, if_pos hr, ck_of hr]; rfl
    · have hr : ¬ InI64 (x + y) := by simp only [InI64]; omega
      rw [decide_eq_false hb, if_neg (by decide), if_neg hr]

/-- **C09 for −.** -/
theorem C09_minus {x y : Int} (hx : InI64 x) (hy : InI64 y) : constMinus x y = Exact 207 (x - y) := by
  simp only [InI64] at hx hy
  simp only [constMinus, maxI64, minI64, Exact]
  by_cases h : y ≥ 0
  · have h' : ¬ y < 0 := by omega
    rw [if_pos h, if_neg h', ck_of (by simp only [InI64]; omega)]
    simp only [Option.map_some, Option.bind_eq_bind, Option.bind_some]
    by_cases hb : x ≥ -(2 ^ 63) + y
    · have hr : InI64 (x - y) := by simp only [InI64]; omega
      rw [decide_eq_true hb, if_pos rfl, if_pos hr]
      simp only [if_true, ck_of hr, Option.map_some]
    · have hr : ¬ InI64 (x - y) := by simp only [InI64]; omega
      rw [decide_eq_false hb, if_neg (by decide), if_neg hr]
      simp only [Bool.false_eq_true, if_false]
  · have h' : y < 0 := by omega
    rw [if_neg h, if_pos h', ck_of (x := 2 ^ 63 - 1 + y) (by simp only [InI64]; omega)]
    simp only [Option.map_some, Option.bind_eq_bind, Option.bind_some, Bool.false_eq_true, if_false]
    by_cases hb : x ≤ 2 ^ 63 - 1 + y
    · have hr : InI64 (x - y) := by simp only [InI64]; omega
      rw [decide_eq_true hb, if_pos rfl, if_pos hr, ck_of hr]; rfl
    · have hr : ¬ InI64 (x - y) := by simp only [InI64]; omega
      rw [decide_eq_false hb, if_neg (by decide), if_neg hr]

theorem divMacro_max {x : Int} (hx : 0 < x) (hx2 : InI64 x) : divMacro maxI64 x = some (maxI64 / x) := by
  have h := (C01_div_partial (x := maxI64) (y := x) (by decide) hx2 (by omega)
    (by simp only [DivOverflows, maxI64]; omega)).2.1
  rw [h, Int.fdiv_eq_ediv_of_nonneg _ (by omega)]

theorem divMacro_min_none {x : Int} (hx : 0 < x) (hx2 : InI64 x) : divMacro minI64 x = none := by
  rw [divMacro, if_neg (by simp only [minI64]; omega)]
  exact (systemDiv_none_iff (by decide) hx2).2 (Or.inr (by simp only [DivOverflows, minI64]; omega))

theorem guard_pp {d n} {x y : Int} (hx : 0 < x) (hy : 0 < y) :
    timesGuard d n x y = (d maxI64 x).map (fun q => decide (y ≤ q)) := by
  rw [timesGuard, if_neg (by omega), if_pos ⟨hx, hy⟩]
  have h1 : ¬ (x > 0 ∧ y < 0) := by omega
  have h2 : ¬ (x < 0 ∧ y > 0) := by omega
  have h3 : ¬ (x < 0 ∧ y < 0 ∧ x ≠ minI64 ∧ y ≠ minI64) := by omega
  cases d maxI64 x with
  | none => rfl
  | some q =>
    simp only [Option.map_some, Option.bind_eq_bind, Option.bind_some, if_neg h1, if_neg h2, if_neg h3]
    cases decide (y ≤ q) <;> rfl

theorem guard_pn {d n} {x y : Int} (hx : 0 < x) (hy : y < 0) :
    timesGuard d n x y = (d minI64 x).map (fun q => decide (y ≥ q)) := by
  rw [timesGuard, if_neg (by omega), if_neg (by omega), if_pos ⟨hx, hy⟩]
  have h2 : ¬ (x < 0 ∧ y > 0) := by omega
  have h3 : ¬ (x < 0 ∧ y < 0 ∧ x ≠ minI64 ∧ y ≠ minI64) := by omega
  cases d minI64 x with
  | none => rfl
  | some q =>
    simp only [Option.map_some, Option.bind_eq_bind, Option.bind_some, if_neg h2, if_neg h3]
    cases decide (y ≥ q) <;> rfl

theorem guard_np {d n} {x y : Int} (hx : x < 0) (hy : 0 < y) :
    timesGuard d n x y = (d minI64 y).map (fun q => decide (x ≥ q)) := by
  rw [timesGuard, if_neg (by omega), if_neg (by omega), if_neg (by omega), if_pos ⟨hx, hy⟩]
  have h3 : ¬ (x < 0 ∧ y < 0 ∧ x ≠ minI64 ∧ y ≠ minI64) := by omega
  cases d minI64 y with
  | none => rfl
  | some q =>
    simp only [Option.map_some, Option.bind_eq_bind, Option.bind_some, if_neg h3]
    cases decide (x ≥ q) <;> rfl

theorem guard_nn {d n} {x y : Int} (hx : x < 0) (hy : y < 0) :
    timesGuard d n x y = if x ≠ minI64 ∧ y ≠ minI64 then
      (n x).bind fun nx => (n y).bind fun ny => (d maxI64 ny).map (fun q => decide (nx ≤ q))
      else some false := by
  rw [timesGuard, if_neg (by omega), if_neg (by omega), if_neg (by omega), if_neg (by omega)]
  by_cases h : x ≠ minI64 ∧ y ≠ minI64
  · rw [if_pos h, if_pos ⟨hx, hy, h.1, h.2⟩]; rfl
  · rw [if_neg h, if_neg (fun hc => h ⟨hc.2.2.1, hc.2.2.2⟩)]; rfl

theorem pp_iff {x y : Int} (hx : 0 < x) (hy : 0 < y) : y ≤ maxI64 / x ↔ InI64 (x * y) := by
  rw [Int.le_ediv_iff_mul_le hx, mul_comm]
  have : 0 < x * y := mul_pos hx hy
  simp only [InI64, maxI64]; omega

theorem nn_iff {x y : Int} (hx : x < 0) (hy : y < 0) : -x ≤ maxI64 / -y ↔ InI64 (x * y) := by
  rw [Int.le_ediv_iff_mul_le (by omega), neg_mul_neg]
  have : 0 < x * y := mul_pos_of_neg_of_neg hx hy
  simp only [InI64, maxI64]; omega

theorem min_mul {x y : Int} (hx : x < 0) (hy : y < 0) (h : ¬ (x ≠ minI64 ∧ y ≠ minI64)) :
    ¬ InI64 (x * y) := by
  simp only [InI64, minI64] at h ⊢
  have : x * y ≥ 2 ^ 63 := by
    by_cases hxm : x = -(2 ^ 63)
    · rw [hxm]; nlinarith
    · have : y = -(2 ^ 63) := by omega
      rw [this]; nlinarith
  omega

/-- The guard decides whether the product fits, for operands of the same sign. -/
theorem guard_strict {x y : Int} (hx : InI64 x) (hy : InI64 y)
    (hs : (0 ≤ x ∧ 0 ≤ y) ∨ (x ≤ 0 ∧ y ≤ 0)) :
    timesGuard divMacro (fun a => ck (-a)) x y = some (decide (InI64 (x * y))) := by
  by_cases h0 : x = 0 ∨ y = 0
  · have : x * y = 0 := by rcases h0 with rfl | rfl <;> simp
    rw [this, timesGuard, if_pos h0]; rfl
  · by_cases hp : x > 0
    · have hy0 : 0 < y := by omega
      rw [guard_pp hp hy0, divMacro_max hp hx, Option.map_some]
      simp only [pp_iff hp hy0]
    · have hx0 : x < 0 := by omega
      have hy0 : y < 0 := by omega
      rw [guard_nn hx0 hy0]
      by_cases hm : x ≠ minI64 ∧ y ≠ minI64
      · have hx' := hx
        have hy' := hy
        have hm' := hm
        simp only [InI64, minI64] at hx' hy' hm'
        rw [if_pos hm, ck_of (x := -x) (by simp only [InI64]; omega), Option.bind_some,
          ck_of (x := -y) (by simp only [InI64]; omega), Option.bind_some,
          divMacro_max (by omega) (by simp only [InI64]; omega), Option.map_some]
        simp only [nn_iff hx0 hy0]
      · rw [if_neg hm, decide_eq_false (min_mul hx0 hy0 hm)]

/-- **C09 for ×, operands of the same sign or one of them zero.** -/
theorem C09_times_partial {x y : Int} (hx : InI64 x) (hy : InI64 y)
    (hs : (0 ≤ x ∧ 0 ≤ y) ∨ (x ≤ 0 ∧ y ≤ 0)) : constTimes x y = Exact 204 (x * y) := by
  rw [constTimes, guard_strict hx hy hs, Exact]
  simp only [Option.bind_eq_bind, Option.bind_some]
  by_cases hr : InI64 (x * y)
  · rw [decide_eq_true hr, if_pos rfl, if_pos hr, ck_of hr]; rfl
  · rw [decide_eq_false hr, if_neg (by decide), if_neg hr]

/-- **C09 fails for × with operands of opposite sign**: the guard computes `MIN(INT64) DIV x`, which
overflows inside the compiler, for every such pair of operands. -/
theorem C09_times_mixed_undefined {x y : Int} (hx : InI64 x) (hy : InI64 y)
    (hs : (0 < x ∧ y < 0) ∨ (x < 0 ∧ 0 < y)) : constTimes x y = none := by
  rcases hs with ⟨h1, h2⟩ | ⟨h1, h2⟩
  · rw [constTimes, guard_pn h1 h2, divMacro_min_none h1 hx]; rfl
  · rw [constTimes, guard_np h1 h2, divMacro_min_none h2 hy]; rfl

/-- Whenever the product is folded without undefined behaviour, the result is exact or an error. -/
theorem constTimes_sound {x y : Int} (hx : InI64 x) (hy : InI64 y) {r : Fold}
    (h : constTimes x y = some r) : some r = Exact 204 (x * y) := by
  by_cases hs : (0 ≤ x ∧ 0 ≤ y) ∨ (x ≤ 0 ∧ y ≤ 0)
  · rw [← h, C09_times_partial hx hy hs]
  · rw [C09_times_mixed_undefined hx hy (by omega)] at h
    simp at h

theorem wrap64_of {x : Int} (h : InI64 x) : wrap64 x = x := by
  simp only [InI64] at h
  simp only [wrap64]; omega

/-- `MIN(INT64) DIV x` as computed by a wrapping machine: not negative, for `x ≥ 2`. -/
theorem divMacroWrap_min {x : Int} (hx : 2 ≤ x) (hx2 : InI64 x) : 0 ≤ divMacroWrap minI64 x := by
  simp only [InI64] at hx2
  have h1 : wrap64 (wrap64 (x - minI64) - 1) = x - 1 - 2 ^ 63 := by
    simp only [wrap64, minI64]; omega
  have h0 : divMacroWrap minI64 x = wrap64 (-(Int.tdiv (x - 1 - 2 ^ 63) x)) := by
    simp only [divMacroWrap, systemDivWrap]
    rw [if_neg (by simp only [minI64]; omega), if_neg (by decide), if_neg (by decide), if_pos (by omega), h1]
  rw [h0]
  obtain ⟨a, ha⟩ : ∃ a : Int, a = 2 ^ 63 + 1 - x := ⟨_, rfl⟩
  rw [show x - 1 - 2 ^ 63 = -a by omega, Int.neg_tdiv, neg_neg]
  have ht := tdiv_spec (a := a) (b := x) (by omega) (by omega)
  have : Int.tdiv a x * 2 ≤ a := by nlinarith [ht.1, ht.2.1, ht.2.2.2.1]
  rw [wrap64_of (by simp only [InI64]; omega)]
  exact ht.2.2.2.1

/-- **C09 fails for × with operands of opposite sign, on a machine that wraps around**: such a product
is rejected with error 204 ("product too large") however small it is, unless the positive operand is 1. -/
theorem C09_times_mixed_rejected {x y : Int} (hx : InI64 x) (hy : InI64 y)
    (hs : (2 ≤ x ∧ y < 0) ∨ (x < 0 ∧ 2 ≤ y)) : constTimesWrap x y = some (.error 204) := by
  rcases hs with ⟨h1, h2⟩ | ⟨h1, h2⟩
  · have := divMacroWrap_min h1 hx
    rw [constTimesWrap, guard_pn (by omega) h2, Option.map_some, decide_eq_false (by omega)]; rfl
  · have := divMacroWrap_min h2 hy
    rw [constTimesWrap, guard_np h1 (by omega), Option.map_some, decide_eq_false (by omega)]; rfl

/-- The smallest example: `3 * (-2)` is rejected. -/
example : constTimesWrap 3 (-2) = some (.error 204) := by decide

theorem divMacroWrap_max {x : Int} (hx : 0 < x) : divMacroWrap maxI64 x = maxI64 / x := by
  rw [divMacroWrap, if_pos ⟨by decide, hx⟩, Int.tdiv_eq_ediv_of_nonneg (by decide)]

/-- **C09 for ×, on a machine that wraps around**: for operands of the same sign the result is exact or
reported, and for operands of opposite sign a product that is accepted is exact. -/
theorem C09_times_wrap_partial {x y : Int} (hx : InI64 x) (hy : InI64 y) :
    (((0 ≤ x ∧ 0 ≤ y) ∨ (x ≤ 0 ∧ y ≤ 0)) → constTimesWrap x y = Exact 204 (x * y)) ∧
    (∀ v, constTimesWrap x y = some (.ok v) → v = x * y ∧ InI64 v) := by
  have hA : ((0 ≤ x ∧ 0 ≤ y) ∨ (x ≤ 0 ∧ y ≤ 0)) → constTimesWrap x y = Exact 204 (x * y) := by
    intro hs
    have hg : timesGuard (fun a b => some (divMacroWrap a b)) (fun a => some (wrap64 (-a))) x y =
        some (decide (InI64 (x * y))) := by
      by_cases h0 : x = 0 ∨ y = 0
      · have : x * y = 0 := by rcases h0 with rfl | rfl <;> simp
        rw [this, timesGuard, if_pos h0]; rfl
      · by_cases hp : x > 0
        · have hy0 : 0 < y := by omega
          rw [guard_pp hp hy0, divMacroWrap_max hp, Option.map_some]
          simp only [pp_iff hp hy0]
        · have hx0 : x < 0 := by omega
          have hy0 : y < 0 := by omega
          rw [guard_nn hx0 hy0]
          by_cases hm : x ≠ minI64 ∧ y ≠ minI64
          · have hx' := hx
            have hy' := hy
            have hm' := hm
            simp only [InI64, minI64] at hx' hy' hm'
            rw [if_pos hm, wrap64_of (x := -x) (by simp only [InI64]; omega), Option.bind_some,
              wrap64_of (x := -y) (by simp only [InI64]; omega), Option.bind_some,
              divMacroWrap_max (by omega), Option.map_some]
            simp only [nn_iff hx0 hy0]
          · rw [if_neg hm, decide_eq_false (min_mul hx0 hy0 hm)]
    rw [constTimesWrap, hg, Exact]
    simp only [Option.bind_eq_bind, Option.bind_some]
    by_cases hr : InI64 (x * y)
    · rw [decide_eq_true hr, if_pos rfl, if_pos hr, wrap64_of hr]
    · rw [decide_eq_false hr, if_neg (by decide), if_neg hr]
  refine ⟨hA, ?_⟩
  intro v h
  by_cases hm : (2 ≤ x ∧ y < 0) ∨ (x < 0 ∧ 2 ≤ y)
  · rw [C09_times_mixed_rejected hx hy hm] at h; simp at h
  · by_cases hs : (0 ≤ x ∧ 0 ≤ y) ∨ (x ≤ 0 ∧ y ≤ 0)
    · rw [hA hs, Exact] at h
      split at h
      · next hr => simp at h; exact ⟨h.symm, h ▸ hr⟩
      · simp at h
    · have key : InI64 (x * y) := by
        have : x = 1 ∨ y = 1 := by omega
        rcases this with rfl | rfl
        · rw [one_mul]; exact hy
        · rw [mul_one]; exact hx
      have hv : v = wrap64 (x * y) := by
        simp only [constTimesWrap, Option.bind_eq_bind, Option.bind_eq_some_iff, Option.some.injEq] at h
        obtain ⟨g, -, h⟩ := h
        split at h
        · simpa using h.symm
        · simp at h
      rw [wrap64_of key] at hv
      exact ⟨hv, hv ▸ key⟩

theorem divMacro_sound {x y q : Int} (hy : y ≠ 0) (h : divMacro x y = some q) :
    q = Int.fdiv x y ∧ (InI64 x → InI64 q) := by
  have hs : systemDiv x y = some q := by
    rw [divMacro] at h
    split at h
    · next hp =>
      rw [systemDiv, if_neg (by omega), if_pos (by omega), if_pos (by omega)]; exact h
    · exact h
  refine ⟨systemDiv_sound hy hs, fun _ => ?_⟩
  rw [systemDiv] at hs
  split at hs
  · simp at hs; subst hs; decide
  · have hck : ∀ {a b : Int}, ck a = some b → InI64 b := by
      intro a b h; obtain ⟨h1, rfl⟩ := ck_eq_some.1 h; exact h1
    have hcd : ∀ {a b c : Int}, cdiv a b = some c → InI64 c := by
      intro a b c h; rw [cdiv] at h; split at h
      · simp at h
      · exact hck h
    split at hs <;> split at hs
    · exact hcd hs
    · simp only [Option.bind_eq_bind, Option.bind_eq_some_iff] at hs
      obtain ⟨_, _, _, _, _, _, _, _, h⟩ := hs; exact hck h
    · simp only [Option.bind_eq_bind, Option.bind_eq_some_iff] at hs
      obtain ⟨_, _, _, _, _, _, h⟩ := hs; exact hck h
    · simp only [Option.bind_eq_bind, Option.bind_eq_some_iff] at hs
      obtain ⟨_, _, _, _, h⟩ := hs; exact hcd h

theorem modMacro_sound {x y r : Int} (hy : y ≠ 0) (h : modMacro x y = some r) : r = Int.fmod x y := by
  have hs : systemMod x y = some r := by
    rw [modMacro] at h
    split at h
    · next hp =>
      rw [systemMod, if_neg (by omega), if_pos (by omega), if_pos (by omega)]; exact h
    · exact h
  exact systemMod_sound hy hs

/-- **C09 for DIV and MOD**: outside the operands for which the compiler's own division overflows
(`C01`), the floored quotient and remainder; division by zero is reported. -/
theorem C09_div_mod_partial {x y : Int} (hx : InI64 x) (hy : InI64 y) :
    (y = 0 → constDiv x y = some (.error 205) ∧ constMod x y = some (.error 205)) ∧
    (y ≠ 0 → ¬ DivOverflows x y → constDiv x y = some (.ok (Int.fdiv x y))) ∧
    (y ≠ 0 → ¬ ModOverflows x y → constMod x y = some (.ok (Int.fmod x y))) := by
  refine ⟨?_, ?_, ?_⟩
  · rintro rfl; simp [constDiv, constMod]
  · intro h ho
    rw [constDiv, if_pos h, (C01_div_partial hx hy h ho).2.1]; rfl
  · intro h ho
    rw [constMod, if_pos h, (C01_mod_partial hx hy h ho).2.1]; rfl

/-- **C09 fails for DIV**: `MIN(INT64) DIV -1` is not representable, and is not reported; a wrapping
machine folds `MIN(INT64) DIV 3` to a positive number. -/
theorem C09_div_wrong :
    ¬ InI64 (Int.fdiv minI64 (-1)) ∧ constDiv minI64 (-1) = none ∧ constDivWrap minI64 (-1) = .ok minI64 ∧
    constDivWrap minI64 3 = .ok 3074457345618258602 ∧ Int.fdiv minI64 3 = -3074457345618258603 := by
  decide

/-- **C09 for relations.** -/
theorem C09_rel (r : Rel) (x y : Int) :
    constRel r x y = true ↔
      match r with
      | .eql => x = y
      | .neq => x ≠ y
      | .lss => x < y
      | .leq => x ≤ y
      | .gtr => y < x
      | .geq => y ≤ x := by
  cases r <;> simp only [constRel, constCmp] <;> split <;> try split
  all_goals simp
  all_goals omega

/-- **C09 for monadic minus and ABS.** -/
theorem C09_neg_abs {x : Int} (hx : InI64 x) :
    constNeg x = Exact 203 (-x) ∧ constAbs x = Exact 203 |x| := by
  simp only [InI64] at hx
  have hmin : minI64 = -(2 ^ 63) := rfl
  constructor
  · simp only [constNeg, Exact]
    by_cases h : x = minI64
    · subst h; decide
    · have hr : InI64 (-x) := by simp only [InI64]; omega
      rw [if_neg h, ck_of hr, if_pos hr]; rfl
  · have ha : (if x < 0 then -x else x) = |x| := by
      split
      · next h => rw [abs_of_neg h]
      · next h => rw [abs_of_nonneg (by omega)]
    simp only [constAbs, Exact, ha]
    by_cases h : x = minI64
    · subst h; decide
    · have hr : InI64 |x| := by
        rw [← ha]; simp only [InI64]; split <;> omega
      rw [if_neg h, ck_of hr, if_pos hr]; rfl

/-- **C09 for ODD.** -/
theorem C09_odd (x : Int) : constOdd x = true ↔ Int.fmod x 2 = 1 := C05_odd x

/-- **C09 for ASH**, shift counts from -62 to 62: a right shift is the floored quotient; a left shift is
exact when the result lies strictly inside the 64-bit range in both directions, and error 208 otherwise.
Other counts are error 208. -/
theorem C09_ash_partial {p n : Int} (hp : InI64 p) :
    (n < -62 ∨ 62 < n → constAsh p n = some (.error 208)) ∧
    (-62 ≤ n → n < 0 → constAsh p n = some (.ok (Int.fdiv p (2 ^ (-n).toNat)))) ∧
    (0 ≤ n → n ≤ 62 → p ≠ minI64 →
      constAsh p n = some (if |p * 2 ^ n.toNat| ≤ maxI64 then .ok (p * 2 ^ n.toNat) else .error 208)) := by
  refine ⟨?_, ?_, ?_⟩
  · intro h
    rw [constAsh, if_pos (by simp only [maxExp]; omega)]
  · intro h1 h2
    rw [constAsh, if_neg (by simp only [maxExp]; omega), if_neg (by omega),
      (C05_ash (by omega)).2 h2]; rfl
  · intro h1 h2 hm
    have hpos : (0 : Int) < 2 ^ n.toNat := by positivity
    have hlt : (2 : Int) ^ n.toNat < 2 ^ 63 := pow_lt_pow_right₀ (by decide) (by omega)
    have he := (C05_ash (x := 1) (n := n) (by omega)).1 h1 (by rw [one_mul]; simp only [InI64]; omega)
    rw [one_mul] at he
    have habs : absMacro p = |p| := by
      simp only [absMacro]; split
      · next h => rw [abs_of_neg h]
      · next h => rw [abs_of_nonneg (by omega)]
    have hck : InI64 |p| := by
      rw [← habs]; simp only [absMacro]
      have : p ≠ -(2 ^ 63) := hm
      simp only [InI64] at hp ⊢; split <;> omega
    rw [constAsh, if_neg (by simp only [maxExp]; omega), if_pos h1, habs, ck_of hck, he]
    simp only [Option.bind_eq_bind, Option.bind_some]
    rw [divMacro_max hpos (by simp only [InI64]; omega)]
    simp only [Option.bind_some]
    have hiff : |p| ≤ maxI64 / 2 ^ n.toNat ↔ |p * 2 ^ n.toNat| ≤ maxI64 := by
      rw [Int.le_ediv_iff_mul_le hpos, abs_mul, abs_of_pos hpos]
    by_cases hb : |p * 2 ^ n.toNat| ≤ maxI64
    · have hr : InI64 (p * 2 ^ n.toNat) := by
        have := abs_le.1 hb
        simp only [InI64, maxI64] at this ⊢; omega
      rw [if_pos (hiff.2 hb), if_pos hb, ck_of hr]; rfl
    · rw [if_neg (fun h => hb (hiff.1 h)), if_neg hb]

/-- Missing from `C09_ash_partial`: `ASH(MIN(INT64), 0)` is undefined behaviour in the compiler, and
`ASH(-2, 62)`, which is representable, is rejected. -/
theorem C09_ash_wrong : constAsh minI64 0 = none ∧
    constAsh (-2) 62 = some (.error 208) ∧ InI64 (-2 * 2 ^ 62) := by decide

/-! ### C42 -/

theorem shift_ne_zero {m : Int} (hm : 0 ≤ m) (k : Nat) : m >>> k ≠ 0 ↔ 2 ^ k ≤ m := by
  rw [Int.shiftRight_eq_div_pow]
  have hp : (0 : Int) < 2 ^ k := by positivity
  push_cast
  constructor
  · intro h
    by_contra hc
    exact h (Int.ediv_eq_zero_of_lt hm (by omega))
  · intro h h0
    have h1 := Int.ediv_mul_le m hp.ne'
    have h2 := Int.lt_ediv_add_one_mul_self m hp
    rw [h0] at h2
    omega

/-- **C42.**  `IntSize` gives the least number of bytes that can hold the constant. -/
theorem C42_intSize {v : Int} (hv : InI64 v) :
    1 ≤ intSize v ∧ intSize v ≤ 8 ∧ InRange (8 * intSize v) v ∧
      ∀ k, 1 ≤ k → InRange (8 * k) v → intSize v ≤ k := by
  obtain ⟨m, hm⟩ : ∃ m, m = (if v < 0 then -(v + 1) else v) := ⟨_, rfl⟩
  have h0 : 0 ≤ m := by rw [hm]; split <;> omega
  have hr : ∀ k, 1 ≤ k → (InRange (8 * k) v ↔ m < 2 ^ (8 * k - 1)) := by
    intro k hk
    simp only [InRange, hm]
    have : (0 : Int) < 2 ^ (8 * k - 1) := by positivity
    split <;> omega
  have h8 : m < 2 ^ 63 := (hr 8 (by omega)).1 hv
  have key : ∀ fuel b, b + fuel = 9 → 1 ≤ b → (∀ k, 1 ≤ k → k < b → ¬ m < 2 ^ (8 * k - 1)) →
      b ≤ intSizeLoop m fuel b ∧ intSizeLoop m fuel b ≤ max b 8 ∧
      (b ≤ 8 → m < 2 ^ (8 * intSizeLoop m fuel b - 1)) ∧
      (∀ k, 1 ≤ k → k < intSizeLoop m fuel b → ¬ m < 2 ^ (8 * k - 1)) := by
    intro fuel
    induction fuel with
    | zero =>
      intro b hb h1 hk
      exact ⟨le_rfl, by simp [intSizeLoop], by omega, hk⟩
    | succ f ih =>
      intro b hb h1 hk
      rw [intSizeLoop]
      split
      · next hc =>
        rw [shift_ne_zero h0] at hc
        obtain ⟨i1, i2, i3, i4⟩ := ih (b + 1) (by omega) (by omega) (by
          intro k hk1 hk2
          by_cases hkb : k < b
          · exact hk k hk1 hkb
          · have : k = b := by omega
            subst this; omega)
        exact ⟨by omega, by omega, fun _ => i3 (by omega), i4⟩
      · next hc =>
        rw [shift_ne_zero h0] at hc
        refine ⟨le_rfl, by omega, ?_, hk⟩
        intro hb8
        by_cases hb7 : b < 8
        · omega
        · have : b = 8 := by omega
          subst this; exact h8
  obtain ⟨k1, k2, k3, k4⟩ := key 8 1 rfl le_rfl (by omega)
  have he : intSize v = intSizeLoop m 8 1 := by rw [intSize, hm]
  rw [he]
  refine ⟨k1, by omega, (hr _ (by omega)).2 (k3 (by omega)), ?_⟩
  intro k hk1 hk
  by_contra hc
  exact k4 k hk1 (by omega) ((hr k hk1).1 hk)

/-- The sizes of the signed integer types. -/
def IsSize (n : Nat) : Prop := n = 1 ∨ n = 2 ∨ n = 4 ∨ n = 8

/-- **C42.**  The type given to an integer constant is the smallest of the types of 1, 2, 4 and 8 bytes
that contains it. -/
theorem C42_constant_type {v : Int} (hv : InI64 v) :
    IsSize (setIntType v) ∧ InRange (8 * setIntType v) v ∧
      ∀ n, IsSize n → InRange (8 * n) v → setIntType v ≤ n := by
  obtain ⟨h1, h2, h3, h4⟩ := C42_intSize hv
  have hmono : ∀ a b : Nat, 1 ≤ a → a ≤ b → InRange (8 * a) v → InRange (8 * b) v := by
    intro a b ha hab h
    simp only [InRange] at h ⊢
    have : (2 : Int) ^ (8 * a - 1) ≤ 2 ^ (8 * b - 1) := pow_le_pow_right₀ (by decide) (by omega)
    omega
  refine ⟨?_, ?_, ?_⟩
  · simp only [IsSize, setIntType, intType]; split <;> [skip; split <;> [skip; split]] <;> simp
  · apply hmono _ _ h1 _ h3
    simp only [setIntType, intType]; split <;> [skip; split <;> [skip; split]] <;> omega
  · intro n hn hr
    have := h4 n (by rcases hn with rfl | rfl | rfl | rfl <;> decide) hr
    simp only [setIntType, intType]
    rcases hn with rfl | rfl | rfl | rfl <;> split <;> (try split) <;> (try split) <;> omega

/-- **C42.**  Assignment of an integer expression is accepted exactly when the target type includes the
source type. -/
theorem C42_assign {x y : Nat} (hx : IsSize x) (_ : IsSize y) :
    checkAssignInt x y = true ↔ ∀ v, InRange (8 * y) v → InRange (8 * x) v := by
  constructor
  · intro h v hv
    simp only [checkAssignInt, decide_not, Bool.not_eq_true', decide_eq_false_iff_not] at h
    simp only [InRange] at hv ⊢
    have : (2 : Int) ^ (8 * y - 1) ≤ 2 ^ (8 * x - 1) := pow_le_pow_right₀ (by decide) (by omega)
    omega
  · intro h
    simp only [checkAssignInt, decide_not, Bool.not_eq_true', decide_eq_false_iff_not]
    intro hlt
    have h1 := h (2 ^ (8 * y - 1) - 1) (by
      have : (0 : Int) < 2 ^ (8 * y - 1) := by positivity
      simp only [InRange]; omega)
    have : (2 : Int) ^ (8 * x - 1) < 2 ^ (8 * y - 1) := by
      apply pow_lt_pow_right₀ (by decide)
      rcases hx with rfl | rfl | rfl | rfl <;> omega
    simp only [InRange] at h1
    omega

/-- **C42, conversion of constants**: a constant converted to a type without an error message keeps its
value, and fits the type (given that it fitted the old one). -/
theorem C42_convert {v : Int} (hv : InI64 v) {old new : Nat} (ho : IsSize old) (hn : IsSize new)
    (hfit : InRange (8 * old) v) :
    ((convertConst v old new).2 = [] ↔ InRange (8 * new) v) ∧
    ((convertConst v old new).2 = [] → (convertConst v old new).1 = v) := by
  obtain ⟨h1, h2, h3⟩ := C42_constant_type hv
  simp only [convertConst]
  have hmono : ∀ a b : Nat, IsSize a → a ≤ b → InRange (8 * a) v → InRange (8 * b) v := by
    intro a b ha hab h
    simp only [InRange] at h ⊢
    have : (2 : Int) ^ (8 * a - 1) ≤ 2 ^ (8 * b - 1) := pow_le_pow_right₀ (by decide) (by omega)
    omega
  split
  · split
    · next hc =>
      simp only [List.cons_ne_nil, false_iff, IsEmpty.forall_iff, and_true]
      intro hr
      have := h3 new hn hr
      omega
    · next hc =>
      simp only [true_iff, implies_true, and_true]
      exact hmono _ _ h1 (by omega) h2
  · next hc =>
    simp only [true_iff, implies_true, and_true]
    exact hmono _ _ ho (by omega) hfit

/-- **C42, MIN and MAX** on a machine that wraps around: the bounds of the type.  The computation of
MAX of the 64-bit type overflows, so that C does not define it. -/
theorem C42_min_max {n : Nat} (hn : IsSize n) :
    signedMaximumWrap n = some (2 ^ (8 * n - 1) - 1) ∧ signedMinimumWrap n = some (-(2 ^ (8 * n - 1))) ∧
    (signedMaximum n = if n = 8 then none else some (2 ^ (8 * n - 1) - 1)) := by
  rcases hn with rfl | rfl | rfl | rfl <;> decide

/-- **C42 fails for ASH of constants**: the result keeps the type LONGINT (4 bytes), which need not
contain it: src/compiler/OPB.Mod 1183-1184 do not call `SetIntType`. -/
theorem C42_ash_type : constAsh 1 40 = some (.ok (2 ^ 40)) ∧ ¬ InRange (8 * 4) (2 ^ 40) := by decide

example : setIntType 127 = 1 ∧ setIntType 128 = 2 ∧ setIntType (-128) = 1 ∧ setIntType (-129) = 2 ∧
    setIntType (2 ^ 31) = 8 ∧ setIntType (-(2 ^ 63)) = 8 := by decide
example : InI64 (2 ^ 62) ∧ constPlus (2 ^ 62) (2 ^ 62 - 1) = some (.ok (2 ^ 63 - 1)) ∧
    constPlus (2 ^ 62) (2 ^ 62) = some (.error 206) := by decide
example : constTimes (-3037000499) (-3037000500) = some (.ok 9223372033963249500) := by decide
example : convertConst 300 2 1 = (1, [203]) ∧ convertConst 100 2 1 = (100, []) := by decide

end Verif.Const
