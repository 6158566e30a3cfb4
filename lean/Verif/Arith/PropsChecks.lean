import Verif.Arith.Model
import Mathlib.Tactic.Ring
import Mathlib.Tactic.IntervalCases

/-!
C02: index and range checks trap exactly outside the range; ABS.
-/
namespace Verif.Arith

/-- **C02, `__XF`** (index expressions that contain a call): exact for every 64-bit index. -/
theorem C02_xf_exact {i len : Int} (hi : InI64 i) (hl : 0 ≤ len ∧ len < 2 ^ 63) :
    xf i len = if 0 ≤ i ∧ i < len then .ok i else .halt (-2) := by
  simp only [InI64] at hi
  have e1 : toU64 i = i % 2 ^ 64 := rfl
  have e2 : toU64 len = len % 2 ^ 64 := rfl
  have e3 : wrap64 (toU64 i) = (toU64 i + 2 ^ 63) % 2 ^ 64 - 2 ^ 63 := rfl
  simp only [xf]
  by_cases h : 0 ≤ i ∧ i < len
  · rw [if_pos h, if_neg (by omega), e3]; congr 1; omega
  · rw [if_neg h, if_pos (by omega)]

/-- **C02, `__X`, what is true**: exact for indices that are not negative. -/
theorem C02_x_partial {i len : Int} (hi : 0 ≤ i) :
    xMacro i len = if 0 ≤ i ∧ i < len then .ok i else .halt (-2) := by
  simp only [xMacro]
  split <;> split <;> first | rfl | (exfalso; omega)

/-- **C02 fails for `__X`**: *every* negative index passes the check, for every array. -/
theorem C02_x_negative_passes {i len : Int} (hi : i < 0) (hl : 0 < len) : xMacro i len = .ok i := by
  simp only [xMacro]; rw [if_pos (by omega)]

/-- **C02 at the level of an element access, what is true**: an access with index checks on
touches only elements `0 ≤ i < len`, provided the index is a constant, or contains a procedure
call, or is not negative.  (`len > 0`: arrays are never empty; see C40 for NEW.) -/
theorem C02_access_in_bounds_partial {k : IndexKind} {isOpen : Bool} {i len j : Int} (hi : InI64 i)
    (hl : 0 < len ∧ len < 2 ^ 63) (hk : k ≠ .plain ∨ 0 ≤ i)
    (h : indexAccess k isOpen i len = .element j) : j = i ∧ 0 ≤ j ∧ j < len := by
  cases k
  · simp only [indexAccess, xMacro] at h
    split at h
    · cases h
    · split at h
      · cases h; rename_i h1 h2; cases isOpen <;> simp at h1 h2 <;> omega
      · split at h
        · rename_i h1 h2 h3 v h4
          split at h4
          · cases h4; cases h; omega
          · cases h4
        · cases h
  · simp only [indexAccess] at h
    rw [C02_xf_exact hi (by omega)] at h
    split at h
    · rename_i h1
      split at h1
      · cases h1; cases h; omega
      · cases h1
    · cases h
  · simp only [indexAccess, xMacro] at h
    split at h
    · rename_i h1
      split at h1
      · cases h1; cases h; simp at hk; omega
      · cases h1
    · cases h

/-- The converse: an index inside the array is never refused. -/
theorem C02_access_complete {k : IndexKind} {isOpen : Bool} {i len : Int} (hi : InI64 i)
    (hl : 0 < len ∧ len < 2 ^ 63) (hin : 0 ≤ i ∧ i < len) :
    indexAccess k isOpen i len = .element i := by
  cases k
  · simp only [indexAccess, xMacro]
    rw [if_neg (by rintro (h | ⟨-, h⟩) <;> omega)]
    split
    · rfl
    · rw [if_pos hin.2]
  · simp only [indexAccess]
    rw [C02_xf_exact hi (by omega), if_pos hin]
  · simp only [indexAccess, xMacro]
    rw [if_pos hin.2]

/-- **C02 fails for element accesses**: `a[i]` with `i = -1` in a variable accesses element -1. -/
theorem C02_access_counterexample : indexAccess .plain false (-1) 10 = .element (-1) := by decide

/-- **C02, `__RF`.** -/
theorem C02_rf_exact {i ub : Int} (hi : InI64 i) (hl : 0 ≤ ub ∧ ub < 2 ^ 63) :
    rf i ub = if 0 ≤ i ∧ i < ub then .ok i else .halt (-8) := by
  simp only [InI64] at hi
  have e1 : toU64 i = i % 2 ^ 64 := rfl
  have e2 : toU64 ub = ub % 2 ^ 64 := rfl
  have e3 : wrap64 (toU64 i) = (toU64 i + 2 ^ 63) % 2 ^ 64 - 2 ^ 63 := rfl
  simp only [rf]
  by_cases h : 0 ≤ i ∧ i < ub
  · rw [if_pos h, if_neg (by omega), e3]; congr 1; omega
  · rw [if_neg h, if_pos (by omega)]

/-- **C02, SHORT of an expression without a call**: exact for each target size of 1, 2, 4 bytes
(`ub` is `SignedMaximum(size)+1`, src/compiler/OPV.Mod 246-250). -/
theorem C02_short_exact {x : Int} {bits : Nat} (hb : bits = 8 ∨ bits = 16 ∨ bits = 32) (hx : InI64 x) :
    shortMacro x (2 ^ (bits - 1)) = if InRange bits x then .ok x else .halt (-8) := by
  simp only [InI64] at hx
  rcases hb with rfl | rfl | rfl <;>
  · simp only [shortMacro, toU64, wrap32, InRange]
    norm_num
    split <;> split <;> first | rfl | (exfalso; omega) | (congr 1; omega)

/-- **C02, SHORT of an expression with a call**: exact, for arguments of 32 or 64 bits, provided
the machine wraps; where the C sum is defined no wrapping is needed. -/
theorem C02_shortF_exact {x : Int} {w bits : Nat} (hw : w = 32 ∨ w = 64)
    (hb : bits = 8 ∨ bits = 16 ∨ bits = 32 ∧ w = 64) (hx : InRange w x) :
    shortF w x (2 ^ (bits - 1)) = if InRange bits x then .ok x else .halt (-8) := by
  rcases hw with rfl | rfl <;> rcases hb with rfl | rfl | ⟨rfl, h⟩ <;> simp only [InRange] at hx <;>
    simp at hx <;>
  first
  | (exfalso; omega)
  | (simp only [shortF, InRange]
     rw [C02_rf_exact (by simp only [InI64]; norm_num; omega) (by norm_num)]
     simp only [wrap32]
     norm_num
     split <;> rename_i h1 <;> split at h1 <;> split <;>
       first
       | (cases h1; done)
       | (exfalso; omega)
       | (cases h1; congr 1; omega)
       | (cases h1; rfl))

/-- The C sum in `__SHORTF` is undefined for `SHORT(f())` with `f() = MAX(LONGINT)` (32 bits). -/
theorem C02_shortF_undefined : ¬ shortFDefined 32 (2 ^ 31 - 1) (2 ^ 15) := by
  simp [shortFDefined, InRange]

/-- **C02, CHR of an expression with a call**: exact. -/
theorem C02_chrF_exact {x : Int} (hx : InI64 x) :
    chrF x = if 0 ≤ x ∧ x < 256 then .ok x else .halt (-8) := by
  simp only [chrF]
  rw [C02_rf_exact hx (by omega)]
  split <;> rename_i h1 <;> split at h1 <;> split <;>
    first
    | (exfalso; omega)
    | (cases h1; simp only [toChar]; congr 1; omega)
    | (cases h1; rfl)
    | cases h1

/-- **C02, CHR of an expression without a call, what is true.** -/
theorem C02_chr_partial {x : Int} (hx : 0 ≤ x) :
    chrMacro x = if 0 ≤ x ∧ x < 256 then .ok x else .halt (-8) := by
  simp only [chrMacro, rMacro]
  split <;> rename_i h1 <;> split at h1 <;> split <;>
    first
    | (exfalso; omega)
    | (cases h1; simp only [toChar]; congr 1; omega)
    | (cases h1; rfl)
    | cases h1

/-- **C02 fails for `CHR(x)`**: with range checks on, `CHR(-1)` is 0FFX and no trap. -/
theorem C02_chr_counterexample : chrMacro (-1) = .ok 255 := by decide

/-- ABS of an argument with a call, of at most 32 bits: exact. -/
theorem absF_exact_32 {x : Int} {size : Nat} (hs : size ≤ 4) : absF size x = |x| := by
  simp only [absF, hs, if_true, systemAbs32]
  split
  · next h => exact (abs_of_nonneg h).symm
  · next h => exact (abs_of_neg (by omega)).symm

/-- ABS of a 64-bit argument with a call: exact when the result fits 32 bits ... -/
theorem absF_64_partial {x : Int} (hx : -(2 ^ 31) < x ∧ x < 2 ^ 31) : absF 8 x = |x| := by
  simp only [absF, systemAbs64, wrap32]
  split
  · next h => exact absurd h (by omega)
  · split
    · next h => rw [abs_of_nonneg h]; omega
    · next h => rw [abs_of_neg (by omega)]; omega

/-- ... and wrong otherwise, because `SYSTEM_ABS64` returns an `INT32`: for *every* 64-bit
argument whose absolute value needs more than 31 bits. -/
theorem absF_64_wrong {x : Int} (hx : 2 ^ 31 ≤ |x|) : absF 8 x ≠ |x| := by
  simp only [absF, systemAbs64, wrap32]
  rw [if_neg (by omega)]
  omega

example : absF 8 (-(2 ^ 40)) = 0 := by decide

/- Non-vacuity. -/
example : InI64 (-1) ∧ xf (-1) 10 = .halt (-2) ∧ xf 9 10 = .ok 9 ∧ xf 10 10 = .halt (-2) := by decide
example : shortMacro (-129) (2 ^ 7) = .halt (-8) ∧ shortMacro (-128) (2 ^ 7) = .ok (-128) := by decide
example : shortF 64 (2 ^ 31) (2 ^ 31) = .halt (-8) ∧ shortF 32 (-32768) (2 ^ 15) = .ok (-32768) := by
  decide
example : indexAccess .withCall true (-1) 10 = .halt (-2) ∧ indexAccess .const true 3 2 = .halt (-2) := by
  decide

end Verif.Arith
