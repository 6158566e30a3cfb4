import Verif.Arith.Model
import Mathlib.Tactic.Ring
import Mathlib.Tactic.Linarith

/-!
C01: DIV and MOD are floored division.

Specification: Lean's `Int.fdiv` / `Int.fmod` (division rounding toward minus infinity), together
with the defining property stated outright in `FlooredDiv`.
-/
namespace Verif.Arith

/-- `q` and `r` are the Oberon quotient and remainder of `x` by `y` (Oberon-2 report, 8.2.2):
`x = q*y + r`, and `0 ≤ r < y` or `y < r ≤ 0`. -/
def FlooredDiv (x y q r : Int) : Prop :=
  x = q * y + r ∧ ((0 ≤ r ∧ r < y) ∨ (y < r ∧ r ≤ 0))

/-- The operands for which `SYSTEM_DIV` computes an intermediate value outside `INT64`, although
both operands are in range. -/
def DivOverflows (x y : Int) : Prop :=
  (x > 0 ∧ y < 0 ∧ (x - y > 2 ^ 63 - 1 ∨ y = -(2 ^ 63))) ∨
  (x < 0 ∧ y > 0 ∧ y - x > 2 ^ 63 - 1) ∨
  (x < 0 ∧ y < 0 ∧ (x = -(2 ^ 63) ∨ y = -(2 ^ 63)))

/-- The operands for which `SYSTEM_MOD` computes an intermediate value outside `INT64`. -/
def ModOverflows (x y : Int) : Prop :=
  (x > 0 ∧ y = -(2 ^ 63)) ∨ (x = -(2 ^ 63) ∧ y ≠ 0) ∨ (x < 0 ∧ y = -(2 ^ 63))

theorem flooredDiv_unique {x y q r q' r' : Int}
    (h : FlooredDiv x y q r) (h' : FlooredDiv x y q' r') : q = q' ∧ r = r' := by
  obtain ⟨e, b⟩ := h
  obtain ⟨e', b'⟩ := h'
  have key : (q - q') * y = r' - r := by linarith [e, e', sub_mul q q' y]
  have hq : q - q' = 0 := by
    by_contra hne
    rcases b with ⟨b1, b2⟩ | ⟨b1, b2⟩ <;> rcases b' with ⟨b3, b4⟩ | ⟨b3, b4⟩
    · rcases lt_or_gt_of_ne hne with h | h <;> nlinarith
    · omega
    · omega
    · rcases lt_or_gt_of_ne hne with h | h <;> nlinarith
  have : q = q' := by omega
  subst this
  simp at key
  omega

theorem flooredDiv_fdiv {x y : Int} (hy : y ≠ 0) : FlooredDiv x y (Int.fdiv x y) (Int.fmod x y) := by
  refine ⟨?_, ?_⟩
  · have := Int.mul_fdiv_add_fmod x y; linarith [mul_comm y (x.fdiv y)]
  · rcases lt_or_gt_of_ne hy with h | h
    · right
      have h1 := Int.neg_fmod_neg (-x) (-y)
      simp only [neg_neg] at h1
      have h2 := Int.fmod_nonneg_of_pos (-x) (b := -y) (by omega)
      have h3 := Int.fmod_lt_of_pos (-x) (b := -y) (by omega)
      omega
    · left
      exact ⟨Int.fmod_nonneg_of_pos x h, Int.fmod_lt_of_pos x h⟩

theorem ck_eq_some {x v : Int} : ck x = some v ↔ InI64 x ∧ x = v := by
  unfold ck; split <;> simp_all

theorem ck_of {x : Int} (h : InI64 x) : ck x = some x := by simp [ck, h]

theorem ck_none {x : Int} : ck x = none ↔ ¬ InI64 x := by unfold ck; split <;> simp_all

/-- Truncating division of nonnegative numbers in terms of quotient and remainder. -/
theorem tdiv_spec {a b : Int} (ha : 0 ≤ a) (hb : 0 < b) :
    a = Int.tdiv a b * b + Int.tmod a b ∧ 0 ≤ Int.tmod a b ∧ Int.tmod a b < b ∧
      0 ≤ Int.tdiv a b ∧ Int.tdiv a b ≤ a := by
  have h1 := Int.tdiv_mul_add_tmod a b
  have h2 : 0 ≤ Int.tmod a b := Int.tmod_nonneg b ha
  have h3 : Int.tmod a b < b := Int.tmod_lt_of_pos a hb
  have h4 : 0 ≤ Int.tdiv a b := Int.tdiv_nonneg ha (le_of_lt hb)
  have h5 : Int.tdiv a b ≤ a := Int.tdiv_le_self _ ha
  exact ⟨h1.symm, h2, h3, h4, h5⟩

/-- The quotient computed by `SYSTEM_DIV` is the floored quotient whenever C defines it. -/
theorem systemDiv_sound {x y q : Int} (hy : y ≠ 0) (h : systemDiv x y = some q) :
    q = Int.fdiv x y := by
  suffices hf : ∃ r, FlooredDiv x y q r by
    obtain ⟨r, hr⟩ := hf
    exact (flooredDiv_unique hr (flooredDiv_fdiv hy)).1
  unfold systemDiv at h
  split at h
  · next h0 =>
    subst h0
    simp at h; subst h
    refine ⟨0, by simp, ?_⟩
    omega
  · next h0 =>
    split at h
    · next hx =>
      split at h
      · next hyy =>
        simp [cdiv, hy, ck_eq_some] at h
        obtain ⟨-, rfl⟩ := h
        obtain ⟨e, a, b, -⟩ := tdiv_spec (a := x) (b := y) hx (by omega)
        exact ⟨_, e, Or.inl ⟨a, b⟩⟩
      · next hyy =>
        simp only [bind, Option.bind_eq_some_iff, ck_eq_some, cdiv] at h
        obtain ⟨_, ⟨-, rfl⟩, _, ⟨-, rfl⟩, _, ⟨-, rfl⟩, d, hd, -, rfl⟩ := h
        rw [if_neg (by omega), ck_eq_some] at hd
        obtain ⟨-, rfl⟩ := hd
        obtain ⟨e, a, b, c, -⟩ := tdiv_spec (a := x - y - 1) (b := -y) (by omega) (by omega)
        refine ⟨Int.tmod (x - y - 1) (-y) + y + 1, ?_, Or.inr ⟨by omega, by omega⟩⟩
        have : (x - y - 1).tdiv (-y) * (-y) = -((x - y - 1).tdiv (-y)) * y := by ring
        omega
    · next hx =>
      split at h
      · next hyy =>
        simp only [bind, Option.bind_eq_some_iff, ck_eq_some, cdiv] at h
        obtain ⟨_, ⟨-, rfl⟩, _, ⟨-, rfl⟩, d, hd, -, rfl⟩ := h
        rw [if_neg (by omega), ck_eq_some] at hd
        obtain ⟨-, rfl⟩ := hd
        obtain ⟨e, a, b, c, -⟩ := tdiv_spec (a := y - x - 1) (b := y) (by omega) (by omega)
        refine ⟨y - 1 - Int.tmod (y - x - 1) y, ?_, Or.inl ⟨by omega, by omega⟩⟩
        have : -((y - x - 1).tdiv y) * y = -((y - x - 1).tdiv y * y) := by ring
        omega
      · next hyy =>
        simp only [bind, Option.bind_eq_some_iff, ck_eq_some, cdiv] at h
        obtain ⟨_, ⟨-, rfl⟩, _, ⟨-, rfl⟩, hd⟩ := h
        rw [if_neg (by omega), ck_eq_some] at hd
        obtain ⟨-, rfl⟩ := hd
        obtain ⟨e, a, b, c, -⟩ := tdiv_spec (a := -x) (b := -y) (by omega) (by omega)
        refine ⟨- Int.tmod (-x) (-y), ?_, Or.inr ⟨by omega, by omega⟩⟩
        have : (-x).tdiv (-y) * (-y) = -((-x).tdiv (-y) * y) := by ring
        omega

/-- The exact set of operands for which `SYSTEM_DIV` is undefined: division by zero, and the
operands whose intermediate values overflow. -/
theorem systemDiv_none_iff {x y : Int} (hx : InI64 x) (hy : InI64 y) :
    systemDiv x y = none ↔ (x ≠ 0 ∧ y = 0) ∨ DivOverflows x y := by
  unfold DivOverflows
  simp only [InI64] at hx hy
  constructor
  · intro h
    by_contra hc
    have hcc : systemDiv x y ≠ none := by
      unfold systemDiv
      split
      · simp
      · next h0 =>
        split
        · next hx0 =>
          split
          · next hy0 =>
            have := tdiv_spec (a := x) (b := y) hx0 (by omega)
            simp [cdiv, show y ≠ 0 by omega, ck_none, InI64]; omega
          · next hy0 =>
            rw [ck_of (by simp only [InI64]; omega)]
            simp only [bind, Option.bind_some]
            rw [ck_of (by simp only [InI64]; omega), ck_of (by simp only [InI64]; omega)]
            simp only [Option.bind_some, cdiv]
            have := tdiv_spec (a := x - y - 1) (b := -y) (by omega) (by omega)
            rw [if_neg (by omega), ck_of (by simp only [InI64]; omega)]
            simp only [Option.bind_some]
            rw [ck_of (by simp only [InI64]; omega)]; simp
        · next hx0 =>
          split
          · next hy0 =>
            rw [ck_of (by simp only [InI64]; omega)]
            simp only [bind, Option.bind_some]
            rw [ck_of (by simp only [InI64]; omega)]
            simp only [Option.bind_some, cdiv]
            have := tdiv_spec (a := y - x - 1) (b := y) (by omega) (by omega)
            rw [if_neg (by omega), ck_of (by simp only [InI64]; omega)]
            simp only [Option.bind_some]
            rw [ck_of (by simp only [InI64]; omega)]; simp
          · next hy0 =>
            rw [ck_of (by simp only [InI64]; omega)]
            simp only [bind, Option.bind_some]
            rw [ck_of (by simp only [InI64]; omega)]
            simp only [Option.bind_some, cdiv]
            have := tdiv_spec (a := -x) (b := -y) (by omega) (by omega)
            rw [if_neg (by omega), ck_of (by simp only [InI64]; omega)]; simp
    exact hcc h
  · rintro (⟨h1, rfl⟩ | ⟨h1, h2, h3⟩ | ⟨h1, h2, h3⟩ | ⟨h1, h2, h3⟩)
    · unfold systemDiv
      rw [if_neg h1]
      simp only [ge_iff_le, le_refl, if_true, cdiv]
      split
      · rfl
      · simp only [bind, Option.bind_eq_none_iff]; simp
    · unfold systemDiv
      rw [if_neg (by omega), if_pos (by omega), if_neg (by omega)]
      rw [ck_none.2 (by simp only [InI64]; omega)]; rfl
    · unfold systemDiv
      rw [if_neg (by omega), if_neg (by omega), if_pos (by omega)]
      rw [ck_none.2 (by simp only [InI64]; omega)]; rfl
    · unfold systemDiv
      rw [if_neg (by omega), if_neg (by omega), if_neg (by omega)]
      rcases h3 with h3 | h3
      · rw [ck_none.2 (by simp only [InI64]; omega)]; rfl
      · have h5 : ck (-y) = none := ck_none.2 (by simp only [InI64]; omega)
        rw [h5]
        simp only [bind, Option.bind_eq_none_iff]; simp

theorem systemMod_sound {x y r : Int} (hy : y ≠ 0) (h : systemMod x y = some r) :
    r = Int.fmod x y := by
  suffices hf : ∃ q, FlooredDiv x y q r by
    obtain ⟨q, hq⟩ := hf
    exact (flooredDiv_unique hq (flooredDiv_fdiv hy)).2
  unfold systemMod at h
  split at h
  · next h0 =>
    subst h0
    simp at h; subst h
    refine ⟨0, by simp, ?_⟩
    omega
  · next h0 =>
    split at h
    · next hx =>
      split at h
      · next hyy =>
        simp [cmod, hy] at h
        obtain ⟨-, rfl⟩ := h
        obtain ⟨e, a, b, -⟩ := tdiv_spec (a := x) (b := y) hx (by omega)
        exact ⟨_, e, Or.inl ⟨a, b⟩⟩
      · next hyy =>
        simp only [bind, Option.bind_eq_some_iff, ck_eq_some, cmod] at h
        obtain ⟨_, ⟨-, rfl⟩, _, ⟨-, rfl⟩, _, ⟨-, rfl⟩, d, hd, -, rfl⟩ := h
        rw [if_neg (by omega)] at hd
        split at hd <;> simp only [Option.some.injEq, reduceCtorEq] at hd
        subst hd
        obtain ⟨e, a, b, c, -⟩ := tdiv_spec (a := x - 1) (b := -y) (by omega) (by omega)
        refine ⟨-((x - 1).tdiv (-y)) - 1, ?_, Or.inr ⟨by omega, by omega⟩⟩
        have : (x - 1).tdiv (-y) * (-y) = -((x - 1).tdiv (-y)) * y := by ring
        have h2 : (-((x - 1).tdiv (-y)) - 1) * y = -((x - 1).tdiv (-y)) * y - y := by ring
        omega
    · next hx =>
      split at h
      · next hyy =>
        simp only [bind, Option.bind_eq_some_iff, ck_eq_some, cmod] at h
        obtain ⟨_, ⟨-, rfl⟩, _, ⟨-, rfl⟩, _, ⟨-, rfl⟩, d, hd, -, rfl⟩ := h
        rw [if_neg (by omega)] at hd
        split at hd <;> simp only [Option.some.injEq, reduceCtorEq] at hd
        subst hd
        obtain ⟨e, a, b, c, -⟩ := tdiv_spec (a := -x - 1) (b := y) (by omega) (by omega)
        refine ⟨-((-x - 1).tdiv y) - 1, ?_, Or.inl ⟨by omega, by omega⟩⟩
        have h2 : (-((-x - 1).tdiv y) - 1) * y = -((-x - 1).tdiv y * y) - y := by ring
        omega
      · next hyy =>
        simp only [bind, Option.bind_eq_some_iff, ck_eq_some, cmod] at h
        obtain ⟨_, ⟨-, rfl⟩, _, ⟨-, rfl⟩, d, hd, -, rfl⟩ := h
        rw [if_neg (by omega)] at hd
        split at hd <;> simp only [Option.some.injEq, reduceCtorEq] at hd
        subst hd
        obtain ⟨e, a, b, c, -⟩ := tdiv_spec (a := -x) (b := -y) (by omega) (by omega)
        refine ⟨(-x).tdiv (-y), ?_, Or.inr ⟨by omega, by omega⟩⟩
        have : (-x).tdiv (-y) * (-y) = -((-x).tdiv (-y) * y) := by ring
        omega

theorem cmod_of {a b : Int} (ha : 0 ≤ a) (ha2 : InI64 a) (hb : 0 < b) :
    cmod a b = some (Int.tmod a b) := by
  have := tdiv_spec ha hb
  simp only [InI64] at ha2
  unfold cmod
  rw [if_neg (by omega), if_pos (by simp only [InI64]; omega)]

/-- The exact set of operands for which `SYSTEM_MOD` is undefined. -/
theorem systemMod_none_iff {x y : Int} (hx : InI64 x) (hy : InI64 y) :
    systemMod x y = none ↔ (x ≠ 0 ∧ y = 0) ∨ ModOverflows x y := by
  unfold ModOverflows
  simp only [InI64] at hx hy
  constructor
  · intro h
    by_contra hc
    have hcc : systemMod x y ≠ none := by
      unfold systemMod
      split
      · simp
      · next h0 =>
        split
        · next hx0 =>
          split
          · next hy0 =>
            rw [cmod_of hx0 hx (by omega)]; simp
          · next hy0 =>
            rw [ck_of (by simp only [InI64]; omega)]
            simp only [bind, Option.bind_some]
            rw [ck_of (by simp only [InI64]; omega), ck_of (by simp only [InI64]; omega)]
            simp only [Option.bind_some]
            rw [cmod_of (by omega) (by simp only [InI64]; omega) (by omega)]
            have := tdiv_spec (a := x - 1) (b := -y) (by omega) (by omega)
            simp only [Option.bind_some]
            rw [ck_of (by simp only [InI64]; omega)]; simp
        · next hx0 =>
          split
          · next hy0 =>
            rw [ck_of (by simp only [InI64]; omega)]
            simp only [bind, Option.bind_some]
            rw [ck_of (by simp only [InI64]; omega)]
            simp only [Option.bind_some]
            rw [ck_of (by simp only [InI64]; omega)]
            simp only [Option.bind_some]
            rw [cmod_of (by omega) (by simp only [InI64]; omega) (by omega)]
            have := tdiv_spec (a := -x - 1) (b := y) (by omega) (by omega)
            simp only [Option.bind_some]
            rw [ck_of (by simp only [InI64]; omega)]; simp
          · next hy0 =>
            rw [ck_of (by simp only [InI64]; omega)]
            simp only [bind, Option.bind_some]
            rw [ck_of (by simp only [InI64]; omega)]
            simp only [Option.bind_some]
            rw [cmod_of (by omega) (by simp only [InI64]; omega) (by omega)]
            have := tdiv_spec (a := -x) (b := -y) (by omega) (by omega)
            simp only [Option.bind_some]
            rw [ck_of (by simp only [InI64]; omega)]; simp
    exact hcc h
  · intro h
    cases hm : systemMod x y with
    | none => rfl
    | some r =>
      exfalso
      unfold systemMod at hm
      split at hm
      · omega
      · split at hm
        · split at hm
          · have : y = 0 := by omega
            simp [cmod, this] at hm
          · simp only [bind, Option.bind_eq_some_iff, ck_eq_some, InI64] at hm
            obtain ⟨_, ⟨-, rfl⟩, _, ⟨-, rfl⟩, _, ⟨h3, rfl⟩, _⟩ := hm
            omega
        · split at hm
          · simp only [bind, Option.bind_eq_some_iff, ck_eq_some, InI64] at hm
            obtain ⟨_, ⟨-, rfl⟩, _, ⟨h3, rfl⟩, _, ⟨-, rfl⟩, d, hd, -⟩ := hm
            by_cases h0 : y = 0
            · simp [cmod, h0] at hd
            · omega
          · simp only [bind, Option.bind_eq_some_iff, ck_eq_some, InI64] at hm
            obtain ⟨_, ⟨h3, rfl⟩, _, ⟨h4, rfl⟩, -⟩ := hm
            omega

/-! ### The property -/

/-- **C01 (what is true of it).**  For 64-bit operands and `y ≠ 0`, outside the exactly
characterised operand set `DivOverflows`, the code for `x DIV y` (macro or procedure) is free
of undefined behaviour and yields the floored quotient. -/
theorem C01_div_partial {x y : Int} (hx : InI64 x) (hy : InI64 y) (h0 : y ≠ 0)
    (hov : ¬ DivOverflows x y) :
    systemDiv x y = some (Int.fdiv x y) ∧ divMacro x y = some (Int.fdiv x y) ∧
    ∃ r, FlooredDiv x y (Int.fdiv x y) r := by
  have hs : systemDiv x y = some (Int.fdiv x y) := by
    cases h : systemDiv x y with
    | none => rcases (systemDiv_none_iff hx hy).1 h with ⟨-, h2⟩ | h2 <;> contradiction
    | some q => rw [systemDiv_sound h0 h]
  refine ⟨hs, ?_, _, flooredDiv_fdiv h0⟩
  unfold divMacro
  split
  · next hp =>
    rw [← hs]; unfold systemDiv
    rw [if_neg (by omega), if_pos (by omega), if_pos (by omega)]
  · exact hs

/-- **C01 for MOD**, outside the operands that involve the minimum integer in `ModOverflows`. -/
theorem C01_mod_partial {x y : Int} (hx : InI64 x) (hy : InI64 y) (h0 : y ≠ 0)
    (hov : ¬ ModOverflows x y) :
    systemMod x y = some (Int.fmod x y) ∧ modMacro x y = some (Int.fmod x y) ∧
    ∃ q, FlooredDiv x y q (Int.fmod x y) := by
  have hs : systemMod x y = some (Int.fmod x y) := by
    cases h : systemMod x y with
    | none => rcases (systemMod_none_iff hx hy).1 h with ⟨-, h2⟩ | h2 <;> contradiction
    | some q => rw [systemMod_sound h0 h]
  refine ⟨hs, ?_, _, flooredDiv_fdiv h0⟩
  unfold modMacro
  split
  · next hp =>
    rw [← hs]; unfold systemMod
    rw [if_neg (by omega), if_pos (by omega), if_pos (by omega)]
  · exact hs

/-- **C01 in full for every integer type of at most 32 bits** (SHORTINT, INTEGER and LONGINT of
the default size model): no exception. -/
theorem C01_full_32 {x y : Int} (hx : InRange 32 x) (hy : InRange 32 y) (h0 : y ≠ 0) :
    divMacro x y = some (Int.fdiv x y) ∧ systemDiv x y = some (Int.fdiv x y) ∧
    modMacro x y = some (Int.fmod x y) ∧ systemMod x y = some (Int.fmod x y) ∧
    FlooredDiv x y (Int.fdiv x y) (Int.fmod x y) := by
  simp only [InRange] at hx hy
  have hx' : InI64 x := by simp only [InI64]; omega
  have hy' : InI64 y := by simp only [InI64]; omega
  have h1 := C01_div_partial hx' hy' h0 (by simp only [DivOverflows]; omega)
  have h2 := C01_mod_partial hx' hy' h0 (by simp only [ModOverflows]; omega)
  exact ⟨h1.2.1, h1.1, h2.2.1, h2.1, flooredDiv_fdiv h0⟩

/-- **C01 fails at the extremes of the 64-bit range**: `MAX(INT64) DIV -2` is representable, but
the code overflows, and on a wrapping machine the result has the wrong sign. -/
theorem C01_div_counterexample :
    InI64 (2 ^ 63 - 1) ∧ InI64 (Int.fdiv (2 ^ 63 - 1) (-2)) ∧
    systemDiv (2 ^ 63 - 1) (-2) = none ∧ divMacro (2 ^ 63 - 1) (-2) = none ∧
    Int.fdiv (2 ^ 63 - 1) (-2) = -(2 ^ 62) ∧ systemDivWrap (2 ^ 63 - 1) (-2) = 2 ^ 62 := by
  decide

/-- `MIN(INT64) MOD -3` is representable (it is -2), but the code overflows. -/
theorem C01_mod_counterexample :
    systemMod (-(2 ^ 63)) (-3) = none ∧ Int.fmod (-(2 ^ 63)) (-3) = -2 := by
  decide

/-- Division by zero is not always a trap: `0 DIV 0` and `0 MOD 0` are 0. -/
theorem C01_zero_by_zero : divMacro 0 0 = some 0 ∧ modMacro 0 0 = some 0 := by decide

/- Non-vacuity: all four sign combinations meet the hypotheses. -/
example : InI64 (-7) ∧ InI64 2 ∧ (2 : Int) ≠ 0 ∧ divMacro (-7) 2 = some (-4) ∧ modMacro (-7) 2 = some 1 := by
  decide
example : divMacro 7 (-2) = some (-4) ∧ modMacro 7 (-2) = some (-1) := by decide
example : divMacro (-7) (-2) = some 3 ∧ modMacro (-7) (-2) = some (-1) := by decide
example : divMacro (2 ^ 62) (-(2 ^ 61)) = some (-2) := by decide
example : ¬ DivOverflows (2 ^ 62) (-(2 ^ 61)) := by simp [DivOverflows]

end Verif.Arith
