import Verif.Common
import Verif.Const.PropsFold

/-!
# C10: rewriting of expressions keeps their meaning

The specification is the evaluation of the *source* tree by `eval`: left to right, `&` and `OR` with
short circuit, exact integer arithmetic that fails when a result does not fit the type.
-/
namespace Verif.Const
open Verif.Arith

theorem logLoop_pow {fuel : Nat} : ∀ {x : Int} {e k : Nat}, logLoop fuel x e = (1, k) →
    e ≤ k ∧ x * 2 ^ e = 2 ^ k := by
  induction fuel with
  | zero =>
    intro x e k h
    simp only [logLoop, Prod.mk.injEq] at h
    obtain ⟨rfl, rfl⟩ := h
    simp
  | succ f ih =>
    intro x e k h
    rw [logLoop] at h
    split at h
    · next hc =>
      obtain ⟨h1, h2⟩ := ih h
      refine ⟨by omega, ?_⟩
      rw [← h2, pow_succ]
      have : x = x / 2 * 2 := by omega
      calc x * 2 ^ e = (x / 2 * 2) * 2 ^ e := by rw [← this]
        _ = x / 2 * (2 ^ e * 2) := by ring
    · simp only [Prod.mk.injEq] at h
      obtain ⟨rfl, rfl⟩ := h
      simp

/-- When `log` finds a power of two, it is one. -/
theorem log_pow {v : Int} (hv : InI64 v) (h : (log v).1 = 1) : v = 2 ^ (log v).2 ∧ (log v).2 < 63 := by
  rw [log] at h ⊢
  split at h
  · next hp =>
    rw [if_pos hp] at *
    have h1 : logLoop 64 v 0 = (1, (logLoop 64 v 0).2) := Prod.ext h rfl
    have h2 := (logLoop_pow h1).2
    rw [pow_zero, mul_one] at h2
    refine ⟨h2, ?_⟩
    by_contra hc
    have : (2 : Int) ^ 63 ≤ 2 ^ (logLoop 64 v 0).2 := pow_le_pow_right₀ (by decide) (by omega)
    simp only [InI64] at hv
    omega
  · next hp => simp only at h; omega

theorem logLoop_of_pow {fuel : Nat} : ∀ {k e : Nat}, k ≤ fuel → logLoop fuel (2 ^ k) e = (1, e + k) := by
  induction fuel with
  | zero => intro k e h; obtain rfl : k = 0 := by omega
            simp [logLoop]
  | succ f ih =>
    intro k e h
    rw [logLoop]
    cases k with
    | zero => simp
    | succ k =>
      have h2 : (2 : Int) ^ (k + 1) = 2 * 2 ^ k := by ring
      rw [if_pos (by omega), show (2 : Int) ^ (k + 1) / 2 = 2 ^ k by omega, ih (by omega)]
      congr 1; omega

/-- `log` finds every power of two. -/
theorem log_of_pow {k : Nat} (h : k < 63) : log (2 ^ k) = (1, k) := by
  rw [log, if_pos (by positivity), logLoop_of_pow (by omega)]; simp

/-- The largest exponent, as initialised in src/compiler/OPB.Mod 1513. -/
theorem maxExp_eq : maxExp = (log (maxI64 / 2 + 1)).2 := by decide

theorem one_le_two_pow' {e : Nat} : (1 : Int) ≤ 2 ^ e := by
  have : (0 : Int) < 2 ^ e := by positivity
  omega

theorem mask_pow (x : Int) {e : Nat} (he : e < 63) : mask x (-(2 ^ e)) = x % 2 ^ e := by
  have h1 : (1 : Int) ≤ 2 ^ e := one_le_two_pow'
  have h63 : (2 : Int) ^ e ≤ 2 ^ 62 := pow_le_pow_right₀ (by decide) (by omega)
  have hm : pat 64 (-(2 ^ e)) = 2 ^ 64 - 2 ^ e := by
    have h := pat_cast 64 (-(2 ^ e))
    rw [show (-(2 : Int) ^ e) % 2 ^ 64 = 2 ^ 64 - 2 ^ e by omega] at h
    have h64 : (2 : Nat) ^ e ≤ 2 ^ 62 := Nat.pow_le_pow_right (by decide) (by omega)
    zify
    rw [Nat.cast_sub (by omega)]
    push_cast
    omega
  have h64 : (2 : Nat) ^ e ≤ 2 ^ 62 := Nat.pow_le_pow_right (by decide) (by omega)
  have hpe : 1 ≤ (2 : Nat) ^ e := Nat.one_le_two_pow
  rw [mask, hm, show 2 ^ 64 - 1 - (2 ^ 64 - 2 ^ e) = 2 ^ e - 1 by omega, Nat.and_two_pow_sub_one_eq_mod]
  have hc := pat_cast 64 x
  have hlt : pat 64 x % 2 ^ e < 2 ^ 63 := lt_of_lt_of_le (Nat.mod_lt _ (by omega)) (by omega)
  rw [sgn]
  have : ((pat 64 x % 2 ^ e : Nat) : Int) = x % 2 ^ e := by
    push_cast
    rw [hc]
    apply Int.emod_emod_of_dvd
    exact pow_dvd_pow 2 (by omega)
  rw [this]
  have h0 := Int.emod_nonneg x (show (2 : Int) ^ e ≠ 0 by omega)
  have h2 := Int.emod_lt_of_pos x (show (0 : Int) < 2 ^ e by omega)
  rw [Int.emod_eq_of_lt h0 (by omega), if_pos (by simp only [Nat.add_one_sub_one]; omega)]

/-- The constants written in the source fit in 64 bits (the scanner rejects others, `C06`). -/
def ConstsFit : Node → Prop
  | .const v => InI64 v
  | .opaque _ => True
  | .dop _ l r => ConstsFit l ∧ ConstsFit r

/-- Is it a BOOLEAN operation? -/
def isBoolOp : DOp → Bool
  | .and => true
  | .or => true
  | _ => false

/-- The expression is BOOLEAN (`b`) or integer (`¬ b`); `bl n` tells whether the opaque expression `n`
is BOOLEAN. -/
def Typed (bl : Nat → Bool) (b : Bool) : Node → Prop
  | .const v => b = true → v = 0 ∨ v = 1
  | .opaque n => bl n = b
  | .dop op l r => isBoolOp op = b ∧ Typed bl b l ∧ Typed bl b r

/-- No product in the expression has a factor that reduces to the constant 0, beside one that is not a
constant. -/
def NoZeroFactor : Node → Prop
  | .const _ => True
  | .opaque _ => True
  | .dop op l r => NoZeroFactor l ∧ NoZeroFactor r ∧ (op = .times → ∀ l' r',
      build l = some (.ok l') → build r = some (.ok r') →
      (l' = .const 0 → ∃ v, r' = .const v) ∧ (r' = .const 0 → ∃ v, l' = .const v))

variable {S : Type} {w : Nat} {leaf : Nat → S → Option (Int × S)} {bl : Nat → Bool}

/-- Opaque BOOLEAN expressions deliver 0 or 1. -/
def LeafOk (bl : Nat → Bool) (leaf : Nat → S → Option (Int × S)) : Prop :=
  ∀ n s v s', bl n = true → leaf n s = some (v, s') → v = 0 ∨ v = 1

/-- Opaque expressions leave the state as it is. -/
def Pure (leaf : Nat → S → Option (Int × S)) : Prop := ∀ n s v s', leaf n s = some (v, s') → s' = s

theorem eval_arith {op : DOp} (h : isBoolOp op = false) (l r : Node) (s : S) {v : Int} {s' : S} :
    eval w leaf (.dop op l r) s = some (v, s') ↔ ∃ x s1 y, eval w leaf l s = some (x, s1) ∧
      eval w leaf r s1 = some (y, s') ∧ applyOp w op x y = some v := by
  have e : eval w leaf (.dop op l r) s = (eval w leaf l s).bind fun p =>
      (eval w leaf r p.2).bind fun q => (applyOp w op p.1 q.1).bind fun v => some (v, q.2) := by
    cases op <;> first | rfl | simp [isBoolOp] at h
  rw [e]
  simp only [Option.bind_eq_some_iff, Prod.exists, Option.some.injEq, Prod.mk.injEq]
  constructor
  · rintro ⟨x, s1, h1, y, s2, h2, u, h3, rfl, rfl⟩
    exact ⟨x, s1, y, h1, h2, h3⟩
  · rintro ⟨x, s1, y, h1, h2, h3⟩
    exact ⟨x, s1, h1, y, s', h2, v, h3, rfl, rfl⟩

theorem eval_and (l r : Node) (s : S) {v : Int} {s' : S} :
    eval w leaf (.dop .and l r) s = some (v, s') ↔ ∃ x s1, eval w leaf l s = some (x, s1) ∧
      if x = 0 then v = 0 ∧ s' = s1 else
        ∃ y, eval w leaf r s1 = some (y, s') ∧ v = if y ≠ 0 then 1 else 0 := by
  rw [eval]
  simp only [Option.bind_eq_bind, Option.bind_eq_some_iff, Prod.exists]
  constructor
  · rintro ⟨x, s1, h1, h⟩
    refine ⟨x, s1, h1, ?_⟩
    split at h
    · next h0 =>
      rw [if_pos h0]
      simp only [Option.some.injEq, Prod.mk.injEq] at h
      exact ⟨h.1.symm, h.2.symm⟩
    · next h0 =>
      rw [if_neg h0]
      simp only [Option.bind_eq_some_iff, Prod.exists, Option.some.injEq, Prod.mk.injEq] at h
      obtain ⟨y, s2, h2, h3, rfl⟩ := h
      exact ⟨y, h2, h3.symm⟩
  · rintro ⟨x, s1, h1, h⟩
    refine ⟨x, s1, h1, ?_⟩
    split at h
    · next h0 => rw [if_pos h0, h.1, h.2]
    · next h0 =>
      obtain ⟨y, h2, h3⟩ := h
      rw [if_neg h0, h2, h3]; rfl

theorem eval_or (l r : Node) (s : S) {v : Int} {s' : S} :
    eval w leaf (.dop .or l r) s = some (v, s') ↔ ∃ x s1, eval w leaf l s = some (x, s1) ∧
      if x ≠ 0 then v = 1 ∧ s' = s1 else
        ∃ y, eval w leaf r s1 = some (y, s') ∧ v = if y ≠ 0 then 1 else 0 := by
  rw [eval]
  simp only [Option.bind_eq_bind, Option.bind_eq_some_iff, Prod.exists]
  constructor
  · rintro ⟨x, s1, h1, h⟩
    refine ⟨x, s1, h1, ?_⟩
    split at h
    · next h0 =>
      rw [if_pos h0]
      simp only [Option.some.injEq, Prod.mk.injEq] at h
      exact ⟨h.1.symm, h.2.symm⟩
    · next h0 =>
      rw [if_neg h0]
      simp only [Option.bind_eq_some_iff, Prod.exists, Option.some.injEq, Prod.mk.injEq] at h
      obtain ⟨y, s2, h2, h3, rfl⟩ := h
      exact ⟨y, h2, h3.symm⟩
  · rintro ⟨x, s1, h1, h⟩
    refine ⟨x, s1, h1, ?_⟩
    split at h
    · next h0 => rw [if_pos h0, h.1, h.2]
    · next h0 =>
      obtain ⟨y, h2, h3⟩ := h
      rw [if_neg h0, h2, h3]; rfl

/-- A BOOLEAN expression evaluates to 0 or 1. -/
theorem eval_bool (hl : LeafOk bl leaf) : ∀ {t : Node} {s : S} {v : Int} {s' : S}, Typed bl true t →
    eval w leaf t s = some (v, s') → v = 0 ∨ v = 1 := by
  intro t s v s' ht h
  cases t with
  | const a => simp only [eval, Option.some.injEq, Prod.mk.injEq] at h; rw [← h.1]; exact ht rfl
  | «opaque» n => exact hl n s v s' ht h
  | dop op l r =>
    obtain ⟨h1, -, -⟩ := ht
    cases op <;> simp only [isBoolOp, Bool.false_eq_true] at h1
    · obtain ⟨x, s1, -, hh⟩ := (eval_and l r s).1 h
      split at hh
      · exact Or.inl hh.1
      · obtain ⟨y, -, rfl⟩ := hh; split <;> simp
    · obtain ⟨x, s1, -, hh⟩ := (eval_or l r s).1 h
      split at hh
      · exact Or.inr hh.1
      · obtain ⟨y, -, rfl⟩ := hh; split <;> simp

theorem eval_pure (hp : Pure leaf) : ∀ {t : Node} {s : S} {v : Int} {s' : S},
    eval w leaf t s = some (v, s') → s' = s := by
  intro t
  induction t with
  | const a => intro s v s' h; simp only [eval, Option.some.injEq, Prod.mk.injEq] at h; exact h.2.symm
  | «opaque» n => intro s v s' h; exact hp n s v s' h
  | dop op l r ihl ihr =>
    intro s v s' h
    by_cases hb : isBoolOp op = false
    · obtain ⟨x, s1, y, h1, h2, -⟩ := (eval_arith hb l r s).1 h
      rw [ihr h2, ihl h1]
    · cases op <;> simp only [isBoolOp, not_true_eq_false] at hb
      · obtain ⟨x, s1, h1, hh⟩ := (eval_and l r s).1 h
        split at hh
        · rw [hh.2, ihl h1]
        · obtain ⟨y, h2, -⟩ := hh; rw [ihr h2, ihl h1]
      · obtain ⟨x, s1, h1, hh⟩ := (eval_or l r s).1 h
        split at hh
        · rw [hh.2, ihl h1]
        · obtain ⟨y, h2, -⟩ := hh; rw [ihr h2, ihl h1]

/-- A folded constant fits in 64 bits. -/
theorem constOp_fits {op : DOp} {x y v : Int} (hx : InI64 x) (hy : InI64 y)
    (h : constOp op x y = some (.ok v)) : InI64 v := by
  have hE : ∀ {e : Nat} {u : Int}, Exact e u = some (.ok v) → InI64 v := by
    intro e u h
    rw [Exact] at h
    split at h
    · next hr => simp at h; exact h ▸ hr
    · simp at h
  cases op with
  | times => exact hE (constTimes_sound hx hy h).symm
  | plus => exact hE ((C09_plus hx hy).symm.trans h)
  | minus => exact hE ((C09_minus hx hy).symm.trans h)
  | div =>
    simp only [constOp, constDiv] at h
    split at h
    · next h0 =>
      simp only [Option.map_eq_some_iff, Except.ok.injEq] at h
      obtain ⟨q, hq, rfl⟩ := h
      exact (divMacro_sound h0 hq).2 hx
    · simp at h
  | mod =>
    simp only [constOp, constMod] at h
    split at h
    · next h0 =>
      simp only [Option.map_eq_some_iff, Except.ok.injEq] at h
      obtain ⟨q, hq, rfl⟩ := h
      rw [modMacro_sound h0 hq]
      simp only [InI64] at hy ⊢
      rcases lt_or_gt_of_ne h0 with hneg | hpos
      · have h1 : Int.fmod x y = _ := Int.fmod_eq_emod
        have h2 := Int.emod_nonneg x h0
        have h3 := Int.emod_lt_abs x h0
        rw [abs_of_neg hneg] at h3
        rw [h1]; split <;> omega
      · have h1 := Int.fmod_eq_emod_of_nonneg x (le_of_lt hpos)
        have h2 := Int.emod_nonneg x h0
        have h3 := Int.emod_lt_of_pos x hpos
        omega
    · simp at h
  | and => simp only [constOp, Option.some.injEq, Except.ok.injEq] at h; rw [← h]; split <;> decide
  | or => simp only [constOp, Option.some.injEq, Except.ok.injEq] at h; rw [← h]; split <;> decide
  | msk =>
    simp only [constOp, Option.some.injEq, Except.ok.injEq] at h
    rw [← h]; exact sgn_range (by decide) _
  | ash =>
    obtain ⟨a1, a2, a3⟩ := C09_ash_partial (n := y) hx
    simp only [constOp] at h
    by_cases hb : y < -62 ∨ 62 < y
    · rw [a1 hb] at h; simp at h
    · by_cases h0 : y < 0
      · rw [a2 (by omega) h0] at h
        simp only [Option.some.injEq, Except.ok.injEq] at h
        rw [← h, Int.fdiv_eq_ediv_of_nonneg _ (by positivity)]
        have h2 : (1 : Int) ≤ 2 ^ (-y).toNat := one_le_two_pow'
        simp only [InI64] at hx ⊢
        constructor
        · rw [Int.le_ediv_iff_mul_le (by omega)]; nlinarith
        · apply Int.ediv_lt_of_lt_mul (by omega); nlinarith
      · by_cases hm : x = minI64
        · subst hm
          rw [constAsh, if_neg (by simp only [maxExp]; omega), if_pos (by omega)] at h
          have : ck (absMacro minI64) = none := by decide
          rw [this] at h; simp at h
        · rw [a3 (by omega) (by omega) hm] at h
          simp only [Option.some.injEq] at h
          split at h
          · next hr =>
            simp only [Except.ok.injEq] at h
            have := abs_le.1 hr
            rw [← h]; simp only [InI64, maxI64] at this ⊢; omega
          · simp at h

/-- A folded operation has the value the emitted code would have computed. -/
theorem constOp_eval {op : DOp} {x y v u : Int} (hx : InI64 x) (hy : InI64 y)
    (h : constOp op x y = some (.ok v)) (ha : applyOp w op x y = some u) : v = u := by
  have hE : ∀ {e : Nat} {a : Int}, Exact e a = some (.ok v) → v = a := by
    intro e u h
    rw [Exact] at h
    split at h
    · simp at h; exact h.symm
    · simp at h
  have hI : ∀ a : Int, (if InRange w a then some a else none) = some u → u = a := by
    intro a h; split at h <;> simp_all
  cases op with
  | times => rw [hE (constTimes_sound hx hy h).symm, hI _ ha]
  | plus => rw [hE ((C09_plus hx hy).symm.trans h), hI _ ha]
  | minus => rw [hE ((C09_minus hx hy).symm.trans h), hI _ ha]
  | div =>
    simp only [constOp, constDiv] at h
    simp only [applyOp] at ha
    split at h
    · next h0 => rw [if_neg h0] at ha; rw [ha] at h; simpa using h.symm
    · simp at h
  | mod =>
    simp only [constOp, constMod] at h
    simp only [applyOp] at ha
    split at h
    · next h0 => rw [if_neg h0] at ha; rw [ha] at h; simpa using h.symm
    · simp at h
  | and =>
    simp only [constOp, applyOp, Option.some.injEq, Except.ok.injEq] at h ha
    rw [← h, ← ha]
  | or =>
    simp only [constOp, applyOp, Option.some.injEq, Except.ok.injEq] at h ha
    rw [← h, ← ha]
  | msk =>
    simp only [constOp, applyOp, Option.some.injEq, Except.ok.injEq] at h ha
    rw [← h, ← ha]
  | ash =>
    have hv := constOp_fits hx hy h
    obtain ⟨a1, a2, a3⟩ := C09_ash_partial (n := y) hx
    simp only [constOp] at h
    simp only [applyOp] at ha
    by_cases hb : y < -62 ∨ 62 < y
    · rw [a1 hb] at h; simp at h
    · have hash := C05_ash (x := x) (n := y) (by omega)
      by_cases h0 : y < 0
      · rw [a2 (by omega) h0] at h
        rw [hash.2 h0] at ha
        simp only [Option.some.injEq, Except.ok.injEq] at h ha
        rw [← h, ← ha]
      · by_cases hm : x = minI64
        · subst hm
          rw [constAsh, if_neg (by simp only [maxExp]; omega), if_pos (by omega)] at h
          have : ck (absMacro minI64) = none := by decide
          rw [this] at h; simp at h
        · rw [a3 (by omega) (by omega) hm] at h
          simp only [Option.some.injEq] at h
          split at h
          · next hr =>
            simp only [Except.ok.injEq] at h
            rw [hash.1 (by omega) (h ▸ hv)] at ha
            rw [← h]; simpa using ha
          · simp at h

theorem InI64_of_range {w : Nat} (hw : w ≤ 64) {x : Int} (h : InRange w x) : InI64 x := by
  simp only [InRange, InI64] at *
  have : (2 : Int) ^ (w - 1) ≤ 2 ^ 63 := pow_le_pow_right₀ (by decide) (by omega)
  omega

/-- A product with a power of two is a shift. -/
theorem times_pow (hw : w ≤ 64) {v y u : Int} (hv : InI64 v) (hl : (log v).1 = 1)
    (ha : applyOp w .times y v = some u) : applyOp w .ash y ((log v).2 : Int) = some u := by
  obtain ⟨h2, h3⟩ := log_pow hv hl
  simp only [applyOp] at ha ⊢
  split at ha
  · next hr =>
    simp only [Option.some.injEq] at ha
    have hi := InI64_of_range hw hr
    have := (C05_ash (x := y) (n := ((log v).2 : Int)) (by omega)).1 (by omega)
    rw [Int.toNat_natCast, ← h2] at this
    rw [this hi, ha]
  · simp at ha

/-- A quotient by a power of two is a shift. -/
theorem div_pow' {v x u : Int} (hv : InI64 v) (h1 : v ≠ 1) (hl : (log v).1 = 1)
    (ha : applyOp w .div x v = some u) : applyOp w .ash x (-((log v).2 : Int)) = some u := by
  obtain ⟨h2, h3⟩ := log_pow hv hl
  simp only [applyOp] at ha ⊢
  split at ha
  · simp at ha
  · next h0 =>
    have hpos : 0 < (log v).2 := by
      rcases Nat.eq_zero_or_pos (log v).2 with h | h
      · rw [h] at h2; exact absurd h2 h1
      · exact h
    have := (C05_ash (x := x) (n := -((log v).2 : Int)) (by omega)).2 (by omega)
    rw [neg_neg, Int.toNat_natCast, ← h2] at this
    rw [this, (divMacro_sound h0 ha).1]

/-- A remainder by a power of two is a mask. -/
theorem mod_pow' {v x u : Int} (hv : InI64 v) (hl : (log v).1 = 1)
    (ha : applyOp w .mod x v = some u) : applyOp w .msk x (-(2 ^ (log v).2)) = some u := by
  obtain ⟨h2, h3⟩ := log_pow hv hl
  simp only [applyOp] at ha ⊢
  split at ha
  · simp at ha
  · next h0 =>
    rw [mask_pow x h3, modMacro_sound h0 ha, Int.fmod_eq_emod_of_nonneg, ← h2]
    rw [h2]; positivity

theorem times_comm {x y : Int} : applyOp w .times x y = applyOp w .times y x := by
  simp only [applyOp, mul_comm]

theorem eval_const {v : Int} {s : S} {x : Int} {s' : S} :
    eval w leaf (.const v) s = some (x, s') ↔ x = v ∧ s' = s := by
  simp only [eval, Option.some.injEq, Prod.mk.injEq]
  constructor <;> rintro ⟨h1, h2⟩ <;> exact ⟨h1.symm, h2.symm⟩

/-- A top-level constant fits in 64 bits. -/
def TopFits (n : Node) : Prop := ∀ v, n = .const v → InI64 v

/-- One step of rewriting keeps the value and the effects. -/
theorem rewriteOp_eval (hw : w ≤ 64) (hl : LeafOk bl leaf) {op : DOp} {z y n : Node}
    (hnc : ∀ a b, ¬ (z = .const a ∧ y = .const b))
    (tz : Typed bl (isBoolOp op) z) (ty : Typed bl (isBoolOp op) y) (fz : TopFits z) (fy : TopFits y)
    (hd : Pure leaf ∨ (op = .times → z ≠ .const 0 ∧ y ≠ .const 0))
    (h : rewriteOp op z y = .ok n) {s s' : S} {v : Int}
    (he : eval w leaf (.dop op z y) s = some (v, s')) : eval w leaf n s = some (v, s') := by
  have same : n = .dop op z y → eval w leaf n s = some (v, s') := fun h => h ▸ he
  cases op with
  | times =>
    obtain ⟨x1, s1, y1, e1, e2, e3⟩ := (eval_arith rfl z y s).1 he
    rw [rewriteOp.eq_def] at h
    simp only at h
    split at h
    · next a => 
      obtain ⟨rfl, rfl⟩ := eval_const.1 e1
      split at h
      · next h1 =>
        subst h1
        simp only [Except.ok.injEq] at h
        subst h
        simp only [applyOp, one_mul] at e3
        split at e3
        · simp only [Option.some.injEq] at e3; rw [e2, e3]
        · simp at e3
      · next h1 =>
        split at h
        · next h0 =>
          subst h0
          simp only [Except.ok.injEq] at h
          subst h
          rcases hd with hp | hd
          · rw [eval_pure hp e2]
            simp only [applyOp, zero_mul] at e3
            split at e3
            · rw [eval]; rw [← Option.some.inj e3]
            · simp at e3
          · exact absurd rfl (hd rfl).1
        · split at h
          · next hlog =>
            simp only [Except.ok.injEq] at h
            subst h
            refine (eval_arith rfl _ _ _).2 ⟨y1, s', _, e2, eval_const.2 ⟨rfl, rfl⟩, ?_⟩
            rw [times_comm] at e3
            exact times_pow hw (fz _ rfl) hlog e3
          · simp only [Except.ok.injEq] at h; exact same h.symm
    · next a _ =>
      obtain ⟨rfl, rfl⟩ := eval_const.1 e2
      split at h
      · next h1 =>
        subst h1
        simp only [Except.ok.injEq] at h
        subst h
        simp only [applyOp, mul_one] at e3
        split at e3
        · simp only [Option.some.injEq] at e3; rw [e1, e3]
        · simp at e3
      · next h1 =>
        split at h
        · next h0 =>
          subst h0
          simp only [Except.ok.injEq] at h
          subst h
          rcases hd with hp | hd
          · rw [eval_pure hp e1]
            simp only [applyOp, mul_zero] at e3
            split at e3
            · rw [eval]; rw [← Option.some.inj e3]
            · simp at e3
          · exact absurd rfl (hd rfl).2
        · split at h
          · next hlog =>
            simp only [Except.ok.injEq] at h
            subst h
            refine (eval_arith rfl _ _ _).2 ⟨x1, s', _, e1, eval_const.2 ⟨rfl, rfl⟩, ?_⟩
            exact times_pow hw (fy _ rfl) hlog e3
          · simp only [Except.ok.injEq] at h; exact same h.symm
    · simp only [Except.ok.injEq] at h; exact same h.symm
  | div =>
    obtain ⟨x1, s1, y1, e1, e2, e3⟩ := (eval_arith rfl z y s).1 he
    rw [rewriteOp.eq_def] at h
    simp only at h
    split at h
    · next a =>
      obtain ⟨rfl, rfl⟩ := eval_const.1 e2
      split at h
      · simp at h
      · next h0 =>
        split at h
        · next h1 =>
          subst h1
          simp only [Except.ok.injEq] at h
          subst h
          simp only [applyOp, if_neg h0] at e3
          have := (divMacro_sound h0 e3).1
          rw [Int.fdiv_one] at this
          rw [e1, this]
        · next h1 =>
          split at h
          · next hlog =>
            simp only [Except.ok.injEq] at h
            subst h
            refine (eval_arith rfl _ _ _).2 ⟨x1, s', _, e1, eval_const.2 ⟨rfl, rfl⟩, ?_⟩
            exact div_pow' (fy _ rfl) h1 hlog e3
          · simp only [Except.ok.injEq] at h; exact same h.symm
    · simp only [Except.ok.injEq] at h; exact same h.symm
  | mod =>
    obtain ⟨x1, s1, y1, e1, e2, e3⟩ := (eval_arith rfl z y s).1 he
    rw [rewriteOp.eq_def] at h
    simp only at h
    split at h
    · next a =>
      obtain ⟨rfl, rfl⟩ := eval_const.1 e2
      split at h
      · simp at h
      · next h0 =>
        split at h
        · next hlog =>
          simp only [Except.ok.injEq] at h
          subst h
          refine (eval_arith rfl _ _ _).2 ⟨x1, s', _, e1, eval_const.2 ⟨rfl, rfl⟩, ?_⟩
          exact mod_pow' (fy _ rfl) hlog e3
        · simp only [Except.ok.injEq] at h; exact same h.symm
    · simp only [Except.ok.injEq] at h; exact same h.symm
  | plus =>
    obtain ⟨x1, s1, y1, e1, e2, e3⟩ := (eval_arith rfl z y s).1 he
    rw [rewriteOp.eq_def] at h
    simp only at h
    split at h
    · next a =>
      obtain ⟨rfl, rfl⟩ := eval_const.1 e1
      split at h
      · next h1 =>
        subst h1
        simp only [Except.ok.injEq] at h
        subst h
        simp only [applyOp, zero_add] at e3
        split at e3
        · simp only [Option.some.injEq] at e3; rw [e2, e3]
        · simp at e3
      · simp only [Except.ok.injEq] at h; exact same h.symm
    · next a _ =>
      obtain ⟨rfl, rfl⟩ := eval_const.1 e2
      split at h
      · next h1 =>
        subst h1
        simp only [Except.ok.injEq] at h
        subst h
        simp only [applyOp, add_zero] at e3
        split at e3
        · simp only [Option.some.injEq] at e3; rw [e1, e3]
        · simp at e3
      · simp only [Except.ok.injEq] at h; exact same h.symm
    · simp only [Except.ok.injEq] at h; exact same h.symm
  | minus =>
    obtain ⟨x1, s1, y1, e1, e2, e3⟩ := (eval_arith rfl z y s).1 he
    rw [rewriteOp.eq_def] at h
    simp only at h
    split at h
    · next a =>
      obtain ⟨rfl, rfl⟩ := eval_const.1 e2
      split at h
      · next h1 =>
        subst h1
        simp only [Except.ok.injEq] at h
        subst h
        simp only [applyOp, sub_zero] at e3
        split at e3
        · simp only [Option.some.injEq] at e3; rw [e1, e3]
        · simp at e3
      · simp only [Except.ok.injEq] at h; exact same h.symm
    · simp only [Except.ok.injEq] at h; exact same h.symm
  | and =>
    obtain ⟨x1, s1, e1, e2⟩ := (eval_and z y s).1 he
    rw [rewriteOp.eq_def] at h
    simp only at h
    split at h
    · next a =>
      obtain ⟨rfl, rfl⟩ := eval_const.1 e1
      split at h
      · next h1 =>
        simp only [Except.ok.injEq] at h
        subst h
        rw [if_neg h1] at e2
        obtain ⟨y1, e2, rfl⟩ := e2
        rcases eval_bool hl ty e2 with rfl | rfl <;> rw [e2] <;> rfl
      · next h1 =>
        simp only [Except.ok.injEq] at h
        subst h
        simp only [ne_eq, not_not] at h1
        rw [if_pos h1] at e2
        rw [eval, h1, e2.1, e2.2]
    · next a _ =>
      split at h
      · next h1 =>
        simp only [Except.ok.injEq] at h
        subst h
        rcases eval_bool hl tz e1 with rfl | rfl
        · rw [if_pos rfl] at e2
          rw [e1, e2.1, e2.2]
        · rw [if_neg (by decide)] at e2
          obtain ⟨y1, e2, rfl⟩ := e2
          obtain ⟨rfl, rfl⟩ := eval_const.1 e2
          rw [if_pos h1, e1]
      · simp only [Except.ok.injEq] at h; exact same h.symm
    · simp only [Except.ok.injEq] at h; exact same h.symm
  | or =>
    obtain ⟨x1, s1, e1, e2⟩ := (eval_or z y s).1 he
    rw [rewriteOp.eq_def] at h
    simp only at h
    split at h
    · next a =>
      obtain ⟨rfl, rfl⟩ := eval_const.1 e1
      split at h
      · next h1 =>
        simp only [Except.ok.injEq] at h
        subst h
        rw [if_neg (by simpa using h1)] at e2
        obtain ⟨y1, e2, rfl⟩ := e2
        rcases eval_bool hl ty e2 with rfl | rfl <;> rw [e2] <;> rfl
      · next h1 =>
        simp only [Except.ok.injEq] at h
        subst h
        rw [if_pos h1] at e2
        rcases tz rfl with h0 | h0
        · exact absurd h0 h1
        · rw [eval, h0, e2.1, e2.2]
    · next a _ =>
      split at h
      · next h1 =>
        simp only [Except.ok.injEq] at h
        subst h
        rcases eval_bool hl tz e1 with rfl | rfl
        · rw [if_neg (by decide)] at e2
          obtain ⟨y1, e2, rfl⟩ := e2
          obtain ⟨rfl, rfl⟩ := eval_const.1 e2
          rw [if_neg (by simpa using h1), e1]
        · rw [if_pos (by decide)] at e2
          rw [e1, e2.1, e2.2]
      · simp only [Except.ok.injEq] at h; exact same h.symm
    · simp only [Except.ok.injEq] at h; exact same h.symm
  | ash => rw [rewriteOp] at h; simp only [Except.ok.injEq] at h; exact same h.symm
  | msk => rw [rewriteOp] at h; simp only [Except.ok.injEq] at h; exact same h.symm

/-- What `rewriteOp` can return: one of the operands, or an operation on an operand and a constant. -/
theorem rewriteOp_shape {op : DOp} {z y n : Node} (h : rewriteOp op z y = .ok n) :
    n = z ∨ n = y ∨ n = .dop op z y ∨
    (isBoolOp op = false ∧ ∃ op' a, isBoolOp op' = false ∧
      (n = .dop op' z (.const a) ∨ n = .dop op' y (.const a))) := by
  cases op <;> rw [rewriteOp.eq_def] at h <;> simp only at h
  all_goals (repeat' split at h)
  all_goals first
    | (simp at h; done)
    | (simp only [Except.ok.injEq] at h; subst h)
  all_goals first
    | (left; rfl)
    | (right; left; rfl)
    | (right; right; left; rfl)
    | (right; right; right; exact ⟨rfl, _, _, rfl, Or.inl rfl⟩)
    | (right; right; right; exact ⟨rfl, _, _, rfl, Or.inr rfl⟩)

theorem mkOp_keeps {op : DOp} {z y n : Node} (tz : Typed bl (isBoolOp op) z)
    (ty : Typed bl (isBoolOp op) y) (fz : TopFits z) (fy : TopFits y)
    (h : mkOp op z y = some (.ok n)) : Typed bl (isBoolOp op) n ∧ TopFits n := by
  rw [mkOp.eq_def] at h
  split at h
  · next a b =>
    simp only [Option.map_eq_some_iff] at h
    obtain ⟨r, hr, h⟩ := h
    cases r with
    | error e => simp at h
    | ok v =>
      simp only [Except.ok.injEq] at h
      subst h
      refine ⟨?_, ?_⟩
      · intro hb
        cases op <;> simp only [isBoolOp, Bool.false_eq_true] at hb <;>
          simp only [constOp, Option.some.injEq, Except.ok.injEq] at hr <;>
          rw [← hr] <;> split <;> simp
      · rintro u hu
        obtain rfl : v = u := by simpa using hu
        exact constOp_fits (fz a rfl) (fy b rfl) hr
  · simp only [Option.some.injEq] at h
    rcases rewriteOp_shape h with rfl | rfl | rfl | ⟨h1, op', a, h2, rfl | rfl⟩
    · exact ⟨tz, fz⟩
    · exact ⟨ty, fy⟩
    · exact ⟨⟨rfl, tz, ty⟩, fun v hv => by simp at hv⟩
    · rw [h1] at tz ⊢
      exact ⟨⟨h2, tz, fun h => by simp at h⟩, fun v hv => by simp at hv⟩
    · rw [h1] at ty ⊢
      exact ⟨⟨h2, ty, fun h => by simp at h⟩, fun v hv => by simp at hv⟩

theorem build_dop {op : DOp} {l r n : Node} (h : build (.dop op l r) = some (.ok n)) :
    ∃ l' r', build l = some (.ok l') ∧ build r = some (.ok r') ∧ mkOp op l' r' = some (.ok n) := by
  rw [build] at h
  simp only [Option.bind_eq_bind, Option.bind_eq_some_iff] at h
  obtain ⟨bl', h1, h⟩ := h
  cases bl' with
  | error e => simp at h
  | ok l' =>
    simp only [Option.bind_eq_some_iff] at h
    obtain ⟨br, h2, h⟩ := h
    cases br with
    | error e => simp at h
    | ok r' => exact ⟨l', r', h1, h2, h⟩

theorem build_keeps {b : Bool} : ∀ {t n : Node}, Typed bl b t → ConstsFit t → build t = some (.ok n) →
    Typed bl b n ∧ TopFits n := by
  intro t
  induction t with
  | const v =>
    intro n ht hc h
    simp only [build, Option.some.injEq, Except.ok.injEq] at h
    subst h
    refine ⟨ht, fun u hu => ?_⟩
    obtain rfl : v = u := by simpa using hu
    exact hc
  | «opaque» m =>
    intro n ht hc h
    simp only [build, Option.some.injEq, Except.ok.injEq] at h
    subst h
    exact ⟨ht, fun u hu => by simp at hu⟩
  | dop op l r ihl ihr =>
    intro n ht hc h
    obtain ⟨l', r', h1, h2, h3⟩ := build_dop h
    obtain ⟨t1, t2, t3⟩ := ht
    subst t1
    obtain ⟨a1, a2⟩ := ihl t2 hc.1 h1
    obtain ⟨b1, b2⟩ := ihr t3 hc.2 h2
    exact mkOp_keeps a1 b1 a2 b2 h3

theorem mkOp_eval (hw : w ≤ 64) (hl : LeafOk bl leaf) {op : DOp} {z y n : Node}
    (tz : Typed bl (isBoolOp op) z) (ty : Typed bl (isBoolOp op) y) (fz : TopFits z) (fy : TopFits y)
    (hd : Pure leaf ∨ (op = .times → (z = .const 0 → ∃ v, y = .const v) ∧ (y = .const 0 → ∃ v, z = .const v)))
    (h : mkOp op z y = some (.ok n)) {s s' : S} {v : Int}
    (he : eval w leaf (.dop op z y) s = some (v, s')) : eval w leaf n s = some (v, s') := by
  rw [mkOp.eq_def] at h
  split at h
  · next a b =>
    simp only [Option.map_eq_some_iff] at h
    obtain ⟨r, hr, h⟩ := h
    cases r with
    | error e => simp at h
    | ok u =>
      simp only [Except.ok.injEq] at h
      subst h
      by_cases hb : isBoolOp op = false
      · obtain ⟨x1, s1, y1, e1, e2, e3⟩ := (eval_arith hb _ _ s).1 he
        obtain ⟨rfl, rfl⟩ := eval_const.1 e1
        obtain ⟨rfl, rfl⟩ := eval_const.1 e2
        rw [constOp_eval (fz _ rfl) (fy _ rfl) hr e3]; rfl
      · cases op <;> simp only [isBoolOp, not_true_eq_false] at hb
        · obtain ⟨x1, s1, e1, e2⟩ := (eval_and _ _ s).1 he
          obtain ⟨rfl, rfl⟩ := eval_const.1 e1
          simp only [constOp, Option.some.injEq, Except.ok.injEq] at hr
          split at e2
          · next h0 => rw [if_neg (by simp [h0])] at hr; rw [← hr, e2.1, e2.2]; rfl
          · next h0 =>
            obtain ⟨y1, e2, rfl⟩ := e2
            obtain ⟨rfl, rfl⟩ := eval_const.1 e2
            rw [← hr]; simp only [eval, ne_eq, h0, not_false_eq_true, true_and]
        · obtain ⟨x1, s1, e1, e2⟩ := (eval_or _ _ s).1 he
          obtain ⟨rfl, rfl⟩ := eval_const.1 e1
          simp only [constOp, Option.some.injEq, Except.ok.injEq] at hr
          split at e2
          · next h0 => rw [if_pos (Or.inl h0)] at hr; rw [← hr, e2.1, e2.2]; rfl
          · next h0 =>
            obtain ⟨y1, e2, rfl⟩ := e2
            obtain ⟨rfl, rfl⟩ := eval_const.1 e2
            rw [← hr]; simp only [eval, h0, false_or]
  · next hnc =>
    simp only [Option.some.injEq] at h
    refine rewriteOp_eval hw hl (fun a b hab => hnc a b hab.1 hab.2) tz ty fz fy ?_ h he
    rcases hd with hp | hd
    · exact Or.inl hp
    · right
      intro ho
      obtain ⟨d1, d2⟩ := hd ho
      constructor
      · intro h0
        obtain ⟨u, hu⟩ := d1 h0
        exact hnc 0 u h0 hu
      · intro h0
        obtain ⟨u, hu⟩ := d2 h0
        exact hnc u 0 hu h0

/-- **C10.**  The tree the compiler builds, by folding and rewriting, has the same value and the same
effects as the source expression, whenever the source expression has a value; for expressions of any depth,
any width of the type up to 64 bits and any opaque parts.  Missing, and false: expressions with effects in
which the compiler multiplies by a constant 0 (`C10_zero_drops_call`). -/
theorem C10_rewrite_partial (hw : w ≤ 64) (hl : LeafOk bl leaf) {b : Bool} :
    ∀ {t n : Node}, Typed bl b t → ConstsFit t → (Pure leaf ∨ NoZeroFactor t) →
    build t = some (.ok n) → ∀ {s s' : S} {v : Int}, eval w leaf t s = some (v, s') →
    eval w leaf n s = some (v, s') := by
  intro t
  induction t with
  | const v =>
    intro n _ _ _ h s s' v he
    simp only [build, Option.some.injEq, Except.ok.injEq] at h
    subst h; exact he
  | «opaque» m =>
    intro n _ _ _ h s s' v he
    simp only [build, Option.some.injEq, Except.ok.injEq] at h
    subst h; exact he
  | dop op l r ihl ihr =>
    intro n ht hc hd h s s' v he
    obtain ⟨l', r', h1, h2, h3⟩ := build_dop h
    obtain ⟨t1, t2, t3⟩ := ht
    subst t1
    obtain ⟨a1, a2⟩ := build_keeps t2 hc.1 h1
    obtain ⟨b1, b2⟩ := build_keeps t3 hc.2 h2
    have hdl : Pure leaf ∨ NoZeroFactor l := hd.imp id (fun h => h.1)
    have hdr : Pure leaf ∨ NoZeroFactor r := hd.imp id (fun h => h.2.1)
    refine mkOp_eval hw hl a1 b1 a2 b2 (hd.imp id (fun h ho => h.2.2 ho l' r' h1 h2)) h3 ?_
    by_cases hb : isBoolOp op = false
    · obtain ⟨x1, s1, y1, e1, e2, e3⟩ := (eval_arith hb l r s).1 he
      exact (eval_arith hb _ _ s).2 ⟨x1, s1, y1, ihl t2 hc.1 hdl h1 e1, ihr t3 hc.2 hdr h2 e2, e3⟩
    · cases op <;> simp only [isBoolOp, not_true_eq_false] at hb
      · obtain ⟨x1, s1, e1, e2⟩ := (eval_and l r s).1 he
        refine (eval_and _ _ s).2 ⟨x1, s1, ihl t2 hc.1 hdl h1 e1, ?_⟩
        split at e2
        · next h0 => rw [if_pos h0]; exact e2
        · next h0 =>
          rw [if_neg h0]
          obtain ⟨y1, e2, e3⟩ := e2
          exact ⟨y1, ihr t3 hc.2 hdr h2 e2, e3⟩
      · obtain ⟨x1, s1, e1, e2⟩ := (eval_or l r s).1 he
        refine (eval_or _ _ s).2 ⟨x1, s1, ihl t2 hc.1 hdl h1 e1, ?_⟩
        split at e2
        · next h0 => rw [if_pos h0]; exact e2
        · next h0 =>
          rw [if_neg h0]
          obtain ⟨y1, e2, e3⟩ := e2
          exact ⟨y1, ihr t3 hc.2 hdr h2 e2, e3⟩

/-- **C10 fails for products with a constant 0**: `f() * 0` is replaced with 0, and the call is dropped. -/
theorem C10_zero_drops_call :
    build (.dop .times (.opaque 0) (.const 0)) = some (.ok (.const 0)) ∧
    eval (S := Nat) 32 (fun _ s => some (7, s + 1)) (.dop .times (.opaque 0) (.const 0)) 5 = some (0, 6) ∧
    eval (S := Nat) 32 (fun _ s => some (7, s + 1)) (.const 0) 5 = some (0, 5) := by decide

/-- **C10, powers of two**, for every 64-bit operand: the shift and the mask that replace `DIV` and `MOD`
by `2^k` give the floored quotient and the nonnegative remainder, and the shift that replaces a product
gives the product when it fits.  (`DIV` and `MOD` themselves overflow for some operands, `C01`.) -/
theorem C10_powers_of_two {k : Nat} (hk : 0 < k) (hk2 : k < 63) (z : Node)
    (hz : ∀ v, z ≠ .const v) :
    rewriteOp .div z (.const (2 ^ k)) = .ok (.dop .ash z (.const (-k))) ∧
    rewriteOp .mod z (.const (2 ^ k)) = .ok (.dop .msk z (.const (-(2 ^ k)))) ∧
    rewriteOp .times z (.const (2 ^ k)) = .ok (.dop .ash z (.const k)) ∧
    ∀ x, applyOp w .ash x (-k) = some (Int.fdiv x (2 ^ k)) ∧
      applyOp w .msk x (-(2 ^ k)) = some (Int.fmod x (2 ^ k)) ∧
      (InI64 (x * 2 ^ k) → applyOp w .ash x k = some (x * 2 ^ k)) := by
  have h2 : (2 : Int) ≤ 2 ^ k := by
    calc (2 : Int) = 2 ^ 1 := rfl
      _ ≤ 2 ^ k := pow_le_pow_right₀ (by decide) (by omega)
  have h1 : (2 : Int) ^ k ≠ 1 := by omega
  have h0 : (2 : Int) ^ k ≠ 0 := by omega
  refine ⟨?_, ?_, ?_, fun x => ⟨?_, ?_, ?_⟩⟩
  · simp only [rewriteOp, if_neg h0, if_neg h1, log_of_pow hk2, if_true]
  · simp only [rewriteOp, if_neg h0, log_of_pow hk2, if_true]
  · cases z with
    | const v => exact absurd rfl (hz v)
    | «opaque» n => simp only [rewriteOp, if_neg h0, if_neg h1, log_of_pow hk2, if_true]
    | dop op l r => simp only [rewriteOp, if_neg h0, if_neg h1, log_of_pow hk2, if_true]
  · have := (C05_ash (x := x) (n := -(k : Int)) (by omega)).2 (by omega)
    rw [neg_neg, Int.toNat_natCast] at this
    exact this
  · simp only [applyOp]
    rw [mask_pow x hk2, Int.fmod_eq_emod_of_nonneg _ (by omega)]
  · intro h
    have := (C05_ash (x := x) (n := (k : Int)) (by omega)).1 (by omega)
    rw [Int.toNat_natCast] at this
    exact this h

/-- A case of `C10_rewrite_partial`: `(x * 8 + 0) DIV 4 MOD 16`, with a leaf that has effects. -/
example :
    build (.dop .mod (.dop .div (.dop .plus (.dop .times (.opaque 0) (.const 8)) (.const 0)) (.const 4)) (.const 16))
      = some (.ok (.dop .msk (.dop .ash (.dop .ash (.opaque 0) (.const 3)) (.const (-2))) (.const (-16)))) ∧
    eval (S := Nat) 32 (fun _ s => some (-5, s + 1))
      (.dop .mod (.dop .div (.dop .plus (.dop .times (.opaque 0) (.const 8)) (.const 0)) (.const 4)) (.const 16)) 0
      = some (6, 1) := by decide

example : Typed (fun _ => true) true (.dop .and (.const 1) (.opaque 0)) ∧
    build (.dop .and (.const 1) (.opaque 0)) = some (.ok (.opaque 0)) := by
  refine ⟨⟨rfl, fun _ => Or.inr rfl, rfl⟩, by decide⟩

end Verif.Const
