import Verif.Eval.Spec
import Verif.Common
import Mathlib.Tactic.LinearCombination
import Verif.Arith.PropsBits
import Verif.Arith.PropsChecks
import Verif.Arith.PropsDivMod

/-!
Facts about the arithmetic of C.
-/
namespace Verif.Eval
open Verif.Expr

/-- A type whose values are computed with as `int` or `INT64`. -/
def IntT (t : CTy) : Prop := prom t = .i32 ∨ prom t = .i64

/-- A type that has room for computing with numbers of a size. -/
def FitW (w : W) (t : CTy) : Prop := (prom t = .i32 ∧ w.bits ≤ 32) ∨ prom t = .i64

theorem FitW.int {w : W} {t : CTy} (h : FitW w t) : IntT t := by
  rcases h with h | h
  · exact .inl h.1
  · exact .inr h

theorem cnv_has {t : CTy} {v : Int} (h : t.has v) : cnv t v = v := by
  cases t <;> simp only [CTy.has, CTy.sg, CTy.bits, cnv, if_true, Bool.false_eq_true, if_false] at h ⊢ <;> norm_num at h ⊢ <;> omega

theorem has_cnv (t : CTy) (v : Int) : t.has (cnv t v) := by
  cases t <;> simp only [CTy.has, CTy.sg, CTy.bits, cnv, if_true, Bool.false_eq_true, if_false] <;> norm_num <;> omega

theorem usual_int {a b : CTy} (ha : IntT a) (hb : IntT b) : usual a b = .i32 ∧ prom a = .i32 ∧ prom b = .i32 ∨
    usual a b = .i64 ∧ (prom a = .i64 ∨ prom b = .i64) := by
  cases a <;> cases b <;> revert ha hb <;> unfold IntT <;> decide

theorem IntT.usual {a b : CTy} (ha : IntT a) (hb : IntT b) : IntT (usual a b) := by
  cases a <;> cases b <;> revert ha hb <;> unfold IntT <;> decide

theorem prom_has {t : CTy} (h : IntT t) {v : Int} (hv : t.has v) : (prom t).has v := by
  cases t <;> simp [IntT, prom, CTy.bits] at h <;> simp [prom, CTy.has, CTy.sg, CTy.bits] at hv ⊢ <;> omega

theorem usual_has {a b : CTy} (ha : IntT a) (hb : IntT b) {v : Int} (hv : a.has v) : (Eval.usual a b).has v := by
  have h := prom_has ha hv
  rcases usual_int ha hb with ⟨e, h1, _⟩ | ⟨e, _⟩
  · rw [e]; rwa [h1] at h
  · rw [e]
    rcases ha with h1 | h1 <;> rw [h1] at h
    · simp [CTy.has, CTy.sg, CTy.bits] at h ⊢; omega
    · exact h

theorem usual_comm (a b : CTy) : Eval.usual a b = Eval.usual b a := by
  cases a <;> cases b <;> decide

theorem usual_has' {a b : CTy} (ha : IntT a) (hb : IntT b) {v : Int} (hv : b.has v) : (Eval.usual a b).has v := by
  rw [usual_comm]; exact usual_has hb ha hv

theorem FitW.usual {w : W} {a b : CTy} (ha : FitW w a) (hb : IntT b) : FitW w (Eval.usual a b) := by
  cases a <;> cases b <;> cases w <;> revert ha hb <;> unfold FitW IntT <;> decide

theorem FitW.usual' {w : W} {a b : CTy} (ha : IntT a) (hb : FitW w b) : FitW w (Eval.usual a b) := by
  rw [usual_comm]; exact hb.usual ha

theorem FitW.prom {w : W} {a : CTy} (ha : FitW w a) : FitW w (Eval.prom a) := by
  cases a <;> cases w <;> revert ha <;> unfold FitW <;> decide

theorem IntT.prom {a : CTy} (ha : IntT a) : IntT (Eval.prom a) := by
  cases a <;> revert ha <;> unfold IntT <;> decide

/-- What fits the size fits the type, once promoted. -/
theorem FitW.has {w : W} {a : CTy} (ha : FitW w a) (hp : Eval.prom a = a) {v : Int} (h : InTy (.int w) v) : a.has v := by
  rcases ha with ⟨h1, h2⟩ | h1 <;> rw [hp] at h1 <;> subst h1 <;> cases w <;>
    simp [W.bits, InTy, CTy.has, CTy.sg, CTy.bits] at * <;> omega

theorem usual_prom (a b : CTy) : Eval.prom (Eval.usual a b) = Eval.usual a b := by
  cases a <;> cases b <;> decide

theorem prom_prom (a : CTy) : Eval.prom (Eval.prom a) = Eval.prom a := by cases a <;> decide

theorem i64_has {a : CTy} (ha : IntT a) {v : Int} (h : a.has v) : CTy.i64.has v := by
  cases a <;> simp [IntT, Eval.prom, CTy.bits] at ha <;> simp [CTy.has, CTy.sg, CTy.bits] at h ⊢ <;> omega

/-- Operators on whole numbers. -/
theorem binX_int {o : XOp} (ho : o.isSh = false) {ta tb : CTy} (ha : IntT ta) (hb : IntT tb) {a b : Int} (h1 : ta.has a)
    (h2 : tb.has b) : binX o ta tb a b = binV o (Eval.usual ta tb) a b := by
  unfold binX
  rw [ho, if_neg (by simp), cnv_has (usual_has ha hb h1), cnv_has (usual_has' ha hb h2)]

theorem binX_sh {o : XOp} (ho : o.isSh = true) {ta tb : CTy} {a b : Int} : binX o ta tb a b = binV o (prom ta) a b := by
  unfold binX; rw [ho, if_pos rfl]

theorem cfit_ok {t : CTy} (ht : t.sg = true) {v : Int} (h : t.has v) : cfit t v = .ok v [] := by
  unfold cfit; rw [if_pos ht, if_pos h]

theorem IntT.sg {t : CTy} (h : IntT t) (hp : Eval.prom t = t) : t.sg = true := by
  rcases h with h | h <;> rw [hp] at h <;> subst h <;> rfl

/-! ### Outcomes -/

/-- The outcome in C for an outcome in the language. -/
def OutRel {α β : Type} (R : α → β → Prop) : Out α → Out β → Prop
  | .undef, _ => True
  | .trap c t, y => y = .trap c t
  | .ok v t, y => ∃ w, y = .ok w t ∧ R v w

theorem OutRel.after {α β : Type} {R : α → β → Prop} {x : Out α} {y : Out β} (h : OutRel R x y) (t : List Ev) :
    OutRel R (x.after t) (y.after t) := by
  cases x with
  | undef => trivial
  | trap c u => simp only [OutRel] at h; subst h; simp [Out.after, OutRel]
  | ok v u => obtain ⟨w, rfl, hw⟩ := h; exact ⟨w, rfl, hw⟩

theorem OutRel.bind' {α β γ δ : Type} {R : α → β → Prop} {S : γ → δ → Prop} {x : Out α} {y : Out β} {f : α → Out γ}
    {g : β → Out δ} (h : OutRel R x y) (hf : ∀ v t w, x = .ok v t → R v w → OutRel S (f v) (g w)) :
    OutRel S (x.bind f) (y.bind g) := by
  cases x with
  | undef => trivial
  | trap c t => simp only [OutRel] at h; subst h; rfl
  | ok v t =>
    obtain ⟨w, rfl, hw⟩ := h
    exact (hf v t w rfl hw).after t

theorem OutRel.bind {α β γ δ : Type} {R : α → β → Prop} {S : γ → δ → Prop} {x : Out α} {y : Out β} {f : α → Out γ}
    {g : β → Out δ} (h : OutRel R x y) (hf : ∀ v w, R v w → OutRel S (f v) (g w)) : OutRel S (x.bind f) (y.bind g) :=
  h.bind' fun v _ w _ r => hf v w r

theorem OutRel.ok {α β : Type} {R : α → β → Prop} {v : α} {w : β} (h : R v w) : OutRel R (.ok v []) (.ok w []) := ⟨w, rfl, h⟩

theorem after_nil {α : Type} (x : Out α) : x.after [] = x := by cases x <;> rfl

theorem after_after {α : Type} (x : Out α) (t u : List Ev) : (x.after t).after u = x.after (u ++ t) := by
  cases x <;> simp [Out.after]

theorem bind_ok {α β : Type} (v : α) (t : List Ev) (f : α → Out β) : (Out.ok v t).bind f = (f v).after t := rfl

theorem bind_trap {α β : Type} (c : Int) (t : List Ev) (f : α → Out β) : (Out.trap c t).bind f = .trap c t := rfl

theorem bind_undef {α β : Type} (f : α → Out β) : (Out.undef : Out α).bind f = .undef := rfl

theorem bind_after {α β : Type} (x : Out α) (t : List Ev) (f : α → Out β) : (x.after t).bind f = (x.bind f).after t := by
  cases x with
  | undef => rfl
  | trap c u => rfl
  | ok v u => rw [bind_ok, after_after]; rfl

theorem bind_assoc {α β γ : Type} (x : Out α) (f : α → Out β) (g : β → Out γ) :
    (x.bind f).bind g = x.bind fun v => (f v).bind g := by
  cases x with
  | undef => rfl
  | trap c t => rfl
  | ok v t => rw [bind_ok, bind_ok, bind_after]

/-! ### Patterns of bits -/

theorem bits_cast (n : Nat) (x : Int) : (bits n x : Int) = x % 2 ^ n := by
  have h : (0 : Int) < 2 ^ n := by positivity
  unfold bits
  exact Int.toNat_of_nonneg (Int.emod_nonneg x (ne_of_gt h))

theorem bits_lt (n : Nat) (x : Int) : bits n x < 2 ^ n := by
  have h : (0 : Int) < 2 ^ n := by positivity
  have h1 := Int.emod_lt_of_pos x h
  rw [← bits_cast] at h1
  exact_mod_cast h1

theorem bits_pat (n : Nat) (x : Int) : bits n x = Arith.pat n x := rfl

theorem bits_of {n : Nat} {v : Int} (h0 : 0 ≤ v) (h : v < 2 ^ n) : bits n v = v.toNat := by
  unfold bits; rw [Int.emod_eq_of_lt h0 h]

theorem bits_congr {n : Nat} {x y : Int} (h : x % 2 ^ n = y % 2 ^ n) : bits n x = bits n y := by
  unfold bits; rw [h]

theorem bits_eq_iff {n : Nat} {x y : Int} : bits n x = bits n y ↔ x % 2 ^ n = y % 2 ^ n := by
  constructor
  · intro h; rw [← bits_cast, ← bits_cast, h]
  · exact bits_congr

theorem cnv_emod (t : CTy) (v : Int) : cnv t v % 2 ^ t.bits = v % 2 ^ t.bits := by
  cases t <;> simp only [CTy.sg, CTy.bits, cnv, if_true, Bool.false_eq_true, if_false] <;> norm_num <;> omega

theorem emod_pow {n m : Nat} (h : n ≤ m) {x y : Int} (e : x % 2 ^ m = y % 2 ^ m) : x % 2 ^ n = y % 2 ^ n := by
  have d : (2 : Int) ^ n ∣ 2 ^ m := pow_dvd_pow 2 h
  rw [← Int.emod_emod_of_dvd x d, e, Int.emod_emod_of_dvd y d]

theorem bits_cnv {n : Nat} {t : CTy} (h : n ≤ t.bits) (v : Int) : bits n (cnv t v) = bits n v :=
  bits_congr (emod_pow h (cnv_emod t v))

theorem cnv_congr {t : CTy} {x y : Int} (h : x % 2 ^ t.bits = y % 2 ^ t.bits) : cnv t x = cnv t y := by
  cases t <;> simp only [CTy.sg, CTy.bits, cnv, if_true, Bool.false_eq_true, if_false] at h ⊢ <;> norm_num at h ⊢ <;> omega

theorem cnv_eq_iff {t : CTy} {x y : Int} : cnv t x = cnv t y ↔ bits t.bits x = bits t.bits y := by
  rw [bits_eq_iff]
  constructor
  · intro h; rw [← cnv_emod t x, h, cnv_emod]
  · exact cnv_congr

theorem bits_natCast (n u : Nat) : bits n (u : Int) = u % 2 ^ n := by
  unfold bits
  have : ((u : Int) % 2 ^ n) = ((u % 2 ^ n : Nat) : Int) := by push_cast; rfl
  rw [this, Int.toNat_natCast]

theorem bits_compl (n : Nat) (c : Int) : bits n (-1 - c) = 2 ^ n - 1 - bits n c := by
  have h := bits_lt n c
  have e : (-1 - c) % 2 ^ n = ((2 ^ n - 1 - bits n c : Nat) : Int) := by
    have h1 : ((2 ^ n - 1 - bits n c : Nat) : Int) = 2 ^ n - 1 - c % 2 ^ n := by
      rw [← bits_cast, Nat.cast_sub (by omega), Nat.cast_sub Nat.one_le_two_pow]; push_cast; rfl
    have h2 := Int.emod_nonneg c (show (2 : Int) ^ n ≠ 0 by positivity)
    have h3 := Int.emod_lt_of_pos c (show (0 : Int) < 2 ^ n by positivity)
    rw [h1]
    have h4 : -1 - c = (2 ^ n - 1 - c % 2 ^ n) + 2 ^ n * (-(c / 2 ^ n) - 1) := by
      have := Int.emod_add_mul_ediv c (2 ^ n)
      linear_combination this
    rw [h4, Int.add_mul_emod_self_left, Int.emod_eq_of_lt (by omega) (by omega)]
  unfold bits at *
  rw [e, Int.toNat_natCast]

end Verif.Eval
