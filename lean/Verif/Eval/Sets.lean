import Verif.Eval.Des

/-!
Sets.
-/
namespace Verif.Eval
open Verif.Expr

section
variable {D : Decl} {o : Opt} {V : Env} {e l r : E} {x y : X} {s : Bool} {w : W}

/-- The C types of sets, other than constants. -/
def SetT (s : Bool) (T : CTy) : Prop := T = cty (.set s) ∨ s = true ∧ T = .i64

/-- The C types of sets. -/
def LitT (s : Bool) (T : CTy) : Prop := T = .i32 ∨ T = .u32 ∨ s = true ∧ (T = .i64 ∨ T = .u64)

theorem SetT.lit {T : CTy} (h : SetT s T) : LitT s T := by
  cases s <;> simp [SetT, LitT, cty] at h ⊢ <;> tauto

theorem SetT.bits {T : CTy} (h : SetT s T) : T.bits = sbits s := by
  rcases h with rfl | ⟨rfl, rfl⟩
  · cases s <;> rfl
  · rfl

theorem SetT.prom {T : CTy} (h : SetT s T) : prom T = T := by
  rcases h with rfl | ⟨rfl, rfl⟩
  · cases s <;> rfl
  · rfl

theorem LitT.prom {T : CTy} (h : LitT s T) : Eval.prom T = T := by
  rcases h with rfl | rfl | ⟨-, rfl | rfl⟩ <;> rfl

theorem SetT.usual {a b : CTy} (ha : SetT s a) (hb : LitT s b) : SetT s (usual a b) := by
  cases s <;> cases a <;> cases b <;> simp [SetT, LitT, cty, Eval.usual, Eval.prom, CTy.sg, CTy.bits] at ha hb ⊢

theorem hexTy_lit {v : Nat} (h : v < 2 ^ sbits s) : LitT s (hexTy v) := by
  unfold hexTy LitT
  cases s with
  | false =>
    simp only [sbits, Bool.false_eq_true, if_false] at h
    by_cases h1 : v < 2 ^ 31
    · rw [if_pos h1]; exact .inl rfl
    · rw [if_neg h1, if_pos h]; exact .inr (.inl rfl)
  | true =>
    split
    · exact .inl rfl
    · split
      · exact .inr (.inl rfl)
      · split
        · exact .inr (.inr ⟨rfl, .inl rfl⟩)
        · exact .inr (.inr ⟨rfl, .inr rfl⟩)

/-- A set and its pattern. -/
def SR (s : Bool) (T : CTy) (v c : Int) : Prop := InTy (.set s) v ∧ T.has c ∧ bits (sbits s) c = v.toNat

theorem Good.set (g : Good D o V e x) (hw : wt D e = true) (ht : ty D e = .set s) :
    LitT s (xty D x) ∧ (isSet e = false → SetT s (xty D x)) ∧
      (∀ v, e = .set s v → xty D x = hexTy v) ∧
      OutRel (fun v c => SR s (xty D x) v c ∧ (isSet e = true → c = v)) (val D o V e) (cval D V x) := by
  have h1 := g.fits
  have h2 := g.out
  unfold Fits at h1
  rw [ht] at h1
  refine ⟨?_, ?_, ?_, h2.mono ?_⟩
  · rcases h1 with h1 | h1 | ⟨v, rfl, h1⟩
    · rw [h1]; exact SetT.lit (.inl rfl)
    · exact SetT.lit (.inr h1)
    · rw [h1]; exact hexTy_lit (by simpa [wt] using hw)
  · intro h
    rcases h1 with h1 | h1 | ⟨v, rfl, h1⟩
    · exact .inl h1
    · exact .inr h1
    · simp [isSet] at h
  · rintro v rfl
    have hex := g.ex
    have hv : v < 2 ^ 64 := lt_of_lt_of_le (show v < 2 ^ sbits s by simpa [wt] using hw)
      (Nat.pow_le_pow_right (by omega) (by cases s <;> decide))
    simp only [nd, ct, expand, litVal_set hv, Option.map_some, Option.some.injEq] at hex
    rw [← hex]; rfl
  · rintro v c ⟨a, b, hc⟩
    rw [ht] at a hc
    exact ⟨⟨a, b, hc.1⟩, hc.2⟩

theorem mkSet (hex : expand (ct (nd D o e)) = some x) (ht : ty D e = .set s) (hd : isDesE e = false) (hs : isSet e = false)
    (hf : SetT s (xty D x)) (ho : OutRel (SR s (xty D x)) (val D o V e) (cval D V x)) : Good D o V e x := by
  refine ⟨hex, ?_, ho.mono ?_, fun h => ?_, fun h => ?_⟩
  · unfold Fits; rw [ht]
    rcases hf with h | h
    · exact .inl h
    · exact .inr (.inl h)
  · rintro v c ⟨a, b, hc⟩
    refine ⟨by rw [ht]; exact a, b, ?_⟩
    rw [ht]; exact ⟨hc, fun h => by rw [hs] at h; cases h⟩
  · rw [hd] at h; cases h
  · rw [isVarE_des h] at hd; cases hd

theorem compl_bits {T : CTy} (hT : LitT s T) {c : Int} (hc : T.has c) (h : ¬ (s = true ∧ T = .u32)) :
    bits (sbits s) (cnv T (-1 - c)) = 2 ^ sbits s - 1 - bits (sbits s) c := by
  rw [← bits_compl]
  by_cases hb : sbits s ≤ T.bits
  · exact bits_cnv hb _
  · have h1 : T = .i32 := by
      rcases hT with h1 | rfl | ⟨rfl, rfl | rfl⟩
      · exact h1
      · cases s with
        | true => exact absurd ⟨rfl, rfl⟩ h
        | false => exact absurd le_rfl hb
      · exact absurd le_rfl hb
      · exact absurd le_rfl hb
    subst h1
    rw [cnv_has]
    simp only [CTy.has, CTy.sg, CTy.bits, if_true] at hc ⊢
    omega

theorem compl_in {v : Int} (h : InTy (.set s) v) : InTy (.set s) (2 ^ sbits s - 1 - v) ∧
    (2 ^ sbits s - 1 - v : Int).toNat = 2 ^ sbits s - 1 - v.toNat := by
  have hp : ((2 ^ sbits s : Nat) : Int) = 2 ^ sbits s := by push_cast; rfl
  simp only [InTy] at h ⊢
  rw [← hp] at h ⊢
  omega

theorem set_ty {t : Ty} (h : t = .set false ∨ t = .set true) : ∃ s, t = .set s := by
  rcases h with h | h
  · exact ⟨_, h⟩
  · exact ⟨_, h⟩

theorem isSet_const (h : isConst' e = false) : isSet e = false := by
  cases e <;> simp_all [isConst', isSet]

theorem good_compl (g : Good D o V e x) (h : wt D (.compl e) = true) : ∃ z, Good D o V (.compl e) z := by
  simp only [wt, Bool.and_eq_true, Bool.or_eq_true, beq_iff_eq, Bool.not_eq_true'] at h
  obtain ⟨⟨h0, h1⟩, h2⟩ := h
  obtain ⟨s, ht⟩ := set_ty h1
  obtain ⟨hl, hs, -, ho⟩ := g.set h0 ht
  have hs := hs (isSet_const h2)
  refine ⟨.compl x, mkSet ?_ ht rfl rfl (by rw [xty, hs.prom]; exact hs) ?_⟩
  · simp [nd, ct, expand, g.ex, xun]
  · simp only [val, cval, xty, hs.prom, ht, Ty.bits]
    refine ho.bind ?_
    rintro v c ⟨⟨a, b, hc⟩, -⟩
    obtain ⟨h3, h4⟩ := compl_in a
    refine .ok ⟨h3, has_cnv _ _, ?_⟩
    rw [compl_bits hl b, hc, h4]
    rintro ⟨rfl, hT⟩
    rw [hT] at hs
    rcases hs with h | ⟨-, h⟩ <;> cases h

theorem uty_s (s : Bool) : uty (sbits s : Nat) = cty (.set s) := by cases s <;> decide

theorem cs_bits (s : Bool) : (cty (.set s)).bits = sbits s := by cases s <;> rfl

theorem cs_prom (s : Bool) : prom (cty (.set s)) = cty (.set s) := by cases s <;> rfl

theorem cnv_cs (v : Int) : cnv (cty (.set s)) v = bits (sbits s) v := by
  rw [bits_cast]; unfold cnv
  rw [cs_bits, if_neg (by cases s <;> decide)]

theorem set_nat {u : Nat} (h : u < 2 ^ sbits s) : InTy (.set s) (u : Int) ∧ SR s (cty (.set s)) u u := by
  have h1 : InTy (.set s) (u : Int) := ⟨by omega, by exact_mod_cast h⟩
  exact ⟨h1, h1, cty_has h1, bits_of h1.1 h1.2⟩

theorem good_toset (g : Good D o V e x) (h : wt D (.toset s e) = true) : ∃ z, Good D o V (.toset s e) z := by
  simp only [wt, Bool.and_eq_true] at h
  obtain ⟨-, h1⟩ := h
  obtain ⟨w, ti⟩ := isInt_ty h1
  obtain ⟨i1, -, o1⟩ := g.int ti
  have hx : xty D (.bin .shl (.cast (uty (sbits s : Nat)) (k 1)) x) = cty (.set s) := by
    simp only [xty, XOp.isRel, XOp.isSh, if_true, Bool.false_eq_true, if_false, uty_s, cs_prom]
  refine ⟨.bin .shl (.cast (uty (sbits s : Nat)) (k 1)) x, mkSet ?_ rfl rfl rfl (by rw [hx]; exact .inl rfl) ?_⟩
  · simp only [nd, ct, cconv, Bool.false_eq_true, if_false]
    rw [expand_c2 g.ex (num_lit _)]; rfl
  · rw [hx]
    simp only [val, cval, k_val, bind_ok, after_nil, xty, uty_s]
    refine o1.bind ?_
    rintro _ v ⟨hv, hv2, rfl⟩
    by_cases hI : 0 ≤ v ∧ v < sbits s
    · have hp : 2 ^ v.toNat < 2 ^ sbits s := Nat.pow_lt_pow_right (by omega) (by omega)
      rw [if_pos hI, binX_sh rfl, cs_prom]
      have h1 : cnv (cty (.set s)) 1 = 1 := by cases s <;> decide
      simp only [binV, cs_bits, h1, one_mul]
      rw [if_pos hI]
      have h2 := set_nat hp
      push_cast at h2
      refine .ok ?_
      rw [cnv_has h2.2.2.1]
      exact h2.2
    · rw [if_neg hI]; trivial

/-- A set of 32 bits is a number. -/
theorem narrow {T : CTy} {v c : Int} (hT : (isSet e = false → SetT false T)) (h : SR false T v c)
    (hc : isSet e = true → c = v) : c = v := by
  cases he : isSet e with
  | true => exact hc he
  | false =>
    have hT := hT he
    obtain ⟨a, b, h⟩ := h
    rcases hT with rfl | ⟨h', -⟩
    · have b' : InTy (.set false) c := by
        simp only [cty, CTy.has, CTy.sg, CTy.bits, Bool.false_eq_true, if_false] at b; exact b
      rw [bits_of b'.1 b'.2] at h
      simp only [InTy] at a b'
      omega
    · cases h'

theorem set32_i64 {v : Int} (a : InTy (.set false) v) : CTy.i64.has v ∧ InTy (.set true) v := by
  simp only [InTy, sbits, Bool.false_eq_true, if_false, if_true, CTy.has, CTy.sg, CTy.bits] at a ⊢
  omega

theorem good_widen (g : Good D o V e x) (h : wt D (.widen e) = true) : ∃ z, Good D o V (.widen e) z := by
  simp only [wt, Bool.and_eq_true, beq_iff_eq] at h
  obtain ⟨h0, ht⟩ := h
  obtain ⟨hl, hs, -, ho⟩ := g.set h0 ht
  refine ⟨.cast .i64 x, mkSet ?_ rfl rfl rfl (.inr ⟨rfl, rfl⟩) ?_⟩
  · simp [nd, ct, cconv, expand, g.ex, xcast, tyName]
  · simp only [val, cval]
    have : val D o V e = (val D o V e).bind fun v => .ok v [] := by
      cases val D o V e <;> simp [Out.bind, Out.after]
    rw [this]
    refine ho.bind ?_
    rintro v c ⟨h, hc⟩
    have := narrow hs h hc
    subst this
    have h2 := set32_i64 h.1
    rw [cnv_has h2.1]
    exact .ok ⟨h2.2, h2.1, bits_of h2.2.1 h2.2.2⟩

theorem rng_nat {n a b : Nat} (ha : a < n) (hb : b < n) :
    ((2 ^ n - 1) * 2 ^ a % 2 ^ n) &&& ((2 ^ n - 1) / 2 ^ (n - 1 - b)) = rangeV a b ∧ rangeV a b < 2 ^ n := by
  have h1 : (2 ^ n - 1) * 2 ^ a % 2 ^ n = 2 ^ n - 2 ^ a := by
    have e : (2 ^ n - 1) * 2 ^ a = (2 ^ n - 2 ^ a) + 2 ^ n * (2 ^ a - 1) := by
      have hp : 2 ^ a ≤ 2 ^ n := Nat.pow_le_pow_right (by omega) ha.le
      have hq : 1 ≤ 2 ^ a := Nat.one_le_two_pow
      have hr : 2 ^ n ≤ 2 ^ n * 2 ^ a := Nat.le_mul_of_pos_right _ (by omega)
      rw [Nat.sub_mul, Nat.mul_sub, one_mul, mul_one]; omega
    rw [e, Nat.add_mul_mod_self_left, Nat.mod_eq_of_lt]
    have : 0 < 2 ^ a := by positivity
    have : 0 < 2 ^ n := by positivity
    omega
  have h2 : (2 ^ n - 1) / 2 ^ (n - 1 - b) = 2 ^ (b + 1) - 1 := by
    have e : 2 ^ n = 2 ^ (n - 1 - b) * 2 ^ (b + 1) := by rw [← pow_add]; congr 1; omega
    have hq : 0 < 2 ^ (n - 1 - b) := by positivity
    have hr : 0 < 2 ^ (b + 1) := by positivity
    rw [e]
    apply Nat.div_eq_of_lt_le
    · rw [Nat.sub_mul, one_mul, mul_comm]; omega
    · have : 2 ^ (b + 1) - 1 + 1 = 2 ^ (b + 1) := by omega
      rw [this, mul_comm]
      have : 0 < 2 ^ (b + 1) * 2 ^ (n - 1 - b) := by positivity
      omega
  have hbn : 2 ^ (b + 1) ∣ 2 ^ n := pow_dvd_pow 2 (by omega)
  rw [h1, h2, Nat.and_two_pow_sub_one_eq_mod]
  unfold rangeV
  simp only [Int.toNat_natCast]
  by_cases h : a ≤ b
  · rw [if_pos (by exact_mod_cast h)]
    have hp : 2 ^ a < 2 ^ (b + 1) := Nat.pow_lt_pow_right (by omega) (by omega)
    have hq : 0 < 2 ^ a := by positivity
    obtain ⟨q, hq2⟩ := hbn
    have hq0 : 0 < q := by
      rcases Nat.eq_zero_or_pos q with h | h
      · rw [h] at hq2
        have : 0 < 2 ^ n := by positivity
        omega
      · exact h
    have e : 2 ^ n - 2 ^ a = (2 ^ (b + 1) - 2 ^ a) + 2 ^ (b + 1) * (q - 1) := by
      rw [hq2, Nat.mul_sub, mul_one]
      have : 2 ^ (b + 1) ≤ 2 ^ (b + 1) * q := Nat.le_mul_of_pos_right _ hq0
      omega
    have hle : 2 ^ (b + 1) ≤ 2 ^ n := Nat.pow_le_pow_right (by omega) (by omega)
    rw [e, Nat.add_mul_mod_self_left, Nat.mod_eq_of_lt (by omega)]
    exact ⟨rfl, by omega⟩
  · rw [if_neg (by push_cast; omega)]
    have hab : 2 ^ (b + 1) ∣ 2 ^ a := pow_dvd_pow 2 (by omega)
    exact ⟨Nat.mod_eq_zero_of_dvd (Nat.dvd_sub hbn hab), by positivity⟩

end
end Verif.Eval
