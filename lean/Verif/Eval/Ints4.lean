import Verif.Eval.Ints3

/-!
Whole numbers: shifts.
-/
namespace Verif.Eval
open Verif.Expr

section
variable {D : Decl} {o : Opt} {V : Env} {e l r : E} {x y : X} {w : W}

/-- `x & ~(-2^k)` is the remainder. -/
theorem msk_eq {n j : Nat} (hj : j < n) (a : Int) :
    ((a % 2 ^ n).toNat &&& ((2 ^ j - 1 : Int) % 2 ^ n).toNat : Nat) = (a % 2 ^ j).toNat := by
  have h1 : ((2 ^ j - 1 : Int) % 2 ^ n).toNat = 2 ^ j - 1 := by
    have h2 : (2 : Int) ^ j < 2 ^ n := pow_lt_pow_right₀ (by omega) hj
    have h3 : (0 : Int) < 2 ^ j := by positivity
    rw [Int.emod_eq_of_lt (by omega) (by omega)]
    have h4 : ((2 ^ j - 1 : Nat) : Int) = 2 ^ j - 1 := by
      rw [Nat.cast_sub Nat.one_le_two_pow]; push_cast; rfl
    rw [← h4, Int.toNat_natCast]
  rw [h1, Nat.and_two_pow_sub_one_eq_mod]
  have h2 : ((a % 2 ^ n).toNat : Int) = a % 2 ^ n := bits_cast n a
  have h3 : ((a % 2 ^ j).toNat : Int) = a % 2 ^ j := bits_cast j a
  have h4 : (a % 2 ^ n) % 2 ^ j = a % 2 ^ j := Int.emod_emod_of_dvd a (pow_dvd_pow 2 hj.le)
  have h5 : (((a % 2 ^ n).toNat % 2 ^ j : Nat) : Int) = (a % 2 ^ j).toNat := by
    push_cast; rw [h2, h3, h4]
  exact_mod_cast h5

theorem prom_of_int {T : CTy} (h : IntT T) : prom T = .i32 ∨ prom T = .i64 := h

theorem good_msk {j : Nat} (g : Good D o V l x) (h : wt D (.msk l j) = true) : ∃ z, Good D o V (.msk l j) z := by
  simp only [wt, Bool.and_eq_true, Bool.not_eq_true', decide_eq_true_eq] at h
  obtain ⟨⟨⟨-, h1⟩, h2⟩, h3⟩ := h
  obtain ⟨w, tl⟩ := isInt_ty h1
  obtain ⟨i1, f1, o1⟩ := g.int tl
  have f1 := f1 h2
  rw [tl] at h3
  simp only [Ty.bits] at h3
  have hw : w.bits ≤ 64 := by cases w <;> decide
  have hp0 : (0 : Int) < 2 ^ j := by positivity
  have hpow : (2 : Int) ^ j ≤ 2 ^ 62 := pow_le_pow_right₀ (by omega) (by omega)
  obtain ⟨y, hy, hyv, hyi, hyh⟩ := int_lit D V (v := -(2 ^ j)) (by simp only [InTy, W.bits]; omega)
  have hF := f1.usual hyi.prom
  refine ⟨.bin .and x (.compl y), mkInt ?_ tl rfl hF ?_⟩
  · simp only [nd, ct, constOf, sideEff, Bool.or_false]
    rw [show cfop .msk (small D l) 0 (some (-2 ^ j)) (sideEff (nd D o l)) false (ct (nd D o l)) (cint (-2 ^ j)) =
      c2 "__MASK" (ct (nd D o l)) (cint (-2 ^ j)) from rfl, expand_c2 g.ex hy]
    rfl
  · show OutRel (IR (.int w) (usual (xty D x) (prom (xty D y)))) _ _
    simp only [val, cval, tl, xty]
    refine o1.bind ?_
    rintro _ a ⟨ha, ha2, rfl⟩
    simp only [hyv, bind_ok, after_nil]
    have hT := usual_prom (xty D x) (prom (xty D y))
    have hyp := prom_has hyi hyh
    have hcy : (prom (xty D y)).has (-1 - -(2 ^ j)) := by
      rcases prom_of_int hyi with h | h <;> rw [h] at hyp ⊢ <;> simp only [CTy.has, CTy.sg, CTy.bits, if_true] at hyp ⊢ <;> omega
    rw [cnv_has hcy, binX_int rfl i1 hyi.prom ha2 hcy]
    simp only [binV, cbits]
    generalize hU : usual (xty D x) (prom (xty D y)) = U at hF hT
    have hUb : j < U.bits := by
      rcases hF with ⟨h, hw⟩ | h <;> rw [hT] at h <;> subst h <;> simp only [CTy.bits] <;> omega
    rw [show (-1 - -(2 ^ j) : Int) = 2 ^ j - 1 by ring, msk_eq hUb, bits_cast' j a]
    unfold fit
    have hI : InTy (.int w) (Int.fmod a (2 ^ j)) := by
      rw [Int.fmod_eq_emod_of_nonneg _ hp0.le]
      have h4 := Int.emod_nonneg a hp0.ne'
      have h5 := Int.emod_lt_of_pos a hp0
      have h6 : (2 : Int) ^ j ≤ 2 ^ (w.bits - 1) := pow_le_pow_right₀ (by omega) (by omega)
      simp only [InTy]; omega
    rw [if_pos hI]
    rw [Int.fmod_eq_emod_of_nonneg _ hp0.le] at hI ⊢
    exact .ok ⟨hI, hF.has hT hI, cnv_has (hF.has hT hI)⟩
where
  bits_cast' (j : Nat) (a : Int) : (((a % 2 ^ j).toNat : Nat) : Int) = a % 2 ^ j := bits_cast j a

theorem OutRel.cnv64 {a b : Out Int} {t : Ty} (h : OutRel (IR t .i64) a b) :
    OutRel (IR t .i64) a (b.bind fun v => .ok (cnv .i64 v) []) := by
  have e1 : a.bind (fun v => Out.ok v []) = a := by cases a <;> simp [Out.bind, Out.after]
  rw [← e1]
  refine h.bind ?_
  rintro _ v ⟨ha, ha2, rfl⟩
  exact .ok ⟨ha, ha2, cnv_has ha2⟩

/-! ### ASH -/

/-- A constant count. -/
theorem constOf_nd (h : isIntTy (ty D r) = true) : constOf (nd D o r) = const? r := by
  cases r with
  | index d i n => cases n <;> rfl
  | bool b => simp [ty, isIntTy] at h
  | _ => rfl

theorem const_val {v : Int} (h : const? r = some v) : ∃ w, r = .int w v := by
  cases r <;> simp [const?] at h
  subst h; exact ⟨_, rfl⟩

theorem cval_ashl {a b : Int} (hi : IntT (xty D x)) (ha : (xty D x).has a) (hx : cval D V x = .ok a []) (hy : cval D V y = .ok b [])
    (hb : 0 ≤ b ∧ b < 64) (hI : CTy.i64.has (a * 2 ^ b.toNat)) : cval D V (ashl x y) = .ok (a * 2 ^ b.toNat) [] := by
  unfold ashl
  simp only [cval, hx, hy, bind_ok, after_nil, xty, binX_sh (show XOp.shl.isSh = true from rfl), cnv_has (i64_has hi ha), binV]
  rw [if_pos (by simpa [prom, CTy.bits] using hb), show prom .i64 = .i64 from rfl, cnv_has hI]

theorem cval_ashr {a b : Int} (hi : IntT (xty D x)) (ha : (xty D x).has a) (hx : cval D V x = .ok a []) (hy : cval D V y = .ok b [])
    (hb : 0 ≤ b ∧ b < 64) : cval D V (ashr x y) = .ok (a / 2 ^ b.toNat) [] := by
  unfold ashr
  simp only [cval, hx, hy, bind_ok, after_nil, xty, binX_sh (show XOp.shr.isSh = true from rfl), cnv_has (i64_has hi ha), binV]
  rw [if_pos (by simpa [prom, CTy.bits] using hb)]

/-- The shift of the outcome of `x`, by an outcome without calls. -/
theorem ash_bind {b : Int} (hy : cval D V y = .ok b []) :
    cval D V (ashl x y) = (cval D V x).bind (fun a => binX .shl .i64 (xty D y) (cnv .i64 a) b) ∧
    cval D V (ashr x y) = (cval D V x).bind (fun a => binX .shr .i64 (xty D y) (cnv .i64 a) b) := by
  unfold ashl ashr
  simp only [cval, hy, bind_ok, after_nil, xty, bind_assoc, and_self]

theorem ashl_val {T : CTy} {a b : Int} (hi : IntT T) (ha : T.has a) (hb : 0 ≤ b ∧ b < 64) {U : CTy} :
    OutRel (IR (.int w) .i64) (fit (.int w) (ashV a b)) (binX .shl .i64 U (cnv .i64 a) b) := by
  rw [binX_sh rfl, cnv_has (i64_has hi ha)]
  simp only [binV, ashV]
  rw [if_pos hb.1, if_pos (by simpa [prom, CTy.bits] using hb)]
  unfold fit
  split
  · next hI => exact .ok ⟨hI, i64_in hI, cnv_has (i64_in hI)⟩
  · trivial

theorem ashr_val {T : CTy} {a b : Int} (hi : IntT T) (ha : T.has a) (hb : 0 < b ∧ b < 64) {U : CTy} :
    OutRel (IR (.int w) .i64) (fit (.int w) (ashV a (-b))) (binX .shr .i64 U (cnv .i64 a) b) := by
  rw [binX_sh rfl, cnv_has (i64_has hi ha)]
  simp only [binV, ashV]
  rw [if_neg (by omega), if_pos (by simp only [prom, CTy.bits]; simp; omega)]
  rw [neg_neg, Int.fdiv_eq_ediv_of_nonneg _ (by positivity)]
  unfold fit
  split
  · next hI => exact .ok ⟨hI, i64_in hI, rfl⟩
  · trivial

/-- Outcomes when the right operand is evaluated first. -/
theorem neg_val {b : Int} (hi : IntT (xty D y)) (hb : (xty D y).has b) (hy : cval D V y = .ok b []) (h : b < 0) (h2 : -64 < b) :
    cval D V (.neg y) = .ok (-b) [] := by
  simp only [cval, hy, bind_ok, after_nil]
  have hp := prom_has hi hb
  rw [cfit_ok (hi.prom.sg (prom_prom _))]
  rcases prom_of_int hi with h | h <;> rw [h] at hp ⊢ <;> simp only [CTy.has, CTy.sg, CTy.bits, if_true] at hp ⊢ <;> omega

theorem cfop_ash_const (sm : Bool) (n : Nat) (v : Int) (se seR : Bool) (a b : CE) : cfop .ash sm n (some v) se seR a b =
    c2 (if 0 ≤ v then "__ASHL" else "__ASHR") a (if v < 0 then cint (-v) else b) := rfl

theorem cfop_ash_var (sm : Bool) (n : Nat) (se seR : Bool) (a b : CE) : cfop .ash sm n none se seR a b =
    c2 (if seR then "__ASHF" else "__ASH") a b := rfl

theorem good_ash (gl : Good D o V l x) (gr : Good D o V r y) (h : wt D (.ash l r) = true) (hc : Calm D o V (.ash l r)) :
    ∃ z, Good D o V (.ash l r) z := by
  simp only [wt, Bool.and_eq_true] at h
  obtain ⟨⟨⟨-, -⟩, h1⟩, h2⟩ := h
  obtain ⟨w, tl⟩ := isInt_ty h1
  obtain ⟨w', tr⟩ := isInt_ty h2
  obtain ⟨i1, -, o1⟩ := gl.int tl
  obtain ⟨i2, -, o2⟩ := gr.int tr
  have hcn := constOf_nd (o := o) h2
  simp only [Calm] at hc
  obtain ⟨-, -, htr, hcv⟩ := hc
  cases hk : const? r with
  | some v =>
    rw [hk] at hcn
    obtain ⟨w2, rfl⟩ := const_val hk
    have hb := hcv v [] (by simp [val])
    obtain ⟨y1, hy1, hyv1, -, -⟩ := int_lit D V (v := v) (by simp only [InTy, W.bits]; omega)
    have hv : ∀ f : Int → Out Int, ((val D o V (.int w2 v)).bind fun b => f b) = f v := by
      intro f; simp only [val, bind_ok, after_nil]
    by_cases h0 : 0 ≤ v
    · refine ⟨ashl x y1, mkInt ?_ tl rfl (.inr rfl) ?_⟩
      · simp only [nd, ct, constOf, sideEff, Bool.or_false, cfop_ash_const, if_pos h0, if_neg (show ¬ v < 0 by omega)]
        rw [expand_c2 gl.ex hy1]; rfl
      · show OutRel (IR (.int w) .i64) _ _
        rw [(ash_bind hyv1).1]
        simp only [val, bind_ok, after_nil, tl]
        refine o1.bind ?_
        rintro _ a ⟨ha, ha2, rfl⟩
        exact ashl_val i1 ha2 ⟨h0, hb.2⟩
    · obtain ⟨y2, hy2, hyv2, -, -⟩ := int_lit D V (v := -v) (by simp only [InTy, W.bits]; omega)
      refine ⟨ashr x y2, mkInt ?_ tl rfl (.inr rfl) ?_⟩
      · simp only [nd, ct, constOf, sideEff, Bool.or_false, cfop_ash_const, if_neg h0, if_pos (show v < 0 by omega)]
        rw [expand_c2 gl.ex hy2]; rfl
      · show OutRel (IR (.int w) .i64) _ _
        rw [(ash_bind hyv2).2]
        simp only [val, bind_ok, after_nil, tl]
        refine o1.bind ?_
        rintro _ a ⟨ha, ha2, rfl⟩
        have := ashr_val (w := w) i1 ha2 (b := -v) (by omega) (U := xty D y2)
        rwa [neg_neg] at this
  | none =>
    rw [hk] at hcn
    have htr := htr hk
    cases hse : calls D o r with
    | true =>
      have hse' : sideEff (nd D o r) = true := hse
      refine ⟨.fn2 .ash (.cast .i64 x) (.cast .i64 y), mkInt ?_ tl rfl (.inr rfl) ?_⟩
      · simp only [nd, ct, hcn, cfop_ash_var, hse', if_true]
        rw [expand_c2 gl.ex gr.ex]; rfl
      · show OutRel (IR (.int w) .i64) _ _
        simp only [val, cval, bind_assoc, bind_ok, after_nil, tl]
        refine o1.bind ?_
        rintro _ a ⟨ha, ha2, rfl⟩
        refine o2.bind' ?_
        rintro _ t b hbv ⟨hb, hb2, rfl⟩
        have hb3 := hcv b t hbv
        have ha6 := i64_has i1 ha2
        have hb6 := i64_has i2 hb2
        simp only [fn2V, cnv_has ha6, cnv_has hb6]
        unfold fit
        split
        · next hI =>
          have hash := Arith.C05_ash (x := a) (n := b) hb3
          refine ⟨ashV a b, ?_, hI, i64_in hI, rfl⟩
          by_cases h0 : 0 ≤ b
          · unfold ashV at hI ⊢
            rw [if_pos h0] at hI ⊢
            rw [hash.1 h0 (i64_I (i64_in hI))]; rfl
          · unfold ashV
            rw [if_neg h0, hash.2 (by omega)]; rfl
        · trivial
    | false =>
      have hse' : sideEff (nd D o r) = false := hse
      have hty : usual (xty D (ashl x y)) (xty D (ashr x (.neg y))) = .i64 := rfl
      refine ⟨.cond (.bin .ge y (k 0)) (ashl x y) (ashr x (.neg y)), mkInt ?_ tl rfl (.inr rfl) ?_⟩
      · simp only [nd, ct, hcn, cfop_ash_var, hse', Bool.false_eq_true, if_false]
        rw [expand_c2 gl.ex gr.ex]; rfl
      · show OutRel (IR (.int w) .i64) _ _
        rcases Quiet.cases o2 (quiet_val D o V r hse) with h | ⟨c, h, h'⟩ | ⟨_, b, h, h', hb, hb2, rfl⟩
        · rcases htr hse with ⟨v, t, hh⟩ | ⟨p1, p2⟩
          · rw [h] at hh; cases hh
          simp only [val, h]
          rcases Quiet.cases o1 (quiet_val D o V l p1) with h1 | ⟨c1, h1, h1'⟩ | ⟨_, a, h1, h1', ha, ha2, rfl⟩
          · rw [h1]; trivial
          · exact absurd ⟨c1, [], h1⟩ p2
          · rw [h1]; trivial
        · rcases htr hse with ⟨v, t, hh⟩ | ⟨p1, p2⟩
          · rw [h] at hh; cases hh
          rw [cval_cond]
          simp only [cval, h', bind_trap, val, h]
          rcases Quiet.cases o1 (quiet_val D o V l p1) with h1 | ⟨c1, h1, h1'⟩ | ⟨_, a, h1, h1', ha, ha2, rfl⟩
          · rw [h1]; trivial
          · exact absurd ⟨c1, [], h1⟩ p2
          · rw [h1]; rfl
        · have hcmp := cmp_k (V := V) (q := .ge) rfl i2 hb2 (n := 0) (by decide) (p := fun a b => a ≥ b) (fun _ _ _ => rfl) h'
          have hb3 := hcv b [] h
          rw [cval_cond, hcmp, bind_ok, after_nil, hty]
          simp only [tv_ne]
          by_cases h0 : b ≥ 0
          · rw [if_neg (by omega), (ash_bind h').1, bind_assoc]
            simp only [val, h, bind_ok, after_nil, tl]
            refine o1.bind ?_
            rintro _ a ⟨ha, ha2, rfl⟩
            have hk := ashl_val (w := w) i1 ha2 (b := b) ⟨h0, hb3.2⟩ (U := xty D y)
            exact hk.cnv64
          · rw [if_pos h0, (ash_bind (neg_val i2 hb2 h' (by omega) hb3.1)).2, bind_assoc]
            simp only [val, h, bind_ok, after_nil, tl]
            refine o1.bind ?_
            rintro _ a ⟨ha, ha2, rfl⟩
            have hk := ashr_val (w := w) i1 ha2 (b := -b) (by omega) (U := xty D (.neg y))
            rw [neg_neg] at hk
            exact hk.cnv64

end
end Verif.Eval
