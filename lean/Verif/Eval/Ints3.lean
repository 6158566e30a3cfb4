import Verif.Eval.Ints2

/-!
Whole numbers: CHR, division, shifts.
-/
namespace Verif.Eval
open Verif.Expr

section
variable {D : Decl} {o : Opt} {V : Env} {e l r : E} {x y : X} {w : W}

theorem u8_chr {v : Int} : CTy.u8.has v ↔ InTy .chr v := by
  simp only [CTy.has, CTy.sg, CTy.bits, Bool.false_eq_true, if_false, InTy]; norm_num

theorem good_tochr (g : Good D o V e x) (h : wt D (.tochr e) = true) (hc : Calm D o V (.tochr e)) :
    ∃ z, Good D o V (.tochr e) z := by
  simp only [wt, Bool.and_eq_true] at h
  obtain ⟨-, h1⟩ := h
  obtain ⟨w, tl⟩ := isInt_ty h1
  obtain ⟨i1, -, o1⟩ := g.int tl
  simp only [Calm] at hc
  obtain ⟨-, hc⟩ := hc
  cases hr : o.ran with
  | false =>
    refine ⟨.cast .u8 x, mkChr ?_ rfl rfl rfl ?_⟩
    · simp [nd, hr, ct, cconv, expand, g.ex, xcast, tyName]
    · show OutRel (IR .chr .u8) _ _
      simp only [val, hr, cval]
      refine o1.bind ?_
      rintro _ v ⟨ha, ha2, rfl⟩
      unfold convV
      split
      · next h => exact .ok ⟨h, u8_chr.2 h, cnv_has (u8_chr.2 h)⟩
      · trivial
  | true =>
    cases hse : calls D o e with
    | false =>
      have hse' : sideEff (nd D o e) = false := hse
      refine ⟨.cast .u8 (.cond (.bin .lt x (k 256)) x (.halt (-8) (k 0))), mkChr ?_ rfl rfl rfl ?_⟩
      · simp only [nd, hr, if_true, ct, hse', cconv, Bool.false_eq_true, if_false]
        rw [expand_c1 g.ex]; rfl
      · show OutRel (IR .chr .u8) _ _
        have hq := quiet_val D o V e hse
        simp only [val, hr]
        rcases Quiet.cases o1 hq with h | ⟨c, h, h'⟩ | ⟨_, v, h, h', ha, ha2, rfl⟩
        · simp only [h, bind_undef]; trivial
        · simp only [h, bind_trap, cval, h']; rfl
        · have hcmp := cmp_k (V := V) (q := .lt) rfl i1 ha2 (n := 256) (by decide) (p := fun a b => a < b) (fun _ _ _ => rfl) h'
          have h0 := hc hr hse v [] h
          rw [h, bind_ok, after_nil, cval, cval, hcmp, bind_ok, after_nil]
          simp only [tv_ne]
          unfold convV
          by_cases hv : v < 256
          · have hI : InTy .chr v := ⟨h0, hv⟩
            rw [if_pos hI, if_neg (by omega), h', bind_ok, after_nil, bind_ok, after_nil]
            rw [show xty D (.halt (-8) (k 0)) = .i32 from rfl, cnv_has (usual_has i1 i32_int ha2), cnv_has (u8_chr.2 hI)]
            exact .ok ⟨hI, u8_chr.2 hI, rfl⟩
          · rw [if_neg (fun hI : InTy .chr v => hv hI.2), if_pos hv]
            simp only [cval, bind_trap]; rfl
    | true =>
      have hse' : sideEff (nd D o e) = true := hse
      refine ⟨.cast .u8 (.fn2 .rf x (k 256)), mkChr ?_ rfl rfl rfl ?_⟩
      · simp only [nd, hr, if_true, ct, hse', cconv, Bool.false_eq_true, if_false]
        rw [expand_c1 g.ex]; rfl
      · show OutRel (IR .chr .u8) _ _
        simp only [val, hr, cval, k_val, bind_ok, after_nil, bind_assoc]
        refine o1.bind ?_
        rintro _ v ⟨ha, ha2, rfl⟩
        have h64 := i64_has i1 ha2
        simp only [CTy.has, CTy.sg, CTy.bits, if_true] at h64
        simp only [fn2V]
        rw [Arith.C02_rf_exact (by unfold Arith.InI64; omega) (by omega)]
        unfold convV
        by_cases hI : InTy .chr v
        · rw [if_pos hI, if_pos (show 0 ≤ v ∧ v < 256 from hI)]
          simp only [ofRes, bind_ok, after_nil]
          rw [cnv_has (u8_chr.2 hI)]
          exact .ok ⟨hI, u8_chr.2 hI, rfl⟩
        · rw [if_neg hI, if_neg (show ¬ (0 ≤ v ∧ v < 256) from hI)]; rfl

/-! ### DIV and MOD -/

theorem cfop_div (sm : Bool) (n : Nat) (kk : Option Int) (se seR : Bool) (a b : CE) : cfop .div sm n kk se seR a b =
    if se && sm then .cast "int" 0 (c2 (if se then "__DIVF" else "__DIV") a b) else c2 (if se then "__DIVF" else "__DIV") a b := by
  cases kk <;> rfl

theorem cfop_mod (sm : Bool) (n : Nat) (kk : Option Int) (se seR : Bool) (a b : CE) : cfop .mod sm n kk se seR a b =
    if sm then .cast "int" 0 (c2 (fopName .mod kk se seR) a b) else c2 (fopName .mod kk se seR) a b := by
  cases kk <;> rfl

theorem cval_cond (c a b : X) : cval D V (.cond c a b) = (cval D V c).bind fun v =>
    (if v = 0 then cval D V b else cval D V a).bind fun w => .ok (cnv (usual (xty D a) (xty D b)) w) [] := by
  rw [cval]

theorem cval_land (a b : X) : cval D V (.land a b) = (cval D V a).bind fun v => if v = 0 then .ok 0 [] else
      (cval D V b).bind fun w => .ok (tv (decide (w ≠ 0))) [] := by
  rw [cval]

theorem i64_I {v : Int} (h : CTy.i64.has v) : Arith.InI64 v := by
  simp only [CTy.has, CTy.sg, CTy.bits, if_true] at h; unfold Arith.InI64; omega

theorem sysDiv {a b : Int} (ha : CTy.i64.has a) (hb : CTy.i64.has b) (h0 : b ≠ 0) (hd : divOk a b) :
    fn2V .div a b = .ok (Int.fdiv a b) [] := by
  have := i64_I ha; have := i64_I hb
  have hk := (Arith.C01_div_partial (i64_I ha) (i64_I hb) h0 (by
    unfold Arith.DivOverflows; unfold divOk at hd; unfold Arith.InI64 at *; omega)).1
  simp only [fn2V, cnv_has ha, cnv_has hb, hk, ofOpt]

theorem sysMod {a b : Int} (ha : CTy.i64.has a) (hb : CTy.i64.has b) (h0 : b ≠ 0) (hd : divOk a b) :
    fn2V .mod a b = .ok (Int.fmod a b) [] := by
  have := i64_I ha; have := i64_I hb
  have hk := (Arith.C01_mod_partial (i64_I ha) (i64_I hb) h0 (by
    unfold Arith.ModOverflows; unfold divOk at hd; unfold Arith.InI64 at *; omega)).1
  simp only [fn2V, cnv_has ha, cnv_has hb, hk, ofOpt]

theorem i64_in {v : Int} (h : InTy (.int w) v) : CTy.i64.has v :=
  (show FitW w .i64 from .inr rfl).has rfl h

/-- A cast to `int` for numbers of at most 32 bits. -/
theorem cast32 {a : Out Int} {z : X} (hw : w.bits ≤ 32) (h : OutRel (IR (.int w) .i64) a (cval D V z)) :
    OutRel (IR (.int w) .i32) a (cval D V (.cast .i32 z)) := by
  have e1 : a.bind (fun v => Out.ok v []) = a := by cases a <;> simp [Out.bind, Out.after]
  rw [← e1, cval]
  refine h.bind ?_
  rintro _ v ⟨ha, ha2, rfl⟩
  have h1 : CTy.i32.has v := (show FitW w .i32 from .inl ⟨rfl, hw⟩).has rfl ha
  exact .ok ⟨ha, h1, cnv_has h1⟩

theorem usual_i64 {T : CTy} (h : IntT T) : usual T .i64 = .i64 := by
  cases T <;> revert h <;> unfold IntT <;> decide

/-- The macros `__DIV` and `__MOD`. -/
theorem divmod_pure {q : XOp} {f : Fn} (hq : q.isSh = false) (hf : f.ret = .i64) {g : Int → Int → Int}
    (gl : Good D o V l x) (gr : Good D o V r y) (tl : ty D l = .int w) (tr : ty D r = .int w)
    (hc : ¬ (isConst' l = true ∧ isConst' r = true)) (pl : calls D o l = false) (pr : calls D o r = false)
    (hd : Vals D o V l fun a => Vals D o V r fun b => divOk a b)
    (hs : ∀ a b, CTy.i64.has a → CTy.i64.has b → b ≠ 0 → divOk a b → fn2V f a b = .ok (g a b) [])
    (hp : ∀ T a b, FitW w T → prom T = T → 0 < a → 0 < b → InTy (.int w) a → InTy (.int w) b → InTy (.int w) (g a b) →
      binV q T a b = .ok (g a b) []) (hr : q.isRel = false) :
    xty D (.cond (.land (.bin .gt x (k 0)) (.bin .gt y (k 0))) (.bin q x y) (.fn2 f x y)) = .i64 ∧
    OutRel (IR (.int w) .i64)
      ((val D o V l).bind fun a => (val D o V r).bind fun b => if b = 0 then .undef else fit (.int w) (g a b))
      (cval D V (.cond (.land (.bin .gt x (k 0)) (.bin .gt y (k 0))) (.bin q x y) (.fn2 f x y))) := by
  obtain ⟨i1, f1, o1⟩ := gl.int tl
  obtain ⟨i2, f2, o2⟩ := gr.int tr
  have hF : FitW w (usual (xty D x) (xty D y)) := by
    by_cases h : isConst' l = true
    · exact .usual' i1 (f2 (by rw [← Bool.not_eq_true]; exact fun h' => hc ⟨h, h'⟩))
    · exact (f1 (by simpa using h)).usual i2
  have ht : usual (xty D (.bin q x y)) (xty D (.fn2 f x y)) = .i64 := by
    simp only [xty, hq, hr, Bool.false_eq_true, if_false, hf]
    exact usual_i64 (i1.usual i2)
  refine ⟨ht, ?_⟩
  rcases Quiet.cases o1 (quiet_val D o V l pl) with h | ⟨c, h, h'⟩ | ⟨_, a, h, h', ha, ha2, rfl⟩
  · simp only [h, bind_undef]; trivial
  · simp only [h, bind_trap, cval, h']; rfl
  have hca := cmp_k (V := V) (q := .gt) rfl i1 ha2 (n := 0) (by decide) (p := fun a b => a > b) (fun _ _ _ => rfl) h'
  have ht1 : ∀ (p : Prop) [Decidable p], (tv (decide p) = 0) = ¬ p := fun p _ => tv_ne p
  rcases Quiet.cases o2 (quiet_val D o V r pr) with hh | ⟨c, hh, hh'⟩ | ⟨_, b, hh, hh', hb, hb2, rfl⟩
  · simp only [h, hh, bind_undef, bind_ok, after_nil]; trivial
  · rw [cval_cond, cval_land, hca]
    simp only [h, hh, bind_ok, after_nil, bind_trap, ht1]
    by_cases h0 : a > 0
    · rw [if_neg (by omega)]; simp only [cval, hh', bind_trap]; rfl
    · rw [if_pos h0, bind_ok, after_nil, if_pos rfl]; simp only [cval, h', bind_ok, after_nil, hh', bind_trap]; rfl
  · have hcb := cmp_k (V := V) (q := .gt) rfl i2 hb2 (n := 0) (by decide) (p := fun a b => a > b) (fun _ _ _ => rfl) hh'
    have hk : cval D V (.land (.bin .gt x (k 0)) (.bin .gt y (k 0))) = .ok (tv (decide (a > 0 ∧ b > 0))) [] := by
      rw [cval_land, hca, hcb]
      simp only [bind_ok, after_nil, ht1]
      by_cases h0 : a > 0
      · rw [if_neg (by omega)]; by_cases h1 : b > 0 <;> simp [h0, h1, tv]
      · rw [if_pos h0]; simp [h0, tv]
    rw [cval_cond, hk, ht]
    simp only [h, hh, bind_ok, after_nil, ht1]
    by_cases h0 : b = 0
    · rw [if_pos h0]; trivial
    rw [if_neg h0]
    unfold fit
    by_cases hI : InTy (.int w) (g a b)
    · rw [if_pos hI]
      refine ⟨_, ?_, hI, i64_in hI, rfl⟩
      by_cases hpos : a > 0 ∧ b > 0
      · rw [if_neg (by omega)]
        simp only [cval, h', hh', bind_ok, after_nil]
        rw [binX_int hq i1 i2 ha2 hb2, hp _ _ _ hF (usual_prom _ _) hpos.1 hpos.2 ha hb hI, bind_ok, after_nil,
          cnv_has (i64_in hI)]
      · rw [if_pos hpos]
        simp only [cval, h', hh', bind_ok, after_nil]
        rw [hs a b (i64_in ha) (i64_in hb) h0 (hd a [] h b [] hh), bind_ok, after_nil, cnv_has (i64_in hI)]
    · rw [if_neg hI]; trivial

/-- `__DIVF` and `__MODF`. -/
theorem divmod_call {f : Fn} {g : Int → Int → Int}
    (gl : Good D o V l x) (gr : Good D o V r y) (tl : ty D l = .int w) (tr : ty D r = .int w)
    (hd : Vals D o V l fun a => Vals D o V r fun b => divOk a b)
    (hs : ∀ a b, CTy.i64.has a → CTy.i64.has b → b ≠ 0 → divOk a b → fn2V f a b = .ok (g a b) []) :
    OutRel (IR (.int w) .i64)
      ((val D o V l).bind fun a => (val D o V r).bind fun b => if b = 0 then .undef else fit (.int w) (g a b))
      (cval D V (.fn2 f x y)) := by
  obtain ⟨i1, f1, o1⟩ := gl.int tl
  obtain ⟨i2, f2, o2⟩ := gr.int tr
  simp only [cval]
  refine o1.bind' ?_
  rintro _ t a hv ⟨ha, ha2, rfl⟩
  refine o2.bind' ?_
  rintro _ u b hu ⟨hb, hb2, rfl⟩
  by_cases h0 : b = 0
  · rw [if_pos h0]; trivial
  rw [if_neg h0, hs a b (i64_in ha) (i64_in hb) h0 (hd a t hv b u hu)]
  unfold fit
  split
  · next hI => exact .ok ⟨hI, i64_in hI, rfl⟩
  · trivial

theorem fdiv_pos {a b : Int} (ha : 0 < a) (hb : 0 < b) : Int.tdiv a b = Int.fdiv a b := by
  rw [Int.tdiv_eq_ediv_of_nonneg (by omega), Int.fdiv_eq_ediv_of_nonneg _ (by omega)]

theorem fmod_pos {a b : Int} (ha : 0 < a) (hb : 0 < b) : Int.tmod a b = Int.fmod a b := by
  rw [Int.tmod_eq_emod_of_nonneg (by omega), Int.fmod_eq_emod_of_nonneg _ (by omega)]

theorem good_div (gl : Good D o V l x) (gr : Good D o V r y) (h : wt D (.div l r) = true) (hc : Calm D o V (.div l r)) :
    ∃ z, Good D o V (.div l r) z := by
  simp only [wt, Bool.and_eq_true, beq_iff_eq, Bool.not_eq_true', Bool.and_eq_false_iff] at h
  obtain ⟨⟨⟨⟨-, -⟩, h1⟩, h2⟩, h3⟩ := h
  obtain ⟨w, tl⟩ := isInt_ty h1
  have tr := h2.symm.trans tl
  have hcc : ¬ (isConst' l = true ∧ isConst' r = true) := by
    rintro ⟨a, b⟩; rcases h3 with h3 | h3 <;> simp_all
  simp only [Calm] at hc
  obtain ⟨-, -, hd⟩ := hc
  cases hse : calls D o l || calls D o r with
  | false =>
    obtain ⟨p1, p2⟩ := Bool.or_eq_false_iff.1 hse
    have hse' : (sideEff (nd D o l) || sideEff (nd D o r)) = false := hse
    obtain ⟨ht, ho⟩ := divmod_pure (q := .div) (f := .div) (g := Int.fdiv) rfl rfl gl gr tl tr hcc p1 p2 hd
      (fun a b => sysDiv) (by
        intro T a b hF hp ha hb _ _ hI
        simp only [binV]
        rw [if_neg (by omega), fdiv_pos ha hb, cfit_ok (hF.int.sg hp) (hF.has hp hI)]) rfl
    refine ⟨.cond (.land (.bin .gt x (k 0)) (.bin .gt y (k 0))) (.bin .div x y) (.fn2 .div x y), mkInt ?_ tl rfl ?_ ?_⟩
    · simp only [nd, ct, hse', cfop_div, Bool.false_eq_true, if_false, Bool.false_and]
      rw [expand_c2 gl.ex gr.ex]; rfl
    · rw [ht]; exact .inr rfl
    · rw [ht]; simpa only [val, tl] using ho
  | true =>
    have hse' : (sideEff (nd D o l) || sideEff (nd D o r)) = true := hse
    have ho := divmod_call (f := .div) (g := Int.fdiv) gl gr tl tr hd (fun a b => sysDiv)
    cases hsm : small D l with
    | false =>
      refine ⟨.fn2 .div x y, mkInt ?_ tl rfl (.inr rfl) ?_⟩
      · simp only [nd, ct, hse', cfop_div, Bool.false_eq_true, if_false, if_true, Bool.true_and, hsm]
        rw [expand_c2 gl.ex gr.ex]; rfl
      · show OutRel (IR (.int w) .i64) _ _
        simpa only [val, tl] using ho
    | true =>
      have hw : w.bits ≤ 32 := by simpa [small, tl, Ty.bits] using hsm
      refine ⟨.cast .i32 (.fn2 .div x y), mkInt ?_ tl rfl (.inl ⟨rfl, hw⟩) ?_⟩
      · simp only [nd, ct, hse', cfop_div, if_true, Bool.true_and, hsm]
        exact expand_int (by rw [expand_c2 gl.ex gr.ex]; rfl)
      · show OutRel (IR (.int w) .i32) _ _
        simp only [val, tl]
        exact cast32 hw ho

theorem good_mod (gl : Good D o V l x) (gr : Good D o V r y) (h : wt D (.mod l r) = true) (hc : Calm D o V (.mod l r)) :
    ∃ z, Good D o V (.mod l r) z := by
  simp only [wt, Bool.and_eq_true, beq_iff_eq, Bool.not_eq_true', Bool.and_eq_false_iff] at h
  obtain ⟨⟨⟨⟨-, -⟩, h1⟩, h2⟩, h3⟩ := h
  obtain ⟨w, tl⟩ := isInt_ty h1
  have tr := h2.symm.trans tl
  have hcc : ¬ (isConst' l = true ∧ isConst' r = true) := by
    rintro ⟨a, b⟩; rcases h3 with h3 | h3 <;> simp_all
  simp only [Calm] at hc
  obtain ⟨-, -, hd⟩ := hc
  -- the macro
  obtain ⟨z, hz, hzt, ho⟩ : ∃ z, expand (c2 (fopName .mod (constOf (nd D o r)) (sideEff (nd D o l) || sideEff (nd D o r))
      (sideEff (nd D o r))) (ct (nd D o l)) (ct (nd D o r))) = some z ∧ xty D z = .i64 ∧
      OutRel (IR (.int w) .i64)
      ((val D o V l).bind fun a => (val D o V r).bind fun b => if b = 0 then .undef else fit (.int w) (Int.fmod a b))
      (cval D V z) := by
    cases hse : calls D o l || calls D o r with
    | false =>
      obtain ⟨p1, p2⟩ := Bool.or_eq_false_iff.1 hse
      have hse' : (sideEff (nd D o l) || sideEff (nd D o r)) = false := hse
      obtain ⟨ht, ho⟩ := divmod_pure (q := .rem) (f := .mod) (g := Int.fmod) rfl rfl gl gr tl tr hcc p1 p2 hd
        (fun a b => sysMod) (by
          intro T a b hF hp ha hb h1 h2 hI
          simp only [binV]
          have h3 : InTy (.int w) (Int.tdiv a b) := by
            have h4 : Int.tdiv a b ≤ a := by
              rw [Int.tdiv_eq_ediv_of_nonneg (by omega)]; exact Int.ediv_le_self b (by omega)
            have h5 : 0 ≤ Int.tdiv a b := by
              rw [Int.tdiv_eq_ediv_of_nonneg (by omega)]; exact Int.ediv_nonneg (by omega) (by omega)
            unfold InTy at h1 ⊢
            have : (0 : Int) ≤ 2 ^ (w.bits - 1) := by positivity
            simp only at h1 ⊢
            omega
          rw [if_neg (by omega), if_pos (hF.has hp h3), fmod_pos ha hb]) rfl
      refine ⟨_, ?_, ht, ho⟩
      rw [hse']; simp only [fopName, Bool.false_eq_true, if_false]
      rw [expand_c2 gl.ex gr.ex]; rfl
    | true =>
      have hse' : (sideEff (nd D o l) || sideEff (nd D o r)) = true := hse
      refine ⟨.fn2 .mod x y, ?_, rfl, divmod_call (f := .mod) (g := Int.fmod) gl gr tl tr hd (fun a b => sysMod)⟩
      rw [hse']; simp only [fopName, if_true]
      rw [expand_c2 gl.ex gr.ex]; rfl
  cases hsm : small D l with
  | false =>
    refine ⟨z, mkInt ?_ tl rfl (by rw [hzt]; exact .inr rfl) ?_⟩
    · simp only [nd, ct, cfop_mod, hsm, Bool.false_eq_true, if_false]; exact hz
    · rw [hzt]; simpa only [val, tl] using ho
  | true =>
    have hw : w.bits ≤ 32 := by simpa [small, tl, Ty.bits] using hsm
    refine ⟨.cast .i32 z, mkInt ?_ tl rfl (.inl ⟨rfl, hw⟩) ?_⟩
    · simp only [nd, ct, cfop_mod, if_true, hsm]
      exact expand_int hz
    · show OutRel (IR (.int w) .i32) _ _
      simp only [val, tl]
      exact cast32 hw ho

end
end Verif.Eval
