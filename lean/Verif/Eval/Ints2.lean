import Verif.Eval.Ints

/-!
Whole numbers: conversions, division, shifts.
-/
namespace Verif.Eval
open Verif.Expr

section
variable {D : Decl} {o : Opt} {V : Env} {e l r : E} {x y : X} {w : W}

theorem tv_in (b : Bool) : InTy .bool (tv b) := by cases b <;> simp [tv, InTy]

theorem i32_tv (b : Bool) : CTy.i32.has (tv b) := by cases b <;> decide

theorem good_not (g : Good D o V e x) (h : wt D (.not e) = true) : ∃ z, Good D o V (.not e) z := by
  simp only [wt, Bool.and_eq_true, beq_iff_eq] at h
  obtain ⟨-, h1⟩ := h
  obtain ⟨i1, o1⟩ := g.small h1 (.inr rfl)
  refine ⟨.lnot x, mkBool (by simp [nd, ct, expand, g.ex, xun]) rfl rfl i32_int ?_⟩
  simp only [val, cval]
  refine o1.bind ?_
  rintro _ a ⟨ha, ha2, rfl⟩
  rcases ha with rfl | rfl
  · exact .ok ⟨.inr rfl, by simp only [xty]; decide, by decide⟩
  · exact .ok ⟨.inl rfl, by simp only [xty]; decide, by decide⟩

theorem and_one (n : Nat) (hn : 0 < n) (v : Int) : ((v % 2 ^ n).toNat &&& ((1 : Int) % 2 ^ n).toNat : Nat) = (v % 2).toNat := by
  have h1 : ((1 : Int) % 2 ^ n).toNat = 1 := by
    have : (2 : Int) ^ 1 ≤ 2 ^ n := pow_le_pow_right₀ (by omega) hn
    rw [Int.emod_eq_of_lt (by omega) (by omega)]; rfl
  rw [h1, Nat.and_one_is_mod]
  have h2 : ((v % 2 ^ n).toNat : Int) = v % 2 ^ n := bits_cast n v
  have h3 : (v % 2 ^ n) % 2 = v % 2 := Int.emod_emod_of_dvd v (dvd_pow_self 2 (by omega))
  omega

theorem bits_pos (t : CTy) : 8 ≤ t.bits := by cases t <;> decide

theorem good_odd (g : Good D o V e x) (h : wt D (.odd e) = true) : ∃ z, Good D o V (.odd e) z := by
  simp only [wt, Bool.and_eq_true] at h
  obtain ⟨-, h1⟩ := h
  obtain ⟨w, tl⟩ := isInt_ty h1
  obtain ⟨i1, -, o1⟩ := g.int tl
  refine ⟨.bin .and x (k 1), mkBool (by simp only [nd, ct]; rw [expand_c1 g.ex]; rfl) rfl rfl (i1.usual i32_int) ?_⟩
  show OutRel (IR .bool (usual (xty D x) .i32)) _ _
  simp only [val, cval]
  refine o1.bind ?_
  rintro _ a ⟨ha, ha2, rfl⟩
  have hT := i1.usual i32_int
  have hp := bits_pos (usual (xty D x) .i32)
  simp only [k_val, bind_ok, after_nil, k_ty, binX_int (o := .and) rfl i1 i32_int ha2 (show CTy.i32.has 1 by decide), binV, cbits]
  rw [and_one _ (by omega)]
  have h2 : InTy .bool (a % 2) := by unfold InTy; omega
  have h3 : (usual (xty D x) .i32).has (a % 2) := by
    apply usual_has' i1 i32_int
    unfold InTy at h2
    rcases h2 with h2 | h2 <;> rw [h2] <;> decide
  have h4 : ((a % 2).toNat : Int) = a % 2 := by omega
  rw [h4, cnv_has h3]
  exact .ok ⟨h2, h3, rfl⟩

theorem good_cap (g : Good D o V e x) (h : wt D (.cap e) = true) : ∃ z, Good D o V (.cap e) z := by
  simp only [wt, Bool.and_eq_true, beq_iff_eq] at h
  obtain ⟨-, h1⟩ := h
  obtain ⟨i1, o1⟩ := g.small h1 (.inl rfl)
  have hp := g.chr h1
  refine ⟨.cast .u8 (.bin .and x (k 0x5f)), mkChr (by simp only [nd, ct]; rw [expand_c1 g.ex]; rfl) rfl rfl rfl ?_⟩
  show OutRel (IR .chr .u8) _ _
  simp only [val, cval, bind_assoc]
  refine o1.bind ?_
  rintro _ a ⟨ha, ha2, rfl⟩
  have hu : usual (xty D x) .i32 = .i32 := by
    revert hp; generalize xty D x = T; cases T <;> decide
  simp only [k_val, bind_ok, after_nil, k_ty, binX_int (o := .and) rfl i1 i32_int ha2 (show CTy.i32.has 0x5f by decide), binV,
    cbits, hu, CTy.bits]
  unfold InTy at ha
  have e1 : a % 2 ^ 32 = a := Int.emod_eq_of_lt ha.1 (by omega)
  have e2 : ((0x5f : Int) % 2 ^ 32).toNat = 0x5f := by decide
  rw [e1, e2]
  have hb : a.toNat &&& 0x5f ≤ 0x5f := Nat.and_le_right
  have h3 : CTy.i32.has ((a.toNat &&& 0x5f : Nat) : Int) := by simp only [CTy.has, CTy.sg, CTy.bits, if_true]; omega
  have h4 : CTy.u8.has ((a.toNat &&& 0x5f : Nat) : Int) := by
    simp only [CTy.has, CTy.sg, CTy.bits, Bool.false_eq_true, if_false]; omega
  rw [cnv_has h3, cnv_has h4]
  exact .ok ⟨by unfold InTy capV; omega, h4, rfl⟩

/-! ### Conversions -/

/-- An operand of a conversion. -/
theorem Good.num (g : Good D o V e x) (h : isIntTy (ty D e) = true ∨ ty D e = .chr) :
    IntT (xty D x) ∧ OutRel (IR (ty D e) (xty D x)) (val D o V e) (cval D V x) := by
  rcases h with h | h
  · obtain ⟨w, tl⟩ := isInt_ty h
    obtain ⟨i1, -, o1⟩ := g.int tl
    rw [tl]; exact ⟨i1, o1⟩
  · rw [h]; exact g.small h (.inl rfl)

theorem bits_inj {a b : W} (h : a.bits = b.bits) : a = b := by cases a <;> cases b <;> simp_all [W.bits]

theorem tyName_w (w : W) : tyName w.cname = some (cty (.int w)) := by cases w <;> rfl

theorem has_w {v : Int} : (cty (.int w)).has v ↔ InTy (.int w) v := by cases w <;> exact Iff.rfl

theorem fit_w : FitW w (cty (.int w)) := by cases w <;> unfold FitW <;> decide

/-- `__SHORT`. -/
theorem short_eq {v : Int} {ub : Nat} (hub : ub = 2 ^ 7 ∨ ub = 2 ^ 15 ∨ ub = 2 ^ 31) (hi : IntT (xty D x))
    (hv : (xty D x).has v) (hx : cval D V x = .ok v []) :
    cval D V (.cast .i32 (.cond (.bin .lt (.bin .add (.cast .u64 x) (.num (decTy ub) ub))
      (.bin .add (.num (decTy ub) ub) (.num (decTy ub) ub))) x (.halt (-8) (k 0)))) =
      if -(ub : Int) ≤ v ∧ v < ub then .ok v [] else .trap (-8) [] := by
  have h64 := i64_has hi hv
  simp only [CTy.has, CTy.sg, CTy.bits, if_true] at h64
  have hc : cval D V (.bin .lt (.bin .add (.cast .u64 x) (.num (decTy ub) ub)) (.bin .add (.num (decTy ub) ub)
      (.num (decTy ub) ub))) = .ok (tv (decide (-(ub : Int) ≤ v ∧ v < ub))) [] := by
    simp only [cval, hx, bind_ok, after_nil, xty, XOp.isRel, XOp.isSh, binX, Bool.false_eq_true, if_false, binV]
    have e : ∀ T, T = CTy.i32 ∨ T = .i64 → usual .u64 T = .u64 ∧ usual T T = T ∧ T.sg = true := by
      rintro T (rfl | rfl) <;> decide
    have hT : decTy ub = .i32 ∨ decTy ub = .i64 := by unfold decTy; split <;> simp
    obtain ⟨e1, e2, e3⟩ := e _ hT
    have h2 : (decTy ub).has ub ∧ (decTy ub).has (ub + ub) := by
      rcases hub with rfl | rfl | rfl <;> decide
    have cu : ∀ v, cfit .u64 v = .ok (v % 2 ^ 64) [] := fun _ => rfl
    simp only [e1, e2, cnv_has h2.1, cfit_ok e3 h2.2, cu, bind_ok, after_nil]
    congr 2
    simp only [decide_eq_decide, cnv, CTy.sg, CTy.bits, Bool.false_eq_true, if_false]
    rcases hub with rfl | rfl | rfl <;> norm_num <;> omega
  rw [cval, cval, hc, bind_ok, after_nil]
  simp only [tv_ne]
  by_cases hr : -(ub : Int) ≤ v ∧ v < ub
  · rw [if_neg (by simpa using hr), if_pos hr, hx, bind_ok, after_nil, bind_ok, after_nil]
    have h3 : CTy.i32.has v := by
      simp only [CTy.has, CTy.sg, CTy.bits, if_true]
      rcases hub with rfl | rfl | rfl <;> norm_num at hr ⊢ <;> omega
    have : xty D (.halt (-8) (k 0)) = .i32 := rfl
    rw [this, cnv_has (usual_has hi i32_int hv), cnv_has h3]
  · rw [if_pos hr, if_neg hr]
    simp only [cval, bind_trap]

/-- `__SHORTF`. -/
theorem shortF_eq {v : Int} {ub : Nat} (hub : ub = 2 ^ 7 ∨ ub = 2 ^ 15 ∨ ub = 2 ^ 31) (hi : IntT (xty D x))
    (hv : (xty D x).has v) (hs : (usual (xty D x) (decTy ub)).has (v + ub)) :
    (((binX .add (xty D x) (decTy ub) v ub).bind fun a => (binX .add (decTy ub) (decTy ub) ub ub).bind fun b =>
      fn2V .rf a b).bind fun a => (binX .sub .i64 (decTy ub) a ub).bind fun b => .ok (cnv .i32 b) []) =
      if -(ub : Int) ≤ v ∧ v < ub then .ok v [] else .trap (-8) [] := by
  have h64 := i64_has hi hv
  simp only [CTy.has, CTy.sg, CTy.bits, if_true] at h64
  have e : ∀ T, T = CTy.i32 ∨ T = .i64 → usual T T = T ∧ T.sg = true ∧ usual .i64 T = .i64 := by
    rintro T (rfl | rfl) <;> decide
  have hT : decTy ub = .i32 ∨ decTy ub = .i64 := by unfold decTy; split <;> simp
  obtain ⟨e2, e3, e4⟩ := e _ hT
  have h2 : (decTy ub).has ub ∧ (decTy ub).has (ub + ub) := by
    rcases hub with rfl | rfl | rfl <;> decide
  have hd := decTy_int ub
  rw [binX_int rfl hi hd hv h2.1, binX_int rfl hd hd h2.1 h2.1]
  simp only [binV, e2]
  rw [cfit_ok ((hi.usual hd).sg (usual_prom _ _)) hs, cfit_ok e3 h2.2]
  have hs64 := i64_has (hi.usual hd) hs
  simp only [CTy.has, CTy.sg, CTy.bits, if_true] at hs64
  simp only [bind_ok, after_nil, fn2V]
  rw [Arith.C02_rf_exact (by unfold Arith.InI64; omega) (by rcases hub with rfl | rfl | rfl <;> norm_num)]
  by_cases hr : -(ub : Int) ≤ v ∧ v < ub
  · rw [if_pos hr, if_pos (by omega)]
    simp only [ofRes, bind_ok, after_nil]
    have h5 : CTy.i64.has (v + ub) := by simp only [CTy.has, CTy.sg, CTy.bits, if_true]; omega
    have h6 : CTy.i64.has ub := i64_has hd h2.1
    have h7 : CTy.i64.has (v + ub - ub) := by simp only [CTy.has, CTy.sg, CTy.bits, if_true]; omega
    have h8 : CTy.i32.has v := by
      simp only [CTy.has, CTy.sg, CTy.bits, if_true]
      rcases hub with rfl | rfl | rfl <;> norm_num at hr ⊢ <;> omega
    rw [binX_int rfl i64_int hd h5 h2.1, e4]
    simp only [binV, cfit_ok (show CTy.i64.sg = true from rfl) h7, bind_ok, after_nil]
    rw [show v + (ub : Int) - ub = v by omega, cnv_has h8]
  · rw [if_neg hr, if_neg (by omega)]
    rfl

theorem good_conv (g : Good D o V e x) (h : wt D (.conv w e) = true) (hc : Calm D o V (.conv w e)) :
    ∃ z, Good D o V (.conv w e) z := by
  simp only [wt, Bool.and_eq_true, Bool.or_eq_true, beq_iff_eq, Bool.not_eq_true', decide_eq_true_eq] at h
  obtain ⟨⟨-, hn⟩, h1⟩ := h
  obtain ⟨i1, o1⟩ := g.num (h1.imp id And.left)
  simp only [Calm] at hc
  obtain ⟨-, hc⟩ := hc
  by_cases hs : w.bits < (ty D e).bits ∧ o.ran = true
  · -- with a check
    obtain ⟨w', tl⟩ : ∃ w', ty D e = .int w' := by
      rcases h1 with h1 | ⟨h1, h2⟩
      · exact isInt_ty h1
      · rw [h1] at hs; simp only [Ty.bits] at hs; omega
    have f1 := (g.int tl).2.1 hn
    rw [tl] at hs o1
    simp only [Ty.bits] at hs
    obtain ⟨ub, hu⟩ : ∃ ub, ub = 2 ^ (w.bits - 1) := ⟨_, rfl⟩
    have hub : ub = 2 ^ 7 ∨ ub = 2 ^ 15 ∨ ub = 2 ^ 31 := by
      subst hu; cases w <;> cases w' <;> simp_all [W.bits]
    have hrange : ∀ v : Int, InTy (.int w) v ↔ -(ub : Int) ≤ v ∧ v < ub := by
      intro v; subst hu; simp only [InTy]; push_cast; rfl
    have hfw : FitW w .i32 := .inl ⟨rfl, by cases w <;> cases w' <;> simp_all [W.bits]⟩
    have hnd : nd D o (.conv w e) = .conv (.short ub) false (nd D o e) := by
      simp [nd, sizeCast, tl, Ty.bits, hs.1, hs.2, hu]
    have hval : val D o V (.conv w e) = (val D o V e).bind (convV true (.int w)) := by
      simp [val, tl, Ty.bits, hs.1, hs.2]
    cases hse : calls D o e with
    | false =>
      have hse' : sideEff (nd D o e) = false := hse
      refine ⟨.cast .i32 (.cond (.bin .lt (.bin .add (.cast .u64 x) (.num (decTy ub) ub))
        (.bin .add (.num (decTy ub) ub) (.num (decTy ub) ub))) x (.halt (-8) (k 0))), mkInt ?_ rfl rfl hfw ?_⟩
      · rw [hnd]
        simp only [ct, hse', cconv, Bool.false_eq_true, if_false]
        rw [expand_c2 g.ex (num_lit ub)]; rfl
      · rw [hval]
        show OutRel (IR (.int w) .i32) _ _
        rcases Quiet.cases o1 (quiet_val D o V e hse) with h | ⟨c, h, h'⟩ | ⟨_, v, h, h', ha, ha2, rfl⟩
        · simp only [h, bind_undef]; trivial
        · simp only [h, bind_trap, cval, h']; rfl
        · rw [h, bind_ok, after_nil, short_eq hub i1 ha2 h']
          unfold convV
          by_cases hr : -(ub : Int) ≤ v ∧ v < ub
          · rw [if_pos ((hrange v).2 hr), if_pos hr]
            exact .ok ⟨(hrange v).2 hr, hfw.has rfl ((hrange v).2 hr), rfl⟩
          · rw [if_neg (fun h => hr ((hrange v).1 h)), if_neg hr, if_pos rfl]; rfl
    | true =>
      have hse' : sideEff (nd D o e) = true := hse
      refine ⟨.cast .i32 (.bin .sub (.fn2 .rf (.bin .add x (.num (decTy ub) ub))
        (.bin .add (.num (decTy ub) ub) (.num (decTy ub) ub))) (.num (decTy ub) ub)), mkInt ?_ rfl rfl hfw ?_⟩
      · rw [hnd]
        simp only [ct, hse', cconv, Bool.false_eq_true, if_false, if_true]
        rw [expand_c2 g.ex (num_lit ub)]; rfl
      · rw [hval]
        show OutRel (IR (.int w) .i32) _ _
        simp only [cval, bind_ok, after_nil, xty, bind_assoc]
        refine o1.bind' ?_
        rintro _ t v hv ⟨ha, ha2, rfl⟩
        have hsum := hc hs.2 (by rw [tl]; exact hs.1) hse v t hv
        rw [tl] at hsum
        simp only [Ty.bits] at hsum
        have hs : (usual (xty D x) (decTy ub)).has (v + ub) := by
          have hu' : (ub : Int) = 2 ^ (w.bits - 1) := by subst hu; push_cast; rfl
          rw [← hu'] at hsum
          have hF := f1.usual (decTy_int ub)
          have hp := usual_prom (xty D x) (decTy ub)
          generalize usual (xty D x) (decTy ub) = U at hF hp
          have hpos : (0 : Int) ≤ ub := by omega
          rcases hF with ⟨h1, h2⟩ | h1 <;> rw [hp] at h1 <;> subst h1 <;> simp only [CTy.has, CTy.sg, CTy.bits, if_true]
          · cases w' <;> simp [InTy, W.bits] at ha h2 hsum ⊢ <;> omega
          · cases w' <;> simp [InTy, W.bits] at ha hsum ⊢ <;> omega
        have hk := shortF_eq (D := D) hub i1 ha2 hs
        simp only [bind_assoc] at hk
        simp only [Fn.ret, hk]
        unfold convV
        by_cases hr : -(ub : Int) ≤ v ∧ v < ub
        · rw [if_pos ((hrange v).2 hr), if_pos hr]
          exact .ok ⟨(hrange v).2 hr, hfw.has rfl ((hrange v).2 hr), rfl⟩
        · rw [if_neg (fun h => hr ((hrange v).1 h)), if_neg hr, if_pos rfl]; rfl
  · -- without a check
    have hval : val D o V (.conv w e) = (val D o V e).bind (convV false (.int w)) := by
      have : (o.ran && decide (w.bits < (ty D e).bits)) = false := by
        rw [← Bool.not_eq_true, Bool.and_eq_true, decide_eq_true_eq]
        exact fun h => hs ⟨h.2, h.1⟩
      simp only [val, this]
    have hs' : (decide (w.bits < (ty D e).bits) && o.ran) = false := by
      rw [← Bool.not_eq_true, Bool.and_eq_true, decide_eq_true_eq]; exact hs
    by_cases hk : (ty D e).bits ≠ w.bits ∧ ((ty D e).bits > 32 ∨ w.bits ≠ 32)
    · refine ⟨.cast (cty (.int w)) x, mkInt ?_ rfl rfl fit_w ?_⟩
      · simp only [nd, sizeCast, hs', Bool.false_eq_true, if_false, if_pos hk, ct, cconv, expand, g.ex, Option.bind_some, xcast,
          if_true, tyName_w]
      · rw [hval]
        show OutRel (IR (.int w) (cty (.int w))) _ _
        simp only [cval]
        refine o1.bind ?_
        rintro _ v ⟨ha, ha2, rfl⟩
        unfold convV
        split
        · next h => exact .ok ⟨h, has_w.2 h, cnv_has (has_w.2 h)⟩
        · trivial
    · refine ⟨x, mkInt ?_ rfl rfl ?_ ?_⟩
      · simp only [nd, sizeCast, hs', Bool.false_eq_true, if_false, if_neg hk, ct, cconv]; exact g.ex
      · rcases h1 with h1 | ⟨h1, h2⟩
        · obtain ⟨w', tl⟩ := isInt_ty h1
          have f1 := (g.int tl).2.1 hn
          rw [tl] at hk
          simp only [Ty.bits] at hk
          by_cases he : w'.bits = w.bits
          · rw [← bits_inj he]; exact f1
          · rcases f1 with ⟨f1, -⟩ | f1
            · exact .inl ⟨f1, by by_contra; apply hk; refine ⟨he, .inr (by omega)⟩⟩
            · exact .inr f1
        · have hp := g.chr h1
          rw [h1] at hk
          simp only [Ty.bits] at hk
          exact .inl ⟨hp, by by_contra; apply hk; refine ⟨by omega, .inr (by omega)⟩⟩
      · rw [hval]
        have e1 : ∀ y : Out Int, y.bind (fun v => Out.ok v []) = y := by
          intro y; cases y <;> simp [Out.bind, Out.after]
        rw [← e1 (cval D V x)]
        refine o1.bind ?_
        rintro _ v ⟨ha, ha2, rfl⟩
        unfold convV
        split
        · next h => exact .ok ⟨h, ha2, rfl⟩
        · trivial

end
end Verif.Eval
