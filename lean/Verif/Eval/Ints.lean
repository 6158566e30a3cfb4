import Verif.Eval.Base

/-!
Whole numbers.
-/
namespace Verif.Eval
open Verif.Expr

theorem OutRel.mono {α β : Type} {R S : α → β → Prop} {x : Out α} {y : Out β} (h : OutRel R x y) (hs : ∀ v w, R v w → S v w) :
    OutRel S x y := by
  cases x with
  | undef => trivial
  | trap c t => exact h
  | ok v t => obtain ⟨w, rfl, hw⟩ := h; exact ⟨w, rfl, hs _ _ hw⟩

/-- A value of an Oberon type and a C type. -/
def IR (t : Ty) (T : CTy) (v c : Int) : Prop := InTy t v ∧ T.has v ∧ c = v

section
variable {D : Decl} {o : Opt} {V : Env} {e l r : E} {x y : X} {w : W}

theorem Good.int (g : Good D o V e x) (ht : ty D e = .int w) :
    IntT (xty D x) ∧ (isConst' e = false → FitW w (xty D x)) ∧
      OutRel (IR (.int w) (xty D x)) (val D o V e) (cval D V x) := by
  have h1 := g.fits
  unfold Fits at h1
  rw [ht] at h1
  refine ⟨h1.1, h1.2, g.out.mono ?_⟩
  intro v c h
  unfold ValR at h
  rw [ht] at h
  obtain ⟨a, b, rfl⟩ := h
  exact ⟨a, b, rfl⟩

/-- What is true of characters and truth values. -/
theorem Good.small (g : Good D o V e x) {t : Ty} (ht : ty D e = t) (h2 : t = .chr ∨ t = .bool) :
    IntT (xty D x) ∧ OutRel (IR t (xty D x)) (val D o V e) (cval D V x) := by
  have h1 := g.fits
  unfold Fits at h1
  rw [ht] at h1
  refine ⟨by rcases h2 with rfl | rfl; exacts [.inl h1, h1], g.out.mono ?_⟩
  intro v c h
  unfold ValR at h
  rw [ht] at h
  rcases h2 with rfl | rfl <;> exact ⟨h.1, by have := h.2.1; have e := h.2.2; simp only at e; rwa [e] at this, h.2.2⟩

theorem Good.chr (g : Good D o V e x) (ht : ty D e = .chr) : prom (xty D x) = .i32 := by
  have h1 := g.fits
  unfold Fits at h1
  rwa [ht] at h1

theorem isVarE_des (h : isVarE e = true) : isDesE e = true := by
  cases e <;> simp_all [isVarE, isDesE]

theorem mkInt (hex : expand (ct (nd D o e)) = some x) (ht : ty D e = .int w) (hd : isDesE e = false) (hf : FitW w (xty D x))
    (ho : OutRel (IR (.int w) (xty D x)) (val D o V e) (cval D V x)) : Good D o V e x := by
  refine ⟨hex, ?_, ho.mono ?_, ?_, ?_⟩
  · unfold Fits; rw [ht]; exact ⟨hf.int, fun _ => hf⟩
  · rintro v c ⟨a, b, rfl⟩
    unfold ValR; rw [ht]; exact ⟨a, b, rfl⟩
  · intro h; rw [hd] at h; exact absurd h (by simp)
  · intro h; rw [isVarE_des h] at hd; exact absurd hd (by simp)

theorem mkBool (hex : expand (ct (nd D o e)) = some x) (ht : ty D e = .bool) (hd : isDesE e = false) (hf : IntT (xty D x))
    (ho : OutRel (IR .bool (xty D x)) (val D o V e) (cval D V x)) : Good D o V e x := by
  refine ⟨hex, ?_, ho.mono ?_, ?_, ?_⟩
  · unfold Fits; rw [ht]; exact hf
  · rintro v c ⟨a, b, rfl⟩
    unfold ValR; rw [ht]; exact ⟨a, b, rfl⟩
  · intro h; rw [hd] at h; exact absurd h (by simp)
  · intro h; rw [isVarE_des h] at hd; exact absurd hd (by simp)

theorem mkChr (hex : expand (ct (nd D o e)) = some x) (ht : ty D e = .chr) (hd : isDesE e = false)
    (hf : prom (xty D x) = .i32) (ho : OutRel (IR .chr (xty D x)) (val D o V e) (cval D V x)) : Good D o V e x := by
  refine ⟨hex, ?_, ho.mono ?_, ?_, ?_⟩
  · unfold Fits; rw [ht]; exact hf
  · rintro v c ⟨a, b, rfl⟩
    unfold ValR; rw [ht]; exact ⟨a, b, rfl⟩
  · intro h; rw [hd] at h; exact absurd h (by simp)
  · intro h; rw [isVarE_des h] at hd; exact absurd hd (by simp)

theorem isInt_ty {t : Ty} (h : isIntTy t = true) : ∃ w, t = .int w := by
  cases t <;> simp_all [isIntTy]

theorem fit_rel {T : CTy} (hf : FitW w T) (hp : prom T = T) (r : Int) : OutRel (IR (.int w) T) (fit (.int w) r) (cfit T r) := by
  unfold fit
  split
  · next h =>
    have h1 := hf.has hp h
    rw [cfit_ok (hf.int.sg hp) h1]
    exact .ok ⟨h, h1, rfl⟩
  · trivial

/-- An outcome without calls. -/
theorem Quiet.cases {R : Int → Int → Prop} {a b : Out Int} (h : OutRel R a b) (hq : Quiet a) :
    a = .undef ∨ (∃ c, a = .trap c [] ∧ b = .trap c []) ∨ ∃ v c, a = .ok v [] ∧ b = .ok c [] ∧ R v c := by
  cases a with
  | undef => exact .inl rfl
  | trap c t => cases hq; exact .inr (.inl ⟨c, rfl, h⟩)
  | ok v t => cases hq; obtain ⟨c, h1, h2⟩ := h; exact .inr (.inr ⟨v, c, rfl, h1, h2⟩)

/-! ### Operators -/

theorem binop_int {q : XOp} (hq : q.isSh = false) (hr : q.isRel = false) {f : Int → Int → Int}
    (hf : ∀ T a b, binV q T a b = cfit T (f a b)) (gl : Good D o V l x) (gr : Good D o V r y) (tl : ty D l = .int w)
    (tr : ty D r = .int w) (hc : ¬ (isConst' l = true ∧ isConst' r = true)) :
    FitW w (xty D (.bin q x y)) ∧ OutRel (IR (.int w) (xty D (.bin q x y)))
      ((val D o V l).bind fun a => (val D o V r).bind fun b => fit (.int w) (f a b)) (cval D V (.bin q x y)) := by
  obtain ⟨i1, f1, o1⟩ := gl.int tl
  obtain ⟨i2, f2, o2⟩ := gr.int tr
  have hF : FitW w (usual (xty D x) (xty D y)) := by
    by_cases h : isConst' l = true
    · exact .usual' i1 (f2 (by rw [← Bool.not_eq_true]; exact fun h' => hc ⟨h, h'⟩))
    · exact (f1 (by simpa using h)).usual i2
  have e : xty D (.bin q x y) = usual (xty D x) (xty D y) := by simp [xty, hq, hr]
  rw [e]
  refine ⟨hF, ?_⟩
  simp only [cval]
  refine o1.bind ?_
  rintro _ a ⟨ha, ha2, rfl⟩
  refine o2.bind ?_
  rintro _ b ⟨hb, hb2, rfl⟩
  rw [binX_int hq i1 i2 ha2 hb2, hf]
  exact fit_rel hF (usual_prom _ _) _

theorem good_arith {q : AOp} (gl : Good D o V l x) (gr : Good D o V r y) (h : wt D (.arith q l r) = true) :
    ∃ z, Good D o V (.arith q l r) z := by
  simp only [wt, Bool.and_eq_true, beq_iff_eq, Bool.not_eq_true', Bool.and_eq_false_iff] at h
  obtain ⟨⟨⟨⟨-, -⟩, h1⟩, h2⟩, h3⟩ := h
  obtain ⟨w, tl⟩ := isInt_ty h1
  have tr := h2.symm.trans tl
  have hc : ¬ (isConst' l = true ∧ isConst' r = true) := by
    rintro ⟨a, b⟩; rcases h3 with h3 | h3 <;> simp_all
  cases q with
  | add =>
    obtain ⟨a, b⟩ := binop_int (q := .add) (f := fun a b => a + b) rfl rfl (fun _ _ _ => rfl) gl gr tl tr hc
    exact ⟨.bin .add x y, mkInt (by simp [nd, ct, cbop, expand, gl.ex, gr.ex, xbin, xop]) tl rfl a (by
      simpa only [val, arithV, tl] using b)⟩
  | sub =>
    obtain ⟨a, b⟩ := binop_int (q := .sub) (f := fun a b => a - b) rfl rfl (fun _ _ _ => rfl) gl gr tl tr hc
    exact ⟨.bin .sub x y, mkInt (by simp [nd, ct, cbop, expand, gl.ex, gr.ex, xbin, xop]) tl rfl a (by
      simpa only [val, arithV, tl] using b)⟩
  | mul =>
    obtain ⟨a, b⟩ := binop_int (q := .mul) (f := fun a b => a * b) rfl rfl (fun _ _ _ => rfl) gl gr tl tr hc
    exact ⟨.bin .mul x y, mkInt (by simp [nd, ct, cbop, expand, gl.ex, gr.ex, xbin, xop]) tl rfl a (by
      simpa only [val, arithV, tl] using b)⟩

theorem good_neg (g : Good D o V e x) (h : wt D (.neg e) = true) : ∃ z, Good D o V (.neg e) z := by
  simp only [wt, Bool.and_eq_true, Bool.not_eq_true'] at h
  obtain ⟨⟨-, h1⟩, h2⟩ := h
  obtain ⟨w, tl⟩ := isInt_ty h1
  obtain ⟨i1, f1, o1⟩ := g.int tl
  refine ⟨.neg x, mkInt (by simp [nd, ct, expand, g.ex, xun]) tl rfl (f1 h2).prom ?_⟩
  simp only [val, cval, tl]
  refine o1.bind ?_
  rintro _ a ⟨ha, ha2, rfl⟩
  exact fit_rel (f1 h2).prom (prom_prom _) _

theorem tv_ne (p : Prop) [Decidable p] : (tv (decide p) = 0) = ¬ p := by
  by_cases h : p <;> simp [tv, h]

theorem k_val (D : Decl) (V : Env) (n : Int) : cval D V (k n) = .ok n [] := rfl
theorem k_ty (D : Decl) (n : Int) : xty D (k n) = .i32 := rfl
theorem i32_int : IntT .i32 := .inl rfl
theorem i64_int : IntT .i64 := .inr rfl

theorem expand_c1 {f : String} {a : CE} (ha : expand a = some x) : expand (c1 f a) = mac f (.cons x .nil) := by
  simp [c1, expand, expandArgs, ha]

theorem expand_c2 {f : String} {a b : CE} (ha : expand a = some x) (hb : expand b = some y) :
    expand (c2 f a b) = mac f (.cons x (.cons y .nil)) := by
  simp [c2, expand, expandArgs, ha, hb]

theorem expand_c3 {f : String} {a b c : CE} {z : X} (ha : expand a = some x) (hb : expand b = some y) (hc : expand c = some z) :
    expand (c3 f a b c) = mac f (.cons x (.cons y (.cons z .nil))) := by
  simp [c3, expand, expandArgs, ha, hb, hc]

theorem expand_int {a : CE} (ha : expand a = some x) : expand (.cast "int" 0 a) = some (.cast .i32 x) := by
  simp [expand, ha, xcast, tyName]

/-- A comparison with a number. -/
theorem cmp_k {q : XOp} (hq : q.isSh = false) {a : Int} (hi : IntT (xty D x)) (ha : (xty D x).has a) {n : Int} (hn : CTy.i32.has n)
    {p : Int → Int → Prop} [∀ a b, Decidable (p a b)] (hp : ∀ T a b, binV q T a b = .ok (tv (decide (p a b))) [])
    (hx : cval D V x = .ok a []) : cval D V (.bin q x (k n)) = .ok (tv (decide (p a n))) [] := by
  simp only [cval, hx, bind_ok, after_nil, k_val, k_ty]
  rw [binX_int hq hi i32_int ha hn, hp]

theorem good_abs (g : Good D o V e x) (h : wt D (.abs e) = true) (hc : Calm D o V (.abs e)) : ∃ z, Good D o V (.abs e) z := by
  simp only [wt, Bool.and_eq_true, Bool.not_eq_true'] at h
  obtain ⟨⟨-, h1⟩, h2⟩ := h
  obtain ⟨w, tl⟩ := isInt_ty h1
  obtain ⟨i1, f1, o1⟩ := g.int tl
  have f1 := f1 h2
  simp only [Calm] at hc
  obtain ⟨-, hc⟩ := hc
  cases hse : calls D o e with
  | false =>
    refine ⟨.cond (.bin .lt x (k 0)) (.neg x) x, mkInt ?_ tl rfl ?_ ?_⟩
    · have hs : sideEff (nd D o e) = false := hse
      simp only [nd, ct, hs, Bool.false_eq_true, if_false]
      rw [expand_c1 g.ex]; rfl
    · show FitW w (usual (prom (xty D x)) (xty D x))
      exact f1.prom.usual i1
    · show OutRel (IR (.int w) (usual (prom (xty D x)) (xty D x))) _ _
      have hU : FitW w (usual (prom (xty D x)) (xty D x)) := f1.prom.usual i1
      rcases Quiet.cases o1 (quiet_val D o V e hse) with h | ⟨c, h, h'⟩ | ⟨_, v, h, h', ha, ha2, rfl⟩
      · simp only [val, h, bind_undef]; trivial
      · simp only [val, h, bind_trap, cval, h']; rfl
      · have hcmp := cmp_k (V := V) (q := .lt) rfl i1 ha2 (n := 0) (by decide) (p := fun a b => a < b) (fun _ _ _ => rfl) h'
        simp only [val, h, bind_ok, after_nil, tl]
        rw [fit]
        by_cases hi : InTy (.int w) (if v < 0 then -v else v)
        · rw [if_pos hi]
          refine ⟨_, ?_, hi, hU.has (usual_prom _ _) hi, rfl⟩
          rw [cval, hcmp, bind_ok, after_nil]
          simp only [tv_ne, xty]
          split
          · next hn =>
            simp only [h', bind_ok, after_nil]
            rw [if_neg (by omega)] at hi
            rw [cnv_has (hU.has (usual_prom _ _) hi)]
          · next hn =>
            rw [if_pos (by omega)] at hi ⊢
            simp only [cval, h', bind_ok, after_nil]
            rw [cfit_ok (f1.prom.int.sg (prom_prom _)) (f1.prom.has (prom_prom _) hi), bind_ok, after_nil,
              cnv_has (hU.has (usual_prom _ _) hi)]
        · rw [if_neg hi]; trivial
  | true =>
    have hs : sideEff (nd D o e) = true := hse
    -- `__ABSF`
    obtain ⟨z, hz⟩ : ∃ z, z = X.cond (.bin .le (.szof x) (k 4)) (.fn1 .abs32 x) (.fn1 .abs64 x) := ⟨_, rfl⟩
    have hzx : expand (c1 "__ABSF" (ct (nd D o e))) = some z := by rw [expand_c1 g.ex, hz]; rfl
    have hzt : xty D z = .i64 := by subst hz; simp only [xty]; decide
    have key : OutRel (IR (.int w) .i64) (val D o V (.abs e)) (cval D V z) := by
      subst hz
      have hsz : cval D V (.bin .le (.szof x) (k 4)) = .ok (tv (decide ((xty D x).bits ≤ 32))) [] := by
        simp only [cval, xty, k, bind_ok, after_nil, binX, XOp.isSh, Bool.false_eq_true, if_false, binV]
        cases xty D x <;> decide
      rw [cval, hsz, bind_ok, after_nil]
      simp only [tv_ne, val]
      rw [show usual (xty D (.fn1 .abs32 x)) (xty D (.fn1 .abs64 x)) = .i64 by simp only [xty]; decide]
      have hb : ∀ v, InTy (.int w) v → fit (ty D e) (if v < 0 then -v else v) ≠ .undef →
          (xty D x).has v → InTy (.int w) (if v < 0 then -v else v) := by
        intro v _ h _
        unfold fit at h
        rw [tl] at h
        by_contra hh
        rw [if_neg hh] at h; exact h rfl
      split
      · next hb64 =>
        -- 64 bits
        simp only [cval, bind_assoc]
        refine o1.bind' ?_
        rintro _ t v hv ⟨ha, ha2, rfl⟩
        rw [tl, fit]
        by_cases hi : InTy (.int w) (if v < 0 then -v else v)
        · rw [if_pos hi]
          have h64 := i64_has i1 ha2
          have hi64 : CTy.i64.has (if v < 0 then -v else v) := by
            have : InTy (.int .w64) (if v < 0 then -v else v) := by
              generalize (if v < 0 then -v else v) = u at hi
              cases w <;> simp only [InTy, W.bits] at hi ⊢ <;> omega
            exact this
          have h32 : CTy.i32.has (if v < 0 then -v else v) := by
            cases w with
            | w64 =>
              have := hc hse tl v t hv
              simp only [CTy.has, CTy.sg, CTy.bits, if_true]
              split <;> omega
            | _ =>
              generalize (if v < 0 then -v else v) = u at hi
              simp only [InTy, W.bits, CTy.has, CTy.sg, CTy.bits, if_true] at hi ⊢
              omega
          refine ⟨_, ?_, hi, hi64, rfl⟩
          simp only [fn1V, cnv_has h64]
          rw [show (if v ≥ 0 then v else -v) = (if v < 0 then -v else v) by split <;> split <;> omega,
            cfit_ok rfl hi64, bind_ok, after_nil, bind_ok, after_nil, cnv_has h32, cnv_has hi64]
        · rw [if_neg hi]; trivial
      · next hb32 =>
        have hb32 : (xty D x).bits ≤ 32 := by simpa using hb32
        simp only [cval, bind_assoc]
        refine o1.bind' ?_
        rintro _ t v hv ⟨ha, ha2, rfl⟩
        rw [tl, fit]
        by_cases hi : InTy (.int w) (if v < 0 then -v else v)
        · rw [if_pos hi]
          have h1 : CTy.i32.has v ∧ w.bits ≤ 32 := by
            rcases f1 with ⟨hp, hw⟩ | hp
            · have := prom_has i1 ha2
              rw [hp] at this; exact ⟨this, hw⟩
            · exfalso
              revert hp hb32; generalize xty D x = T
              cases T <;> decide
          have hi32 : CTy.i32.has (if v < 0 then -v else v) := by
            have := h1.2
            generalize (if v < 0 then -v else v) = u at hi
            cases w <;> simp [InTy, W.bits, CTy.has, CTy.sg, CTy.bits] at hi this ⊢ <;> omega
          have hi64 : CTy.i64.has (if v < 0 then -v else v) := i64_has i32_int hi32
          refine ⟨_, ?_, hi, hi64, rfl⟩
          simp only [fn1V, cnv_has h1.1]
          rw [show (if v ≥ 0 then v else -v) = (if v < 0 then -v else v) by split <;> split <;> omega,
            cfit_ok rfl hi32, bind_ok, after_nil, cnv_has hi64]
        · rw [if_neg hi]; trivial
    cases hsm : small D e with
    | false =>
      refine ⟨z, mkInt ?_ tl rfl ?_ ?_⟩
      · simp only [nd, ct, hs, hsm, Bool.false_eq_true, if_false, if_true]; exact hzx
      · rw [hzt]; exact .inr rfl
      · rw [hzt]; exact key
    | true =>
      have hw : w.bits ≤ 32 := by simpa [small, tl, Ty.bits] using hsm
      refine ⟨.cast .i32 z, mkInt ?_ tl rfl (.inl ⟨rfl, hw⟩) ?_⟩
      · simp only [nd, ct, hs, hsm, if_true, if_false, Bool.false_eq_true]; exact expand_int hzx
      · show OutRel (IR (.int w) .i32) _ _
        rw [cval]
        have h2 : ∀ v c, IR (.int w) .i64 v c → OutRel (IR (.int w) .i32) (.ok v []) (.ok (cnv .i32 c) []) := by
          rintro _ v ⟨a, b, rfl⟩
          have : CTy.i32.has v := by
            cases w <;> simp [InTy, W.bits, CTy.has, CTy.sg, CTy.bits] at a hw ⊢ <;> omega
          exact .ok ⟨a, this, cnv_has this⟩
        have := key.bind h2
        have e1 : (val D o V (.abs e)).bind (fun v => Out.ok v []) = val D o V (.abs e) := by
          cases val D o V (.abs e) <;> simp [Out.bind, Out.after]
        rwa [e1] at this

end
end Verif.Eval
