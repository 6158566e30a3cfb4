import Verif.Eval.Sets2

/-!
Calls, and the induction over expressions.
-/
namespace Verif.Eval
open Verif.Expr

section
variable {D : Decl} {o : Opt} {V : Env}

/-- Arguments. -/
structure Goods (D : Decl) (o : Opt) (V : Env) (ts : List Ty) (as : Es) (xs : Xs) : Prop where
  ex : expandArgs (ctArgs (ndArgs D o as)) = some xs
  out : OutRel (fun vs cs => cs = vs) (vals D o V as) (cvals D V ts xs)

theorem pass_val {e : E} {x : X} {t : Ty} (g : Good D o V e x) (hw : wt D e = true) (hp : passes (ty D e) t = true) :
    OutRel (fun v c => cnv (cty t) c = v) (val D o V e) (cval D V x) := by
  cases te : ty D e with
  | int a =>
    obtain ⟨-, -, o1⟩ := g.int te
    refine o1.mono ?_
    rintro v _ ⟨hv, hv2, rfl⟩
    rw [te] at hp
    cases t with
    | int b =>
      apply cnv_has
      apply cty_has
      simp only [passes, decide_eq_true_eq] at hp
      cases a <;> cases b <;> simp only [W.bits, InTy] at hp hv ⊢ <;> omega
    | _ => simp [passes] at hp
  | chr =>
    obtain ⟨-, o1⟩ := g.small te (.inl rfl)
    refine o1.mono ?_
    rintro v _ ⟨hv, hv2, rfl⟩
    rw [te] at hp
    have ht : t = .chr := by cases t <;> simp [passes] at hp ⊢
    subst ht
    exact cnv_has (cty_has hv)
  | bool =>
    obtain ⟨-, o1⟩ := g.small te (.inr rfl)
    refine o1.mono ?_
    rintro v _ ⟨hv, hv2, rfl⟩
    rw [te] at hp
    have ht : t = .bool := by cases t <;> simp [passes] at hp ⊢
    subst ht
    exact cnv_has (cty_has hv)
  | ptr =>
    obtain ⟨-, o1⟩ := g.ptr te
    refine o1.mono ?_
    rintro v _ ⟨hv, hv2, rfl⟩
    rw [te] at hp
    have ht : t = .ptr := by cases t <;> simp [passes] at hp ⊢
    subst ht
    exact cnv_has (cty_has hv)
  | other => rw [te] at hp; cases t <;> simp [passes] at hp
  | set a =>
    obtain ⟨-, hs, -, o1⟩ := g.set hw te
    refine o1.mono ?_
    rintro v c ⟨h, hc⟩
    rw [te] at hp
    cases t with
    | set b =>
      have h1 := h.1.1
      rw [cnv_cs]
      by_cases hab : a = b
      · subst hab
        rw [h.2.2]; exact Int.toNat_of_nonneg h1
      · have ha : a = false ∧ b = true := by
          cases a <;> cases b <;> simp [passes, sbits] at hp hab ⊢
        obtain ⟨rfl, rfl⟩ := ha
        have := narrow hs h hc
        subst this
        have h2 := (set32_i64 h.1).2
        rw [bits_of h2.1 h2.2]; exact Int.toNat_of_nonneg h1
    | _ => simp [passes] at hp

theorem goods_nil {ts : List Ty} : Goods D o V ts .nil .nil :=
  ⟨rfl, by simp only [vals, cvals]; exact .ok rfl⟩

theorem goods_cons {e : E} {as : Es} {x : X} {xs : Xs} {t : Ty} {ts : List Ty} (g : Good D o V e x) (hw : wt D e = true)
    (hp : passes (ty D e) t = true) (gs : Goods D o V ts as xs) : Goods D o V (t :: ts) (.cons e as) (.cons x xs) := by
  refine ⟨?_, ?_⟩
  · simp [ndArgs, ctArgs, cpre, clens, expandArgs, g.ex, gs.ex]
  · simp only [vals, cvals, List.tail_cons, List.headD_cons]
    refine (pass_val g hw hp).bind ?_
    rintro v c hc
    refine gs.out.bind ?_
    rintro vs cs rfl
    rw [hc]
    exact .ok rfl

theorem good_call (hV : EnvOk D V) {f : String} {as : Es} {xs : Xs} (gs : Goods D o V (D.par f) as xs)
    (h : wt D (.call f as) = true) : ∃ z, Good D o V (.call f as) z := by
  have hf : f ∉ macros := by simp [wt] at h; exact h.2
  refine ⟨.call f xs, ?_, ?_, ?_, fun h => by simp [isDesE] at h, fun h => by simp [isVarE] at h⟩
  · simp [nd, ct, expand, gs.ex, mac, hf]
  · unfold Fits
    simp only [ty, xty]
    cases D.res f with
    | int w => exact ⟨fit_w.int, fun _ => fit_w⟩
    | chr => rfl
    | bool => exact .inl rfl
    | set s => exact .inl rfl
    | ptr => rfl
    | other => trivial
  · simp only [val, cval, xty]
    refine gs.out.bind ?_
    rintro vs cs rfl
    have h1 := hV.2 f cs
    refine ⟨_, rfl, h1, cty_has h1, ?_⟩
    simp only [ty]
    cases hh : D.res f with
    | set s =>
      rw [hh] at h1
      exact ⟨bits_of h1.1 h1.2, fun h => by simp [isSet] at h⟩
    | _ => trivial

variable (D o V) in
mutual
/-- Every expression has the outcome of what is generated for it. -/
theorem good (hV : EnvOk D V) : ∀ e, wt D e = true → Calm D o V e → ∃ x, Good D o V e x
  | .int _ _, h, _ => good_int h
  | .chr _, h, _ => good_chr h
  | .bool _, _, _ => good_bool
  | .set _ _, h, _ => good_set h
  | .var _, _, _ => good_var hV
  | .varpar _, _, _ => good_varpar hV
  | .field d f, h, hc => by
    have h1 := h
    simp only [wt, Bool.and_eq_true] at h1
    obtain ⟨x, g⟩ := good hV d h1.1 (by simpa only [Calm] using hc)
    exact good_field hV g h
  | .deref d, h, hc => by
    have h1 := h
    simp only [wt, Bool.and_eq_true] at h1
    obtain ⟨x, g⟩ := good hV d h1.1.1 (by simpa only [Calm] using hc)
    exact good_deref hV g h
  | .index d i n, h, hc => by
    have h1 := h
    have h2 := hc
    simp only [wt, Bool.and_eq_true] at h1
    simp only [Calm] at h2
    obtain ⟨x, g⟩ := good hV d h1.1.1.1.1 h2.1
    obtain ⟨y, g2⟩ := good hV i h1.1.1.2 h2.2.1
    exact good_index hV g g2 h hc
  | .hidx d i, h, hc => by
    have h1 := h
    have h2 := hc
    simp only [wt, Bool.and_eq_true] at h1
    simp only [Calm] at h2
    obtain ⟨x, g⟩ := good hV d h1.1.1.1.1.1 h2.1
    obtain ⟨y, g2⟩ := good hV i h1.1.1.2 h2.2.1
    exact good_hidx hV g g2 h hc
  | .guard d _ _ _, h, hc => by
    have h1 := h
    have h2 := hc
    simp only [wt, Bool.and_eq_true] at h1
    simp only [Calm] at h2
    obtain ⟨x, g⟩ := good hV d h1.1.1.1 h2.1
    exact good_guard g h hc
  | .lenv _ _, h, _ => good_lenv hV h
  | .lenh _ d, h, hc => by
    have h1 := h
    simp only [wt, Bool.and_eq_true] at h1
    obtain ⟨x, g⟩ := good hV d h1.1.1.1 (by simpa only [Calm] using hc)
    exact good_lenh hV g h
  | .neg e, h, hc => by
    have h1 := h
    simp only [wt, Bool.and_eq_true] at h1
    obtain ⟨x, g⟩ := good hV e h1.1.1 (by simpa only [Calm] using hc)
    exact good_neg g h
  | .compl e, h, hc => by
    have h1 := h
    simp only [wt, Bool.and_eq_true] at h1
    obtain ⟨x, g⟩ := good hV e h1.1.1 (by simpa only [Calm] using hc)
    exact good_compl g h
  | .not e, h, hc => by
    have h1 := h
    simp only [wt, Bool.and_eq_true] at h1
    obtain ⟨x, g⟩ := good hV e h1.1 (by simpa only [Calm] using hc)
    exact good_not g h
  | .abs e, h, hc => by
    have h1 := h
    have h2 := hc
    simp only [wt, Bool.and_eq_true] at h1
    simp only [Calm] at h2
    obtain ⟨x, g⟩ := good hV e h1.1.1 h2.1
    exact good_abs g h hc
  | .odd e, h, hc => by
    have h1 := h
    simp only [wt, Bool.and_eq_true] at h1
    obtain ⟨x, g⟩ := good hV e h1.1 (by simpa only [Calm] using hc)
    exact good_odd g h
  | .cap e, h, hc => by
    have h1 := h
    simp only [wt, Bool.and_eq_true] at h1
    obtain ⟨x, g⟩ := good hV e h1.1 (by simpa only [Calm] using hc)
    exact good_cap g h
  | .conv _ e, h, hc => by
    have h1 := h
    have h2 := hc
    simp only [wt, Bool.and_eq_true] at h1
    simp only [Calm] at h2
    obtain ⟨x, g⟩ := good hV e h1.1.1 h2.1
    exact good_conv g h hc
  | .toset _ e, h, hc => by
    have h1 := h
    simp only [wt, Bool.and_eq_true] at h1
    obtain ⟨x, g⟩ := good hV e h1.1 (by simpa only [Calm] using hc)
    exact good_toset g h
  | .widen e, h, hc => by
    have h1 := h
    simp only [wt, Bool.and_eq_true] at h1
    obtain ⟨x, g⟩ := good hV e h1.1 (by simpa only [Calm] using hc)
    exact good_widen g h
  | .tochr e, h, hc => by
    have h1 := h
    have h2 := hc
    simp only [wt, Bool.and_eq_true] at h1
    simp only [Calm] at h2
    obtain ⟨x, g⟩ := good hV e h1.1 h2.1
    exact good_tochr g h hc
  | .upto _ l r, h, hc => by
    have h1 := h
    simp only [wt, Bool.and_eq_true] at h1
    simp only [Calm] at hc
    obtain ⟨x, g⟩ := good hV l h1.1.1.1 hc.1
    obtain ⟨y, g2⟩ := good hV r h1.1.1.2 hc.2
    exact good_upto g g2 h
  | .arith _ l r, h, hc => by
    have h1 := h
    simp only [wt, Bool.and_eq_true] at h1
    simp only [Calm] at hc
    obtain ⟨x, g⟩ := good hV l h1.1.1.1.1 hc.1
    obtain ⟨y, g2⟩ := good hV r h1.1.1.1.2 hc.2
    exact good_arith g g2 h
  | .div l r, h, hc => by
    have h1 := h
    have h2 := hc
    simp only [wt, Bool.and_eq_true] at h1
    simp only [Calm] at h2
    obtain ⟨x, g⟩ := good hV l h1.1.1.1.1 h2.1
    obtain ⟨y, g2⟩ := good hV r h1.1.1.1.2 h2.2.1
    exact good_div g g2 h hc
  | .mod l r, h, hc => by
    have h1 := h
    have h2 := hc
    simp only [wt, Bool.and_eq_true] at h1
    simp only [Calm] at h2
    obtain ⟨x, g⟩ := good hV l h1.1.1.1.1 h2.1
    obtain ⟨y, g2⟩ := good hV r h1.1.1.1.2 h2.2.1
    exact good_mod g g2 h hc
  | .msk l _, h, hc => by
    have h1 := h
    simp only [wt, Bool.and_eq_true] at h1
    obtain ⟨x, g⟩ := good hV l h1.1.1.1 (by simpa only [Calm] using hc)
    exact good_msk g h
  | .ash l r, h, hc => by
    have h1 := h
    have h2 := hc
    simp only [wt, Bool.and_eq_true] at h1
    simp only [Calm] at h2
    obtain ⟨x, g⟩ := good hV l h1.1.1.1 h2.1
    obtain ⟨y, g2⟩ := good hV r h1.1.1.2 h2.2.1
    exact good_ash g g2 h hc
  | .lsh l r, h, hc => by
    have h1 := h
    have h2 := hc
    simp only [wt, Bool.and_eq_true] at h1
    simp only [Calm] at h2
    obtain ⟨x, g⟩ := good hV l h1.1.1.1 h2.1
    obtain ⟨y, g2⟩ := good hV r h1.1.1.2 h2.2.1
    exact good_lsh g g2 h hc
  | .rot l r, h, hc => by
    have h1 := h
    have h2 := hc
    simp only [wt, Bool.and_eq_true] at h1
    simp only [Calm] at h2
    obtain ⟨x, g⟩ := good hV l h1.1.1.1 h2.1
    obtain ⟨y, g2⟩ := good hV r h1.1.1.2 h2.2.1
    exact good_rot g g2 h hc
  | .isin l r, h, hc => by
    have h1 := h
    have h2 := hc
    simp only [wt, Bool.and_eq_true] at h1
    simp only [Calm] at h2
    obtain ⟨x, g⟩ := good hV l h1.1.1.1 h2.1
    obtain ⟨y, g2⟩ := good hV r h1.1.1.2 h2.2.1
    exact good_isin g g2 h hc
  | .setop _ l r, h, hc => by
    have h1 := h
    have h2 := hc
    simp only [wt, Bool.and_eq_true] at h1
    simp only [Calm] at h2
    obtain ⟨x, g⟩ := good hV l h1.1.1.1.1 h2.1
    obtain ⟨y, g2⟩ := good hV r h1.1.1.1.2 h2.2.1
    exact good_setop g g2 h hc
  | .rel _ l r, h, hc => by
    have h1 := h
    simp only [wt, Bool.and_eq_true] at h1
    simp only [Calm] at hc
    obtain ⟨x, g⟩ := good hV l h1.1.1.1.1 hc.1
    obtain ⟨y, g2⟩ := good hV r h1.1.1.1.2 hc.2
    exact good_rel g g2 h
  | .and l r, h, hc => by
    have h1 := h
    simp only [wt, Bool.and_eq_true] at h1
    simp only [Calm] at hc
    obtain ⟨x, g⟩ := good hV l h1.1.1.1 hc.1
    obtain ⟨y, g2⟩ := good hV r h1.1.1.2 hc.2
    exact good_and g g2 h
  | .or l r, h, hc => by
    have h1 := h
    simp only [wt, Bool.and_eq_true] at h1
    simp only [Calm] at hc
    obtain ⟨x, g⟩ := good hV l h1.1.1.1 hc.1
    obtain ⟨y, g2⟩ := good hV r h1.1.1.2 hc.2
    exact good_or g g2 h
  | .call f as, h, hc => by
    have h1 := h
    simp only [wt, Bool.and_eq_true] at h1
    obtain ⟨xs, gs⟩ := goods hV (D.par f) as h1.1 (by simpa only [Calm] using hc)
    exact good_call hV gs h
theorem goods (hV : EnvOk D V) : ∀ ts as, wts D ts as = true → Calms D o V as → ∃ xs, Goods D o V ts as xs
  | _, .nil, _, _ => ⟨_, goods_nil⟩
  | [], .cons _ _, h, _ => by simp [wts] at h
  | t :: ts, .cons e as, h, hc => by
    simp only [wts, Bool.and_eq_true] at h
    simp only [Calms] at hc
    obtain ⟨x, g⟩ := good hV e h.1.1 hc.1
    obtain ⟨xs, gs⟩ := goods hV ts as h.2 hc.2
    exact ⟨_, goods_cons g h.1.1 h.1.2 gs⟩
end

/-! ### The tree is one the front end can produce -/

theorem des_isDes {e : E} (h : isDesE e = true) : isDes (nd D o e) = true ∧ isOpen (nd D o e) = false ∧
    atomic (nd D o e) = true := by
  cases e with
  | index d i n => cases n <;> simp [nd, isDes, isOpen, atomic]
  | _ => first | (simp [nd, isDes, isOpen, atomic]; done) | simp [isDesE] at h

theorem const_nd (e : E) : isConst (nd D o e) = isConst' e := by
  cases e with
  | index d i n => cases n <;> rfl
  | _ => rfl

theorem set_like {e : E} {s : Bool} (h : wt D e = true) (ht : ty D e = .set s) : setLike (nd D o e) = true := by
  cases e with
  | index d i n => cases n <;> rfl
  | arith q l r =>
    simp only [wt, Bool.and_eq_true] at h
    simp only [ty] at ht
    rw [ht] at h
    simp [isIntTy] at h
  | setop q l r => cases q <;> rfl
  | _ => first | rfl | simp [ty] at ht

variable (D o) in
mutual
theorem wf_nd : ∀ e, wt D e = true → wf (nd D o e) = true
  | .int .., _ | .chr _, _ | .bool _, _ | .set .., _ | .var _, _ | .varpar _, _ | .lenv .., _ => rfl
  | .field d f, h => by
    simp only [wt, Bool.and_eq_true] at h
    have := des_isDes (D := D) (o := o) (isVarE_des h.2)
    simp [nd, wf, wf_nd d h.1, this]
  | .deref d, h => by
    simp only [wt, Bool.and_eq_true] at h
    have := des_isDes (D := D) (o := o) h.1.2
    simp [nd, wf, wf_nd d h.1.1, this]
  | .index d i n, h => by
    simp only [wt, Bool.and_eq_true] at h
    have h1 := des_isDes (D := D) (o := o) (isVarE_des h.1.1.1.2)
    have h2 := wf_nd d h.1.1.1.1
    have h3 := wf_nd i h.1.1.2
    cases n <;> simp [nd, wf, wfIxs, lenOk, h1, h2, h3]
  | .hidx d i, h => by
    simp only [wt, Bool.and_eq_true] at h
    have h1 := des_isDes (D := D) (o := o) h.1.1.1.1.2
    have h2 := wf_nd d h.1.1.1.1.1
    have h3 := wf_nd i h.1.1.2
    have h4 : isDes (Nd.deref true (nd D o d)) = true := rfl
    have h5 : isOpen (Nd.deref true (nd D o d)) = false := rfl
    simp [nd, wf, wfIxs, lenOk, onHeap, h1, h2, h3, h4, h5]
  | .guard d _ _ _, h => by
    simp only [wt, Bool.and_eq_true] at h
    have h1 := des_isDes (D := D) (o := o) h.1.1.2
    simp [nd, wf, wf_nd d h.1.1.1, h1]
  | .lenh _ d, h => by
    simp only [wt, Bool.and_eq_true] at h
    have h1 := des_isDes (D := D) (o := o) h.1.1.2
    simp [nd, wf, lenOk, onHeap, wf_nd d h.1.1.1, h1]
  | .neg e, h => by
    simp only [wt, Bool.and_eq_true] at h
    simp [nd, wf, wf_nd e h.1.1, const_nd]
    simpa using h.2
  | .compl e, h => by
    simp only [wt, Bool.and_eq_true] at h
    simp [nd, wf, wf_nd e h.1.1, const_nd]
    simpa using h.2
  | .not e, h | .odd e, h | .cap e, h | .toset _ e, h | .widen e, h | .tochr e, h => by
    simp only [wt, Bool.and_eq_true] at h
    simp [nd, wf, wf_nd e h.1]
  | .abs e, h | .conv _ e, h => by
    simp only [wt, Bool.and_eq_true] at h
    simp [nd, wf, wf_nd e h.1.1]
  | .upto _ l r, h | .ash l r, h | .lsh l r, h | .rot l r, h | .isin l r, h => by
    simp only [wt, Bool.and_eq_true] at h
    simp [nd, wf, wf_nd l h.1.1.1, wf_nd r h.1.1.2]
  | .and l r, h | .or l r, h => by
    simp only [wt, Bool.and_eq_true] at h
    simp [nd, wf, wf_nd l h.1.1.1, wf_nd r h.1.1.2]
  | .arith q l r, h => by
    simp only [wt, Bool.and_eq_true] at h
    cases q <;> simp [nd, wf, wf_nd l h.1.1.1.1, wf_nd r h.1.1.1.2]
  | .div l r, h | .mod l r, h => by
    simp only [wt, Bool.and_eq_true] at h
    simp [nd, wf, wf_nd l h.1.1.1.1, wf_nd r h.1.1.1.2]
  | .msk l _, h => by
    simp only [wt, Bool.and_eq_true] at h
    simp [nd, wf, wf_nd l h.1.1.1]
  | .setop q l r, h => by
    simp only [wt, Bool.and_eq_true] at h
    have ht : ∃ s, ty D r = .set s := by
      have h1 := h.1.1.2
      have h2 := h.1.2
      simp only [Bool.or_eq_true, beq_iff_eq] at h1 h2
      rw [← h2]; exact set_ty h1
    obtain ⟨s, ht⟩ := ht
    cases q <;> simp [nd, wf, wf_nd l h.1.1.1.1, wf_nd r h.1.1.1.2, set_like h.1.1.1.2 ht]
  | .rel _ l r, h => by
    simp only [wt, Bool.and_eq_true] at h
    simp [nd, wf, wf_nd l h.1.1.1.1, wf_nd r h.1.1.1.2]
  | .call f as, h => by
    simp only [wt, Bool.and_eq_true] at h
    simp [nd, wf, wf_nds (D.par f) as h.1]
theorem wf_nds : ∀ ts as, wts D ts as = true → wfArgs (ndArgs D o as) = true
  | _, .nil, _ => rfl
  | [], .cons _ _, h => by simp [wts] at h
  | t :: ts, .cons e as, h => by
    simp only [wts, Bool.and_eq_true] at h
    simp [ndArgs, wfArgs, wf_nd e h.1.1, wf_nds ts as h.2]
end

end
end Verif.Eval
